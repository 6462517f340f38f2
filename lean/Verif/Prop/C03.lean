import Verif.Proof.KDBuild
import Verif.Prop.C02
import Verif.Prop.C05

/-!
# C03 – the tree build assigns every particle to exactly one leaf; C02 – particle counts
-/

set_option autoImplicit false

namespace Gandalf
open KD LeafList

/-- Everything a user of the finished tree relies on.  `list c` below is the particle list found by
following the cell's links from `ifirst` to `ilast`. -/
structure BuildOK {κ α : Type*} [LE α] (t : KD.Links) (ltot Nleafmax : ℕ) (coord : κ → ℕ → α)
    (kdiv : ℕ → κ) (first n : ℕ) (s : Build) : Prop where
  /-- concatenating the particle lists of all leaves gives every particle exactly once -/
  perm : ∃ ls : List (List ℕ),
    List.Forall₂ (fun c l => traverse s.inext (s.ilast c) (s.N c) (s.ifirst c) = some l)
      (fullTree ltot 0 .nil).leaves ls ∧ ls.flatten.Perm (List.range' first n)
  /-- a leaf holds at most `Nleafmax` particles and `N` is the length of its list -/
  leaf : ∀ c ∈ (fullTree ltot 0 .nil).leaves, s.N c ≤ Nleafmax ∧
    ∃ l, traverse s.inext (s.ilast c) (s.N c) (s.ifirst c) = some l ∧ l.length = s.N c
  /-- an internal cell is not empty, its list is the concatenation of the lists of its two children,
  the children split its count in halves and the split dimension in lower and upper coordinates -/
  internal : ∀ c, c < ncellOf ltot → t.level c ≠ ltot →
    ∃ c1 c2 l1 l2, t.c1 c = some c1 ∧ t.c2 c = some c2 ∧
      traverse s.inext (s.ilast c) (s.N c) (s.ifirst c) = some (l1 ++ l2) ∧
      traverse s.inext (s.ilast c1) (s.N c1) (s.ifirst c1) = some l1 ∧
      traverse s.inext (s.ilast c2) (s.N c2) (s.ifirst c2) = some l2 ∧
      s.N c = s.N c1 + s.N c2 ∧ s.N c1 = s.N c / 2 ∧ 1 ≤ s.N c ∧
      (∀ x ∈ l1, ∀ y ∈ l2, coord (kdiv c) x ≤ coord (kdiv c) y)
  /-- the root list contains everything -/
  root : ∃ l, traverse s.inext (s.ilast 0) (s.N 0) (s.ifirst 0) = some l ∧
    l.Perm (List.range' first n) ∧ s.N 0 = n

/-- **C03.** For every number `n ≥ 1` of live particles, every leaf capacity, every coordinate
assignment, every choice of split dimensions and every previous content of the work arrays, the full
build (sizing, link table, recursive division) succeeds without touching ids or links outside the
particle range, and its result is correct in the sense of `BuildOK`. -/
theorem C03_build_partitions_particles {κ : Type*} {α : Type} [LinearOrder α] (coord : κ → ℕ → α)
    (kdiv : ℕ → κ) (dead : ℕ → Bool) (first n Nleafmax gmax : ℕ) (hM : 1 ≤ Nleafmax) (hn : 1 ≤ n)
    (hlive : ∀ i, first ≤ i → i < first + n → dead i = false)
    (cells : KD.Links) (ids : ℕ → ℕ) (inext : ℕ → Option ℕ) (ltot : ℕ)
    (hl : computeLtot Nleafmax n (n + 1) = some ltot) (hg : gtotOf ltot ≤ gmax) :
    ∃ t s, createTreeStructure ltot gmax cells = some t ∧
      buildTree t ltot coord kdiv dead first n ids inext = some s ∧
      BuildOK t ltot Nleafmax coord kdiv first n s ∧
      (∀ i, i < first ∨ first + n ≤ i → s.ids i = ids i ∧ s.inext i = inext i) := by
  obtain ⟨L, h1, h2, h3⟩ := C02_depth_minimal Nleafmax n hM
  rw [h1 (n+1) le_rfl] at hl
  obtain rfl := Option.some.inj hl
  obtain ⟨t, ht, hlo, _, _⟩ := C05_structure_is_preorder L gmax hg cells
  have hmin : 0 < L → 2 ^ (L-1) ≤ n := by
    intro hL
    have := h3 (L-1) (by omega)
    have h4 : 1 * 2 ^ (L-1) ≤ Nleafmax * 2 ^ (L-1) := Nat.mul_le_mul_right _ hM
    omega
  obtain ⟨s, l, e, ho, hp, _, hout⟩ := buildTree_spec t L coord kdiv dead first n ids inext hlo
    (by omega) hmin hlive
  have hnd : l.Nodup := hp.nodup_iff.mpr List.nodup_range'
  have hlen : l.length = n := by rw [hp.length_eq]; simp
  obtain ⟨g1, g2⟩ := Owns.leaves (M := Nleafmax) L 0 0 l hlo ho hnd (by rw [hlen]; exact h2)
  refine ⟨t, s, ht, e, ⟨?_, ?_, ?_, ?_⟩, hout⟩
  · refine ⟨(fullTree L 0 .nil).leaves.map (fun i => (cellList s i).getD []), ?_, ?_⟩
    · rw [List.forall₂_map_right_iff]
      rw [List.forall₂_same]
      intro c hc
      obtain ⟨_, li, hli, _⟩ := g2 c hc
      show cellList s c = _
      rw [hli]; rfl
    · rw [← List.flatMap_def, g1]; exact hp
  · intro c hc
    obtain ⟨hNc, li, hli, hN⟩ := g2 c hc
    exact ⟨hNc, li, hli, hN.symm⟩
  · intro c hc hlev
    rw [ncellOf_eq] at hc
    exact Owns.internal L 0 0 l hlo ho hnd c (by omega) (by omega) hlev
  · exact ⟨l, ho.cellList_eq hnd, hp, by rw [ho.basic.1, hlen]⟩

/-- Instance: seven particles (ids 3..9), at most two per leaf, splitting alternately along two
coordinates: the four leaf lists are [5], [8,7], [4,9], [6,3]. -/
example : (do
    let ltot ← computeLtot 2 7 8
    let t ← createTreeStructure ltot 4 ⟨fun _ => 77, fun _ => some 9, fun _ => none, fun _ => some 3,
      fun _ => some 3, fun _ => 5, fun _ => 8, 6⟩
    let b ← buildTree t ltot (fun k i : ℕ => (i * 7 + k * i * i) % 11) (fun c => c % 2)
      (fun i => i == 100) 3 7 (fun _ => 0) (fun _ => none)
    some ((List.range 7).map b.N,
      [2, 3, 5, 6].map fun c => traverse b.inext (b.ilast c) (b.N c) (b.ifirst c))) =
    some ([7, 3, 1, 2, 4, 2, 2], [some [5], some [8, 7], some [4, 9], some [6, 3]]) := by
  decide +kernel

end Gandalf
