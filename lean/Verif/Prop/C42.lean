import Verif.Proof.MpiDomains
import Verif.Prop.C06
import Verif.Prop.C41
import Mathlib.Algebra.Order.Archimedean.Basic
import Mathlib.Analysis.Real.Sqrt

/-!
# C42: the MPI domains partition space
(src/Mpi/MpiTree.cpp, src/Mpi/MpiKDTreeDecomposition.cpp, src/Tree/HydroTree.cpp:1462-1618)

`t` are the links made by `CreateTreeStructure` for `2^L` leaves; process `p` gets leaf `g2c p`.
-/

set_option autoImplicit false

namespace Gandalf

open Mpi KD

section
variable {n : ℕ} {α : Type*} [Field α] [LinearOrder α] [IsStrictOrderedRing α]

/-- `UpdateBoundingBoxes` ends, leaves the divisions and the root box alone, and if each division lies
in the box of its cell then the leaf boxes cut up the root box. -/
theorem C42_update (L gmax : ℕ) (hg : 2 ^ L ≤ gmax) (s : KD.Links) (D : Division n α) :
    ∃ t D', createTreeStructure L gmax s = some t ∧ updateBoundingBoxes t L D = some D' ∧
      D'.k = D.k ∧ D'.r = D.r ∧ D'.box 0 = D.box 0 ∧
      ((∀ c < ncellOf L, t.level c < L →
          (D'.box c).min (D.k c) ≤ D.r c ∧ D.r c ≤ (D'.box c).max (D.k c)) →
        CutsUp (D.box 0) (2 ^ L) (domainOf t D')) := by
  obtain ⟨t, h1, h2, -⟩ := C05_structure_is_preorder L gmax hg s
  obtain ⟨D', e1, e2, e3, e4, e5⟩ := updateBoundingBoxes_spec h2 D
  refine ⟨t, D', h1, e1, e2, e3, e5, ?_⟩
  intro hw
  rw [← e5]
  refine cuts_up h2 e4 (Nodes.map L 0 ?_ (LaidOut.nodes L 0 0 h2))
  intro c e _ h4 h5 hl
  have := hw c (by
    rw [ncellOf_eq]
    have := Mpi.fullSize_pos (e + 1)
    omega) (by omega)
  unfold WithinAt
  rw [e2, e3]
  exact this

/-- Wherever the divisions are, nothing of the root box is left out, and `FindCell` leads every point
of the root box to a leaf whose box holds it. -/
theorem C42_find_cell (L gmax : ℕ) (hg : 2 ^ L ≤ gmax) (s : KD.Links) (D : Division n α) :
    ∃ t D', createTreeStructure L gmax s = some t ∧ updateBoundingBoxes t L D = some D' ∧
      ∀ x, (D.box 0).Holds x → ∃ j < 2 ^ L, findCell t L D' x (L + 1) 0 = some (t.g2c j) ∧
        (domainOf t D' j).Holds x := by
  obtain ⟨t, h1, h2, -⟩ := C05_structure_is_preorder L gmax hg s
  obtain ⟨D', e1, e2, e3, e4, e5⟩ := updateBoundingBoxes_spec h2 D
  refine ⟨t, D', h1, e1, ?_⟩
  intro x hx
  obtain ⟨j, -, h4, h5, h6⟩ := findCell_spec (x := x) L 0 0 h2 e4
  exact ⟨j, by omega, h5, h6 (by rw [e5]; exact hx)⟩

/-- After `LoadBalancing` the domains cut up the bounding box of the particles and none is empty,
whatever the work fractions and the old divisions. -/
theorem C42_load_balancing (L gmax : ℕ) (hg : 2 ^ L ≤ gmax) (s : KD.Links) (t : KD.Links)
    (ht : createTreeStructure L gmax s = some t) (frac : ℕ → α → α) (tol : α) (fuel : ℕ)
    (partbox : Box n α) (hv : ∀ k, partbox.min k < partbox.max k) (D D' : Division n α)
    (h : loadBalance t L (findDivision frac tol fuel) partbox D = some D') :
    CutsUp partbox (2 ^ L) (domainOf t D') ∧
      ∀ j < 2 ^ L, ∀ k, (domainOf t D' j).min k < (domainOf t D' j).max k := by
  obtain ⟨t', h1, h2, -⟩ := C05_structure_is_preorder L gmax hg s
  obtain rfl : t = t' := by rw [ht] at h1; exact Option.some.inj h1
  obtain ⟨e1, e2, e3⟩ := loadBalance_spec h2 (findDivision_stays frac tol fuel) partbox hv D D' h
  refine ⟨?_, ?_⟩
  · rw [← e1]
    exact cuts_up h2 e2 (Nodes.map L 0 (fun c e _ _ _ hw => ⟨hw.1.le, hw.2.le⟩) e3)
  · intro j hj
    exact leaves_valid L 0 0 h2 e2 e3 (by rw [e1]; exact hv) j (Nat.zero_le _) (by omega)

/-- The search for the division of a cell ends if the fraction of the work on the left does not jump:
it rises at most with slope `K`, from below one half to above one half. -/
theorem C42_bisection_ends [Archimedean α] (frac : ℕ → α → α) (tol K : α) (ht : 0 < tol) (hK : 0 ≤ K)
    (c : ℕ) (hL : ∀ x y, x ≤ y → frac c y - frac c x ≤ K * (y - x)) (k : Fin n) (r : α) (b : Box n α)
    (h1 : b.min k < r) (h2 : r < b.max k) (h3 : frac c (b.min k) < 1 / 2 - tol)
    (h4 : 1 / 2 + tol < frac c (b.max k)) :
    ∃ fuel r', findDivision frac tol fuel c k r b = some r' ∧ b.min k < r' ∧ r' < b.max k := by
  obtain ⟨m, hm⟩ := pow_unbounded_of_one_lt (K * (b.max k - b.min k) / (2 * tol)) (one_lt_two (α := α))
  rw [div_lt_iff₀ (by linarith)] at hm
  have hb : ∃ r', bisect (frac c) tol (m + 1 + 1) (b.min k) (b.max k) r = some r' := by
    rw [bisect]
    by_cases a : frac c r < 1 / 2 - tol
    · rw [if_pos a]
      by_cases e : |frac c r - 1 / 2| > tol
      · rw [if_pos e]
        refine bisect_some (frac c) tol K hL m _ _ _ (by linarith) (by linarith) a h4 ⟨rfl, ?_⟩
        have : K * (b.max k - r) ≤ K * (b.max k - b.min k) :=
          mul_le_mul_of_nonneg_left (by linarith) hK
        linarith
      · exact ⟨_, if_neg e⟩
    · rw [if_neg a]
      by_cases d : frac c r > 1 / 2 + tol
      · rw [if_pos d]
        by_cases e : |frac c r - 1 / 2| > tol
        · rw [if_pos e]
          refine bisect_some (frac c) tol K hL m _ _ _ (by linarith) (by linarith) h3 d ⟨rfl, ?_⟩
          have : K * (r - b.min k) ≤ K * (b.max k - b.min k) :=
            mul_le_mul_of_nonneg_left (by linarith) hK
          linarith
        · exact ⟨_, if_neg e⟩
      · exact ⟨_, if_neg d⟩
  obtain ⟨r', hr⟩ := hb
  exact ⟨m + 1 + 1, r', hr, findDivision_stays frac tol (m + 1 + 1) c k r b r' h1 h2 hr⟩

/-- One dimension, work spread evenly over `[0, 1]`: the search in `[0, 3/4]` from `1/4` ends at one
half, and the hypotheses of the theorem hold for the box `[0, 1]`. -/
example : findDivision (n := 1) (fun _ x => x) (1 / 1000 : ℚ) 2 0 0 (1 / 4)
    ⟨fun _ => 0, fun _ => 3 / 4⟩ = some (1 / 2) := by
  norm_num [findDivision, bisect, abs_of_neg]

example : ∃ fuel r', findDivision (n := 1) (fun _ x => x) (1 / 1000 : ℚ) fuel 0 0 (1 / 4)
    ⟨fun _ => 0, fun _ => 1⟩ = some r' ∧ 0 < r' ∧ r' < 1 :=
  C42_bisection_ends (fun _ x => x) (1 / 1000) 1 (by norm_num) (by norm_num) 0
    (fun x y _ => by simp) 0 (1 / 4) ⟨fun _ => 0, fun _ => 1⟩ (by norm_num) (by norm_num) (by norm_num)
    (by norm_num)

/-- Two levels in one dimension, divided at `2`, `1` and `3`: the third of four domains is `[2, 3)`. -/
example : ∃ t D', createTreeStructure 2 4 ⟨fun _ => 0, fun _ => none, fun _ => none, fun _ => none,
      fun _ => none, fun _ => 0, fun _ => 0, 0⟩ = some t ∧
    updateBoundingBoxes t 2 (⟨fun _ => ⟨fun _ => 0, fun _ => 4⟩, fun _ => 0,
      fun c => if c = 0 then 2 else if c = 1 then 1 else 3⟩ : Division 1 ℚ) = some D' ∧
    (domainOf t D' 2).min 0 = 2 ∧ (domainOf t D' 2).max 0 = 3 := by
  refine ⟨_, _, rfl, rfl, ?_, ?_⟩
  · decide +kernel
  · decide +kernel

/-- **Negation.** If the work jumps from none to all at one place, for example because it belongs to a
single cell narrower than the spacing of divisions, the search never ends. -/
theorem C42_bisection_diverges (s tol : α) (h0 : 0 ≤ tol) (ht : tol < 1 / 2) (c : ℕ) (k : Fin n) (r : α)
    (b : Box n α) (fuel : ℕ) :
    findDivision (fun _ x => if x < s then 0 else 1) tol fuel c k r b = none :=
  bisect_step_none s tol h0 ht fuel _ _ _

/-- **Negation.** A particle at or beyond the upper face of the simulation box: the outermost such
particle lies on the upper face of the box that is divided, hence in no domain. -/
theorem C42_upper_edge_fails (L gmax : ℕ) (hg : 2 ^ L ≤ gmax) (s : KD.Links) (t : KD.Links)
    (ht : createTreeStructure L gmax s = some t) (frac : ℕ → α → α) (tol : α) (fuel : ℕ) (big : α)
    (simbox : Box n α) (hv : ∀ k, simbox.min k < simbox.max k) (pos : List (List (Vec n α)))
    (k : Fin n) (hbig : -big < simbox.max k) (hout : ∃ l ∈ pos, ∃ x ∈ l, simbox.max k ≤ x k)
    (D D' : Division n α)
    (h : loadBalance t L (findDivision frac tol fuel) (partboxOf simbox (pos.map (rboxOf big))) D =
      some D') :
    ∃ l ∈ pos, ∃ x ∈ l, (∀ l' ∈ pos, ∀ y ∈ l', y k ≤ x k) ∧ ∀ j < 2 ^ L, ¬ (domainOf t D' j).Holds x := by
  have hle := partbox_le simbox (pos.map (rboxOf big))
  have hup : ∀ l' ∈ pos, ∀ y ∈ l', y k ≤ (partboxOf simbox (pos.map (rboxOf big))).max k := by
    intro l' hl' y hy
    exact (mem_rbox big l' y hy k).2.trans (hle.2 _ (List.mem_map_of_mem hl') k).2
  have hx : ∃ l ∈ pos, ∃ x ∈ l, (partboxOf simbox (pos.map (rboxOf big))).max k = x k := by
    rcases partbox_max (pos.map (rboxOf big)) k simbox with e | ⟨b, hb, e⟩
    · obtain ⟨l, hl, x, hx, hm⟩ := hout
      exact ⟨l, hl, x, hx, le_antisymm (e.trans_le hm) (hup l hl x hx)⟩
    · obtain ⟨l, hl, rfl⟩ := List.mem_map.mp hb
      rcases rbox_max big k l with e2 | ⟨x, hx, e2⟩
      · have := (hle.1 k).2
        rw [e, e2] at this
        exact absurd this (not_le.mpr hbig)
      · exact ⟨l, hl, x, hx, e.trans e2⟩
  obtain ⟨l, hl, x, hx, e⟩ := hx
  refine ⟨l, hl, x, hx, fun l' hl' y hy => e ▸ hup l' hl' y hy, ?_⟩
  intro j hj hd
  have hc := (C42_load_balancing L gmax hg s t ht frac tol fuel _
    (fun k => lt_of_le_of_lt (hle.1 k).1 (lt_of_lt_of_le (hv k) (hle.1 k).2)) D D' h).1
  have := ((hc.inside j hj x hd) k).2
  rw [e] at this
  exact lt_irrefl _ this

/-- **Negation.** With a number of processes that is not a power of two there are more leaves than
processes: part of the box belongs to no process. -/
theorem C42_nonpower_fails (L gmax : ℕ) (hg : 2 ^ L ≤ gmax) (s : KD.Links) (t : KD.Links)
    (ht : createTreeStructure L gmax s = some t) (frac : ℕ → α → α) (tol : α) (fuel : ℕ)
    (partbox : Box n α) (hv : ∀ k, partbox.min k < partbox.max k) (D D' : Division n α)
    (h : loadBalance t L (findDivision frac tol fuel) partbox D = some D')
    (Nmpi : ℕ) (hN : Nmpi < 2 ^ L) :
    ∃ x, partbox.Holds x ∧ ∀ p < Nmpi, ¬ (domainOf t D' p).Holds x := by
  obtain ⟨hc, hn⟩ := C42_load_balancing L gmax hg s t ht frac tol fuel partbox hv D D' h
  have hx : (domainOf t D' Nmpi).Holds (domainOf t D' Nmpi).min :=
    fun k => ⟨le_rfl, hn Nmpi hN k⟩
  refine ⟨(domainOf t D' Nmpi).min, hc.inside Nmpi hN _ hx, ?_⟩
  intro p hp hh
  exact hc.disjoint p (by omega) Nmpi hN (by omega) _ ⟨hh, hx⟩

/-- The tree for six processes has eight leaves. -/
example : computeLtot 1 6 10 = some 3 ∧ (6 : ℕ) < 2 ^ 3 := by decide +kernel

end

/-- At the start each process `p < Nmpi` gets the particles of leaf `p`; the leaves share out all
particles, so with a power of two none is lost. -/
theorem C42_initial_share (L N : ℕ) :
    (leafCounts L N).length = 2 ^ L ∧ (leafCounts L N).sum = N ∧
      ∀ x ∈ leafCounts L N, N / 2 ^ L ≤ x ∧ x ≤ N / 2 ^ L + 1 := by
  refine ⟨leafCounts_length L N, leafCounts_sum L N, fun x hx => ⟨?_, ?_⟩⟩
  · exact leafCounts_ge L N _ (Nat.div_mul_le_self N (2 ^ L)) x hx
  · refine leafCounts_le L N _ ?_ x hx
    have h1 := Nat.div_add_mod N (2 ^ L)
    have h2 := Nat.mod_lt N (Nat.two_pow_pos L)
    rw [add_mul, one_mul, mul_comm (N / 2 ^ L)]
    omega

/-- **Negation.** With a number of processes that is not a power of two, and at least one particle for
each leaf, particles are lost at the start. -/
theorem C42_initial_loss (L N Nmpi : ℕ) (hN : 2 ^ L ≤ N) (hM : Nmpi < 2 ^ L) :
    ((leafCounts L N).take Nmpi).sum < N := by
  have h := leafCounts_sum L N
  rw [← List.take_append_drop Nmpi (leafCounts L N), List.sum_append] at h
  have hlen : ((leafCounts L N).drop Nmpi).length = 2 ^ L - Nmpi := by
    rw [List.length_drop, leafCounts_length]
  obtain ⟨x, r, e⟩ : ∃ x r, (leafCounts L N).drop Nmpi = x :: r := by
    cases e : (leafCounts L N).drop Nmpi with
    | nil => rw [e] at hlen; simp at hlen; omega
    | cons x r => exact ⟨x, r, rfl⟩
  have hx : 1 ≤ x := leafCounts_ge L N 1 (by omega) x
    (List.mem_of_mem_drop (e ▸ List.mem_cons_self : x ∈ (leafCounts L N).drop Nmpi))
  rw [e, List.sum_cons] at h
  omega

example : ((leafCounts 3 1000).take 6).sum = 750 := by decide

/-! ### The particles after load balancing -/

section
variable {n : ℕ} {X : Type*}

theorem mem_transferOf {dom rbox : ℕ → Box n ℝ} {T : ℕ → Tree n} {P : ℕ → KD.Parts n} {pfuel fuel : ℕ}
    {cfg : KD.Cfg} {f : Forest} {l : List ℕ} {p : ℕ} (hT : (T p).OK cfg (P p) pfuel f l)
    (hfuel : f.cells.length ≤ fuel)
    (hbox : ∀ i ∈ l, ∀ k, (rbox p).min k ≤ (P p).r i k ∧ (P p).r i k ≤ (rbox p).max k) (q : ℕ) :
    transferOf dom rbox T P pfuel fuel p q =
      if q = p then [] else l.filter fun i => particleInBox ((P p).r i) (dom q) := by
  unfold transferOf
  by_cases hq : q = p
  · rw [if_pos hq, if_pos hq]
  rw [if_neg hq, if_neg hq, boxParts_spec (T p) cfg (P p) pfuel f l hT (dom q) fuel hfuel]
  by_cases ho : boxesOverlap (dom q) (rbox p) = true
  · rw [if_pos ho]
  · rw [if_neg ho, eq_comm, List.filter_eq_nil_iff]
    intro i hi hin
    exact ho (boxesOverlap_of_mem ((particleInBox_iff _ _).mp hin) (hbox i hi))

/-- After `LoadBalancing` on `2^L` processes every live particle is held once, and every live particle
inside the divided box, upper faces excluded, is held by the process whose domain it is in. `arr p i`
are the particles of process `p`, of which `P p` are the fields the tree uses; `T p` is a correct tree
over the particles `l p`, among them all live ones. -/
theorem C42_particles (L gmax : ℕ) (hL : 1 ≤ L) (hg : 2 ^ L ≤ gmax) (s t : KD.Links)
    (ht : createTreeStructure L gmax s = some t) (frac : ℕ → ℝ → ℝ) (tol : ℝ) (fuelB : ℕ)
    (partbox : Box n ℝ) (hv : ∀ k, partbox.min k < partbox.max k) (D D' : Division n ℝ)
    (hD : loadBalance t L (findDivision frac tol fuelB) partbox D = some D')
    (arr : ℕ → ℕ → X) (Nhydro : ℕ → ℕ) (pos : X → Vec n ℝ)
    (isDead : X → Bool) (kill bury : X → X) (hk : ∀ x, isDead (kill x) = true)
    (hb : ∀ x, isDead (bury x) = true)
    (P : ℕ → KD.Parts n) (hP : ∀ p i, (P p).r i = pos (arr p i))
    (T : ℕ → Tree n) (cfg : KD.Cfg) (f : ℕ → Forest) (l : ℕ → List ℕ) (pfuel fuel : ℕ)
    (hT : ∀ p < 2 ^ L, (T p).OK cfg (P p) pfuel (f p) (l p))
    (hfuel : ∀ p < 2 ^ L, (f p).cells.length ≤ fuel)
    (hl : ∀ p < 2 ^ L, ∀ i ∈ l p, i < Nhydro p)
    (hlive : ∀ p < 2 ^ L, ∀ i < Nhydro p, isDead (arr p i) = false → i ∈ l p)
    (big : ℝ) (m : ℕ) (u : ExState X)
    (h : Steps (c41 (2 ^ L) (transferOf (domainOf t D')
        (fun p => rboxOf big ((List.range (Nhydro p)).map fun i => pos (arr p i))) T P pfuel fuel)
        arr Nhydro) m
      (c41 (2 ^ L) (transferOf (domainOf t D')
        (fun p => rboxOf big ((List.range (Nhydro p)).map fun i => pos (arr p i))) T P pfuel fuel)
        arr Nhydro).start u)
    (hf : ∀ p < 2 ^ L, u.pc p = 2 * (2 ^ L - 1)) :
    let after := fun p => (List.range ((c41 (2 ^ L) (transferOf (domainOf t D')
        (fun p => rboxOf big ((List.range (Nhydro p)).map fun i => pos (arr p i))) T P pfuel fuel)
        arr Nhydro).remove isDead kill bury u p).2).map ((c41 (2 ^ L) (transferOf (domainOf t D')
        (fun p => rboxOf big ((List.range (Nhydro p)).map fun i => pos (arr p i))) T P pfuel fuel)
        arr Nhydro).remove isDead kill bury u p).1
    (∑ p ∈ Finset.range (2 ^ L), (after p : Multiset X) =
      ∑ p ∈ Finset.range (2 ^ L), ((((List.range (Nhydro p)).map (arr p)).filter fun x => !isDead x :
        List X) : Multiset X)) ∧
    ∀ p < 2 ^ L, ∀ x ∈ after p, isDead x = false ∧
      (partbox.Holds (pos x) → ∀ q < 2 ^ L, (domainOf t D' q).Holds (pos x) ↔ q = p) := by
  intro after
  have hcut := (C42_load_balancing L gmax hg s t ht frac tol fuelB partbox hv D D' hD).1
  have hN2 : 2 ≤ 2 ^ L := by
    calc 2 = 2 ^ 1 := rfl
      _ ≤ 2 ^ L := Nat.pow_le_pow_right (by omega) hL
  have hev : 2 ^ L % 2 = 0 := by
    obtain ⟨j, rfl⟩ : ∃ j, L = j + 1 := ⟨L - 1, by omega⟩
    rw [pow_succ]; omega
  have htr : ∀ p < 2 ^ L, ∀ q, transferOf (domainOf t D')
      (fun p => rboxOf big ((List.range (Nhydro p)).map fun i => pos (arr p i))) T P pfuel fuel p q =
      if q = p then [] else (l p).filter fun i => particleInBox ((P p).r i) (domainOf t D' q) := by
    intro p hp q
    refine mem_transferOf (hT p hp) (hfuel p hp) ?_ q
    intro i hi k
    rw [hP]
    exact mem_rbox big _ _ (List.mem_map_of_mem (List.mem_range.mpr (hl p hp i hi))) k
  have hR : ∀ p < 2 ^ L, ∀ q < 2 ^ L, ∀ i ∈ transferOf (domainOf t D')
      (fun p => rboxOf big ((List.range (Nhydro p)).map fun i => pos (arr p i))) T P pfuel fuel p q,
      i < Nhydro p := by
    intro p hp q _ i hi
    rw [htr p hp q] at hi
    by_cases hq : q = p
    · rw [if_pos hq] at hi; exact absurd hi (by simp)
    · rw [if_neg hq] at hi
      exact hl p hp i (List.mem_filter.mp hi).1
  have hS : ∀ p < 2 ^ L, (((List.range (2 ^ L)).filter (· ≠ p)).flatMap (transferOf (domainOf t D')
      (fun p => rboxOf big ((List.range (Nhydro p)).map fun i => pos (arr p i))) T P pfuel fuel p)).Nodup := by
    intro p hp
    rw [List.nodup_flatMap]
    refine ⟨?_, ?_⟩
    · intro q _
      rw [htr p hp q]
      split_ifs
      · exact List.nodup_nil
      · exact (hT p hp).nodup.filter _
    · refine (List.nodup_range.filter _).imp_of_mem ?_
      intro a b ha hb' hab
      have ha' := List.mem_filter.mp ha
      have hb'' := List.mem_filter.mp hb'
      have ea : a ≠ p := by simpa using ha'.2
      have eb : b ≠ p := by simpa using hb''.2
      intro i h1 h2
      rw [htr p hp a, if_neg ea, List.mem_filter] at h1
      rw [htr p hp b, if_neg eb, List.mem_filter] at h2
      exact hcut.disjoint a (List.mem_range.mp ha'.1) b (List.mem_range.mp hb''.1) hab _
        ⟨(particleInBox_iff _ _).mp h1.2, (particleInBox_iff _ _).mp h2.2⟩
  refine ⟨C41_conserved (2 ^ L) hN2 hev _ arr Nhydro hR hS isDead kill bury hk hb m u h hf, ?_⟩
  intro p hp x hx
  have hperm := (C41_result (2 ^ L) hN2 hev _ arr Nhydro hR isDead kill bury hk hb m u h hf).2 p hp
  have hx' := hperm.mem_iff.mp hx
  rw [List.mem_filter] at hx'
  obtain ⟨hx1, hx2⟩ := hx'
  have hd : isDead x = false := by simpa using hx2
  refine ⟨hd, fun hin q hq => ?_⟩
  have key : (domainOf t D' p).Holds (pos x) := by
    rcases List.mem_append.mp hx1 with hkept | hrec
    · obtain ⟨i, hi, rfl⟩ := List.mem_map.mp hkept
      rw [List.mem_filter, List.mem_range] at hi
      obtain ⟨hi1, hi2⟩ := hi
      have hi3 : ∀ q < 2 ^ L, q ≠ p → i ∉ _ := of_decide_eq_true hi2
      obtain ⟨j, hj, hjd⟩ := hcut.cover _ hin
      by_cases hjp : j = p
      · exact hjp ▸ hjd
      · exfalso
        apply hi3 j hj hjp
        rw [htr p hp j, if_neg hjp, List.mem_filter]
        exact ⟨hlive p hp i hi1 hd, (particleInBox_iff _ _).mpr (by rw [hP]; exact hjd)⟩
    · obtain ⟨τ, hτ, hx3⟩ := List.mem_flatMap.mp hrec
      have hRR := C40_round_robin (2 ^ L) hN2 hev
      have hpo := hRR.pairs τ (List.mem_range.mp hτ)
      obtain ⟨i, hi, rfl⟩ := List.mem_map.mp hx3
      rw [htr _ (hpo p hp).1] at hi
      split_ifs at hi with hc
      · exact absurd hi (by simp)
      · rw [← hP]
        exact (particleInBox_iff _ _).mp (List.mem_filter.mp hi).2
  constructor
  · intro hqd
    by_contra hne
    exact hcut.disjoint q hq p hp hne _ ⟨hqd, key⟩
  · rintro rfl
    exact key

/-- The trees `C42_particles` asks for exist: on every process with particles, the KD-tree that is sized,
laid out, built and stocked over its particles is a correct tree over the live ones. -/
example (m : ℕ) (hm : 1 ≤ m) (P : KD.Parts n) (hP : ∀ i, P.dead i = false → 0 ≤ P.m i) (cfg : KD.Cfg) :
    ∃ (T : Tree n) (f : Forest) (l : List ℕ), T.OK cfg P m f l ∧
      ∀ i, i ∈ l ↔ i < m ∧ P.dead i = false := by
  obtain ⟨ltot, h1, -⟩ := C02_depth_minimal 6 m (by omega)
  obtain ⟨t, b, s', l, -, -, -, hp, hlo, hst, -⟩ := C06_built_tree_stocks (fun (_ : Unit) i => i)
    (fun _ => ()) (fun _ => false) 0 m 6 (gtotOf ltot) (by omega) hm (fun _ _ _ => rfl)
    ⟨fun _ => 0, fun _ => none, fun _ => none, fun _ => none, fun _ => none, fun _ => 0, fun _ => 0, 0⟩
    id (fun _ => none) ltot (h1 (m + 1) le_rfl) le_rfl cfg P hP 
    (fun _ => ⟨0, 0, 0, 0, 0, 0, 0, 0, 0, fun _ => 0, fun _ => 0, fun _ => 0, fun _ => 0, fun _ => 0, fun _ => 0,
      fun _ => 0, fun _ => 0, fun _ => 0, fun _ => 0⟩)
  have hnd : l.Nodup := hp.nodup_iff.mpr List.nodup_range'
  have hlen : l.length = m := by rw [hp.length_eq]; simp
  have hfl : (l.filter fun i => !P.dead i).length ≤ m := by
    have := List.length_filter_le (fun i => !P.dead i) l; omega
  refine ⟨_, _, _, toTree_ok (mac := fun _ => 0) (pfuel := m) hlo hst hfl (hnd.filter _), ?_⟩
  intro i
  simp [hp.mem_iff, List.mem_range'_1]

end

end Gandalf
