import Verif.Proof.SubSystems
import Verif.Prop.C65

/-! # C77: the nearest-neighbour tree of the stars and the sub-systems found on it -/

set_option autoImplicit false

namespace Gandalf

open SysTree BinTree Function

/-! ### The tree -/

/-- For stars closer to each other than `√big_number` the construction ends after at most `N` rounds
with a complete binary tree of `2N-1` nodes: every star is below the root once, every node counts
its stars, and the two children of a node are each other's nearest node. -/
theorem C77_tree {n : ℕ} {α : Type} [Field α] [LinearOrder α] [IsStrictOrderedRing α] (big : α)
    (hb : 0 < big) (N nmax fuel : ℕ) (hN : 0 < N) (hmax : 2 * N ≤ nmax) (hf : N ≤ fuel)
    (r : ℕ → Vec n α) (hr : ∀ i j, i < N → j < N → distSq (r i) (r j) < big) :
    ∃ s, create big nmax fuel N r = some s ∧ s.nnode = 2 * N - 1 ∧
      Complete N (fun c => (s.node c).child) (fun c => (s.node c).parent) ∧
      (∃ l, Leaves (fun c => (s.node c).child) (2 * N - 2) l ∧ l.Perm (List.range N)) ∧
      (∀ c l, c < s.nnode → Leaves (fun c => (s.node c).child) c l →
        (s.node c).nstar = l.length ∧ (s.node c).ncomp = l.length) ∧
      ∀ c a b, c < s.nnode → (s.node c).child = some (a, b) →
        (s.node a).nearest = some b ∧ (s.node b).nearest = some a := by
  have hI := inv_init (big := big) hr
  obtain ⟨s, h1, h2, h3, -⟩ := loop_ends hb hN hmax fuel _ hI
    (by rw [free_init, List.length_range]; exact hf)
  obtain ⟨h4, h5⟩ := h2.complete hN h3
  exact ⟨s, h1, h4, h5, h5.leaves hN,
    fun c l hc hl => ⟨h2.nstar hl hc, (h2.same c hc).trans (h2.nstar hl hc)⟩, h2.near⟩

/-- five stars on a line -/
example : ∃ s, create (1000 : ℚ) 10 5 5 (fun i => (![(![0, 1, 4, 9, 10] : Fin 5 → ℚ) (Fin.ofNat 5 i)] : Vec 1 ℚ))
    = some s ∧ s.nnode = 9 := by
  obtain ⟨s, h1, h2, -⟩ := C77_tree (1000 : ℚ) (by norm_num) 5 10 5 (by norm_num) (by norm_num) le_rfl
    (fun i => (![(![0, 1, 4, 9, 10] : Fin 5 → ℚ) (Fin.ofNat 5 i)] : Vec 1 ℚ))
    (fun i j hi hj => by interval_cases i <;> interval_cases j <;> simp [distSq, dot, Fin.ofNat] <;> norm_num)
  exact ⟨s, h1, h2⟩

/-- two stars that are strictly nearest to each other are sisters -/
theorem C77_sisters {n : ℕ} {α : Type} [Field α] [LinearOrder α] [IsStrictOrderedRing α] (big : α)
    (hb : 0 < big) (N nmax fuel : ℕ) (hmax : 2 * N ≤ nmax) (hf : N ≤ fuel)
    (r : ℕ → Vec n α) (hr : ∀ i j, i < N → j < N → distSq (r i) (r j) < big) (i j : ℕ)
    (hij : i < j) (hj : j < N)
    (hi' : ∀ k, k < N → k ≠ i → k ≠ j → distSq (r i) (r j) < distSq (r i) (r k))
    (hj' : ∀ k, k < N → k ≠ i → k ≠ j → distSq (r j) (r i) < distSq (r j) (r k)) :
    ∃ s c, create big nmax fuel N r = some s ∧ c < s.nnode ∧ (s.node c).child = some (i, j) := by
  have hN : 0 < N := by omega
  have hI := inv_init (big := big) hr
  have hfr := free_init big N r
  obtain ⟨fuel, rfl⟩ : ∃ g, fuel = g + 1 := ⟨fuel - 1, by omega⟩
  have hmu : Mutual (setNearest big (init big N r) (freeList (init big N r))) (i, j) := by
    have key : ∀ a b, a < N → b < N → a ≠ b →
        (∀ k, k < N → k ≠ a → k ≠ b → distSq (r a) (r b) < distSq (r a) (r k)) →
        ((setNearest big (init big N r) (freeList (init big N r))).node a).nearest = some b := by
      intro a b ha hb' hab h
      rw [set_near_mem (by rw [hfr]; exact List.mem_range.2 ha)]
      rcases near_nearestOf big (init big N r) a _ (sorted_freeList (init big N r)) with ⟨-, h2⟩ | ⟨x, h1, h2, h3, -, h5, -⟩
      · exact absurd (hr a b ha hb') (not_lt.2 (h2 b (by rw [hfr]; exact List.mem_range.2 hb') (Ne.symm hab)))
      · rw [h3]
        by_contra hx
        change ∀ k ∈ freeList (init big N r), k ≠ a → distSq (r a) (r x) ≤ distSq (r a) (r k) at h5
        have hxb : x ≠ b := fun e => hx (by rw [e])
        have hxN : x < N := by rw [hfr] at h1; exact List.mem_range.1 h1
        exact absurd (h5 b (by rw [hfr]; exact List.mem_range.2 hb') (Ne.symm hab))
          (not_le.2 (h x hxN h2 hxb))
    exact ⟨key i j (hij.trans hj) hj (ne_of_lt hij) hi',
      key j i hj (hij.trans hj) (ne_of_gt hij) fun k hk h1 h2 => hj' k hk h2 h1⟩
  obtain ⟨a1, a2, a3, a4, a5⟩ := foldl_tryMerge hb (pairs (freeList (init big N r))) _ (hI.set big)
    (ready_set big (init big N r))
  replace a1 : SysTree.Inv N big (pass big (init big N r)) := a1
  obtain ⟨c, hc, hcc⟩ := a5 (i, j) (pairs_mem (sorted_freeList _) (by rw [hfr]; exact List.mem_range.2 (hij.trans hj))
    (by rw [hfr]; exact List.mem_range.2 hj) hij) hmu
  have hlt := a3 ⟨(i, j), pairs_mem (sorted_freeList _) (by rw [hfr]; exact List.mem_range.2 (hij.trans hj))
    (by rw [hfr]; exact List.mem_range.2 hj) hij, hmu⟩
  have hcount := a1.count
  have hge : N < (pass big (init big N r)).nnode := hlt
  obtain ⟨s, b1, -, -, b4⟩ := loop_ends hb hN hmax fuel (pass big (init big N r)) a1
    (by change (freeList (pass big (init big N r))).length + (pass big (init big N r)).nnode = 2 * N at hcount; omega)
  obtain ⟨s', c1, c2, c3, -⟩ := loop_ends hb hN hmax (fuel + 1) _ hI
    (by rw [hfr, List.length_range]; exact hf)
  have hloop : loop big nmax (fuel + 1) (init big N r) = loop big nmax fuel (pass big (init big N r)) := by
    rw [loop, if_pos (show (init big N r).nnode < nmax by change N < nmax; omega), if_neg (by rw [hfr, List.length_range]; omega)]
  have hs : s' = s := by
    rw [hloop, b1] at c1; exact (Option.some.inj c1).symm
  subst hs
  refine ⟨s', c, c1, ?_, (b4 c hc).trans hcc⟩
  have h9 := c2.count
  have h10 := freeList_pos hN a1
  change (freeList (pass big (init big N r))).length + (pass big (init big N r)).nnode = 2 * N at hcount
  change c < (pass big (init big N r)).nnode at hc
  omega

/-- stars at 0, 1 and 5: the first two are sisters -/
example : ∃ s c, create (1000 : ℚ) 6 3 3 (fun i => (![(![0, 1, 5] : Fin 3 → ℚ) (Fin.ofNat 3 i)] : Vec 1 ℚ))
    = some s ∧ c < s.nnode ∧ (s.node c).child = some (0, 1) :=
  C77_sisters (1000 : ℚ) (by norm_num) 3 6 3 (by norm_num) le_rfl _
    (fun i j hi hj => by interval_cases i <;> interval_cases j <;> simp [distSq, dot, Fin.ofNat] <;> norm_num)
    0 1 (by norm_num) (by norm_num)
    (fun k hk h1 h2 => by interval_cases k <;> simp_all [distSq, dot, Fin.ofNat] <;> norm_num)
    (fun k hk h1 h2 => by interval_cases k <;> simp_all [distSq, dot, Fin.ofNat] <;> norm_num)

/-- Stars that are `√big_number` or more apart have no nearest neighbour: the construction never
ends. The same holds without any star if memory has been allocated before (`N = 0 < nmax`). -/
theorem C77_far_fails {n : ℕ} {α : Type} [Field α] [LinearOrder α] [IsStrictOrderedRing α] (big : α)
    (N nmax : ℕ) (hN : N ≠ 1) (hmax : N < nmax) (r : ℕ → Vec n α)
    (hr : ∀ i j, i < N → j < N → i ≠ j → big ≤ distSq (r i) (r j)) (fuel : ℕ) :
    create big nmax fuel N r = none :=
  loop_far hN hmax r hr fuel _ rfl (fun _ _ => rfl) fun _ _ => rfl

/-- two stars, `5·10¹⁰` apart in units of the code -/
example (fuel : ℕ) : create (99 * 10 ^ 19 : ℚ) 4 fuel 2
    (fun i => (![(5 * 10 ^ 10 * i : ℚ)] : Vec 1 ℚ)) = none :=
  C77_far_fails _ 2 4 (by norm_num) (by norm_num) _ (fun i j hi hj hij => by
    interval_cases i <;> interval_cases j <;> simp_all [distSq, dot] <;> norm_num) fuel

/-! ### Sub-systems -/

/-- Whatever the masses (positive), positions, velocities and potentials, the bodies handed to the
integrator contain every star exactly once, directly or inside a system. There are at most `N` bodies
and `N-1` systems, and every system has two to four components, all made before it. -/
theorem C77_partition {n : ℕ} (N : ℕ) (hN : 0 < N) (child : ℕ → Option (ℕ × ℕ))
    (parent : ℕ → Option ℕ) (ht : Complete N child parent) (stars : ℕ → Star n)
    (hm : ∀ i, i < N → 0 < (stars i).m) (eps soft : ℝ) (cell0 : ℕ → Cell n) (sys0 : ℕ → Sys n)
    (S : Subs n) (hS : S = build eps soft N (2 * N - 1) stars child cell0 sys0) :
    (∃ L, Made (fun b => match b with
        | Body.star i => Sum.inl i
        | Body.system s => Sum.inr (S.sys s).children) S.nbody L ∧ L.Perm (List.range N)) ∧
    S.nbody.length ≤ N ∧ S.nsys ≤ N - 1 ∧ (∀ s, Body.system s ∈ S.nbody → s < S.nsys) ∧
    ∀ s, s < S.nsys → 2 ≤ (S.sys s).children.length ∧ (S.sys s).children.length ≤ 4 ∧
      (S.sys s).ncomp = (S.sys s).children.length ∧
      ∀ t, Body.system t ∈ (S.sys s).children → t < s := by
  obtain ⟨h1, h2, L, h3, h4⟩ := build_ok hN ht hm eps soft cell0 sys0 S hS
  refine ⟨⟨L, ?_, h4⟩, ?_, h1, fun s hs => h3.valid _ hs, fun s hs => ?_⟩
  · have := h3.made
    convert this using 2
    rename_i b
    cases b <;> rfl
  · have := (h3.length fun s hs e => by have := (h2 s hs).ne; rw [e] at this; simp at this).1
    rwa [h4.length_eq, List.length_range] at this
  · have o := h2 s hs
    exact ⟨o.ne, o.len, o.comp, fun t ht => o.below _ ht⟩

/-- the bodies have the mass, the centre of mass and the momentum of the stars, and every system
those of its components -/
theorem C77_momentum {n : ℕ} (N : ℕ) (hN : 0 < N) (child : ℕ → Option (ℕ × ℕ))
    (parent : ℕ → Option ℕ) (ht : Complete N child parent) (stars : ℕ → Star n)
    (hm : ∀ i, i < N → 0 < (stars i).m) (eps soft : ℝ) (cell0 : ℕ → Cell n) (sys0 : ℕ → Sys n)
    (S : Subs n) (hS : S = build eps soft N (2 * N - 1) stars child cell0 sys0) :
    (S.nbody.map (bodyM stars S.sys)).sum = ∑ i ∈ Finset.range N, (stars i).m ∧
    (∀ k, (S.nbody.map fun b => bodyM stars S.sys b * bodyR stars S.sys b k).sum
      = ∑ i ∈ Finset.range N, (stars i).m * (stars i).r k) ∧
    (∀ k, (S.nbody.map fun b => bodyM stars S.sys b * bodyV stars S.sys b k).sum
      = ∑ i ∈ Finset.range N, (stars i).m * (stars i).v k) ∧
    ∀ s, s < S.nsys → (S.sys s).m = ((S.sys s).children.map (bodyM stars S.sys)).sum ∧
      (∀ k, (S.sys s).m * (S.sys s).r k
        = ((S.sys s).children.map fun b => bodyM stars S.sys b * bodyR stars S.sys b k).sum) ∧
      ∀ k, (S.sys s).m * (S.sys s).v k
        = ((S.sys s).children.map fun b => bodyM stars S.sys b * bodyV stars S.sys b k).sum := by
  obtain ⟨-, h2, L, h3, h4⟩ := build_ok hN ht hm eps soft cell0 sys0 S hS
  have tot : ∀ g : ℕ → ℝ, (L.map g).sum = ∑ i ∈ Finset.range N, g i := fun g => by
    rw [(h4.map g).sum_eq]; rfl
  refine ⟨?_, fun k => ?_, fun k => ?_, fun s hs => (h2 s hs).sums⟩
  · rw [h3.sum _ fun s hs => (h2 s hs).sums.1, tot]; rfl
  · rw [h3.sum (fun b => bodyM stars S.sys b * bodyR stars S.sys b k) fun s hs => (h2 s hs).sums.2.1 k, tot]; rfl
  · rw [h3.sum (fun b => bodyM stars S.sys b * bodyV stars S.sys b k) fun s hs => (h2 s hs).sums.2.2 k, tot]; rfl

/-- a tree of three stars, two of them in a binary: the hypotheses can be met -/
theorem C77_example_tree : Complete 3 (fun c => if c = 3 then some (0, 1) else if c = 4 then some (2, 3) else none)
    (fun c => if c ≤ 1 then some 3 else if c ≤ 3 then some 4 else none) := by
  refine ⟨⟨fun c hc => ?_, fun c h1 h2 => ?_, fun d p hd hp => ?_⟩, fun d hd => ?_⟩
  · interval_cases c <;> rfl
  · interval_cases c
    · exact ⟨0, 1, rfl, by norm_num, by norm_num, by norm_num, rfl, rfl⟩
    · exact ⟨2, 3, rfl, by norm_num, by norm_num, by norm_num, rfl, rfl⟩
  · interval_cases d <;> simp at hp <;> subst hp <;> simp
  · interval_cases d <;> simp

example : ∃ L, Made (fun b => match b with
      | Body.star i => Sum.inl i
      | Body.system s => Sum.inr ((build 0 (1 / 50) 3 5 (fun i => (⟨1, ![(i : ℝ)], ![0], 1⟩ : SysTree.Star 1))
          (fun c => if c = 3 then some (0, 1) else if c = 4 then some (2, 3) else none)
          (fun _ => ⟨0, ![0], ![0], 0, 0, 0, []⟩) (fun _ => ⟨0, 0, ![0], ![0], 0, 0, 0, []⟩)).sys s).children)
      (build 0 (1 / 50) 3 5 (fun i => (⟨1, ![(i : ℝ)], ![0], 1⟩ : SysTree.Star 1))
          (fun c => if c = 3 then some (0, 1) else if c = 4 then some (2, 3) else none)
          (fun _ => ⟨0, ![0], ![0], 0, 0, 0, []⟩) (fun _ => ⟨0, 0, ![0], ![0], 0, 0, 0, []⟩)).nbody L ∧
      L.Perm (List.range 3) :=
  (C77_partition 3 (by norm_num) _ _ C77_example_tree _ (fun i _ => by norm_num) 0 (1 / 50) _ _ _ rfl).1

/-! ### Which pairs become a system -/

/-- a tree of two stars -/
def C77_two (c : ℕ) : Option (ℕ × ℕ) := if c = 2 then some (0, 1) else none

/-- the node of two stars, before it is decided whether it is a system -/
noncomputable def C77_pairCell {n : ℕ} (eps : ℝ) (a b : SysTree.Star n) : Cell n where
  m := a.m + b.m
  r := fun k => (a.m * a.r k + b.m * b.r k) / (a.m + b.m)
  v := fun k => (a.m * a.v k + b.m * b.v k) / (a.m + b.m)
  gpe := 1 / 2 * a.m * a.gpot + 1 / 2 * b.m * b.gpot
  gpeInt := pairEnergy eps a.m b.m a.r b.r
  ncomp := 2
  list := [Body.star 0, Body.star 1]

/-- the state before node 2 -/
noncomputable def C77_before {n : ℕ} (stars : ℕ → SysTree.Star n) (cell0 : ℕ → Cell n)
    (sys0 : ℕ → Sys n) : Subs n :=
  ⟨update (update cell0 0 (leaf (stars 0) 0)) 1 (leaf (stars 1) 1), sys0, 0, [], []⟩

theorem C77_two_step {n : ℕ} (eps soft : ℝ) (stars : ℕ → SysTree.Star n) (cell0 : ℕ → Cell n)
    (sys0 : ℕ → Sys n) : (List.range 3).foldl (stock eps soft 2 stars C77_two) ⟨cell0, sys0, 0, [], []⟩
      = stockNode eps soft 2 stars (C77_before stars cell0 sys0) 2 0 1 := by
  have hr : List.range 3 = [0, 1, 2] := rfl
  rw [hr]
  simp only [List.foldl_cons, List.foldl_nil]
  have e0 : ∀ S, stock eps soft 2 stars C77_two S 0 = { S with cell := update S.cell 0 (leaf (stars 0) 0) } :=
    fun S => if_pos (by norm_num)
  have e1 : ∀ S, stock eps soft 2 stars C77_two S 1 = { S with cell := update S.cell 1 (leaf (stars 1) 1) } :=
    fun S => if_pos (by norm_num)
  have e2 : ∀ S, stock eps soft 2 stars C77_two S 2 = stockNode eps soft 2 stars S 2 0 1 :=
    fun S => (if_neg (by norm_num)).trans rfl
  rw [e0, e1, e2]
  rfl

theorem C77_two_build {n : ℕ} (eps soft : ℝ) (stars : ℕ → SysTree.Star n) (cell0 : ℕ → Cell n)
    (sys0 : ℕ → Sys n) :
    let x := C77_pairCell eps (stars 0) (stars 1)
    (Hard soft x.gpe x.gpeInt → (build eps soft 2 3 stars C77_two cell0 sys0).nbody = [Body.system 0] ∧
      (build eps soft 2 3 stars C77_two cell0 sys0).sys 0
        = newSys (bodyM stars sys0) (bodyV stars sys0) 2 x ∧
      (build eps soft 2 3 stars C77_two cell0 sys0).orbits
        = (newOrbit eps 2 0 1 x (leaf (stars 0) 0) (leaf (stars 1) 1)).toList) ∧
    (¬ Hard soft x.gpe x.gpeInt →
      (build eps soft 2 3 stars C77_two cell0 sys0).nbody = [Body.star 0, Body.star 1]) := by
  intro x
  have hx : merged eps (bodyM stars sys0) (bodyR stars sys0) (leaf (stars 0) 0) (leaf (stars 1) 1) = x := by
    have : internal eps (bodyM stars sys0) (bodyR stars sys0) [Body.star 0, Body.star 1]
        = pairEnergy eps (stars 0).m (stars 1).m (stars 0).r (stars 1).r := by
      simp [internal, pairs, bodyM, bodyR]
    unfold merged
    simp only [leaf, List.cons_append, List.nil_append, this]
    rfl
  have c0 : (C77_before stars cell0 sys0).cell 0 = leaf (stars 0) 0 := by
    simp only [C77_before]; rw [update_of_ne (by norm_num), update_self]
  have c1 : (C77_before stars cell0 sys0).cell 1 = leaf (stars 1) 1 := by
    simp only [C77_before]; rw [update_self]
  have hcomp : (leaf (stars 0) 0).ncomp + (leaf (stars 1) 1).ncomp ≤ ncompMax := by
    simp [leaf, ncompMax]
  have hsys : (C77_before stars cell0 sys0).sys = sys0 := rfl
  have hx' : merged eps (bodyM stars (C77_before stars cell0 sys0).sys) (bodyR stars (C77_before stars cell0 sys0).sys)
      ((C77_before stars cell0 sys0).cell 0) ((C77_before stars cell0 sys0).cell 1) = x := by
    rw [c0, c1, hsys, hx]
  constructor
  · intro hh
    have e : stockNode eps soft 2 stars (C77_before stars cell0 sys0) 2 0 1 =
        { cell := update (C77_before stars cell0 sys0).cell 2 { x with
            ncomp := 1
            list := [Body.system 0]
            gpe := x.gpe - x.gpeInt
            gpeInt := 0 }
          sys := update sys0 0 (newSys (bodyM stars sys0) (bodyV stars sys0) 2 x)
          nsys := 1, nbody := []
          orbits := (newOrbit eps 2 0 1 x (leaf (stars 0) 0) (leaf (stars 1) 1)).toList } := by
      unfold stockNode
      simp only [c0, c1, hsys, hx]
      rw [if_pos hcomp, if_pos (by rw [hx']; exact hh), if_pos (show x.ncomp = 2 from rfl)]
      rfl
    unfold build
    simp only [C77_two_step, e]
    exact ⟨by rw [update_self]; rfl, update_self _ _ _, trivial⟩
  · intro hh
    have e : stockNode eps soft 2 stars (C77_before stars cell0 sys0) 2 0 1 =
        ⟨update (C77_before stars cell0 sys0).cell 2 x, sys0, 0, [], []⟩ := by
      unfold stockNode
      simp only [c0, c1, hsys, hx]
      rw [if_pos hcomp, if_neg (by rw [hx']; exact hh)]
      rfl
    unfold build
    simp only [C77_two_step, e]
    rw [update_self]; rfl

/-- Two stars with the potential of each other and of anything else (`x`, `y`): they become one
system exactly if the outer energy is less than the fraction `gpesoft` of the whole energy. Their
velocities do not matter: also stars that fly past each other become a system. -/
theorem C77_hard {n : ℕ} (soft d x y : ℝ) (stars : ℕ → SysTree.Star n)
    (hd : Real.sqrt (distSq (stars 1).r (stars 0).r) = d)
    (g0 : (stars 0).gpot = (stars 1).m / d + x) (g1 : (stars 1).gpot = (stars 0).m / d + y)
    (cell0 : ℕ → Cell n) (sys0 : ℕ → Sys n) :
    ((build 0 soft 2 3 stars C77_two cell0 sys0).nbody = [Body.system 0] ↔
      |((stars 0).m * x + (stars 1).m * y) / 2|
        < soft * ((stars 0).m * (stars 1).m / d + ((stars 0).m * x + (stars 1).m * y) / 2)) := by
  have key := C77_two_build 0 soft stars cell0 sys0
  simp only at key
  have e1 : (C77_pairCell 0 (stars 0) (stars 1)).gpe
      = (stars 0).m * (stars 1).m / d + ((stars 0).m * x + (stars 1).m * y) / 2 := by
    simp only [C77_pairCell, g0, g1]; ring
  have e2 : (C77_pairCell 0 (stars 0) (stars 1)).gpeInt = (stars 0).m * (stars 1).m / d := by
    simp only [C77_pairCell, pairEnergy, hd, add_zero]; ring
  have e3 : Hard soft (C77_pairCell 0 (stars 0) (stars 1)).gpe (C77_pairCell 0 (stars 0) (stars 1)).gpeInt ↔
      |((stars 0).m * x + (stars 1).m * y) / 2|
        < soft * ((stars 0).m * (stars 1).m / d + ((stars 0).m * x + (stars 1).m * y) / 2) := by
    unfold Hard; rw [e1, e2]; ring_nf
  rw [← e3]
  constructor
  · intro h
    by_contra hh
    rw [key.2 hh] at h
    exact absurd h (by simp)
  · intro h; exact (key.1 h).1

/-- two stars alone: always a system -/
example (cell0 : ℕ → Cell 1) (sys0 : ℕ → Sys 1) :
    (build 0 (1 / 50) 2 3 (fun i => (⟨1, ![(i : ℝ)], ![7 * (i : ℝ)], 1⟩ : SysTree.Star 1)) C77_two cell0 sys0).nbody
      = [Body.system 0] :=
  (C77_hard (1 / 50) 1 0 0 _ (by simp [distSq, dot]) (by norm_num) (by norm_num) cell0 sys0).2
    (by norm_num)

/-! ### Orbits -/

theorem C77_angmom (mu : ℝ) (dr dv : Vec 3 ℝ) : angmomSq mu 3 dr dv = mu ^ 2 * Kepler.angSq dr dv := by
  unfold angmomSq Kepler.angSq
  simp only [dot, Fin.sum_univ_three, Matrix.cons_val_zero, Matrix.cons_val_one, Matrix.cons_val]
  ring

theorem C77_angSq_le (r v : Vec 3 ℝ) : Kepler.angSq r v ≤ dot r r * dot v v ∧ 0 ≤ Kepler.angSq r v := by
  constructor
  · unfold Kepler.angSq; nlinarith [sq_nonneg (dot r v)]
  · have := C77_angmom 1 r v
    rw [one_pow, one_mul] at this
    rw [← this]
    unfold angmomSq
    simp only [dot, Fin.sum_univ_three, Matrix.cons_val_zero, Matrix.cons_val_one, Matrix.cons_val]
    exact add_nonneg (add_nonneg (mul_self_nonneg _) (mul_self_nonneg _)) (mul_self_nonneg _)

/-- The recorded orbit is the Kepler ellipse of the two components: semi-major axis, eccentricity and
period (`small_number_dp` taken as 0). -/
theorem C77_orbit (N c1 c2 : ℕ) (x a b : Cell 3) (hx : x.m = a.m + b.m) (ha : 0 < a.m) (hb : 0 < b.m)
    (o : Orbit 3) (h : newOrbit 0 N c1 c2 x a b = some o) :
    Kepler.OnEllipse (a.m + b.m) o.sma o.ecc (fun k => a.r k - b.r k) (fun k => a.v k - b.v k) ∧
    0 < o.sma ∧ 0 ≤ o.ecc ∧ o.ecc ≤ 1 ∧
    o.period ^ 2 * (a.m + b.m) = 4 * Real.pi ^ 2 * o.sma ^ 3 ∧ 0 < o.q ∧ o.q ≤ 1 := by
  unfold newOrbit at h
  simp only [add_zero, C77_angmom] at h
  set dr : Vec 3 ℝ := fun k => a.r k - b.r k with hdr
  set dv : Vec 3 ℝ := fun k => a.v k - b.v k with hdv
  rw [hx] at h
  set M := a.m + b.m with hM
  have hMp : 0 < M := add_pos ha hb
  set mu := a.m * b.m / M with hmu
  have hmup : 0 < mu := by positivity
  set E := 1 / 2 * dot dv dv - M * (1 / Real.sqrt (dot dr dr)) with hE
  by_cases hE0 : 0 ≤ E
  · rw [if_pos hE0] at h; exact absurd h (by simp)
  rw [if_neg hE0] at h
  push Not at hE0
  have hv0 : 0 ≤ dot dv dv := Finset.sum_nonneg fun k _ => mul_self_nonneg (dv k)
  have hr0 : 0 ≤ dot dr dr := Finset.sum_nonneg fun k _ => mul_self_nonneg (dr k)
  have hrho : 0 < Real.sqrt (dot dr dr) := by
    refine lt_of_le_of_ne (Real.sqrt_nonneg _) fun e => ?_
    rw [hE, ← e] at hE0
    simp only [div_zero, mul_zero, sub_zero] at hE0
    linarith
  have hrr : Real.sqrt (dot dr dr) ^ 2 = dot dr dr := Real.sq_sqrt hr0
  set rho := Real.sqrt (dot dr dr) with hrhod
  set w := dot dv dv with hw
  obtain ⟨hH, hH0⟩ := C77_angSq_le dr dv
  set H := Kepler.angSq dr dv with hHd
  rw [← hrr, ← hw] at hH
  have hsma : 0 < -(1 / 2) * M / E := div_pos_of_neg_of_neg (by linarith) hE0
  have hArg : 1 - mu ^ 2 * H / (M * (-(1 / 2) * M / E) * mu * mu) = 1 + 2 * E * H / M ^ 2 := by
    have := hE0.ne
    field_simp
    ring
  have hEr : 2 * E * rho = w * rho - 2 * M := by rw [hE]; field_simp
  have hNN : 0 ≤ 1 + 2 * E * H / M ^ 2 := by
    have h1 : 2 * E * (rho ^ 2 * w) ≤ 2 * E * H := by
      nlinarith
    have h2 : 0 ≤ M ^ 2 + 2 * E * (rho ^ 2 * w) := by
      have : M ^ 2 + 2 * E * (rho ^ 2 * w) = (M - rho * w) ^ 2 := by
        have : 2 * E * (rho ^ 2 * w) = (2 * E * rho) * (rho * w) := by ring
        rw [this, hEr]; ring
      rw [this]; positivity
    have h3 : 1 + 2 * E * H / M ^ 2 = (M ^ 2 + 2 * E * H) / M ^ 2 := by field_simp
    rw [h3]
    exact div_nonneg (by linarith) (by positivity)
  have hle : 1 + 2 * E * H / M ^ 2 ≤ 1 := by
    have : 2 * E * H / M ^ 2 ≤ 0 := div_nonpos_of_nonpos_of_nonneg (by nlinarith) (by positivity)
    linarith
  rw [hArg, max_eq_right hNN] at h
  have h := Option.some.inj h
  subst h
  refine ⟨⟨?_, ?_⟩, hsma, Real.sqrt_nonneg _, ?_, ?_, ?_, ?_⟩
  · simp only
    have : M / (2 * (-(1 / 2) * M / E)) = -E := by
      have := hE0.ne
      field_simp
    rw [this, hE]; ring
  · simp only
    rw [Real.sq_sqrt hNN]
    have := hE0.ne
    field_simp
    ring
  · simp only
    calc Real.sqrt (1 + 2 * E * H / M ^ 2) ≤ Real.sqrt 1 := Real.sqrt_le_sqrt hle
      _ = 1 := Real.sqrt_one
  · simp only
    rw [mul_pow, Real.sq_sqrt (by positivity)]
    field_simp
    ring
  · simp only
    split_ifs <;> positivity
  · simp only
    split_ifs with hq
    · rw [div_le_one ha]; exact hq.le
    · rw [div_le_one hb]; exact not_lt.1 hq

/-- Two bodies on a Kepler ellipse: the orbit is recorded with its semi-major axis and eccentricity. -/
theorem C77_elements (N c1 c2 : ℕ) (x a b : Cell 3) (hx : x.m = a.m + b.m) (ha : 0 < a.m)
    (hb : 0 < b.m) (sma e : ℝ) (hs : 0 < sma) (he : 0 ≤ e)
    (h : Kepler.OnEllipse (a.m + b.m) sma e (fun k => a.r k - b.r k) (fun k => a.v k - b.v k)) :
    ∃ o, newOrbit 0 N c1 c2 x a b = some o ∧ o.sma = sma ∧ o.ecc = e ∧
      o.kind = kind N c1 c2 := by
  have hMp : 0 < a.m + b.m := add_pos ha hb
  have hbin : 1 / 2 * dot (fun k => a.v k - b.v k) (fun k => a.v k - b.v k)
      - x.m * (1 / (Real.sqrt (dot (fun k => a.r k - b.r k) (fun k => a.r k - b.r k)) + 0))
      = -((a.m + b.m) / (2 * sma)) := by
    rw [hx, add_zero, ← h.1]; ring
  have hneg : -((a.m + b.m) / (2 * sma)) < 0 := by
    have : 0 < (a.m + b.m) / (2 * sma) := by positivity
    linarith
  cases ho : newOrbit 0 N c1 c2 x a b with
  | none =>
    exfalso
    unfold newOrbit at ho
    simp only [hbin] at ho
    rw [if_neg (not_le.2 hneg)] at ho
    exact absurd ho (by simp)
  | some o =>
    have hk := C77_orbit N c1 c2 x a b hx ha hb o ho
    have hsm : o.sma = sma ∧ o.kind = kind N c1 c2 := by
      unfold newOrbit at ho
      simp only [hbin] at ho
      rw [if_neg (not_le.2 hneg)] at ho
      have ho := Option.some.inj ho
      subst ho
      refine ⟨?_, rfl⟩
      simp only [hx]
      field_simp
    refine ⟨o, rfl, hsm.1, ?_, hsm.2⟩
    have h1 := hk.1.2
    rw [h.2, hsm.1] at h1
    have h2 : o.ecc ^ 2 = e ^ 2 := by
      have : (a.m + b.m) * sma ≠ 0 := by positivity
      have := mul_left_cancel₀ this h1
      linarith
    exact (sq_eq_sq₀ hk.2.2.1 he).1 h2

/-- Stars set up as a binary by the initial conditions (C65) are found again as an orbit with the
semi-major axis and the eccentricity they were set up with. -/
theorem C77_roundtrip (fuel : ℕ) (u : ℝ) (p : Binary.Args) (s : Binary.Star × Binary.Star)
    (hs : 0 < p.sma) (h0 : 0 ≤ p.eccent) (h1 : p.eccent < 1) (m1 : 0 < p.m1) (m2 : 0 < p.m2)
    (h : Binary.addBinaryStar fuel u p = some s) (g1 g2 : ℝ) :
    ∃ o, newOrbit 0 2 0 1 (C77_pairCell 0 ⟨p.m1, s.1.r, s.1.v, g1⟩ ⟨p.m2, s.2.r, s.2.v, g2⟩)
        (leaf ⟨p.m1, s.1.r, s.1.v, g1⟩ 0) (leaf ⟨p.m2, s.2.r, s.2.v, g2⟩ 1) = some o ∧
      o.sma = p.sma ∧ o.ecc = p.eccent ∧ o.kind = "binary" := by
  obtain ⟨o, a1, a2, a3, a4⟩ := C77_elements 2 0 1
    (C77_pairCell 0 ⟨p.m1, s.1.r, s.1.v, g1⟩ ⟨p.m2, s.2.r, s.2.v, g2⟩)
    (leaf ⟨p.m1, s.1.r, s.1.v, g1⟩ 0) (leaf ⟨p.m2, s.2.r, s.2.v, g2⟩ 1) rfl m1 m2 p.sma p.eccent hs h0
    (C65_elements fuel u p s hs h0 h1 (add_pos m1 m2) h)
  exact ⟨o, a1, a2, a3, a4.trans (by decide)⟩

/-! ### The time step of a system -/

/-- two stars of mass 1/2 on a circle, `s²` apart -/
noncomputable def C77_circle (s : ℝ) (i : ℕ) : SysTree.Star 3 :=
  if i = 0 then ⟨1 / 2, ![s ^ 2 / 2, 0, 0], ![0, 1 / (2 * s), 0], 1 / (2 * s ^ 2)⟩
  else ⟨1 / 2, ![-(s ^ 2 / 2), 0, 0], ![0, -(1 / (2 * s)), 0], 1 / (2 * s ^ 2)⟩

theorem C77_circle_step (s : ℝ) (hs : 0 < s) (cell0 : ℕ → Cell 3) (sys0 : ℕ → Sys 3) :
    ((build 0 (1 / 50) 2 3 (C77_circle s) C77_two cell0 sys0).sys 0).dtInt = 4 * s ^ 2 ∧
    ∃ o, (build 0 (1 / 50) 2 3 (C77_circle s) C77_two cell0 sys0).orbits = [o] ∧
      o.period = 2 * Real.pi * s ^ 3 ∧ o.ecc = 0 := by
  have key := C77_two_build 0 (1 / 50) (C77_circle s) cell0 sys0
  simp only at key
  have h0 : C77_circle s 0 = ⟨1 / 2, ![s ^ 2 / 2, 0, 0], ![0, 1 / (2 * s), 0], 1 / (2 * s ^ 2)⟩ := rfl
  have h1 : C77_circle s 1 = ⟨1 / 2, ![-(s ^ 2 / 2), 0, 0], ![0, -(1 / (2 * s)), 0], 1 / (2 * s ^ 2)⟩ := rfl
  have hd : Real.sqrt (distSq (C77_circle s 1).r (C77_circle s 0).r) = s ^ 2 := by
    rw [h0, h1, show distSq (![-(s ^ 2 / 2), 0, 0] : Vec 3 ℝ) ![s ^ 2 / 2, 0, 0] = (s ^ 2) ^ 2 by
      simp only [distSq, dot, Fin.sum_univ_three, Matrix.cons_val_zero, Matrix.cons_val_one, Matrix.cons_val]; ring]
    exact Real.sqrt_sq (by positivity)
  have hg : (C77_pairCell 0 (C77_circle s 0) (C77_circle s 1)).gpeInt = 1 / (4 * s ^ 2) := by
    simp only [C77_pairCell, pairEnergy, hd, add_zero]
    rw [h0, h1]; field_simp; norm_num
  have hgpe : (C77_pairCell 0 (C77_circle s 0) (C77_circle s 1)).gpe = 1 / (4 * s ^ 2) := by
    simp only [C77_pairCell]
    rw [h0, h1]; field_simp; norm_num
  have hh : Hard (1 / 50) (C77_pairCell 0 (C77_circle s 0) (C77_circle s 1)).gpe
      (C77_pairCell 0 (C77_circle s 0) (C77_circle s 1)).gpeInt := by
    unfold Hard; rw [hg, hgpe, sub_self, abs_zero]; positivity
  obtain ⟨-, k2, k3⟩ := key.1 hh
  have hm : (C77_pairCell 0 (C77_circle s 0) (C77_circle s 1)).m = 1 := by
    simp only [C77_pairCell]; rw [h0, h1]; norm_num
  constructor
  · rw [k2]
    simp only [newSys, hg, hm]
    have hk : kinetic (bodyM (C77_circle s) sys0) (bodyV (C77_circle s) sys0)
        (C77_pairCell 0 (C77_circle s 0) (C77_circle s 1)).v
        (C77_pairCell 0 (C77_circle s 0) (C77_circle s 1)).list = 1 / (8 * s ^ 2) := by
      simp only [kinetic, C77_pairCell, List.map_cons, List.map_nil, List.sum_cons, List.sum_nil, bodyM,
        bodyV, h0, h1, distSq, dot, Fin.sum_univ_three, Matrix.cons_val_zero, Matrix.cons_val_one, Matrix.cons_val]
      field_simp
      norm_num
    rw [hk]
    unfold tcross
    rw [show (1 : ℝ) * 1 / (1 / (4 * s ^ 2)) = (2 * s) ^ 2 by field_simp; norm_num,
      show 2 * (1 / (8 * s ^ 2)) / (1 : ℝ) = (1 / (2 * s)) ^ 2 by field_simp; norm_num,
      Real.sqrt_sq (by positivity), Real.sqrt_sq (by positivity)]
    field_simp
    norm_num
  · have hE : Kepler.OnEllipse ((leaf (C77_circle s 0) 0).m + (leaf (C77_circle s 1) 1).m) (s ^ 2) 0
        (fun k => (leaf (C77_circle s 0) 0).r k - (leaf (C77_circle s 1) 1).r k)
        (fun k => (leaf (C77_circle s 0) 0).v k - (leaf (C77_circle s 1) 1).v k) := by
      have d1 : dot (fun k => (leaf (C77_circle s 0) 0).r k - (leaf (C77_circle s 1) 1).r k)
          (fun k => (leaf (C77_circle s 0) 0).r k - (leaf (C77_circle s 1) 1).r k) = (s ^ 2) ^ 2 := by
        simp only [leaf, h0, h1, dot, Fin.sum_univ_three, Matrix.cons_val_zero, Matrix.cons_val_one, Matrix.cons_val]
        ring
      have d2 : dot (fun k => (leaf (C77_circle s 0) 0).v k - (leaf (C77_circle s 1) 1).v k)
          (fun k => (leaf (C77_circle s 0) 0).v k - (leaf (C77_circle s 1) 1).v k) = 1 / s ^ 2 := by
        simp only [leaf, h0, h1, dot, Fin.sum_univ_three, Matrix.cons_val_zero, Matrix.cons_val_one, Matrix.cons_val]
        field_simp
        norm_num
      have d3 : dot (fun k => (leaf (C77_circle s 0) 0).r k - (leaf (C77_circle s 1) 1).r k)
          (fun k => (leaf (C77_circle s 0) 0).v k - (leaf (C77_circle s 1) 1).v k) = 0 := by
        simp only [leaf, h0, h1, dot, Fin.sum_univ_three, Matrix.cons_val_zero, Matrix.cons_val_one, Matrix.cons_val]
        ring
      have hmm : (leaf (C77_circle s 0) 0).m + (leaf (C77_circle s 1) 1).m = 1 := by
        simp only [leaf, h0, h1]; norm_num
      refine ⟨?_, ?_⟩
      · rw [d1, d2, hmm, Real.sqrt_sq (by positivity)]; field_simp; norm_num
      · unfold Kepler.angSq; rw [d1, d2, d3, hmm]; field_simp; norm_num
    have hma : 0 < (leaf (C77_circle s 0) 0).m := by simp only [leaf, h0]; norm_num
    have hmb : 0 < (leaf (C77_circle s 1) 1).m := by simp only [leaf, h1]; norm_num
    obtain ⟨o, o1, o2, o3, -⟩ := C77_elements 2 0 1 (C77_pairCell 0 (C77_circle s 0) (C77_circle s 1))
      _ _ rfl hma hmb (s ^ 2) 0 (by positivity) le_rfl hE
    refine ⟨o, by rw [k3, o1]; rfl, ?_, o3⟩
    have hp := (C77_orbit 2 0 1 _ _ _ rfl hma hmb o o1).2.2.2.2.1
    have hmm : (leaf (C77_circle s 0) 0).m + (leaf (C77_circle s 1) 1).m = 1 := by
      simp only [leaf, h0, h1]; norm_num
    rw [hmm, o2, mul_one] at hp
    have hpos : 0 ≤ o.period := by
      unfold newOrbit at o1
      simp only at o1
      rw [ite_eq_iff] at o1
      rcases o1 with ⟨-, o1⟩ | ⟨-, o1⟩
      · exact absurd o1 (by simp)
      · have := Option.some.inj o1
        subst this
        exact mul_nonneg (by positivity) (Real.sqrt_nonneg _)
    refine (sq_eq_sq₀ hpos (by positivity)).1 ?_
    rw [hp]; ring

/-- The time step of the inner motion is the square root of what it should be (`Rgrav = m²/Egrav`, not
its square root): for close binaries on a circle it is longer than the period, by any factor. -/
theorem C77_crossing_fails (K : ℝ) (hK : 0 < K) : ∃ stars : ℕ → SysTree.Star 3,
    ∀ (cell0 : ℕ → Cell 3) (sys0 : ℕ → Sys 3),
      ∃ o, (build 0 (1 / 50) 2 3 stars C77_two cell0 sys0).orbits = [o] ∧ o.ecc = 0 ∧ 0 < o.period ∧
        K * o.period < ((build 0 (1 / 50) 2 3 stars C77_two cell0 sys0).sys 0).dtInt := by
  have hpi := Real.pi_pos
  refine ⟨C77_circle (1 / (K * Real.pi)), fun cell0 sys0 => ?_⟩
  have hs : 0 < 1 / (K * Real.pi) := by positivity
  obtain ⟨h1, o, h2, h3, h4⟩ := C77_circle_step _ hs cell0 sys0
  refine ⟨o, h2, h4, by rw [h3]; positivity, ?_⟩
  rw [h1, h3]
  have : K * (2 * Real.pi * (1 / (K * Real.pi)) ^ 3) = 2 * (1 / (K * Real.pi)) ^ 2 := by
    field_simp
  rw [this]
  have : 0 < (1 / (K * Real.pi)) ^ 2 := by positivity
  linarith

/-- what is meant: without the square root the time of a circle is the same part of the period, whatever
its size -/
example (s : ℝ) (hs : 0 < s) : 1 * 1 / (1 / (4 * s ^ 2)) / Real.sqrt (2 * (1 / (8 * s ^ 2)) / 1)
    = 4 / Real.pi * (2 * Real.pi * s ^ 3) := by
  have := Real.pi_pos
  rw [show 2 * (1 / (8 * s ^ 2)) / (1 : ℝ) = (1 / (2 * s)) ^ 2 by field_simp; norm_num,
    Real.sqrt_sq (by positivity)]
  field_simp

/-! ### Names of systems -/

/-- a name says how many stars there are -/
def C77_stars : String → ℕ
  | "binary" => 2
  | "triple" => 3
  | "quadruple" => 4
  | _ => 0

/-- The type agrees with the number of stars for two and three stars, and for four in two pairs.
Missing: four stars as a triple and one more, five and more. -/
theorem C77_kind_partial (N nnode : ℕ) (child : ℕ → Option (ℕ × ℕ)) (parent : ℕ → Option ℕ)
    (ht : Shape N nnode child parent) (c1 c2 : ℕ) (h1 : c1 < nnode) (h2 : c2 < nnode) (l1 l2 : List ℕ)
    (hl1 : Leaves child c1 l1) (hl2 : Leaves child c2 l2) (hle : l1.length ≤ 2) (hle2 : l2.length ≤ 2) :
    C77_stars (kind N c1 c2) = l1.length + l2.length := by
  have pos : ∀ c l, Leaves child c l → 1 ≤ l.length := by
    intro c l h
    induction h with
    | star => exact le_rfl
    | node c a b l m _ _ _ ih1 _ => rw [List.length_append]; omega
  have key : ∀ c l, c < nnode → Leaves child c l → (c < N → l.length = 1) ∧ (N ≤ c → 2 ≤ l.length) := by
    intro c l hc h
    cases h with
    | star c h =>
      refine ⟨fun _ => rfl, fun hN => ?_⟩
      obtain ⟨a, b, h', -⟩ := ht.inner c hN hc
      rw [h] at h'; exact absurd h' (by simp)
    | node c a b l m h ha hb =>
      refine ⟨fun hN => ?_, fun _ => ?_⟩
      · rw [ht.star c hN] at h; exact absurd h (by simp)
      · have := pos a l ha
        have := pos b m hb
        rw [List.length_append]; omega
  have k1 := key c1 l1 h1 hl1
  have k2 := key c2 l2 h2 hl2
  unfold kind
  by_cases a1 : c1 < N <;> by_cases a2 : c2 < N
  · rw [if_pos ⟨a1, a2⟩, k1.1 a1, k2.1 a2]; rfl
  · rw [if_neg (fun h => a2 h.2), if_pos (Or.inl a1), k1.1 a1,
      le_antisymm hle2 (k2.2 (not_lt.1 a2))]; rfl
  · rw [if_neg (fun h => a1 h.1), if_pos (Or.inr a2), k2.1 a2,
      le_antisymm hle (k1.2 (not_lt.1 a1))]; rfl
  · rw [if_neg (fun h => a1 h.1), if_neg (by rintro (h | h); exacts [a1 h, a2 h]),
      le_antisymm hle (k1.2 (not_lt.1 a1)), le_antisymm hle2 (k2.2 (not_lt.1 a2))]; rfl

example : C77_stars (kind 3 2 3) = 3 :=
  C77_kind_partial 3 5 _ _ C77_example_tree.shape 2 3 (by norm_num) (by norm_num) [2] ([0] ++ [1])
    (Leaves.star 2 rfl) (Leaves.node 3 0 1 [0] [1] rfl (Leaves.star 0 rfl) (Leaves.star 1 rfl))
    (by norm_num) (by norm_num)

/-- a chain: binary, triple, and a fourth star -/
def C77_chain (c : ℕ) : Option (ℕ × ℕ) :=
  if c = 4 then some (0, 1) else if c = 5 then some (2, 4) else if c = 6 then some (3, 5) else none

/-- parents of the chain -/
def C77_chainUp (c : ℕ) : Option ℕ :=
  if c ≤ 1 then some 4 else if c = 2 ∨ c = 4 then some 5 else if c = 3 ∨ c = 5 then some 6 else none

theorem C77_chain_tree : Complete 4 C77_chain C77_chainUp := by
  refine ⟨⟨fun c hc => ?_, fun c h1 h2 => ?_, fun d p hd hp => ?_⟩, fun d hd => ?_⟩
  · interval_cases c <;> rfl
  · interval_cases c
    · exact ⟨0, 1, rfl, by norm_num, by norm_num, by norm_num, rfl, rfl⟩
    · exact ⟨2, 4, rfl, by norm_num, by norm_num, by norm_num, rfl, rfl⟩
    · exact ⟨3, 5, rfl, by norm_num, by norm_num, by norm_num, rfl, rfl⟩
  · interval_cases d <;> simp [C77_chainUp] at hp <;> subst hp <;> simp [C77_chain]
  · interval_cases d <;> simp [C77_chainUp]

/-- a triple with a fourth star around it is called a triple -/
theorem C77_kind_fails : ∃ (l1 l2 : List ℕ), C77_chain 6 = some (3, 5) ∧ Leaves C77_chain 3 l1 ∧
    Leaves C77_chain 5 l2 ∧ l1.length + l2.length = 4 ∧ kind 4 3 5 = "triple" := by
  refine ⟨[3], [2] ++ ([0] ++ [1]), rfl, Leaves.star 3 rfl, Leaves.node 5 2 4 _ _ rfl (Leaves.star 2 rfl)
    (Leaves.node 4 0 1 _ _ rfl (Leaves.star 0 rfl) (Leaves.star 1 rfl)), rfl, by decide⟩

/-! ### Perturbers -/

/-- what may be on the list of perturbers -/
def C77_strong {n : ℕ} (hard gpeInt ms : ℝ) (rs : Vec n ℝ) (t : ℕ → PNode n) (b : Body) : Prop :=
  ∃ x, b = (t x).body ∧ (t x).ncomp = 1 ∧ hard * gpeInt < ms * (t x).m / Real.sqrt (distSq rs (t x).r)

theorem C77_inspect_sound {n : ℕ} (hard gpeInt ms : ℝ) (rs : Vec n ℝ) (nnode : ℕ) (t : ℕ → PNode n) :
    ∀ (fuel : ℕ) (st : List ℕ) (pert : List Body) (p : List ℕ × List Body),
      pert.length ≤ npertMax → (∀ b ∈ pert, C77_strong hard gpeInt ms rs t b) →
      inspect hard gpeInt ms rs nnode t fuel st pert = some p →
      p.2.length ≤ npertMax ∧ ∀ b ∈ p.2, C77_strong hard gpeInt ms rs t b := by
  intro fuel
  induction fuel with
  | zero => intro st pert p _ _ h; exact absurd h (by simp [inspect])
  | succ fuel ih =>
    intro st pert p hl hp h
    cases st with
    | nil =>
      rw [inspect] at h
      have := Option.some.inj h
      subst this
      exact ⟨hl, hp⟩
    | cons x st =>
      rw [inspect] at h
      have hl' : (if hard * gpeInt < pull ms rs (t x) ∧ ((t x).ncomp = 1 ∧ x ≠ nnode - 1)
          ∧ pert.length < npertMax then pert ++ [(t x).body] else pert).length ≤ npertMax := by
        split_ifs with hc
        · rw [List.length_append, List.length_singleton]; exact hc.2.2
        · exact hl
      have hp' : ∀ b ∈ (if hard * gpeInt < pull ms rs (t x) ∧ ((t x).ncomp = 1 ∧ x ≠ nnode - 1)
          ∧ pert.length < npertMax then pert ++ [(t x).body] else pert),
          C77_strong hard gpeInt ms rs t b := by
        intro b hb
        split_ifs at hb with hc
        · rcases List.mem_append.1 hb with hb | hb
          · exact hp b hb
          · rw [List.mem_singleton] at hb
            exact ⟨x, hb, hc.2.1.1, hc.1⟩
        · exact hp b hb
      generalize (if hard * gpeInt < pull ms rs (t x) ∧ ((t x).ncomp = 1 ∧ x ≠ nnode - 1)
          ∧ pert.length < npertMax then pert ++ [(t x).body] else pert) = q at h hl' hp'
      generalize (if hard * gpeInt < pull ms rs (t x) then
        if (t x).ncomp = 1 ∧ x ≠ nnode - 1 then st
        else (t x).child2 :: (t x).child1 :: st
      else st) = st' at h
      split_ifs at h with hc
      · exact ih st' q p hl' hp' h
      · have := Option.some.inj h
        subst this
        exact ⟨hl', hp'⟩

theorem C77_climb_sound {n : ℕ} (hard gpeInt ms : ℝ) (rs : Vec n ℝ) (nnode : ℕ) (t : ℕ → PNode n) :
    ∀ (fuel c : ℕ) (st : List ℕ) (pert l : List Body),
      pert.length ≤ npertMax → (∀ b ∈ pert, C77_strong hard gpeInt ms rs t b) →
      climb hard gpeInt ms rs nnode t fuel c st pert = some l →
      l.length ≤ npertMax ∧ ∀ b ∈ l, C77_strong hard gpeInt ms rs t b := by
  intro fuel
  induction fuel with
  | zero => intro c st pert l _ _ h; exact absurd h (by simp [climb])
  | succ fuel ih =>
    intro c st pert l hl hp h
    rw [climb] at h
    obtain ⟨p, h1, h2⟩ := Option.bind_eq_some_iff.1 h
    obtain ⟨a1, a2⟩ := C77_inspect_sound hard gpeInt ms rs nnode t fuel _ pert p hl hp h1
    split_ifs at h2 with hc
    · exact ih _ _ _ l a1 a2 h2
    · have := Option.some.inj h2
      subst this
      exact ⟨a1, a2⟩

/-- every perturber of a system is a star or a system whose energy with it is above the limit, and
there are at most four -/
theorem C77_perturbers {n : ℕ} (hard : ℝ) (nnode fuel : ℕ) (t : ℕ → PNode n) (s : Sys n)
    (l : List Body) (h : perturbers hard nnode fuel t s = some l) :
    l.length ≤ 4 ∧ ∀ b ∈ l, ∃ x, b = (t x).body ∧ (t x).ncomp = 1 ∧
      hard * s.gpeInt < (t s.inode).m * (t x).m / Real.sqrt (distSq s.r (t x).r) := by
  unfold perturbers at h
  split_ifs at h with hc
  · have := Option.some.inj h
    subst this
    exact ⟨by simp, fun b hb => absurd hb (by simp)⟩
  · exact C77_climb_sound hard s.gpeInt _ s.r nnode t fuel _ _ _ l (by simp) (fun b hb => absurd hb (by simp)) h

/-- A system with a weak sister node has no perturbers at all, however strongly other stars pull:
the search ends after the sister. -/
theorem C77_perturbers_fails {n : ℕ} (hard : ℝ) (nnode fuel : ℕ) (t : ℕ → PNode n) (s : Sys n)
    (hs : s.inode ≠ nnode - 1)
    (hw : (t s.inode).m * (t (t s.inode).nearest).m / Real.sqrt (distSq s.r (t (t s.inode).nearest).r)
      ≤ hard * s.gpeInt) :
    perturbers hard nnode (fuel + 2) t s = some [] := by
  unfold perturbers
  rw [if_neg hs]
  have hw' : ¬ hard * s.gpeInt < pull (t s.inode).m s.r (t (t s.inode).nearest) := not_lt.2 hw
  have hi : inspect hard s.gpeInt (t s.inode).m s.r nnode t (fuel + 1) [(t s.inode).nearest] []
      = some ([], []) := by
    rw [inspect]
    rw [if_neg hw', if_neg (fun h => h.1 rfl), if_neg (fun h => hw' h.1)]
  rw [climb, hi]
  simp

/-- A binary (nodes 0, 1; system at node 4), a light star 2 at its side, and a heavy star 3 a little
farther away, above the limit for perturbers: the list is empty. -/
example (fuel : ℕ) : ∃ (t : ℕ → PNode 1) (s : Sys 1), s.inode = 4 ∧ (t 4).nearest = 2 ∧
    (t 3).body = Body.star 3 ∧ (t 3).ncomp = 1 ∧
    1 / 1000 * s.gpeInt < (t s.inode).m * (t 3).m / Real.sqrt (distSq s.r (t 3).r) ∧
    perturbers (1 / 1000) 7 (fuel + 2) t s = some [] := by
  let t : ℕ → PNode 1 := fun c => { m := if c = 2 then 1 / 10000 else if c = 3 then 100 else 2
                                    r := if c = 2 then ![1] else if c = 3 then ![4] else ![0]
                                    ncomp := 1, body := Body.star c, child1 := 0, child2 := 1
                                    parent := if c = 4 then 5 else 6, nearest := 2 }
  let s : Sys 1 := { inode := 4, m := 2, r := ![0], v := ![0], gpeInt := 10, dtInt := 1, ncomp := 2
                     children := [Body.star 0, Body.star 1] }
  have h16 : Real.sqrt 16 = 4 := by
    rw [show (16 : ℝ) = 4 ^ 2 by norm_num]; exact Real.sqrt_sq (by norm_num)
  refine ⟨t, s, rfl, rfl, rfl, rfl, ?_, C77_perturbers_fails (1 / 1000) 7 fuel t s (by decide) ?_⟩
  · simp only [t, s, distSq, dot]
    norm_num [h16]
  · simp only [t, s, distSq, dot]
    norm_num

end Gandalf
