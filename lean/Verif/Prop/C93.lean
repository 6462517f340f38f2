import Verif.Proof.WorkShare
import Verif.Prop.C05
import Mathlib.Data.Fin.VecNotation
import Mathlib.Tactic.NormNum

/-!
# C93: the work is divided evenly among the processes

The work done for the particles is added up in the cells of the tree, measured in boxes with the pruned trees of all processes,
and the domains are divided where half the work lies on either side.
-/

set_option autoImplicit false

namespace Gandalf

open Work

variable {n : ℕ} {α : Type*} [Field α] [LinearOrder α] [IsStrictOrderedRing α]

/-! ### Cost of cells -/

/-- **Cost.** The time of a loop is shared out among the cells of the list in proportion to their active particles, all of it. -/
theorem C93_cost (twork : α) (l : List (ℕ × ℕ)) (nact : ℕ → ℕ) (work : ℕ → α) (hn : (l.map Prod.fst).Nodup)
    (hc : ∀ x ∈ l, x.2 = nact x.1) (hpos : 0 < (l.map Prod.snd).sum) :
    (∀ c, c ∉ l.map Prod.fst → addWork twork l nact work c = work c) ∧
    (∀ c ∈ l.map Prod.fst, (addWork twork l nact work c - work c) * ((l.map fun x => nact x.1).sum : ℕ) = twork * nact c) ∧
    (l.map fun x => addWork twork l nact work x.1 - work x.1).sum = twork := by
  have e := addWork_fold (fun c => twork * (nact c : α) / ((l.map Prod.snd).sum : ℕ)) l work hn
  have hs : (l.map fun x => nact x.1) = l.map Prod.snd := List.map_congr_left fun x hx => (hc x hx).symm
  have hne : (((l.map Prod.snd).sum : ℕ) : α) ≠ 0 := by exact_mod_cast hpos.ne'
  refine ⟨fun c hc' => ?_, fun c hc' => ?_, ?_⟩
  · have := e c
    rw [if_neg hc', add_zero] at this
    exact this
  · have := e c
    rw [if_pos hc'] at this
    unfold addWork
    rw [this, hs, add_sub_cancel_left, div_mul_cancel₀ _ hne]
  · have h1 : (l.map fun x => addWork twork l nact work x.1 - work x.1) =
        l.map fun x => twork / (((l.map Prod.snd).sum : ℕ) : α) * ((x.2 : ℕ) : α) := by
      refine List.map_congr_left fun x hx => ?_
      have := e x.1
      rw [if_pos (List.mem_map_of_mem hx)] at this
      unfold addWork
      rw [this, add_sub_cancel_left, hc x hx]
      ring
    rw [h1, List.sum_map_mul_left]
    have h2 : (l.map fun x => ((x.2 : ℕ) : α)).sum = (((l.map Prod.snd).sum : ℕ) : α) := by
      rw [Nat.cast_list_sum, List.map_map]
      rfl
    rw [h2, div_mul_cancel₀ _ hne]

/-- **Counters.** In the KD-tree each inner cell gets the sum of the works of its children, leaves keep theirs, and the root has
the sum over all leaves. -/
theorem C93_counters (ltot gmax : ℕ) (s t : KD.Links) (hg : 2 ^ ltot ≤ gmax) (ht : KD.createTreeStructure ltot gmax s = some t)
    (N : ℕ → ℕ) (hN : ∀ x a b, t.c1 x = some a → t.c2 x = some b → N x = N a + N b) (w : ℕ → α)
    (h0 : ∀ x, t.level x = ltot → N x = 0 → w x = 0) :
    ∃ v, updateWork t ltot N (ltot + 1) 0 w = some v ∧ (∀ x, t.level x = ltot → v x = w x) ∧
      (∀ x g, (KD.fullTree ltot 0 .nil).Node x g → g ≠ .nil → v x = topWork v g) ∧
      v 0 = ((KD.fullTree ltot 0 .nil).leaves.map w).sum := by
  obtain ⟨t', e, hl, _, _⟩ := C05_structure_is_preorder ltot gmax hg s
  rw [ht] at e
  obtain rfl := Option.some.inj e
  obtain ⟨v, h1, _, h3, _, h5, h6⟩ := updateWork_spec hN ltot 0 0 w hl h0
  exact ⟨v, h1, h3, kids_node ltot 0 h5, h6⟩

/-! ### Work in a box -/

/-- **Overlap.** The fraction is the part of the volume of the box `h` that lies in `b`, if they have no edge in common. -/
theorem C93_overlap (b h : Box n α) (hb : ∀ k, b.min k ≤ b.max k) (hh : ∀ k, h.min k < h.max k)
    (he : ∀ k, h.min k ≠ b.min k ∧ h.max k ≠ b.max k) :
    fracOverlap b h = share b h ∧ 0 ≤ fracOverlap b h ∧ fracOverlap b h ≤ 1 := by
  rw [frac_eq hb hh he]
  exact ⟨rfl, share_nonneg hh, share_le_one hh⟩

/-- **Negation.** With an edge in common the factor of that dimension is left out: a box that lies in the other has a fraction
of 4. -/
theorem C93_overlap_fails : ∃ b h : Box 1 ℚ, (∀ k, b.min k < b.max k) ∧ (∀ k, h.min k < h.max k) ∧ share b h = 1 ∧
    fracOverlap b h = 4 := by
  refine ⟨⟨![0], ![1 / 2]⟩, ⟨![0], ![1 / 4]⟩, ?_, ?_, ?_, ?_⟩ <;> norm_num [share, part, fracOverlap, overlap1]

/-- **Work in a box.** The walk over a pruned tree ends and gives the work of each leaf times its share; all of the work of the
roots if the box holds all cells. -/
theorem C93_work (T : Tol α) (P : Pruned n α) (f : Forest) (b : Box n α) (hT : T.full ≤ T.last) (hb : ∀ k, b.min k ≤ b.max k)
    (hP : Fits P f) (hcl : ∀ c ∈ f.cells, Clear T P.hbox b c) :
    workInBox T P b = some ((f.leaves.map fun c => share b (P.hbox c) * P.work c).sum) ∧
    (Tops (fun c => ∀ k, b.min k ≤ (P.hbox c).min k ∧ (P.hbox c).max k ≤ b.max k) f → workInBox T P b = some (topWork P.work f)) := by
  have e := workInBox_eq hT hb hP hcl
  refine ⟨?_, fun htop => ?_⟩
  · rw [e]
    simp [inBox, leafItems, List.map_map, Function.comp_def]
  · rw [e, all_below f hP.sums]
    have hs := hP.sums
    clear e hcl hP
    induction f with
    | nil => trivial
    | cons c ch rest _ ih => exact ⟨(share_one_iff hs.1).mpr htop.1, ih htop.2 hs.2.2.2.2⟩

/-- **Division.** The work on the two sides of a division adds up to the work in the box. -/
theorem C93_two_sides (T : Tol α) (l : List (Pruned n α × Forest)) (b : Box n α) (k : Fin n) (r : α) (hT : T.full ≤ T.last)
    (hb : ∀ j, b.min j ≤ b.max j) (h1 : b.min k ≤ r) (h2 : r ≤ b.max k) (hfit : ∀ x ∈ l, Fits x.1 x.2)
    (hcl : ∀ x ∈ l, ∀ c ∈ x.2.cells, Clear T x.1.hbox b c ∧ Clear T x.1.hbox (Mpi.leftBox b k r) c ∧
      Clear T x.1.hbox (Mpi.rightBox b k r) c) :
    ∃ w wl wr, sumWork T (l.map Prod.fst) b = some w ∧ sumWork T (l.map Prod.fst) (Mpi.leftBox b k r) = some wl ∧
      sumWork T (l.map Prod.fst) (Mpi.rightBox b k r) = some wr ∧ wl + wr = w := by
  have hbl : ∀ j, (Mpi.leftBox b k r).min j ≤ (Mpi.leftBox b k r).max j := by
    intro j
    by_cases hj : j = k
    · subst hj; simpa [Mpi.leftBox] using h1
    · simpa [Mpi.leftBox, Function.update_of_ne hj] using hb j
  have hbr : ∀ j, (Mpi.rightBox b k r).min j ≤ (Mpi.rightBox b k r).max j := by
    intro j
    by_cases hj : j = k
    · subst hj; simpa [Mpi.rightBox] using h2
    · simpa [Mpi.rightBox, Function.update_of_ne hj] using hb j
  exact ⟨_, _, _, sumWork_eq hT hb l fun x hx => ⟨hfit x hx, fun c hc => (hcl x hx c hc).1⟩,
    sumWork_eq hT hbl l fun x hx => ⟨hfit x hx, fun c hc => (hcl x hx c hc).2.1⟩,
    sumWork_eq hT hbr l fun x hx => ⟨hfit x hx, fun c hc => (hcl x hx c hc).2.2⟩, inBox_add h1 h2 _ (allItems_wide l hfit)⟩

/-! ### Load balancing -/

/-- **Balance.** The bisection ends after `m + 1` turns at most, inside of the box, where the work on the two sides differs by
`2 worktol` of the work in the box at most; `2 ^ m` must exceed the steepness of the work by `1 / (2 worktol)`. -/
theorem C93_balance (T : Tol α) (l : List (Pruned n α × Forest)) (b : Box n α) (k : Fin n) (rold : α) (m : ℕ)
    (hT : T.full ≤ T.last) (ht : 0 < T.work) (ht' : T.work < 1 / 2) (hb : ∀ j, b.min j ≤ b.max j) (h1 : b.min k < rold)
    (h2 : rold < b.max k) (hfit : ∀ x ∈ l, Fits x.1 x.2) (hw : ∀ y ∈ allItems l, 0 ≤ y.2) (hpos : 0 < inBox b (allItems l))
    (hcl : ∀ r, Looks (m + 1) (b.min k) (b.max k) rold r → ∀ x ∈ l, ∀ c ∈ x.2.cells,
      Clear T x.1.hbox (Mpi.leftBox b k r) c ∧ Clear T x.1.hbox (Mpi.rightBox b k r) c)
    (hm : (b.max k - b.min k) * ((allItems l).map fun y => y.2 / (y.1.max k - y.1.min k)).sum ≤
      2 * T.work * inBox b (allItems l) * 2 ^ m) :
    ∃ r, findDivision T (l.map Prod.fst) (m + 1) k rold b = some r ∧ b.min k < r ∧ r < b.max k ∧
      |inBox (Mpi.leftBox b k r) (allItems l) - inBox (Mpi.rightBox b k r) (allItems l)| ≤
        2 * T.work * inBox b (allItems l) := by
  have hwide := allItems_wide l hfit
  have hlip : ∀ x y, b.min k ≤ x → x ≤ y → y ≤ b.max k → inBox (Mpi.leftBox b k y) (allItems l) ≤
      inBox (Mpi.leftBox b k x) (allItems l) + (y - x) * ((allItems l).map fun y => y.2 / (y.1.max k - y.1.min k)).sum :=
    fun x y _ hxy _ => (inBox_mono hxy _ fun z hz => ⟨hwide z hz, hw z hz⟩).2
  have hK : 0 ≤ ((allItems l).map fun y => y.2 / (y.1.max k - y.1.min k)).sum := by
    refine List.sum_nonneg fun q hq => ?_
    obtain ⟨y, hy, rfl⟩ := List.mem_map.mp hq
    exact div_nonneg (hw y hy) (by linarith [hwide y hy k])
  have hends := loop_ends (wl := fun r => sumWork T (l.map Prod.fst) (Mpi.leftBox b k r))
    (wr := fun r => sumWork T (l.map Prod.fst) (Mpi.rightBox b k r)) (tol := T.work)
    (A := fun r => inBox (Mpi.leftBox b k r) (allItems l)) hpos ht hK m (b.min k) (b.max k) rold h1 h2
    (by rw [inBox_empty k _ hwide]; exact mul_pos (by linarith) hpos)
    (by
      rw [leftBox_self]
      have := mul_lt_mul_of_pos_right (show 1 / 2 + T.work < 1 by linarith) hpos
      linarith)
    hlip hm ?_
  · obtain ⟨z, e, z1, z2, z3, z4⟩ := hends
    refine ⟨z, e, z1, z2, ?_⟩
    have hadd := inBox_add (b := b) z1.le z2.le (allItems l) hwide
    rw [abs_le]
    constructor <;> linarith
  · intro x hx
    obtain ⟨x1, x2⟩ := looks_between _ hx h1 h2
    have hbl : ∀ j, (Mpi.leftBox b k x).min j ≤ (Mpi.leftBox b k x).max j := by
      intro j
      by_cases hj : j = k
      · subst hj; simpa [Mpi.leftBox] using x1.le
      · simpa [Mpi.leftBox, Function.update_of_ne hj] using hb j
    have hbr : ∀ j, (Mpi.rightBox b k x).min j ≤ (Mpi.rightBox b k x).max j := by
      intro j
      by_cases hj : j = k
      · subst hj; simpa [Mpi.rightBox] using x2.le
      · simpa [Mpi.rightBox, Function.update_of_ne hj] using hb j
    refine ⟨sumWork_eq hT hbl l fun y hy => ⟨hfit y hy, fun c hc => (hcl x hx y hy c hc).1⟩, ?_⟩
    have := inBox_add (b := b) x1.le x2.le (allItems l) hwide
    rw [show inBox b (allItems l) - inBox (Mpi.leftBox b k x) (allItems l) = inBox (Mpi.rightBox b k x) (allItems l) by linarith]
    exact sumWork_eq hT hbr l fun y hy => ⟨hfit y hy, fun c hc => (hcl x hx y hy c hc).2⟩

/-- **No work.** If no work has been recorded in the box the division stays where it is. -/
theorem C93_idle (T : Tol α) (l : List (Pruned n α × Forest)) (b : Box n α) (k : Fin n) (rold : α) (fuel : ℕ)
    (hT : T.full ≤ T.last) (hb : ∀ j, b.min j ≤ b.max j) (h1 : b.min k < rold) (h2 : rold < b.max k)
    (hfit : ∀ x ∈ l, Fits x.1 x.2) (hzero : inBox b (allItems l) = 0)
    (hcl : ∀ x ∈ l, ∀ c ∈ x.2.cells, Clear T x.1.hbox b c ∧ Clear T x.1.hbox (Mpi.leftBox b k rold) c ∧
      Clear T x.1.hbox (Mpi.rightBox b k rold) c) :
    findDivision T (l.map Prod.fst) (fuel + 1) k rold b = some rold := by
  obtain ⟨w, wl, wr, e0, e1, e2, e3⟩ := C93_two_sides T l b k rold hT hb h1.le h2.le hfit hcl
  have : w = 0 := by
    have := sumWork_eq hT hb l fun x hx => ⟨hfit x hx, fun c hc => (hcl x hx c hc).1⟩
    rw [e0, hzero] at this
    exact Option.some.inj this
  simp only [findDivision, loop, e1, e2]
  rw [if_pos (e3.trans this)]

/-! ### Cases -/

/-- two leaf cells beneath a root -/
def C93.forest : Forest := .cons 0 (.cons 1 .nil (.cons 2 .nil .nil)) .nil

/-- links of `C93.forest` -/
def C93.links : Walk.Links where
  copen c := if c = 0 then some 1 else none
  cnext c := some (if c = 0 then 3 else c + 1)

/-- cells on a line: `[0, 4]` with work 1 and `[5, 6]` with work 1/4 -/
def C93.tree : Pruned 1 ℚ where
  links := C93.links
  Ncell := 3
  hbox c := if c = 0 then ⟨fun _ => 0, fun _ => 6⟩ else if c = 1 then ⟨fun _ => 0, fun _ => 4⟩ else ⟨fun _ => 5, fun _ => 6⟩
  work c := if c = 0 then 5 / 4 else if c = 1 then 1 else 1 / 4

/-- the numbers as a compiler rounds them -/
def C93.tol (x : ℚ) : Tol ℚ := ⟨1 / 10 ^ 20, 1, 1, x⟩

theorem C93.fits : Fits C93.tree C93.forest where
  entry := rfl
  linked := by simp [C93.forest, Forest.Linked, C93.tree, C93.links, Forest.entry]
  cells := by simp [C93.forest, Forest.cells, C93.tree]
  size := by simp [C93.forest, Forest.size, C93.tree]
  sums := by
    simp [C93.forest, Sums, Tops, topWork, C93.tree]
    norm_num

/-- **Negation.** A division at the edge of a cell passes for even although 80 percent of the work lie on one side. -/
theorem C93_balance_fails : Fits C93.tree C93.forest ∧
    findDivision (C93.tol (1 / 1000)) [C93.tree] 1 0 4 ⟨fun _ => -10, fun _ => 10⟩ = some 4 ∧
    inBox (Mpi.leftBox ⟨fun _ => -10, fun _ => 10⟩ 0 4) (leafItems C93.tree.hbox C93.tree.work C93.forest) = 1 ∧
    inBox (Mpi.rightBox ⟨fun _ => -10, fun _ => 10⟩ 0 4) (leafItems C93.tree.hbox C93.tree.work C93.forest) = 1 / 4 := by
  refine ⟨C93.fits, by decide +kernel, ?_, ?_⟩
  · norm_num [inBox, leafItems, C93.forest, Forest.leaves, C93.tree, share, part, Mpi.leftBox]
  · norm_num [inBox, leafItems, C93.forest, Forest.leaves, C93.tree, share, part, Mpi.rightBox]

/-- The same cells, divided from 7/2 on: three turns are enough for a tolerance of 2/5. -/
example : ∃ r, findDivision (C93.tol (2 / 5)) [C93.tree] 3 0 (7 / 2) ⟨fun _ => -1, fun _ => 7⟩ = some r ∧ -1 < r ∧ r < 7 := by
  obtain ⟨r, e, h1, h2, _⟩ := C93_balance (C93.tol (2 / 5)) [(C93.tree, C93.forest)] ⟨fun _ => -1, fun _ => 7⟩ 0 (7 / 2) 2
    (by norm_num [C93.tol]) (by norm_num [C93.tol]) (by norm_num [C93.tol]) (by norm_num) (by norm_num) (by norm_num)
    (by simpa using C93.fits)
    (by norm_num [allItems, leafItems, C93.forest, Forest.leaves, C93.tree])
    (by norm_num [allItems, leafItems, inBox, C93.forest, Forest.leaves, C93.tree, share, part])
    (by
      intro r hr
      simp only [Looks, or_false] at hr
      rcases hr with rfl | (rfl | rfl | rfl) | rfl | rfl | rfl <;>
        (simp only [Clear]; decide +kernel))
    (by norm_num [allItems, leafItems, inBox, C93.forest, Forest.leaves, C93.tree, C93.tol, share, part])
  exact ⟨r, e, h1, h2⟩

example : workInBox (C93.tol (1 / 1000)) C93.tree ⟨fun _ => 1, fun _ => 7⟩ = some 1 := by decide +kernel

/-- Two cells with 1 and 3 active particles. -/
example : addWork (8 : ℚ) [(4, 1), (7, 3)] (fun c => if c = 4 then 1 else 3) (fun _ => 1) 7 = 7 := by
  norm_num [addWork]

end Gandalf
