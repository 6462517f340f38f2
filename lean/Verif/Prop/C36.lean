import Verif.Spec.Box
import Mathlib.Algebra.Order.BigOperators.Ring.Finset

/-!
# C36 – box predicates agree with geometry
-/

set_option autoImplicit false

namespace Gandalf

variable {n : ℕ} {α : Type*} [Field α] [LinearOrder α]

/-- **C36.** `BoxOverlap` of two non-empty boxes is true exactly when they share a point. -/
theorem C36_boxOverlap_iff (a b : Box n α) (ha : a.Ordered) (hb : b.Ordered) :
    boxOverlap a b = true ↔ ∃ x, a.Mem x ∧ b.Mem x := by
  simp only [boxOverlap, List.all_eq_true, List.mem_finRange, true_implies]
  constructor
  · intro h
    refine ⟨fun k => max (a.min k) (b.min k), ?_, ?_⟩
    · intro k
      have := h k
      split_ifs at this with h1 h2
      exact ⟨le_max_left _ _, max_le (ha k) (not_lt.mp h2)⟩
    · intro k
      have := h k
      split_ifs at this with h1 h2
      exact ⟨le_max_right _ _, max_le (not_lt.mp h1) (hb k)⟩
  · rintro ⟨x, h1, h2⟩ k
    rw [if_neg (not_lt.mpr ((h1 k).1.trans (h2 k).2)), if_neg (not_lt.mpr ((h2 k).1.trans (h1 k).2))]

/-- **C36.** The other implementation, `BoxesOverlap`, is the same predicate. -/
theorem C36_boxesOverlap_iff (a b : Box n α) (ha : a.Ordered) (hb : b.Ordered) :
    boxesOverlap a b = true ↔ ∃ x, a.Mem x ∧ b.Mem x := by
  have fold : ∀ (l : List (Fin n)) (p : Fin n → Bool) (r : Bool),
      l.foldl (fun res k => res && p k) r = true ↔ r = true ∧ ∀ k ∈ l, p k = true := by
    intro l p
    induction l with
    | nil => simp
    | cons k l ih => intro r; simp [ih, and_assoc]
  rw [boxesOverlap, fold]
  simp only [true_and, List.mem_finRange, true_implies, valueInRange, Bool.or_eq_true,
    Bool.and_eq_true, decide_eq_true_eq, ge_iff_le]
  constructor
  · intro h
    refine ⟨fun k => max (a.min k) (b.min k), ?_, ?_⟩
    · intro k
      refine ⟨le_max_left _ _, max_le (ha k) ?_⟩
      rcases h k with h | h
      · exact h.1.trans (ha k)
      · exact h.2
    · intro k
      refine ⟨le_max_right _ _, max_le ?_ (hb k)⟩
      rcases h k with h | h
      · exact h.2
      · exact h.1.trans (hb k)
  · rintro ⟨x, h1, h2⟩ k
    rcases le_total (a.min k) (b.min k) with h | h
    · exact Or.inr ⟨h, (h2 k).1.trans (h1 k).2⟩
    · exact Or.inl ⟨h, (h1 k).1.trans (h2 k).2⟩

/-- **C36.** `ParticleInBox` is membership in the half-open box. -/
theorem C36_particleInBox_iff (r : Vec n α) (b : Box n α) :
    particleInBox r b = true ↔ ∀ k, b.min k ≤ r k ∧ r k < b.max k := by
  simp [particleInBox, not_or]

variable [IsStrictOrderedRing α]

theorem fracStep_spec (b1 b2 : Box n α) (hne : ∀ k, b1.min k ≠ b2.min k ∧ b1.max k ≠ b2.max k)
    (h1 : b1.Ordered) (h2 : b2.Ordered) (s : α × α) (k : Fin n) :
    fracStep b1 b2 s k = (s.1 * (b1.max k - b1.min k),
      s.2 * max 0 (min (b1.max k) (b2.max k) - max (b1.min k) (b2.min k))) := by
  obtain ⟨n1, n2⟩ := hne k
  have o1 := h1 k
  have o2 := h2 k
  simp only [fracStep]
  rcases lt_or_gt_of_ne n1 with g1 | g1 <;> rcases lt_or_gt_of_ne n2 with g2 | g2
  · by_cases c : b1.max k ≤ b2.min k ∨ b1.min k ≥ b2.max k
    · rw [if_pos c, min_eq_left g2.le, max_eq_right g1.le, max_eq_left]
      rcases c with c | c <;> linarith
    · rw [if_neg c, if_neg (by intro h; linarith [h.1]), if_neg (by intro h; linarith [h.2]),
        if_pos ⟨g1, g2⟩, min_eq_left g2.le, max_eq_right g1.le, max_eq_right]
      push Not at c
      linarith [c.1]
  · by_cases c : b1.max k ≤ b2.min k ∨ b1.min k ≥ b2.max k
    · rw [if_pos c, min_eq_right g2.le, max_eq_right g1.le, max_eq_left]
      rcases c with c | c <;> linarith
    · rw [if_neg c, if_neg (by intro h; linarith [h.1]), if_pos ⟨g1, g2⟩, min_eq_right g2.le,
        max_eq_right g1.le, max_eq_right]
      linarith
  · by_cases c : b1.max k ≤ b2.min k ∨ b1.min k ≥ b2.max k
    · rw [if_pos c, min_eq_left g2.le, max_eq_left g1.le, max_eq_left]
      rcases c with c | c <;> linarith
    · rw [if_neg c, if_pos ⟨g1, g2⟩, min_eq_left g2.le, max_eq_left g1.le, max_eq_right]
      linarith
  · by_cases c : b1.max k ≤ b2.min k ∨ b1.min k ≥ b2.max k
    · rw [if_pos c, min_eq_right g2.le, max_eq_left g1.le, max_eq_left]
      rcases c with c | c <;> linarith
    · rw [if_neg c, if_neg (by intro h; linarith [h.2]), if_neg (by intro h; linarith [h.1]),
        if_neg (by intro h; linarith [h.1]), if_pos ⟨g1, g2⟩, min_eq_right g2.le, max_eq_left g1.le,
        max_eq_right]
      push Not at c
      linarith [c.2]

/-- **C36 (fractional overlap, partial).** If no face of the two boxes coincides, the returned number
is (common volume)/(volume of the *second argument*), and it lies in `[0,1]`.
Missing: coinciding faces, where the code returns a wrong value (next theorem). -/
theorem C36_fractionalBoxOverlap_partial (a b : Box n α) (ha : a.Ordered) (hb : b.Ordered)
    (hne : ∀ k, b.min k ≠ a.min k ∧ b.max k ≠ a.max k) (hv : 0 < b.volume) :
    fractionalBoxOverlap a b = Box.commonVolume b a / b.volume ∧
      0 ≤ fractionalBoxOverlap a b ∧ fractionalBoxOverlap a b ≤ 1 := by
  have key : ∀ (l : List (Fin n)) (s : α × α), l.foldl (fracStep b a) s =
      (s.1 * (l.map fun k => b.max k - b.min k).prod, s.2 * (l.map fun k =>
        max 0 (min (b.max k) (a.max k) - max (b.min k) (a.min k))).prod) := by
    intro l
    induction l with
    | nil => simp
    | cons k l ih =>
      intro s
      rw [List.foldl_cons, ih, fracStep_spec b a hne hb ha]
      simp [mul_assoc]
  have e : fractionalBoxOverlap a b = Box.commonVolume b a / b.volume := by
    simp only [fractionalBoxOverlap, key, one_mul]
    rw [← List.ofFn_eq_map, ← List.ofFn_eq_map, List.prod_ofFn, List.prod_ofFn]
    exact if_pos hv
  have c0 : 0 ≤ Box.commonVolume b a := Finset.prod_nonneg fun k _ => le_max_left _ _
  have c1 : Box.commonVolume b a ≤ b.volume := by
    apply Finset.prod_le_prod
    · intro k _; exact le_max_left _ _
    · intro k _
      refine max_le (by linarith [hb k]) ?_
      linarith [min_le_left (b.max k) (a.max k), le_max_left (b.min k) (a.min k)]
  rw [e]
  exact ⟨rfl, div_nonneg c0 hv.le, (div_le_one hv).mpr c1⟩

/-- **C36, defect.** When the boxes share a face the code falls through to the "should never get here"
branch: for the box [0,2] in itself it returns 1/2 instead of 1 … -/
theorem C36_fractionalBoxOverlap_defect :
    fractionalBoxOverlap (n := 1) (α := ℚ) ⟨fun _ => 0, fun _ => 2⟩ ⟨fun _ => 0, fun _ => 2⟩ = 1 / 2 ∧
    Box.commonVolume (n := 1) (α := ℚ) ⟨fun _ => 0, fun _ => 2⟩ ⟨fun _ => 0, fun _ => 2⟩ /
      Box.volume (n := 1) (α := ℚ) ⟨fun _ => 0, fun _ => 2⟩ = 1 := by
  constructor
  · norm_num [fractionalBoxOverlap, fracStep, List.finRange]
  · norm_num [Box.commonVolume, Box.volume]

/-- … and for a box of side 1/2 sharing its lower face it returns 2, violating its own assertion. -/
theorem C36_fractionalBoxOverlap_above_one :
    fractionalBoxOverlap (n := 1) (α := ℚ) ⟨fun _ => 0, fun _ => 2⟩ ⟨fun _ => 0, fun _ => 1/2⟩ = 2 := by
  norm_num [fractionalBoxOverlap, fracStep, List.finRange]

/-- two overlapping unit squares -/
example : boxOverlap (n := 2) (α := ℚ) ⟨fun _ => 0, fun _ => 1⟩ ⟨fun _ => 1, fun _ => 2⟩ = true ∧
    boxOverlap (n := 2) (α := ℚ) ⟨fun _ => 0, fun _ => 1⟩ ⟨fun k => if k = 1 then 2 else 0, fun _ => 3⟩
      = false := by
  constructor <;> decide +kernel

example : fractionalBoxOverlap (n := 1) (α := ℚ) ⟨fun _ => 1, fun _ => 5⟩ ⟨fun _ => 0, fun _ => 4⟩ =
    3 / 4 := by norm_num [fractionalBoxOverlap, fracStep, List.finRange]

end Gandalf
