import Verif.Spec.Box
import Mathlib.Algebra.Order.Ring.Abs
import Mathlib.Algebra.Order.Ring.Int

/-! Minimum image lemmas. -/

set_option autoImplicit false

namespace Gandalf

variable {n : ℕ} {α : Type*} [Field α] [LinearOrder α] [IsStrictOrderedRing α]

/-- one-dimensional correction -/
def wrap1 (size x : α) : α :=
  if x > 1 / 2 * size then x - size else if x < -(1 / 2 * size) then x + size else x

theorem wrap1_image (size x : α) : ∃ m : ℤ, wrap1 size x = x + m * size ∧ (m = -1 ∨ m = 0 ∨ m = 1) := by
  unfold wrap1
  split_ifs
  · exact ⟨-1, by push_cast; ring, by simp⟩
  · exact ⟨1, by push_cast; ring, by simp⟩
  · exact ⟨0, by push_cast; ring, by simp⟩

theorem wrap1_abs {size x : α} (hx : |x| ≤ 3 / 2 * size) : |wrap1 size x| ≤ 1 / 2 * size := by
  have h := abs_le.mp hx
  unfold wrap1
  split_ifs with h1 h2 <;> rw [abs_le] <;> constructor <;> linarith

theorem abs_le_image {size y : α} (hs : 0 ≤ size) (hy : |y| ≤ 1 / 2 * size) (m : ℤ) :
    |y| ≤ |y + m * size| := by
  rcases eq_or_ne m 0 with rfl | hm
  · simp
  · have h1 : (1 : α) ≤ |(m : α)| := by
      rw [← Int.cast_abs]
      exact_mod_cast Int.one_le_abs hm
    have h2 : size ≤ |(m : α) * size| := by
      rw [abs_mul, abs_of_nonneg hs]
      nlinarith
    have h3 := abs_sub_abs_le_abs_sub ((m : α) * size) (-y)
    rw [abs_neg, sub_neg_eq_add, add_comm ((m : α) * size) y] at h3
    linarith

/-- the corrected separation is the smallest of all images -/
theorem wrap1_min {size x : α} (hs : 0 ≤ size) (hx : |x| ≤ 3 / 2 * size) (m : ℤ) :
    |wrap1 size x| ≤ |x + m * size| := by
  obtain ⟨m', e, _⟩ := wrap1_image size x
  have := abs_le_image hs (wrap1_abs hx) (m - m')
  rw [e] at this ⊢
  convert this using 2
  push_cast
  ring

/-- both implementations compute `wrap1` in the periodic dimensions -/
theorem nearest_eq (d : Domain n α) (hd : d.WF) (dr : Vec n α) (k : Fin n) :
    (nearestPeriodicVector d dr).1 k = if d.lhs k = .periodic then wrap1 (d.size k) (dr k)
      else dr k := by
  simp only [nearestPeriodicVector, wrap1, hd.half k]
  by_cases h : d.lhs k = .periodic
  · rw [if_pos ⟨h, (hd.pair k).mp h⟩, if_pos h]
    split_ifs <;> ring
  · rw [if_neg (fun hc => h hc.1), if_neg h, add_zero]

omit [IsStrictOrderedRing α] in
theorem anyPeriodic_iff (d : Domain n α) : d.anyPeriodic = true ↔ ∃ k, d.lhs k = .periodic := by
  simp [Domain.anyPeriodic, Domain.periodicBound]

omit [IsStrictOrderedRing α] in
theorem ghostNearest_eq (d : Domain n α) (hd : d.WF) (dr : Vec n α) (k : Fin n) :
    ghostNearest d dr k = if d.lhs k = .periodic then wrap1 (d.size k) (dr k) else dr k := by
  unfold ghostNearest
  by_cases ha : d.anyPeriodic = true
  · rw [if_pos ha]
    simp only [wrap1, hd.half k, Domain.periodicBound, beq_iff_eq]
  · rw [if_neg ha]
    rw [anyPeriodic_iff] at ha
    push Not at ha
    rw [if_neg (ha k)]

theorem applyPeriodic_eq (d : Domain n α) (hd : d.WF) (r dr : Vec n α) (k : Fin n) :
    (applyPeriodic d r dr).2 k = ghostNearest d dr k ∧
    (applyPeriodic d r dr).1 k - r k = ghostNearest d dr k - dr k := by
  unfold applyPeriodic ghostNearest
  split_ifs
  · simp only []
    constructor
    · split_ifs <;> ring
    · split_ifs <;> ring
  · simp

theorem dot_le_dot {x y : Vec n α} (h : ∀ k, |x k| ≤ |y k|) : dot x x ≤ dot y y := by
  apply Finset.sum_le_sum
  intro k _
  exact mul_self_le_mul_self_of_abs h k
where
  mul_self_le_mul_self_of_abs (h : ∀ k, |x k| ≤ |y k|) (k : Fin n) : x k * x k ≤ y k * y k := by
    rw [← abs_mul_abs_self (x k), ← abs_mul_abs_self (y k)]
    exact mul_self_le_mul_self (abs_nonneg _) (h k)

omit [IsStrictOrderedRing α] in
/-- flags set while going through the dimensions of a list -/
theorem periodicFlag_foldl (d : Domain n α) (dr : Vec n α) (b : ℕ) : ∀ (l : List (Fin n))
    (f : BitVec 32), (l.foldl (periodicFlag d dr) f).getLsbD b = true ↔
      f.getLsbD b = true ∨ ∃ k ∈ l, d.lhs k = .periodic ∧
        ((dr k > d.half k ∧ (Flags.periodic_bound_flags (dimFlag k) 1).getLsbD b = true) ∨
         (¬ dr k > d.half k ∧ dr k < -d.half k ∧
          (Flags.periodic_bound_flags (dimFlag k) 0).getLsbD b = true)) := by
  intro l
  induction l with
  | nil => simp
  | cons k l ih =>
    intro f
    rw [List.foldl_cons, ih]
    simp only [List.mem_cons, exists_eq_or_imp, periodicFlag, Domain.periodicBound, beq_iff_eq,
      Flags.set]
    by_cases h1 : d.lhs k = .periodic
    · by_cases h2 : dr k > d.half k
      · simp only [h1, h2, if_true, BitVec.getLsbD_or, Bool.or_eq_true, true_and, not_true_eq_false,
          false_and, or_false, or_assoc]
      · by_cases h3 : dr k < -d.half k
        · simp only [h1, h2, h3, if_true, if_false, BitVec.getLsbD_or, Bool.or_eq_true, true_and,
            not_false_eq_true, false_and, false_or, or_assoc]
        · simp only [h1, h2, h3, if_true, if_false, true_and, false_and, and_false,
            or_false, false_or]
    · simp only [h1, if_false, false_and, false_or]

omit [IsStrictOrderedRing α] in
/-- any periodic correction made ⟺ the returned word contains a periodic flag -/
theorem periodicFlags_is_periodic (d : Domain n α) (dr : Vec n α) :
    Flags.is_periodic (periodicFlags d dr) = true ↔
      ∃ k, d.lhs k = .periodic ∧ (dr k > d.half k ∨ dr k < -d.half k) := by
  have bits : ∀ (k : Fin 3) (s : Fin 2), ∃ b, b < 32 ∧ Flags.periodic_boundary.getLsbD b = true ∧
      (Flags.periodic_bound_flags k s).getLsbD b = true := by decide +kernel
  have key : Flags.is_periodic (periodicFlags d dr) = true ↔ ∃ b, b < 32 ∧
      (periodicFlags d dr).getLsbD b = true ∧ Flags.periodic_boundary.getLsbD b = true := by
    simp only [Flags.is_periodic, bne_iff_ne, ne_eq]
    constructor
    · intro h
      by_contra hc
      apply h
      apply BitVec.eq_of_getLsbD_eq
      intro i hi
      rw [BitVec.getLsbD_and]
      cases h1 : (periodicFlags d dr).getLsbD i <;>
        cases h2 : Flags.periodic_boundary.getLsbD i <;> simp
      exact hc ⟨i, hi, h1, h2⟩
    · rintro ⟨b, _, h1, h2⟩ h
      have := congrArg (fun x => x.getLsbD b) h
      simp [h1, h2] at this
  rw [key]
  unfold periodicFlags
  by_cases ha : d.anyPeriodic = true
  · rw [if_pos ha]
    constructor
    · rintro ⟨b, _, h1, _⟩
      rw [periodicFlag_foldl] at h1
      rcases h1 with h1 | ⟨k, _, h2, h3⟩
      · simp [Flags.none_] at h1
      · exact ⟨k, h2, h3.imp (fun h => h.1) (fun h => h.2.1)⟩
    · rintro ⟨k, h1, h2⟩
      by_cases h3 : dr k > d.half k
      · obtain ⟨b, hb, e1, e2⟩ := bits (dimFlag k) 1
        refine ⟨b, hb, ?_, e1⟩
        rw [periodicFlag_foldl]
        exact Or.inr ⟨k, List.mem_finRange k, h1, Or.inl ⟨h3, e2⟩⟩
      · obtain ⟨b, hb, e1, e2⟩ := bits (dimFlag k) 0
        refine ⟨b, hb, ?_, e1⟩
        rw [periodicFlag_foldl]
        exact Or.inr ⟨k, List.mem_finRange k, h1, Or.inr ⟨h3, h2.resolve_left h3, e2⟩⟩
  · rw [if_neg ha]
    rw [anyPeriodic_iff] at ha
    push Not at ha
    constructor
    · rintro ⟨b, _, h1, _⟩
      simp [Flags.none_] at h1
    · rintro ⟨k, h1, _⟩
      exact absurd h1 (ha k)

end Gandalf
