import Verif.Model.StepLaw
import Mathlib.Tactic.Linarith
import Mathlib.Tactic.Positivity
import Mathlib.Tactic.FieldSimp
import Mathlib.Tactic.LinearCombination

/-! Lemmas on the laws for the time steps. -/

set_option autoImplicit false

namespace Gandalf.TStep

variable {n : ℕ}

theorem small_pos : 0 < small := by unfold small; positivity
theorem smallDp_pos : 0 < smallDp := by unfold smallDp; positivity
theorem big_pos : 0 < big := by unfold big; positivity
theorem bigDp_pos : 0 < bigDp := by unfold bigDp; positivity

theorem dot_self_nonneg (a : Vec n ℝ) : 0 ≤ dot a a := Finset.sum_nonneg fun _ _ => mul_self_nonneg _

theorem mag_nonneg (a : Vec n ℝ) : 0 ≤ mag a := Real.sqrt_nonneg _

/-- `d ≤ m √(h / b)` for non-negative `d` means `d² b ≤ m² h` -/
theorem le_mul_sqrt_iff {d m h b : ℝ} (hd : 0 ≤ d) (hm : 0 ≤ m) (hh : 0 ≤ h) (hb : 0 < b) :
    d ≤ m * √(h / b) ↔ d ^ 2 * b ≤ m ^ 2 * h := by
  have hq : 0 ≤ h / b := div_nonneg hh hb.le
  rw [← abs_of_nonneg hd, ← abs_of_nonneg (mul_nonneg hm (Real.sqrt_nonneg _)), ← sq_le_sq, mul_pow, Real.sq_sqrt hq, sq_abs,
    mul_div_assoc', le_div_iff₀ hb]

/-- the same as a bound with the addition `e` in the denominator dropped -/
theorem sq_le_of_le {d m h b e : ℝ} (hd : 0 ≤ d) (hm : 0 ≤ m) (hh : 0 ≤ h) (hb : 0 ≤ b) (he : 0 < e)
    (hle : d ≤ m * √(h / (b + e))) : d ^ 2 * b ≤ m ^ 2 * h := by
  have := (le_mul_sqrt_iff hd hm hh (add_pos_of_nonneg_of_pos hb he)).mp hle
  nlinarith [sq_nonneg d]

theorem foldl_max (f : Neib n → ℝ) : ∀ (l : List (Neib n)) (m : ℝ),
    m ≤ l.foldl (fun m j => max m (f j)) m ∧ (∀ j ∈ l, f j ≤ l.foldl (fun m j => max m (f j)) m) ∧
    (l.foldl (fun m j => max m (f j)) m = m ∨ ∃ j ∈ l, l.foldl (fun m j => max m (f j)) m = f j) := by
  intro l
  induction l with
  | nil => intro m; exact ⟨le_rfl, by simp, Or.inl rfl⟩
  | cons a l ih =>
    intro m
    obtain ⟨h1, h2, h3⟩ := ih (max m (f a))
    simp only [List.foldl_cons]
    refine ⟨(le_max_left _ _).trans h1, fun j hj => ?_, ?_⟩
    · rcases List.mem_cons.mp hj with rfl | hj
      · exact (le_max_right _ _).trans h1
      · exact h2 j hj
    · rcases h3 with h3 | ⟨j, hj, h3⟩
      · rcases max_choice m (f a) with h | h
        · exact Or.inl (h3.trans h)
        · exact Or.inr ⟨a, List.mem_cons_self, h3.trans h⟩
      · exact Or.inr ⟨j, List.mem_cons_of_mem _ hj, h3⟩

theorem dot_smul_smul (c : ℝ) (a : Vec n ℝ) : dot (fun k => c * a k) (fun k => c * a k) = c ^ 2 * dot a a := by
  unfold dot
  rw [Finset.mul_sum]
  exact Finset.sum_congr rfl fun k _ => by ring

end Gandalf.TStep
