import Verif.Model.Gradients
import Verif.Spec.Kernel
import Mathlib.LinearAlgebra.Matrix.NonsingularInverse
import Mathlib.LinearAlgebra.Matrix.ToLinearEquiv
import Mathlib.Tactic

/-!
# Matrix inversion and gradients: lemmas
-/

set_option autoImplicit false
set_option linter.unusedSectionVars false

namespace Gandalf.Gradients

section
variable {α : Type*} [Field α] [DecidableEq α]

theorem invert1_spec (A : Mat 1 α) :
    (invert1 A = none ↔ (Matrix.of A).det = 0) ∧
    ∀ B, invert1 A = some B → Matrix.of A * Matrix.of B = 1 ∧ Matrix.of B * Matrix.of A = 1 := by
  have hd : (Matrix.of A).det = A 0 0 := by simp
  refine ⟨?_, ?_⟩
  · rw [hd]; unfold invert1; split_ifs with h <;> simp [h]
  · intro B hB
    have : Matrix.of A * Matrix.of B = 1 := by
      unfold invert1 at hB
      split_ifs at hB with h
      obtain rfl := Option.some.inj hB
      ext i j
      fin_cases i; fin_cases j
      simp [Matrix.mul_apply, h]
    exact ⟨this, mul_eq_one_comm.mp this⟩

theorem invert2_spec (A : Mat 2 α) :
    (invert2 A = none ↔ (Matrix.of A).det = 0) ∧
    ∀ B, invert2 A = some B → Matrix.of A * Matrix.of B = 1 ∧ Matrix.of B * Matrix.of A = 1 := by
  have hd : (Matrix.of A).det = A 0 0 * A 1 1 - A 0 1 * A 1 0 := by
    rw [Matrix.det_fin_two]; rfl
  refine ⟨?_, ?_⟩
  · rw [hd]; unfold invert2; simp only []; split_ifs with h <;> simp [h]
  · intro B hB
    have : Matrix.of A * Matrix.of B = 1 := by
      unfold invert2 at hB
      simp only [] at hB
      split_ifs at hB with h
      have e := mul_one_div_cancel h
      revert e hB
      generalize 1 / (A 0 0 * A 1 1 - A 0 1 * A 1 0) = c
      intro hB e
      obtain rfl := Option.some.inj hB
      ext i j
      fin_cases i <;> fin_cases j <;> simp [Matrix.mul_apply, Fin.sum_univ_two] <;>
        first | linear_combination e | ring
    exact ⟨this, mul_eq_one_comm.mp this⟩

theorem invert3_spec (A : Mat 3 α) :
    (invert3 A = none ↔ (Matrix.of A).det = 0) ∧
    ∀ B, invert3 A = some B → Matrix.of A * Matrix.of B = 1 ∧ Matrix.of B * Matrix.of A = 1 := by
  have hd : (Matrix.of A).det = A 0 0 * (A 1 1 * A 2 2 - A 2 1 * A 1 2) - A 0 1 * (A 1 0 * A 2 2 - A 1 2 * A 2 0)
    + A 0 2 * (A 1 0 * A 2 1 - A 1 1 * A 2 0) := by
    rw [Matrix.det_fin_three]; simp only [Matrix.of_apply]; ring
  refine ⟨?_, ?_⟩
  · rw [hd]; unfold invert3; simp only []; split_ifs with h <;> simp [h]
  · intro B hB
    have : Matrix.of A * Matrix.of B = 1 := by
      unfold invert3 at hB
      simp only [] at hB
      split_ifs at hB with h
      have e := mul_one_div_cancel h
      revert e hB
      generalize 1 / (A 0 0 * (A 1 1 * A 2 2 - A 2 1 * A 1 2) - A 0 1 * (A 1 0 * A 2 2 - A 1 2 * A 2 0)
        + A 0 2 * (A 1 0 * A 2 1 - A 1 1 * A 2 0)) = c
      intro hB e
      obtain rfl := Option.some.inj hB
      ext i j
      fin_cases i <;> fin_cases j <;> simp [Matrix.mul_apply, Fin.sum_univ_three] <;>
        first | linear_combination e | ring
    exact ⟨this, mul_eq_one_comm.mp this⟩

theorem invert_spec (n : ℕ) (hn : 1 ≤ n ∧ n ≤ 3) (A : Mat n α) :
    (invert n A = none ↔ (Matrix.of A).det = 0) ∧
    ∀ B, invert n A = some B → Matrix.of A * Matrix.of B = 1 ∧ Matrix.of B * Matrix.of A = 1 := by
  obtain ⟨h1, h2⟩ := hn
  interval_cases n
  · exact invert1_spec A
  · exact invert2_spec A
  · exact invert3_spec A

end

section
variable {n nvar : ℕ} {K : Kernel} {o : Own} {p : Pt n nvar}

theorem sum_map_mul (l : List (Pt n nvar)) (f : Pt n nvar → ℝ) (c : ℝ) :
    (l.map fun b => f b * c).sum = (l.map f).sum * c := by
  induction l with
  | nil => simp
  | cons b l ih => simp [ih, add_mul]

theorem list_sum_comm (l : List (Pt n nvar)) (f : Pt n nvar → Fin n → ℝ) :
    ∑ k, (l.map fun b => f b k).sum = (l.map fun b => ∑ k, f b k).sum := by
  induction l with
  | nil => simp
  | cons b l ih => simp [Finset.sum_add_distrib, ih]

/-- for a linear field the workspace is the matrix times the gradient -/
theorem gradTmp_linear {ngbs : List (Pt n nvar)} {var : Fin nvar} {g : Vec n ℝ}
    (hlin : ∀ b ∈ ngbs, b.W var = p.W var + dot g (draux p b)) (k : Fin n) :
    gradTmp K o p ngbs var k = ∑ kk, matE K o p ngbs k kk * g kk := by
  unfold gradTmp matE
  simp only [← sum_map_mul]
  rw [list_sum_comm]
  congr 1
  refine List.map_congr_left fun b hb => ?_
  rw [hlin b hb, add_sub_cancel_left]
  unfold dot
  rw [Finset.mul_sum, Finset.sum_mul]
  exact Finset.sum_congr rfl fun kk _ => by ring

/-- quadratic form of `E` -/
theorem matE_quad (ngbs : List (Pt n nvar)) (x : Vec n ℝ) :
    ∑ k, x k * ∑ kk, matE K o p ngbs k kk * x kk = (ngbs.map fun b => dot x (draux p b) ^ 2 * weight K o p b).sum := by
  unfold matE
  simp only [← sum_map_mul]
  simp only [list_sum_comm, mul_comm (x _) (List.sum _)]
  simp only [← sum_map_mul]
  rw [list_sum_comm]
  congr 1
  refine List.map_congr_left fun b _ => ?_
  unfold dot
  rw [sq, Finset.sum_mul_sum, Finset.sum_mul]
  refine Finset.sum_congr rfl fun k _ => ?_
  rw [Finset.sum_mul, Finset.sum_mul]
  exact Finset.sum_congr rfl fun kk _ => by ring

theorem list_sum_eq_zero {β : Type*} {l : List β} {f : β → ℝ} (h0 : ∀ b ∈ l, 0 ≤ f b) :
    (l.map f).sum = 0 ↔ ∀ b ∈ l, f b = 0 := by
  induction l with
  | nil => simp
  | cons b l ih =>
    have h1 : 0 ≤ (l.map f).sum := List.sum_nonneg (by
      intro x hx; obtain ⟨c, hc, rfl⟩ := List.mem_map.mp hx; exact h0 c (List.mem_cons_of_mem _ hc))
    have h2 := h0 b List.mem_cons_self
    rw [List.map_cons, List.sum_cons, List.forall_mem_cons, ← ih fun c hc => h0 c (List.mem_cons_of_mem _ hc)]
    constructor
    · intro h; constructor <;> linarith
    · rintro ⟨h, h'⟩; linarith

/-- `E` is singular exactly if some direction is orthogonal to every neighbour that has weight -/
theorem matE_det {ngbs : List (Pt n nvar)} (hw : ∀ b ∈ ngbs, 0 ≤ weight K o p b) :
    (Matrix.of (matE K o p ngbs)).det = 0 ↔
      ∃ x : Vec n ℝ, x ≠ 0 ∧ ∀ b ∈ ngbs, weight K o p b ≠ 0 → dot x (draux p b) = 0 := by
  rw [← Matrix.exists_mulVec_eq_zero_iff]
  have key : ∀ x : Vec n ℝ, Matrix.mulVec (Matrix.of (matE K o p ngbs)) x = 0 ↔
      ∀ b ∈ ngbs, weight K o p b ≠ 0 → dot x (draux p b) = 0 := by
    intro x
    constructor
    · intro h
      have h1 : ∑ k, x k * ∑ kk, matE K o p ngbs k kk * x kk = 0 := by
        refine Finset.sum_eq_zero fun k _ => ?_
        have := congrFun h k
        simp only [Matrix.mulVec, dotProduct, Matrix.of_apply, Pi.zero_apply] at this
        rw [this, mul_zero]
      rw [matE_quad, list_sum_eq_zero fun b hb => mul_nonneg (sq_nonneg _) (hw b hb)] at h1
      intro b hb hb'
      rcases mul_eq_zero.mp (h1 b hb) with h2 | h2
      · exact pow_eq_zero_iff (two_ne_zero) |>.mp h2
      · exact absurd h2 hb'
    · intro h
      funext k
      simp only [Matrix.mulVec, dotProduct, Matrix.of_apply, Pi.zero_apply]
      unfold matE
      simp only [← sum_map_mul]
      rw [list_sum_comm]
      refine List.sum_eq_zero fun y hy => ?_
      obtain ⟨b, hb, rfl⟩ := List.mem_map.mp hy
      have : ∑ kk, draux p b k * draux p b kk * weight K o p b * x kk
          = draux p b k * weight K o p b * dot x (draux p b) := by
        unfold dot; rw [Finset.mul_sum]
        exact Finset.sum_congr rfl fun kk _ => by ring
      rw [this]
      by_cases hb' : weight K o p b = 0
      · rw [hb']; ring
      · rw [h b hb hb', mul_zero]
  constructor
  · rintro ⟨x, h1, h2⟩; exact ⟨x, h1, (key x).mp h2⟩
  · rintro ⟨x, h1, h2⟩; exact ⟨x, h1, (key x).mpr h2⟩

/-- the condition number is at least one -/
theorem one_le_sqdCond (hn : 1 ≤ n) {E B : Mat n ℝ} (h : Matrix.of E * Matrix.of B = 1) : 1 ≤ sqdCond E B := by
  have hn' : (0 : ℝ) < n := by exact_mod_cast hn
  have h1 : ∑ q : Fin n × Fin n, E q.1 q.2 * B q.2 q.1 = n := by
    rw [Fintype.sum_prod_type]
    have : ∀ i : Fin n, ∑ j, E i j * B j i = 1 := by
      intro i
      have := congrFun (congrFun h i) i
      simpa [Matrix.mul_apply] using this
    simp [this]
  have h2 := Finset.sum_mul_sq_le_sq_mul_sq Finset.univ (fun q : Fin n × Fin n => E q.1 q.2) (fun q => B q.2 q.1)
  rw [h1] at h2
  have e1 : ∑ q : Fin n × Fin n, E q.1 q.2 ^ 2 = modSqd E := by
    rw [Fintype.sum_prod_type]; simp [modSqd, sq]
  have e2 : ∑ q : Fin n × Fin n, B q.2 q.1 ^ 2 = modSqd B := by
    rw [Fintype.sum_prod_type, Finset.sum_comm]; simp [modSqd, sq]
  rw [e1, e2] at h2
  unfold sqdCond
  rw [le_div_iff₀ (by positivity)]
  nlinarith

theorem vsigMax_le (small : ℝ) (p : Pt n nvar) : ∀ (ngbs : List (Pt n nvar)) (m : ℝ),
    (m ≤ ngbs.foldl (fun m b => max m (p.sound + b.sound - min 0 (dot (fun k => b.v k - p.v k) (draux p b) /
      (√(dot (draux p b) (draux p b)) + small)))) m) ∧
    ∀ b ∈ ngbs, p.sound + b.sound - min 0 (dot (fun k => b.v k - p.v k) (draux p b) /
      (√(dot (draux p b) (draux p b)) + small)) ≤
      ngbs.foldl (fun m b => max m (p.sound + b.sound - min 0 (dot (fun k => b.v k - p.v k) (draux p b) /
      (√(dot (draux p b) (draux p b)) + small)))) m := by
  intro ngbs
  induction ngbs with
  | nil => intro m; simp
  | cons a l ih =>
    intro m
    rw [List.foldl_cons]
    obtain ⟨h1, h2⟩ := ih (max m (p.sound + a.sound - min 0 (dot (fun k => a.v k - p.v k) (draux p a) /
      (√(dot (draux p a) (draux p a)) + small))))
    refine ⟨(le_max_left _ _).trans h1, ?_⟩
    intro b hb
    rcases List.mem_cons.mp hb with rfl | hb
    · exact (le_max_right _ _).trans h1
    · exact h2 b hb

open Classical in
theorem potmin_spec (krs : ℝ) (o : Own) (p : Pt n nvar) : ∀ (ngbs : List (Pt n nvar)) (flag : Bool),
    ngbs.foldl (fun flag b => if 1.000000001 * p.gpot < b.gpot ∧
      dot (draux p b) (draux p b) * (1 / (o.h * o.h)) < krs then false else flag) flag = true ↔
    flag = true ∧ ∀ b ∈ ngbs, dot (draux p b) (draux p b) * (1 / (o.h * o.h)) < krs → b.gpot ≤ 1.000000001 * p.gpot := by
  intro ngbs
  induction ngbs with
  | nil => intro flag; simp
  | cons a l ih =>
    intro flag
    rw [List.foldl_cons, ih, List.forall_mem_cons]
    by_cases h : 1.000000001 * p.gpot < a.gpot ∧ dot (draux p a) (draux p a) * (1 / (o.h * o.h)) < krs
    · rw [if_pos h]
      simp only [Bool.false_eq_true, false_and, false_iff]
      rintro ⟨-, h', -⟩
      exact absurd (h' h.2) (not_le.mpr h.1)
    · rw [if_neg h]
      push Not at h
      constructor
      · rintro ⟨h1, h2⟩
        exact ⟨h1, fun h3 => by_contra fun h4 => absurd (h (not_le.mp h4)) (not_le.mpr h3), h2⟩
      · rintro ⟨h1, -, h2⟩; exact ⟨h1, h2⟩

end
end Gandalf.Gradients
