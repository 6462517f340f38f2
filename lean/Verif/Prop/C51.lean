import Verif.Proof.Gradients
import Verif.Prop.C30

/-!
# C51 – matrix inversion and gradients
-/

set_option autoImplicit false

namespace Gandalf
open Gradients

/-- **C51.** For every matrix in one, two or three dimensions, over any field: `InvertMatrix` divides by zero exactly if the
determinant is zero, and otherwise returns the inverse. -/
theorem C51_inverse {α : Type*} [Field α] [DecidableEq α] (n : ℕ) (hn : 1 ≤ n ∧ n ≤ 3) (A : Mat n α) :
    ((Matrix.of A).det = 0 ∧ invert n A = none) ∨
    ((Matrix.of A).det ≠ 0 ∧ ∃ B, invert n A = some B ∧ Matrix.of A * Matrix.of B = 1 ∧ Matrix.of B * Matrix.of A = 1) := by
  obtain ⟨h1, h2⟩ := invert_spec n hn A
  cases hi : invert n A with
  | none => exact Or.inl ⟨h1.mp hi, rfl⟩
  | some B => exact Or.inr ⟨fun h => by rw [h1.mpr h] at hi; simp at hi, B, rfl, h2 B hi⟩

example : invert 3 (![![2, 1, 0], ![1, 3, 1], ![0, 1, 1]] : Mat 3 ℚ)
    = some ![![2/3, -1/3, 1/3], ![-1/3, 2/3, -2/3], ![1/3, -2/3, 5/3]] := by
  simp [invert, invert3]
  norm_num

section
variable {n nvar : ℕ} {K : Kernel} {o : Own} {p : Pt n nvar} {ngbs : List (Pt n nvar)}

/-- **C51.** Whenever the integral gradients are used (flag `bad_gradients` not set), the gradient of every variable
that is a linear function of position at the neighbours is exact, whatever the weights. -/
theorem C51_linear_exact (hn : 1 ≤ n ∧ n ≤ 3) (hgood : (gradients K o p ngbs).1 = false) (var : Fin nvar) (g : Vec n ℝ)
    (hlin : ∀ b ∈ ngbs, b.W var = p.W var + dot g (fun k => b.r k - p.r k)) :
    (gradients K o p ngbs).2 var = g := by
  have hspec := (invert_spec n hn (matE K o p ngbs)).2
  revert hgood
  unfold gradients
  simp only []
  have heq : ∀ {i1 i2 : DecidableEq ℝ}, @invert ℝ _ i1 n (matE K o p ngbs) = @invert ℝ _ i2 n (matE K o p ngbs) := by
    intro i1 i2; rw [Subsingleton.elim i1 i2]
  cases hi : @invert ℝ _ _ n (matE K o p ngbs) with
  | none => simp
  | some B =>
    simp only []
    by_cases hc : sqdCond (matE K o p ngbs) B < 10000
    · rw [if_pos hc]
      intro _
      have hBE := (hspec B (heq.trans hi)).2
      funext k
      simp only [dot, gradTmp_linear (K := K) (o := o) hlin]
      have h1 : Matrix.mulVec (Matrix.of B) (Matrix.mulVec (Matrix.of (matE K o p ngbs)) g) = g := by
        rw [Matrix.mulVec_mulVec, hBE, Matrix.one_mulVec]
      have h2 := congrFun h1 k
      simpa [Matrix.mulVec, dotProduct] using h2
    · rw [if_neg hc]; simp

/-- **C51.** The matrix can be inverted exactly if the neighbours with weight do not all lie in a plane (line, point)
through the particle: no direction is orthogonal to all of them. -/
theorem C51_invertible_iff (hn : 1 ≤ n ∧ n ≤ 3) {n' : ℕ} (hK : K.Valid n') (hf : 0 ≤ o.hfactor) (hd : 0 ≤ o.ndens) :
    (invert n (matE K o p ngbs) ≠ none) ↔
      ∀ x : Vec n ℝ, (∀ b ∈ ngbs, weight K o p b ≠ 0 → dot x (fun k => b.r k - p.r k) = 0) → x = 0 := by
  rw [ne_eq, (invert_spec n hn _).1, matE_det]
  · constructor
    · intro h x hx
      by_contra hne
      exact h ⟨x, hne, hx⟩
    · rintro h ⟨x, hne, hx⟩
      exact hne (h x hx)
  · intro b _
    unfold weight
    exact div_nonneg (mul_nonneg hf (hK.nonneg _ (Real.sqrt_nonneg _))) hd

/-- **C51.** The squared condition number is at least one, and in one dimension it is one: there the integral gradient is
always used if it exists. -/
theorem C51_condition (hn : 1 ≤ n) {E B : Mat n ℝ} (h : Matrix.of E * Matrix.of B = 1) :
    1 ≤ sqdCond E B ∧ (n = 1 → sqdCond E B = 1) := by
  refine ⟨one_le_sqdCond hn h, ?_⟩
  rintro rfl
  have h1 := congrFun (congrFun h 0) 0
  simp [Matrix.mul_apply] at h1
  simp [sqdCond, modSqd]
  linear_combination (E 0 0 * B 0 0 + 1) * h1

/-- **C51.** The matrix `B` kept for the face areas is symmetric. -/
theorem C51_symmetric (hn : 1 ≤ n ∧ n ≤ 3) {B : Mat n ℝ} (h : invert n (matE K o p ngbs) = some B) (i j : Fin n) :
    B i j = B j i := by
  obtain ⟨h1, h2⟩ := (invert_spec n hn _).2 B h
  have hE : (Matrix.of (matE K o p ngbs)).transpose = Matrix.of (matE K o p ngbs) := by
    ext a b
    simp only [Matrix.transpose_apply, Matrix.of_apply, matE]
    congr 1
    exact List.map_congr_left fun c _ => by ring
  have h3 : (Matrix.of B).transpose * Matrix.of (matE K o p ngbs) = 1 := by
    have := congrArg Matrix.transpose h1
    rwa [Matrix.transpose_mul, hE, Matrix.transpose_one] at this
  have h4 : (Matrix.of B).transpose = Matrix.of B := by
    have := congrArg (· * Matrix.of B) h3
    simp only [mul_assoc, one_mul] at this
    rwa [h1, mul_one] at this
  have := congrFun (congrFun h4 j) i
  simpa using this

/-- **C51.** The SPH gradients used otherwise at least point the right way for a linear field. -/
theorem C51_sph_direction (hK : K.Valid n) (hf : 0 ≤ o.hfactor) (hd : 0 ≤ o.ndens) (hh : 0 < o.h) (var : Fin nvar)
    (g : Vec n ℝ) (hlin : ∀ b ∈ ngbs, b.W var = p.W var + dot g (fun k => b.r k - p.r k)) :
    0 ≤ dot g (sphGrad K o p ngbs var) := by
  have hw1 : ∀ s, 0 < s → K.w1 s ≤ 0 := by
    intro s hs
    by_contra hc
    push Not at hc
    have h1 := hK.deriv s
    have h2 := h1.tendsto_slope
    have h3 : ∀ᶠ y in nhdsWithin s {s}ᶜ, 0 < slope K.w0 s y := (tendsto_order.mp h2).1 0 hc
    have h4 : ∀ᶠ y in nhdsWithin s (Set.Ioi s), 0 < slope K.w0 s y :=
      h3.filter_mono (nhdsWithin_mono s fun y hy => by simp at hy ⊢; exact hy.ne')
    obtain ⟨y, hy, hy'⟩ := (h4.and self_mem_nhdsWithin).exists
    have hy' : s < y := hy'
    rw [slope_def_field] at hy
    have h5 : K.w0 y ≤ K.w0 s := hK.antitone hs.le (hs.trans hy').le hy'.le
    have : (K.w0 y - K.w0 s) / (y - s) ≤ 0 := div_nonpos_of_nonpos_of_nonneg (by linarith) (by linarith)
    linarith
  have e : dot g (sphGrad K o p ngbs var) = (ngbs.map fun b => ∑ k,
      (let dr := √(dot (draux p b) (draux p b))
       open Classical in if dr = 0 then 0 else
       -((b.W var - p.W var) * (draux p b k / dr) * (o.hfactor / o.ndens * K.w1 (dr / o.h)))) * g k).sum := by
    unfold dot sphGrad
    rw [← list_sum_comm]
    simp only [sum_map_mul]
    exact Finset.sum_congr rfl fun k _ => mul_comm _ _
  rw [e]
  refine List.sum_nonneg fun y hy => ?_
  obtain ⟨b, hb, rfl⟩ := List.mem_map.mp hy
  simp only []
  by_cases h0 : √(dot (draux p b) (draux p b)) = 0
  · simp [h0]
  · simp only [if_neg h0]
    have hdr : 0 < √(dot (draux p b) (draux p b)) := lt_of_le_of_ne (Real.sqrt_nonneg _) (Ne.symm h0)
    rw [hlin b hb, add_sub_cancel_left]
    change 0 ≤ ∑ k, -(dot g (draux p b) * _ * _) * g k
    have e2 : ∑ k, -(dot g (draux p b) * (draux p b k / √(dot (draux p b) (draux p b))) *
        (o.hfactor / o.ndens * K.w1 (√(dot (draux p b) (draux p b)) / o.h))) * g k
        = dot g (draux p b) * dot g (draux p b) * (1 / √(dot (draux p b) (draux p b))) * (o.hfactor / o.ndens) *
          (-K.w1 (√(dot (draux p b) (draux p b)) / o.h)) := by
      have : dot g (draux p b) * dot g (draux p b) * (1 / √(dot (draux p b) (draux p b))) * (o.hfactor / o.ndens) *
          (-K.w1 (√(dot (draux p b) (draux p b)) / o.h))
          = (∑ k, g k * draux p b k) * (-(dot g (draux p b) * (1 / √(dot (draux p b) (draux p b))) * (o.hfactor / o.ndens) *
          K.w1 (√(dot (draux p b) (draux p b)) / o.h))) := by
        change _ = dot g (draux p b) * _
        ring
      rw [this, Finset.sum_mul]
      exact Finset.sum_congr rfl fun k _ => by ring
    rw [e2]
    have h1 := hw1 _ (div_pos hdr hh)
    have h2 := mul_self_nonneg (dot g (draux p b))
    have h3 : 0 ≤ o.hfactor / o.ndens := div_nonneg hf hd
    refine mul_nonneg (mul_nonneg (mul_nonneg h2 (by positivity)) h3) (by linarith)

/-- **C51.** The signal speed is at least the sum of the sound speeds, and at least that plus the speed of approach, for every
neighbour (so at least the particle's own, as asserted). -/
theorem C51_vsig {small : ℝ} (hs : 0 < small) (b : Pt n nvar) (hb : b ∈ ngbs) :
    p.sound + b.sound ≤ vsigMax small p ngbs ∧
    p.sound + b.sound - dot (fun k => b.v k - p.v k) (fun k => b.r k - p.r k) /
      (√(dot (fun k => b.r k - p.r k) (fun k => b.r k - p.r k)) + small) ≤ vsigMax small p ngbs := by
  have h := (vsigMax_le small p ngbs 0).2 b hb
  change _ ≤ vsigMax small p ngbs at h
  refine ⟨?_, ?_⟩
  · refine le_trans ?_ h
    have := min_le_left (0 : ℝ) (dot (fun k => b.v k - p.v k) (draux p b) / (√(dot (draux p b) (draux p b)) + small))
    linarith
  · refine le_trans ?_ h
    have := min_le_right (0 : ℝ) (dot (fun k => b.v k - p.v k) (draux p b) / (√(dot (draux p b) (draux p b)) + small))
    change _ - dot (fun k => b.v k - p.v k) (draux p b) / (√(dot (draux p b) (draux p b)) + small) ≤ _
    linarith

/-- **C51.** Here the flag for sink creation says what it should: set exactly if no neighbour within the kernel radius has
a deeper potential (compare C50_potmin_wrong for SPH). -/
theorem C51_potmin (krs : ℝ) :
    Gradients.potmin krs o p ngbs = true ↔
      ∀ b ∈ ngbs, dot (fun k => b.r k - p.r k) (fun k => b.r k - p.r k) * (1 / (o.h * o.h)) < krs →
        b.gpot ≤ 1.000000001 * p.gpot := by
  unfold Gradients.potmin
  rw [potmin_spec]
  simp only [true_and]
  rfl

end

/-! ## Cases -/

/-- a point with one variable, the linear field `1 + 2x - y` -/
noncomputable def exPt (x y : ℝ) : Pt 2 1 := ⟨![x, y], 0, fun _ => 1 + 2 * x - y, 1, 0⟩

noncomputable def exOwn : Own := ⟨1, 1, 1⟩

theorem exPt_draux (x y : ℝ) : draux (exPt 0 0) (exPt x y) = ![x, y] := by
  funext k; fin_cases k <;> simp [draux, exPt]

theorem exPt_weight (x y d : ℝ) (hd : 0 ≤ d) (h : x * x + y * y = d * d) :
    weight (m4Kernel 2) exOwn (exPt 0 0) (exPt x y) = (m4Kernel 2).w0 d := by
  unfold weight
  rw [exPt_draux]
  simp only [dot, Fin.sum_univ_two, Matrix.cons_val_zero, Matrix.cons_val_one, exOwn, h]
  norm_num
  rw [Real.sqrt_mul_self hd]

theorem exW : (m4Kernel 2).w0 1 ≠ 0 := by
  norm_num [m4Kernel, M4.w0, M4.kernnorm]

/-- neighbours on the axes: the integral gradients are used, and are `(2, -1)` -/
example : (gradients (m4Kernel 2) exOwn (exPt 0 0) [exPt 1 0, exPt 0 1]).1 = false ∧
    (gradients (m4Kernel 2) exOwn (exPt 0 0) [exPt 1 0, exPt 0 1]).2 0 = ![2, -1] := by
  have w1 := exPt_weight 1 0 1 (by norm_num) (by norm_num)
  have w2 := exPt_weight 0 1 1 (by norm_num) (by norm_num)
  have hw := exW
  have hE : matE (m4Kernel 2) exOwn (exPt 0 0) [exPt 1 0, exPt 0 1] = ![![(m4Kernel 2).w0 1, 0], ![0, (m4Kernel 2).w0 1]] := by
    funext i j
    fin_cases i <;> fin_cases j <;> simp [matE, exPt_draux, w1, w2]
  have h1 : (gradients (m4Kernel 2) exOwn (exPt 0 0) [exPt 1 0, exPt 0 1]).1 = false := by
    unfold gradients
    rw [hE]
    simp only [invert, invert2]
    generalize (m4Kernel 2).w0 1 = w at hw
    have hww : w * w - 0 * 0 ≠ 0 := by simpa using hw
    simp only [Matrix.cons_val_zero, Matrix.cons_val_one, hww, if_false]
    rw [if_pos]
    simp only [sqdCond, modSqd, Fin.sum_univ_two, Matrix.cons_val_zero, Matrix.cons_val_one]
    field_simp
    norm_num
    field_simp
    norm_num
  refine ⟨h1, C51_linear_exact (by norm_num) h1 0 _ ?_⟩
  intro b hb
  simp only [List.mem_cons, List.not_mem_nil, or_false] at hb
  rcases hb with rfl | rfl <;> simp [exPt, dot, Fin.sum_univ_two] <;> norm_num

theorem invert_diag {α : Type*} [Field α] [DecidableEq α] {a b : α} (ha : a ≠ 0) (hb : b ≠ 0) :
    invert 2 (![![a, 0], ![0, b]] : Mat 2 α) = some ![![1 / a, 0], ![0, 1 / b]] := by
  unfold invert invert2
  simp [ha, hb]
  field_simp

/-- **C51, negation.** If the neighbours lie almost on a line, the matrix can be inverted but the code uses SPH gradients, and
these are not exact: here the derivative along the line, which is 2, comes out below 1 (the number density is
that of the particle and its four neighbours). -/
theorem C51_sph_not_exact :
    let nd := (m4Kernel 2).w0 0 + 2 * (m4Kernel 2).w0 1 + 2 * (m4Kernel 2).w0 (1 / 100)
    let ngbs := [exPt 1 0, exPt (-1) 0, exPt 0 (1 / 100), exPt 0 (-1 / 100)]
    let g := gradients (m4Kernel 2) ⟨1, 1, nd⟩ (exPt 0 0) ngbs
    invert 2 (matE (m4Kernel 2) ⟨1, 1, nd⟩ (exPt 0 0) ngbs) ≠ none ∧
    (∀ b ∈ ngbs, b.W 0 = (exPt 0 0).W 0 + dot ![2, -1] (fun k => b.r k - (exPt 0 0).r k)) ∧
    g.1 = true ∧ 0 < g.2 0 0 ∧ g.2 0 0 < 1 := by
  intro nd ngbs g
  have hc : M4.kernnorm 2 ≠ 0 := by simp [M4.kernnorm, Real.pi_ne_zero]
  have hN : nd = M4.kernnorm 2 * (6999403 / 2000000 : ℝ) := by
    simp only [nd, m4Kernel, M4.w0]; norm_num; ring
  have hdd : ∀ x y d : ℝ, 0 ≤ d → x * x + y * y = d * d → √(dot (draux (exPt 0 0) (exPt x y)) (draux (exPt 0 0) (exPt x y))) = d := by
    intro x y d hd h
    rw [exPt_draux]
    simp only [dot, Fin.sum_univ_two, Matrix.cons_val_zero, Matrix.cons_val_one, h]
    exact Real.sqrt_mul_self hd
  have hw : ∀ x y d : ℝ, 0 ≤ d → x * x + y * y = d * d →
      weight (m4Kernel 2) ⟨1, 1, nd⟩ (exPt 0 0) (exPt x y) = (m4Kernel 2).w0 d / nd := by
    intro x y d hd h
    unfold weight
    simp only [mul_one, div_one, one_mul]
    rw [hdd x y d hd h]
  have w1 : (m4Kernel 2).w0 1 / nd = 1 / 4 / (6999403 / 2000000) := by
    rw [hN, show (m4Kernel 2).w0 1 = M4.kernnorm 2 * (1 / 4) by norm_num [m4Kernel, M4.w0]; ring, mul_div_mul_left _ _ hc]
  have w2 : (m4Kernel 2).w0 (1 / 100) / nd = 99985075 / 100000000 / (6999403 / 2000000) := by
    rw [hN, show (m4Kernel 2).w0 (1 / 100) = M4.kernnorm 2 * (99985075 / 100000000) by norm_num [m4Kernel, M4.w0],
      mul_div_mul_left _ _ hc]
  have hE : matE (m4Kernel 2) ⟨1, 1, nd⟩ (exPt 0 0) ngbs =
      ![![2 * (1 / 4 / (6999403 / 2000000)), 0],
        ![0, 2 / 10000 * (99985075 / 100000000 / (6999403 / 2000000))]] := by
    have e1 := hw 1 0 1 (by norm_num) (by norm_num)
    have e2 := hw (-1) 0 1 (by norm_num) (by norm_num)
    have e3 := hw 0 (1 / 100) (1 / 100) (by norm_num) (by norm_num)
    have e4 := hw 0 (-1 / 100) (1 / 100) (by norm_num) (by norm_num)
    funext i j
    fin_cases i <;> fin_cases j <;>
      simp only [matE, ngbs, List.map_cons, List.map_nil, List.sum_cons, List.sum_nil, exPt_draux, e1, e2, e3, e4, w1, w2] <;>
      norm_num
  have hlin : ∀ b ∈ ngbs, b.W 0 = (exPt 0 0).W 0 + dot ![2, -1] (fun k => b.r k - (exPt 0 0).r k) := by
    intro b hb
    simp only [ngbs, List.mem_cons, List.not_mem_nil, or_false] at hb
    rcases hb with rfl | rfl | rfl | rfl <;> simp [exPt, dot, Fin.sum_univ_two] <;> norm_num
  have hg : g = (true, sphGrad (m4Kernel 2) ⟨1, 1, nd⟩ (exPt 0 0) ngbs) := by
    simp only [g, gradients, hE]
    rw [invert_diag (by norm_num) (by norm_num)]
    simp only []
    rw [if_neg]
    simp only [sqdCond, modSqd, Fin.sum_univ_two, Matrix.cons_val_zero, Matrix.cons_val_one]
    norm_num
  have hx : sphGrad (m4Kernel 2) ⟨1, 1, nd⟩ (exPt 0 0) ngbs 0 0 = 3 / (6999403 / 2000000) := by
    have d1 := hdd 1 0 1 (by norm_num) (by norm_num)
    have d2 := hdd (-1) 0 1 (by norm_num) (by norm_num)
    have d3 := hdd 0 (1 / 100) (1 / 100) (by norm_num) (by norm_num)
    have d4 := hdd 0 (-1 / 100) (1 / 100) (by norm_num) (by norm_num)
    have v1 : 1 / nd * (m4Kernel 2).w1 (1 / 1) = -(3 / 4) / (6999403 / 2000000) := by
      rw [hN, show (m4Kernel 2).w1 (1 / 1) = M4.kernnorm 2 * (-(3 / 4)) by norm_num [m4Kernel, M4.w1]; ring]
      field_simp
    simp only [sphGrad, ngbs, List.map_cons, List.map_nil, List.sum_cons, List.sum_nil, d1, d2, d3, d4, v1]
    rw [if_neg one_ne_zero, if_neg (show (1 / 100 : ℝ) ≠ 0 by norm_num)]
    simp only [exPt_draux]
    simp [exPt]
    norm_num
  refine ⟨?_, hlin, by rw [hg], ?_, ?_⟩
  · rw [hE, invert_diag (by norm_num) (by norm_num)]
    simp
  · rw [hg]; simp only []; rw [hx]; norm_num
  · rw [hg]; simp only []; rw [hx]; norm_num

end Gandalf
