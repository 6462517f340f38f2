import Verif.Model.Cloud
import Verif.Proof.Perturb
import Mathlib.Analysis.MeanInequalities

/-! # Lemmas on clouds and clusters -/

set_option autoImplicit false

namespace Gandalf.Cloud

open Real

theorem foldl_min_le {β : Type*} (f : β → ℝ) (l : List β) :
    ∀ a, l.foldl (fun m p => min m (f p)) a ≤ a ∧ ∀ p ∈ l, l.foldl (fun m p => min m (f p)) a ≤ f p := by
  induction l with
  | nil => intro a; simp
  | cons b l ih =>
    intro a
    rw [List.foldl_cons]
    obtain ⟨h1, h2⟩ := ih (min a (f b))
    refine ⟨h1.trans (min_le_left _ _), ?_⟩
    intro p hp
    rcases List.mem_cons.1 hp with rfl | hp
    · exact h1.trans (min_le_right _ _)
    · exact h2 p hp

theorem foldl_max_ge {β : Type*} (f : β → ℝ) (l : List β) :
    ∀ a, a ≤ l.foldl (fun m p => max m (f p)) a ∧ ∀ p ∈ l, f p ≤ l.foldl (fun m p => max m (f p)) a := by
  induction l with
  | nil => intro a; simp
  | cons b l ih =>
    intro a
    rw [List.foldl_cons]
    obtain ⟨h1, h2⟩ := ih (max a (f b))
    refine ⟨(le_max_left _ _).trans h1, ?_⟩
    intro p hp
    rcases List.mem_cons.1 hp with rfl | hp
    · exact (le_max_right _ _).trans h1
    · exact h2 p hp

theorem foldl_max_le {β : Type*} (f : β → ℝ) (l : List β) (c : ℝ) (h : ∀ p ∈ l, f p ≤ c) :
    ∀ a, a ≤ c → l.foldl (fun m p => max m (f p)) a ≤ c := by
  induction l with
  | nil => intro a ha; simpa using ha
  | cons b l ih =>
    intro a ha
    rw [List.foldl_cons]
    exact ih (fun p hp => h p (List.mem_cons_of_mem _ hp)) _ (max_le ha (h b List.mem_cons_self))

theorem xmin_le (big kr : ℝ) (ps : List Part) (p : Part) (hp : p ∈ ps) (k : Fin 3) :
    xminOf big kr ps ≤ p.r k - kr * p.h := by
  have h : ∀ k, rminOf big kr ps k ≤ p.r k - kr * p.h := fun k =>
    (foldl_min_le (fun p : Part => p.r k - kr * p.h) ps big).2 p hp
  unfold xminOf
  fin_cases k
  · exact ((min_le_left _ _).trans ((min_le_left _ _).trans (min_le_right _ _))).trans (h 0)
  · exact ((min_le_left _ _).trans (min_le_right _ _)).trans (h 1)
  · exact (min_le_right _ _).trans (h 2)

theorem dxgrid_ge (big kr : ℝ) (G : ℕ) (hG : 2 ≤ G) (ps : List Part) :
    2 * |xminOf big kr ps| ≤ ((G : ℝ) - 1) * dxgridOf big kr G ps := by
  have hg : (0 : ℝ) < (G : ℝ) - 1 := by
    have : (2 : ℝ) ≤ G := by exact_mod_cast hG
    linarith
  have : 2 * |xminOf big kr ps| / ((G : ℝ) - 1) ≤ dxgridOf big kr G ps := le_max_right _ _
  rw [div_le_iff₀ hg] at this
  linarith

theorem dxgrid_ext (big kr : ℝ) (G : ℕ) (hG : 2 ≤ G) (ps : List Part) (p : Part) (hp : p ∈ ps) (k : Fin 3) :
    2 * (kr * p.h) ≤ ((G : ℝ) - 1) * dxgridOf big kr G ps := by
  have hg : (0 : ℝ) < (G : ℝ) - 1 := by
    have : (2 : ℝ) ≤ G := by exact_mod_cast hG
    linarith
  have h1 : rminOf big kr ps k ≤ p.r k - kr * p.h :=
    (foldl_min_le (fun p : Part => p.r k - kr * p.h) ps big).2 p hp
  have h2 : p.r k + kr * p.h ≤ rmaxOf big kr ps k :=
    (foldl_max_ge (fun p : Part => p.r k + kr * p.h) ps (-big)).2 p hp
  have : (rmaxOf big kr ps k - rminOf big kr ps k) / ((G : ℝ) - 1) ≤ dxgridOf big kr G ps := by
    unfold dxgridOf
    fin_cases k
    · exact (le_max_right _ _).trans ((le_max_left _ _).trans ((le_max_left _ _).trans (le_max_left _ _)))
    · exact (le_max_right _ _).trans ((le_max_left _ _).trans (le_max_left _ _))
    · exact (le_max_right _ _).trans (le_max_left _ _)
  rw [div_le_iff₀ hg] at this
  linarith

theorem foldl_sum {β : Type*} (f : β → ℝ) (l : List β) :
    ∀ a, l.foldl (fun s p => s + f p) a = a + (l.map f).sum := by
  induction l with
  | nil => intro a; simp
  | cons b l ih => intro a; rw [List.foldl_cons, ih, List.map_cons, List.sum_cons]; ring

theorem sum_map_mul_left {β : Type*} (f : β → ℝ) (c : ℝ) (l : List β) :
    (l.map fun p => c * f p).sum = c * (l.map f).sum := by
  induction l with
  | nil => simp
  | cons b l ih => rw [List.map_cons, List.sum_cons, ih, List.map_cons, List.sum_cons]; ring

/-! ### Plummer sphere -/

theorem radOf_pos {x : ℝ} (h0 : 0 < x) (h1 : x < 1) : 0 < radOf x := by
  unfold radOf
  apply one_div_pos.2
  apply Real.sqrt_pos.2
  have : 1 < x ^ (-(2 / 3) : ℝ) := Real.one_lt_rpow_of_pos_of_lt_one_of_neg h0 h1 (by norm_num)
  linarith

theorem radOf_ratio {x : ℝ} (h0 : 0 < x) (h1 : x < 1) :
    (radOf x / sqrt (1 + radOf x * radOf x)) ^ 3 = x := by
  have hy : 1 < x ^ (-(2 / 3) : ℝ) := Real.one_lt_rpow_of_pos_of_lt_one_of_neg h0 h1 (by norm_num)
  have hx3 : 0 < x ^ ((1 : ℝ) / 3) := Real.rpow_pos_of_pos h0 _
  have hrel : x ^ (-(2 / 3) : ℝ) = 1 / (x ^ ((1 : ℝ) / 3)) ^ 2 := by
    rw [← Real.rpow_natCast (x ^ ((1 : ℝ) / 3)) 2, ← Real.rpow_mul h0.le, one_div, ← Real.rpow_neg h0.le]
    norm_num
  set y := x ^ (-(2 / 3) : ℝ) with hyd
  set t := x ^ ((1 : ℝ) / 3) with ht
  have ht3 : t ^ 3 = x := by
    rw [ht, ← Real.rpow_natCast, ← Real.rpow_mul h0.le]; norm_num
  have hs : 0 < sqrt (y - 1) := Real.sqrt_pos.2 (by linarith)
  have hss : sqrt (y - 1) * sqrt (y - 1) = y - 1 := Real.mul_self_sqrt (by linarith)
  have hr : radOf x = 1 / sqrt (y - 1) := rfl
  have h1r : 1 + radOf x * radOf x = (1 / (t * sqrt (y - 1))) ^ 2 := by
    rw [hr, div_mul_div_comm, one_mul, hss, div_pow, mul_pow, pow_two (sqrt (y - 1)), hss]
    have ht2 : t ^ 2 * y = 1 := by rw [hrel]; field_simp
    have hy1 : y - 1 ≠ 0 := by linarith
    have ht0 : t ^ 2 ≠ 0 := by positivity
    rw [eq_div_iff (mul_ne_zero ht0 hy1), add_mul, one_mul, div_mul_eq_mul_div, one_mul,
      mul_div_assoc, div_self hy1]
    nlinarith
  rw [h1r, Real.sqrt_sq (by positivity), hr]
  rw [show 1 / sqrt (y - 1) / (1 / (t * sqrt (y - 1))) = t by field_simp, ht3]

theorem ratio_lt {s t : ℝ} (h0 : 0 ≤ s) (h : s < t) :
    (s / sqrt (1 + s * s)) ^ 3 < (t / sqrt (1 + t * t)) ^ 3 := by
  have ps : 0 < sqrt (1 + s * s) := Real.sqrt_pos.2 (by nlinarith)
  have pt : 0 < sqrt (1 + t * t) := Real.sqrt_pos.2 (by nlinarith)
  apply pow_lt_pow_left₀ _ (div_nonneg h0 ps.le) (by norm_num)
  rw [div_lt_div_iff₀ ps pt]
  apply lt_of_pow_lt_pow_left₀ 2 (mul_nonneg (by linarith) ps.le)
  rw [mul_pow, mul_pow, Real.sq_sqrt (by nlinarith), Real.sq_sqrt (by nlinarith)]
  nlinarith

theorem drawPos_sound (s : ℕ → ℝ) (rmax : ℝ) :
    ∀ fuel j a, drawPos s rmax fuel j = some a → ∃ i, a.1 = radOf (s i) ∧ a.2.1 = s (i + 1) ∧
      a.2.2.1 = s (i + 2) ∧ a.1 ≤ rmax := by
  intro fuel
  induction fuel with
  | zero => intro j a h; simp [drawPos] at h
  | succ fuel ih =>
    intro j a h
    rw [drawPos] at h
    by_cases hc : (s j = 0 ∧ s (j + 1) = 0 ∧ s (j + 2) = 0) ∨ rmax < radOf (s j)
    · rw [if_pos hc] at h; exact ih _ _ h
    · rw [if_neg hc] at h
      simp only [Option.some.injEq] at h
      subst h
      push Not at hc
      exact ⟨j, rfl, rfl, rfl, hc.2⟩

theorem drawPos_ends (s : ℕ → ℝ) (rmax : ℝ) (n : ℕ) :
    ∀ j, ¬ (s (j + 3 * n) = 0 ∧ s (j + 3 * n + 1) = 0 ∧ s (j + 3 * n + 2) = 0) → radOf (s (j + 3 * n)) ≤ rmax →
      ∃ a, drawPos s rmax (n + 1) j = some a := by
  induction n with
  | zero =>
    intro j h1 h2
    rw [drawPos]
    simp only [Nat.mul_zero, Nat.add_zero] at h1 h2
    rw [if_neg (by push Not; exact ⟨fun a b c => h1 ⟨a, b, c⟩, h2⟩)]
    exact ⟨_, rfl⟩
  | succ n ih =>
    intro j h1 h2
    rw [drawPos]
    by_cases hc : (s j = 0 ∧ s (j + 1) = 0 ∧ s (j + 2) = 0) ∨ rmax < radOf (s j)
    · rw [if_pos hc]
      refine ih (j + 3) ?_ ?_
      · rw [show j + 3 + 3 * n = j + 3 * (n + 1) by ring]; exact h1
      · rw [show j + 3 + 3 * n = j + 3 * (n + 1) by ring]; exact h2
    · rw [if_neg hc]; exact ⟨_, rfl⟩

theorem drawSpeed_sound (s : ℕ → ℝ) :
    ∀ fuel j a, drawSpeed s fuel j = some a → ∃ i, a.1 = s i ∧ s (i + 1) ≤ 10 * envelope (s i) := by
  intro fuel
  induction fuel with
  | zero => intro j a h; simp [drawSpeed] at h
  | succ fuel ih =>
    intro j a h
    rw [drawSpeed] at h
    by_cases hc : envelope (s j) < 1 / 10 * s (j + 1)
    · rw [if_pos hc] at h; exact ih _ _ h
    · rw [if_neg hc] at h
      simp only [Option.some.injEq] at h
      subst h
      exact ⟨j, rfl, by linarith [not_lt.1 hc]⟩

theorem posOf_norm (rad x2 x3 : ℝ) (h0 : 0 ≤ x2) (h1 : x2 ≤ 1) :
    posOf rad x2 x3 0 * posOf rad x2 x3 0 + posOf rad x2 x3 1 * posOf rad x2 x3 1 +
      posOf rad x2 x3 2 * posOf rad x2 x3 2 = rad * rad := by
  unfold posOf
  simp only [Matrix.cons_val_zero, Matrix.cons_val_one, Matrix.cons_val]
  have hz : 0 ≤ rad * rad - (1 - 2 * x2) * rad * ((1 - 2 * x2) * rad) := by
    have : rad * rad - (1 - 2 * x2) * rad * ((1 - 2 * x2) * rad) = 4 * (x2 * (1 - x2)) * (rad * rad) := by ring
    rw [this]
    exact mul_nonneg (mul_nonneg (by norm_num) (mul_nonneg h0 (by linarith))) (mul_self_nonneg _)
  have hq := Real.mul_self_sqrt hz
  have hcs := Real.sin_sq_add_cos_sq (2 * π * x3)
  generalize sqrt (rad * rad - (1 - 2 * x2) * rad * ((1 - 2 * x2) * rad)) = q at hq ⊢
  generalize sin (2 * π * x3) = a at hcs ⊢
  generalize cos (2 * π * x3) = b at hcs ⊢
  linear_combination (q * q) * hcs + hq

/-- the envelope is below one tenth -/
theorem envelope_le {q : ℝ} (h0 : 0 ≤ q) (h1 : q ≤ 1) : 0 ≤ envelope q ∧ envelope q ≤ 1 / 10 := by
  have hs0 : 0 ≤ q * q := mul_self_nonneg q
  have hs1 : 0 ≤ 1 - q * q := by nlinarith
  have e0 : 0 ≤ envelope q := mul_nonneg hs0 (Real.rpow_nonneg hs1 _)
  refine ⟨e0, ?_⟩
  have hsq : envelope q ^ 2 = (q * q) ^ 2 * (1 - q * q) ^ 7 := by
    unfold envelope
    rw [mul_pow, ← Real.rpow_natCast ((1 - q * q) ^ (7 / 2 : ℝ)) 2, ← Real.rpow_mul hs1,
      ← Real.rpow_natCast (1 - q * q) 7]
    norm_num
  have amgm : (q * q) ^ 2 * (1 - q * q) ^ 7 ≤ 1 / 100 := by
    generalize q * q = s at hs0 hs1
    have hg := Real.geom_mean_le_arith_mean2_weighted (w₁ := 2 / 9) (w₂ := 7 / 9) (p₁ := s / 2) (p₂ := (1 - s) / 7)
      (by norm_num) (by norm_num) (by linarith) (by linarith) (by norm_num)
    have hr : (2 / 9 : ℝ) * (s / 2) + 7 / 9 * ((1 - s) / 7) = 1 / 9 := by ring
    rw [hr] at hg
    have hl0 : 0 ≤ (s / 2) ^ (2 / 9 : ℝ) * ((1 - s) / 7) ^ (7 / 9 : ℝ) := by positivity
    have h9 := pow_le_pow_left₀ hl0 hg 9
    rw [mul_pow, ← Real.rpow_natCast ((s / 2) ^ (2 / 9 : ℝ)) 9, ← Real.rpow_mul (by linarith),
      ← Real.rpow_natCast (((1 - s) / 7) ^ (7 / 9 : ℝ)) 9, ← Real.rpow_mul (by linarith)] at h9
    have e1 : (2 / 9 : ℝ) * ((9 : ℕ) : ℝ) = ((2 : ℕ) : ℝ) := by norm_num
    have e2 : (7 / 9 : ℝ) * ((9 : ℕ) : ℝ) = ((7 : ℕ) : ℝ) := by norm_num
    rw [e1, e2, Real.rpow_natCast, Real.rpow_natCast, div_pow, div_pow] at h9
    have h10 : s ^ 2 * (1 - s) ^ 7 ≤ (1 / 9) ^ 9 * (2 ^ 2 * 7 ^ 7) := by
      have : s ^ 2 * (1 - s) ^ 7 = s ^ 2 / 2 ^ 2 * ((1 - s) ^ 7 / 7 ^ 7) * (2 ^ 2 * 7 ^ 7) := by ring
      rw [this]
      exact mul_le_mul_of_nonneg_right h9 (by norm_num)
    exact h10.trans (by norm_num)
  rw [← hsq] at amgm
  nlinarith

end Gandalf.Cloud
