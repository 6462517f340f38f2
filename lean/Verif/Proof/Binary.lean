import Verif.Model.Binary
import Verif.Spec.Kepler
import Mathlib.Analysis.SpecialFunctions.Trigonometric.Deriv
import Mathlib.Analysis.SpecialFunctions.Trigonometric.Bounds
import Mathlib.Tactic.FieldSimp
import Mathlib.Tactic.LinearCombination
import Mathlib.Tactic.Linarith
import Mathlib.Tactic.Positivity

/-! Helper lemmas for binary stars. -/

set_option autoImplicit false

namespace Gandalf.Binary

open Real

/-! ### Rotation -/

variable (phi theta psi : ℝ)

lemma rotate_add (x y : Vec 3 ℝ) :
    rotate phi theta psi (fun k => x k + y k)
      = fun k => rotate phi theta psi x k + rotate phi theta psi y k := by
  funext k; simp only [rotate]; ring

lemma rotate_sub (x y : Vec 3 ℝ) :
    rotate phi theta psi (fun k => x k - y k)
      = fun k => rotate phi theta psi x k - rotate phi theta psi y k := by
  funext k; simp only [rotate]; ring

lemma rotate_smul (c : ℝ) (x : Vec 3 ℝ) :
    rotate phi theta psi (fun k => c * x k) = fun k => c * rotate phi theta psi x k := by
  funext k; simp only [rotate]; ring

lemma dot3 (x y : Vec 3 ℝ) : dot x y = x 0 * y 0 + x 1 * y 1 + x 2 * y 2 := by
  simp [dot, Fin.sum_univ_three]

lemma row00 : dot (eulerMatrix phi theta psi 0) (eulerMatrix phi theta psi 0) = 1 := by
  have h := sin_sq_add_cos_sq psi; have h' := sin_sq_add_cos_sq theta
  simp [dot3, eulerMatrix]
  linear_combination (cos theta) ^ 2 * h + h'
lemma row11 : dot (eulerMatrix phi theta psi 1) (eulerMatrix phi theta psi 1) = 1 := by
  have h := sin_sq_add_cos_sq psi; have h' := sin_sq_add_cos_sq theta
  have h'' := sin_sq_add_cos_sq phi
  simp [dot3, eulerMatrix]
  linear_combination ((cos phi) ^ 2 + (sin phi) ^ 2 * (sin theta) ^ 2) * h + (sin phi) ^ 2 * h' + h''
lemma row22 : dot (eulerMatrix phi theta psi 2) (eulerMatrix phi theta psi 2) = 1 := by
  have h := sin_sq_add_cos_sq psi; have h' := sin_sq_add_cos_sq theta
  have h'' := sin_sq_add_cos_sq phi
  simp [dot3, eulerMatrix]
  linear_combination ((sin phi) ^ 2 + (cos phi) ^ 2 * (sin theta) ^ 2) * h + (cos phi) ^ 2 * h' + h''
lemma row01 : dot (eulerMatrix phi theta psi 0) (eulerMatrix phi theta psi 1) = 0 := by
  have h := sin_sq_add_cos_sq psi
  simp [dot3, eulerMatrix]
  linear_combination (cos theta * sin phi * sin theta) * h
lemma row02 : dot (eulerMatrix phi theta psi 0) (eulerMatrix phi theta psi 2) = 0 := by
  have h := sin_sq_add_cos_sq psi
  simp [dot3, eulerMatrix]
  linear_combination -(cos theta * cos phi * sin theta) * h
lemma row12 : dot (eulerMatrix phi theta psi 1) (eulerMatrix phi theta psi 2) = 0 := by
  have h := sin_sq_add_cos_sq psi; have h' := sin_sq_add_cos_sq theta
  simp [dot3, eulerMatrix]
  linear_combination (cos phi * sin phi - sin phi * cos phi * (sin theta) ^ 2) * h
    - sin phi * cos phi * h'

lemma rotate_dot (x y : Vec 3 ℝ) :
    dot (rotate phi theta psi x) (rotate phi theta psi y) = dot x y := by
  have a := row00 phi theta psi
  have b := row11 phi theta psi
  have c := row22 phi theta psi
  have d := row01 phi theta psi
  have e := row02 phi theta psi
  have f := row12 phi theta psi
  simp only [dot3, rotate] at *
  linear_combination (x 0 * y 0) * a + (x 1 * y 1) * b + (x 2 * y 2) * c
    + (x 0 * y 1 + x 1 * y 0) * d + (x 0 * y 2 + x 2 * y 0) * e + (x 1 * y 2 + x 2 * y 1) * f

lemma cross0 (k : Fin 3) : crossProduct (eulerMatrix phi theta psi 0) (eulerMatrix phi theta psi 1) k
    = eulerMatrix phi theta psi 2 k := by
  have h := sin_sq_add_cos_sq psi; have h' := sin_sq_add_cos_sq theta
  fin_cases k
  · simp [cross_apply, eulerMatrix]; linear_combination sin phi * sin psi * h'
  · simp [cross_apply, eulerMatrix]; linear_combination sin phi * cos psi * h'
  · simp [cross_apply, eulerMatrix]; linear_combination cos phi * cos theta * h
lemma cross1 (k : Fin 3) : crossProduct (eulerMatrix phi theta psi 1) (eulerMatrix phi theta psi 2) k
    = eulerMatrix phi theta psi 0 k := by
  have h := sin_sq_add_cos_sq psi; have h' := sin_sq_add_cos_sq theta
  have h'' := sin_sq_add_cos_sq phi
  fin_cases k
  · simp [cross_apply, eulerMatrix]; linear_combination cos theta * cos psi * h''
  · simp [cross_apply, eulerMatrix]; linear_combination -cos theta * sin psi * h''
  · simp [cross_apply, eulerMatrix]
    linear_combination (sin theta * (sin phi ^ 2 + cos phi ^ 2)) * h + sin theta * h''
lemma cross2 (k : Fin 3) : crossProduct (eulerMatrix phi theta psi 2) (eulerMatrix phi theta psi 0) k
    = eulerMatrix phi theta psi 1 k := by
  have h := sin_sq_add_cos_sq psi; have h' := sin_sq_add_cos_sq theta
  fin_cases k
  · simp [cross_apply, eulerMatrix]; linear_combination cos phi * sin psi * h'
  · simp [cross_apply, eulerMatrix]; linear_combination cos phi * cos psi * h'
  · simp [cross_apply, eulerMatrix]; linear_combination -sin phi * cos theta * h

lemma rotate_cross (x y : Vec 3 ℝ) :
    crossProduct (rotate phi theta psi x) (rotate phi theta psi y)
      = rotate phi theta psi (crossProduct x y) := by
  funext k
  have a := fun k => cross0 phi theta psi k
  have b := fun k => cross1 phi theta psi k
  have c := fun k => cross2 phi theta psi k
  have a0 := a 0; have a1 := a 1; have a2 := a 2
  have b0 := b 0; have b1 := b 1; have b2 := b 2
  have c0 := c 0; have c1 := c 1; have c2 := c 2
  clear a b c
  simp only [cross_apply, Matrix.cons_val_zero, Matrix.cons_val_one, Matrix.cons_val,
    Matrix.head_cons] at a0 a1 a2 b0 b1 b2 c0 c1 c2
  fin_cases k
  · simp [cross_apply, rotate]
    linear_combination (x 0 * y 1 - x 1 * y 0) * a0 + (x 1 * y 2 - x 2 * y 1) * b0
      + (x 2 * y 0 - x 0 * y 2) * c0
  · simp [cross_apply, rotate]
    linear_combination (x 0 * y 1 - x 1 * y 0) * a1 + (x 1 * y 2 - x 2 * y 1) * b1
      + (x 2 * y 0 - x 0 * y 2) * c1
  · simp [cross_apply, rotate]
    linear_combination (x 0 * y 1 - x 1 * y 0) * a2 + (x 1 * y 2 - x 2 * y 1) * b2
      + (x 2 * y 0 - x 0 * y 2) * c2

/-! ### The orbit in its plane -/

variable {phi theta psi}

lemma towards_dot (t : ℝ) : dot (towards t) (towards t) = 1 := by
  have := sin_sq_add_cos_sq t
  simp [dot3, towards]; linear_combination this

lemma heading_eq (t p : ℝ) : heading t p = ![-sin (t - p), cos (t - p), 0] := by
  have h : 1 / 2 * π - t + p = π / 2 - (t - p) := by ring
  rw [heading, h, cos_pi_div_two_sub, sin_pi_div_two_sub]

lemma heading_dot (t p : ℝ) : dot (heading t p) (heading t p) = 1 := by
  have := sin_sq_add_cos_sq (t - p)
  rw [heading_eq]
  simp [dot3]; linear_combination this

lemma towards_heading (t p : ℝ) : dot (towards t) (heading t p) = sin p := by
  have h : sin p = sin (t - (t - p)) := by congr 1; ring
  rw [h, sin_sub, heading_eq]
  simp [dot3, towards]; ring

/-- relative position of the two stars -/
lemma place_r (p : Args) (t : ℝ) (hm : p.m1 + p.m2 ≠ 0) :
    (fun k => (place p t).1.r k - (place p t).2.r k)
      = rotate p.phirot p.thetarot p.psirot
          (fun k => separation p.sma p.eccent t * towards t k) := by
  funext k
  simp only [place, rotate]
  field_simp
  ring

lemma place_v (p : Args) (t : ℝ) (hm : p.m1 + p.m2 ≠ 0) :
    (fun k => (place p t).1.v k - (place p t).2.v k)
      = rotate p.phirot p.thetarot p.psirot
          (fun k => speed p.m1 p.m2 p.sma (separation p.sma p.eccent t)
            * heading t (tilt p.sma p.eccent t (separation p.sma p.eccent t)) k) := by
  funext k
  simp only [place, rotate]
  field_simp
  ring

lemma one_add_pos {e : ℝ} (h0 : 0 ≤ e) (h1 : e < 1) (t : ℝ) : 0 < 1 + e * cos t := by
  have := neg_one_le_cos t
  nlinarith

lemma one_sub_pos {e : ℝ} (h0 : 0 ≤ e) (h1 : e < 1) (t : ℝ) : 0 < 1 - e * cos t := by
  have := cos_le_one t
  nlinarith

lemma sep_pos {a e : ℝ} (ha : 0 < a) (h0 : 0 ≤ e) (h1 : e < 1) (t : ℝ) : 0 < separation a e t := by
  have := one_add_pos h0 h1 t
  have : 0 < 1 - e * e := by nlinarith
  unfold separation; positivity

/-- `1 + 2 e cos t + e²` -/
lemma disc_pos {e : ℝ} (h0 : 0 ≤ e) (h1 : e < 1) (t : ℝ) : 0 < 1 + 2 * e * cos t + e ^ 2 := by
  have := neg_one_le_cos t
  nlinarith [sq_nonneg (1 - e)]

lemma two_sub {a e : ℝ} (ha : 0 < a) (h0 : 0 ≤ e) (h1 : e < 1) (t : ℝ) :
    2 - separation a e t / a = (1 + 2 * e * cos t + e ^ 2) / (1 + e * cos t) := by
  have := one_add_pos h0 h1 t
  unfold separation
  field_simp
  ring

lemma speed_sq {a e m1 m2 : ℝ} (ha : 0 < a) (h0 : 0 ≤ e) (h1 : e < 1) (hm : 0 ≤ m1 + m2) (t : ℝ) :
    speed m1 m2 a (separation a e t) ^ 2 = (m1 + m2) * (2 / separation a e t - 1 / a) := by
  have hs := sep_pos ha h0 h1 t
  have h2 := two_sub ha h0 h1 t
  have : 0 < (1 + 2 * e * cos t + e ^ 2) / (1 + e * cos t) :=
    div_pos (disc_pos h0 h1 t) (one_add_pos h0 h1 t)
  rw [← h2] at this
  have h3 : 2 / separation a e t - 1 / a = (2 - separation a e t / a) / separation a e t := by
    field_simp
  rw [speed, sq_sqrt]
  rw [h3]
  exact mul_nonneg hm (div_pos this hs).le

lemma hc_sq {a e : ℝ} (ha : 0 < a) (h0 : 0 ≤ e) (h1 : e < 1) (t : ℝ) :
    (1 + e * cos t) / (2 - separation a e t / a) = (1 + e * cos t) ^ 2 / (1 + 2 * e * cos t + e ^ 2) := by
  have := one_add_pos h0 h1 t
  have := disc_pos h0 h1 t
  rw [two_sub ha h0 h1 t]
  field_simp

lemma hc_le {a e : ℝ} (ha : 0 < a) (h0 : 0 ≤ e) (h1 : e < 1) (t : ℝ) :
    (1 + e * cos t) / (2 - separation a e t / a) ≤ 1 := by
  rw [hc_sq ha h0 h1 t, div_le_one (disc_pos h0 h1 t)]
  nlinarith [sq_nonneg (e * sin t), sin_sq_add_cos_sq t]

lemma hc_pos {a e : ℝ} (ha : 0 < a) (h0 : 0 ≤ e) (h1 : e < 1) (t : ℝ) :
    0 < (1 + e * cos t) / (2 - separation a e t / a) := by
  have := one_add_pos h0 h1 t
  have := disc_pos h0 h1 t
  rw [hc_sq ha h0 h1 t]
  positivity

lemma cos_tilt {a e : ℝ} (ha : 0 < a) (h0 : 0 ≤ e) (h1 : e < 1) (t : ℝ) :
    cos (tilt a e t (separation a e t)) = sqrt ((1 + e * cos t) / (2 - separation a e t / a)) := by
  rw [tilt, cos_arccos]
  · exact le_trans (by norm_num) (sqrt_nonneg _)
  · exact (sqrt_le_sqrt (hc_le ha h0 h1 t)).trans_eq sqrt_one

lemma sin_tilt {a e : ℝ} (ha : 0 < a) (h0 : 0 ≤ e) (h1 : e < 1) (t : ℝ) :
    sin (tilt a e t (separation a e t)) = sqrt (1 - (1 + e * cos t) / (2 - separation a e t / a)) := by
  rw [tilt, sin_arccos, sq_sqrt (hc_pos ha h0 h1 t).le]

/-! ### Kepler's equation -/

lemma sin_taylor (x d : ℝ) : |sin (x + d) - sin x - d * cos x| ≤ d ^ 2 / 2 := by
  -- both signs of `d²/2 ∓ (sin (x + d) - sin x - d cos x)` have non-negative derivative for `d ≥ 0`
  have key : ∀ s : ℝ, (s = 1 ∨ s = -1) → ∀ y d : ℝ, 0 ≤ d →
      0 ≤ d ^ 2 / 2 - s * (sin (y + d) - sin y - d * cos y) := by
    intro s hs y d hd
    have hder : ∀ z : ℝ, HasDerivAt (fun z => z ^ 2 / 2 - s * (sin (y + z) - sin y - z * cos y))
        (z - s * (cos (y + z) - cos y)) z := by
      intro z
      have h1 : HasDerivAt (fun z : ℝ => z ^ 2 / 2) z z := by
        have := (hasDerivAt_pow 2 z).div_const 2
        simpa using this
      have h2 : HasDerivAt (fun z => sin (y + z)) (cos (y + z)) z := (hasDerivAt_sin (y + z)).comp_const_add y z
      have h3 : HasDerivAt (fun z : ℝ => z * cos y) (cos y) z := by
        simpa using (hasDerivAt_id z).mul_const (cos y)
      exact h1.sub (((h2.sub_const _).sub h3).const_mul s)
    have hmono : MonotoneOn (fun z => z ^ 2 / 2 - s * (sin (y + z) - sin y - z * cos y)) (Set.Ici 0) := by
      refine monotoneOn_of_deriv_nonneg (convex_Ici 0) ?_ ?_ ?_
      · exact fun z _ => (hder z).continuousAt.continuousWithinAt
      · exact fun z _ => (hder z).differentiableAt.differentiableWithinAt
      · intro z hz
        rw [(hder z).deriv]
        have hz : 0 < z := by simpa using hz
        have hc : |cos (y + z) - cos y| ≤ z := by
          have h := cos_sub_cos (y + z) y
          rw [h]
          have e1 : (y + z - y) / 2 = z / 2 := by ring
          rw [e1, abs_mul, abs_mul]
          have a1 := abs_sin_le_one ((y + z + y) / 2)
          have a2 : |sin (z / 2)| ≤ z / 2 := by
            have := abs_sin_le_abs (x := z / 2)
            rwa [abs_of_pos (by linarith : 0 < z / 2)] at this
          have : |(-2 : ℝ)| = 2 := by norm_num
          rw [this]
          nlinarith [abs_nonneg (sin (z / 2)), abs_nonneg (sin ((y + z + y) / 2))]
        rcases abs_le.1 hc with ⟨b1, b2⟩
        rcases hs with rfl | rfl <;> linarith
    have := hmono (Set.mem_Ici.2 le_rfl) (Set.mem_Ici.2 hd) hd
    simpa using this
  have pos : ∀ y d : ℝ, 0 ≤ d → |sin (y + d) - sin y - d * cos y| ≤ d ^ 2 / 2 := by
    intro y d hd
    have h1 := key 1 (Or.inl rfl) y d hd
    have h2 := key (-1) (Or.inr rfl) y d hd
    rw [abs_le]; constructor <;> linarith
  rcases le_total 0 d with hd | hd
  · exact pos x d hd
  · have := pos (-x) (-d) (by linarith)
    have e1 : -x + -d = -(x + d) := by ring
    rw [e1, sin_neg, sin_neg, cos_neg] at this
    have e2 : -sin (x + d) - -sin x - -d * cos x = -(sin (x + d) - sin x - d * cos x) := by ring
    rw [e2, abs_neg] at this
    simpa using this

/-- what is left of Kepler's equation after a Newton step -/
lemma newton_residual {e : ℝ} (h0 : 0 ≤ e) (h1 : e < 1) (M E : ℝ) :
    |newton e M E - e * sin (newton e M E) - M| ≤ e / 2 * (E - newton e M E) ^ 2 := by
  have hd := one_sub_pos h0 h1 E
  set d := newton e M E - E with hdd
  have hE : newton e M E = E + d := by rw [hdd]; ring
  have hf : d * (1 - e * cos E) = -(E - e * sin E - M) := by
    rw [hdd, newton]; field_simp; ring
  have ht := sin_taylor E d
  have : newton e M E - e * sin (newton e M E) - M
      = -(e * (sin (E + d) - sin E - d * cos E)) := by
    rw [hE]; linear_combination hf
  rw [this, abs_neg, abs_mul, abs_of_nonneg h0]
  have e2 : (E - newton e M E) ^ 2 = d ^ 2 := by rw [hE]; ring
  rw [e2]
  nlinarith

lemma solve_residual {e : ℝ} (h0 : 0 ≤ e) (h1 : e < 1) (M : ℝ) :
    ∀ (fuel : ℕ) (E R : ℝ), solve e M fuel E = some R →
      |R - e * sin R - M| ≤ e / 2 * (1 / 1000000) ^ 2 := by
  intro fuel
  induction fuel with
  | zero => intro E R h; simp [solve] at h
  | succ n ih =>
    intro E R h
    unfold solve at h
    by_cases hc : 1 / 1000000 < |E - newton e M E|
    · rw [if_pos hc] at h; exact ih _ _ h
    · rw [if_neg hc] at h
      obtain rfl := Option.some.inj h
      have hr := newton_residual h0 h1 M E
      have hc' := not_lt.1 hc
      have : (E - newton e M E) ^ 2 ≤ (1 / 1000000) ^ 2 := by
        rw [← sq_abs]; exact pow_le_pow_left₀ (abs_nonneg _) hc' 2
      nlinarith

/-- for eccentricities up to one half a step is at most half the square of the step before -/
lemma newton_step {e : ℝ} (h0 : 0 ≤ e) (h1 : e ≤ 1 / 2) (M E : ℝ) :
    |newton e M E - newton e M (newton e M E)| ≤ (E - newton e M E) ^ 2 / 2 := by
  have hr := newton_residual h0 (by linarith) M E
  set F := newton e M E with hF
  have hd := one_sub_pos h0 (by linarith) F
  have : F - newton e M F = (F - e * sin F - M) / (1 - e * cos F) := by
    conv_lhs => rw [newton]
    ring
  rw [this, abs_div, abs_of_pos hd, div_le_iff₀ hd]
  have : 1 / 2 ≤ 1 - e * cos F := by nlinarith [cos_le_one F]
  nlinarith [sq_nonneg (E - F)]

lemma solve_some_of_small {e M E : ℝ} (fuel : ℕ) (h : |E - newton e M E| ≤ 1 / 1000000) :
    (solve e M (fuel + 1) E).isSome := by
  unfold solve
  rw [if_neg (not_lt.2 h)]; rfl

lemma solve_some_succ {e M E : ℝ} (fuel : ℕ) (h : (solve e M fuel (newton e M E)).isSome) :
    (solve e M (fuel + 1) E).isSome := by
  unfold solve
  by_cases hc : 1 / 1000000 < |E - newton e M E|
  · rw [if_pos hc]; exact h
  · rw [if_neg hc]; rfl

lemma solve_six {e : ℝ} (h0 : 0 ≤ e) (h1 : e ≤ 1 / 2) (M : ℝ) : (solve e M 6 M).isSome := by
  have step : ∀ E b : ℝ, |E - newton e M E| ≤ b →
      |newton e M E - newton e M (newton e M E)| ≤ b ^ 2 / 2 := by
    intro E b hb
    refine (newton_step h0 h1 M E).trans ?_
    have : (E - newton e M E) ^ 2 ≤ b ^ 2 := by
      rw [← sq_abs]; exact pow_le_pow_left₀ (abs_nonneg _) hb 2
    linarith
  have s0 : |M - newton e M M| ≤ 1 := by
    have hd := one_sub_pos h0 (by linarith) M
    have : M - newton e M M = (-(e * sin M)) / (1 - e * cos M) := by rw [newton]; ring
    rw [this, abs_div, abs_of_pos hd, div_le_one hd, abs_neg, abs_mul, abs_of_nonneg h0]
    have := abs_sin_le_one M
    have := abs_nonneg (sin M)
    nlinarith [cos_le_one M]
  have s1 := step _ _ s0
  have s2 := step _ _ s1
  have s3 := step _ _ s2
  have s4 := step _ _ s3
  have s5 := step _ _ s4
  refine solve_some_succ 5 (solve_some_succ 4 (solve_some_succ 3 (solve_some_succ 2
    (solve_some_succ 1 (solve_some_of_small 0 (s5.trans ?_))))))
  norm_num

/-! ### Eccentric anomaly -/

section
variable {a e : ℝ} (ha : 0 < a) (h0 : 0 ≤ e) (h1 : e < 1) (E : ℝ) (hE : cos (E / 2) ≠ 0)
include h0 h1 hE

lemma denom_eq :
    1 + (sqrt ((1 + e) / (1 - e)) * tan (1 / 2 * E)) ^ 2
      = (1 - e * cos E) / ((1 - e) * cos (E / 2) ^ 2) := by
  have hk : sqrt ((1 + e) / (1 - e)) ^ 2 = (1 + e) / (1 - e) :=
    sq_sqrt (div_nonneg (by linarith) (by linarith))
  have h2 : (1 / 2 * E) = E / 2 := by ring
  have hcE : cos E = cos (E / 2) ^ 2 - sin (E / 2) ^ 2 := by
    rw [← cos_two_mul']; congr 1; ring
  have hs := sin_sq_add_cos_sq (E / 2)
  have h3 : 1 - e ≠ 0 := by linarith
  rw [mul_pow, hk, h2, tan_eq_sin_div_cos, hcE]
  field_simp
  linear_combination hs

lemma cos_true : cos (trueAnomaly e E) = (cos E - e) / (1 - e * cos E) := by
  have hd := one_sub_pos h0 h1 E
  have h3 : 0 < 1 - e := by linarith
  have hden := denom_eq h0 h1 E hE
  have hcE : cos E = 2 * cos (E / 2) ^ 2 - 1 := by
    rw [← cos_two_mul]; congr 1; ring
  rw [trueAnomaly, cos_two_mul, cos_sq_arctan, hden]
  field_simp
  rw [hcE]; ring

lemma sin_true : sin (trueAnomaly e E) = sqrt (1 - e ^ 2) * sin E / (1 - e * cos E) := by
  have hd := one_sub_pos h0 h1 E
  have h3 : 0 < 1 - e := by linarith
  have hden := denom_eq h0 h1 E hE
  set x := sqrt ((1 + e) / (1 - e)) * tan (1 / 2 * E) with hx
  have hpos : 0 < 1 + x ^ 2 := by positivity
  have hsin : sin (2 * arctan x) = 2 * x / (1 + x ^ 2) := by
    rw [sin_two_mul, sin_arctan, cos_arctan]
    have := sq_sqrt hpos.le
    have hne : sqrt (1 + x ^ 2) ≠ 0 := (sqrt_pos.2 hpos).ne'
    field_simp
    rw [this]
  have hk : sqrt ((1 + e) / (1 - e)) * (1 - e) = sqrt (1 - e ^ 2) := by
    have hn : 0 ≤ (1 + e) / (1 - e) := div_nonneg (by linarith) h3.le
    have : sqrt ((1 + e) / (1 - e)) * (1 - e)
        = sqrt ((1 + e) / (1 - e)) * sqrt ((1 - e) ^ 2) := by rw [sqrt_sq h3.le]
    rw [this, ← sqrt_mul hn]
    congr 1; field_simp; ring
  have hsE : sin E = 2 * sin (E / 2) * cos (E / 2) := by
    rw [← sin_two_mul]; congr 1; ring
  rw [trueAnomaly, hsin, hden, hx, hsE, ← hk]
  have h2 : (1 / 2 * E) = E / 2 := by ring
  rw [h2, tan_eq_sin_div_cos]
  field_simp

lemma one_add_true : 1 + e * cos (trueAnomaly e E) = (1 - e ^ 2) / (1 - e * cos E) := by
  have hd := one_sub_pos h0 h1 E
  rw [cos_true h0 h1 E hE]
  field_simp
  ring

include ha in
lemma sep_true : separation a e (trueAnomaly e E) = a * (1 - e * cos E) := by
  have hd := one_sub_pos h0 h1 E
  have : 0 < 1 - e ^ 2 := by nlinarith
  rw [separation, one_add_true h0 h1 E hE]
  field_simp

include ha in
lemma position_true :
    (fun k => separation a e (trueAnomaly e E) * towards (trueAnomaly e E) k)
      = Kepler.position a e E := by
  have hd := one_sub_pos h0 h1 E
  funext k
  rw [sep_true ha h0 h1 E hE]
  fin_cases k
  · simp [towards, Kepler.position, cos_true h0 h1 E hE]; field_simp
  · simp [towards, Kepler.position, sin_true h0 h1 E hE]; field_simp
  · simp [towards, Kepler.position]

include ha in
/-- tangential and radial velocity -/
lemma vel_cos {m1 m2 : ℝ} (hm : 0 ≤ m1 + m2) :
    speed m1 m2 a (separation a e (trueAnomaly e E))
        * cos (tilt a e (trueAnomaly e E) (separation a e (trueAnomaly e E)))
      = sqrt ((m1 + m2) / a) * sqrt (1 - e ^ 2) / (1 - e * cos E) := by
  have hd := one_sub_pos h0 h1 E
  have hp : 0 < 1 + e * cos E := one_add_pos h0 h1 E
  have h2 : 0 < 1 - e ^ 2 := by nlinarith
  have hn : 0 ≤ (m1 + m2) / a := div_nonneg hm ha.le
  refine (sq_eq_sq₀ ?_ ?_).1 ?_
  · rw [cos_tilt ha h0 h1]
    exact mul_nonneg (sqrt_nonneg _) (sqrt_nonneg _)
  · have := sqrt_nonneg ((m1 + m2) / a); positivity
  · rw [mul_pow, speed_sq ha h0 h1 hm, cos_tilt ha h0 h1, sq_sqrt (hc_pos ha h0 h1 _).le, div_pow,
      mul_pow, sq_sqrt hn, sq_sqrt h2.le, one_add_true h0 h1 E hE, sep_true ha h0 h1 E hE]
    have : 2 - a * (1 - e * cos E) / a = 1 + e * cos E := by field_simp; ring
    rw [this]
    field_simp
    ring

include ha in
lemma vel_sin {m1 m2 : ℝ} (hm : 0 ≤ m1 + m2) :
    speed m1 m2 a (separation a e (trueAnomaly e E))
        * sin (tilt a e (trueAnomaly e E) (separation a e (trueAnomaly e E)))
      = sqrt ((m1 + m2) / a) * (e * |sin E|) / (1 - e * cos E) := by
  have hd := one_sub_pos h0 h1 E
  have hp : 0 < 1 + e * cos E := one_add_pos h0 h1 E
  have h2 : 0 < 1 - e ^ 2 := by nlinarith
  have hn : 0 ≤ (m1 + m2) / a := div_nonneg hm ha.le
  have hs := sin_sq_add_cos_sq E
  refine (sq_eq_sq₀ ?_ ?_).1 ?_
  · rw [sin_tilt ha h0 h1]
    exact mul_nonneg (sqrt_nonneg _) (sqrt_nonneg _)
  · have := sqrt_nonneg ((m1 + m2) / a); positivity
  · have hle := hc_le ha h0 h1 (trueAnomaly e E)
    rw [mul_pow, speed_sq ha h0 h1 hm, sin_tilt ha h0 h1, sq_sqrt (by linarith), div_pow,
      mul_pow, sq_sqrt hn, mul_pow, sq_abs, one_add_true h0 h1 E hE, sep_true ha h0 h1 E hE]
    have : 2 - a * (1 - e * cos E) / a = 1 + e * cos E := by field_simp; ring
    rw [this]
    field_simp
    linear_combination (-((m1 + m2) * e ^ 2) - (m1 + m2) * e ^ 3 * cos E) * hs

include ha in
lemma velocity_true {m1 m2 : ℝ} (hm : 0 ≤ m1 + m2) (hs : 0 ≤ sin E) :
    (fun k => speed m1 m2 a (separation a e (trueAnomaly e E))
        * heading (trueAnomaly e E) (tilt a e (trueAnomaly e E) (separation a e (trueAnomaly e E))) k)
      = Kepler.velocity (m1 + m2) a e E := by
  have hd := one_sub_pos h0 h1 E
  have hc := vel_cos ha h0 h1 E hE hm
  have hsn := vel_sin ha h0 h1 E hE hm
  have hq := sin_sq_add_cos_sq E
  have h2 : sqrt (1 - e ^ 2) ^ 2 = 1 - e ^ 2 := sq_sqrt (by nlinarith)
  rw [abs_of_nonneg hs] at hsn
  set V := speed m1 m2 a (separation a e (trueAnomaly e E))
  set p := tilt a e (trueAnomaly e E) (separation a e (trueAnomaly e E))
  have ht := cos_true h0 h1 E hE
  have ht' := sin_true h0 h1 E hE
  set t := trueAnomaly e E
  set K := sqrt ((m1 + m2) / a)
  funext k
  rw [heading_eq]
  fin_cases k
  · simp only [Kepler.velocity, sin_sub, Fin.zero_eta, Matrix.cons_val_zero]
    have : V * -(sin t * cos p - cos t * sin p) = -(sin t * (V * cos p)) + cos t * (V * sin p) := by ring
    rw [this, hc, hsn, ht, ht']
    field_simp
    linear_combination (-(K * sin E)) * h2
  · simp only [Kepler.velocity, cos_sub, Fin.mk_one, Matrix.cons_val_one,
      Matrix.cons_val_zero]
    have : V * (cos t * cos p + sin t * sin p) = cos t * (V * cos p) + sin t * (V * sin p) := by ring
    rw [this, hc, hsn, ht, ht']
    have hk : cos E - e + e * sin E ^ 2 = cos E * (1 - e * cos E) := by linear_combination e * hq
    have hd' := hd.ne'
    have hK : sqrt ((m1 + m2) / a) = K := rfl
    rw [hK]
    generalize 1 - e * cos E = D at hk hd' ⊢
    generalize sqrt (1 - e ^ 2) = S
    have : (cos E - e) / D * (K * S / D) + S * sin E / D * (K * (e * sin E) / D)
        = K * S * (cos E - e + e * sin E ^ 2) / (D * D) := by ring
    rw [this, hk]
    field_simp
  · simp [Kepler.velocity]

end

end Gandalf.Binary
