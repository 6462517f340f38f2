import Verif.Proof.Binary
import Mathlib.Analysis.Calculus.Deriv.Add
import Mathlib.Analysis.Calculus.Deriv.Mul
import Mathlib.Tactic.NormNum

/-! # C65: the orbits of binary, triple and quadruple stars

The independent description of an orbit is in `Verif.Spec.Kepler`. -/

set_option autoImplicit false

namespace Gandalf

open Real Binary

/-- a star as a body -/
def C65_body (s : Star) : Totals.Body 3 ℝ := ⟨s.m, s.r, s.v⟩

/-- relative position of two stars -/
def C65_r (s : Star × Star) : Vec 3 ℝ := fun k => s.1.r k - s.2.r k

/-- relative velocity of two stars -/
def C65_v (s : Star × Star) : Vec 3 ℝ := fun k => s.1.v k - s.2.v k

/-! ### The description itself -/

/-- `Kepler.velocity` is the rate of change of `Kepler.position` when the mean anomaly
`E - e sin E` grows uniformly with the mean motion `√(mu/a)/a` -/
theorem C65_spec_rate (mu a e : ℝ) (ha : 0 < a) (E : ℝ → ℝ) (E' t : ℝ) (h0 : 0 ≤ e) (h1 : e < 1)
    (hE : HasDerivAt E E' t)
    (hK : HasDerivAt (fun s => E s - e * sin (E s)) (sqrt (mu / a) / a) t) (k : Fin 3) :
    HasDerivAt (fun s => Kepler.position a e (E s) k) (Kepler.velocity mu a e (E t) k) t := by
  have hd := one_sub_pos h0 h1 (E t)
  have hsin : HasDerivAt (fun s => sin (E s)) (cos (E t) * E') t := hE.sin
  have hcos : HasDerivAt (fun s => cos (E s)) (-sin (E t) * E') t := hE.cos
  have hK' := (hE.sub (hsin.const_mul e)).unique hK
  have hE' : E' = sqrt (mu / a) / a / (1 - e * cos (E t)) := by
    rw [eq_div_iff hd.ne', ← hK']; ring
  fin_cases k
  · refine ((hcos.sub_const e).const_mul a).congr_deriv ?_
    simp only [Kepler.velocity, hE', Fin.zero_eta, Matrix.cons_val_zero]
    field_simp
  · refine ((hsin.const_mul (sqrt (1 - e ^ 2))).const_mul a).congr_deriv ?_
    simp only [Kepler.velocity, hE', Fin.mk_one, Matrix.cons_val_one, Matrix.cons_val_zero]
    field_simp
  · simpa [Kepler.position, Kepler.velocity] using hasDerivAt_const t (0 : ℝ)

/-- a circular orbit meets the hypotheses: `E = t` -/
example : HasDerivAt (fun s : ℝ => Kepler.position 1 0 s 0) (Kepler.velocity 1 1 0 2 0) 2 :=
  C65_spec_rate 1 1 0 one_pos (fun s => s) 1 2 le_rfl one_pos (hasDerivAt_id 2)
    (by
      have h : (fun s : ℝ => s - 0 * sin s) = id := by funext s; simp
      rw [h]; simpa using hasDerivAt_id (2 : ℝ)) 0

/-! ### The rotation -/

/-- `EulerAngleRotation` is a rotation: it keeps lengths, angles and handedness, and all angles zero
leave every vector as it is -/
theorem C65_rotation (phi theta psi : ℝ) :
    (∀ x y, dot (rotate phi theta psi x) (rotate phi theta psi y) = dot x y) ∧
    (∀ x y, crossProduct (rotate phi theta psi x) (rotate phi theta psi y)
      = rotate phi theta psi (crossProduct x y)) ∧
    (∀ x, rotate 0 0 0 x = x) := by
  refine ⟨rotate_dot _ _ _, rotate_cross _ _ _, fun x => ?_⟩
  funext k
  fin_cases k <;> simp [rotate, eulerMatrix]

example : rotate 0 0 (π / 2) ![1, 2, 3] = ![2, -1, 3] := by
  funext k
  fin_cases k <;> simp [rotate, eulerMatrix]

/-! ### Mass and centre -/

lemma C65_place_centre (p : Args) (t : ℝ) (hm : p.m1 + p.m2 ≠ 0) :
    Totals.IsCentre [C65_body (place p t).1, C65_body (place p t).2] p.rbinary ∧
    Totals.IsDrift [C65_body (place p t).1, C65_body (place p t).2] p.vbinary := by
  constructor <;> intro k <;> simp [C65_body, place, rotate] <;> field_simp <;> ring

/-- the stars have the masses asked for and their centre of mass is where it was asked for and moves
as asked for, for every eccentricity, phase and orientation -/
theorem C65_centre (fuel : ℕ) (u : ℝ) (p : Args) (s : Star × Star) (hm : p.m1 + p.m2 ≠ 0)
    (h : addBinaryStar fuel u p = some s) :
    s.1.m = p.m1 ∧ s.2.m = p.m2 ∧
    Totals.IsCentre [C65_body s.1, C65_body s.2] p.rbinary ∧
    Totals.IsDrift [C65_body s.1, C65_body s.2] p.vbinary := by
  obtain ⟨E, -, rfl⟩ := Option.map_eq_some_iff.1 h
  exact ⟨rfl, rfl, C65_place_centre p _ hm⟩

/-! ### Size and shape of the orbit -/

lemma C65_place_elements (p : Args) (t : ℝ) (ha : 0 < p.sma) (h0 : 0 ≤ p.eccent) (h1 : p.eccent < 1)
    (hm : 0 < p.m1 + p.m2) :
    Kepler.OnEllipse (p.m1 + p.m2) p.sma p.eccent (C65_r (place p t)) (C65_v (place p t)) := by
  have hs := sep_pos ha h0 h1 t
  have hv := speed_sq (m1 := p.m1) (m2 := p.m2) ha h0 h1 hm.le t
  have hr : C65_r (place p t) = _ := place_r p t hm.ne'
  have hv' : C65_v (place p t) = _ := place_v p t hm.ne'
  have hst := sin_tilt ha h0 h1 t
  have hle := hc_le ha h0 h1 t
  have h2 : 0 < 2 - separation p.sma p.eccent t / p.sma := by
    rw [two_sub ha h0 h1 t]; exact div_pos (disc_pos h0 h1 t) (one_add_pos h0 h1 t)
  have e1 := towards_dot t
  have e2 := heading_dot t (tilt p.sma p.eccent t (separation p.sma p.eccent t))
  have e3 := towards_heading t (tilt p.sma p.eccent t (separation p.sma p.eccent t))
  rw [hr, hv']
  set S := separation p.sma p.eccent t with hS
  set V := speed p.m1 p.m2 p.sma S
  set q := tilt p.sma p.eccent t S
  have rr : dot (rotate p.phirot p.thetarot p.psirot fun k => S * towards t k)
      (rotate p.phirot p.thetarot p.psirot fun k => S * towards t k) = S ^ 2 := by
    rw [rotate_dot]; simp only [dot3] at *; linear_combination S ^ 2 * e1
  have vv : dot (rotate p.phirot p.thetarot p.psirot fun k => V * heading t q k)
      (rotate p.phirot p.thetarot p.psirot fun k => V * heading t q k) = V ^ 2 := by
    rw [rotate_dot]; simp only [dot3] at *; linear_combination V ^ 2 * e2
  have rv : dot (rotate p.phirot p.thetarot p.psirot fun k => S * towards t k)
      (rotate p.phirot p.thetarot p.psirot fun k => V * heading t q k) = S * V * sin q := by
    rw [rotate_dot]; simp only [dot3] at *; linear_combination S * V * e3
  constructor
  · rw [rr, vv, hv, sqrt_sq hs.le]; field_simp; ring
  · rw [Kepler.angSq, rr, vv, rv, mul_pow, mul_pow, hst, sq_sqrt (by linarith), hv]
    have hS' : S * (1 + p.eccent * cos t) = p.sma * (1 - p.eccent ^ 2) := by
      have := one_add_pos h0 h1 t
      rw [hS, separation]; field_simp
    have : S ^ 2 * ((p.m1 + p.m2) * (2 / S - 1 / p.sma)) - S ^ 2 * ((p.m1 + p.m2) * (2 / S - 1 / p.sma))
          * (1 - (1 + p.eccent * cos t) / (2 - S / p.sma))
        = (p.m1 + p.m2) * (S * (1 + p.eccent * cos t)) := by
      have hx : 2 / S - 1 / p.sma = (2 - S / p.sma) / S := by field_simp
      rw [hx]
      generalize 2 - S / p.sma = x at h2
      field_simp; ring
    rw [this, hS']; ring

/-- the two stars are on an ellipse with the semi-major axis and the eccentricity asked for,
whatever the phase and the orientation -/
theorem C65_elements (fuel : ℕ) (u : ℝ) (p : Args) (s : Star × Star) (ha : 0 < p.sma)
    (h0 : 0 ≤ p.eccent) (h1 : p.eccent < 1) (hm : 0 < p.m1 + p.m2)
    (h : addBinaryStar fuel u p = some s) :
    Kepler.OnEllipse (p.m1 + p.m2) p.sma p.eccent (C65_r s) (C65_v s) := by
  obtain ⟨E, -, rfl⟩ := Option.map_eq_some_iff.1 h
  exact C65_place_elements p _ ha h0 h1 hm

/-! ### Kepler's equation -/

/-- for eccentricities up to one half the iteration ends after at most six rounds. Missing: larger
eccentricities, for which the steps of the iteration need not shrink. -/
theorem C65_terminates_partial (u : ℝ) (p : Args) (h0 : 0 ≤ p.eccent) (h1 : p.eccent ≤ 1 / 2) :
    (addBinaryStar 6 u p).isSome := by
  rw [addBinaryStar, Option.isSome_map]
  exact solve_six h0 h1 _

/-- arguments of the examples: equal masses on an orbit with eccentricity one half -/
noncomputable def C65_args : Args := ⟨3, 1 / 2, 1, 1, 1, 2, 0, 3, 0, 0⟩

example : (addBinaryStar 6 (3 / 4) C65_args).isSome :=
  C65_terminates_partial _ _ (by norm_num [C65_args]) (by norm_num [C65_args])

example : ∃ s, addBinaryStar 6 (3 / 4) C65_args = some s ∧
    Kepler.OnEllipse 2 3 (1 / 2) (C65_r s) (C65_v s) := by
  obtain ⟨s, hs⟩ := Option.isSome_iff_exists.1 (C65_terminates_partial (3 / 4) C65_args
    (by norm_num [C65_args]) (by norm_num [C65_args]))
  have := C65_elements 6 (3 / 4) C65_args s (by norm_num [C65_args]) (by norm_num [C65_args])
    (by norm_num [C65_args]) (by norm_num [C65_args]) hs
  refine ⟨s, hs, ?_⟩
  norm_num [C65_args] at this
  norm_num
  exact this

/-- the stars are where Kepler's laws put them at the mean anomaly `2πu` (with an error of Kepler's
equation below `10⁻¹²`), and move as they should, if they are on the way from pericentre to
apocentre. Missing: the way back, see `C65_incoming_fails`. -/
theorem C65_kepler_partial (fuel : ℕ) (u : ℝ) (p : Args) (s : Star × Star) (ha : 0 < p.sma)
    (h0 : 0 ≤ p.eccent) (h1 : p.eccent < 1) (hm : 0 < p.m1 + p.m2)
    (h : addBinaryStar fuel u p = some s) :
    ∃ E, |E - p.eccent * sin E - 2 * π * u| ≤ p.eccent / 2 * (1 / 1000000) ^ 2 ∧
      (cos (E / 2) ≠ 0 →
        C65_r s = rotate p.phirot p.thetarot p.psirot (Kepler.position p.sma p.eccent E)) ∧
      (cos (E / 2) ≠ 0 → 0 ≤ sin E →
        C65_v s = rotate p.phirot p.thetarot p.psirot
          (Kepler.velocity (p.m1 + p.m2) p.sma p.eccent E)) := by
  obtain ⟨E, hE, rfl⟩ := Option.map_eq_some_iff.1 h
  refine ⟨E, solve_residual h0 h1 _ _ _ _ hE, fun hc => ?_, fun hc hs => ?_⟩
  · exact (place_r p _ hm.ne').trans (by rw [position_true ha h0 h1 E hc])
  · exact (place_v p _ hm.ne').trans (by rw [velocity_true ha h0 h1 E hc hm.le hs])

lemma C65_place_rv (p : Args) (t : ℝ) (hm : 0 < p.m1 + p.m2) :
    dot (C65_r (place p t)) (C65_v (place p t))
      = separation p.sma p.eccent t * (speed p.m1 p.m2 p.sma (separation p.sma p.eccent t)
          * sin (tilt p.sma p.eccent t (separation p.sma p.eccent t))) := by
  have hr : C65_r (place p t) = _ := place_r p t hm.ne'
  have hv' : C65_v (place p t) = _ := place_v p t hm.ne'
  have e3 := towards_heading t (tilt p.sma p.eccent t (separation p.sma p.eccent t))
  rw [hr, hv', rotate_dot]
  simp only [dot3] at *
  linear_combination separation p.sma p.eccent t
    * speed p.m1 p.m2 p.sma (separation p.sma p.eccent t) * e3

/-- the stars never approach each other, whatever the phase -/
theorem C65_recedes (fuel : ℕ) (u : ℝ) (p : Args) (s : Star × Star) (ha : 0 < p.sma)
    (h0 : 0 ≤ p.eccent) (h1 : p.eccent < 1) (hm : 0 < p.m1 + p.m2)
    (h : addBinaryStar fuel u p = some s) : 0 ≤ dot (C65_r s) (C65_v s) := by
  obtain ⟨E, -, rfl⟩ := Option.map_eq_some_iff.1 h
  rw [C65_place_rv p _ hm, sin_tilt ha h0 h1]
  exact mul_nonneg (sep_pos ha h0 h1 _).le (mul_nonneg (sqrt_nonneg _) (sqrt_nonneg _))

/-- radial motion on the true orbit -/
lemma C65_spec_rv (mu a e E : ℝ) :
    dot (Kepler.position a e E) (Kepler.velocity mu a e E)
      = a * sqrt (mu / a) / (1 - e * cos E)
        * (sin E * (-(cos E - e) + sqrt (1 - e ^ 2) ^ 2 * cos E)) := by
  simp [dot3, Kepler.position, Kepler.velocity]; ring

lemma C65_spec_approach {mu a e E : ℝ} (hmu : 0 < mu) (ha : 0 < a) (h0 : 0 < e) (h1 : e < 1)
    (hs : sin E < 0) : dot (Kepler.position a e E) (Kepler.velocity mu a e E) < 0 := by
  have hd := one_sub_pos h0.le h1 E
  have h2 : sqrt (1 - e ^ 2) ^ 2 = 1 - e ^ 2 := sq_sqrt (by nlinarith)
  have hk : 0 < sqrt (mu / a) := sqrt_pos.2 (div_pos hmu ha)
  rw [C65_spec_rv, h2]
  have : sin E * (-(cos E - e) + (1 - e ^ 2) * cos E) = e * sin E * (1 - e * cos E) := by ring
  rw [this]
  have h3 : 0 < a * sqrt (mu / a) / (1 - e * cos E) := by positivity
  have h4 : e * sin E * (1 - e * cos E) < 0 :=
    mul_neg_of_neg_of_pos (mul_neg_of_pos_of_neg h0 hs) hd
  exact mul_neg_of_pos_of_neg h3 h4

/-- on the way from apocentre to pericentre (`sin E < 0`) the stars are in the right place but move
apart instead of towards each other -/
theorem C65_incoming (fuel : ℕ) (u : ℝ) (p : Args) (E : ℝ) (ha : 0 < p.sma)
    (h0 : 0 < p.eccent) (h1 : p.eccent < 1) (hm : 0 < p.m1 + p.m2)
    (hE : solve p.eccent (2 * π * u) fuel (2 * π * u) = some E) (hc : cos (E / 2) ≠ 0)
    (hs : sin E < 0) :
    ∃ s, addBinaryStar fuel u p = some s ∧
      C65_r s = rotate p.phirot p.thetarot p.psirot (Kepler.position p.sma p.eccent E) ∧
      dot (Kepler.position p.sma p.eccent E) (Kepler.velocity (p.m1 + p.m2) p.sma p.eccent E) < 0 ∧
      0 < dot (C65_r s) (C65_v s) := by
  refine ⟨place p (trueAnomaly p.eccent E), by rw [addBinaryStar, hE]; rfl,
    (place_r p _ hm.ne').trans (by rw [position_true ha h0.le h1 E hc]),
    C65_spec_approach hm ha h0 h1 hs, ?_⟩
  rw [C65_place_rv p _ hm, vel_sin ha h0.le h1 E hc hm.le]
  have hd := one_sub_pos h0.le h1 E
  have hk : 0 < sqrt ((p.m1 + p.m2) / p.sma) := sqrt_pos.2 (div_pos hm ha)
  have : 0 < |sin E| := abs_pos.2 hs.ne
  exact mul_pos (sep_pos ha h0.le h1 _) (by positivity)

/-- arguments of the counterexample: a nearly circular orbit -/
noncomputable def C65_near : Args := ⟨1, 1 / 1000000, 1, 1, 0, 0, 0, 0, 0, 0⟩

lemma C65_near_solve :
    solve (1 / 1000000) (2 * π * (3 / 4)) 1 (2 * π * (3 / 4)) = some (3 * π / 2 - 1 / 1000000) := by
  have h1 : 2 * π * (3 / 4) = 3 * π / 2 := by ring
  have hs : sin (3 * π / 2) = -1 := by
    have : 3 * π / 2 = π / 2 + π := by ring
    rw [this, sin_add_pi, sin_pi_div_two]
  have hc : cos (3 * π / 2) = 0 := by
    have : 3 * π / 2 = π / 2 + π := by ring
    rw [this, cos_add_pi, cos_pi_div_two, neg_zero]
  have hn : newton (1 / 1000000) (3 * π / 2) (3 * π / 2) = 3 * π / 2 - 1 / 1000000 := by
    rw [newton, hs, hc]; norm_num
  rw [h1]
  unfold solve
  rw [hn, if_neg]
  rw [not_lt]
  have : 3 * π / 2 - (3 * π / 2 - 1 / 1000000) = 1 / 1000000 := by ring
  rw [this]; norm_num

/-- for such a phase the velocities are not those of Kepler's orbit: a run exists in which the stars
should approach each other and move apart -/
theorem C65_incoming_fails :
    ∃ (fuel : ℕ) (u : ℝ) (p : Args) (s : Star × Star) (E : ℝ),
      0 < p.sma ∧ 0 < p.eccent ∧ p.eccent < 1 ∧ 0 < p.m1 + p.m2 ∧
      addBinaryStar fuel u p = some s ∧
      |E - p.eccent * sin E - 2 * π * u| ≤ p.eccent / 2 * (1 / 1000000) ^ 2 ∧
      C65_r s = rotate p.phirot p.thetarot p.psirot (Kepler.position p.sma p.eccent E) ∧
      C65_v s ≠ rotate p.phirot p.thetarot p.psirot
          (Kepler.velocity (p.m1 + p.m2) p.sma p.eccent E) := by
  have hsol := C65_near_solve
  have hpi := two_le_pi
  have hs : sin (3 * π / 2 - 1 / 1000000) < 0 := by
    have : 3 * π / 2 - 1 / 1000000 = (π / 2 - 1 / 1000000) + π := by ring
    rw [this, sin_add_pi]
    have := sin_pos_of_pos_of_lt_pi (x := π / 2 - 1 / 1000000) (by linarith) (by linarith)
    linarith
  have hc : cos ((3 * π / 2 - 1 / 1000000) / 2) ≠ 0 := by
    have : cos ((3 * π / 2 - 1 / 1000000) / 2) < 0 :=
      cos_neg_of_pi_div_two_lt_of_lt (by linarith) (by linarith)
    exact this.ne
  obtain ⟨s, h1, h2, h3, h4⟩ := C65_incoming 1 (3 / 4) C65_near (3 * π / 2 - 1 / 1000000)
    (by norm_num [C65_near]) (by norm_num [C65_near]) (by norm_num [C65_near])
    (by norm_num [C65_near]) hsol hc hs
  refine ⟨1, 3 / 4, C65_near, s, _, by norm_num [C65_near], by norm_num [C65_near],
    by norm_num [C65_near], by norm_num [C65_near], h1,
    solve_residual (by norm_num [C65_near]) (by norm_num [C65_near]) _ _ _ _ hsol, h2, fun hv => ?_⟩
  rw [h2, hv, rotate_dot] at h4
  exact absurd h4 (not_lt.2 h3.le)

/-! ### The third angle -/

/-- the parameter `psirot` has no effect: the generators of binary, triple and quadruple stars pass
it for the unused `phase`, and zero for the angle; `AddBinaryStar` itself does turn the orbit by
the angle -/
theorem C65_psirot_fails :
    (∀ (fuel : ℕ) (q : Params) (psi u u' u'' : ℝ),
      binary fuel { q with psirot := psi } u = binary fuel q u ∧
      triple fuel { q with psirot := psi } u u' = triple fuel q u u' ∧
      quadruple fuel { q with psirot := psi } u u' u'' = quadruple fuel q u u' u'') ∧
    ∃ (fuel : ℕ) (u : ℝ) (p : Args) (psi : ℝ),
      addBinaryStar fuel u { p with psirot := psi } ≠ addBinaryStar fuel u p := by
  constructor
  · intro fuel q psi u u' u''
    exact ⟨rfl, rfl, rfl⟩
  · refine ⟨1, 0, ⟨1, 0, 1, 1, 0, 0, 0, 0, 0, 0⟩, π / 2, ?_⟩
    have hs : solve 0 (2 * π * 0) 1 (2 * π * 0) = some 0 := by
      unfold solve
      simp [newton]
    simp only [addBinaryStar, hs, Option.map_some]
    intro h
    have h := congrArg (fun s : Star × Star => s.1.r 0) (Option.some.inj h)
    simp [place, rotate, eulerMatrix, trueAnomaly, towards, separation] at h
    norm_num at h

/-! ### Triple and quadruple stars -/

/-- the pair `s` has the masses `m1`, `m2`, centre `c` moving with `w`, and orbit `a`, `e` -/
structure C65_Pair (m1 m2 a e : ℝ) (c w : Vec 3 ℝ) (s : Star × Star) : Prop where
  mass1 : s.1.m = m1
  mass2 : s.2.m = m2
  centre : Totals.IsCentre [C65_body s.1, C65_body s.2] c
  drift : Totals.IsDrift [C65_body s.1, C65_body s.2] w
  orbit : Kepler.OnEllipse (m1 + m2) a e (C65_r s) (C65_v s)

lemma C65_call {fuel : ℕ} {q : Params} {u a e m1 m2 : ℝ} {r v : Vec 3 ℝ} {s : Star × Star}
    (ha : 0 < a) (h0 : 0 ≤ e) (h1 : e < 1) (hm : 0 < m1 + m2)
    (h : call fuel q u a e m1 m2 r v = some s) : C65_Pair m1 m2 a e r v s := by
  obtain ⟨a1, a2, a3, a4⟩ := C65_centre _ _ _ _ (by exact hm.ne') h
  exact ⟨a1, a2, a3, a4, C65_elements fuel u _ s ha h0 h1 hm h⟩

/-- a triple star is an inner pair on the inner orbit, whose centre of mass and the third star are
on the outer orbit, with the centre of mass of all at rest at the origin -/
theorem C65_triple (fuel : ℕ) (q : Params) (u u' : ℝ) (l : List Star)
    (ha : 0 < q.abin) (h0 : 0 ≤ q.ebin) (h1 : q.ebin < 1)
    (ha2 : 0 < q.abin2) (h02 : 0 ≤ q.ebin2) (h12 : q.ebin2 < 1)
    (hm : 0 < q.m1 + q.m2) (hm3 : 0 < q.m1 + q.m2 + q.m3)
    (h : triple fuel q u u' = some l) :
    ∃ s1 s2 s3 c w, l = [s1, s2, s3] ∧ s3.m = q.m3 ∧
      C65_Pair q.m1 q.m2 q.abin2 q.ebin2 c w (s1, s2) ∧
      Kepler.OnEllipse (q.m1 + q.m2 + q.m3) q.abin q.ebin
        (fun k => c k - s3.r k) (fun k => w k - s3.v k) ∧
      Totals.IsCentre [C65_body s1, C65_body s2, C65_body s3] 0 ∧
      Totals.IsDrift [C65_body s1, C65_body s2, C65_body s3] 0 := by
  obtain ⟨o, ho, h⟩ := Option.bind_eq_some_iff.1 h
  obtain ⟨s, hs, rfl⟩ := Option.map_eq_some_iff.1 h
  have po := C65_call ha h0 h1 (by exact hm3) ho
  have pi := C65_call ha2 h02 h12 hm hs
  refine ⟨s.1, s.2, o.2, o.1.r, o.1.v, rfl, po.mass2, pi, po.orbit, fun k => ?_, fun k => ?_⟩
  · have a1 := po.centre k
    have a2 := pi.centre k
    simp [C65_body, po.mass1, po.mass2, pi.mass1, pi.mass2] at a1 a2 ⊢
    linear_combination a1 + a2
  · have a1 := po.drift k
    have a2 := pi.drift k
    simp [C65_body, po.mass1, po.mass2, pi.mass1, pi.mass2] at a1 a2 ⊢
    linear_combination a1 + a2

/-- likewise a quadruple star: two inner pairs, whose centres of mass are on the outer orbit -/
theorem C65_quadruple (fuel : ℕ) (q : Params) (u u' u'' : ℝ) (l : List Star)
    (ha : 0 < q.abin) (h0 : 0 ≤ q.ebin) (h1 : q.ebin < 1)
    (ha2 : 0 < q.abin2) (h02 : 0 ≤ q.ebin2) (h12 : q.ebin2 < 1)
    (hm : 0 < q.m1 + q.m2) (hm3 : 0 < q.m3 + q.m4)
    (h : quadruple fuel q u u' u'' = some l) :
    ∃ s1 s2 s3 s4 c w c' w', l = [s1, s2, s3, s4] ∧
      C65_Pair q.m1 q.m2 q.abin2 q.ebin2 c w (s1, s2) ∧
      C65_Pair q.m3 q.m4 q.abin2 q.ebin2 c' w' (s3, s4) ∧
      Kepler.OnEllipse (q.m1 + q.m2 + (q.m3 + q.m4)) q.abin q.ebin
        (fun k => c k - c' k) (fun k => w k - w' k) ∧
      Totals.IsCentre [C65_body s1, C65_body s2, C65_body s3, C65_body s4] 0 ∧
      Totals.IsDrift [C65_body s1, C65_body s2, C65_body s3, C65_body s4] 0 := by
  obtain ⟨o, ho, h⟩ := Option.bind_eq_some_iff.1 h
  obtain ⟨s, hs, h⟩ := Option.bind_eq_some_iff.1 h
  obtain ⟨s', hs', rfl⟩ := Option.map_eq_some_iff.1 h
  have po := C65_call ha h0 h1 (by linarith) ho
  have pi := C65_call ha2 h02 h12 hm hs
  have pi' := C65_call ha2 h02 h12 hm3 hs'
  refine ⟨s.1, s.2, s'.1, s'.2, o.1.r, o.1.v, o.2.r, o.2.v, rfl, pi, pi', po.orbit,
    fun k => ?_, fun k => ?_⟩
  · have a1 := po.centre k
    have a2 := pi.centre k
    have a3 := pi'.centre k
    simp [C65_body, po.mass1, po.mass2, pi.mass1, pi.mass2, pi'.mass1, pi'.mass2] at a1 a2 a3 ⊢
    linear_combination a1 + a2 + a3
  · have a1 := po.drift k
    have a2 := pi.drift k
    have a3 := pi'.drift k
    simp [C65_body, po.mass1, po.mass2, pi.mass1, pi.mass2, pi'.mass1, pi'.mass2] at a1 a2 a3 ⊢
    linear_combination a1 + a2 + a3

/-- parameters of the example: two close pairs on a wide orbit -/
noncomputable def C65_params : Params := ⟨10, 1 / 4, 1, 1 / 3, 1, 2, 1, 1, 1, 1, 1⟩

example : ∃ l, quadruple 6 C65_params (1 / 8) (1 / 4) (3 / 4) = some l ∧ l.length = 4 := by
  have solved : ∀ (u : ℝ) (a e m1 m2 : ℝ) (r v : Vec 3 ℝ), 0 ≤ e → e ≤ 1 / 2 →
      ∃ s, call 6 C65_params u a e m1 m2 r v = some s := fun u a e m1 m2 r v h0 h1 =>
    Option.isSome_iff_exists.1 (C65_terminates_partial u
      ⟨a, e, m1, m2, C65_params.phirot, C65_params.thetarot, C65_params.psirot, 0, r, v⟩ h0 h1)
  have e1 : (0 : ℝ) ≤ C65_params.ebin ∧ C65_params.ebin ≤ 1 / 2 := by norm_num [C65_params]
  have e2 : (0 : ℝ) ≤ C65_params.ebin2 ∧ C65_params.ebin2 ≤ 1 / 2 := by norm_num [C65_params]
  obtain ⟨o, ho⟩ := solved (1 / 8) C65_params.abin C65_params.ebin
    (C65_params.m1 + C65_params.m2) (C65_params.m3 + C65_params.m4) 0 0 e1.1 e1.2
  obtain ⟨s, hs⟩ := solved (1 / 4) C65_params.abin2 C65_params.ebin2
    C65_params.m1 C65_params.m2 o.1.r o.1.v e2.1 e2.2
  obtain ⟨s', hs'⟩ := solved (3 / 4) C65_params.abin2 C65_params.ebin2
    C65_params.m3 C65_params.m4 o.2.r o.2.v e2.1 e2.2
  exact ⟨[s.1, s.2, s'.1, s'.2], by
    rw [quadruple, ho, Option.bind_some, hs, Option.bind_some, hs']; rfl, rfl⟩

end Gandalf
