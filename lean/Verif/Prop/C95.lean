import Verif.Proof.Bondi

/-! C95: the test of spherical accretion begins with the steady flow. -/

set_option autoImplicit false

namespace Gandalf

noncomputable section

open Bondi

/-! ### the equations integrated are those of the flow -/

/-- The slope of the code is the slope of a steady flow, and the only one: a speed whose
derivative at `x` is `d` keeps the energy of the flow there exactly if `d` is that slope. -/
theorem C95_slope (x d : ℝ) (w : ℝ → ℝ) (hx0 : 0 < x) (h0 : 0 < w x) (h1 : w x ≠ 1)
    (hd : HasDerivAt w d x) :
    HasDerivAt (fun x => energy x (w x)) 0 x ↔ d = slopeW x (w x) := by
  have hden' : w x ^ 2 - 1 ≠ 0 := by
    intro h
    have : (w x - 1) * (w x + 1) = 0 := by ring_nf; linarith
    rcases mul_eq_zero.mp this with h | h
    · exact h1 (by linarith)
    · linarith
  have hx' := hx0.ne'
  have h0' := h0.ne'
  have hden : w x - 1 / w x ≠ 0 := by
    intro h
    apply hden'
    field_simp at h
    linarith
  have h := ((hd.pow 2).div_const 2).sub (hd.log h0.ne')
  have h2 := ((Real.hasDerivAt_log hx0.ne').const_mul 2).add
    ((hasDerivAt_inv hx0.ne').const_mul 2)
  have h3 := h.sub h2
  have e : (fun x => energy x (w x)) =
      ((fun x => (w ^ 2) x / 2) - fun y => Real.log (w y)) -
        ((fun y => 2 * Real.log y) + fun y => 2 * y⁻¹) := by
    funext y
    simp [energy, div_eq_mul_inv]
  have hs : slopeW x (w x) * (w x ^ 2 - 1) = 2 * w x * (1 / x - 1 / x ^ 2) := by
    rw [slopeW]
    field_simp
  have hval : (2 : ℕ) * w x ^ (2 - 1) * d / 2 - d / w x - (2 * x⁻¹ + 2 * -(x ^ 2)⁻¹) =
      (d - slopeW x (w x)) * (w x ^ 2 - 1) / w x := by
    have e2 : (d - slopeW x (w x)) * (w x ^ 2 - 1) / w x =
        (d * (w x ^ 2 - 1) - 2 * w x * (1 / x - 1 / x ^ 2)) / w x := by
      rw [← hs]; ring
    rw [e2]
    push_cast
    field_simp
    ring
  rw [e]
  constructor
  · intro h'
    have := h3.unique h'
    rw [hval] at this
    have h5 : (d - slopeW x (w x)) * (w x ^ 2 - 1) = 0 := by
      rcases div_eq_zero_iff.mp this with h | h
      · exact h
      · exact absurd h h0'
    rcases mul_eq_zero.mp h5 with h | h
    · linarith
    · exact absurd h hden'
  · intro hds
    refine h3.congr_deriv ?_
    rw [hval, hds]
    simp

example : HasDerivAt (fun x => energy x ((fun y : ℝ => 1 / 2 + slopeW 2 (1 / 2) * (y - 2)) x)) 0 2 := by
  refine (C95_slope 2 (slopeW 2 (1 / 2)) (fun y => 1 / 2 + slopeW 2 (1 / 2) * (y - 2)) (by norm_num)
    (by norm_num) (by norm_num) ?_).mpr (by norm_num)
  have := (((hasDerivAt_id (2 : ℝ)).sub_const 2).const_mul (slopeW 2 (1 / 2))).const_add (1 / 2)
  simpa using this

/-- Along any speed that follows the slope of the code the energy of the flow stays the same. -/
theorem C95_steady (a b : ℝ) (ha : 0 ≤ a) (w : ℝ → ℝ)
    (hw : ∀ x ∈ Set.Ioo a b, 0 < w x ∧ w x ≠ 1)
    (hd : ∀ x ∈ Set.Ioo a b, HasDerivAt w (slopeW x (w x)) x) :
    ∀ x ∈ Set.Ioo a b, ∀ x' ∈ Set.Ioo a b, energy x (w x) = energy x' (w x') := by
  have key : ∀ x ∈ Set.Ioo a b, HasDerivAt (fun x => energy x (w x)) 0 x := fun x hx =>
    (C95_slope x _ w (lt_of_le_of_lt ha hx.1) (hw x hx).1 (hw x hx).2 (hd x hx)).mpr rfl
  intro x hx x' hx'
  refine IsOpen.is_const_of_deriv_eq_zero isOpen_Ioo isPreconnected_Ioo
    (f := fun x => energy x (w x)) (fun y hy => (key y hy).differentiableAt.differentiableWithinAt)
    (fun y hy => (key y hy).deriv) hx hx'

/-- The gas at the sonic point has the energy of the flow that is at rest far away. -/
theorem C95_sonic_energy : energy 1 1 = -(3 / 2) := by
  simp [energy]; norm_num

/-- The start beside the sonic point lies on the branch of the flow that falls in: its speed
decreases outwards with slope -1, and the slope of the flow there differs from -1 by the
distance from the sonic point at most four times. -/
theorem C95_transonic (e : ℝ) (he : |e| ≤ 1 / 10) (h0 : e ≠ 0) :
    |slopeW (beside e 0 0).x1 (beside e 0 0).w1 - (-1)| ≤ 4 * |e| := by
  obtain ⟨h1, h2⟩ := abs_le.mp he
  have ha : (1 + e) ≠ 0 := by linarith
  have hb : (1 - e) ≠ 0 := by linarith
  have hc : (2 - e) ≠ 0 := by linarith
  have hs : slopeW (1 + e) (1 - e) = -(2 * (1 - e) / ((1 + e) ^ 2 * (2 - e))) := by
    have hden : (1 - e) - 1 / (1 - e) = -(e * (2 - e) / (1 - e)) := by field_simp; ring
    rw [slopeW, hden]
    field_simp
    ring
  have hq : slopeW (1 + e) (1 - e) - (-1) = e * ((5 - e ^ 2) / ((1 + e) ^ 2 * (2 - e))) := by
    rw [hs]; field_simp; ring
  show |slopeW (1 + e) (1 - e) - (-1)| ≤ _
  rw [hq, abs_mul, mul_comm]
  refine mul_le_mul_of_nonneg_right ?_ (abs_nonneg _)
  have hp : 0 < (1 + e) ^ 2 * (2 - e) := by
    have : 0 < 2 - e := by linarith
    have : 0 < 1 + e := by linarith
    positivity
  rw [abs_of_nonneg (div_nonneg (by nlinarith) hp.le), div_le_iff₀ hp]
  nlinarith [sq_nonneg e, mul_nonneg (by linarith : (0:ℝ) ≤ 1/10 - e) (by linarith : (0:ℝ) ≤ 1/10 + e)]

example : |slopeW (beside (1 / 1000) 0 0).x1 (beside (1 / 1000) 0 0).w1 - (-1)| ≤ 4 * |1 / 1000| :=
  C95_transonic _ (by rw [abs_of_pos] <;> norm_num) (by norm_num)

/-- Each pass is one step of the classical scheme of fourth order for the speed and the mass
inside: `w' = slope`, `z' = x² y` with `y` the density that carries the same mass through every
sphere. -/
theorem C95_scheme (ep : ℝ) (s : St) :
    ((step ep s).w1, (step ep s).z1) =
        rk4 (fun x y => (slopeW x y.1, Real.exp (3 / 2) / y.1)) s.x1 (s.x1 * ep) (s.w1, s.z1) ∧
      (step ep s).x1 = s.x1 + s.x1 * ep := by
  constructor
  · simp only [step, rk4, asympt, Prod.mk_add_mk, Prod.smul_mk, smul_eq_mul]
    have e1 : ∀ a b : ℝ, a * (b / 2) = b / 2 * a := fun a b => by ring
    have e2 : ∀ b : ℝ, 1 / 2 * b = b / 2 := fun b => by ring
    simp only [e2]
    simp only [e1]
    have e3 : ∀ a b : ℝ, a * (s.x1 * ep) = (s.x1 * ep) * a := fun a b => by ring
    refine Prod.ext ?_ ?_
    · simp only [e3 (slopeW _ _) 0]
      ring
    · simp only [e3 (slopeW _ _) 0]
      ring
  · rfl

/-- The scheme integrates cubic polynomials exactly. -/
example (a b c d x h : ℝ) :
    (rk4 (fun x _ => (a + b * x + c * x ^ 2 + d * x ^ 3, 0)) x h (0, 0)).1 =
      (a * (x + h) + b * (x + h) ^ 2 / 2 + c * (x + h) ^ 3 / 3 + d * (x + h) ^ 4 / 4) -
        (a * x + b * x ^ 2 / 2 + c * x ^ 3 / 3 + d * x ^ 4 / 4) := by
  simp only [rk4, Prod.mk_add_mk, Prod.smul_mk, smul_eq_mul]
  ring

/-- Of `w' = w` it makes the first terms of the exponential function. -/
example (h : ℝ) : (rk4 (fun _ y => (y.1, 0)) 0 h (1, 0)).1 =
    1 + h + h ^ 2 / 2 + h ^ 3 / 6 + h ^ 4 / 24 := by
  simp only [rk4, Prod.mk_add_mk, Prod.smul_mk, smul_eq_mul]
  ring

/-! ### the table -/

/-- The computation ends for every size of table; each place gets one entry, none outside the
table is written, the radii are spaced evenly in their logarithm, and the mass that falls
through the sphere of each entry is the accretion rate of Bondi. -/
theorem C95_table (p : Par) (hs : 0 < p.asound) (N : ℤ) (hN : 4 ≤ N) :
    ∃ (n : ℕ) (t : Tab), solution N n = some t ∧
      (∀ i, 0 ≤ i → i < N → ∃ r : Row, t i = some r ∧
        r.x = (10 : ℝ) ^ ((1 : ℝ) / 100 * ((i : ℝ) - (2 * N / 3 : ℤ))) ∧
        (r.w ≠ 0 → flux (p.rsonic * r.x) (p.rhogas * r.y) (p.asound * r.w) = p.dmdt)) ∧
      (∀ i, i < 0 ∨ N ≤ i → t i = none) := by
  have hl : 0 < Real.logb 10 (1 + 1 / 1000 : ℝ) := Real.logb_pos (by norm_num) (by norm_num)
  have hl' : Real.logb 10 (1 + -(1 / 1000) : ℝ) < 0 :=
    Real.logb_neg (by norm_num) (by norm_num) (by norm_num)
  set t0 : Tab := Function.update (fun _ => none) (2 * N / 3) (some ⟨1, 1, asympt, zsonic⟩) with ht0
  have g1 : ∀ i, (fun i : ℤ => decide (i < N)) i = true ↔ 0 < 1 * (N - i) := by
    intro i; simp
  have g2 : ∀ i, (fun i : ℤ => decide (0 ≤ i)) i = true ↔ 0 < -1 * (-1 - i) := by
    intro i; simp only [decide_eq_true_eq]; omega
  have hb1 : 0 < 1 * (N - (2 * N / 3 + 1)) := by omega
  have hb2 : 0 < -1 * (-1 - (2 * N / 3 - 1)) := by omega
  obtain ⟨n1, ⟨s1, t1⟩, h1⟩ := fill_start (2 * N / 3) 1 N (1 / 1000) _ (Or.inl rfl) (by norm_num)
    (by simpa using hl) g1 (beside (1 / 1000) 0 0) (2 * N / 3 + 1) t0 hb1
    (by simp only [beside]; norm_num)
  obtain ⟨n2, ⟨s2, t2⟩, h2⟩ := fill_start (2 * N / 3) (-1) (-1) (-(1 / 1000)) _ (Or.inr rfl)
    (by norm_num) (by push_cast; linarith) g2 (beside (-(1 / 1000)) s1.f5 s1.g5) (2 * N / 3 - 1) t1
    hb2 (by simp only [beside]; norm_num)
  obtain ⟨a1, b1⟩ := fill_table (2 * N / 3) 1 N (1 / 1000) _ (Or.inl rfl) g1 _ _ _ _ _ _ hb1 h1
  obtain ⟨a2, b2⟩ := fill_table (2 * N / 3) (-1) (-1) (-(1 / 1000)) _ (Or.inr rfl) g2 _ _ _ _ _ _
    hb2 h2
  refine ⟨max n1 n2, t2, ?_, ?_, ?_⟩
  · have f1 := fill_mono _ _ _ _ _ _ _ _ _ _ (le_max_left n1 n2) h1
    have f2 := fill_mono _ _ _ _ _ _ _ _ _ _ (le_max_right n1 n2) h2
    simp only [solution]
    rw [← ht0, f1]
    simp only
    rw [f2]
  · have flux_row : ∀ r : Row, r.x ≠ 0 → r.y = asympt / (r.x * r.x * r.w) → r.w ≠ 0 →
        flux (p.rsonic * r.x) (p.rhogas * r.y) (p.asound * r.w) = p.dmdt := by
      intro r hx hy hw
      have := hs.ne'
      rw [flux, hy, Par.dmdt, Par.rsonic, asympt]
      field_simp
      norm_num
    have good : ∀ i, Good (2 * N / 3) i t2 → ∃ r : Row, t2 i = some r ∧
        r.x = (10 : ℝ) ^ ((1 : ℝ) / 100 * ((i : ℝ) - (2 * N / 3 : ℤ))) ∧
        (r.w ≠ 0 → flux (p.rsonic * r.x) (p.rhogas * r.y) (p.asound * r.w) = p.dmdt) := by
      rintro i ⟨s, hsr⟩
      refine ⟨_, hsr, rfl, fun hw => flux_row _ ?_ rfl hw⟩
      exact (Real.rpow_pos_of_pos (by norm_num) _).ne'
    intro i hi0 hiN
    rcases lt_trichotomy i (2 * N / 3) with h | h | h
    · exact good i (a2 i (by omega) (by omega))
    · have e2 : t2 i = t1 i := b2 i (by omega)
      have e1 : t1 i = t0 i := b1 i (by omega)
      refine ⟨⟨1, 1, asympt, zsonic⟩, ?_, ?_, fun hw => flux_row _ (by simp) ?_ hw⟩
      · rw [e2, e1, ht0, h]; simp
      · rw [h]; simp
      · simp
    · have e2 : t2 i = t1 i := b2 i (by omega)
      obtain ⟨s, hsr⟩ := a1 i (by omega) (by omega)
      exact good i ⟨s, by rw [e2, hsr]⟩
  · intro i hi
    rw [b2 i (by omega), b1 i (by omega), ht0]
    exact Function.update_of_ne (by omega) _ _

/-- Parameters with a speed of sound -/
def C95.par : Par := ⟨1, 1, 2, 1, 1, 1 / 10, 1, 1⟩

theorem C95.par_sound : C95.par.asound = 1 := by simp [Par.asound, C95.par]

example : ∃ (n : ℕ) (t : Tab), solution 4000 n = some t ∧ t (-1) = none ∧ t 4000 = none := by
  obtain ⟨n, t, h, -, h'⟩ := C95_table C95.par (by rw [C95.par_sound]; norm_num) 4000 (by norm_num)
  exact ⟨n, t, h, h' _ (Or.inl (by norm_num)), h' _ (Or.inr (by norm_num))⟩

/-! ### the particles -/

/-- A particle is put where the table has the mass that was inside its place in the sphere. -/
theorem C95_profile (N : ℕ) (hN : 0 < N) (x w z : ℕ → ℝ) (m : ℝ) (h0 : z 0 < m)
    (h1 : m ≤ z (N - 1)) :
    ∃ X W, lookup N x w z m = some (X, W) ∧ OnTable N x w z X W m := by
  have hp := place_pos hN z h0 h1
  obtain ⟨a, -, -⟩ := place_spec hN z h1
  obtain ⟨r0, r1, r2⟩ := rem_mem hN z h0 h1
  refine ⟨_, _, lookup_eq x w z hp, place N z m - 1, rem N z m, by omega, r0.le, r1, ?_, ?_, ?_⟩
  all_goals rw [Nat.sub_add_cancel hp]
  · ring
  · ring
  · linear_combination -r2

/-- Particles keep their order: with more mass inside, a particle is further out. -/
theorem C95_order (N : ℕ) (hN : 0 < N) (x w z : ℕ → ℝ) (hx : ∀ i j, i ≤ j → j < N → x i ≤ x j)
    (m m' : ℝ) (h0 : z 0 < m) (hm : m ≤ m') (h1 : m' ≤ z (N - 1)) (X W X' W' : ℝ)
    (hl : lookup N x w z m = some (X, W)) (hl' : lookup N x w z m' = some (X', W')) : X ≤ X' := by
  have hp := place_pos hN z h0 (hm.trans h1)
  have hp' := place_pos hN z (h0.trans_le hm) h1
  have hmono := place_mono hN z hm h1
  obtain ⟨a, -, -⟩ := place_spec hN z (hm.trans h1)
  obtain ⟨a', -, -⟩ := place_spec hN z h1
  obtain ⟨r0, r1, r2⟩ := rem_mem hN z h0 (hm.trans h1)
  obtain ⟨r0', r1', r2'⟩ := rem_mem hN z (h0.trans_le hm) h1
  rw [lookup_eq x w z hp] at hl
  rw [lookup_eq x w z hp'] at hl'
  obtain ⟨rfl, -⟩ := Prod.mk.inj (Option.some.inj hl)
  obtain ⟨rfl, -⟩ := Prod.mk.inj (Option.some.inj hl')
  rcases Nat.eq_or_lt_of_le hmono with h | h
  · have hr : rem N z m ≤ rem N z m' := by
      unfold rem
      rw [h]
      obtain ⟨-, b, c⟩ := place_spec hN z h1
      have := c (place N z m' - 1) (by omega)
      exact div_le_div_of_nonneg_right (by linarith) (by linarith)
    rw [h]
    have := hx (place N z m' - 1) (place N z m') (by omega) a'
    nlinarith
  · have e1 := hx (place N z m - 1) (place N z m) (by omega) a
    have e2 := hx (place N z m' - 1) (place N z m') (by omega) a'
    have e3 := hx (place N z m) (place N z m' - 1) (by omega) (by omega)
    nlinarith

/-- A table of three entries -/
def C95.x : ℕ → ℝ := fun i => i
/-- its masses -/
def C95.z : ℕ → ℝ := fun i => (i : ℝ) ^ 3

example : ∃ X W, lookup 3 C95.x C95.x C95.z 2 = some (X, W) ∧ OnTable 3 C95.x C95.x C95.z X W 2 :=
  C95_profile 3 (by norm_num) _ _ _ 2 (by norm_num [C95.z]) (by norm_num [C95.z])

/-- Where a particle goes: along its radius, to the radius of the table, with the speed of the
table towards the centre; all gas together has the mass of the table in units of
`4 π rsonic³ rhogas`. -/
theorem C95_particle (p : Par) (N Ntab : ℕ) (hN : 0 < N) (hT : 0 < Ntab) (x w z : ℕ → ℝ)
    (r : Vec 3 ℝ) (h0 : z 0 < p.mc * (√(dot r r) + small) ^ 3)
    (h1 : p.mc * (√(dot r r) + small) ^ 3 ≤ z (Ntab - 1)) :
    ∃ g X W, stretch p N Ntab x w z r = some g ∧
      OnTable Ntab x w z X W (p.mc * (√(dot r r) + small) ^ 3) ∧
      dot g.r g.r * (√(dot r r) + small) ^ 2 = (p.rsonic * X) ^ 2 * dot r r ∧
      (∀ k, g.v k * (p.rsonic * X) = -(p.asound * W) * g.r k) ∧
      (N : ℝ) * g.m = 4 * Real.pi * p.rsonic ^ 3 * p.rhogas * p.mc := by
  obtain ⟨X, W, hl, ho⟩ := C95_profile Ntab hT x w z _ h0 h1
  have hd : 0 < √(dot r r) + small := by
    have := Real.sqrt_nonneg (dot r r)
    have : 0 < small := by norm_num [small]
    linarith
  refine ⟨_, X, W, by simp only [stretch]; rw [hl], ho, ?_, ?_, ?_⟩
  · generalize √(dot r r) + small = q at hd
    have := hd.ne'
    simp only [dot, Fin.sum_univ_three]
    field_simp
  · intro k
    generalize √(dot r r) + small = q at hd
    have := hd.ne'
    simp only
    field_simp
  · have : (N : ℝ) ≠ 0 := by exact_mod_cast hN.ne'
    simp only [Par.mp]
    field_simp

example : ∃ g, stretch C95.par 10 3 C95.x C95.x C95.z (fun _ => 1 / 2) = some g := by
  have hq : dot (fun _ => 1 / 2 : Vec 3 ℝ) (fun _ => 1 / 2) = 3 / 4 := by
    simp only [dot, Fin.sum_univ_three]; norm_num
  have hc : C95.par.mc = 2 := by norm_num [Par.mc, C95.par]
  have hs : 0 ≤ √(3 / 4 : ℝ) := Real.sqrt_nonneg _
  have hs1 : √(3 / 4 : ℝ) ≤ 9 / 10 := Real.sqrt_le_iff.mpr (by norm_num)
  have hm : (0 : ℝ) < small := by norm_num [small]
  have hm1 : small ≤ 1 / 10 := by norm_num [small]
  have hu : (√(3 / 4 : ℝ) + small) ^ 3 ≤ 1 := pow_le_one₀ (by linarith) (by linarith)
  have hl : 0 < (√(3 / 4 : ℝ) + small) ^ 3 := pow_pos (by linarith) 3
  have hz0 : C95.z 0 = 0 := by norm_num [C95.z]
  have hz2 : C95.z (3 - 1) = 8 := by norm_num [C95.z]
  obtain ⟨g, -, -, h, -⟩ := C95_particle C95.par 10 3 (by norm_num) (by norm_num) C95.x C95.x C95.z
    (fun _ => 1 / 2) (by rw [hq, hc, hz0]; linarith)
    (by rw [hq, hc, hz2]; linarith)
  exact ⟨g, h⟩

/-- The mass that the sink takes as full is the mass of the gas inside its radius. -/
theorem C95_sink_mass (p : Par) (gas : List Gas) :
    mmax p gas = ((gas.filter fun g => dot g.r g.r ≤ (p.rsink * p.rsonic) ^ 2).map Gas.m).sum := by
  have : ∀ (l : List Gas) (a : ℝ),
      l.foldl (fun a g =>
        if dot g.r g.r > (p.rsink * p.rsonic) * (p.rsink * p.rsonic) then a else a + g.m) a =
      a + ((l.filter fun g => dot g.r g.r ≤ (p.rsink * p.rsonic) ^ 2).map Gas.m).sum := by
    intro l
    induction l with
    | nil => intro a; simp
    | cons g l ih =>
      intro a
      rw [List.foldl_cons, ih]
      by_cases h : dot g.r g.r ≤ (p.rsink * p.rsonic) ^ 2
      · have h' : ¬ dot g.r g.r > (p.rsink * p.rsonic) * (p.rsink * p.rsonic) := by
          rw [← sq]; exact not_lt.mpr h
        rw [if_neg h', List.filter_cons_of_pos (by simpa using h)]
        simp [add_assoc]
      · have h' : dot g.r g.r > (p.rsink * p.rsonic) * (p.rsink * p.rsonic) := by
          rw [← sq]; exact not_le.mp h
        rw [if_pos h', List.filter_cons_of_neg (by simpa using h)]
  rw [mmax, this, zero_add]

/-! ### where it fails -/

/-- A particle so near the centre that the first entry of the table has as much mass makes the
code read the entry before the table. -/
theorem C95_centre_fails (N : ℕ) (hN : 0 < N) (x w z : ℕ → ℝ) (m : ℝ) (h : m ≤ z 0) :
    lookup N x w z m = none := by
  simp [lookup, place_first hN z h]

example : lookup 3 C95.x C95.x (fun i => C95.z i + 1) 1 = none :=
  C95_centre_fails 3 (by norm_num) _ _ _ _ (by norm_num [C95.z])

/-- The mass of the cloud asked for is not the mass of the gas: the number is read as a mass
without dimension (and is divided by the unit of mass all the same). -/
theorem C95_cloud_mass_fails : ∃ p : Par, 0 < p.mcloud ∧ p.mscale = 1 ∧ p.asound = 1 ∧
    ∀ N : ℕ, 0 < N → (N : ℝ) * p.mp N ≠ p.mcloud := by
  refine ⟨C95.par, by norm_num [C95.par], rfl, C95.par_sound, fun N hN => ?_⟩
  have hn : (N : ℝ) ≠ 0 := by exact_mod_cast hN.ne'
  have hr : C95.par.rsonic = 1 / 2 := by
    rw [Par.rsonic, C95.par_sound]; norm_num [Par.ms, C95.par]
  rw [Par.mp, hr]
  have hc : C95.par.mc = 2 := by norm_num [Par.mc, C95.par]
  have hg : C95.par.rhogas = 1 := rfl
  have hm : C95.par.mcloud = 2 := rfl
  rw [hc, hg, hm, mul_div_cancel₀ _ hn]
  have := Real.pi_gt_three
  intro h
  nlinarith

end

end Gandalf
