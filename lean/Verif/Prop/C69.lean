import Verif.Proof.Cloud
import Verif.Prop.C67

/-! # C69: clouds and clusters of the initial conditions -/

set_option autoImplicit false

namespace Gandalf

open Real Cloud

/-! ### masses -/

/-- **Mass of a cloud**: the particles of a turbulent core add up to the mass of the cloud, whatever number the
lattice leaves. -/
theorem C69_turb_mass (mcloud : ℝ) (Npart Nsphere : ℕ) (h : 0 < Nsphere) :
    (turbMasses mcloud Npart Nsphere).sum = mcloud := by
  have : (Nsphere : ℝ) ≠ 0 := by exact_mod_cast h.ne'
  unfold turbMasses
  simp only [List.sum_replicate, nsmul_eq_mul]
  field_simp

example : (turbMasses 3 10 7).sum = 3 := C69_turb_mass 3 10 7 (by norm_num)

/-- The Boss-Bodenheimer cloud has the right mass only if the lattice gives the number of particles wanted; with
fewer it is lighter, by that fraction. -/
theorem C69_boss_mass_fails (mcloud : ℝ) (hm : 0 < mcloud) (Npart Nsphere : ℕ) (h : 0 < Npart) :
    ((bossMasses mcloud Npart Nsphere).sum = mcloud ↔ Nsphere = Npart) ∧
      (bossMasses mcloud Npart Nsphere).sum = mcloud * Nsphere / Npart := by
  have hN : (0 : ℝ) < Npart := by exact_mod_cast h
  have e : (bossMasses mcloud Npart Nsphere).sum = mcloud * Nsphere / Npart := by
    unfold bossMasses
    simp only [List.sum_replicate, nsmul_eq_mul]
    ring
  refine ⟨?_, e⟩
  rw [e, div_eq_iff hN.ne']
  constructor
  · intro h
    have := mul_left_cancel₀ hm.ne' h
    exact_mod_cast this
  · rintro rfl; rfl

/-- The density used to regularise the cloud compares the square of the distance with the radius: inside of a
cloud of radius 4 it vanishes, outside of one of radius 1/4 it does not. -/
theorem C69_boss_density_fails (rho0 amp phi : ℝ) (h0 : 0 < rho0) (ha : |amp| < 1) :
    (∃ r : Vec 3 ℝ, dot r r < 4 ^ 2 ∧ bossDensity rho0 amp 4 phi r = 0) ∧
      ∃ r : Vec 3 ℝ, (1 / 4) ^ 2 < dot r r ∧ 0 < bossDensity rho0 amp (1 / 4) phi r := by
  constructor
  · refine ⟨![3, 0, 0], ?_, ?_⟩
    · simp [dot, Fin.sum_univ_three]; norm_num
    · simp only [bossDensity]
      rw [if_neg]
      simp
      norm_num
  · refine ⟨![1 / 3, 0, 0], ?_, ?_⟩
    · simp [dot, Fin.sum_univ_three]; norm_num
    · simp only [bossDensity]
      rw [if_pos]
      · apply mul_pos h0
        have h1 := abs_lt.1 ha
        have h2 := neg_one_le_sin (2 * phi)
        have h3 := sin_le_one (2 * phi)
        have : |amp * sin (2 * phi)| < 1 := by
          rw [abs_mul]
          have := abs_sin_le_one (2 * phi)
          nlinarith [abs_nonneg amp, abs_nonneg (sin (2 * phi))]
        linarith [(abs_lt.1 this).1]
      · simp
        norm_num

/-! ### turbulent core -/

/-- **Grid of the turbulent core**: if no kernel reaches farther up in any direction than some kernel reaches
down, every particle is given a velocity from inside of the grid. (Without: `C69_turb_grid_fails`.) -/
theorem C69_turb_grid_partial (big kr : ℝ) (G : ℕ) (hG : 2 ≤ G) (hkr : 0 < kr) (ps : List Part)
    (hh : ∀ p ∈ ps, 0 < p.h)
    (hsym : ∀ p ∈ ps, ∀ k, ∃ q ∈ ps, ∃ l, p.r k + kr * p.h ≤ -(q.r l - kr * q.h)) (vfield : ℤ → ℝ) :
    ∀ p ∈ ps, ∃ v, turbVelocity big kr G ps vfield p = .velocity v := by
  intro p hp
  have hd : 0 < dxgridOf big kr G ps := by
    have h1 := dxgrid_ext big kr G hG ps p hp 0
    have h2 : 0 < kr * p.h := mul_pos hkr (hh p hp)
    have hg : (0 : ℝ) < (G : ℝ) - 1 := by
      have : (2 : ℝ) ≤ G := by exact_mod_cast hG
      linarith
    by_contra hc
    have := mul_nonpos_of_nonneg_of_nonpos hg.le (not_lt.1 hc)
    linarith
  obtain ⟨v, hv, -⟩ := C67_interpolate_partial G (xminOf big kr ps) (dxgridOf big kr G ps) hd vfield p.r (by
    intro k
    have h1 := xmin_le big kr ps p hp k
    have h2 : 0 < kr * p.h := mul_pos hkr (hh p hp)
    obtain ⟨q, hq, l, h3⟩ := hsym p hp k
    have h4 := xmin_le big kr ps q hq l
    have h5 := dxgrid_ge big kr G hG ps
    have h6 := neg_abs_le (xminOf big kr ps)
    have h7 := neg_le_abs (xminOf big kr ps)
    constructor <;> linarith)
  exact ⟨v, hv⟩

/-- two particles on opposite sides -/
example : ∀ p ∈ ([⟨![1, 0, 0], 1⟩, ⟨![-1, 0, 0], 1⟩] : List Part), ∀ k,
    ∃ q ∈ ([⟨![1, 0, 0], 1⟩, ⟨![-1, 0, 0], 1⟩] : List Part), ∃ l, p.r k + 2 * p.h ≤ -(q.r l - 2 * q.h) := by
  intro p hp k
  refine ⟨⟨![-1, 0, 0], 1⟩, by simp, 0, ?_⟩
  simp only [List.mem_cons, List.not_mem_nil, or_false] at hp
  rcases hp with rfl | rfl <;> fin_cases k <;> norm_num

/-- A cloud that lies on one side of the origin is not covered by the grid: for every grid the particle stops the
run with an exception. -/
theorem C69_turb_grid_fails (G : ℕ) (hG : 2 ≤ G) (vfield : ℤ → ℝ) :
    turbVelocity 100 2 G [⟨![0, 2, 0], 1 / 20⟩] vfield ⟨![0, 2, 0], 1 / 20⟩ = .raised := by
  have hg : (1 : ℝ) ≤ (G : ℝ) - 1 := by
    have : (2 : ℝ) ≤ G := by exact_mod_cast hG
    linarith
  have hx : xminOf 100 2 [⟨![0, 2, 0], 1 / 20⟩] = -(1 / 10) := by
    unfold xminOf rminOf
    simp
    norm_num
  have hd : dxgridOf 100 2 G [⟨![0, 2, 0], 1 / 20⟩] = 1 / 5 / ((G : ℝ) - 1) := by
    unfold dxgridOf rmaxOf rminOf
    rw [hx]
    simp
    norm_num
    apply div_nonneg <;> linarith
  unfold turbVelocity
  rw [hx, hd]
  unfold Perturb.interpolate
  simp only
  rw [if_neg]
  unfold Perturb.inGrid
  push Not
  have h2 : Perturb.toInt (((2 : ℝ) - -(1 / 10)) / (1 / 5 / ((G : ℝ) - 1))) > G := by
    have e : ((2 : ℝ) - -(1 / 10)) / (1 / 5 / ((G : ℝ) - 1)) = 21 / 2 * ((G : ℝ) - 1) := by
      field_simp
      norm_num
    rw [e, Perturb.toInt_of_nonneg (by linarith)]
    have : (G : ℤ) + 1 ≤ ⌊21 / 2 * ((G : ℝ) - 1)⌋ := by
      rw [Int.le_floor]; push_cast; linarith
    omega
  exact Or.inr (Or.inl h2)

/-- The energy of a uniform sphere: adding a shell at the radius `r` binds it with the mass inside over `r`. -/
theorem C69_spec_gpe (rho r : ℝ) (hr : 0 < r) :
    HasDerivAt (fun r => gpecloud (4 / 3 * π * rho * r ^ 3) r)
      ((4 / 3 * π * rho * r ^ 3) * (4 * π * r ^ 2 * rho) / r) r := by
  have e : ∀ᶠ x in nhds r, gpecloud (4 / 3 * π * rho * x ^ 3) x = 3 / 5 * (4 / 3 * π * rho) ^ 2 * x ^ 5 := by
    filter_upwards [Ioi_mem_nhds hr] with x hx
    have hx0 : x ≠ 0 := (Set.mem_Ioi.1 hx).ne'
    unfold gpecloud
    field_simp
  have h := ((hasDerivAt_pow 5 r).const_mul (3 / 5 * (4 / 3 * π * rho) ^ 2)).congr_of_eventuallyEq e
  refine h.congr_deriv ?_
  field_simp
  push_cast
  ring

/-- **Turbulent energy**: after scaling the kinetic energy is the fraction wanted of the energy of the cloud, and
if the momentum was zero it still is. -/
theorem C69_turb_energy (alpha gpe : ℝ) (ps : List (ℝ × Vec 3 ℝ)) (ha : 0 ≤ alpha * gpe) (hk : 0 < keturb ps) :
    (((rescale alpha gpe ps).map fun p => p.1 * (p.2 0 * p.2 0 + p.2 1 * p.2 1 + p.2 2 * p.2 2)).sum / 2 =
      alpha * gpe) ∧
    ∀ k, (ps.map fun p => p.1 * p.2 k).sum = 0 → ((rescale alpha gpe ps).map fun p => p.1 * p.2 k).sum = 0 := by
  have hq : sqrt (alpha * gpe / keturb ps) * sqrt (alpha * gpe / keturb ps) = alpha * gpe / keturb ps :=
    Real.mul_self_sqrt (div_nonneg ha hk.le)
  have hke : keturb ps = (ps.map fun p => p.1 * (p.2 0 * p.2 0 + p.2 1 * p.2 1 + p.2 2 * p.2 2)).sum / 2 := by
    unfold keturb
    rw [foldl_sum (fun p : ℝ × Vec 3 ℝ => p.1 * dot p.2 p.2)]
    simp only [dot, Fin.sum_univ_three]
    ring
  unfold rescale
  constructor
  · rw [List.map_map]
    have e : ((fun p : ℝ × Vec 3 ℝ => p.1 * (p.2 0 * p.2 0 + p.2 1 * p.2 1 + p.2 2 * p.2 2)) ∘
        fun p : ℝ × Vec 3 ℝ => (p.1, fun k => p.2 k * sqrt (alpha * gpe / keturb ps))) =
        fun p => (alpha * gpe / keturb ps) * (p.1 * (p.2 0 * p.2 0 + p.2 1 * p.2 1 + p.2 2 * p.2 2)) := by
      funext p
      simp only [Function.comp]
      linear_combination (p.1 * (p.2 0 * p.2 0 + p.2 1 * p.2 1 + p.2 2 * p.2 2)) * hq
    rw [e, sum_map_mul_left, mul_div_assoc, ← hke, div_mul_cancel₀ _ hk.ne']
  · intro k h
    rw [List.map_map]
    have e : ((fun p : ℝ × Vec 3 ℝ => p.1 * p.2 k) ∘
        fun p : ℝ × Vec 3 ℝ => (p.1, fun k => p.2 k * sqrt (alpha * gpe / keturb ps))) =
        fun p => sqrt (alpha * gpe / keturb ps) * (p.1 * p.2 k) := by
      funext p
      simp only [Function.comp]
      ring
    rw [e, sum_map_mul_left, h, mul_zero]

example : 0 < keturb [(1, ![1, 0, 0]), (1, ![-1, 0, 0])] := by
  unfold keturb
  simp [dot, Fin.sum_univ_three]

/-! ### Evrard collapse -/

/-- **Evrard collapse**, for a cloud of radius 1: a particle of the uniform sphere at the distance `a`, with the
mass `a³` inside, is moved outwards along its direction to the distance `b` with `(b²)² = (a³)² + small a⁴`, so
that the mass inside is `b²`, that of the density `1/r` wanted, up to `small`. -/
theorem C69_evrard_partial (small : ℝ) (hs : 0 < small) (ri : Vec 3 ℝ) :
    (dot (evrardPos small 1 ri) (evrardPos small 1 ri)) ^ 2 = dot ri ri ^ 3 + small * dot ri ri ^ 2 ∧
      ∃ c, 0 < c ∧ ∀ k, evrardPos small 1 ri k = c * ri k := by
  have hd : 0 ≤ dot ri ri := Finset.sum_nonneg fun k _ => mul_self_nonneg _
  have hr : 0 < sqrt (dot ri ri + small) := Real.sqrt_pos.2 (by linarith)
  have hrr : sqrt (dot ri ri + small) * sqrt (dot ri ri + small) = dot ri ri + small :=
    Real.mul_self_sqrt (by linarith)
  have hq : 0 < sqrt (sqrt (dot ri ri + small)) := Real.sqrt_pos.2 hr
  have hqq : sqrt (sqrt (dot ri ri + small)) * sqrt (sqrt (dot ri ri + small)) = sqrt (dot ri ri + small) :=
    Real.mul_self_sqrt hr.le
  have e : ∀ k, evrardPos small 1 ri k = sqrt (sqrt (dot ri ri + small)) * ri k := by
    intro k
    unfold evrardPos
    field_simp
  refine ⟨?_, _, hq, e⟩
  have : dot (evrardPos small 1 ri) (evrardPos small 1 ri) = sqrt (dot ri ri + small) * dot ri ri := by
    unfold dot at *
    rw [Finset.mul_sum]
    refine Finset.sum_congr rfl fun k _ => ?_
    rw [e]
    linear_combination (ri k * ri k) * hqq
  rw [this, mul_pow, pow_two (sqrt _), hrr]
  ring

example : (0 : ℝ) < 1 / 100000000000000000000 := by norm_num

/-- For another radius the distance is not divided by the radius before it is stretched: a particle at the surface
of a cloud of radius 4 is put at 8 times the radius. -/
theorem C69_evrard_fails (small : ℝ) (hs : 0 < small) : 32 ≤ evrardPos small 4 ![4, 0, 0] 0 := by
  have hd : dot (![4, 0, 0] : Vec 3 ℝ) ![4, 0, 0] = 16 := by
    simp [dot, Fin.sum_univ_three]; norm_num
  have h4 : 4 ≤ sqrt (16 + small) := by
    apply Real.le_sqrt_of_sq_le; linarith
  have h2 : 2 ≤ sqrt (sqrt (16 + small)) := by
    apply Real.le_sqrt_of_sq_le; linarith
  have hr : sqrt (16 + small) ≠ 0 := by linarith
  unfold evrardPos
  simp only [hd, Matrix.cons_val_zero]
  rw [show 4 * (4 * sqrt (16 + small) * sqrt (sqrt (16 + small))) / sqrt (16 + small) =
    16 * sqrt (sqrt (16 + small)) by field_simp; norm_num]
  linarith

/-! ### Plummer sphere -/

/-- mass of a Plummer sphere of mass 1 and scale 1 inside of the radius `s` -/
noncomputable def plummerMass (s : ℝ) : ℝ := (s / sqrt (1 + s * s)) ^ 3

/-- density of a Plummer sphere of mass `m` and scale `a` -/
noncomputable def plummerRho (m a R : ℝ) : ℝ := 3 * m / (4 * π * a ^ 3) / sqrt (1 + R / a * (R / a)) ^ 5

/-- the mass is the integral of the density -/
theorem C69_spec_plummer (m a R : ℝ) (ha : 0 < a) :
    HasDerivAt (fun R => m * plummerMass (R / a)) (4 * π * R ^ 2 * plummerRho m a R) R := by
  have hp : 0 < 1 + R / a * (R / a) := by nlinarith [mul_self_nonneg (R / a)]
  have h1 : HasDerivAt (fun R : ℝ => R / a) (1 / a) R := (hasDerivAt_id R).div_const a
  have h2 : HasDerivAt (fun R : ℝ => 1 + R / a * (R / a)) (1 / a * (R / a) + R / a * (1 / a)) R :=
    (h1.mul h1).const_add 1
  have h3 := h2.sqrt hp.ne'
  have hq : 0 < sqrt (1 + R / a * (R / a)) := Real.sqrt_pos.2 hp
  have hqq : sqrt (1 + R / a * (R / a)) ^ 2 = 1 + R / a * (R / a) := Real.sq_sqrt hp.le
  have h4 := ((h1.div h3 hq.ne').pow 3).const_mul m
  refine (h4.congr_deriv ?_)
  unfold plummerRho
  simp only [Pi.div_apply]
  generalize sqrt (1 + R / a * (R / a)) = q at hq hqq ⊢
  have hpi := Real.pi_pos
  have hb : (1 / a * q - R / a * ((1 / a * (R / a) + R / a * (1 / a)) / (2 * q))) / q ^ 2 = 1 / (a * q ^ 3) := by
    rw [show (1 / a * q - R / a * ((1 / a * (R / a) + R / a * (1 / a)) / (2 * q))) / q ^ 2 =
      (q ^ 2 - R / a * (R / a)) / (a * q ^ 3) by field_simp; ring, hqq]
    ring
  rw [hb]
  push_cast
  field_simp

/-- **Plummer sphere, distances**: the random number `x` gives the radius that contains the mass `x`; so the
radius is at most `s` for exactly the random numbers up to the mass inside of `s`. -/
theorem C69_plummer_radius (x s : ℝ) (h0 : 0 < x) (h1 : x < 1) (hs : 0 ≤ s) :
    plummerMass (radOf x) = x ∧ (radOf x ≤ s ↔ x ≤ plummerMass s) := by
  have e : plummerMass (radOf x) = x := radOf_ratio h0 h1
  refine ⟨e, ?_⟩
  constructor
  · intro h
    rcases h.eq_or_lt with h | h
    · rw [← h, e]
    · have := ratio_lt (radOf_pos h0 h1).le h
      rw [show (radOf x / sqrt (1 + radOf x * radOf x)) ^ 3 = x from e] at this
      exact this.le
  · intro h
    by_contra hc
    have := ratio_lt hs (not_le.1 hc)
    rw [show (radOf x / sqrt (1 + radOf x * radOf x)) ^ 3 = x from e] at this
    unfold plummerMass at h
    linarith

/-- **Plummer sphere, speeds**: the distribution of speeds at a point, `v² (ve²/2 - v²/2)^(7/2)` with `v = q ve`,
is the envelope up to a constant; the envelope is below one tenth, so that a speed is kept for exactly the
fraction `10 envelope(q)`, at most one, of the second random number. -/
theorem C69_plummer_speed (ve q : ℝ) (h0 : 0 ≤ q) (h1 : q ≤ 1) :
    ((q * ve) ^ 2 * (ve ^ 2 / 2 - (q * ve) ^ 2 / 2) ^ (7 / 2 : ℝ) =
      ve ^ 2 * (ve ^ 2 / 2) ^ (7 / 2 : ℝ) * envelope q) ∧
    0 ≤ 10 * envelope q ∧ 10 * envelope q ≤ 1 ∧
    ∀ (s : ℕ → ℝ) (fuel j : ℕ), s j = q →
      (drawSpeed s (fuel + 1) j = some (q, j + 2) ∨ 10 * envelope q < s (j + 1)) ∧
      (10 * envelope q < s (j + 1) → drawSpeed s (fuel + 1) j = drawSpeed s fuel (j + 2)) := by
  obtain ⟨e0, e1⟩ := envelope_le h0 h1
  refine ⟨?_, by linarith, by linarith, ?_⟩
  · unfold envelope
    rw [show ve ^ 2 / 2 - (q * ve) ^ 2 / 2 = ve ^ 2 / 2 * (1 - q * q) by ring,
      Real.mul_rpow (by positivity) (by nlinarith)]
    ring
  · intro s fuel j hq
    constructor
    · by_cases hc : envelope (s j) < 1 / 10 * s (j + 1)
      · right; rw [hq] at hc; linarith
      · left; rw [drawSpeed, if_neg hc, hq]
    · intro h
      rw [drawSpeed, if_pos]
      rw [hq]
      linarith

/-- every star of a list made by `stars` comes from one draw -/
theorem C69_stars_from (s : ℕ → ℝ) (m a radius : ℝ) (fuel : ℕ) :
    ∀ N j l, stars s m a radius fuel N j = some l → l.length = N ∧
      ∀ p ∈ l, ∃ i b, drawStar s (radius / a) fuel i = some b ∧
        p = (fun k => b.1.1 k * a, fun k => b.1.2 k * sqrt (m / a)) := by
  intro N
  induction N with
  | zero => intro j l h; simp [stars] at h; subst h; simp
  | succ N ih =>
    intro j l h
    rw [stars, Option.bind_eq_some_iff] at h
    obtain ⟨b, hb, h⟩ := h
    rw [Option.map_eq_some_iff] at h
    obtain ⟨l', hl', rfl⟩ := h
    obtain ⟨e1, e2⟩ := ih b.2 l' hl'
    refine ⟨by simp [e1], ?_⟩
    intro p hp
    rcases List.mem_cons.1 hp with rfl | hp
    · exact ⟨j, b, hb, rfl⟩
    · exact e2 p hp

/-- **Plummer sphere**: each star made is within the radius given, at a distance that contains a fraction of the
mass equal to one of the random numbers, and bound: its speed is at most the speed of escape from the sphere. -/
theorem C69_plummer (s : ℕ → ℝ) (hs : ∀ n, 0 < s n ∧ s n < 1) (m a radius : ℝ) (hm : 0 < m) (ha : 0 < a)
    (fuel N j : ℕ) (l : List (Vec 3 ℝ × Vec 3 ℝ)) (h : stars s m a radius fuel N j = some l) :
    l.length = N ∧ ∀ p ∈ l, ∃ R, 0 < R ∧ R ≤ radius ∧
      p.1 0 ^ 2 + p.1 1 ^ 2 + p.1 2 ^ 2 = R ^ 2 ∧ (∃ i, plummerMass (R / a) = s i) ∧
      p.2 0 ^ 2 + p.2 1 ^ 2 + p.2 2 ^ 2 ≤ 2 * m / sqrt (a ^ 2 + R ^ 2) := by
  obtain ⟨e1, e2⟩ := C69_stars_from s m a radius fuel N j l h
  refine ⟨e1, ?_⟩
  intro p hp
  obtain ⟨i, b, hb, rfl⟩ := e2 p hp
  unfold drawStar at hb
  rw [Option.bind_eq_some_iff] at hb
  obtain ⟨c, hc, hb⟩ := hb
  rw [Option.map_eq_some_iff] at hb
  obtain ⟨d, hd, rfl⟩ := hb
  obtain ⟨n, c1, c2, c3, c4⟩ := drawPos_sound s (radius / a) fuel i c hc
  obtain ⟨n', d1, -⟩ := drawSpeed_sound s fuel _ d hd
  obtain ⟨rad, x2, x3, nx⟩ := c
  obtain ⟨q, nq⟩ := d
  simp only at c1 c2 c3 c4 d1 ⊢
  have hr0 : 0 < rad := by rw [c1]; exact radOf_pos (hs n).1 (hs n).2
  have hpos := posOf_norm rad x2 x3 (by rw [c2]; exact (hs _).1.le) (by rw [c2]; exact (hs _).2.le)
  have hvel := posOf_norm (veOf rad * q) (s nq) (s (nq + 1)) (hs _).1.le (hs _).2.le
  have hq0 : 0 < q := by rw [d1]; exact (hs _).1
  have hq1 : q < 1 := by rw [d1]; exact (hs _).2
  refine ⟨rad * a, mul_pos hr0 ha, by rw [le_div_iff₀ ha] at c4; exact c4, ?_, ⟨n, ?_⟩, ?_⟩
  · linear_combination (a ^ 2) * hpos
  · rw [mul_div_assoc, div_self ha.ne', mul_one, c1]
    exact (C69_plummer_radius (s n) 0 (hs n).1 (hs n).2 le_rfl).1
  · have h1 : sqrt (m / a) * sqrt (m / a) = m / a := Real.mul_self_sqrt (by positivity)
    have hP : 0 < sqrt (1 + rad * rad) := Real.sqrt_pos.2 (by positivity)
    have h2 : veOf rad * veOf rad = 2 / sqrt (1 + rad * rad) := Real.mul_self_sqrt (by positivity)
    have h3 : sqrt (a ^ 2 + (rad * a) ^ 2) = a * sqrt (1 + rad * rad) := by
      rw [show a ^ 2 + (rad * a) ^ 2 = a ^ 2 * (1 + rad * rad) by ring, Real.sqrt_mul (by positivity),
        Real.sqrt_sq ha.le]
    have e : (posOf (veOf rad * q) (s nq) (s (nq + 1)) 0 * sqrt (m / a)) ^ 2 +
        (posOf (veOf rad * q) (s nq) (s (nq + 1)) 1 * sqrt (m / a)) ^ 2 +
        (posOf (veOf rad * q) (s nq) (s (nq + 1)) 2 * sqrt (m / a)) ^ 2 =
        (m / a) * (2 / sqrt (1 + rad * rad)) * q ^ 2 := by
      linear_combination (sqrt (m / a) * sqrt (m / a)) * hvel + (veOf rad * veOf rad * q ^ 2) * h1 +
        (m / a * q ^ 2) * h2
    rw [e, h3]
    have hB : 2 * m / (a * sqrt (1 + rad * rad)) = m / a * (2 / sqrt (1 + rad * rad)) := by field_simp
    rw [hB]
    have hpos2 : 0 ≤ m / a * (2 / sqrt (1 + rad * rad)) := by positivity
    exact mul_le_of_le_one_right hpos2 (by nlinarith)

/-- random numbers that give a star -/
example : ∃ l, stars (fun _ => 1 / 2) 1 1 (radOf (1 / 2)) 1 1 0 = some l := by
  have he : ¬ envelope (1 / 2) < 1 / 10 * (1 / 2) := by
    have h : (1 - 1 / 2 * (1 / 2) : ℝ) ^ (7 / 2 : ℝ) ≥ (1 - 1 / 2 * (1 / 2)) ^ (4 : ℝ) :=
      Real.rpow_le_rpow_of_exponent_ge (by norm_num) (by norm_num) (by norm_num)
    rw [show (4 : ℝ) = ((4 : ℕ) : ℝ) by norm_num, Real.rpow_natCast] at h
    unfold envelope
    norm_num at h ⊢
    linarith
  have h1 : drawPos (fun _ => 1 / 2) (radOf (1 / 2) / 1) 1 0 = some (radOf (1 / 2), 1 / 2, 1 / 2, 3) := by
    rw [drawPos, if_neg (by rw [div_one]; norm_num)]
  have h2 : drawSpeed (fun _ => 1 / 2) 1 3 = some (1 / 2, 5) := by rw [drawSpeed, if_neg he]
  have h3 : drawStar (fun _ => 1 / 2) (radOf (1 / 2) / 1) 1 0 =
      some ((posOf (radOf (1 / 2)) (1 / 2) (1 / 2), posOf (veOf (radOf (1 / 2)) * (1 / 2)) (1 / 2) (1 / 2)), 7) := by
    unfold drawStar
    rw [h1, Option.bind_some, h2]
    rfl
  exact ⟨_, by rw [stars, h3]; rfl⟩

/-- The loop that draws a position ends if the random numbers ever offer one inside of the radius. -/
theorem C69_plummer_ends (s : ℕ → ℝ) (rmax : ℝ) (n j : ℕ) (h0 : 0 < s (j + 3 * n)) (h1 : s (j + 3 * n) < 1)
    (hr : 0 ≤ rmax) (hx : s (j + 3 * n) ≤ plummerMass rmax) : ∃ a, drawPos s rmax (n + 1) j = some a :=
  drawPos_ends s rmax n j (fun h => h0.ne' h.1) ((C69_plummer_radius _ rmax h0 h1 hr).2.2 hx)

example : (0 : ℝ) < (fun _ : ℕ => (1 / 100 : ℝ)) (0 + 3 * 0) ∧ (1 / 100 : ℝ) ≤ plummerMass 1 := by
  refine ⟨by norm_num, ?_⟩
  have h2 : sqrt (1 + 1 * 1) ≤ 2 := by
    rw [Real.sqrt_le_left (by norm_num)]; norm_num
  have h0 : 0 < sqrt (1 + (1 : ℝ) * 1) := Real.sqrt_pos.2 (by norm_num)
  unfold plummerMass
  have : (1 / 2 : ℝ) ≤ 1 / sqrt (1 + 1 * 1) := by
    rw [div_le_div_iff₀ (by norm_num) h0]; linarith
  calc (1 / 100 : ℝ) ≤ (1 / 2) ^ 3 := by norm_num
    _ ≤ _ := pow_le_pow_left₀ (by norm_num) this 3

/-- **Plummer sphere, gas**: with the internal energy given and the density of the sphere the pressure balances
the gravity of the whole sphere. -/
theorem C69_plummer_gas (gamma m a R : ℝ) (hg : gamma ≠ 1) (ha : 0 < a) (hR : 0 < R) :
    HasDerivAt (fun R => (gamma - 1) * plummerRho m a R * plummerU gamma m a (R / a))
      (-(plummerRho m a R * (m * plummerMass (R / a)) / R ^ 2)) R := by
  have hg' : gamma - 1 ≠ 0 := sub_ne_zero.2 hg
  have hpi := Real.pi_pos
  have e : ∀ R, (gamma - 1) * plummerRho m a R * plummerU gamma m a (R / a) =
      m ^ 2 / (8 * π * a ^ 4) * (1 / (1 + R / a * (R / a)) ^ 3) := by
    intro R
    have hp : 0 < 1 + R / a * (R / a) := by nlinarith [mul_self_nonneg (R / a)]
    have hq : 0 < sqrt (1 + R / a * (R / a)) := Real.sqrt_pos.2 hp
    have hqq : sqrt (1 + R / a * (R / a)) ^ 2 = 1 + R / a * (R / a) := Real.sq_sqrt hp.le
    unfold plummerRho plummerU
    simp only
    rw [Real.mul_self_sqrt (by positivity), show (1 + R / a * (R / a)) ^ 3 = sqrt (1 + R / a * (R / a)) ^ 6 by
      rw [show sqrt (1 + R / a * (R / a)) ^ 6 = (sqrt (1 + R / a * (R / a)) ^ 2) ^ 3 by ring, hqq]]
    generalize sqrt (1 + R / a * (R / a)) = q at hq ⊢
    field_simp
    ring
  have hp : 0 < 1 + R / a * (R / a) := by nlinarith [mul_self_nonneg (R / a)]
  have h1 : HasDerivAt (fun R : ℝ => R / a) (1 / a) R := (hasDerivAt_id R).div_const a
  have h2 : HasDerivAt (fun R : ℝ => 1 + R / a * (R / a)) (1 / a * (R / a) + R / a * (1 / a)) R :=
    (h1.mul h1).const_add 1
  have h3 := ((((h2.pow 3).inv (by simp only [Pi.pow_apply]; positivity))).const_mul (m ^ 2 / (8 * π * a ^ 4)))
  have h4 : HasDerivAt (fun R => (gamma - 1) * plummerRho m a R * plummerU gamma m a (R / a)) _ R :=
    h3.congr_of_eventuallyEq (Filter.Eventually.of_forall fun x =>
      (e x).trans (by rw [one_div]; rfl))
  refine h4.congr_deriv ?_
  have hq : 0 < sqrt (1 + R / a * (R / a)) := Real.sqrt_pos.2 hp
  have hqq : sqrt (1 + R / a * (R / a)) ^ 2 = 1 + R / a * (R / a) := Real.sq_sqrt hp.le
  unfold plummerRho plummerMass
  simp only [Pi.pow_apply]
  generalize sqrt (1 + R / a * (R / a)) = q at hq hqq ⊢
  rw [← hqq]
  field_simp
  push_cast
  ring

/-- **Plummer sphere, masses**: with both gas and stars the masses add up to the mass wanted; if one of the kinds
has no particles they add up to the other fraction only. -/
theorem C69_plummer_mass (g st m : ℝ) (hsum : g + st ≠ 0) (Nh Ns : ℕ) :
    (0 < Nh → 0 < Ns → (plummerMasses g st m Nh Ns).sum = m) ∧
    (0 < Nh → (plummerMasses g st m Nh 0).sum = g / (g + st) * m) ∧
    (0 < Ns → (plummerMasses g st m 0 Ns).sum = st / (g + st) * m) := by
  refine ⟨fun h1 h2 => ?_, fun h1 => ?_, fun h2 => ?_⟩
  · have n1 : (Nh : ℝ) ≠ 0 := by exact_mod_cast h1.ne'
    have n2 : (Ns : ℝ) ≠ 0 := by exact_mod_cast h2.ne'
    simp only [plummerMasses, List.sum_append, List.sum_replicate, nsmul_eq_mul]
    field_simp
    ring
  · have n1 : (Nh : ℝ) ≠ 0 := by exact_mod_cast h1.ne'
    simp only [plummerMasses, List.sum_append, List.sum_replicate, nsmul_eq_mul]
    field_simp
    simp [mul_comm]
  · have n2 : (Ns : ℝ) ≠ 0 := by exact_mod_cast h2.ne'
    simp only [plummerMasses, List.sum_append, List.sum_replicate, nsmul_eq_mul]
    field_simp
    simp [mul_comm]

/-- The sphere ends at the radius given, but all of the mass is put inside: there is more mass inside of the
radius than in the sphere whose speeds and pressures are used. -/
theorem C69_plummer_truncated_fails (g st m a radius : ℝ) (hsum : g + st ≠ 0) (hm : 0 < m) (ha : 0 < a)
    (hr : 0 < radius) (Nh Ns : ℕ) (h1 : 0 < Nh) (h2 : 0 < Ns) :
    m * plummerMass (radius / a) < (plummerMasses g st m Nh Ns).sum := by
  rw [(C69_plummer_mass g st m hsum Nh Ns).1 h1 h2]
  have hs : 0 < radius / a := div_pos hr ha
  have hq : 0 < sqrt (1 + radius / a * (radius / a)) := Real.sqrt_pos.2 (by positivity)
  have hlt : radius / a / sqrt (1 + radius / a * (radius / a)) < 1 := by
    rw [div_lt_one hq]
    apply Real.lt_sqrt_of_sq_lt
    nlinarith
  have h0 : 0 ≤ radius / a / sqrt (1 + radius / a * (radius / a)) := (div_pos hs hq).le
  have : plummerMass (radius / a) < 1 := pow_lt_one₀ h0 hlt (by norm_num)
  nlinarith

end Gandalf
