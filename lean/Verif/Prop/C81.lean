import Verif.Proof.Disc

/-!
# C81: discs around stars
-/

set_option autoImplicit false

namespace Gandalf
open Disc DiscSpec Real

noncomputable section

/-- a disc as in the defaults of the parameters (src/Common/Parameters.cpp:459-465), with dust -/
def c81Disc : Par := ⟨1000, 100, true, 1 / 100, 1, 1 / 100, 1, 1 / 2, 2 / 5, 5 / 2, 1 / 20, 5 / 3⟩

theorem c81Disc_good : Good c81Disc := ⟨by norm_num [c81Disc], by norm_num [c81Disc], by norm_num [c81Disc], by norm_num [c81Disc]⟩

/-- The particles have the mass of the disc together, with or without dust, and the dust has the given share of it. -/
theorem C81_mass (P : Par) (hN : 0 < P.N) (hD : P.dusty = true → 0 < P.nDust) :
    ∑ i ∈ Finset.range P.total, P.massOf i = P.mass ∧
    (P.dusty = true → ∑ i ∈ Finset.range P.total, (if P.N ≤ i then P.massOf i else 0) = P.mass * P.ratio) := by
  have hN' : (P.N : ℝ) ≠ 0 := by exact_mod_cast hN.ne'
  have hg : ∑ i ∈ Finset.range P.N, P.massOf i = P.N * P.massGas := by
    rw [Finset.sum_congr rfl (g := fun _ => P.massGas)]
    · simp
    · intro i hi
      simp [Par.massOf, Finset.mem_range.1 hi]
  have hd : ∑ i ∈ Finset.range P.nDust, P.massOf (P.N + i) = P.nDust * P.massDust := by
    rw [Finset.sum_congr rfl (g := fun _ => P.massDust)]
    · simp
    · intro i _
      simp [Par.massOf]
  cases h : P.dusty with
  | false =>
    refine ⟨?_, fun h => by cases h⟩
    simp only [Par.total, h, Bool.false_eq_true, if_false, hg]
    simp only [Par.massGas, h, Bool.false_eq_true, if_false]
    field_simp
  | true =>
    have hD' : (P.nDust : ℝ) ≠ 0 := by exact_mod_cast (hD h).ne'
    simp only [Par.total, h, if_true]
    rw [Finset.sum_range_add, hg, hd]
    constructor
    · simp only [Par.massGas, Par.massDust, h, if_true]
      field_simp
      ring
    · intro _
      rw [Finset.sum_range_add]
      have h0 : ∑ i ∈ Finset.range P.N, (if P.N ≤ i then P.massOf i else 0) = 0 := by
        apply Finset.sum_eq_zero
        intro i hi
        rw [if_neg (by simpa using Finset.mem_range.1 hi)]
      rw [h0, zero_add]
      have h1 : ∑ i ∈ Finset.range P.nDust, (if P.N ≤ P.N + i then P.massOf (P.N + i) else 0) = P.nDust * P.massDust := by
        rw [← hd]
        exact Finset.sum_congr rfl fun i _ => by simp
      rw [h1]
      simp only [Par.massDust]
      field_simp

example : c81Disc.total = 1100 ∧ c81Disc.massGas = 99 / 10000000 ∧ c81Disc.massDust = 1 / 1000000 := by
  norm_num [c81Disc, Par.total, Par.massGas, Par.massDust]

/-- `DustGasRatio` is not the ratio of dust to gas (as it is in the other initial conditions), but the share of dust in
the whole disc. -/
theorem C81_ratio_fails : ∃ P : Par, Good P ∧ P.dusty = true ∧ P.nDust * P.massDust ≠ P.ratio * (P.N * P.massGas) :=
  ⟨c81Disc, c81Disc_good, rfl, by norm_num [c81Disc, Par.massGas, Par.massDust]⟩

/-- The surface density belongs to the mass of the gas if there is dust and the density does not fall with the square of
the radius. -/
theorem C81_surface_partial (P : Par) (G : Good P) (hN : 0 < P.N) (hd : P.dusty = true) (hp : P.p ≠ 2) :
    massBetween P.sigma P.rin P.rout = P.N * P.massGas := by
  have hN' : (P.N : ℝ) ≠ 0 := by exact_mod_cast hN.ne'
  rw [mass_sigma G, if_pos hp]
  simp only [Par.massGas, hd, if_true]
  field_simp

example : Good c81Disc ∧ 0 < c81Disc.N ∧ c81Disc.dusty = true ∧ c81Disc.p ≠ 2 :=
  ⟨c81Disc_good, by norm_num [c81Disc], rfl, by norm_num [c81Disc]⟩

/-- Without dust the densities are too small by the share of dust that is not there. -/
theorem C81_nodust_fails (P : Par) (G : Good P) (hN : 0 < P.N) (hd : P.dusty = false) (hp : P.p ≠ 2) :
    massBetween P.sigma P.rin P.rout = (1 - P.ratio) * (P.N * P.massGas) := by
  have hN' : (P.N : ℝ) ≠ 0 := by exact_mod_cast hN.ne'
  rw [mass_sigma G, if_pos hp]
  simp only [Par.massGas, hd, Bool.false_eq_true, if_false]
  field_simp

example : Good { c81Disc with dusty := false } ∧ { c81Disc with dusty := false }.dusty = false :=
  ⟨⟨c81Disc_good.1, c81Disc_good.2, c81Disc_good.3, c81Disc_good.4⟩, rfl⟩

/-- The density of the dust is less than that of its mass by the share of dust. -/
theorem C81_dust_density_fails (P : Par) (G : Good P) (hD : 0 < P.nDust) (hp : P.p ≠ 2) (i : ℕ) (hi : P.N ≤ i) :
    massBetween (P.sigmaOf i) P.rin P.rout = (1 - P.ratio) * (P.nDust * P.massDust) := by
  have hD' : (P.nDust : ℝ) ≠ 0 := by exact_mod_cast hD.ne'
  have e : massBetween (P.sigmaOf i) P.rin P.rout = P.ratio * massBetween P.sigma P.rin P.rout := by
    unfold massBetween
    rw [← intervalIntegral.integral_const_mul]
    congr 1
    funext r
    simp only [Par.sigmaOf, hi, if_true]
    ring
  rw [e, mass_sigma G, if_pos hp]
  simp only [Par.massDust]
  field_simp

/-- A density that falls with the square of the radius is wrong by the fourth power of the inner radius: it is that of
the disc for an inner radius of one only. -/
theorem C81_square_fails (P : Par) (G : Good P) (hN : 0 < P.N) (hm : 0 < P.mass) (hq : P.ratio < 1) (hd : P.dusty = true) (hp : P.p = 2) :
    massBetween P.sigma P.rin P.rout = P.rin ^ 4 * (P.N * P.massGas) ∧
    (massBetween P.sigma P.rin P.rout = P.N * P.massGas ↔ P.rin = 1) := by
  have hN' : (P.N : ℝ) ≠ 0 := by exact_mod_cast hN.ne'
  have e : massBetween P.sigma P.rin P.rout = P.rin ^ 4 * (P.N * P.massGas) := by
    rw [mass_sigma G, if_neg (by simpa using hp)]
    simp only [Par.massGas, hd, if_true]
    field_simp
  refine ⟨e, ?_⟩
  have hg : 0 < (P.N : ℝ) * P.massGas := by
    have h1 : (0 : ℝ) < P.N := by exact_mod_cast hN
    have h2 := sub_pos.2 hq
    simp only [Par.massGas, hd, if_true]
    positivity
  rw [e]
  constructor
  · intro h
    have h1 : P.rin ^ 4 = 1 := by
      have : (P.rin ^ 4 - 1) * (P.N * P.massGas) = 0 := by linarith
      rcases mul_eq_zero.1 this with h | h
      · linarith
      · exact absurd h hg.ne'
    have h2 := G.rin
    have h3 : (P.rin - 1) * ((P.rin + 1) * (P.rin ^ 2 + 1)) = 0 := by linear_combination h1
    rcases mul_eq_zero.1 h3 with h | h
    · linarith
    · have : 0 < (P.rin + 1) * (P.rin ^ 2 + 1) := by positivity
      linarith
  · intro h
    rw [h]
    ring

example : Good { c81Disc with p := 2 } ∧ { c81Disc with p := 2 }.rin ≠ 1 :=
  ⟨⟨c81Disc_good.1, c81Disc_good.2, c81Disc_good.3, c81Disc_good.4⟩, by norm_num [c81Disc]⟩

/-- Radii are tried between the two ends and kept with a probability in proportion to the mass at that radius: the
share of the random numbers `b` in the unit interval with which a radius is kept is `r*sigma` over its largest value. -/
theorem C81_radius (P : Par) (G : Good P) (hm : 0 < P.mass) (hq : P.ratio < 1) (a : ℝ) (h0 : 0 ≤ a) (h1 : a ≤ 1) :
    P.rin ≤ P.tryRadius a ∧ P.tryRadius a ≤ P.rout ∧
    ∃ t, 0 < t ∧ t ≤ 1 ∧ (∀ b, P.keepRadius (P.tryRadius a) b ↔ b < t) ∧
      t * (P.fmax * P.rin * P.sig0) = P.tryRadius a * P.sigma (P.tryRadius a) := by
  have hin := G.rin
  have hd := sub_pos.2 G.rout
  have e1 : P.rin ≤ P.tryRadius a := by
    unfold Par.tryRadius
    nlinarith
  have e2 : P.tryRadius a ≤ P.rout := by
    unfold Par.tryRadius
    nlinarith
  have hr : 0 < P.tryRadius a := lt_of_lt_of_le hin e1
  have hf := f_le_fmax G e1 e2
  have hx := fmax_pos G
  refine ⟨e1, e2, P.f (P.tryRadius a) / P.fmax, div_pos hf.1 hx, (div_le_one hx).2 hf.2, ?_, ?_⟩
  · intro b
    unfold Par.keepRadius
    rw [not_le, lt_div_iff₀ hx]
  · unfold Par.sigma
    field_simp

example : c81Disc.tryRadius (1 / 2) = 29 / 20 := by norm_num [c81Disc, Par.tryRadius]

/-- Heights are tried within three scale heights and kept in proportion to the density at that height. -/
theorem C81_height (P : Par) (G : Good P) (r a : ℝ) (hr : 0 < r) (h0 : 0 ≤ a) (h1 : a ≤ 1) :
    |P.tryHeight r a| ≤ 3 * P.H r ∧
    ∃ t, 0 < t ∧ t ≤ 1 ∧ (∀ b, P.keepHeight r (P.tryHeight r a) b ↔ b < t) ∧
      t * P.rhoz r 0 = P.rhoz r (P.tryHeight r a) := by
  have hH := H_pos G hr
  refine ⟨?_, P.zf r (P.tryHeight r a), exp_pos _, ?_, ?_, ?_⟩
  · unfold Par.tryHeight
    rw [abs_le]
    constructor <;> nlinarith
  · unfold Par.zf
    rw [exp_le_one_iff]
    have := sq_nonneg (P.tryHeight r a / P.H r)
    linarith
  · intro b
    unfold Par.keepHeight
    rw [not_le, one_mul]
  · unfold Par.rhoz
    simp [Par.zf]
    ring

example : c81Disc.tryHeight 1 (1 / 2) = 0 := by simp [Par.tryHeight]; ring

/-- Every radius between the ends, and every height within three scale heights, is tried for one random number. -/
theorem C81_all (P : Par) (G : Good P) (r z : ℝ) (h1 : P.rin ≤ r) (h2 : r ≤ P.rout) (hz : |z| ≤ 3 * P.H r) :
    (∃ a, 0 ≤ a ∧ a ≤ 1 ∧ P.tryRadius a = r) ∧ ∃ b, 0 ≤ b ∧ b ≤ 1 ∧ P.tryHeight r b = z := by
  have hd := sub_pos.2 G.rout
  have hH := H_pos G (lt_of_lt_of_le G.rin h1)
  have hz' := abs_le.1 hz
  constructor
  · refine ⟨(r - P.rin) / (P.rout - P.rin), div_nonneg (by linarith) hd.le, (div_le_one hd).2 (by linarith), ?_⟩
    unfold Par.tryRadius
    field_simp
    ring
  · refine ⟨(z + 3 * P.H r) / (6 * P.H r), div_nonneg (by linarith) (by linarith), (div_le_one (by linarith)).2 (by linarith), ?_⟩
    unfold Par.tryHeight
    field_simp
    ring

example : |(0 : ℝ)| ≤ 3 * c81Disc.H 1 := by
  rw [abs_zero]
  exact mul_nonneg (by norm_num) (H_pos c81Disc_good one_pos).le

/-- The sound speed over the orbital speed is the given ratio at the inner edge, and changes from there with the given
power; the height is in proportion to it at every radius. -/
theorem C81_aspect (P : Par) (G : Good P) (r : ℝ) (hr : 0 < r) :
    P.cs P.rin = P.hr * √(P.mstar / P.rin) ∧ P.cs r = (r / P.rin) ^ (-P.q) * P.cs P.rin ∧
    P.H r / r = √2 * (P.cs r / √(P.mstar / r)) := by
  have hin := G.rin
  have hs := sqrt_pos.2 G.mstar
  have hsr := sqrt_pos.2 hr
  refine ⟨?_, ?_, ?_⟩
  · unfold Par.cs Par.cs0
    rw [div_self hin.ne', one_rpow, mul_one]
  · unfold Par.cs
    rw [div_self hin.ne', one_rpow, mul_one, mul_comm]
  · have h1 : r ^ (3 / 2 : ℝ) = r * √r := by
      rw [show (3 / 2 : ℝ) = 1 + 1 / 2 by norm_num, rpow_add hr, rpow_one, sqrt_eq_rpow]
    unfold Par.H
    rw [h1, sqrt_div G.mstar.le]
    field_simp

/-- Across the plane the density adds up to the surface density, and pressure and gravity are in balance. -/
theorem C81_vertical (P : Par) (G : Good P) (i : ℕ) (r : ℝ) (hr : 0 < r) :
    (∫ z, P.rho true i r z) = P.sigmaOf i r ∧ ∀ z, Hydrostatic P.mstar (P.cs r) (fun y => P.rho true i r y) r z := by
  refine ⟨?_, fun z => hydrostatic G i hr z⟩
  simp only [Par.rho, if_true]
  rw [MeasureTheory.integral_const_mul, vertical G hr, mul_one]

/-- Places are at the radius drawn and velocities at right angles to them, all in one sense of rotation. -/
theorem C81_orbits (P : Par) (three : Bool) (i : ℕ) (r phi : ℝ) :
    dot (Par.place r phi) (Par.place r phi) = r ^ 2 ∧ dot (Par.place r phi) (P.vel three i r phi) = 0 ∧
    dot (P.vel three i r phi) (P.vel three i r phi) = P.vk three i r ^ 2 ∧
    Par.place r phi 0 * P.vel three i r phi 1 - Par.place r phi 1 * P.vel three i r phi 0 = r * P.vk three i r := by
  have h := sin_sq_add_cos_sq phi
  refine ⟨?_, ?_, ?_, ?_⟩ <;> simp [dot, Fin.sum_univ_two, Par.place, Par.vel]
  · linear_combination r ^ 2 * h
  · ring
  · linear_combination P.vk three i r ^ 2 * h
  · linear_combination r * P.vk three i r * h

/-- The reduced speed of three dimensions is that of gas in the plane of the disc, held by gravity, pressure and
rotation.  Missing: gas does not get it (`C81_gas_fails`). -/
theorem C81_support_partial (P : Par) (G : Good P) (hN : 0 < P.N) (hm : 0 < P.mass) (hq : P.ratio < 1) (i : ℕ) (hi : P.N < i) (r : ℝ)
    (hr : 0 < r) (hs : (P.H r / r) ^ 2 * (3 / 2 + P.p + P.q) ≤ 2) :
    Balanced P.mstar (fun x => P.rho true 0 x 0) (fun x => P.rho true 0 x 0 * P.cs x ^ 2) (P.vk true i r) r := by
  have hM := G.mstar
  have hc := cs_pos G hr
  have h1 : Pow (fun x => P.rho true 0 x 0) (-(P.p + 3 / 2 - P.q)) r := (pow_rho G hr).resolve_right hN.ne'
  have h2 := h1.mul ((pow_cs G hr).mul (pow_cs G hr))
  have hrho : 0 < P.rho true 0 r 0 := by
    have h3 := sigma_pos G hm hq hr
    have h4 := mul_pos (H_pos G hr) (sqrt_pos.2 pi_pos)
    have e : P.rho true 0 r 0 = P.sigma r * (1 / (P.H r * √π)) := by
      simp [Par.rho, Par.sigmaOf, Par.rhoz, Par.zf, hN.ne']
    rw [e]
    positivity
  have e : (fun x => P.rho true 0 x 0 * P.cs x ^ 2) = fun x => P.rho true 0 x 0 * (P.cs x * P.cs x) := by
    funext x
    ring
  refine ⟨_, by rw [e]; exact h2, ?_⟩
  have hH := H_sq G hr
  have hv : P.vk true i r ^ 2 = P.mstar / r * (1 - 1 / 2 * (P.H r / r) ^ 2 * (3 / 2 + P.p + P.q)) := by
    simp only [Par.vk, hi, if_true]
    rw [mul_pow, sq_sqrt (div_pos hM hr).le, sq_sqrt]
    · ring
    · nlinarith
  rw [hv, div_pow, hH]
  simp only
  generalize P.rho true 0 r 0 = ρ at hrho
  field_simp
  ring

example : Good c81Disc ∧ 0 < c81Disc.mass ∧ c81Disc.ratio < 1 ∧ (c81Disc.H 1 / 1) ^ 2 * (3 / 2 + c81Disc.p + c81Disc.q) ≤ 2 := by
  refine ⟨c81Disc_good, by norm_num [c81Disc], by norm_num [c81Disc], ?_⟩
  have hH := H_sq c81Disc_good one_pos
  have hc : c81Disc.cs 1 ^ 2 = 1 / 400 := by
    have h1 : (c81Disc.cs 1) = 1 / 20 * √(5 / 2) * (5 / 2 : ℝ) ^ (-(1 / 2) : ℝ) := by
      norm_num [Par.cs, Par.cs0, c81Disc]
    have h2 : ((5 / 2 : ℝ) ^ (-(1 / 2) : ℝ)) ^ 2 = 2 / 5 := by
      rw [← rpow_natCast, ← rpow_mul (by norm_num)]
      norm_num
    rw [h1, mul_pow, mul_pow, h2, sq_sqrt (by norm_num)]
    norm_num
  rw [div_one, hH, hc]
  norm_num [c81Disc]

/-- The gas gets the speed of a free orbit: where pressure falls or rises in the plane it is not in balance.  So is the
first particle of dust, the others have the speed of supported gas. -/
theorem C81_gas_fails (P : Par) (G : Good P) (hN : 0 < P.N) (hm : 0 < P.mass) (hq : P.ratio < 1) (i : ℕ) (hi : i ≤ P.N)
    (r : ℝ) (hr : 0 < r) (hs : 3 / 2 + P.p + P.q ≠ 0) :
    P.vk true i r ^ 2 = P.mstar / r ∧
    ¬ Balanced P.mstar (fun x => P.rho true 0 x 0) (fun x => P.rho true 0 x 0 * P.cs x ^ 2) (P.vk true i r) r := by
  have hM := G.mstar
  have hc := cs_pos G hr
  have h1 : Pow (fun x => P.rho true 0 x 0) (-(P.p + 3 / 2 - P.q)) r := (pow_rho G hr).resolve_right hN.ne'
  have h2 := h1.mul ((pow_cs G hr).mul (pow_cs G hr))
  have hrho : 0 < P.rho true 0 r 0 := by
    have h3 := sigma_pos G hm hq hr
    have h4 := mul_pos (H_pos G hr) (sqrt_pos.2 pi_pos)
    have e : P.rho true 0 r 0 = P.sigma r * (1 / (P.H r * √π)) := by
      simp [Par.rho, Par.sigmaOf, Par.rhoz, Par.zf, hN.ne']
    rw [e]
    positivity
  have e : (fun x => P.rho true 0 x 0 * P.cs x ^ 2) = fun x => P.rho true 0 x 0 * (P.cs x * P.cs x) := by
    funext x
    ring
  have hv : P.vk true i r ^ 2 = P.mstar / r := by
    simp only [Par.vk, not_lt.2 hi, if_false]
    rw [sq_sqrt (div_pos hM hr).le]
  refine ⟨hv, ?_⟩
  rintro ⟨d, hd, he⟩
  rw [e] at hd
  have hu := hd.unique h2
  rw [hv, hu] at he
  have h3 : (-(P.p + 3 / 2 - P.q) + (-P.q + -P.q)) * (P.rho true 0 r 0 * (P.cs r * P.cs r)) / r / P.rho true 0 r 0 = 0 := by
    have : P.mstar / r / r = P.mstar / r ^ 2 := by
      field_simp
    linarith
  have h4 : (-(P.p + 3 / 2 - P.q) + (-P.q + -P.q)) * (P.rho true 0 r 0 * (P.cs r * P.cs r)) / r / P.rho true 0 r 0
      = -(3 / 2 + P.p + P.q) * (P.cs r * P.cs r) / r := by
    generalize P.rho true 0 r 0 = ρ at hrho
    field_simp
    ring
  rw [h4] at h3
  have h5 : -(3 / 2 + P.p + P.q) * (P.cs r * P.cs r) / r ≠ 0 :=
    div_ne_zero (mul_ne_zero (neg_ne_zero.2 hs) (mul_pos hc hc).ne') hr.ne'
  exact h5 h3

example : Good c81Disc ∧ 0 < c81Disc.N ∧ 0 < c81Disc.mass ∧ c81Disc.ratio < 1 ∧ 3 / 2 + c81Disc.p + c81Disc.q ≠ 0 :=
  ⟨c81Disc_good, by norm_num [c81Disc], by norm_num [c81Disc], by norm_num [c81Disc], by norm_num [c81Disc]⟩

/-- In two dimensions the reduction of the square of the speed is twice that of the balance. -/
theorem C81_flat_fails (P : Par) (G : Good P) (hm : 0 < P.mass) (hq : P.ratio < 1) (i : ℕ) (hi : P.N < i) (r : ℝ) (hr : 0 < r)
    (hs : (P.H r / r) ^ 2 * (P.p + 2 * P.q) ≤ 1) :
    (∃ v, Balanced P.mstar P.sigma (fun x => P.sigma x * P.cs x ^ 2) v r ∧
      P.mstar / r - P.vk false i r ^ 2 = 2 * (P.mstar / r - v ^ 2)) ∧
    (P.p + 2 * P.q ≠ 0 → ¬ Balanced P.mstar P.sigma (fun x => P.sigma x * P.cs x ^ 2) (P.vk false i r) r) := by
  have hM := G.mstar
  have hc := cs_pos G hr
  have h2 := (pow_sigma G hr).mul ((pow_cs G hr).mul (pow_cs G hr))
  have hsig := sigma_pos G hm hq hr
  have e : (fun x => P.sigma x * P.cs x ^ 2) = fun x => P.sigma x * (P.cs x * P.cs x) := by
    funext x
    ring
  have hH := H_sq G hr
  have hv : P.vk false i r ^ 2 = P.mstar / r * (1 - (P.H r / r) ^ 2 * (P.p + 2 * P.q)) := by
    simp only [Par.vk, hi, if_true, Bool.false_eq_true, if_false]
    rw [mul_pow, sq_sqrt (div_pos hM hr).le, sq_sqrt]
    · ring
    · nlinarith
  have hd : (-P.p + (-P.q + -P.q)) * (P.sigma r * (P.cs r * P.cs r)) / r / P.sigma r
      = -(P.p + 2 * P.q) * P.cs r ^ 2 / r := by
    generalize P.sigma r = ρ at hsig
    field_simp
    ring
  have hx : P.mstar / r * ((P.H r / r) ^ 2 * (P.p + 2 * P.q)) = 2 * ((P.p + 2 * P.q) * P.cs r ^ 2) := by
    rw [div_pow, hH]
    field_simp
  constructor
  · have h0 : 0 ≤ P.mstar / r - (P.p + 2 * P.q) * P.cs r ^ 2 := by
      have h3 := mul_le_mul_of_nonneg_left hs (div_pos hM hr).le
      rw [hx, mul_one] at h3
      have := div_pos hM hr
      linarith
    refine ⟨√(P.mstar / r - (P.p + 2 * P.q) * P.cs r ^ 2), ⟨_, by rw [e]; exact h2, ?_⟩, ?_⟩
    · rw [hd, sq_sqrt h0]
      field_simp
      ring
    · rw [sq_sqrt h0, hv]
      linear_combination hx
  · rintro hne ⟨d, hd', he⟩
    rw [e] at hd'
    rw [hd'.unique h2, hd, hv] at he
    have h3 : (P.p + 2 * P.q) * P.cs r ^ 2 = 0 := by
      have h4 : P.mstar / r * (1 - (P.H r / r) ^ 2 * (P.p + 2 * P.q)) = P.mstar / r - (P.p + 2 * P.q) * P.cs r ^ 2 := by
        field_simp at he ⊢
        linear_combination (-1) * he
      linear_combination (-1 : ℝ) * h4 - hx
    exact mul_ne_zero hne (pow_pos hc 2).ne' h3

example : c81Disc.p + 2 * c81Disc.q ≠ 0 := by norm_num [c81Disc]

/-- Star and planet are on the orbit of the given size and eccentricity, at the point farthest apart, at the given angle
to the plane, with the centre of mass at rest at the origin. -/
theorem C81_planet (mstar m rp e i : ℝ) (hM : 0 < mstar) (hm : 0 ≤ m) (hr : 0 < rp) (h0 : 0 ≤ e) (h1 : e < 1)
    (hi : cos (i * π / 180) ≠ 0) (s p : Body) (h : withPlanet mstar m rp e i = (s, p)) :
    Orbit (mstar + m) rp e (fun k => p.r k - s.r k) (fun k => p.v k - s.v k) ∧
    p.r 0 - s.r 0 = rp * (1 + e) ∧ (∀ k, k ≠ 0 → p.r k = s.r k) ∧ p.v 0 = s.v 0 ∧
    (p.v 2 - s.v 2) * cos (i * π / 180) = (p.v 1 - s.v 1) * sin (i * π / 180) ∧
    (∀ k, s.m * s.r k + p.m * p.r k = 0 ∧ s.m * s.v k + p.m * p.v k = 0) ∧ s.m = mstar ∧ p.m = m := by
  have e1 : s = (shift (star0 mstar) (planet0 mstar m rp e i)).1 := (congrArg Prod.fst h).symm
  have e2 : p = (shift (star0 mstar) (planet0 mstar m rp e i)).2 := (congrArg Prod.snd h).symm
  have hrel := fun k => shift_rel (star0 mstar) (planet0 mstar m rp e i) k
  rw [← e1, ← e2] at hrel
  have hcom := fun k => shift_com (star0 mstar) (planet0 mstar m rp e i) (by simp [star0, planet0]; linarith) k
  rw [← e1, ← e2] at hcom
  have hr' : (fun k => p.r k - s.r k) = fun k => (planet0 mstar m rp e i).r k - (star0 mstar).r k := funext fun k => (hrel k).1
  have hv' : (fun k => p.v k - s.v k) = fun k => (planet0 mstar m rp e i).v k - (star0 mstar).v k := funext fun k => (hrel k).2
  refine ⟨?_, ?_, ?_, ?_, ?_, hcom, by rw [e1]; rfl, by rw [e2]; rfl⟩
  · rw [hr', hv']
    exact orbit0 hM hm hr h0 h1 hi
  · rw [(hrel 0).1]
    simp [planet0, star0]
  · intro k hk
    have := (hrel k).1
    fin_cases k
    · exact absurd rfl hk
    · simp [planet0, star0] at this
      exact sub_eq_zero.1 this
    · simp [planet0, star0] at this
      exact sub_eq_zero.1 this
  · have := (hrel 0).2
    simp [planet0, star0] at this
    linarith
  · rw [(hrel 2).2, (hrel 1).2]
    simp only [planet0, star0]
    simp
    rw [tan_eq_sin_div_cos]
    field_simp

example : cos ((0 : ℝ) * π / 180) ≠ 0 := by simp

/-- The accretion radius of the planet is in radii of its Hill sphere for a star of unit mass only. -/
theorem C81_hill_fails (hill rp M m : ℝ) (hh : 0 < hill) (hr : 0 < rp) (hM : 0 < M) (hm : 0 < m) :
    planetSink hill rp m = hill * hillRadius M m rp ↔ M = 1 := by
  unfold planetSink hillRadius
  constructor
  · intro h
    have h1 : (m / 3) ^ (1 / 3 : ℝ) = (m / (3 * M)) ^ (1 / 3 : ℝ) := by
      have h2 : hill * rp * ((m / 3) ^ (1 / 3 : ℝ) - (m / (3 * M)) ^ (1 / 3 : ℝ)) = 0 := by linear_combination h
      rcases mul_eq_zero.1 h2 with h3 | h3
      · exact absurd h3 (mul_pos hh hr).ne'
      · linarith
    have h2 := (rpow_left_inj (by positivity) (by positivity) (by norm_num)).1 h1
    field_simp at h2
    exact h2
  · rintro rfl
    rw [mul_one]
    ring

example : (0 : ℝ) < 2 / 5 ∧ (0 : ℝ) < 1 / 1000 := by norm_num

/-- The sound speed of the equation of state of the disc is that of the initial conditions for a star of unit mass only
(and the parameters must be in code units). -/
theorem C81_eos_fails (P : Par) (G : Good P) (r : ℝ) (hr : 0 < r) : eosSound P.hr P.rin P.q r = P.cs r ↔ P.mstar = 1 := by
  have hin := G.rin
  have hx := rpow_pos_of_pos (div_pos hr hin) (-P.q)
  unfold eosSound Par.cs Par.cs0
  constructor
  · intro h
    have h1 : √(1 / P.rin) = √(P.mstar / P.rin) := by
      have h2 : P.hr * (r / P.rin) ^ (-P.q) * (√(1 / P.rin) - √(P.mstar / P.rin)) = 0 := by linear_combination h
      rcases mul_eq_zero.1 h2 with h3 | h3
      · exact absurd h3 (mul_pos G.hr hx).ne'
      · linarith
    have h2 := (sqrt_inj (by positivity) (div_pos G.mstar hin).le).1 h1
    field_simp at h2
    exact h2.symm
  · intro h
    rw [h]

/-- Internal energies belong to the sound speeds of an isothermal gas. -/
theorem C81_energy (P : Par) (hg : P.gamma ≠ 1) (rho r : ℝ) : (P.gamma - 1) * rho * P.u r = rho * P.cs r ^ 2 := by
  have : P.gamma - 1 ≠ 0 := sub_ne_zero.2 hg
  unfold Par.u
  field_simp

example : c81Disc.gamma ≠ 1 := by norm_num [c81Disc]

end

end Gandalf
