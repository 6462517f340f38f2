import Verif.Proof.Perturb

/-! # C67: perturbations and velocity fields of the initial conditions -/

set_option autoImplicit false

namespace Gandalf

open Real Perturb

/-! ### azimuthal perturbation -/

/-- The density of a ring whose particles were at the angles `q + amp cos(m q)/m` when it was uniform:
`1 - amp sin(m q)`, the perturbation wanted. -/
theorem C67_spec_ring (amp : ℝ) (m : ℕ) (hm : 0 < m) (q : ℝ) :
    HasDerivAt (fun q => q + amp * cos (m * q) / m) (1 - amp * sin (m * q)) q := by
  have hm' : (m : ℝ) ≠ 0 := by exact_mod_cast hm.ne'
  have h1 : HasDerivAt (fun q : ℝ => (m : ℝ) * q) m q := by
    simpa using (hasDerivAt_id q).const_mul (m : ℝ)
  have h2 := (hasDerivAt_id q).add (((h1.cos).const_mul amp).div_const (m : ℝ))
  refine h2.congr_deriv ?_
  field_simp
  ring

/-- **Azimuthal perturbation**, as far as it is right: a particle at the azimuth `φ` (off the negative half
axes, and not at the angle `amp/m` itself, which is left alone) keeps its distance from the axis and is moved to
an angle `p` within one cell of the table of the only solution `q` of `q + amp cos(m q)/m = φ`. (On the negative
half axes it is wrong: `C67_axis_fails`.) -/
theorem C67_azimuthal_partial (small amp : ℝ) (m tab : ℕ) (hm : 0 < m) (htab : 2 ≤ tab) (hs : 0 ≤ small)
    (ha0 : 0 ≤ amp) (ha1 : amp < 1) (xc yc x y : ℝ) :
    let R := sqrt ((x - xc) * (x - xc) + (y - yc) * (y - yc))
    small < R → ¬ (y = yc ∧ x < xc) → ¬ (x = xc ∧ y < yc) →
    ¬ (x - xc = R * cos (amp / m) ∧ y - yc = R * sin (amp / m)) →
    ∃ φ p q, (x - xc = R * cos φ ∧ y - yc = R * sin φ) ∧
      azimuthal small amp m tab xc yc x y = (xc + R * cos p, yc + R * sin p) ∧
      q + amp * cos (m * q) / m = φ ∧ (∀ q', q' + amp * cos (m * q') / m = φ → q' = q) ∧
      |p - q| ≤ 2 * π / ((tab - 1 : ℕ) : ℝ) := by
  intro R hR n1 n2 n3
  have hm' : (0 : ℝ) < m := by exact_mod_cast hm
  have hm1 : (1 : ℝ) ≤ m := by exact_mod_cast hm
  have pi0 := Real.pi_pos
  have hpi := Real.two_le_pi
  obtain ⟨e1, e2, e3, e4⟩ := azimuth_spec hs hR (fun h => n1 ⟨by linarith [h.1], by linarith [h.2]⟩)
    (fun h => n2 ⟨by linarith [h.1], by linarith [h.2]⟩)
  set A := azimuth small (x - xc) (y - yc) with hA
  have eam : amp * (1 / (m : ℝ)) = amp / m := by ring
  have ham : amp / m < 1 := by rw [div_lt_one hm']; linarith
  have ham0 : 0 ≤ amp / m := by positivity
  set φ := wrapAngle amp m A with hφ
  have hcs : cos φ = cos A ∧ sin φ = sin A := by
    rw [hφ]; unfold wrapAngle
    by_cases h : A < amp * (1 / m)
    · rw [if_pos h]; exact ⟨cos_add_two_pi A, sin_add_two_pi A⟩
    · rw [if_neg h]; exact ⟨rfl, rfl⟩
  have hlo : amp / m < φ := by
    rw [hφ]; unfold wrapAngle
    rw [eam]
    by_cases h : A < amp / m
    · rw [if_pos h]; linarith
    · rw [if_neg h]
      rcases (not_lt.1 h).eq_or_lt with h | h
      · exact absurd ⟨by rw [h]; exact e1, by rw [h]; exact e2⟩ n3
      · exact h
  have hhi : φ ≤ 2 * π + amp / m := by
    rw [hφ]; unfold wrapAngle
    rw [eam]
    by_cases h : A < amp / m
    · rw [if_pos h]; linarith
    · rw [if_neg h]; linarith
  have hsp : 0 < spacing tab := by
    unfold spacing
    apply div_pos (by linarith)
    exact_mod_cast (by omega : 0 < tab - 1)
  obtain ⟨i, i1, i2, i3, i4, i5⟩ := search_found amp m tab φ (tab - 1) 1 le_rfl
    (by rw [Nat.sub_self, entry_first]; exact hlo)
    (by rw [show 1 + (tab - 1) - 1 = tab - 1 by omega, entry_last amp m tab htab]; exact hhi)
  have hcast : ((i - 1 : ℕ) : ℝ) = (i : ℝ) - 1 := by rw [Nat.cast_sub i1]; simp
  have hcell : spacing tab * ((i - 1 : ℕ) : ℝ) + spacing tab = spacing tab * (i : ℝ) := by rw [hcast]; ring
  -- the exact solution
  obtain ⟨q, hq, hqe⟩ := intermediate_value_Icc (f := shape amp m)
    (by rw [← hcell]; linarith : spacing tab * ((i - 1 : ℕ) : ℝ) ≤ spacing tab * (i : ℝ))
    (shape_cont amp m).continuousOn (⟨by rw [← entry_eq]; exact i3.le, by rw [← entry_eq]; exact i4⟩ :
      φ ∈ Set.Icc (shape amp m (spacing tab * ((i - 1 : ℕ) : ℝ))) (shape amp m (spacing tab * (i : ℝ))))
  set p := spacing tab * ((i - 1 : ℕ) : ℝ) +
    spacing tab * (φ - entry amp m tab (i - 1)) / (entry amp m tab i - entry amp m tab (i - 1)) with hp
  have hden : 0 < entry amp m tab i - entry amp m tab (i - 1) := by linarith
  have hfrac0 : 0 ≤ spacing tab * (φ - entry amp m tab (i - 1)) / (entry amp m tab i - entry amp m tab (i - 1)) :=
    div_nonneg (mul_nonneg hsp.le (by linarith)) hden.le
  have hfrac1 : spacing tab * (φ - entry amp m tab (i - 1)) / (entry amp m tab i - entry amp m tab (i - 1)) ≤
      spacing tab := by
    rw [div_le_iff₀ hden]
    exact mul_le_mul_of_nonneg_left (by linarith) hsp.le
  refine ⟨φ, p, q, ⟨by rw [hcs.1]; exact e1, by rw [hcs.2]; exact e2⟩, ?_, hqe, ?_, ?_⟩
  · unfold azimuthal newAngle
    rw [← hA, ← hφ, i5]
    rfl
  · intro q' hq'
    rcases lt_trichotomy q' q with h | h | h
    · have := shape_strict hm (by rw [abs_of_nonneg ha0]; exact ha1 : |amp| < 1) h
      rw [hqe] at this; unfold shape at this; linarith
    · exact h
    · have := shape_strict hm (by rw [abs_of_nonneg ha0]; exact ha1 : |amp| < 1) h
      rw [hqe] at this; unfold shape at this; linarith
  · have h1 := hq.1
    have h2 := hq.2
    rw [← hcell] at h2
    have es : 2 * π / ((tab - 1 : ℕ) : ℝ) = spacing tab := rfl
    rw [es, abs_le]
    constructor <;> rw [hp] <;> linarith

/-- a particle of a perturbed ring -/
example : ∃ φ p q, ((0 : ℝ) - 0 = sqrt ((0 - 0) * (0 - 0) + (1 - 0) * (1 - 0)) * cos φ ∧
      (1 : ℝ) - 0 = sqrt ((0 - 0) * (0 - 0) + (1 - 0) * (1 - 0)) * sin φ) ∧
      azimuthal 0 (1 / 10) 2 2048 0 0 0 1 = (0 + sqrt ((0 - 0) * (0 - 0) + (1 - 0) * (1 - 0)) * cos p,
        0 + sqrt ((0 - 0) * (0 - 0) + (1 - 0) * (1 - 0)) * sin p) ∧
      q + (1 / 10) * cos ((2 : ℕ) * q) / (2 : ℕ) = φ ∧ |p - q| ≤ 2 * π / ((2048 - 1 : ℕ) : ℝ) := by
  obtain ⟨φ, p, q, a, b, c, -, d⟩ := C67_azimuthal_partial 0 (1 / 10) 2 2048 (by norm_num) (by norm_num) le_rfl
    (by norm_num) (by norm_num) 0 0 0 1 (by norm_num) (by norm_num) (by norm_num) (by
      rintro ⟨h, -⟩
      norm_num at h
      have := cos_pos_of_mem_Ioo (x := (1 / 20 : ℝ)) ⟨by linarith [Real.two_le_pi], by linarith [Real.two_le_pi]⟩
      norm_num at this
      linarith)
  exact ⟨φ, p, q, a, b, c, d⟩

/-- A particle on the negative first axis is taken to have the azimuth 0 and thrown to the other side of the axis
of rotation. -/
theorem C67_axis_fails (small amp : ℝ) (m : ℕ) (hm : 0 < m) (hs : 0 ≤ small) (ha0 : 0 < amp) (ha1 : amp < 1)
    (R : ℝ) (hR : small < R) : 0 < (azimuthal small amp m 2048 0 0 (-R) 0).1 := by
  have hm' : (0 : ℝ) < m := by exact_mod_cast hm
  have hm1 : (1 : ℝ) ≤ m := by exact_mod_cast hm
  have pi0 := Real.pi_pos
  have hpi := Real.two_le_pi
  have hR0 : 0 < R := lt_of_le_of_lt hs hR
  have hsq : sqrt ((-R - 0) * (-R - 0) + (0 - 0) * (0 - 0)) = R := by
    rw [show (-R - 0) * (-R - 0) + (0 - 0) * (0 - 0) = R ^ 2 by ring, Real.sqrt_sq hR0.le]
  have hA : azimuth small (-R - 0) (0 - 0) = 0 := by
    unfold azimuth
    rw [hsq]
    simp
  have ham : amp / m < 1 := by rw [div_lt_one hm']; linarith
  have ham0 : 0 < amp / m := by positivity
  have eam : amp * (1 / (m : ℝ)) = amp / m := by ring
  have hφ : wrapAngle amp m 0 = 2 * π := by
    unfold wrapAngle; rw [eam, if_pos ham0]; ring
  have hsp : spacing 2048 = 2 * π / 2047 := by unfold spacing; norm_num
  have hsp0 : 0 < spacing 2048 := by rw [hsp]; positivity
  obtain ⟨i, i1, i2, i3, i4, i5⟩ := search_found amp m 2048 (2 * π) (2048 - 1) 1 le_rfl
    (by rw [Nat.sub_self, entry_first]; linarith)
    (by rw [show 1 + (2048 - 1) - 1 = 2048 - 1 by omega, entry_last amp m 2048 (by norm_num)]; linarith)
  set p := spacing 2048 * ((i - 1 : ℕ) : ℝ) +
    spacing 2048 * (2 * π - entry amp m 2048 (i - 1)) / (entry amp m 2048 i - entry amp m 2048 (i - 1)) with hp
  have hden : 0 < entry amp m 2048 i - entry amp m 2048 (i - 1) := by linarith
  have hfrac0 : 0 ≤ spacing 2048 * (2 * π - entry amp m 2048 (i - 1)) /
      (entry amp m 2048 i - entry amp m 2048 (i - 1)) :=
    div_nonneg (mul_nonneg hsp0.le (by linarith)) hden.le
  have hfrac1 : spacing 2048 * (2 * π - entry amp m 2048 (i - 1)) /
      (entry amp m 2048 i - entry amp m 2048 (i - 1)) ≤ spacing 2048 := by
    rw [div_le_iff₀ hden]
    exact mul_le_mul_of_nonneg_left (by linarith) hsp0.le
  have hcast : ((i - 1 : ℕ) : ℝ) = (i : ℝ) - 1 := by rw [Nat.cast_sub i1]; simp
  -- the entries are within `amp/m` of the angles
  have near : ∀ j : ℕ, |entry amp m 2048 j - spacing 2048 * j| ≤ amp / m := by
    intro j
    have e : entry amp m 2048 j - spacing 2048 * j = amp / m * cos (m * (spacing 2048 * j)) := by
      unfold entry; ring
    rw [e, abs_mul, abs_of_pos ham0]
    have := abs_cos_le_one (m * (spacing 2048 * (j : ℝ)))
    nlinarith
  have n1 := abs_le.1 (near (i - 1))
  have n2 := abs_le.1 (near i)
  have hpi2 : π ≤ 4 := Real.pi_le_four
  have hs2 : spacing 2048 ≤ 1 / 4 := by
    rw [hsp, div_le_iff₀ (by norm_num)]
    linarith
  have hlow : 2 * π - 1 - 1 / 4 ≤ p := by
    have : spacing 2048 * (i : ℝ) = spacing 2048 * ((i - 1 : ℕ) : ℝ) + spacing 2048 := by rw [hcast]; ring
    linarith
  have hup : p ≤ 2 * π + 1 + 1 / 4 := by linarith
  have hcos : 0 < cos p := by
    rw [← cos_sub_two_pi]
    apply cos_pos_of_mem_Ioo
    constructor
    · have := Real.pi_gt_three; linarith
    · have := Real.pi_gt_three; linarith
  unfold azimuthal newAngle
  rw [hA, hφ, i5]
  simp only [place]
  rw [hsq]
  have := mul_pos hR0 hcos
  linarith

/-! ### sinusoidal perturbation -/

/-- The mass between 0 and `x` of the density `1 + amp sin(k x)` is `x + amp (1 - cos(k x))/k`. -/
theorem C67_spec_sine (amp k x : ℝ) (hk : k ≠ 0) :
    HasDerivAt (fun x => x + amp * (1 - cos (k * x)) / k) (1 + amp * sin (k * x)) x := by
  have h1 : HasDerivAt (fun x : ℝ => k * x) k x := by simpa using (hasDerivAt_id x).const_mul k
  have h2 := (hasDerivAt_id x).add ((((h1.cos).const_sub 1).const_mul amp).div_const k)
  refine h2.congr_deriv ?_
  field_simp

/-- **Sinusoidal perturbation.** For amplitudes below one the iteration ends for every particle; the particle of
mass coordinate `r` comes to an `x` whose mass `x + amp (1 - cos(k x))/k` is `r` within `1e-12` wavelengths; the
result is in the box if the displacement `2 |amp|/k` is at most its size, and differs from `x` by 0 or one
period. -/
theorem C67_sine (amp lambda lo hi r : ℝ) (hl : 0 < lambda) (ha : |amp| < 1)
    (hr : lo ≤ r ∧ r ≤ hi) (hsize : 2 * |amp| / (2 * π / lambda) ≤ hi - lo) :
    (∃ fuel x, sinusoidal fuel amp lambda lo hi r = some x) ∧
    ∀ fuel x', sinusoidal fuel amp lambda lo hi r = some x' →
      ∃ x, |x + amp * (1 - cos (2 * π / lambda * x)) / (2 * π / lambda) - r| ≤ |amp| * (lambda * (1 / 1000000000000)) ∧
        (x' = x ∨ x' = x + (hi - lo) ∨ x' = x - (hi - lo)) ∧ lo ≤ x' ∧ x' ≤ hi := by
  have hk : 0 < 2 * π / lambda := div_pos (by linarith [Real.pi_pos]) hl
  constructor
  · have : ∃ n : ℕ, |amp| ^ n * |sineStep amp (2 * π / lambda) r r - r| ≤ lambda * (1 / 1000000000000) := by
      have hpos : 0 < lambda * (1 / 1000000000000) / (|sineStep amp (2 * π / lambda) r r - r| + 1) := by positivity
      obtain ⟨n, hn⟩ := exists_pow_lt_of_lt_one hpos ha
      refine ⟨n, ?_⟩
      rw [lt_div_iff₀ (by positivity)] at hn
      have : 0 ≤ |amp| ^ n := by positivity
      nlinarith [abs_nonneg (sineStep amp (2 * π / lambda) r r - r)]
    obtain ⟨n, hn⟩ := this
    obtain ⟨fuel, y, hy⟩ := sineSolve_ends amp lambda r hl ha n r hn
    exact ⟨fuel, intoBox lo hi y, by unfold sinusoidal; rw [hy]; rfl⟩
  · intro fuel x' h
    unfold sinusoidal at h
    rw [Option.map_eq_some_iff] at h
    obtain ⟨x, hx, rfl⟩ := h
    obtain ⟨z, hz, hxz⟩ := sineSolve_sound amp lambda r hl fuel r x hx
    have hlip := sineStep_lip amp hk r z x
    rw [← hz] at hlip
    -- the displacement
    have hd : |x - r| ≤ 2 * |amp| / (2 * π / lambda) := by
      rw [hz]; unfold sineStep
      rw [show r - amp * (1 - cos (2 * π / lambda * z)) / (2 * π / lambda) - r =
        -(amp * (1 - cos (2 * π / lambda * z)) / (2 * π / lambda)) by ring, abs_neg, abs_div, abs_of_pos hk]
      apply div_le_div_of_nonneg_right _ hk.le
      rw [abs_mul]
      have h1 := neg_one_le_cos (2 * π / lambda * z)
      have h2 := cos_le_one (2 * π / lambda * z)
      rw [abs_of_nonneg (by linarith : 0 ≤ 1 - cos (2 * π / lambda * z))]
      nlinarith [abs_nonneg amp]
    have hd' := abs_le.1 (hd.trans hsize)
    refine ⟨x, ?_, ?_, ?_⟩
    · have e : x + amp * (1 - cos (2 * π / lambda * x)) / (2 * π / lambda) - r =
          x - sineStep amp (2 * π / lambda) r x := by unfold sineStep; ring
      rw [e]
      refine hlip.trans ?_
      rw [abs_sub_comm z x]
      exact mul_le_mul_of_nonneg_left hxz (abs_nonneg _)
    · unfold intoBox
      by_cases h1 : x > hi
      · simp only [if_pos h1]
        by_cases h2 : x - (hi - lo) < lo
        · rw [if_pos h2]; left; ring
        · rw [if_neg h2]; right; right; rfl
      · simp only [if_neg h1]
        by_cases h2 : x < lo
        · rw [if_pos h2]; right; left; rfl
        · rw [if_neg h2]; left; rfl
    · unfold intoBox
      by_cases h1 : x > hi
      · simp only [if_pos h1]
        rw [if_neg (by linarith)]
        constructor <;> linarith
      · simp only [if_neg h1]
        by_cases h2 : x < lo
        · rw [if_pos h2]; constructor <;> linarith
        · rw [if_neg h2]; constructor <;> linarith

/-- amplitude 1/10 on a wave of the length of the box -/
example : ∃ fuel x, sinusoidal fuel (1 / 10) 1 0 1 (1 / 3) = some x := by
  refine (C67_sine (1 / 10) 1 0 1 (1 / 3) one_pos ?_ ⟨by norm_num, by norm_num⟩ ?_).1
  · rw [abs_of_pos (by norm_num)]; norm_num
  · rw [abs_of_pos (by norm_num), div_one, div_le_iff₀ (by linarith [Real.pi_pos])]
    linarith [Real.two_le_pi]

/-! ### rotation -/

/-- **Rotation**: the velocity is that of rigid rotation about the third axis through the centre, at every point,
also on the axis. -/
theorem C67_rotation (small angvel : ℝ) (h0 : 0 < small) (h1 : small < 1) (c x : Vec 3 ℝ) :
    rotational small angvel c x = ![-angvel * (x 1 - c 1), angvel * (x 0 - c 0), 0] := by
  unfold rotational
  set dx := x 0 - c 0
  set dy := x 1 - c 1
  have hn : small ≤ dx * dx + dy * dy + small := by nlinarith [sq_nonneg dx, sq_nonneg dy]
  have hR : small < sqrt (dx * dx + dy * dy + small) := by
    apply Real.lt_sqrt_of_sq_lt
    nlinarith
  have hR0 : sqrt (dx * dx + dy * dy + small) ≠ 0 := by linarith
  simp only [gt_iff_lt, if_pos hR]
  congr 1
  · field_simp
  · congr 1
    field_simp

example : rotational (1 / 100000000000000000000) 2 (fun _ => 0) ![3, 4, 5] = ![-2 * (4 - 0), 2 * (3 - 0), 0] :=
  C67_rotation _ 2 (by norm_num) (by norm_num) (fun _ => 0) ![3, 4, 5]

/-! ### interpolation -/

/-- a function that is affine in each of its coordinates -/
def MultiAffine (F : ℝ → ℝ → ℝ → ℝ) : Prop :=
  ∀ t u v : ℝ, (∀ y z, F ((1 - t) * u + t * v) y z = (1 - t) * F u y z + t * F v y z) ∧
    (∀ x z, F x ((1 - t) * u + t * v) z = (1 - t) * F x u z + t * F x v z) ∧
    ∀ x y, F x y ((1 - t) * u + t * v) = (1 - t) * F x y u + t * F x y v

/-- **Interpolation**, for particles inside of the grid (from its first node to below its last node in each
direction): all elements read are inside of the array; each component lies between the smallest and the largest
value at the nodes; and the interpolation is exact if the field at the nodes is that of a function affine in each
coordinate. (For particles in the last cell and beyond: `C67_grid_fails`, `C67_row_fails`.) -/
theorem C67_interpolate_partial (N : ℕ) (xmin dxgrid : ℝ) (hd : 0 < dxgrid) (vfield : ℤ → ℝ) (r : Vec 3 ℝ)
    (hr : ∀ k, xmin ≤ r k ∧ r k < xmin + ((N : ℝ) - 1) * dxgrid) :
    ∃ v, interpolate N xmin dxgrid vfield r = .velocity v ∧
      (∀ d lo hi, (∀ i j k : ℤ, 0 ≤ i ∧ i < N → 0 ≤ j ∧ j < N → 0 ≤ k ∧ k < N →
          lo ≤ vfield (((d : Fin 3) : ℕ) + 3 * (i + N * (j + N * k))) ∧
            vfield ((d : ℕ) + 3 * (i + N * (j + N * k))) ≤ hi) →
        lo ≤ v d ∧ v d ≤ hi) ∧
      ∀ (d : Fin 3) (F : ℝ → ℝ → ℝ → ℝ), MultiAffine F →
        (∀ i j k : ℤ, vfield ((d : ℕ) + 3 * (i + N * (j + N * k))) =
          F (xmin + i * dxgrid) (xmin + j * dxgrid) (xmin + k * dxgrid)) →
        v d = F (r 0) (r 1) (r 2) := by
  have nd : ∀ d i j k : ℤ, node N d i j k = d + 3 * (i + N * (j + N * k)) := by
    intro d i j k; unfold node; ring
  set dx : Vec 3 ℝ := fun k => (r k - xmin) / dxgrid with hdx
  have h0 : ∀ k, 0 ≤ dx k := fun k => div_nonneg (by linarith [(hr k).1]) hd.le
  have h1 : ∀ k, dx k < (N : ℝ) - 1 := by
    intro k
    rw [hdx]
    simp only
    rw [div_lt_iff₀ hd]
    linarith [(hr k).2]
  have hi : ∀ k, toInt (dx k) = ⌊dx k⌋ := fun k => toInt_of_nonneg (h0 k)
  have hi0 : ∀ k, 0 ≤ toInt (dx k) := fun k => by rw [hi]; exact Int.floor_nonneg.2 (h0 k)
  have hi1 : ∀ k, toInt (dx k) + 1 < N := by
    intro k
    rw [hi]
    have : (⌊dx k⌋ : ℝ) < N - 1 := (Int.floor_le _).trans_lt (h1 k)
    have : ((⌊dx k⌋ + 1 : ℤ) : ℝ) < ((N : ℤ) : ℝ) := by push_cast; linarith
    exact_mod_cast this
  set f : Vec 3 ℝ := fun k => dx k - toInt (dx k) with hf
  have hf01 : ∀ k, 0 ≤ f k ∧ f k ≤ 1 := by
    intro k
    rw [hf]; simp only
    rw [hi]
    exact ⟨by linarith [Int.floor_le (dx k)], by linarith [Int.lt_floor_add_one (dx k)]⟩
  have hgrid : inGrid N (fun k => toInt (dx k)) := by
    unfold inGrid
    push Not
    refine ⟨?_, ?_, ?_, hi0 0, hi0 1, hi0 2⟩
    · have := hi1 0; omega
    · have := hi1 1; omega
    · have := hi1 2; omega
  have hnodes : ∀ (d : Fin 3) (q : Fin 8),
      0 ≤ nodes N d (toInt (dx 0)) (toInt (dx 1)) (toInt (dx 2)) q ∧
        nodes N d (toInt (dx 0)) (toInt (dx 1)) (toInt (dx 2)) q < 3 * (N : ℤ) ^ 3 := by
    intro d q
    refine nodes_inside ⟨?_, ?_⟩ ⟨hi0 0, hi1 0⟩ ⟨hi0 1, hi1 1⟩ ⟨hi0 2, hi1 2⟩ q
    · exact Int.natCast_nonneg _
    · exact_mod_cast d.isLt
  refine ⟨fun d => ∑ q, vint f q * vfield (nodes N d (toInt (dx 0)) (toInt (dx 1)) (toInt (dx 2)) q), ?_, ?_, ?_⟩
  · unfold interpolate
    simp only
    rw [if_pos hgrid, if_pos hnodes]
  · intro d lo hi' hv
    have a0 := hi0 0
    have a1 := hi0 1
    have a2 := hi0 2
    have b0 := hi1 0
    have b1 := hi1 1
    have b2 := hi1 2
    have hval : ∀ q, lo ≤ vfield (nodes N d (toInt (dx 0)) (toInt (dx 1)) (toInt (dx 2)) q) ∧
        vfield (nodes N d (toInt (dx 0)) (toInt (dx 1)) (toInt (dx 2)) q) ≤ hi' := by
      intro q
      fin_cases q <;> simp only [nodes] <;> simp [nd] <;> apply hv <;> omega
    have hs := vint_sum f
    constructor
    · calc lo = ∑ q, vint f q * lo := by rw [← Finset.sum_mul, hs, one_mul]
        _ ≤ _ := Finset.sum_le_sum fun q _ => mul_le_mul_of_nonneg_left (hval q).1 (vint_nonneg f hf01 q)
    · calc _ ≤ ∑ q, vint f q * hi' :=
            Finset.sum_le_sum fun q _ => mul_le_mul_of_nonneg_left (hval q).2 (vint_nonneg f hf01 q)
        _ = hi' := by rw [← Finset.sum_mul, hs, one_mul]
  · intro d F hF hv
    have pos : ∀ k, r k = (1 - f k) * (xmin + (toInt (dx k) : ℝ) * dxgrid) +
        f k * (xmin + ((toInt (dx k) + 1 : ℤ) : ℝ) * dxgrid) := by
      intro k
      have e : r k = xmin + dx k * dxgrid := by
        rw [hdx]; simp only; rw [div_mul_cancel₀ _ hd.ne']; ring
      have e2 : f k = dx k - toInt (dx k) := rfl
      rw [e, e2]; push_cast; ring
    rw [pos 0, pos 1, pos 2, (hF _ _ _).1, (hF _ _ _).2.1, (hF _ _ _).2.1, (hF _ _ _).2.2,
      (hF _ _ _).2.2, (hF _ _ _).2.2, (hF _ _ _).2.2]
    simp only [nodes, Fin.sum_univ_eight, vint]
    simp only [Matrix.cons_val, nd, hv]
    ring

example : ∃ r : Vec 3 ℝ, ∀ k, (-1 : ℝ) ≤ r k ∧ r k < -1 + (((4 : ℕ) : ℝ) - 1) * 1 :=
  ⟨![0, 1, -1], by intro k; fin_cases k <;> norm_num⟩

/-- The test of the grid is off by two: a particle in the last cell of the third direction, or even one beyond,
passes it, and elements outside of the array are read. -/
theorem C67_grid_fails (N : ℕ) (hN : 2 ≤ N) (vfield : ℤ → ℝ) (z : ℝ) (h1 : (N : ℝ) - 1 ≤ z) (h2 : z < N + 1) :
    interpolate N 0 1 vfield ![0, 0, z] = .outside := by
  have hz0 : 0 ≤ z := by
    have : (2 : ℝ) ≤ N := by exact_mod_cast hN
    linarith
  have f0 : (N : ℤ) - 1 ≤ ⌊z⌋ := by
    rw [Int.le_floor]; push_cast; exact h1
  have f1 : ⌊z⌋ ≤ N := by
    have : ⌊z⌋ < (N : ℤ) + 1 := by rw [Int.floor_lt]; push_cast; exact h2
    omega
  have t0 : toInt 0 = 0 := by unfold toInt; simp
  have tz : toInt z = ⌊z⌋ := toInt_of_nonneg hz0
  unfold interpolate
  simp only [sub_zero, div_one]
  rw [if_pos, if_neg]
  · intro h
    have := (h 0 1).2
    simp [nodes, node, t0, tz] at this
    have hN' : (0 : ℤ) < (N : ℤ) ^ 2 := by positivity
    have h3 : 3 * (N : ℤ) * N * N ≤ 3 * N * N * (⌊z⌋ + 1) :=
      mul_le_mul_of_nonneg_left (by omega) (by positivity)
    nlinarith
  · unfold inGrid
    simp [t0, tz]
    omega

/-- In the last cell of the first direction the second node read is the first of the next row: with a field that
vanishes on the row of the particle and beside it, the particle is given the velocity of the other side of the
grid. -/
theorem C67_row_fails : ∃ (vfield : ℤ → ℝ) (v : Vec 3 ℝ),
    (∀ j k : ℤ, 0 ≤ j → j < 3 → 0 ≤ k → k < 3 → vfield (node 3 0 2 j k) = 0) ∧
    interpolate 3 0 1 vfield ![5 / 2, 0, 0] = .velocity v ∧ v 0 = 1 / 2 := by
  have t0 : toInt 0 = 0 := by unfold toInt; simp
  have t5 : toInt (5 / 2) = 2 := by
    rw [toInt_of_nonneg (by norm_num), Int.floor_eq_iff]; norm_num
  refine ⟨fun i => if i = 9 then 1 else 0, ?_⟩
  have hin : interpolate 3 0 1 (fun i => if i = 9 then (1 : ℝ) else 0) ![5 / 2, 0, 0] =
      .velocity fun d => ∑ q, vint ![1 / 2, 0, 0] q *
        (fun i => if i = 9 then (1 : ℝ) else 0) (nodes 3 d 2 0 0 q) := by
    have hgrid : inGrid ((3 : ℕ) : ℤ) (fun k : Fin 3 => toInt (((![5 / 2, 0, 0] : Vec 3 ℝ) k - 0) / 1)) := by
      unfold inGrid
      simp [t0, t5]
    unfold interpolate
    rw [if_pos hgrid]
    simp only [sub_zero, div_one]
    have d0 : (fun k : Fin 3 => (![5 / 2, 0, 0] : Vec 3 ℝ) k - (toInt ((![5 / 2, 0, 0] : Vec 3 ℝ) k) : ℝ)) =
        ![1 / 2, 0, 0] := by
      funext k; fin_cases k
      · simp [t5]; norm_num
      · simp [t0]
      · simp [t0]
    rw [d0]
    have e0 : toInt ((![5 / 2, 0, 0] : Vec 3 ℝ) 0) = 2 := t5
    have e1 : toInt ((![5 / 2, 0, 0] : Vec 3 ℝ) 1) = 0 := t0
    have e2 : toInt ((![5 / 2, 0, 0] : Vec 3 ℝ) 2) = 0 := t0
    rw [e0, e1, e2]
    rw [if_pos]
    · rfl
    · intro d q
      fin_cases d <;> fin_cases q <;> simp [nodes, node]
  refine ⟨_, ?_, hin, ?_⟩
  · intro j k a b c d
    have : node 3 0 2 j k ≠ 9 := by unfold node; omega
    simp [this]
  · simp [Fin.sum_univ_eight, vint, nodes, node]

/-! ### mass in a box -/

/-- **Mass in a box**: the sum over the grid is the exact mass for every density affine in the position, if each
direction has a grid point at all. -/
theorem C67_mass_partial (lo hi : Vec 3 ℝ) (grid : Fin 3 → ℕ) (hg : ∀ k, 0 < grid k) (a b0 b1 b2 : ℝ) :
    massInBox lo hi grid (fun x => a + b0 * x 0 + b1 * x 1 + b2 * x 2) =
      (hi 0 - lo 0) * (hi 1 - lo 1) * (hi 2 - lo 2) *
        (a + b0 * ((lo 0 + hi 0) / 2) + b1 * ((lo 1 + hi 1) / 2) + b2 * ((lo 2 + hi 2) / 2)) := by
  have g0 : (grid 0 : ℝ) ≠ 0 := by exact_mod_cast (hg 0).ne'
  have g1 : (grid 1 : ℝ) ≠ 0 := by exact_mod_cast (hg 1).ne'
  have g2 : (grid 2 : ℝ) ≠ 0 := by exact_mod_cast (hg 2).ne'
  unfold massInBox
  simp only [Matrix.cons_val_zero, Matrix.cons_val_one, Matrix.cons_val]
  set d0 := (hi 0 - lo 0) / (grid 0 : ℝ) with hd0
  set d1 := (hi 1 - lo 1) / (grid 1 : ℝ) with hd1
  set d2 := (hi 2 - lo 2) / (grid 2 : ℝ) with hd2
  have e0 : hi 0 = lo 0 + grid 0 * d0 := by rw [hd0, mul_div_cancel₀ _ g0]; ring
  have e1 : hi 1 = lo 1 + grid 1 * d1 := by rw [hd1, mul_div_cancel₀ _ g1]; ring
  have e2 : hi 2 = lo 2 + grid 2 * d2 := by rw [hd2, mul_div_cancel₀ _ g2]; ring
  have s2 : ∀ (i j : ℕ) (s : ℝ), Lattice.loop (grid 2) (fun k mtot =>
      mtot + (a + b0 * (lo 0 + ((i : ℝ) + 1 / 2) * d0) + b1 * (lo 1 + ((j : ℝ) + 1 / 2) * d1) +
        b2 * (lo 2 + ((k : ℝ) + 1 / 2) * d2))) s =
      s + ((grid 2) * ((a + b0 * (lo 0 + ((i : ℝ) + 1 / 2) * d0) + b1 * (lo 1 + ((j : ℝ) + 1 / 2) * d1)) +
        b2 * lo 2) + b2 * d2 * (grid 2 : ℝ) ^ 2 / 2) := by
    intro i j s
    rw [loop_add (grid 2) (fun k => (a + b0 * (lo 0 + ((i : ℝ) + 1 / 2) * d0) +
      b1 * (lo 1 + ((j : ℝ) + 1 / 2) * d1) + b2 * lo 2) + b2 * d2 * ((k : ℝ) + 1 / 2)) _
      (fun k s => by ring), sum_mid]
  have s1 : ∀ (i : ℕ) (s : ℝ), Lattice.loop (grid 1) (fun j => Lattice.loop (grid 2) (fun k mtot =>
      mtot + (a + b0 * (lo 0 + ((i : ℝ) + 1 / 2) * d0) + b1 * (lo 1 + ((j : ℝ) + 1 / 2) * d1) +
        b2 * (lo 2 + ((k : ℝ) + 1 / 2) * d2)))) s =
      s + ((grid 1) * ((grid 2) * (a + b0 * (lo 0 + ((i : ℝ) + 1 / 2) * d0) + b1 * lo 1 + b2 * lo 2) +
        b2 * d2 * (grid 2 : ℝ) ^ 2 / 2) + (grid 2) * b1 * d1 * (grid 1 : ℝ) ^ 2 / 2) := by
    intro i s
    rw [loop_add (grid 1) (fun j => ((grid 2) * (a + b0 * (lo 0 + ((i : ℝ) + 1 / 2) * d0) + b1 * lo 1 + b2 * lo 2) +
      b2 * d2 * (grid 2 : ℝ) ^ 2 / 2) + (grid 2) * b1 * d1 * ((j : ℝ) + 1 / 2)) _
      (fun j s => by rw [s2]; ring), sum_mid]
  rw [loop_add (grid 0) (fun i => ((grid 1) * ((grid 2) * (a + b0 * lo 0 + b1 * lo 1 + b2 * lo 2) +
      b2 * d2 * (grid 2 : ℝ) ^ 2 / 2) + (grid 2) * b1 * d1 * (grid 1 : ℝ) ^ 2 / 2) +
      (grid 1) * (grid 2) * b0 * d0 * ((i : ℝ) + 1 / 2)) _ (fun i s => by rw [s1]; ring), sum_mid]
  rw [e0, e1, e2]
  ring

example : ∀ k, 0 < (![512, 256, 128] : Fin 3 → ℕ) k := by intro k; fin_cases k <;> norm_num

/-- A box more than 512 times longer than wide gets no grid points across: no density enters the sum. -/
theorem C67_mass_fails (lo hi : Vec 3 ℝ) (h0 : 0 < hi 0 - lo 0) (h1 : 0 < hi 1 - lo 1)
    (hlong : 512 * (hi 1 - lo 1) < hi 0 - lo 0) (rho rho' : Vec 3 ℝ → ℝ) :
    gridOf lo hi 1 = 0 ∧ massInBox lo hi (gridOf lo hi) rho = massInBox lo hi (gridOf lo hi) rho' := by
  have hmax : hi 0 - lo 0 ≤ lengthmax lo hi := by
    unfold lengthmax
    exact (le_max_right 0 _).trans ((le_max_left _ _).trans (le_max_left _ _))
  have hg : gridOf lo hi 1 = 0 := by
    unfold gridOf
    rw [Nat.floor_eq_zero, div_lt_one (by linarith)]
    linarith
  refine ⟨hg, ?_⟩
  unfold massInBox
  simp only [hg]
  rfl

example : ∃ lo hi : Vec 3 ℝ, 0 < hi 0 - lo 0 ∧ 0 < hi 1 - lo 1 ∧ 512 * (hi 1 - lo 1) < hi 0 - lo 0 :=
  ⟨fun _ => 0, ![1000, 1, 1], by norm_num, by norm_num, by norm_num⟩

end Gandalf
