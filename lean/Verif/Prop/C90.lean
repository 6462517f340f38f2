import Verif.Proof.FluidIcs

/-! # C90: initial conditions of uniform, layered and rotating fluids -/

set_option autoImplicit false
set_option linter.unusedSectionVars false

namespace Gandalf

open Real FluidIc FluidSpec

variable {n : ℕ}

theorem FluidIc.volume_eq (lo hi : Vec n ℝ) : FluidIc.volume lo hi = boxVolume lo hi := rfl

/-! ### uniform box and sphere -/

/-- **C90, uniform gas.** The box holds gas of density 1 and the sphere the mass and pressure asked for, wherever the
particles are placed; the smoothing lengths fit. -/
theorem C90_uniform [NeZero n] (hfac gamma mcloud radius press : ℝ) (lo hi : Vec n ℝ) (hv : 0 < boxVolume lo hi)
    (l : List (Vec n ℝ)) (hl : l ≠ []) (hm : 0 < mcloud) (hr : 0 < radius) (hg : gamma ≠ 1) :
    (mass (uniformBox hfac lo hi l) = 1 * boxVolume lo hi ∧
      ∀ p ∈ uniformBox hfac lo hi l, p.h ^ n * 1 = hfac ^ n * p.m ∧ p.r ∈ l) ∧
    mass (uniformSphere hfac mcloud radius (sphereU n gamma press mcloud radius) l) = mcloud ∧
    ∀ p ∈ uniformSphere hfac mcloud radius (sphereU n gamma press mcloud radius) l,
      Fluid hfac gamma (mcloud / sphereVolume n radius) press p ∧ p.r ∈ l := by
  have hN : (0 : ℝ) < l.length := by exact_mod_cast List.length_pos_of_ne_nil hl
  have hn : n ≠ 0 := NeZero.ne n
  have hV : 0 < sphereVolume n radius := by
    unfold sphereVolume
    split_ifs <;> positivity
  have hg' := sub_ne_zero.mpr hg
  refine ⟨⟨?_, fun p hp => ?_⟩, ?_, fun p hp => ?_⟩
  · rw [one_mul]
    exact mass_share l hl _ _ fun x _ => rfl
  · obtain ⟨x, hx, rfl⟩ := List.mem_map.mp hp
    refine ⟨?_, hx⟩
    have := hOf_pow (hfac := hfac) hn hN.ne' (div_nonneg hv.le hN.le : 0 ≤ FluidIc.volume lo hi / (l.length : ℝ))
    show hOf n hfac (FluidIc.volume lo hi) l.length ^ n * 1 = hfac ^ n * (FluidIc.volume lo hi / l.length)
    field_simp
    linarith
  · exact mass_share l hl _ _ fun x _ => rfl
  · obtain ⟨x, hx, rfl⟩ := List.mem_map.mp hp
    have hrho : 0 < mcloud / sphereVolume n radius := div_pos hm hV
    refine ⟨⟨?_, hOf_pow hn hrho.ne' (div_nonneg (div_nonneg hm.le hN.le) hrho.le)⟩, hx⟩
    show (gamma - 1) * (mcloud / sphereVolume n radius) * (press / (mcloud / sphereVolume n radius) / (gamma - 1)) = press
    field_simp

example : (0 : ℝ) < boxVolume (fun _ : Fin 3 => (0 : ℝ)) (fun _ => 2) ∧ [fun _ : Fin 3 => (1 : ℝ)] ≠ [] := by
  constructor
  · unfold boxVolume; norm_num
  · simp

/-! ### gas of the binary accretion test -/

theorem FluidIc.shift_zero [NeZero n] (lo hi x : Vec n ℝ) : shift lo hi x 0 =
    if x 0 + 1 / 4 * (hi 0 - lo 0) > hi 0 then x 0 + 1 / 4 * (hi 0 - lo 0) - (hi 0 - lo 0)
    else x 0 + 1 / 4 * (hi 0 - lo 0) := by
  unfold shift; rw [Function.update_self]

/-- **C90, binary accretion: places.** After the shift by a quarter of the box all gas lies in the box; with two fluids the
first fills the middle half of the box and the second the rest. -/
theorem C90_binary_places [NeZero n] (lo hi : Vec n ℝ) (hb : ∀ k, lo k ≤ hi k) (x : Vec n ℝ) (hx : Inside lo hi x) :
    Inside lo hi (shift lo hi x) ∧
    (x 0 ≤ box1hi true lo hi 0 → lo 0 + 1 / 4 * (hi 0 - lo 0) ≤ shift lo hi x 0 ∧
      shift lo hi x 0 ≤ hi 0 - 1 / 4 * (hi 0 - lo 0)) ∧
    (box2lo lo hi 0 ≤ x 0 → shift lo hi x 0 ≤ lo 0 + 1 / 4 * (hi 0 - lo 0) ∨
      hi 0 - 1 / 4 * (hi 0 - lo 0) ≤ shift lo hi x 0) := by
  have h0 := hx 0
  have hb0 := hb 0
  refine ⟨fun k => ?_, ?_, ?_⟩
  · by_cases hk : k = 0
    · subst hk
      rw [FluidIc.shift_zero]
      split_ifs <;> constructor <;> linarith
    · unfold shift
      rw [Function.update_of_ne hk]
      exact hx k
  · intro h
    simp only [box1hi, if_true, Function.update_self] at h
    rw [FluidIc.shift_zero]
    split_ifs <;> constructor <;> linarith
  · intro h
    simp only [box2lo, Function.update_self] at h
    rw [FluidIc.shift_zero]
    split_ifs
    · left; linarith
    · right; linarith

example : ∃ x : Vec 2 ℝ, Inside (fun _ => 0) (fun _ => 1) x ∧ shift (fun _ => 0) (fun _ => 1) x 0 = 1 / 8 := by
  refine ⟨fun _ => 7 / 8, fun k => by norm_num, ?_⟩
  rw [FluidIc.shift_zero]
  norm_num

theorem FluidIc.half_volume [NeZero n] (lo hi : Vec n ℝ) :
    boxVolume lo (box1hi true lo hi) = 1 / 2 * boxVolume lo hi ∧ boxVolume (box2lo lo hi) hi = 1 / 2 * boxVolume lo hi := by
  unfold boxVolume
  rw [← Finset.mul_prod_erase Finset.univ (fun k => box1hi true lo hi k - lo k) (Finset.mem_univ 0),
    ← Finset.mul_prod_erase Finset.univ (fun k => hi k - box2lo lo hi k) (Finset.mem_univ 0),
    ← Finset.mul_prod_erase Finset.univ (fun k => hi k - lo k) (Finset.mem_univ 0)]
  have e1 : ∏ k ∈ Finset.univ.erase 0, (box1hi true lo hi k - lo k) = ∏ k ∈ Finset.univ.erase 0, (hi k - lo k) :=
    Finset.prod_congr rfl fun k hk => by
      simp only [box1hi, if_true, Function.update_of_ne (Finset.ne_of_mem_erase hk)]
  have e2 : ∏ k ∈ Finset.univ.erase 0, (hi k - box2lo lo hi k) = ∏ k ∈ Finset.univ.erase 0, (hi k - lo k) :=
    Finset.prod_congr rfl fun k hk => by
      simp only [box2lo, Function.update_of_ne (Finset.ne_of_mem_erase hk)]
  rw [e1, e2]
  constructor
  · simp only [box1hi, if_true, Function.update_self]; ring
  · simp only [box2lo, Function.update_self]; ring

/-- **C90, binary accretion, partial.** The first fluid has its density and the common pressure; so has the second if it
has as many particles as the first, up to its smoothing lengths. Missing: any other number of particles in the second
fluid and its smoothing lengths (`C90_binary_fails`), stars and sinks. -/
theorem C90_binary_partial [NeZero n] (hfac gamma press rho1 rho2 : ℝ) (lo hi : Vec n ℝ) (hv : 0 < boxVolume lo hi)
    (h1 : 0 < rho1) (h2 : 0 < rho2) (hg : gamma ≠ 1) (l1 l2 : List (Vec n ℝ)) (hl : l1 ≠ []) :
    (mass (binaryGas1 hfac gamma press rho1 lo hi l1 l2) =
      rho1 * (if l2 = [] then boxVolume lo hi else 1 / 2 * boxVolume lo hi)) ∧
    (∀ p ∈ binaryGas1 hfac gamma press rho1 lo hi l1 l2, Fluid hfac gamma rho1 press p) ∧
    (l2.length = l1.length → mass (binaryGas2 hfac gamma press rho2 lo hi l1 l2) = rho2 * (1 / 2 * boxVolume lo hi)) ∧
    ∀ p ∈ binaryGas2 hfac gamma press rho2 lo hi l1 l2, (gamma - 1) * rho2 * p.u = press := by
  have hg' := sub_ne_zero.mpr hg
  have hN : (0 : ℝ) < l1.length := by exact_mod_cast List.length_pos_of_ne_nil hl
  have ev : FluidIc.volume lo (box1hi (!l2.isEmpty) lo hi) =
      if l2 = [] then boxVolume lo hi else 1 / 2 * boxVolume lo hi := by
    cases l2 with
    | nil => simp [box1hi, FluidIc.volume_eq]
    | cons y l2 =>
      simp only [List.isEmpty_cons, Bool.not_false, reduceCtorEq, if_false]
      exact (FluidIc.half_volume lo hi).1
  have hvol : 0 < FluidIc.volume lo (box1hi (!l2.isEmpty) lo hi) := by
    rw [ev]; split_ifs <;> linarith
  refine ⟨?_, fun p hp => ?_, fun hlen => ?_, fun p hp => ?_⟩
  · rw [← ev]
    exact mass_share l1 hl _ _ fun x _ => rfl
  · obtain ⟨x, -, rfl⟩ := List.mem_map.mp hp
    refine ⟨?_, hOf_pow (NeZero.ne n) h1.ne' (by positivity)⟩
    show (gamma - 1) * rho1 * (press / rho1 / (gamma - 1)) = press
    field_simp
  · have hl2 : l2 ≠ [] := by
      rintro rfl
      rw [← hlen] at hN
      norm_num at hN
    rw [← (FluidIc.half_volume lo hi).2]
    exact mass_share l2 hl2 _ _ fun x _ => by rw [hlen]; rfl
  · obtain ⟨x, -, rfl⟩ := List.mem_map.mp hp
    show (gamma - 1) * rho2 * (press / rho2 / (gamma - 1)) = press
    field_simp

/-- **C90, binary accretion: defect.** The mass of a particle of the second fluid is its share among the particles of the
*first* fluid, so with `N1` and `N2` particles the second fluid has `N2/N1` times its mass; and its smoothing lengths are
computed before the masses and are 0. -/
theorem C90_binary_fails [NeZero n] (hfac gamma press rho2 : ℝ) (lo hi : Vec n ℝ) (hv : 0 < boxVolume lo hi)
    (h2 : 0 < rho2) (l1 l2 : List (Vec n ℝ)) (hl : l1 ≠ []) :
    mass (binaryGas2 hfac gamma press rho2 lo hi l1 l2) =
      l2.length / l1.length * (rho2 * (1 / 2 * boxVolume lo hi)) ∧
    (l2.length ≠ l1.length → mass (binaryGas2 hfac gamma press rho2 lo hi l1 l2) ≠ rho2 * (1 / 2 * boxVolume lo hi)) ∧
    ∀ p ∈ binaryGas2 hfac gamma press rho2 lo hi l1 l2, p.h = 0 := by
  have hN : (0 : ℝ) < l1.length := by exact_mod_cast List.length_pos_of_ne_nil hl
  have e : mass (binaryGas2 hfac gamma press rho2 lo hi l1 l2) =
      l2.length / l1.length * (rho2 * (1 / 2 * boxVolume lo hi)) := by
    unfold binaryGas2
    rw [mass_const l2 _ (rho2 * (1 / 2 * boxVolume lo hi) / l1.length) fun x _ => by
      rw [← (FluidIc.half_volume lo hi).2]; rfl]
    ring
  refine ⟨e, fun hne h => ?_, fun p hp => ?_⟩
  · rw [e] at h
    have hM : 0 < rho2 * (1 / 2 * boxVolume lo hi) := by positivity
    have : (l2.length : ℝ) / l1.length = 1 := by
      apply mul_right_cancel₀ hM.ne'
      rw [h, one_mul]
    rw [div_eq_one_iff_eq hN.ne'] at this
    exact hne (by exact_mod_cast this)
  · obtain ⟨x, -, rfl⟩ := List.mem_map.mp hp
    show hOf n hfac 0 rho2 = 0
    unfold hOf
    rw [zero_div, zero_rpow (by simp [NeZero.ne n]), mul_zero]

example : (0 : ℝ) < boxVolume (fun _ : Fin 2 => (0 : ℝ)) (fun _ => 1) ∧ [fun _ : Fin 2 => (1 / 4 : ℝ)] ≠ [] ∧
    [fun _ : Fin 2 => (1 / 2 : ℝ), fun _ => 1].length ≠ [fun _ : Fin 2 => (1 / 4 : ℝ)].length := by
  refine ⟨?_, by simp, by simp⟩
  unfold boxVolume; norm_num

/-! ### contact discontinuity -/

theorem FluidIc.site_between {a b : ℝ} (h : a ≤ b) {N i : ℕ} (hi : i < N) :
    a ≤ a + ((i : ℝ) + 1 / 2) * ((b - a) / N) ∧ a + ((i : ℝ) + 1 / 2) * ((b - a) / N) ≤ b := by
  have hN : (0 : ℝ) < N := by exact_mod_cast (by omega : 0 < N)
  have hi' : (i : ℝ) + 1 ≤ N := by exact_mod_cast hi
  have hd : 0 ≤ (b - a) / N := div_nonneg (by linarith) hN.le
  constructor
  · have := mul_nonneg (by positivity : (0 : ℝ) ≤ (i : ℝ) + 1 / 2) hd
    linarith
  · have h1 : ((i : ℝ) + 1 / 2) * ((b - a) / N) ≤ N * ((b - a) / N) := mul_le_mul_of_nonneg_right (by linarith) hd
    have h2 : (N : ℝ) * ((b - a) / N) = b - a := by field_simp
    linarith

theorem FluidIc.layer_mass {N : ℕ} (hN : 0 < N) (hfac lo hi a b rho u : ℝ) : mass (layer hfac lo hi a b rho u N) = rho * (b - a) := by
  unfold layer
  refine mass_share (List.range N) (by simp; omega) _ _ fun i _ => ?_
  rw [List.length_range]

/-- **C90, contact discontinuity, partial.** In a box from 0 to `hi` the first fluid has four fifths of the volume, the
second one fifth, each with its density; after the shift all particles are in the box, the second fluid in its middle
between two fifths and three fifths, the first outside of that. Missing: boxes that do not begin at 0
(`C90_contact_fails`), two dimensions (the branch is empty). -/
theorem C90_contact_partial (hfac hi rho1 rho2 u1 u2 : ℝ) (hh : 0 < hi) (h1 : 0 < rho1) (h2 : 0 < rho2) (N1 N2 : ℕ)
    (hN1 : 0 < N1) (hN2 : 0 < N2) :
    mass (contact1 hfac 0 hi rho1 u1 N1) = rho1 * (4 / 5 * hi) ∧
    mass (contact2 hfac 0 hi rho2 u2 N2) = rho2 * (1 / 5 * hi) ∧
    (∀ p ∈ contact1 hfac 0 hi rho1 u1 N1, 0 ≤ p.r 0 ∧ p.r 0 ≤ hi ∧ (p.r 0 ≤ 2 / 5 * hi ∨ 3 / 5 * hi ≤ p.r 0) ∧ p.v 0 = 0 ∧
      p.u = u1 ∧ p.h * rho1 = hfac * p.m) ∧
    ∀ p ∈ contact2 hfac 0 hi rho2 u2 N2, 2 / 5 * hi ≤ p.r 0 ∧ p.r 0 ≤ 3 / 5 * hi ∧ p.v 0 = 0 ∧ p.u = u2 ∧
      p.h * rho2 = hfac * p.m := by
  have hsp : ∀ (rho len : ℝ) (N : ℕ), 0 < rho → 0 ≤ len → hOf 1 hfac (rho * len / N) rho * rho = hfac * (rho * len / N) := by
    intro rho len N hr hl
    have := hOf_pow (n := 1) (hfac := hfac) (m := rho * len / N) one_ne_zero hr.ne' (by positivity)
    simpa using this
  refine ⟨?_, ?_, fun p hp => ?_, fun p hp => ?_⟩
  · unfold contact1; rw [FluidIc.layer_mass hN1]; ring
  · unfold contact2; rw [FluidIc.layer_mass hN2]; ring
  · obtain ⟨i, hi', rfl⟩ := List.mem_map.mp hp
    obtain ⟨a1, a2⟩ := FluidIc.site_between (a := 0) (b := 4 / 5 * hi) (by linarith) (List.mem_range.mp hi')
    refine ⟨?_, ?_, ?_, rfl, rfl, hsp rho1 _ N1 h1 (by linarith)⟩ <;> simp only [back] <;> split_ifs with hc
    · linarith
    · linarith
    · linarith
    · linarith
    · right; linarith
    · left; linarith
  · obtain ⟨i, hi', rfl⟩ := List.mem_map.mp hp
    obtain ⟨a1, a2⟩ := FluidIc.site_between (a := 4 / 5 * hi) (b := hi) (by linarith) (List.mem_range.mp hi')
    refine ⟨?_, ?_, rfl, rfl, hsp rho2 _ N2 h2 (by linarith)⟩ <;> simp only [back] <;> split_ifs with hc <;> linarith

/-- **C90, contact discontinuity: defect.** The boundary of the fluids is at four fifths of the upper end, not of the box:
in the box from -2 to -1 the particles of the second fluid have negative masses. -/
theorem C90_contact_fails (hfac rho u : ℝ) (hrho : 0 < rho) (N : ℕ) (hN : 0 < N) :
    mass (contact2 hfac (-2) (-1) rho u N) = -(1 / 5 * rho) ∧ ∀ p ∈ contact2 hfac (-2) (-1) rho u N, p.m < 0 := by
  constructor
  · unfold contact2; rw [FluidIc.layer_mass hN]; ring
  · intro p hp
    obtain ⟨i, -, rfl⟩ := List.mem_map.mp hp
    have hN' : (0 : ℝ) < N := by exact_mod_cast hN
    show rho * (-1 - 4 / 5 * (-1)) / (N : ℝ) < 0
    exact div_neg_of_neg_of_pos (by linarith) hN'

example : ∃ p ∈ contact2 1 0 1 1 1 2, p.r 0 = 9 / 20 := by
  refine ⟨_, List.mem_map.mpr ⟨0, by simp, rfl⟩, ?_⟩
  simp only [back]
  norm_num

/-! ### two-dimensional shock -/

/-- **C90, shock in two dimensions, partial.** Every site of the lattices is used by exactly one of the two gases when both
use the same lattice; the masses are seven eighths and one eighth of the box times the densities (the areas on the two
sides of the diagonal of a box that begins at 0); the pressures are 1 and 0.14; the dense gas has fitting smoothing
lengths. Missing: the smoothing lengths of the thin gas and boxes that do not begin at 0 (`C90_shock2d_fails`). -/
theorem C90_shock2d_partial (hfac gamma : ℝ) (hg : gamma ≠ 1) (lo hi : Vec 2 ℝ) (hv : 0 < boxVolume lo hi)
    (l l' : List (Vec 2 ℝ)) (h1 : denseSites lo hi l ≠ []) (h2 : thinSites lo hi l' ≠ []) :
    (denseSites lo hi l ++ thinSites lo hi l).Perm l ∧
    mass (shockDense hfac gamma lo hi l) = 1 * (7 / 8 * boxVolume lo hi) ∧
    mass (shockThin hfac gamma lo hi l') = 1 / 8 * (1 / 8 * boxVolume lo hi) ∧
    (∀ p ∈ shockDense hfac gamma lo hi l, Fluid hfac gamma 1 1 p ∧
      1 / 2 ≤ p.r 0 / (hi 0 - lo 0) + p.r 1 / (hi 1 - lo 1)) ∧
    ∀ p ∈ shockThin hfac gamma lo hi l', (gamma - 1) * (1 / 8) * p.u = 14 / 100 ∧
      p.r 0 / (hi 0 - lo 0) + p.r 1 / (hi 1 - lo 1) < 1 / 2 := by
  classical
  have hg' := sub_ne_zero.mpr hg
  refine ⟨?_, ?_, ?_, fun p hp => ?_, fun p hp => ?_⟩
  · have : thinSites lo hi l = l.filter fun x => !decide (diagonal lo hi x ≥ 1 / 2) := by
      unfold thinSites
      refine List.filter_congr fun x _ => ?_
      rw [← decide_not, decide_eq_decide]
      exact not_le.symm
    rw [this]
    exact List.filter_append_perm _ l
  · rw [one_mul]
    exact mass_share _ h1 _ _ fun x _ => by show _ / _ = _ / _; rw [mul_one, FluidIc.volume_eq]
  · exact mass_share _ h2 _ _ fun x _ => by show _ / _ = _ / _; rw [FluidIc.volume_eq]; ring
  · obtain ⟨x, hx, rfl⟩ := List.mem_map.mp hp
    refine ⟨⟨?_, hOf_pow two_ne_zero one_ne_zero ?_⟩, ?_⟩
    · show (gamma - 1) * 1 * (1 / (1 * (gamma - 1))) = 1
      field_simp
    · have : 0 ≤ 7 / 8 * FluidIc.volume lo hi := by rw [FluidIc.volume_eq]; linarith
      positivity
    · have := (List.mem_filter.mp hx).2
      rw [decide_eq_true_eq] at this
      show 1 / 2 ≤ x 0 / _ + x 1 / _
      rw [div_eq_mul_one_div (x 0), div_eq_mul_one_div (x 1)]
      exact this
  · obtain ⟨x, hx, rfl⟩ := List.mem_map.mp hp
    refine ⟨?_, ?_⟩
    · show (gamma - 1) * (1 / 8) * (7 / 50 / (1 / 8 * (gamma - 1))) = 14 / 100
      field_simp
      norm_num
    · have := (List.mem_filter.mp hx).2
      rw [decide_eq_true_eq] at this
      show x 0 / _ + x 1 / _ < 1 / 2
      rw [div_eq_mul_one_div (x 0), div_eq_mul_one_div (x 1)]
      exact this

/-- **C90, shock in two dimensions: defects.** (a) The smoothing lengths of the thin gas are computed with the density of
the dense gas: `h² ρ` is an eighth of what it should be. (b) The diagonal is that of a box at the origin: in a box around
the origin a site at three quarters of the way along both axes from the corner is still on the thin side. -/
theorem C90_shock2d_fails (hfac gamma : ℝ) (hh : 0 < hfac) (lo hi : Vec 2 ℝ) (hv : 0 < boxVolume lo hi)
    (l : List (Vec 2 ℝ)) :
    (∀ p ∈ shockThin hfac gamma lo hi l, p.h ^ 2 * (1 / 8) = 1 / 8 * (hfac ^ 2 * p.m) ∧ p.h ^ 2 * (1 / 8) ≠ hfac ^ 2 * p.m) ∧
    ∀ s : ℝ, s < 3 / 4 → diagonal (fun _ => -1 / 2) (fun _ => 1 / 2) (fun _ => -1 / 2 + s * 1) < 1 / 2 := by
  constructor
  · intro p hp
    obtain ⟨x, hx, rfl⟩ := List.mem_map.mp hp
    have hN : (0 : ℝ) < (thinSites lo hi l).length := by
      exact_mod_cast List.length_pos_of_mem hx
    have hm : 0 < 1 / 8 * FluidIc.volume lo hi * (1 / 8) / ((thinSites lo hi l).length : ℝ) := by
      rw [FluidIc.volume_eq]; positivity
    have h := hOf_pow (n := 2) (hfac := hfac) two_ne_zero one_ne_zero
      (by rw [div_one]; exact hm.le : 0 ≤ 1 / 8 * FluidIc.volume lo hi * (1 / 8) / ((thinSites lo hi l).length : ℝ) / 1)
    rw [mul_one] at h
    have hp := mul_pos (pow_pos hh 2) hm
    refine ⟨?_, ?_⟩
    · show hOf 2 hfac _ 1 ^ 2 * (1 / 8) = _
      rw [h]; ring
    · show hOf 2 hfac _ 1 ^ 2 * (1 / 8) ≠ _
      rw [h]
      intro hc
      linarith
  · intro s hs
    unfold diagonal
    norm_num
    linarith

example : denseSites (fun _ => 0) (fun _ => 1) [fun _ => 3 / 4, fun _ => 1 / 8] = [fun _ => 3 / 4] ∧
    thinSites (fun _ => 0) (fun _ => 1) [fun _ => 3 / 4, fun _ => 1 / 8] = [fun _ => 1 / 8] := by
  constructor
  · unfold denseSites diagonal
    norm_num [List.filter_cons]
  · unfold thinSites diagonal
    norm_num [List.filter_cons]

/-! ### dusty box -/

theorem FluidIc.mass_scale {l : List (Part n)} (f : Part n → Part n) (c : ℝ) (h : ∀ p ∈ l, (f p).m = p.m * c) :
    mass (l.map f) = mass l * c := by
  induction l with
  | nil => simp [mass]
  | cons p l ih =>
    have := ih fun q hq => h q (List.mem_cons_of_mem _ hq)
    unfold mass at this ⊢
    rw [List.map_cons, List.map_cons, List.sum_cons, this, h p (by simp), List.map_cons, List.sum_cons]
    ring

/-- **C90, dusty box, partial.** The gas has its density and pressure, the dust `d2g` times the mass of the gas, no internal
energy, and all of each component one velocity; a dust particle sits a hundredth of a smoothing length beside its gas
particle. Missing: it may sit outside of the box (`C90_dustybox_fails`). -/
theorem C90_dustybox_partial [NeZero n] (hfac gamma press rho vgas d2g vdust : ℝ) (hrho : 0 < rho) (hg : gamma ≠ 1)
    (lo hi : Vec n ℝ) (hv : 0 < boxVolume lo hi) (l : List (Vec n ℝ)) (hl : l ≠ []) :
    let gas := dustyGas hfac gamma press rho vgas lo hi l
    let dust := gas.map (dustOf d2g vdust)
    mass gas = rho * boxVolume lo hi ∧ mass dust = d2g * mass gas ∧
    (∀ p ∈ gas, Fluid hfac gamma rho press p ∧ p.v = Function.update (fun _ => 0) 0 vgas) ∧
    (∀ p ∈ dust, p.u = 0 ∧ p.v = Function.update (fun _ => 0) 0 vdust) ∧
    ∀ p ∈ gas, ∀ k, (dustOf d2g vdust p).r k = p.r k + if k = 0 then p.h / 100 else 0 := by
  intro gas dust
  have hN : (0 : ℝ) < l.length := by exact_mod_cast List.length_pos_of_ne_nil hl
  have hg' := sub_ne_zero.mpr hg
  refine ⟨?_, ?_, fun p hp => ?_, fun p hp => ?_, fun p hp k => ?_⟩
  · rw [mul_comm]
    exact mass_share l hl _ _ fun x _ => rfl
  · rw [mul_comm]
    exact FluidIc.mass_scale _ _ fun p _ => rfl
  · obtain ⟨x, -, rfl⟩ := List.mem_map.mp hp
    refine ⟨⟨?_, hOf_pow (NeZero.ne n) hrho.ne' ?_⟩, rfl⟩
    · show (gamma - 1) * rho * (press / (rho * (gamma - 1))) = press
      field_simp
    · rw [FluidIc.volume_eq]; positivity
  · obtain ⟨q, hq, rfl⟩ := List.mem_map.mp hp
    obtain ⟨x, -, rfl⟩ := List.mem_map.mp hq
    exact ⟨rfl, by simp [dustOf]⟩
  · by_cases hk : k = 0
    · subst hk; simp [dustOf]; ring
    · simp [dustOf, hk]

/-- **C90, dusty box: defect.** A gas particle in the box whose dust particle is outside (possible with random places). -/
theorem C90_dustybox_fails (hfac gamma press rho vgas d2g vdust : ℝ) (hrho : 0 < rho) (hh : 0 < hfac) (lo hi : Vec 1 ℝ)
    (hb : lo 0 < hi 0) : ∃ x : Vec 1 ℝ, (lo 0 ≤ x 0 ∧ x 0 < hi 0) ∧
      ∀ p ∈ dustyGas hfac gamma press rho vgas lo hi [x], hi 0 < (dustOf d2g vdust p).r 0 := by
  have hV : FluidIc.volume lo hi = hi 0 - lo 0 := by simp [FluidIc.volume]
  have h := hOf_pow (n := 1) (hfac := hfac) (m := (hi 0 - lo 0) * rho / 1) one_ne_zero hrho.ne'
    (by have : 0 ≤ hi 0 - lo 0 := by linarith
        positivity)
  simp only [pow_one, div_one] at h
  set H := hOf 1 hfac ((hi 0 - lo 0) * rho) rho with hH
  have hHe : H = hfac * (hi 0 - lo 0) := by
    apply mul_right_cancel₀ hrho.ne'
    rw [h]; ring
  have hpos : 0 < H := by rw [hHe]; exact mul_pos hh (by linarith)
  refine ⟨fun _ => max (lo 0) (hi 0 - H / 200), ⟨le_max_left _ _, max_lt hb (by linarith)⟩, fun p hp => ?_⟩
  obtain ⟨x, hx, rfl⟩ := List.mem_map.mp hp
  rw [List.mem_singleton] at hx
  subst hx
  simp only [dustOf, Function.update_self, hV, List.length_singleton, Nat.cast_one, div_one]
  rw [← hH]
  have := le_max_right (lo 0) (hi 0 - H / 200)
  linarith

/-! ### shear flow -/

/-- **C90, shear flow, partial.** In two dimensions and with at least two layers the gas has its density, its pressure and
no net momentum: the velocity is a whole sine wave over the box, wherever the box begins. Missing: one layer
(`C90_shear_fails`); three dimensions, where the number of layers in the third direction is read without being set. -/
theorem C90_shear_partial (hfac gamma press rho amp : ℝ) (hrho : 0 < rho) (hg : gamma ≠ 1) (lo hi : Vec 2 ℝ)
    (hb : ∀ k, lo k < hi k) (N0 N1 : ℕ) (h0 : 0 < N0) (h1 : 2 ≤ N1) :
    let l := shearflow hfac gamma press rho amp lo hi N0 N1
    mass l = rho * boxVolume lo hi ∧ (∀ k, momentum l k = 0) ∧
    ∀ p ∈ l, Fluid hfac gamma rho press p ∧ Inside lo hi p.r := by
  intro l
  have hN0 : (0 : ℝ) < N0 := by exact_mod_cast h0
  have hN1 : (0 : ℝ) < N1 := by exact_mod_cast (by omega : 0 < N1)
  have hL : 0 < hi 1 - lo 1 := by linarith [hb 1]
  have hL0 : 0 < hi 0 - lo 0 := by linarith [hb 0]
  have hg' := sub_ne_zero.mpr hg
  set m := rho * ((hi 0 - lo 0) * (hi 1 - lo 1)) / ((N0 * N1 : ℕ) : ℝ) with hm
  refine ⟨?_, fun k => ?_, fun p hp => ?_⟩
  · simp only [l, mass, shearflow, sum_flatMap, List.map_map]
    have e : ∀ jj : ℕ, ((List.range N0).map ((fun p : Part 2 => p.m) ∘ fun ii =>
        shearPart hfac gamma press rho amp lo hi N0 N1 ii jj)).sum = N0 * m := by
      intro jj
      have := sum_const (List.range N0) m
      rw [List.length_range] at this
      exact this
    simp only [e]
    rw [sum_const, List.length_range, hm]
    unfold boxVolume
    rw [Fin.prod_univ_two]
    push_cast
    field_simp
  · simp only [l, momentum, shearflow, sum_flatMap, List.map_map]
    have e : ∀ jj : ℕ, ((List.range N0).map ((fun p : Part 2 => p.m * p.v k) ∘ fun ii =>
        shearPart hfac gamma press rho amp lo hi N0 N1 ii jj)).sum =
        (N0 * m * if k = 0 then amp else 0) *
          sin ((2 * π / (hi 1 - lo 1) * lo 1 + π / N1) + jj * (2 * π / N1)) := by
      intro jj
      have := sum_const (List.range N0) (m * (shearPart hfac gamma press rho amp lo hi N0 N1 0 jj).v k)
      rw [List.length_range] at this
      refine Eq.trans this ?_
      fin_cases k
      · have ea : 2 * π / (hi 1 - lo 1) * (lo 1 + ((jj : ℝ) + 1 / 2) * ((hi 1 - lo 1) / N1)) =
            (2 * π / (hi 1 - lo 1) * lo 1 + π / N1) + jj * (2 * π / N1) := by
          field_simp
          ring
        simp only [shearPart, Fin.zero_eta, Matrix.cons_val_zero, if_true]
        rw [ea]
        ring
      · simp [shearPart]
    simp only [e]
    rw [sum_const_mul, sum_sin_circle _ _ h1, mul_zero]
  · obtain ⟨jj, hj, hp⟩ := List.mem_flatMap.mp hp
    obtain ⟨ii, hi', rfl⟩ := List.mem_map.mp hp
    refine ⟨⟨?_, hOf_pow two_ne_zero hrho.ne' (by positivity)⟩, fun k => ?_⟩
    · show (gamma - 1) * rho * (press / rho / (gamma - 1)) = press
      field_simp
    · fin_cases k
      · exact FluidIc.site_between (hb 0).le (List.mem_range.mp hi')
      · exact FluidIc.site_between (hb 1).le (List.mem_range.mp hj)

/-- **C90, shear flow: one layer.** With a single layer the whole gas may move: in a box that begins at a quarter of its
height, all particles have the full amplitude. -/
theorem C90_shear_fails (hfac gamma press rho amp : ℝ) (hrho : 0 < rho) (ha : 0 < amp) :
    momentum (shearflow hfac gamma press rho amp ![0, 1 / 4] ![1, 5 / 4] 1 1) 0 = -(rho * amp) := by
  have e : 2 * π / (5 / 4 - 1 / 4) * (1 / 4 + (0 + 1 / 2) * ((5 / 4 - 1 / 4) / 1)) = π / 2 + π := by ring
  simp only [momentum, shearflow, shearPart, List.range_succ, List.range_zero, List.nil_append, List.flatMap_cons,
    List.flatMap_nil, List.append_nil, List.map_cons, List.map_nil, List.sum_cons, List.sum_nil, Matrix.cons_val_zero,
    Matrix.cons_val_one, Nat.cast_zero, Nat.cast_one, mul_one]
  rw [e, sin_add_pi, sin_pi_div_two]
  ring

example : (∀ k, (![0, 1 / 4] : Vec 2 ℝ) k < (![1, 5 / 4] : Vec 2 ℝ) k) ∧ 2 ≤ 3 :=
  ⟨by intro k; fin_cases k <;> norm_num, by norm_num⟩

/-! ### Gaussian ring -/

/-- ring `j`, counted from the inside: its particles and its radius -/
noncomputable def FluidIc.ring (j : ℕ) : List (Part 2) := (List.range perRing).map fun t => ringPart (j * perRing + t)

noncomputable def FluidIc.ringR (j : ℕ) : ℝ := 4 / 5 + j / 200

theorem FluidIc.ring_radius {j t : ℕ} (ht : t < perRing) : ringRadius (j * perRing + t) = FluidIc.ringR j := by
  have : (j * perRing + t) / perRing = j := by
    rw [Nat.mul_comm, Nat.mul_add_div (by decide), Nat.div_eq_of_lt ht, add_zero]
  unfold ringRadius FluidIc.ringR
  rw [this]
  ring

theorem FluidIc.ring_phi {j t : ℕ} (ht : t < perRing) : ringPhi (j * perRing + t) = 0 + t * (2 * π / perRing) := by
  have h : (j * perRing + t) / perRing = j := by
    rw [Nat.mul_comm, Nat.mul_add_div (by decide), Nat.div_eq_of_lt ht, add_zero]
  unfold ringPhi
  rw [h, Nat.add_sub_cancel_left]
  ring

/-- **C90, Gaussian ring: orbits.** Every particle is on a circular orbit round the star of mass 1 at the origin; the rings
are 21 equal circles of particles between 0.8 and 0.9; each ring has its centre of mass at the star and no net momentum. -/
theorem C90_ring_orbits :
    (∀ i, i < ringTotal → ∃ j < 21, ringPart i ∈ ring j) ∧
    ∀ j < 21, (∀ p ∈ ring j, p.r 0 ^ 2 + p.r 1 ^ 2 = ringR j ^ 2 ∧ p.r 0 * p.v 0 + p.r 1 * p.v 1 = 0 ∧
        (p.v 0 ^ 2 + p.v 1 ^ 2) / ringR j = 1 / ringR j ^ 2) ∧
      (4 / 5 ≤ ringR j ∧ ringR j ≤ 9 / 10) ∧
      (∀ k, ((ring j).map fun p => p.m * p.r k).sum = 0) ∧ ∀ k, momentum (ring j) k = 0 := by
  constructor
  · intro i hi
    refine ⟨i / perRing, ?_, List.mem_map.mpr ⟨i % perRing, List.mem_range.mpr (Nat.mod_lt _ (by decide)), ?_⟩⟩
    · exact Nat.div_lt_of_lt_mul (by rw [mul_comm]; exact hi)
    · rw [Nat.div_add_mod']
  · intro j hj
    have hR : 4 / 5 ≤ ringR j ∧ ringR j ≤ 9 / 10 := by
      have : (j : ℝ) ≤ 20 := by exact_mod_cast (by omega : j ≤ 20)
      have h0 : (0 : ℝ) ≤ j := Nat.cast_nonneg j
      unfold ringR
      constructor <;> linarith
    have hpos : 0 < ringR j := by linarith [hR.1]
    have hN : (2 : ℕ) ≤ perRing := by decide
    have hs := sum_sin_circle 0 perRing hN
    have hc := sum_cos_circle 0 perRing hN
    have hm : ∀ t ∈ List.range perRing, (ringPart (j * perRing + t)).m = 1 / 100 / ringTotal * ringSigma (ringR j) := by
      intro t ht
      simp only [ringPart, FluidIc.ring_radius (List.mem_range.mp ht)]
    refine ⟨fun p hp => ?_, hR, fun k => ?_, fun k => ?_⟩
    · obtain ⟨t, ht, rfl⟩ := List.mem_map.mp hp
      simp only [ringPart, FluidIc.ring_radius (List.mem_range.mp ht), Matrix.cons_val_zero, Matrix.cons_val_one]
      have h1 := sin_sq_add_cos_sq (ringPhi (j * perRing + t))
      have hq : √(ringR j) ^ 2 = ringR j := sq_sqrt hpos.le
      have hq0 : √(ringR j) ≠ 0 := (sqrt_pos.mpr hpos).ne'
      refine ⟨?_, by ring, ?_⟩
      · linear_combination ringR j ^ 2 * h1
      · have e : (0 * cos (ringPhi (j * perRing + t)) - 1 / √(ringR j) * sin (ringPhi (j * perRing + t))) ^ 2 +
            (0 * sin (ringPhi (j * perRing + t)) + 1 / √(ringR j) * cos (ringPhi (j * perRing + t))) ^ 2 =
            1 / √(ringR j) ^ 2 := by
          field_simp
          linear_combination h1
        rw [e, hq]
        field_simp
    · rw [FluidIc.ring, List.map_map]
      have e : ∀ t ∈ List.range perRing, ((fun p : Part 2 => p.m * p.r k) ∘ fun t => ringPart (j * perRing + t)) t =
          (1 / 100 / ringTotal * ringSigma (ringR j) * ringR j) *
            (if k = 0 then cos (0 + t * (2 * π / perRing)) else sin (0 + t * (2 * π / perRing))) := by
        intro t ht
        show (ringPart (j * perRing + t)).m * (ringPart (j * perRing + t)).r k = _
        rw [hm t ht]
        simp only [ringPart, FluidIc.ring_radius (List.mem_range.mp ht), FluidIc.ring_phi (List.mem_range.mp ht)]
        fin_cases k <;> simp <;> ring
      rw [List.map_congr_left e, sum_const_mul]
      fin_cases k
      · simp only [Fin.zero_eta, if_true]; rw [hc, mul_zero]
      · simp only [Fin.mk_one, one_ne_zero, if_false]; rw [hs, mul_zero]
    · rw [momentum, FluidIc.ring, List.map_map]
      have e : ∀ t ∈ List.range perRing, ((fun p : Part 2 => p.m * p.v k) ∘ fun t => ringPart (j * perRing + t)) t =
          (1 / 100 / ringTotal * ringSigma (ringR j) * (1 / √(ringR j)) * if k = 0 then -1 else 1) *
            (if k = 0 then sin (0 + t * (2 * π / perRing)) else cos (0 + t * (2 * π / perRing))) := by
        intro t ht
        show (ringPart (j * perRing + t)).m * (ringPart (j * perRing + t)).v k = _
        rw [hm t ht]
        simp only [ringPart, FluidIc.ring_radius (List.mem_range.mp ht), FluidIc.ring_phi (List.mem_range.mp ht)]
        fin_cases k <;> simp <;> ring
      rw [List.map_congr_left e, sum_const_mul]
      fin_cases k
      · simp only [Fin.zero_eta, if_true]; rw [hs, mul_zero]
      · simp only [Fin.mk_one, one_ne_zero, if_false]; rw [hc, mul_zero]

/-- **C90, Gaussian ring: defect.** The mass of a ring is proportional to the Gaussian itself, not to the Gaussian times the
circumference of the ring: the surface density of the particles is not a Gaussian (there is no factor `c` for which every
ring has the mass `c σ(R) 2 π R ΔR`), and the total mass is less than 0.01. -/
theorem C90_ring_density_fails :
    (∀ j < 21, mass (ring j) = 1 / 2100 * ringSigma (ringR j)) ∧
    (¬ ∃ c : ℝ, ∀ j < 21, mass (ring j) = c * ringSigma (ringR j) * (2 * π * ringR j * (1 / 200))) ∧
    ((List.range 21).map fun j => mass (ring j)).sum < 1 / 100 := by
  have hmass : ∀ j < 21, mass (ring j) = 1 / 2100 * ringSigma (ringR j) := by
    intro j hj
    have := mass_const (List.range perRing) (fun t => ringPart (j * perRing + t))
      (1 / 100 / ringTotal * ringSigma (ringR j)) fun t ht => by
        simp only [ringPart, FluidIc.ring_radius (List.mem_range.mp ht)]
    rw [FluidIc.ring, this, List.length_range]
    have e : (ringTotal : ℝ) = 21 * perRing := by unfold ringTotal; push_cast; ring
    have hp : (perRing : ℝ) ≠ 0 := by exact_mod_cast (by decide : perRing ≠ 0)
    rw [e]
    field_simp
    ring
  refine ⟨hmass, ?_, ?_⟩
  · rintro ⟨c, h⟩
    have h0 := h 0 (by norm_num)
    have h1 := h 20 (by norm_num)
    rw [hmass 0 (by norm_num)] at h0
    rw [hmass 20 (by norm_num)] at h1
    have p0 : 0 < ringSigma (ringR 0) := exp_pos _
    have p1 : 0 < ringSigma (ringR 20) := exp_pos _
    have e0 : ringR 0 = 4 / 5 := by unfold ringR; norm_num
    have e1 : ringR 20 = 9 / 10 := by unfold ringR; norm_num
    have a0 : (1 : ℝ) / 2100 = c * (2 * π * ringR 0 * (1 / 200)) := by
      apply mul_right_cancel₀ p0.ne'
      linarith
    have a1 : (1 : ℝ) / 2100 = c * (2 * π * ringR 20 * (1 / 200)) := by
      apply mul_right_cancel₀ p1.ne'
      linarith
    rw [e0] at a0
    rw [e1] at a1
    have : c * π = 0 := by linarith
    rw [mul_assoc 2 π, mul_assoc 2, ← mul_assoc c 2, mul_comm c 2, mul_assoc 2 c, ← mul_assoc c, ← mul_assoc c, this] at a0
    norm_num at a0
  · have hle : ∀ j ∈ List.range 21, mass (ring j) ≤ 1 / 2100 := by
      intro j hj
      rw [hmass j (List.mem_range.mp hj)]
      have : ringSigma (ringR j) ≤ 1 := by
        unfold ringSigma
        rw [exp_le_one_iff]
        exact neg_nonpos.mpr (sq_nonneg _)
      linarith
    have hlt : mass (ring 0) < 1 / 2100 := by
      rw [hmass 0 (by norm_num)]
      have : ringSigma (ringR 0) < 1 := by
        unfold ringSigma ringR
        rw [exp_lt_one_iff]
        norm_num
      linarith
    have hs := List.sum_lt_sum (l := List.range 21) (fun j => mass (ring j)) (fun _ => (1 : ℝ) / 2100) hle
      ⟨0, by simp, hlt⟩
    refine hs.trans_le ?_
    rw [sum_const, List.length_range]
    norm_num

/-! ### stratified box -/

/-- **C90, stratified box, partial.** In a box that reaches equally far above and below the midplane, and beyond the height
`a` of the layer, the mass handed to the particles is the integral of the density over the box. Missing: boxes that are
not symmetric (`C90_silcc_fails`). -/
theorem C90_silcc_partial (rho a h area zmax : ℝ) (hh : 0 < h) (ha : 0 ≤ a) (hz : a ≤ zmax) :
    silccMass rho a h area zmax = area * ∫ z in (-zmax)..zmax, silccRho rho a h z := by
  rw [silcc_total hh ha hz]
  unfold silccMass
  ring

/-- **C90, stratified box: defect.** The lower end of the box is not looked at: for every box that reaches further down than
up the mass is too small. -/
theorem C90_silcc_fails (rho a h area zmin zmax : ℝ) (hr : 0 < rho) (hA : 0 < area) (hh : 0 < h) (ha : 0 ≤ a) (hz : a ≤ zmax)
    (hmin : zmin < -zmax) : silccMass rho a h area zmax < area * ∫ z in zmin..zmax, silccRho rho a h z := by
  rw [C90_silcc_partial rho a h area zmax hh ha hz]
  refine mul_lt_mul_of_pos_left ?_ hA
  have hi : ∀ x y : ℝ, IntervalIntegrable (silccRho rho a h) MeasureTheory.volume x y := fun x y =>
    silccRho_continuous.intervalIntegrable x y
  rw [← intervalIntegral.integral_add_adjacent_intervals (hi zmin (-zmax)) (hi (-zmax) zmax)]
  have : 0 < ∫ z in zmin..(-zmax), silccRho rho a h z := by
    refine intervalIntegral.intervalIntegral_pos_of_pos (hi _ _) (fun z => ?_) hmin
    unfold silccRho
    split_ifs <;> positivity
  linarith

example : (0 : ℝ) < 30 ∧ (0 : ℝ) ≤ 60 ∧ (60 : ℝ) ≤ 100 ∧ (-200 : ℝ) < -100 := by norm_num

/-! ### filament -/

/-- **C90, filament.** The density is between 0 and `rho0`, symmetric about the axis and about the midplane, and 0 outside of
the cylinder; the infall velocities point to the axis (or to the centre) and have the size asked for, except within
`small` of it, where they are 0. -/
theorem C90_filament (rho0 r0 R L small vcyl vrad : ℝ) (hrho : 0 ≤ rho0) (hs : 0 ≤ small) (x : Vec 3 ℝ) :
    (0 ≤ filamentRho rho0 r0 R L x ∧ filamentRho rho0 r0 R L x ≤ rho0) ∧
    (∀ y : Vec 3 ℝ, y 0 ^ 2 + y 1 ^ 2 = x 0 ^ 2 + x 1 ^ 2 → y 2 ^ 2 = x 2 ^ 2 →
      filamentRho rho0 r0 R L y = filamentRho rho0 r0 R L x) ∧
    (R ≤ √(x 0 ^ 2 + x 1 ^ 2) ∨ L ≤ |x 2| → filamentRho rho0 r0 R L x = 0) ∧
    (vcyl ≤ 0 → vrad ≤ 0 → filamentV small vcyl vrad x = fun _ => 0) ∧
    (0 < vcyl → vrad ≤ 0 → small < √(x 0 ^ 2 + x 1 ^ 2) →
      let v := filamentV small vcyl vrad x
      v 2 = 0 ∧ v 0 ^ 2 + v 1 ^ 2 = vcyl ^ 2 ∧ v 0 * x 0 + v 1 * x 1 = -(vcyl * √(x 0 ^ 2 + x 1 ^ 2))) ∧
    (0 < vrad → small < √(x 0 ^ 2 + x 1 ^ 2 + x 2 ^ 2) →
      let v := filamentV small vcyl vrad x
      v 0 ^ 2 + v 1 ^ 2 + v 2 ^ 2 = vrad ^ 2 ∧
      v 0 * x 0 + v 1 * x 1 + v 2 * x 2 = -(vrad * √(x 0 ^ 2 + x 1 ^ 2 + x 2 ^ 2))) := by
  have hD : ∀ a b : ℝ, 0 ≤ a → 0 ≤ b → 1 ≤ 1 + a / r0 / r0 + b / r0 / r0 / (109 / 10) / (109 / 10) := by
    intro a b ha hb
    have e1 : a / r0 / r0 = a / r0 ^ 2 := by rw [div_div, sq]
    have e2 : b / r0 / r0 = b / r0 ^ 2 := by rw [div_div, sq]
    rw [e1, e2]
    have := div_nonneg ha (sq_nonneg r0)
    have := div_nonneg (div_nonneg (div_nonneg hb (sq_nonneg r0)) (by norm_num : (0 : ℝ) ≤ 109 / 10))
      (by norm_num : (0 : ℝ) ≤ 109 / 10)
    linarith
  have hx := hD (x 0 * x 0 + x 1 * x 1 + x 2 * x 2) (x 2 * x 2)
    (by nlinarith [mul_self_nonneg (x 0), mul_self_nonneg (x 1), mul_self_nonneg (x 2)]) (mul_self_nonneg _)
  refine ⟨?_, fun y h1 h2 => ?_, fun h => ?_, fun h1 h2 => ?_, fun h1 h2 h3 => ?_, fun h1 h2 => ?_⟩
  · unfold filamentRho
    split_ifs
    · exact ⟨div_nonneg hrho (by linarith), div_le_self hrho hx⟩
    · exact ⟨le_rfl, hrho⟩
  · have e1 : y 0 * y 0 + y 1 * y 1 = x 0 * x 0 + x 1 * x 1 := by nlinarith
    have e2 : y 2 * y 2 = x 2 * x 2 := by nlinarith
    have e3 : |y 2| = |x 2| := sq_eq_sq_iff_abs_eq_abs _ _ |>.mp h2
    unfold filamentRho
    rw [e1, e2, e3]
  · unfold filamentRho
    rw [if_neg]
    rintro ⟨a, b⟩
    rw [sq, sq] at h
    rcases h with h | h <;> linarith
  · simp only [filamentV]
    rw [if_neg (fun h => absurd h.1 (not_lt.mpr h2)), if_neg (fun h => absurd h.1 (not_lt.mpr h1))]
  · intro v
    rw [sq, sq] at h3
    have hv : v = ![-vcyl * x 0 / √(x 0 * x 0 + x 1 * x 1), -vcyl * x 1 / √(x 0 * x 0 + x 1 * x 1), 0] := by
      simp only [v, filamentV]
      rw [if_neg (fun h => absurd h.1 (not_lt.mpr h2)), if_pos ⟨h1, h3⟩]
    have h0 : √(x 0 * x 0 + x 1 * x 1) ≠ 0 := (lt_of_le_of_lt hs h3).ne'
    have hq : √(x 0 * x 0 + x 1 * x 1) ^ 2 = x 0 * x 0 + x 1 * x 1 :=
      sq_sqrt (add_nonneg (mul_self_nonneg _) (mul_self_nonneg _))
    rw [hv]
    simp only [sq (x 0), sq (x 1)]
    simp only [Matrix.cons_val_zero, Matrix.cons_val_one, Matrix.cons_val]
    generalize √(x 0 * x 0 + x 1 * x 1) = S at h0 hq
    refine ⟨trivial, ?_, ?_⟩
    · field_simp
      linear_combination -hq
    · field_simp
      linear_combination hq
  · intro v
    rw [sq, sq, sq] at h2
    have hv : v = fun k => -vrad * x k / √(x 0 * x 0 + x 1 * x 1 + x 2 * x 2) := by
      simp only [v, filamentV]
      rw [if_pos ⟨h1, h2⟩]
    have h0 : √(x 0 * x 0 + x 1 * x 1 + x 2 * x 2) ≠ 0 := (lt_of_le_of_lt hs h2).ne'
    have hq : √(x 0 * x 0 + x 1 * x 1 + x 2 * x 2) ^ 2 = x 0 * x 0 + x 1 * x 1 + x 2 * x 2 :=
      sq_sqrt (add_nonneg (add_nonneg (mul_self_nonneg _) (mul_self_nonneg _)) (mul_self_nonneg _))
    rw [hv]
    simp only [sq (x 0), sq (x 1), sq (x 2)]
    generalize √(x 0 * x 0 + x 1 * x 1 + x 2 * x 2) = S at h0 hq
    refine ⟨?_, ?_⟩
    · field_simp
      linear_combination -hq
    · field_simp
      linear_combination hq

example : ∃ x : Vec 3 ℝ, (1 / 100 : ℝ) < √(x 0 ^ 2 + x 1 ^ 2) := by
  refine ⟨![3, 4, 0], ?_⟩
  have : √((3 : ℝ) ^ 2 + 4 ^ 2) = 5 := by rw [show (3 : ℝ) ^ 2 + 4 ^ 2 = 5 ^ 2 by norm_num]; exact sqrt_sq (by norm_num)
  simp only [Matrix.cons_val_zero, Matrix.cons_val_one]
  rw [this]
  norm_num

/-! ### cold blob in a wind -/

/-- **C90, blob in a wind.** Blob and wind have the same pressure and the same particle mass; the wind fills the box outside
of the sphere with its density and moves at `mach` times its sound speed along the first axis, the blob is at rest; with
as many particles as asked for the mass of the blob falls short of its density times its volume by less than one
particle, and with fewer it is smaller still. -/
theorem C90_blob [NeZero n] (hfac gamma press mach rhofluid rhosphere radius : ℝ) (hg : 1 < gamma) (hp : 0 ≤ press)
    (h1 : 0 < rhofluid) (h2 : 0 < rhosphere) (lo hi : Vec n ℝ) (hV : 0 ≤ sphereVolume n radius)
    (hv : sphereVolume n radius < boxVolume lo hi) (s l : List (Vec n ℝ)) (hl : windSites radius l ≠ [])
    (hs : s.length ≤ blobCount rhofluid rhosphere radius lo hi l) :
    let blobs := s.map (blobPart hfac gamma press (blobMass rhofluid radius lo hi l) rhosphere)
    let wind := (windSites radius l).map (windPart hfac gamma press mach (blobMass rhofluid radius lo hi l) rhofluid)
    blob hfac gamma press mach rhofluid rhosphere radius lo hi s l = blobs ++ wind ∧
    mass wind = rhofluid * (boxVolume lo hi - sphereVolume n radius) ∧
    (∀ p ∈ wind, Fluid hfac gamma rhofluid press p ∧ radius < √(dot p.r p.r) ∧ p.r ∈ l ∧
      p.v = Function.update (fun _ => 0) 0 (mach * √(gamma * press / rhofluid))) ∧
    (∀ p ∈ blobs, Fluid hfac gamma rhosphere press p ∧ p.v = fun _ => 0) ∧
    (∀ p ∈ blobs ++ wind, p.m = blobMass rhofluid radius lo hi l ∧ 0 < p.m) ∧
    mass blobs ≤ rhosphere * sphereVolume n radius ∧
    (s.length = blobCount rhofluid rhosphere radius lo hi l →
      rhosphere * sphereVolume n radius - blobMass rhofluid radius lo hi l < mass blobs) := by
  intro blobs wind
  have hg' : gamma - 1 ≠ 0 := by linarith
  have hN : (0 : ℝ) < (windSites radius l).length := by exact_mod_cast List.length_pos_of_ne_nil hl
  have hm : 0 < blobMass rhofluid radius lo hi l := by
    unfold blobMass
    rw [FluidIc.volume_eq]
    have : 0 < boxVolume lo hi - sphereVolume n radius := by linarith
    positivity
  have hmb : mass blobs = s.length * blobMass rhofluid radius lo hi l := mass_const s _ _ fun x _ => rfl
  have hq : 0 ≤ rhosphere * sphereVolume n radius / blobMass rhofluid radius lo hi l := by positivity
  refine ⟨rfl, ?_, fun p hp => ?_, fun p hp => ?_, fun p hp => ?_, ?_, fun he => ?_⟩
  · exact mass_share _ hl _ _ fun x _ => rfl
  · obtain ⟨x, hx, rfl⟩ := List.mem_map.mp hp
    refine ⟨⟨?_, hOf_pow (NeZero.ne n) h1.ne' (by positivity)⟩, ?_, (List.mem_filter.mp hx).1, ?_⟩
    · show (gamma - 1) * rhofluid * (press / rhofluid / (gamma - 1)) = press
      field_simp
    · have := (List.mem_filter.mp hx).2
      rw [decide_eq_true_eq] at this
      exact this
    · show Function.update (fun _ => (0 : ℝ)) 0 (mach * √(gamma * (gamma - 1) * (press / rhofluid / (gamma - 1)))) = _
      have : gamma * (gamma - 1) * (press / rhofluid / (gamma - 1)) = gamma * press / rhofluid := by field_simp
      rw [this]
  · obtain ⟨x, -, rfl⟩ := List.mem_map.mp hp
    refine ⟨⟨?_, hOf_pow (NeZero.ne n) h2.ne' (by positivity)⟩, rfl⟩
    show (gamma - 1) * rhosphere * (press / rhosphere / (gamma - 1)) = press
    field_simp
  · rcases List.mem_append.mp hp with hp | hp <;> obtain ⟨x, -, rfl⟩ := List.mem_map.mp hp <;> exact ⟨rfl, hm⟩
  · rw [hmb]
    have a : (s.length : ℝ) ≤ rhosphere * sphereVolume n radius / blobMass rhofluid radius lo hi l :=
      (Nat.cast_le.mpr hs).trans (Nat.floor_le hq)
    rwa [le_div_iff₀ hm] at a
  · rw [hmb, he]
    have a := Nat.lt_floor_add_one (rhosphere * sphereVolume n radius / blobMass rhofluid radius lo hi l)
    rw [div_lt_iff₀ hm] at a
    unfold blobCount
    linarith

example : (0 : ℝ) ≤ sphereVolume 2 1 ∧ sphereVolume 2 1 < boxVolume (fun _ : Fin 2 => (-2 : ℝ)) (fun _ => 2) ∧
    windSites 1 [fun _ : Fin 2 => (3 / 2 : ℝ)] ≠ [] := by
  have e : sphereVolume 2 1 = π := by simp [sphereVolume]
  refine ⟨by rw [e]; exact pi_pos.le, ?_, ?_⟩
  · rw [e]
    unfold boxVolume
    rw [Fin.prod_univ_two]
    linarith [pi_le_four]
  · have : (1 : ℝ) < √(dot (fun _ : Fin 2 => (3 / 2 : ℝ)) (fun _ => 3 / 2)) := by
      rw [lt_sqrt (by norm_num)]
      unfold dot
      rw [Fin.sum_univ_two]
      norm_num
    simp [windSites, this]

end Gandalf
