import Verif.Proof.Gresho
import Mathlib.Algebra.BigOperators.Fin
import Mathlib.Algebra.BigOperators.Field
import Mathlib.Analysis.SpecialFunctions.ExpDeriv

/-!
# C79 – initial conditions of the standard tests

The particles that are set up are the state the test is named after.
-/

set_option autoImplicit false
set_option linter.unusedSectionVars false

namespace Gandalf

open TestIc Real

/-! ### Gresho vortex -/

/-- The gas as it is set up: each particle stands for the volume `vol`; the pressure is that of an ideal gas. -/
noncomputable def TestIc.greshoFlow (small gamma vol : ℝ) : God.Flow 2 :=
  ⟨fun _ x => (gresho small gamma vol x).m / vol, fun _ x => (gresho small gamma vol x).v,
    fun _ x => (gamma - 1) * ((gresho small gamma vol x).m / vol) * (gresho small gamma vol x).u⟩

theorem TestIc.dot_two (x : Vec 2 ℝ) : dot x x = x 0 * x 0 + x 1 * x 1 := by simp [dot, Fin.sum_univ_two]

theorem TestIc.dot_two_nonneg (x : Vec 2 ℝ) : 0 ≤ x 0 * x 0 + x 1 * x 1 :=
  add_nonneg (mul_self_nonneg _) (mul_self_nonneg _)

theorem TestIc.off_zero (x : Vec 2 ℝ) (k : Fin 2) : (if √(x 0 * x 0 + x 1 * x 1) = 0 then 0 else x k) = x k := by
  by_cases h : √(x 0 * x 0 + x 1 * x 1) = 0
  · rw [if_pos h]
    rw [sqrt_eq_zero (dot_two_nonneg x)] at h
    have h0 : x 0 * x 0 = 0 := by nlinarith [mul_self_nonneg (x 0), mul_self_nonneg (x 1)]
    have h1 : x 1 * x 1 = 0 := by nlinarith [mul_self_nonneg (x 0), mul_self_nonneg (x 1)]
    fin_cases k
    · exact (mul_self_eq_zero.mp h0).symm
    · exact (mul_self_eq_zero.mp h1).symm
  · rw [if_neg h]

theorem TestIc.greshoFlow_eq {gamma vol : ℝ} (hg : gamma ≠ 1) (hv : vol ≠ 0) :
    greshoFlow 0 gamma vol = God.swirl (fun q => omegaOf √q) fun q => greshoPress q √q := by
  have hg' : gamma - 1 ≠ 0 := sub_ne_zero.mpr hg
  unfold greshoFlow God.swirl gresho
  simp only [add_zero, dot_two, one_mul, div_self hv, mul_one, div_one]
  congr 1
  · funext _ x
    have h0 := rotspeed_eq (sqrt_nonneg (x 0 * x 0 + x 1 * x 1)) (x 0)
    have h1 := rotspeed_eq (sqrt_nonneg (x 0 * x 0 + x 1 * x 1)) (x 1)
    rw [off_zero x 0] at h0
    rw [off_zero x 1] at h1
    funext k
    fin_cases k
    · simp only [Fin.zero_eta, Fin.isValue, Matrix.cons_val_zero, neg_mul, h1]
    · simp only [Fin.mk_one, Fin.isValue, Matrix.cons_val_one, Matrix.cons_val_fin_one, h0]
  · funext _ x
    field_simp

/-- **C79, Gresho vortex.** Off the two circles where the formulas change the gas that is set up is a steady flow: mass, momentum
and energy stay what they are everywhere. Velocity and pressure are continuous everywhere. (Without the offset of distances.) -/
theorem C79_gresho {gamma vol : ℝ} (hg : gamma ≠ 1) (hv : vol ≠ 0) :
    (∀ t x, √(dot x x) ≠ 1 / 5 → √(dot x x) ≠ 2 / 5 → (greshoFlow 0 gamma vol).Conserves gamma (fun _ => 0) t x) ∧
      (∀ t s x, (greshoFlow 0 gamma vol).v t x = (greshoFlow 0 gamma vol).v s x) ∧
      (∀ t k, Continuous fun x => (greshoFlow 0 gamma vol).v t x k) ∧ ∀ t, Continuous ((greshoFlow 0 gamma vol).p t) := by
  rw [greshoFlow_eq hg hv]
  refine ⟨fun t x h1 h2 => ?_, fun _ _ _ => rfl, fun t k => ?_, fun t => ?_⟩
  · rw [dot_two] at h1 h2
    obtain ⟨⟨w', hw⟩, hp⟩ := gresho_deriv (dot_two_nonneg x) h1 h2
    exact God.swirl_conserves _ _ gamma hg t x w' hw hp
  · have hc := omegaOf_continuous
    have : Continuous fun x : Vec 2 ℝ => omegaOf √(x 0 * x 0 + x 1 * x 1) := hc.comp (by fun_prop)
    fin_cases k
    · simp only [God.swirl, Fin.zero_eta, Fin.isValue, Matrix.cons_val_zero]
      fun_prop
    · simp only [God.swirl, Fin.mk_one, Fin.isValue, Matrix.cons_val_one, Matrix.cons_val_fin_one]
      fun_prop
  · have h : (fun x : Vec 2 ℝ => greshoPress (x 0 * x 0 + x 1 * x 1) √(x 0 * x 0 + x 1 * x 1)) =
        (fun d => greshoPress (d * d) d) ∘ fun x : Vec 2 ℝ => √(x 0 * x 0 + x 1 * x 1) := by
      funext x
      simp only [Function.comp, mul_self_sqrt (dot_two_nonneg x)]
    simp only [God.swirl]
    rw [h]
    exact press_continuous.comp (by fun_prop)

/-- **C79, Gresho vortex.** The offset of distances changes pressures by at most 20 and velocities by at most 10 times as much. -/
theorem C79_gresho_offset {gamma vol small : ℝ} (hg : gamma ≠ 1) (hv : vol ≠ 0) (hs : 0 ≤ small) (t : ℝ) (x : Vec 2 ℝ) :
    |(greshoFlow small gamma vol).p t x - (greshoFlow 0 gamma vol).p t x| ≤ 20 * small ∧
      √(∑ k, ((greshoFlow small gamma vol).v t x k - (greshoFlow 0 gamma vol).v t x k) ^ 2) ≤ 10 * small := by
  have hg' : gamma - 1 ≠ 0 := sub_ne_zero.mpr hg
  have hq := dot_two_nonneg x
  constructor
  · have h := press_bound (sqrt_nonneg (x 0 * x 0 + x 1 * x 1)) hs
    rw [mul_self_sqrt hq] at h
    have e : ∀ s, (greshoFlow s gamma vol).p t x = greshoPress (x 0 * x 0 + x 1 * x 1) (√(x 0 * x 0 + x 1 * x 1) + s) := by
      intro s
      simp only [greshoFlow, gresho, dot_two, one_mul, div_self hv, mul_one, div_one]
      field_simp
    rw [e, e, add_zero]
    exact h
  · have h := omega_bound (sqrt_nonneg (x 0 * x 0 + x 1 * x 1)) hs
    have key : ∀ s, 0 ≤ s → ∀ k, rotspeed (√(x 0 * x 0 + x 1 * x 1) + s) * (x k / (√(x 0 * x 0 + x 1 * x 1) + s)) =
        omegaOf (√(x 0 * x 0 + x 1 * x 1) + s) * x k := by
      intro s hs k
      rw [rotspeed_eq (add_nonneg (sqrt_nonneg _) hs)]
      congr 1
      by_cases h0 : √(x 0 * x 0 + x 1 * x 1) + s = 0
      · rw [if_pos h0]
        have : √(x 0 * x 0 + x 1 * x 1) = 0 := le_antisymm (by linarith) (sqrt_nonneg _)
        have e := off_zero x k
        rw [if_pos this] at e
        exact e
      · rw [if_neg h0]
    have e : ∑ k, ((greshoFlow small gamma vol).v t x k - (greshoFlow 0 gamma vol).v t x k) ^ 2 =
        (√(x 0 * x 0 + x 1 * x 1) * |omegaOf (√(x 0 * x 0 + x 1 * x 1) + small) - omegaOf √(x 0 * x 0 + x 1 * x 1)|) ^ 2 := by
      have k0 := key 0 le_rfl
      have ks := key small hs
      rw [add_zero] at k0
      rw [mul_pow, sq_abs, sq_sqrt hq]
      simp only [greshoFlow, gresho, dot_two, Fin.sum_univ_two, Fin.isValue, Matrix.cons_val_zero, Matrix.cons_val_one,
        Matrix.cons_val_fin_one, add_zero, neg_mul, k0, ks]
      ring
    rw [e, sqrt_sq (mul_nonneg (sqrt_nonneg _) (abs_nonneg _))]
    exact h

/-- The middle of the ring, with a sound speed of a diatomic gas. -/
example : (greshoFlow 0 (7 / 5) (1 / 1000)).Conserves (7 / 5) (fun _ => 0) 0 ![3 / 10, 0] := by
  have e : √(dot (![3 / 10, 0] : Vec 2 ℝ) ![3 / 10, 0]) = 3 / 10 := by
    rw [dot_two]
    simp only [Matrix.cons_val_zero, Matrix.cons_val_one]
    rw [show (3 / 10 : ℝ) * (3 / 10) + 0 * 0 = (3 / 10) ^ 2 by norm_num, sqrt_sq (by norm_num)]
  exact (C79_gresho (by norm_num) (by norm_num)).1 0 _ (by rw [e]; norm_num) (by rw [e]; norm_num)

/-! ### Sedov blast wave -/

/-- thermal energy of the particles -/
noncomputable def TestIc.thermal {n : ℕ} (l : List (Part n)) : ℝ := (l.map fun p => p.m * p.u).sum

/-- energy of motion of the particles -/
noncomputable def TestIc.kinetic {n : ℕ} (l : List (Part n)) : ℝ := (l.map fun p => p.m * (∑ k, p.v k ^ 2) / 2).sum

section
variable {n : ℕ} {small kefrac kernrange rhot m : ℝ} {smooth : Bool} {w0 : ℝ → ℝ}

open Classical in
/-- how many particles are cold -/
noncomputable def TestIc.ncold (rhot : ℝ) (l : List (Vec n ℝ)) : ℕ := (l.filter fun x => !decide (hot rhot x)).length

open Classical in
theorem TestIc.sum_hot (f : Vec n ℝ → ℝ) (c tot : ℝ) (l : List (Vec n ℝ)) :
    (l.map fun x => if hot rhot x then f x / tot else c).sum =
      ((l.filter fun x => decide (hot rhot x)).map f).sum / tot + ncold rhot l * c := by
  induction l with
  | nil => simp [ncold]
  | cons x l ih =>
    unfold ncold at ih ⊢
    rw [List.map_cons, List.sum_cons, ih]
    by_cases h : hot rhot x
    · simp [h]; ring
    · simp [h]; ring

open Classical in
/-- **C79, blast wave.** The thermal energy set up is that of the explosion, `1 - kefrac`, and a millionth for every cold particle. -/
theorem C79_sedov_thermal (hm : m ≠ 0) (l : List (Vec n ℝ)) (ht : utot smooth w0 kernrange rhot m l ≠ 0) :
    thermal (sedovAll small kefrac smooth w0 kernrange rhot m l) = max 0 (1 - kefrac) + ncold rhot l * (1 / 1000000) := by
  have e : (fun p : Part n => p.m * p.u) ∘ sedov small kefrac smooth w0 kernrange rhot m (utot smooth w0 kernrange rhot m l) =
      fun x => if hot rhot x then max 0 (1 - kefrac) * share smooth w0 kernrange rhot m x / utot smooth w0 kernrange rhot m l
        else 1 / 1000000 := by
    funext x
    simp only [Function.comp, sedov]
    by_cases h : hot rhot x
    · rw [if_pos h, if_pos h]
      field_simp
    · rw [if_neg h, if_neg h]
      field_simp
  unfold thermal sedovAll
  rw [List.map_map, e, sum_hot, List.sum_map_mul_left, mul_div_assoc]
  congr 1
  rw [← utot]
  rw [div_self ht, mul_one]

open Classical in
/-- **C79, blast wave.** Without the offset of distances, and with no particle at the centre, the energy of motion set up is
`kefrac`; cold particles are at rest, hot ones move outwards. -/
theorem C79_sedov_kinetic (hm : 0 < m) (hk : 0 ≤ kefrac) (hw : ∀ s, 0 ≤ w0 s) (l : List (Vec n ℝ))
    (ht : utot smooth w0 kernrange rhot m l ≠ 0) (hc : ∀ x ∈ l, x ≠ 0) :
    kinetic (sedovAll 0 kefrac smooth w0 kernrange rhot m l) = kefrac ∧
      ∀ x ∈ l, (¬hot rhot x → (sedov 0 kefrac smooth w0 kernrange rhot m (utot smooth w0 kernrange rhot m l) x).v = fun _ => 0) ∧
        ∃ c, 0 ≤ c ∧ ∀ k, (sedov 0 kefrac smooth w0 kernrange rhot m (utot smooth w0 kernrange rhot m l) x).v k = c * x k := by
  have hsh : ∀ x : Vec n ℝ, 0 ≤ share smooth w0 kernrange rhot m x := by
    intro x
    unfold share
    split_ifs
    · exact mul_nonneg hm.le (hw _)
    · exact hm.le
  have htot : 0 < utot smooth w0 kernrange rhot m l := by
    refine lt_of_le_of_ne ?_ (Ne.symm ht)
    unfold utot
    exact List.sum_nonneg (fun y hy => by
      obtain ⟨x, _, rfl⟩ := List.mem_map.mp hy
      exact hsh x)
  refine ⟨?_, fun x _ => ⟨fun h => by simp only [sedov]; rw [if_neg h], ?_⟩⟩
  · have e : l.map ((fun p : Part n => p.m * (∑ k, p.v k ^ 2) / 2) ∘
        sedov 0 kefrac smooth w0 kernrange rhot m (utot smooth w0 kernrange rhot m l)) =
        l.map fun x => if hot rhot x then kefrac * share smooth w0 kernrange rhot m x / utot smooth w0 kernrange rhot m l
          else 0 := by
      refine List.map_congr_left fun x hx => ?_
      have hd : 0 < dot x x := by
        refine lt_of_le_of_ne (Finset.sum_nonneg fun _ _ => mul_self_nonneg _) fun h => hc x hx ?_
        funext k
        have := (Finset.sum_eq_zero_iff_of_nonneg (fun i _ => mul_self_nonneg (x i))).mp h.symm k (Finset.mem_univ k)
        exact mul_self_eq_zero.mp this
      simp only [Function.comp, sedov]
      by_cases h : hot rhot x
      · rw [if_pos h, if_pos h]
        simp only [add_zero]
        have hA : 0 ≤ 2 * kefrac * (share smooth w0 kernrange rhot m x / utot smooth w0 kernrange rhot m l / m) :=
          mul_nonneg (by linarith) (div_nonneg (div_nonneg (hsh x) htot.le) hm.le)
        have e1 : ∀ k, (√(2 * kefrac * (share smooth w0 kernrange rhot m x / utot smooth w0 kernrange rhot m l / m)) * x k / √(dot x x)) ^ 2
            = 2 * kefrac * (share smooth w0 kernrange rhot m x / utot smooth w0 kernrange rhot m l / m) / dot x x * (x k * x k) := by
          intro k
          rw [div_pow, mul_pow, sq_sqrt hA, sq_sqrt hd.le]
          ring
        rw [Finset.sum_congr rfl fun k _ => e1 k, ← Finset.mul_sum, show ∑ k, x k * x k = dot x x from rfl]
        field_simp
      · rw [if_neg h, if_neg h]
        simp
    unfold kinetic sedovAll
    rw [List.map_map, e, sum_hot, List.sum_map_mul_left, mul_div_assoc, ← utot, div_self ht]
    ring
  · simp only [sedov]
    by_cases h : hot rhot x
    · rw [if_pos h]
      exact ⟨√(2 * kefrac * (share smooth w0 kernrange rhot m x / utot smooth w0 kernrange rhot m l / m)) / (√(dot x x) + 0),
        div_nonneg (sqrt_nonneg _) (by simp), fun k => by simp only; ring⟩
    · rw [if_neg h]
      exact ⟨0, le_rfl, fun k => by simp⟩

/-- **C79, blast wave.** So the energy set up is 1 and a millionth for every cold particle, for `kefrac` between 0 and 1. -/
theorem C79_sedov_partial (hm : 0 < m) (hk : 0 ≤ kefrac) (hk1 : kefrac ≤ 1) (hw : ∀ s, 0 ≤ w0 s) (l : List (Vec n ℝ))
    (ht : utot smooth w0 kernrange rhot m l ≠ 0) (hc : ∀ x ∈ l, x ≠ 0) :
    thermal (sedovAll 0 kefrac smooth w0 kernrange rhot m l) + kinetic (sedovAll 0 kefrac smooth w0 kernrange rhot m l) =
      1 + ncold rhot l * (1 / 1000000) := by
  rw [C79_sedov_thermal hm.ne' l ht, (C79_sedov_kinetic hm hk hw l ht hc).1, max_eq_right (by linarith)]
  ring

/-- **C79, negation.** With more than a million cold particles the cold gas has more energy than the explosion. -/
theorem C79_sedov_cold_fails (hm : m ≠ 0) (l : List (Vec n ℝ)) (ht : utot smooth w0 kernrange rhot m l ≠ 0)
    (hl : 1000000 < ncold rhot l) : 2 < thermal (sedovAll small 0 smooth w0 kernrange rhot m l) := by
  rw [C79_sedov_thermal hm l ht]
  have : (1000000 : ℝ) < ncold rhot l := by exact_mod_cast hl
  norm_num
  linarith

/-- **C79, negation.** A particle at the centre does not get its share of the energy of motion: with this particle alone, all of the
explosion is lost for `kefrac = 1`. -/
theorem C79_sedov_centre_fails (hr : 0 < rhot) (hm : m ≠ 0) (small : ℝ) :
    thermal (sedovAll small 1 false w0 kernrange rhot m [(0 : Vec n ℝ)]) = 0 ∧
      kinetic (sedovAll small 1 false w0 kernrange rhot m [(0 : Vec n ℝ)]) = 0 := by
  have hh : hot rhot (0 : Vec n ℝ) := by simp [hot, dot, hr.ne', hr]
  constructor
  · rw [C79_sedov_thermal hm _ (by simp [utot, hh, share, hm])]
    simp [ncold, hh]
  · unfold kinetic sedovAll
    simp only [List.map_cons, List.map_nil, List.sum_cons, List.sum_nil, sedov]
    rw [if_pos hh]
    simp

/-- **C79, negation.** If all particles are outside the radius of the explosion there is no explosion. -/
theorem C79_sedov_empty_fails (l : List (Vec n ℝ)) (h : ∀ x ∈ l, ¬hot rhot x) :
    ∀ p ∈ sedovAll small kefrac smooth w0 kernrange rhot m l, p.u = 1 / 1000000 / m ∧ p.v = fun _ => 0 := by
  intro p hp
  obtain ⟨x, hx, rfl⟩ := List.mem_map.mp hp
  simp only [sedov]
  rw [if_neg (h x hx)]
  exact ⟨rfl, rfl⟩

end

/-- Four particles of a square, two of them hot; all of the energy is 1 and two millionths. -/
example : thermal (sedovAll 0 (1 / 2) false (fun _ => 1) 2 1 1 [(![1 / 2, 0] : Vec 2 ℝ), ![-1 / 2, 0], ![3, 0], ![0, 5]]) +
    kinetic (sedovAll 0 (1 / 2) false (fun _ => 1) 2 1 1 [(![1 / 2, 0] : Vec 2 ℝ), ![-1 / 2, 0], ![3, 0], ![0, 5]]) =
    1 + 2 * (1 / 1000000) := by
  have h1 : hot 1 (![1 / 2, 0] : Vec 2 ℝ) := by norm_num [hot, dot, Fin.sum_univ_two]
  have h2 : hot 1 (![-1 / 2, 0] : Vec 2 ℝ) := by norm_num [hot, dot, Fin.sum_univ_two]
  have h3 : ¬hot 1 (![3, 0] : Vec 2 ℝ) := by norm_num [hot, dot, Fin.sum_univ_two]
  have h4 : ¬hot 1 (![0, 5] : Vec 2 ℝ) := by norm_num [hot, dot, Fin.sum_univ_two]
  rw [C79_sedov_partial (by norm_num) (by norm_num) (by norm_num) (fun _ => zero_le_one) _
    (by simp only [utot, List.filter, h1, h2, h3, h4, decide_true, decide_false]; norm_num [share])]
  · have : ncold 1 [(![1 / 2, 0] : Vec 2 ℝ), ![-1 / 2, 0], ![3, 0], ![0, 5]] = 2 := by
      simp only [ncold, List.filter, h1, h2, h3, h4, decide_true, decide_false, Bool.not_true, Bool.not_false]
      rfl
    rw [this]
    norm_num
  · intro x hx
    simp only [List.mem_cons, List.not_mem_nil, or_false] at hx
    rcases hx with rfl | rfl | rfl | rfl <;> intro h
    · have := congrFun h 0; norm_num at this
    · have := congrFun h 0; norm_num at this
    · have := congrFun h 0; norm_num at this
    · have := congrFun h 1; norm_num at this

/-! ### Noh problem -/

/-- **C79, Noh problem.** All gas moves towards the centre with speed 1, but for the offset of distances: never faster, and slower
by less than `small / distance`. -/
theorem C79_noh {n : ℕ} {small rho press gamma mass : ℝ} (hs : 0 ≤ small) (x : Vec n ℝ) (hx : 0 < dot x x) :
    let v := (noh small rho press gamma mass x).v
    (∃ c, 0 ≤ c ∧ ∀ k, v k = -c * x k) ∧ √(dot v v) ≤ 1 ∧ 1 - small / √(dot x x) ≤ √(dot v v) := by
  intro v
  have hd : 0 < √(dot x x) := sqrt_pos.mpr hx
  have hds : 0 < √(dot x x) + small := by linarith
  have hv : ∀ k, v k = -(1 / (√(dot x x) + small)) * x k := fun k => by
    simp only [v, noh]
    ring
  have e : √(dot v v) = √(dot x x) / (√(dot x x) + small) := by
    have : dot v v = (√(dot x x) / (√(dot x x) + small)) ^ 2 := by
      rw [div_pow, sq_sqrt hx.le]
      generalize √(dot x x) + small = D at *
      rw [dot, dot, Finset.sum_congr rfl fun k _ => by rw [hv k], Finset.sum_div]
      exact Finset.sum_congr rfl fun k _ => by ring
    rw [this, sqrt_sq (div_nonneg hd.le hds.le)]
  refine ⟨⟨1 / (√(dot x x) + small), by positivity, hv⟩, ?_, ?_⟩
  · rw [e, div_le_one hds]
    linarith
  · rw [e]
    have h1 : 1 - small / √(dot x x) = (√(dot x x) - small) / √(dot x x) := by field_simp
    rw [h1, div_le_div_iff₀ hd hds]
    nlinarith

example : (∃ c, 0 ≤ c ∧ ∀ k, (noh 0 1 1 (5 / 3) 1 ![(3 : ℝ), 4]).v k = -c * (![3, 4] : Vec 2 ℝ) k) :=
  (C79_noh le_rfl _ (by norm_num [dot, Fin.sum_univ_two])).1

/-! ### shock tube -/

/-- **C79, shock tube.** If the origin is inside the box each side has the density asked for: equal cells of the length
`mass / density` fill the side, with a particle in the middle of each, and have the velocity and the energy of that side. -/
theorem C79_tube {lo hi rho u vel : ℝ} {N : ℕ} (hN : 0 < N) (h : lo < hi) (hr : 0 < rho) :
    (∀ p ∈ side lo hi rho u vel N, 0 < p.m ∧ lo + p.m / rho / 2 ≤ p.r 0 ∧ p.r 0 + p.m / rho / 2 ≤ hi ∧ p.u = u ∧ p.v 0 = vel) ∧
      ((side lo hi rho u vel N).map fun p => p.m).sum = rho * (hi - lo) ∧
      (side lo hi rho u vel N).Pairwise fun p q => p.r 0 + p.m / rho / 2 ≤ q.r 0 - q.m / rho / 2 := by
  have hN' : (0 : ℝ) < N := by exact_mod_cast hN
  have hc : 0 < (hi - lo) / N := div_pos (by linarith) hN'
  have hm : rho * (hi - lo) / N / rho = (hi - lo) / N := by field_simp
  refine ⟨fun p hp => ?_, ?_, ?_⟩
  · obtain ⟨i, hi', rfl⟩ := List.mem_map.mp hp
    have hi2 : (i : ℝ) + 1 ≤ N := by exact_mod_cast List.mem_range.mp hi'
    have hi3 : (0 : ℝ) ≤ i := by positivity
    have hs : (N : ℝ) * ((hi - lo) / N) = hi - lo := by field_simp
    simp only
    rw [hm]
    refine ⟨div_pos (mul_pos hr (by linarith)) hN', by nlinarith, by nlinarith, trivial, trivial⟩
  · unfold side
    rw [List.map_map]
    simp only [Function.comp_def, List.map_const', List.length_range, List.sum_replicate, nsmul_eq_mul]
    field_simp
  · unfold side
    rw [List.pairwise_map]
    refine List.Pairwise.imp (fun {a b} hab => ?_) (List.pairwise_lt_range (n := N))
    have : (a : ℝ) + 1 ≤ b := by exact_mod_cast hab
    simp only
    rw [hm]
    nlinarith

/-- **C79, shock tube.** So the left state is left of the origin and the right state right of it. -/
theorem C79_tube_sides {lo hi rho1 rho2 u1 u2 v1 v2 : ℝ} {N1 N2 : ℕ} (h1 : 0 < N1) (h2 : 0 < N2) (hlo : lo < 0) (hhi : 0 < hi)
    (hr1 : 0 < rho1) (hr2 : 0 < rho2) (p : Part 1) (hp : p ∈ tube lo hi rho1 rho2 u1 u2 v1 v2 N1 N2) :
    (p.r 0 < 0 ∧ lo < p.r 0 ∧ p.u = u1 ∧ p.v 0 = v1) ∨ (0 < p.r 0 ∧ p.r 0 < hi ∧ p.u = u2 ∧ p.v 0 = v2) := by
  rcases List.mem_append.mp hp with h | h
  · obtain ⟨a, b, c, d, e⟩ := (C79_tube (u := u1) (vel := v1) h1 hlo hr1).1 p h
    have : 0 < p.m / rho1 / 2 := by positivity
    exact Or.inl ⟨by linarith, by linarith, d, e⟩
  · obtain ⟨a, b, c, d, e⟩ := (C79_tube (u := u2) (vel := v2) h2 hhi hr2).1 p h
    have : 0 < p.m / rho2 / 2 := by positivity
    exact Or.inr ⟨by linarith, by linarith, d, e⟩

/-- **C79, negation.** The discontinuity is at the origin wherever the box is: for a box right of it the left particles have
negative masses and lie outside the box. -/
theorem C79_tube_fails {lo hi rho1 rho2 u1 u2 v1 v2 : ℝ} {N1 N2 : ℕ} (h1 : 0 < N1) (hlo : 0 < lo) (hr1 : 0 < rho1) :
    ∃ p ∈ tube lo hi rho1 rho2 u1 u2 v1 v2 N1 N2, p.m < 0 ∧ p.r 0 < lo := by
  have hN' : (0 : ℝ) < N1 := by exact_mod_cast h1
  refine ⟨_, List.mem_append_left _ (List.mem_map.mpr ⟨0, List.mem_range.mpr h1, rfl⟩), ?_, ?_⟩
  · simp only
    exact div_neg_of_neg_of_pos (by nlinarith) hN'
  · simp only [Nat.cast_zero, zero_sub, zero_add]
    have : 0 < lo / N1 := by positivity
    rw [neg_div]
    linarith

/-- Sod's problem, with four times as many particles on the left. -/
example : ((side (-1) 0 1 (5 / 2) 0 80).map fun p => p.m).sum = 1 ∧ ((side 0 1 (1 / 8) 2 0 20).map fun p => p.m).sum = 1 / 8 := by
  constructor
  · rw [(C79_tube (by norm_num) (by norm_num) (by norm_num)).2.1]; norm_num
  · rw [(C79_tube (by norm_num) (by norm_num) (by norm_num)).2.1]; norm_num

/-! ### sound wave -/

/-- The part of a small disturbance of the pressure that travels to the left, twice: `δp - ρ c v`; the part that travels to the
right is `δp + ρ c v`. -/
noncomputable def TestIc.leftward (rho c dp v : ℝ) : ℝ := dp - rho * c * v

/-- pressure of the wave at `x` less that of the undisturbed gas; the density is `rho (1 + amp sin k x)` (C67) -/
noncomputable def TestIc.wavePress (iso : Bool) (gamma rho press temp amp k x : ℝ) : ℝ :=
  (gamma - 1) * (rho * (1 + amp * sin (k * x))) * (wave iso gamma rho press temp amp k x).2 -
    (gamma - 1) * rho * ugas iso gamma rho press temp

/-- **C79, sound wave.** The wave of an isothermal gas travels to the right, with no part that travels to the left. -/
theorem C79_wave_partial {gamma rho press temp amp k x : ℝ} (hg : 1 < gamma) (hr : 0 < rho) (ht : 0 ≤ temp) :
    leftward rho (csound true gamma rho press temp) (wavePress true gamma rho press temp amp k x)
      (wave true gamma rho press temp amp k x).1 = 0 := by
  have hg' : gamma - 1 ≠ 0 := by linarith
  have e : csound true gamma rho press temp = √temp := by
    unfold csound
    rw [if_pos rfl]
    congr 1
    field_simp
  have h2 : √temp * √temp = temp := mul_self_sqrt ht
  unfold leftward wavePress wave
  rw [e]
  simp only [ugas, if_true]
  have : (gamma - 1) * (rho * (1 + amp * sin (k * x))) * (temp / (gamma - 1)) = rho * (1 + amp * sin (k * x)) * temp := by
    field_simp
  rw [this]
  have : (gamma - 1) * rho * (temp / (gamma - 1)) = rho * temp := by field_simp
  rw [this]
  linear_combination -rho * amp * sin (k * x) * h2

/-- **C79, negation.** In an adiabatic gas the internal energy is not disturbed, so that a part of `(γ - 1) / (γ + 1)` of the wave
travels to the left. -/
theorem C79_wave_fails {gamma rho press temp amp k x : ℝ} (hg : 1 < gamma) (hr : 0 < rho) (hp : 0 ≤ press) :
    leftward rho (csound false gamma rho press temp) (wavePress false gamma rho press temp amp k x)
        (wave false gamma rho press temp amp k x).1 = -(gamma - 1) * (press * amp * sin (k * x)) ∧
      leftward rho (-csound false gamma rho press temp) (wavePress false gamma rho press temp amp k x)
        (wave false gamma rho press temp amp k x).1 = (gamma + 1) * (press * amp * sin (k * x)) := by
  have hg' : gamma - 1 ≠ 0 := by linarith
  have h2 : √(gamma * press / rho) * √(gamma * press / rho) = gamma * press / rho :=
    mul_self_sqrt (div_nonneg (mul_nonneg (by linarith) hp) hr.le)
  have h3 : rho * (√(gamma * press / rho) * √(gamma * press / rho)) = gamma * press := by rw [h2]; field_simp
  have e1 : (gamma - 1) * (rho * (1 + amp * sin (k * x))) * (press / rho / (gamma - 1)) - (gamma - 1) * rho * (press / rho / (gamma - 1)) =
      press * amp * sin (k * x) := by
    field_simp
    ring
  unfold leftward wavePress wave csound ugas
  simp only [Bool.false_eq_true, if_false]
  rw [e1]
  constructor
  · linear_combination -amp * sin (k * x) * h3
  · linear_combination amp * sin (k * x) * h3

/-- Air: a sixth of the wave goes the wrong way. -/
example : leftward 1 (csound false (7 / 5) 1 1 1) (wavePress false (7 / 5) 1 1 1 (1 / 100) 1 (π / 2))
    (wave false (7 / 5) 1 1 1 (1 / 100) 1 (π / 2)).1 = -(2 / 500) := by
  rw [(C79_wave_fails (by norm_num) (by norm_num) (by norm_num)).1, one_mul, one_mul, sin_pi_div_two]
  norm_num

/-! ### Rayleigh-Taylor instability -/

/-- pressure of the gas at the height `y` -/
noncomputable def TestIc.rtPress (upper : Bool) (rho1 rho2 press1 press2 gamma y : ℝ) : ℝ :=
  (gamma - 1) * rtRho rho1 rho2 y * rtU upper rho1 rho2 press1 press2 gamma

/-- **C79, Rayleigh-Taylor instability.** The density rises from `rho1` to `rho2` through the middle; the disturbance is confined to
the middle and continuous. -/
theorem C79_rt_partial {rho1 rho2 amp : ℝ} (h : rho1 < rho2) :
    (∀ y, rho1 < rtRho rho1 rho2 y ∧ rtRho rho1 rho2 y < rho2) ∧ StrictMono (rtRho rho1 rho2) ∧
      rtRho rho1 rho2 (1 / 2) = (rho1 + rho2) / 2 ∧ Continuous fun z : ℝ × ℝ => rtV amp z.1 z.2 := by
  have hE : ∀ y : ℝ, 0 < exp (-(y - 1 / 2) / (1 / 40)) := fun y => exp_pos _
  refine ⟨fun y => ⟨?_, ?_⟩, fun a b hab => ?_, ?_, ?_⟩
  · unfold rtRho
    have : 0 < (rho2 - rho1) / (1 + exp (-(y - 1 / 2) / (1 / 40))) := div_pos (by linarith) (by linarith [hE y])
    linarith
  · unfold rtRho
    have : (rho2 - rho1) / (1 + exp (-(y - 1 / 2) / (1 / 40))) < rho2 - rho1 := by
      rw [div_lt_iff₀ (by linarith [hE y])]
      nlinarith [hE y]
    linarith
  · unfold rtRho
    have he : exp (-(b - 1 / 2) / (1 / 40)) < exp (-(a - 1 / 2) / (1 / 40)) := exp_lt_exp.mpr (by linarith)
    have : (rho2 - rho1) / (1 + exp (-(a - 1 / 2) / (1 / 40))) < (rho2 - rho1) / (1 + exp (-(b - 1 / 2) / (1 / 40))) :=
      div_lt_div_of_pos_left (by linarith) (by linarith [hE b]) (by linarith)
    linarith
  · unfold rtRho
    norm_num
    ring
  · have e : (fun z : ℝ × ℝ => rtV amp z.1 z.2) = fun z : ℝ × ℝ =>
        amp * (1 + cos (8 * π * (z.1 + 1 / 4))) * (1 + cos (5 * π * (max (3 / 10) (min z.2 (7 / 10)) - 1 / 2))) := by
      funext z
      unfold rtV
      have hc : cos (5 * π * (3 / 10 - 1 / 2)) = -1 := by
        rw [show 5 * π * (3 / 10 - 1 / 2) = -π by ring, cos_neg, cos_pi]
      have hc' : cos (5 * π * (7 / 10 - 1 / 2)) = -1 := by
        rw [show 5 * π * (7 / 10 - 1 / 2) = π by ring, cos_pi]
      by_cases h1 : z.2 < 3 / 10
      · rw [if_neg (by intro h; linarith [h.1]), min_eq_left (by linarith), max_eq_left h1.le, hc]
        ring
      push Not at h1
      by_cases h2 : 7 / 10 < z.2
      · rw [if_neg (by intro h; linarith [h.2]), min_eq_right h2.le, max_eq_right (by norm_num), hc']
        ring
      · push Not at h2
        rw [if_pos ⟨h1, h2⟩, min_eq_left h2, max_eq_right h1]
    rw [e]
    fun_prop

/-- **C79, negation.** The gas is not in balance with any gravity that pulls downwards: the pressure rises with the height in both
halves, and with `press1 = press2` it falls at the middle by the factor `rho1 / rho2`. -/
theorem C79_rt_fails {rho1 rho2 press gamma : ℝ} (h1 : 0 < rho1) (h : rho1 < rho2) (hp : 0 < press) (hg : 1 < gamma) :
    (∀ up, StrictMono (rtPress up rho1 rho2 press press gamma)) ∧
      ∀ y, rtPress true rho1 rho2 press press gamma y = rho1 / rho2 * rtPress false rho1 rho2 press press gamma y := by
  have hg' : 0 < gamma - 1 := by linarith
  have h2 : 0 < rho2 := by linarith
  have hu : ∀ up, 0 < rtU up rho1 rho2 press press gamma := by
    intro up
    cases up <;> simp only [rtU] <;> norm_num <;> positivity
  refine ⟨fun up a b hab => ?_, fun y => ?_⟩
  · unfold rtPress
    have := (C79_rt_partial (amp := 0) h).2.1 hab
    have := hu up
    gcongr
  · simp only [rtPress, rtU, if_true, Bool.false_eq_true, if_false]
    field_simp

/-- With the densities 1 and 2 half of the pressure is missing above the middle. -/
example : rtPress true 1 2 (5 / 2) (5 / 2) (7 / 5) (1 / 2) = 1 / 2 * rtPress false 1 2 (5 / 2) (5 / 2) (7 / 5) (1 / 2) :=
  (C79_rt_fails (by norm_num) (by norm_num) (by norm_num) (by norm_num)).2 _

/-! ### Kelvin-Helmholtz instability -/

/-- **C79, Kelvin-Helmholtz instability.** After the shift the gas of the lower half fills the outer quarters and that of the upper half
the middle, in any box. -/
theorem C79_khi_layers {lo size y : ℝ} (h : lo ≤ y) (h' : y < lo + size) :
    (lo ≤ khiShift lo size y ∧ khiShift lo size y < lo + size) ∧
      (y < lo + size / 2 ↔ khiShift lo size y < lo + size / 4 ∨ lo + 3 / 4 * size ≤ khiShift lo size y) := by
  unfold khiShift
  by_cases hc : y - 1 / 4 * size < lo
  · rw [if_pos hc]
    refine ⟨⟨by linarith, by linarith⟩, fun _ => Or.inr (by linarith), fun _ => by linarith⟩
  · rw [if_neg hc]
    push Not at hc
    refine ⟨⟨hc, by linarith⟩, fun h => Or.inl (by linarith), fun h => ?_⟩
    rcases h with h | h <;> linarith

theorem TestIc.khiV_eq (amp lambda x y : ℝ) : khiV amp lambda x y =
    amp * sin (2 * π * x / lambda) * (exp (-(400 * (y + 1 / 4) ^ 2)) + exp (-(400 * (y - 1 / 4) ^ 2))) := by
  unfold khiV
  have h : √2 ^ 2 = (2 : ℝ) := sq_sqrt (by norm_num)
  have h0 : √2 ≠ (0 : ℝ) := by positivity
  have e : ∀ a : ℝ, -a ^ 2 / 2 / (1 / 20 / √2) / (1 / 20 / √2) = -(400 * a ^ 2) := by
    intro a
    field_simp
    rw [h]
    ring
  rw [e, e]

/-- **C79, Kelvin-Helmholtz instability.** In the box from `-1/2` to `1/2` the disturbance is alike at both interfaces, and is at most
an eighth of that a tenth of the box away from both. -/
theorem C79_khi_partial (amp lambda x : ℝ) :
    khiV amp lambda x (-1 / 2 + 1 / 4) = khiV amp lambda x (-1 / 2 + 3 / 4) ∧
      |amp * sin (2 * π * x / lambda)| ≤ |khiV amp lambda x (-1 / 2 + 1 / 4)| ∧
      ∀ y, 1 / 10 ≤ |y - (-1 / 2 + 1 / 4)| → 1 / 10 ≤ |y - (-1 / 2 + 3 / 4)| →
        |khiV amp lambda x y| ≤ 1 / 8 * |amp * sin (2 * π * x / lambda)| := by
  simp only [khiV_eq]
  generalize amp * sin (2 * π * x / lambda) = A
  rw [show (-1 / 2 + 1 / 4 : ℝ) = -1 / 4 by norm_num, show (-1 / 2 + 3 / 4 : ℝ) = 1 / 4 by norm_num]
  refine ⟨by norm_num [add_comm], ?_, fun y h1 h2 => ?_⟩
  · rw [abs_mul, show (-1 / 4 + 1 / 4 : ℝ) = 0 by norm_num]
    refine le_mul_of_one_le_right (abs_nonneg _) ?_
    rw [abs_of_pos (by positivity)]
    norm_num
    exact (exp_pos _).le
  · rw [abs_mul, mul_comm (1 / 8)]
    refine mul_le_mul_of_nonneg_left ?_ (abs_nonneg _)
    rw [abs_of_pos (by positivity)]
    have b : ∀ a : ℝ, 1 / 10 ≤ |a| → exp (-(400 * a ^ 2)) ≤ 1 / 16 := by
      intro a ha
      have : (1 / 100 : ℝ) ≤ a ^ 2 := by
        rw [← sq_abs]
        nlinarith
      have h4 : exp (-(400 * a ^ 2)) ≤ exp (-4) := exp_le_exp.mpr (by linarith)
      have h5 : (16 : ℝ) ≤ exp 4 := by
        have h7 : (2 : ℝ) ≤ exp 1 := by linarith [add_one_le_exp (1 : ℝ)]
        rw [show (4 : ℝ) = (4 : ℕ) * 1 by norm_num, exp_nat_mul]
        calc (16 : ℝ) = 2 ^ 4 := by norm_num
          _ ≤ exp 1 ^ 4 := by gcongr
      have h6 : exp (-4 : ℝ) ≤ 1 / 16 := by
        rw [exp_neg, ← one_div]
        exact one_div_le_one_div_of_le (by norm_num) h5
      linarith
    have b1 := b (y + 1 / 4) (by convert h1 using 2; ring)
    have b2 := b _ h2
    linarith

/-- **C79, negation.** The disturbance does not follow the box: in the box from 0 to 1 the upper interface is hardly disturbed. -/
theorem C79_khi_fails (amp lambda x : ℝ) :
    |khiV amp lambda x (0 + 3 / 4)| ≤ 1 / 50 * |khiV amp lambda x (0 + 1 / 4)| := by
  simp only [khiV_eq]
  rw [abs_mul (amp * _), abs_mul (amp * _), mul_left_comm]
  refine mul_le_mul_of_nonneg_left ?_ (abs_nonneg _)
  rw [abs_of_pos (by positivity), abs_of_pos (by positivity)]
  norm_num
  have h1 : exp (-100 : ℝ) ≤ 1 / 101 := by
    rw [exp_neg, ← one_div]
    exact one_div_le_one_div_of_le (by norm_num) (by linarith [add_one_le_exp (100 : ℝ)])
  have h2 : exp (-400 : ℝ) ≤ exp (-100) := exp_le_exp.mpr (by norm_num)
  linarith [exp_pos (-100 : ℝ)]

/-- A place of the lower half that ends up in the uppermost quarter. -/
example : khiShift (-1 / 2) 1 (-2 / 5) = 7 / 20 := by
  unfold khiShift
  norm_num

end Gandalf
