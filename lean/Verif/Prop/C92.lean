import Verif.Proof.StepLaw
import Verif.Prop.C18

/-!
# C92: the time steps obey the conditions of stability
(src/Hydrodynamics/SphIntegration.cpp, src/MeshlessFV/MfvIntegration.cpp, src/MeshlessFV/MfvCommon.cpp,
src/Nbody/Nbody{LeapfrogKDK,LeapfrogDKD,Hermite4,Hermite6TS}.cpp, src/Nbody/Sinks.cpp, src/Hydrodynamics/SphLeapfrog{KDK,DKD}.cpp)
-/

set_option autoImplicit false

namespace Gandalf

open TStep

variable {n : ℕ}

/-- What a user expects of a step of length `d` of an SPH particle: sound and compression pass at most `courant` smoothing
lengths, the acceleration moves it by at most `accel²/2` of them, the energy changes by at most the fraction `energy`. -/
structure Stable (P : Par) (p : Gas n) (d : ℝ) : Prop where
  courant : P.hydro = true → d * (p.sound + p.h * |p.divv|) ≤ P.courant * p.h
  compression : d * |p.divv| ≤ P.courant
  accel : 1 / 2 * d ^ 2 * √(dot p.a p.a) ≤ P.accel ^ 2 / 2 * p.h
  energy : P.energyInt = true → p.gas = true → d * |p.dudt| ≤ P.energy * p.u

/-- The parameters and the particle are physical. -/
structure Physical (P : Par) (p : Gas n) : Prop where
  courant : 0 < P.courant
  accel : 0 < P.accel
  energy : 0 < P.energy
  h : 0 < p.h
  sound : 0 ≤ p.sound
  u : P.energyInt = true → p.gas = true → 0 < p.u

/-- a shorter step is stable, too -/
theorem Stable.shorter {P : Par} {p : Gas n} {d e : ℝ} (hs : Stable P p d) (he : 0 ≤ e) (hle : e ≤ d) (h : 0 < p.h)
    (hc : 0 ≤ p.sound) : Stable P p e := by
  have hd := he.trans hle
  refine ⟨fun hh => ?_, ?_, ?_, fun h1 h2 => ?_⟩
  · exact (mul_le_mul_of_nonneg_right hle (by positivity)).trans (hs.courant hh)
  · exact (mul_le_mul_of_nonneg_right hle (abs_nonneg _)).trans hs.compression
  · refine le_trans ?_ hs.accel
    have : e ^ 2 ≤ d ^ 2 := by nlinarith
    exact mul_le_mul_of_nonneg_right (by linarith) (Real.sqrt_nonneg _)
  · exact (mul_le_mul_of_nonneg_right hle (abs_nonneg _)).trans (hs.energy h1 h2)

/-- **SPH.** The step is positive, at most 1e20, and stable. -/
theorem C92_sph (P : Par) (p : Gas n) (hp : Physical P p) (d : ℝ) (hd : sphTimestep P p = some d) :
    0 < d ∧ d ≤ 10 ^ 20 ∧ Stable P p d := by
  have hsd := smallDp_pos
  have hsm := small_pos
  unfold sphTimestep at hd
  split_ifs at hd with hbad
  obtain rfl := Option.some.inj hd
  push Not at hbad
  obtain ⟨h1, h2⟩ := hbad
  have hcour : sphStep P p ≤ sphCourant P p := by
    simp only [sphStep]
    split_ifs
    · exact (min_le_left _ _).trans (min_le_left _ _)
    · exact min_le_left _ _
  have hacc : sphStep P p ≤ P.accel * √(p.h / (mag p.a + smallDp)) := by
    simp only [sphStep]
    split_ifs
    · exact (min_le_left _ _).trans (min_le_right _ _)
    · exact min_le_right _ _
  have hdiv := abs_nonneg p.divv
  have hh := hp.h
  have hs := hp.sound
  have hcomp : sphStep P p * (p.h * |p.divv| + smallDp) ≤ P.courant * p.h := by
    unfold sphCourant at hcour
    split_ifs at hcour with hy
    · rw [le_div_iff₀ (by positivity)] at hcour
      nlinarith [mul_nonneg h2.le hs]
    · rwa [le_div_iff₀ (by positivity)] at hcour
  refine ⟨h2, h1, ⟨fun hy => ?_, ?_, ?_, fun e1 e2 => ?_⟩⟩
  · unfold sphCourant at hcour
    rw [if_pos hy, le_div_iff₀ (by positivity)] at hcour
    nlinarith
  · have : p.h * (sphStep P p * |p.divv|) ≤ p.h * P.courant := by nlinarith
    exact le_of_mul_le_mul_left this hh
  · have := sq_le_of_le h2.le hp.accel.le hh.le (mag_nonneg p.a) hsd hacc
    unfold mag at this
    linarith
  · have he : sphStep P p ≤ P.energy * (p.u / (|p.dudt| + small)) := by
      simp only [sphStep, e1, e2, Bool.and_self, if_true]
      exact min_le_right _ _
    have hdu := abs_nonneg p.dudt
    rw [mul_div_assoc', le_div_iff₀ (by positivity)] at he
    nlinarith

/-- **SPH.** The step is not shorter than need be: it is the longest one that keeps the conditions with the small numbers that
are there to avoid divisions by zero. -/
theorem C92_sph_longest (P : Par) (p : Gas n) (hp : Physical P p) (d : ℝ) (hd : sphTimestep P p = some d) :
    IsGreatest {d : ℝ | 0 ≤ d ∧ d * ((if P.hydro then p.sound else 0) + p.h * |p.divv| + smallDp) ≤ P.courant * p.h ∧
      d ^ 2 * (√(dot p.a p.a) + smallDp) ≤ P.accel ^ 2 * p.h ∧
      (P.energyInt = true → p.gas = true → d * (|p.dudt| + small) ≤ P.energy * p.u)} d := by
  have hsd := smallDp_pos
  have hsm := small_pos
  have hpos := (C92_sph P p hp d hd).1
  have hdiv := abs_nonneg p.divv
  have hdu := abs_nonneg p.dudt
  have hm := mag_nonneg p.a
  have hh := hp.h
  have hs := hp.sound
  have e : ∀ x : ℝ, x ≤ sphStep P p ↔ x ≤ sphCourant P p ∧ x ≤ P.accel * √(p.h / (mag p.a + smallDp)) ∧
      (P.energyInt = true → p.gas = true → x ≤ P.energy * (p.u / (|p.dudt| + small))) := by
    intro x
    simp only [sphStep]
    split_ifs with h
    · rw [Bool.and_eq_true] at h
      rw [le_min_iff, le_min_iff]
      exact ⟨fun q => ⟨q.1.1, q.1.2, fun _ _ => q.2⟩, fun q => ⟨⟨q.1, q.2.1⟩, q.2.2 h.1 h.2⟩⟩
    · rw [le_min_iff]
      refine ⟨fun q => ⟨q.1, q.2, fun h1 h2 => absurd (by rw [h1, h2]; rfl) h⟩, fun q => ⟨q.1, q.2.1⟩⟩
  have hc : ∀ x : ℝ, x ≤ sphCourant P p ↔ x * ((if P.hydro then p.sound else 0) + p.h * |p.divv| + smallDp) ≤ P.courant * p.h := by
    intro x
    unfold sphCourant
    split_ifs with hy
    · rw [le_div_iff₀ (by positivity)]
    · rw [le_div_iff₀ (by positivity), zero_add]
  have key : ∀ x : ℝ, 0 ≤ x → (x ≤ sphStep P p ↔
      x * ((if P.hydro then p.sound else 0) + p.h * |p.divv| + smallDp) ≤ P.courant * p.h ∧
      x ^ 2 * (√(dot p.a p.a) + smallDp) ≤ P.accel ^ 2 * p.h ∧
      (P.energyInt = true → p.gas = true → x * (|p.dudt| + small) ≤ P.energy * p.u)) := by
    intro x hx
    rw [e, hc, le_mul_sqrt_iff hx hp.accel.le hh.le (by positivity), mul_div_assoc', le_div_iff₀ (by positivity)]
    rfl
  have hd' : d = sphStep P p := by
    unfold sphTimestep at hd
    split_ifs at hd
    exact (Option.some.inj hd).symm
  refine ⟨⟨hpos.le, (key d hpos.le).mp hd'.le⟩, fun x hx => ?_⟩
  rw [hd']
  exact (key x hx.1).mpr hx.2

/-- **SPH.** A physical particle with a sound speed, not absurdly large, always gets a step. -/
theorem C92_sph_runs (P : Par) (p : Gas n) (hp : Physical P p) (hy : P.hydro = true)
    (hc : P.courant * p.h ≤ 10 ^ 20 * p.sound) : ∃ d, sphTimestep P p = some d := by
  have hsd := smallDp_pos
  have hsm := small_pos
  have hdiv := abs_nonneg p.divv
  have hdu := abs_nonneg p.dudt
  have hh := hp.h
  have hs := hp.sound
  have hc1 : 0 < sphCourant P p := by
    unfold sphCourant
    rw [if_pos hy]
    have := hp.courant
    positivity
  have ha1 : 0 < P.accel * √(p.h / (mag p.a + smallDp)) := by
    have := hp.accel
    have := mag_nonneg p.a
    positivity
  have hpos : 0 < sphStep P p := by
    simp only [sphStep]
    split_ifs with h
    · rw [Bool.and_eq_true] at h
      have := hp.u h.1 h.2
      have := hp.energy
      exact lt_min (lt_min hc1 ha1) (by positivity)
    · exact lt_min hc1 ha1
  have hle : sphStep P p ≤ 10 ^ 20 := by
    have : sphStep P p ≤ sphCourant P p := by
      simp only [sphStep]
      split_ifs
      · exact (min_le_left _ _).trans (min_le_left _ _)
      · exact min_le_left _ _
    refine this.trans ?_
    unfold sphCourant
    rw [if_pos hy, div_le_iff₀ (by positivity)]
    have : 0 ≤ p.h * |p.divv| := by positivity
    nlinarith
  refine ⟨sphStep P p, ?_⟩
  unfold sphTimestep
  rw [if_neg]
  push Not
  exact ⟨hle, hpos⟩

/-- **Negation.** Gas without internal energy stops the run when the energy is integrated. -/
theorem C92_cold_fails (P : Par) (p : Gas n) (he : P.energyInt = true) (hg : p.gas = true) (hu : p.u = 0) :
    sphTimestep P p = none := by
  unfold sphTimestep
  rw [if_pos]
  right
  simp only [sphStep, he, hg, hu, Bool.and_self, if_true, zero_div, mul_zero]
  exact min_le_right _ _

/-- **Negation.** Particles at rest without pressure and forces, for which any step would do, stop the run. -/
theorem C92_rest_fails (P : Par) (p : Gas n) (he : P.energyInt = false) (hs : p.sound = 0) (hdiv : p.divv = 0)
    (ha : p.a = fun _ => 0) (h1 : 1 / 10 ^ 10 ≤ P.courant) (h2 : 1 / 10 ^ 4 ≤ P.accel) (hh : 1 ≤ p.h) :
    sphTimestep P p = none := by
  unfold sphTimestep
  rw [if_pos]
  left
  have hm : mag p.a = 0 := by rw [ha]; simp [mag, dot]
  have hc : sphCourant P p = P.courant * p.h * 10 ^ 50 := by
    unfold sphCourant
    rw [hs, hdiv]
    split_ifs <;> simp [smallDp]
  simp only [sphStep, he, Bool.false_and, hc, hm, zero_add, smallDp]
  refine lt_min ?_ ?_
  · have : (1 : ℝ) / 10 ^ 10 * 1 ≤ P.courant * p.h := mul_le_mul h1 hh zero_le_one (by linarith [show (0:ℝ) < 1 / 10 ^ 10 by positivity])
    have h3 : (1 : ℝ) / 10 ^ 10 * 1 * 10 ^ 50 ≤ P.courant * p.h * 10 ^ 50 := mul_le_mul_of_nonneg_right this (by positivity)
    refine lt_of_lt_of_le ?_ h3
    norm_num
  · have h3 : (10 : ℝ) ^ 25 ≤ √(p.h / (1 / 10 ^ 50)) := by
      apply Real.le_sqrt_of_sq_le
      rw [div_div_eq_mul_div, div_one]
      nlinarith [show (0 : ℝ) < 10 ^ 50 by positivity]
    have : (1 : ℝ) / 10 ^ 4 * 10 ^ 25 ≤ P.accel * √(p.h / (1 / 10 ^ 50)) :=
      mul_le_mul h2 h3 (by positivity) (by linarith [show (0:ℝ) < 1 / 10 ^ 4 by positivity])
    refine lt_of_lt_of_le ?_ this
    norm_num

/-- **Block steps.** At a resynchronisation each live particle begins a stable step (with C18). -/
theorem C92_block {cfg : Block.Cfg} (hc : cfg.OK) {s s' : Block.State} (hn : s.n = s.nresync)
    (h1 : ∀ p ∈ s.hydro, 0 < p.req) (h2 : ∀ p ∈ s.stars, 0 < p.req ∧ p.dead = false)
    (ha : Block.apply cfg s .block = some s') (P : Par) (g : ℕ → Gas n) (i : ℕ) (p : Block.Part)
    (hi : s.hydro[i]? = some p) (hd : p.dead = false) (hp : Physical P (g i)) (hreq : sphTimestep P (g i) = some p.req)
    (ht : 0 ≤ s'.timestep) :
    ∃ q, s'.hydro[i]? = some q ∧ q.nlast = s'.n ∧ Stable P (g i) (q.nstep * s'.timestep) := by
  obtain ⟨q, q1, q2, q3⟩ := (C18_resync hc hn h1 h2 ha).1 i p hi hd
  exact ⟨q, q1, q2, (C92_sph P (g i) hp p.req hreq).2.2.shorter (mul_nonneg (Nat.cast_nonneg _) ht) q3 hp.h hp.sound⟩

/-- **Global steps.** With kick-drift-kick the common step is stable for every particle. -/
theorem C92_global {cfg : Block.Cfg} {s : Block.State} (hn : s.n = s.nresync) (h1 : cfg.integration_step = 1) (P : Par)
    (hpos : ∀ p ∈ s.hydro ++ s.stars, 0 < p.req) (hb : 0 < cfg.big)
    (g : Gas n) (hp : Physical P g) (p : Block.Part) (hmem : p ∈ s.hydro) (hreq : sphTimestep P g = some p.req) :
    Stable P g (Block.computeGlobal cfg s).timestep := by
  have h0 : (Block.computeGlobal cfg s).timestep =
      min ((s.hydro ++ s.stars).foldl (fun m p => min m p.req) cfg.big) cfg.big := by
    unfold Block.computeGlobal
    rw [if_pos hn]
  have hle : (Block.computeGlobal cfg s).timestep ≤ p.req := by
    have hq := C18_global hn h1 (Block.globalPart 0 (Block.computeGlobal cfg s).timestep p) (by
      refine List.mem_append_left _ ?_
      unfold Block.computeGlobal
      rw [if_pos hn]
      refine List.mem_map.mpr ⟨p, hmem, ?_⟩
      simp only [h1])
    simpa [Block.globalPart, Block.pow2] using hq
  have hfold : ∀ (l : List Block.Part) (m : ℝ), 0 < m → (∀ p ∈ l, 0 < p.req) → 0 < l.foldl (fun m p => min m p.req) m := by
    intro l
    induction l with
    | nil => intro m hm _; exact hm
    | cons a l ih =>
      intro m hm hl
      exact ih _ (lt_min hm (hl a List.mem_cons_self)) fun p hp => hl p (List.mem_cons_of_mem _ hp)
  refine (C92_sph P g hp p.req hreq).2.2.shorter ?_ hle hp.h hp.sound
  rw [h0]
  exact le_min (hfold _ _ hb hpos).le hb.le

/-! ### Meshless schemes -/

/-- **Signal speed.** `vsig_max` is at least the signal speed of every pair and is that of one of them; with a neighbour it is
at least the own sound speed. -/
theorem C92_signal_speed (i : Neib n) (l : List (Neib n)) (hl : l ≠ []) (hi : 0 ≤ i.sound) (hs : ∀ j ∈ l, 0 ≤ j.sound) :
    (∀ j ∈ l, i.sound + j.sound +
      max 0 (-dot (fun k => j.v k - i.v k) (fun k => j.r k - i.r k) / (√(dot (fun k => j.r k - i.r k) (fun k => j.r k - i.r k)) + small))
        ≤ vsigMax i l) ∧
    (∃ j ∈ l, vsigMax i l = pairSpeed i j) ∧ i.sound ≤ vsigMax i l := by
  obtain ⟨h1, h2, h3⟩ := foldl_max (pairSpeed i) l 0
  have hpair : ∀ j, pairSpeed i j = i.sound + j.sound +
      max 0 (-dot (fun k => j.v k - i.v k) (fun k => j.r k - i.r k) /
        (√(dot (fun k => j.r k - i.r k) (fun k => j.r k - i.r k)) + small)) := by
    intro j
    unfold pairSpeed mag
    rw [sub_eq_add_neg, ← max_neg_neg, neg_zero, neg_div]
  have hsl : ∀ j ∈ l, i.sound ≤ pairSpeed i j := by
    intro j hj
    rw [hpair]
    have := hs j hj
    have := le_max_left (0 : ℝ) (-dot (fun k => j.v k - i.v k) (fun k => j.r k - i.r k) /
        (√(dot (fun k => j.r k - i.r k) (fun k => j.r k - i.r k)) + small))
    linarith
  obtain ⟨j0, hj0⟩ := List.exists_mem_of_ne_nil l hl
  refine ⟨fun j hj => ?_, ?_, (hsl j0 hj0).trans (h2 j0 hj0)⟩
  · rw [← hpair]
    exact h2 j hj
  · rcases h3 with h3 | h3
    · refine ⟨j0, hj0, ?_⟩
      have a := h2 j0 hj0
      have b := hsl j0 hj0
      show vsigMax i l = _
      unfold vsigMax
      rw [h3] at a ⊢
      linarith
    · exact h3

/-- **Meshless schemes.** Signals pass at most `2 courant` smoothing lengths in a step, viscosity spreads over less than
`visc_mult/2` of their square, and the recorded acceleration moves the particle by at most `accel²/2` of them; the step is positive. -/
theorem C92_mfv (P : MfvPar) (p : Cell n) (hh : 0 < p.h) (hv : 0 ≤ p.vsig) (h1 : 0 < P.courant) (h2 : 0 < P.accel)
    (h3 : 0 < P.viscMult) :
    0 < mfvTimestep P p ∧
    (P.hydro = true → mfvTimestep P p * p.vsig ≤ 2 * P.courant * p.h ∧
      (0 < P.visc → mfvTimestep P p * P.visc ≤ P.viscMult / 2 * p.h ^ 2)) ∧
    (P.hydro = true ∨ P.gravity = true →
      1 / 2 * mfvTimestep P p ^ 2 * √(dot p.a0 p.a0) ≤ P.accel ^ 2 / 2 * p.h) := by
  have hsm := small_pos
  have hd := dot_self_nonneg p.a0
  have hb : 0 < √(dot p.a0 p.a0 + small) := Real.sqrt_pos.mpr (by positivity)
  have hg : 0 < mfvGrav P p := by unfold mfvGrav; positivity
  have hx : ∀ x, 0 < x → 0 < minCfl P p x ∧ minCfl P p x ≤ x ∧ minCfl P p x * p.vsig ≤ 2 * P.courant * p.h := by
    intro x hx
    unfold minCfl
    split_ifs with h0
    · exact ⟨hx, le_rfl, by rw [h0, mul_zero]; positivity⟩
    · have hvp : 0 < p.vsig := lt_of_le_of_ne hv (Ne.symm h0)
      refine ⟨lt_min (by positivity) hx, min_le_right _ _, ?_⟩
      rw [← le_div_iff₀ hvp]
      exact min_le_left _ _
  set x := if P.visc > 0 then min (P.viscMult * (1 / 2) * p.h * p.h / P.visc) (mfvGrav P p) else mfvGrav P p with hxdef
  have hxp : 0 < x ∧ x ≤ mfvGrav P p ∧ (0 < P.visc → x * P.visc ≤ P.viscMult / 2 * p.h ^ 2) := by
    rw [hxdef]
    split_ifs with hvi
    · refine ⟨lt_min (by positivity) hg, min_le_right _ _, fun _ => ?_⟩
      have := min_le_left (P.viscMult * (1 / 2) * p.h * p.h / P.visc) (mfvGrav P p)
      rw [le_div_iff₀ hvi] at this
      linarith
    · exact ⟨hg, le_rfl, fun h => absurd h hvi⟩
  have hstep : mfvTimestep P p = if P.hydro then minCfl P p x else if P.gravity then mfvGrav P p else big := rfl
  have hacc : ∀ d, 0 < d → d ≤ mfvGrav P p → 1 / 2 * d ^ 2 * √(dot p.a0 p.a0) ≤ P.accel ^ 2 / 2 * p.h := by
    intro d hd0 hdl
    have := (le_mul_sqrt_iff hd0.le h2.le hh.le hb).mp hdl
    have hle : √(dot p.a0 p.a0) ≤ √(dot p.a0 p.a0 + small) := Real.sqrt_le_sqrt (by linarith)
    have := mul_le_mul_of_nonneg_left hle (sq_nonneg d)
    linarith
  rw [hstep]
  obtain ⟨a1, a2, a3⟩ := hx x hxp.1
  refine ⟨?_, fun hy => ?_, fun hor => ?_⟩
  · split_ifs
    · exact a1
    · exact hg
    · exact big_pos
  · rw [if_pos hy]
    refine ⟨a3, fun hvi => ?_⟩
    exact (mul_le_mul_of_nonneg_right a2 hvi.le).trans (hxp.2.2 hvi)
  · by_cases hy : P.hydro = true
    · rw [if_pos hy]
      exact hacc _ a1 (a2.trans hxp.2.1)
    · have hgr := hor.resolve_left hy
      rw [if_neg hy, if_pos hgr]
      exact hacc _ hg le_rfl

/-- **Negation.** In the MUSCL scheme the acceleration that goes into the step is that of the beginning of the step before:
the one the particle is then moved with may violate the condition by any factor `K`. -/
theorem C92_muscl_stale_fails (K : ℝ) : ∃ (P : MfvPar) (p : Cell 1) (acc : Vec 1 ℝ), P.gravity = true ∧
    0 < P.accel ∧ 0 < p.h ∧
    let q := musclEnd P p acc
    q.2.a0 = acc ∧ K * (P.accel ^ 2 / 2 * p.h) < 1 / 2 * q.1 ^ 2 * √(dot q.2.a0 q.2.a0) := by
  refine ⟨⟨1, 1, 1, 0, false, true⟩, ⟨1, 0, fun _ => 0, fun _ => 0⟩, fun _ => |K| + 1, rfl, one_pos, one_pos, ?_⟩
  have hm : mfvTimestep ⟨1, 1, 1, 0, false, true⟩ (⟨1, 0, fun _ => 0, fun _ => |K| + 1⟩ : Cell 1) = √(10 ^ 10) := by
    simp [mfvTimestep, mfvGrav, dot, small]
    rw [show (10 : ℝ) ^ 20 = (10 ^ 10) ^ 2 by norm_num]
    exact Real.sqrt_sq (by positivity)
  simp only [musclEnd]
  refine ⟨trivial, ?_⟩
  rw [hm, Real.sq_sqrt (by positivity)]
  have : √(dot (fun _ : Fin 1 => |K| + 1) fun _ => |K| + 1) = |K| + 1 := by
    simp only [dot, Finset.univ_unique, Finset.sum_singleton]
    exact Real.sqrt_mul_self (by positivity)
  rw [this]
  have := le_abs_self K
  have := abs_nonneg K
  norm_num
  linarith

/-! ### Stars -/

/-- **Leapfrog.** The step is positive, at most the internal one, and the acceleration moves the star by at most `mult²/2`
smoothing lengths. -/
theorem C92_leapfrog (mult h internal : ℝ) (a : Vec n ℝ) (hm : 0 < mult) (hh : 0 < h) (hi : 0 < internal) :
    0 < leapStep mult h a internal ∧ leapStep mult h a internal ≤ internal ∧
      1 / 2 * leapStep mult h a internal ^ 2 * √(dot a a) ≤ mult ^ 2 / 2 * h := by
  have hsd := smallDp_pos
  have hmag := mag_nonneg a
  have hpos : 0 < leapStep mult h a internal := by
    unfold leapStep
    exact lt_min (by positivity) hi
  refine ⟨hpos, min_le_right _ _, ?_⟩
  have := sq_le_of_le hpos.le hm.le hh.le hmag hsd (min_le_left _ _)
  unfold mag at this
  change leapStep mult h a internal ^ 2 * √(dot a a) ≤ mult ^ 2 * h at this
  linarith

/-- **Hermite.** The step is positive and at most the internal one. -/
theorem C92_aarseth_positive (mult h internal : ℝ) (a a1 a2 a3 : Vec n ℝ) (hm : 0 < mult) (hh : 0 < h) (hi : 0 < internal) :
    0 < aarseth mult h a a1 a2 a3 internal ∧ aarseth mult h a a1 a2 a3 internal ≤ internal := by
  have hsd := smallDp_pos
  refine ⟨lt_min ?_ hi, min_le_right _ _⟩
  split_ifs with c1 c2 c3
  · have p1 : 0 < dot a1 a1 := hsd.trans c1.1
    have p2 : 0 < dot a2 a2 := hsd.trans c1.2
    positivity
  · have p1 : 0 < dot a a := hsd.trans c2.1
    have p2 : 0 < dot a2 a2 := hsd.trans c2.2
    positivity
  · positivity
  · exact bigDp_pos

/-- **Hermite.** On a circular orbit of angular frequency `w` (the derivatives of the acceleration are `w`, `w²`, `w³` times as
large) the step is `mult / w`: the same number of steps in each orbit. -/
theorem C92_aarseth_orbit (mult h A w internal : ℝ) (a a1 a2 a3 : Vec n ℝ) (hA : 0 < A) (hw : 0 < w)
    (e0 : dot a a = A ^ 2) (e1 : dot a1 a1 = (A * w) ^ 2) (e2 : dot a2 a2 = (A * w ^ 2) ^ 2) (e3 : dot a3 a3 = (A * w ^ 3) ^ 2)
    (h1 : smallDp < (A * w) ^ 2) (h2 : smallDp < (A * w ^ 2) ^ 2) :
    aarseth mult h a a1 a2 a3 internal = min (mult / w) internal := by
  unfold aarseth
  rw [e0, e1, e2, e3]
  simp only [gt_iff_lt, h1, h2, and_self, if_true]
  congr 1
  have s1 : √(A ^ 2 * (A * w ^ 2) ^ 2) = (A * w) ^ 2 := by
    rw [show A ^ 2 * (A * w ^ 2) ^ 2 = ((A * w) ^ 2) ^ 2 by ring]
    exact Real.sqrt_sq (by positivity)
  have s2 : √((A * w) ^ 2 * (A * w ^ 3) ^ 2) = (A * w ^ 2) ^ 2 := by
    rw [show (A * w) ^ 2 * (A * w ^ 3) ^ 2 = ((A * w ^ 2) ^ 2) ^ 2 by ring]
    exact Real.sqrt_sq (by positivity)
  rw [s1, s2]
  have : ((A * w) ^ 2 + (A * w) ^ 2) / ((A * w ^ 2) ^ 2 + (A * w ^ 2) ^ 2) = (1 / w) ^ 2 := by
    field_simp
  rw [this, Real.sqrt_sq (by positivity)]
  ring

/-- **Hermite, units.** In units of time `l` times as small and any unit of length the step is `l` times as long, as long as the
derivatives stay above the thresholds. -/
theorem C92_aarseth_units (mult h h' internal l s : ℝ) (a a1 a2 a3 : Vec n ℝ) (hl : 0 < l) (hs : 0 < s)
    (g1 : smallDp < dot a1 a1) (g2 : smallDp < dot a2 a2) (k1 : smallDp < (s / l) ^ 2 * dot a1 a1)
    (k2 : smallDp < (s / l ^ 2) ^ 2 * dot a2 a2) :
    aarseth mult h' (fun k => s * a k) (fun k => s / l * a1 k) (fun k => s / l ^ 2 * a2 k) (fun k => s / l ^ 3 * a3 k) (l * internal) =
      l * aarseth mult h a a1 a2 a3 internal := by
  unfold aarseth
  simp only [dot_smul_smul]
  simp only [gt_iff_lt, g1, g2, k1, k2, and_self, if_true]
  have p1 := smallDp_pos.trans g1
  have p2 := smallDp_pos.trans g2
  rw [mul_min_of_nonneg _ _ hl.le]
  congr 1
  have n0 := dot_self_nonneg a
  have n3 := dot_self_nonneg a3
  generalize dot a a = x0 at *
  generalize dot a1 a1 = x1 at *
  generalize dot a2 a2 = x2 at *
  generalize dot a3 a3 = x3 at *
  have s1 : √(s ^ 2 * x0 * ((s / l ^ 2) ^ 2 * x2)) = (s / l) ^ 2 * √(x0 * x2) := by
    rw [show s ^ 2 * x0 * ((s / l ^ 2) ^ 2 * x2) = ((s / l) ^ 2) ^ 2 * (x0 * x2) by field_simp, Real.sqrt_mul (by positivity),
      Real.sqrt_sq (by positivity)]
  have s2 : √((s / l) ^ 2 * x1 * ((s / l ^ 3) ^ 2 * x3)) = (s / l ^ 2) ^ 2 * √(x1 * x3) := by
    rw [show (s / l) ^ 2 * x1 * ((s / l ^ 3) ^ 2 * x3) = ((s / l ^ 2) ^ 2) ^ 2 * (x1 * x3) by field_simp,
      Real.sqrt_mul (by positivity), Real.sqrt_sq (by positivity)]
  rw [s1, s2]
  have : ((s / l) ^ 2 * √(x0 * x2) + (s / l) ^ 2 * x1) / ((s / l ^ 2) ^ 2 * √(x1 * x3) + (s / l ^ 2) ^ 2 * x2) =
      l ^ 2 * ((√(x0 * x2) + x1) / (√(x1 * x3) + x2)) := by
    have : 0 < √(x1 * x3) + x2 := by positivity
    generalize √(x1 * x3) = y at *
    generalize √(x0 * x2) = z at *
    field_simp
  rw [this, Real.sqrt_mul (by positivity), Real.sqrt_sq hl.le]
  ring

/-- **Negation.** When the derivatives of the acceleration vanish, the multiplier the user sets is not used: the acceleration
moves the star by half its smoothing length, whatever `mult`. -/
theorem C92_aarseth_fallback_fails (mult h internal : ℝ) (a a1 a2 a3 : Vec n ℝ) (hh : 0 < h) (h1 : dot a1 a1 = 0) (h2 : dot a2 a2 = 0)
    (h0 : smallDp < dot a a) (hi : √(h / (√(dot a a) + smallDp)) ≤ internal) :
    aarseth mult h a a1 a2 a3 internal = √(h / (√(dot a a) + smallDp)) ∧
      1 / 2 * aarseth mult h a a1 a2 a3 internal ^ 2 * (√(dot a a) + smallDp) = h / 2 := by
  have hsd := smallDp_pos
  have e : aarseth mult h a a1 a2 a3 internal = √(h / (√(dot a a) + smallDp)) := by
    unfold aarseth
    rw [h1, h2]
    simp only [gt_iff_lt, not_lt.mpr hsd.le, and_self, and_false, if_false, h0, if_true]
    exact min_eq_left hi
  refine ⟨e, ?_⟩
  rw [e, Real.sq_sqrt (by positivity)]
  field_simp

/-- **Negation.** Where the first derivative vanishes the code takes the ratio of the squares of the acceleration and its second
derivative, which is the fourth power of a time and not the second: the step jumps to more than three times the steps of all
states nearby. -/
theorem C92_aarseth_turn_fails (mult h : ℝ) (hm : 0 < mult) (hm' : mult ≤ 1) :
    15 * mult ≤ aarseth mult h (![16] : Vec 1 ℝ) ![0] ![1] ![0] 100 ∧
    ∀ e : ℝ, smallDp < e ^ 2 → e ^ 2 ≤ 1 → aarseth mult h (![16] : Vec 1 ℝ) ![e] ![1] ![0] 100 ≤ 5 * mult := by
  have hsd := smallDp_pos
  have hsd' : smallDp < 1 / 100 := by norm_num [smallDp]
  constructor
  · unfold aarseth
    have d0 : dot (![0] : Vec 1 ℝ) ![0] = 0 := by simp [dot]
    have d1 : dot (![1] : Vec 1 ℝ) ![1] = 1 := by simp [dot]
    have d2 : dot (![16] : Vec 1 ℝ) ![16] = 256 := by norm_num [dot]
    rw [d0, d1, d2, if_neg (fun c => absurd c.1 (not_lt.mpr hsd.le)), if_pos ⟨by linarith, by linarith⟩]
    refine le_min ?_ (by linarith)
    have : (15 : ℝ) ≤ √(256 / (1 + smallDp)) := by
      refine Real.le_sqrt_of_sq_le ?_
      rw [le_div_iff₀ (by linarith)]
      linarith
    linarith [mul_le_mul_of_nonneg_left this hm.le]
  · intro e he he'
    unfold aarseth
    have d0 : dot (![0] : Vec 1 ℝ) ![0] = 0 := by simp [dot]
    have d1 : dot (![1] : Vec 1 ℝ) ![1] = 1 := by simp [dot]
    have d2 : dot (![16] : Vec 1 ℝ) ![16] = 256 := by norm_num [dot]
    have de : dot (![e] : Vec 1 ℝ) ![e] = e ^ 2 := by simp [dot, sq]
    rw [d0, d1, d2, de, if_pos ⟨he, by linarith⟩]
    refine (min_le_left _ _).trans ?_
    have s1 : √((256 : ℝ) * 1) = 16 := by
      rw [show (256 : ℝ) * 1 = 16 ^ 2 by norm_num]
      exact Real.sqrt_sq (by norm_num)
    rw [s1, mul_zero, Real.sqrt_zero, zero_add, div_one]
    have : √(16 + e ^ 2) ≤ 5 := Real.sqrt_le_iff.mpr ⟨by norm_num, by linarith⟩
    linarith [mul_le_mul_of_nonneg_left this hm.le]

/-- **Sinks.** The internal step of a sink is positive and the acceleration moves it by at most 0.08 of its radius. -/
theorem C92_sink (radius : ℝ) (a : Vec n ℝ) (hr : 0 < radius) :
    0 < sinkInternal radius a ∧ 1 / 2 * sinkInternal radius a ^ 2 * √(dot a a) ≤ 8 / 100 * radius := by
  have hsm := small_pos
  have hpos : 0 < sinkInternal radius a := by unfold sinkInternal; positivity
  refine ⟨hpos, ?_⟩
  have := sq_le_of_le (b := √(dot a a)) hpos.le (by norm_num : (0 : ℝ) ≤ 4 / 10) hr.le (Real.sqrt_nonneg _) hsm le_rfl
  linarith

/-! ### Internal energy -/

/-- **Energy, partial.** With `0 < mult < 1`: a step that was chosen with energy `w` and rate `q` keeps the predicted energy
positive at all its times if the energy it begins with is more than `mult w`; the end of the step then leaves a positive
energy. Missing: that the energy it begins with is large enough (`C92_energy_fails`). -/
theorem C92_energy_partial (mult w q t : ℝ) (p : Heat) (hw : 0 < w) (hm : 0 < mult) (hdt : p.dt ≤ mult * (w / (|q| + small)))
    (hq : p.dudt0 = q) (hu : mult * w < p.u0) (h0 : 0 ≤ p.dt) (ht0 : p.tlast ≤ t) (ht1 : t ≤ p.tlast + p.dt) :
    0 < (kdkAdvance t p).u ∧
    ∀ rate d, 0 < (kdkEnd (p.tlast + p.dt) d { kdkAdvance (p.tlast + p.dt) p with dudt := rate }).u0 := by
  have hsm := small_pos
  have key : ∀ s, 0 ≤ s → s ≤ p.dt → 0 < p.u0 + p.dudt0 * s := by
    intro s s0 s1
    have hs : s * (|q| + small) ≤ mult * w := by
      have := s1.trans hdt
      rw [mul_div_assoc', le_div_iff₀ (by positivity)] at this
      exact this
    have hab := neg_abs_le q
    rw [hq]
    nlinarith
  refine ⟨key _ (by linarith) (by linarith), fun rate d => ?_⟩
  have hk := key p.dt h0 le_rfl
  simp only [kdkEnd, kdkAdvance]
  by_cases hle : p.u0 + p.dudt0 * (p.tlast + p.dt - p.tlast) + 1 / 2 * (rate - p.dudt0) * p.dt ≤ 0
  · exact lt_of_lt_of_eq hk (if_pos hle).symm
  · exact lt_of_lt_of_eq (not_le.mp hle) (if_neg hle).symm

/-- **Negation.** The correction at the end of a step lowers the energy after the new step has been chosen: gas that cools from
the middle of a step on has a negative energy at the end of the next, and the run stops. -/
theorem C92_energy_fails : ∃ (p p1 : Heat), 0 < p.u0 ∧ p.u = p.u0 ∧ p.dt ≤ 2 / 5 * (p.u / (|p.dudt0| + small)) ∧
    kdkTurn (2 / 5) (-3 / 2) 1 p = some p1 ∧ (kdkAdvance (p1.tlast + p1.dt) p1).u < 0 ∧
    ∀ rate other, kdkTurn (2 / 5) rate other p1 = none := by
  have hsm := small_pos
  have hs1 : small ≤ 1 / 100 := by unfold small; norm_num
  have hd : 26 / 100 < 2 / 5 * ((1 : ℝ) / (|-3 / 2| + small)) := by
    rw [show |(-3 / 2 : ℝ)| = 3 / 2 by norm_num, mul_div_assoc', lt_div_iff₀ (by positivity)]
    linarith
  have hd1 : 2 / 5 * ((1 : ℝ) / (|-3 / 2| + small)) ≤ 1 := by
    rw [show |(-3 / 2 : ℝ)| = 3 / 2 by norm_num, mul_div_assoc', div_le_iff₀ (by positivity)]
    linarith
  set d := 2 / 5 * ((1 : ℝ) / (|-3 / 2| + small)) with hdd
  have hneg : (1 / 4 : ℝ) + -3 / 2 * d < 0 := by linarith
  refine ⟨⟨1, 1, 0, 0, 0, 1⟩, ⟨1 / 4, 1 / 4, -3 / 2, -3 / 2, 1, d⟩, one_pos, rfl, ?_, ?_, ?_, ?_⟩
  · simp only [abs_zero, zero_add, small]
    norm_num
  · have e : (1 : ℝ) + 0 * (0 + 1 - 0) = 1 := by norm_num
    simp only [kdkTurn, kdkAdvance, kdkEnd, e, ← hdd]
    rw [min_eq_right hd1, if_neg (by linarith)]
    norm_num
  · simp only [kdkAdvance]
    have : (1 : ℝ) + d - 1 = d := by ring
    rw [this]
    exact hneg
  · intro rate other
    simp only [kdkTurn, kdkAdvance]
    refine if_pos ?_
    refine (min_le_right _ _).trans ?_
    have : (1 : ℝ) + d - 1 = d := by ring
    rw [this]
    have h1 : 0 < |rate| + small := by positivity
    have := div_neg_of_neg_of_pos hneg h1
    linarith

/-- **Negation.** In the drift-kick-drift scheme the rate of the middle of the step is used over the whole step, with a step
chosen from the rate before. -/
theorem C92_energy_dkd_fails : ∃ (p : Heat), 0 < p.u0 ∧ p.u = p.u0 ∧ p.dt ≤ 2 / 5 * (p.u / (|p.dudt| + small)) ∧
    ∀ other, dkdTurn (2 / 5) (-2) other p = none := by
  have hsm := small_pos
  refine ⟨⟨1, 1, 0, 0, 0, 1⟩, one_pos, rfl, ?_, fun other => ?_⟩
  · simp only [abs_zero, zero_add, small]
    norm_num
  · simp only [dkdTurn]
    rw [if_pos]
    refine (min_le_right _ _).trans ?_
    have h1 : 0 < |(-2 : ℝ)| + small := by positivity
    have : ((1 : ℝ) + -2 * (0 + 1 - 0)) / (|-2| + small) < 0 := div_neg_of_neg_of_pos (by norm_num) h1
    linarith

/-! ### Cases -/

/-- a warm particle -/
noncomputable def C92.warm : Gas 2 := ⟨1 / 10, 1, -2, ![3, 4], 5 / 2, -1, true⟩

/-- the default multipliers, Common/Parameters.cpp:239-240, 263 -/
noncomputable def C92.par : Par := ⟨15 / 100, 3 / 10, 4 / 10, true, true⟩

theorem C92.warm_physical : Physical C92.par C92.warm := by
  constructor <;> norm_num [C92.par, C92.warm]

example : ∃ d, sphTimestep C92.par C92.warm = some d ∧ 0 < d ∧ d ≤ 10 ^ 20 ∧ Stable C92.par C92.warm d := by
  obtain ⟨d, hd⟩ := C92_sph_runs C92.par C92.warm C92.warm_physical rfl (by norm_num [C92.par, C92.warm])
  exact ⟨d, hd, C92_sph _ _ C92.warm_physical d hd⟩

/-- Dust at rest. -/
example : sphTimestep C92.par (⟨1, 0, 0, fun _ => 0, 0, 0, true⟩ : Gas 2) = none := C92_cold_fails _ _ rfl rfl rfl

example : sphTimestep { C92.par with energyInt := false } (⟨1, 0, 0, fun _ => 0, 0, 0, true⟩ : Gas 2) = none :=
  C92_rest_fails _ _ rfl rfl rfl rfl (by norm_num [C92.par]) (by norm_num [C92.par]) le_rfl

/-- A neighbour that approaches with speed 2: the signal speed is at least that of the sound. -/
example : (1 : ℝ) ≤ vsigMax (⟨![0, 0], ![0, 0], 1⟩ : Neib 2) [⟨![1, 0], ![-2, 0], 1⟩] :=
  (C92_signal_speed (⟨![0, 0], ![0, 0], 1⟩ : Neib 2) [⟨![1, 0], ![-2, 0], 1⟩] (by simp) (by norm_num) (by simp)).2.2

example : mfvTimestep ⟨1 / 5, 3 / 10, 3 / 10, 1, true, true⟩ (⟨1 / 10, 4, ![3, 4], ![0, 0]⟩ : Cell 2) * 4 ≤ 2 * (1 / 5) * (1 / 10) :=
  ((C92_mfv _ _ (by norm_num) (by norm_num) (by norm_num) (by norm_num) (by norm_num)).2.1 rfl).1

/-- A star on a circular orbit of frequency 2 at radius 1 (acceleration 4). -/
example : aarseth (1 / 10) 1 ![-4, 0] ![0, -8] ![16, 0] ![0, 32] 1 = min (1 / 10 / 2) 1 :=
  C92_aarseth_orbit (1 / 10) 1 4 2 1 ![-4, 0] ![0, -8] ![16, 0] ![0, 32] (by norm_num) (by norm_num) (by norm_num [dot])
    (by norm_num [dot]) (by norm_num [dot]) (by norm_num [dot]) (by norm_num [smallDp]) (by norm_num [smallDp])

/-- The same orbit in units of time half as large. -/
example : aarseth (1 / 10) 7 (fun k => 1 * (![-4, 0] : Vec 2 ℝ) k) (fun k => 1 / 2 * (![0, -8] : Vec 2 ℝ) k)
    (fun k => 1 / 2 ^ 2 * (![16, 0] : Vec 2 ℝ) k) (fun k => 1 / 2 ^ 3 * (![0, 32] : Vec 2 ℝ) k) (2 * 1) =
      2 * aarseth (1 / 10) 1 ![-4, 0] ![0, -8] ![16, 0] ![0, 32] 1 :=
  C92_aarseth_units (1 / 10) 1 7 1 2 1 ![-4, 0] ![0, -8] ![16, 0] ![0, 32] (by norm_num) (by norm_num)
    (by norm_num [dot, smallDp]) (by norm_num [dot, smallDp]) (by norm_num [dot, smallDp]) (by norm_num [dot, smallDp])

example : 1 / 2 * leapStep (3 / 10) 1 (![3, 4] : Vec 2 ℝ) 10 ^ 2 * √(dot (![3, 4] : Vec 2 ℝ) ![3, 4]) ≤ (3 / 10) ^ 2 / 2 * 1 :=
  (C92_leapfrog (3 / 10) 1 10 ![3, 4] (by norm_num) (by norm_num) (by norm_num)).2.2

example : 0 < sinkInternal 2 (![3, 4] : Vec 2 ℝ) := (C92_sink 2 ![3, 4] (by norm_num)).1

/-- Gas that cools, in the middle of its step. -/
example : 0 < (kdkAdvance (1 / 10) (⟨1, 1, -2, -2, 0, 1 / 8⟩ : Heat)).u :=
  (C92_energy_partial (2 / 5) 1 (-2) (1 / 10) ⟨1, 1, -2, -2, 0, 1 / 8⟩ (by norm_num) (by norm_num)
    (by rw [show |(-2 : ℝ)| = 2 by norm_num]; norm_num [small]) rfl (by norm_num) (by norm_num) (by norm_num) (by norm_num)).1

end Gandalf
