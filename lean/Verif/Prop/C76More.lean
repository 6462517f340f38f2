import Verif.Spec.StarHeat
import Verif.Prop.C76

/-!
# C76 – heating by stars: smoothed discs, radii of the sources
-/

set_option autoImplicit false

namespace Gandalf

open StarHeat Units Real

/-- **C76, the smoothed disc.** The smoothing length is taken in the unit of the parameter file and enters as a second
distance at right angles to the first: the temperature is that of the power law at the distance `√(R² + r_smooth²)`. -/
theorem C76_smoothed {n : ℕ} (b : Base) (hb : Good b) (p : Pars) (ha : p.ambientHeating = false) (hd : p.discHeating = 1)
    (hh : p.sinkHeating = false) (ht : 0 ≤ p.tempAu) (x : Vec (n + 2) ℝ) (s : Sink n) (l : List (Sink n))
    (hR : 0 < planar x s.r ^ 2 + (p.rSmooth / b.r) ^ 2) :
    ∃ T, (mkFeedback b p).ambient x (s :: l) = some T ∧
      T * codeUnit b .temp = profile p.tempAu p.tempQ (sqrt (planar x s.r ^ 2 + (p.rSmooth / b.r) ^ 2)) := by
  have hu := hb.tempPos
  set S := planar x s.r ^ 2 + (p.rSmooth / b.r) ^ 2 with hS
  set y := p.tempAu / codeUnit b .temp with hy
  have hy0 : 0 ≤ y := div_nonneg ht hu.le
  have e : (mkFeedback b p).discPart x (s :: l) = (y * sqrt S ^ (-p.tempQ)) ^ 4 := by
    simp only [Feedback.discPart, mkFeedback]
    rw [if_pos (by rw [hd]; norm_num)]
    simp only [Disc.ambient, mkDisc, hd, ncentral, ← hy, show codeUnit b .r = b.r from rfl]
    norm_num
    rw [← pow_two, ← hS]
    rw [mul_pow, Real.sqrt_eq_rpow, ← Real.rpow_mul hR.le,
      ← Real.rpow_natCast (S ^ _) 4, ← Real.rpow_mul hR.le]
    congr 2
    push_cast
    ring
  have e2 : (mkFeedback b p).heatPart x (s :: l) = some 0 := by simp [Feedback.heatPart, mkFeedback, hh]
  have hz : 0 ≤ y * sqrt S ^ (-p.tempQ) := mul_nonneg hy0 (Real.rpow_nonneg (Real.sqrt_nonneg _) _)
  refine ⟨y * sqrt S ^ (-p.tempQ), ?_, ?_⟩
  · rw [Feedback.ambient, e2, Option.bind_some, e]
    simp only [mkFeedback, ha]
    rw [root4, if_neg (by norm_num; positivity)]
    norm_num
    rw [← Real.rpow_natCast, ← Real.rpow_mul hz]
    norm_num
  · simp only [profile]
    rw [hy]
    field_simp

/-- in metres, smoothed over 2 metres -/
example : let p : Pars := ⟨false, 1, false, 10, 100, 1 / 2, 2, 1, 3, 1, 1⟩
    p.ambientHeating = false ∧ p.discHeating = 1 ∧ p.sinkHeating = false ∧ 0 ≤ p.tempAu ∧
      0 < planar (![0, 0] : Vec 2 ℝ) ![0, 0] ^ 2 + (p.rSmooth / meter.r) ^ 2 := by
  refine ⟨rfl, rfl, rfl, by norm_num, ?_⟩
  have : (0 : ℝ) < (2 / meter.r) ^ 2 := by norm_num [meter]
  have h2 := sq_nonneg (planar (![0, 0] : Vec 2 ℝ) ![0, 0])
  show 0 < _ + (2 / meter.r) ^ 2
  linarith

/-- **C76, radii of the sources.** In SI units: a sink of at least 80 masses of Jupiter has the radius given for stars and
burns, one of at least 13 that of brown dwarfs, any other that of planets, all in solar radii and whatever the code units. -/
theorem C76_radius (b : Base) (hb : Good b) (p : Pars) (m : ℝ) :
    ((mkHeat b p).source m).1 * b.r = r_sun * (if 80 * m_jup ≤ m * b.m then p.rStar
      else if 13 * m_jup ≤ m * b.m then p.rBdwarf else p.rPlanet) ∧
    ((mkHeat b p).source m).2 = if 80 * m_jup ≤ m * b.m then 1 else 0 := by
  have hr := hb.r
  have hm := hb.m
  have c : ∀ k : ℝ, k * (mkHeat b p).mjup ≤ m ↔ k * m_jup ≤ m * b.m := by
    intro k
    simp only [mkHeat, codeUnit]
    rw [← mul_div_assoc, div_le_iff₀ hm]
  have d : ∀ y : ℝ, y * (r_sun / b.r) * b.r = r_sun * y := fun y => by field_simp
  unfold Heat.source
  simp only [c]
  constructor
  · split_ifs <;> simp only [mkHeat, codeUnit] <;> exact d _
  · split_ifs <;> rfl

/-- The three kinds exist. -/
example : Good meter ∧ 80 * m_jup ≤ m_sun * meter.m := ⟨meter_good, by norm_num [m_jup, m_sun, meter]⟩

/-- **C76, switching off.** A negative number of central stars is none. -/
theorem C76_negative {n : ℕ} (b : Base) (p : Pars) (hp : p.discHeating < 0) (x : Vec (n + 2) ℝ) (sinks : List (Sink n)) :
    (mkFeedback b p).ambient x sinks = (mkFeedback b { p with discHeating := 0 }).ambient x sinks := by
  have h1 : (mkFeedback b p).discPart x sinks = 0 := by
    have hc : ncentral p.discHeating = 0 := by rw [ncentral, if_pos hp]
    simp only [Feedback.discPart, mkFeedback]
    split_ifs
    · simp [Disc.ambient, mkDisc, hc]
    · rfl
  have h2 : (mkFeedback b { p with discHeating := 0 }).discPart x sinks = 0 := by
    simp [Feedback.discPart, mkFeedback]
  have h3 : mkHeat b { p with discHeating := 0 } = mkHeat b p := by
    have hc : ncentral p.discHeating = 0 := by rw [ncentral, if_pos hp]
    simp only [mkHeat, hc]
    rfl
  have h4 : (mkFeedback b { p with discHeating := 0 }).heatPart x sinks = (mkFeedback b p).heatPart x sinks := by
    simp only [Feedback.heatPart, mkFeedback, h3]
  simp only [Feedback.ambient, h1, h2, h4]
  rfl

example : (-1 : ℤ) < 0 := by norm_num

end Gandalf
