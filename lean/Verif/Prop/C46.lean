import Verif.Proof.Hermite

/-!
# C46 – the Hermite schemes have their nominal order
-/

set_option autoImplicit false
set_option linter.unusedSectionVars false

namespace Gandalf

open Hermite

variable {n N : ℕ}

/-- the star's record of the start of the step is the trajectory at `t0`, and the step ends now -/
structure Hermite.Starts (p : Body n) (m : ℤ) (t t0 : ℝ) (x v g g1 : Fin n → ℝ → ℝ) : Prop where
  ends : m - p.nlast = p.nstep
  tlast : p.tlast = t0
  r0 : ∀ k, p.r0 k = x k t0
  v0 : ∀ k, p.v0 k = v k t0
  a0 : ∀ k, p.a0 k = g k t0
  adot0 : ∀ k, p.adot0 k = g1 k t0

/-- **C46.** One star of any number takes a step of any length `h ≠ 0` along which its acceleration is a
cubic polynomial in time: after prediction, one force evaluation (which must return acceleration and
jerk of that time) and correction, position and velocity are exact, and so are the second and third
derivatives of the acceleration (at the start of the step). -/
theorem C46_hermite4_exact (F : ℝ → (Fin N → Vec n ℝ) → (Fin N → Vec n ℝ) → Fin N → Vec n ℝ × Vec n ℝ × Vec n ℝ)
    (s : Fin N → Body n) (i : Fin N) (m : ℤ) (t0 h : ℝ) (hh : h ≠ 0) (p : Fin n → Polynomial ℝ)
    (hp : ∀ k, (p k).natDegree ≤ 3) (x v : Fin n → ℝ → ℝ) (hP : ∀ k, Path (x k) (v k) (polyD (p k) 0))
    (hs : Starts (s i) m (t0 + h) t0 x v (fun k => polyD (p k) 0) (fun k => polyD (p k) 1))
    (hF : ∀ k, (F (t0 + h) (predR m (t0 + h) s) (predV m (t0 + h) s) i).1 k = polyD (p k) 0 (t0 + h) ∧
      (F (t0 + h) (predR m (t0 + h) s) (predV m (t0 + h) s) i).2.1 k = polyD (p k) 1 (t0 + h)) (k : Fin n) :
    (turn advance4 correct4 1 F m (t0 + h) s i).r k = x k (t0 + h) ∧
    (turn advance4 correct4 1 F m (t0 + h) s i).v k = v k (t0 + h) ∧
    (turn advance4 correct4 1 F m (t0 + h) s i).a2dot k = polyD (p k) 2 t0 ∧
    (turn advance4 correct4 1 F m (t0 + h) s i).a3dot k = polyD (p k) 3 t0 := by
  have hdt : t0 + h - (s i).tlast = h := by rw [hs.tlast]; ring
  obtain ⟨e1, e2, e3, e4⟩ := turn4 F hs.ends (t := t0 + h) (by rw [hdt]; exact hh) k
  rw [e1, e2, e3, e4, hdt, (hF k).1, (hF k).2, hs.r0, hs.v0, hs.a0, hs.adot0]
  obtain ⟨g1, g0, gv, gx⟩ := exact4 (hP k) (hp k) t0 h
  rw [g1, g0, gv, gx]
  simp only [pos4, vel4, interp2, interp3]
  refine ⟨by ring, by ring, by field_simp; ring, by field_simp; ring⟩

/-- **C46 (time-symmetric scheme).** The velocity is exact for cubic acceleration after any positive
number of rounds, the position for quadratic acceleration. -/
theorem C46_hermite4ts_exact (G : ℝ → Fin N → Vec n ℝ × Vec n ℝ × Vec n ℝ)
    (s : Fin N → Body n) (i : Fin N) (m : ℤ) (t0 h : ℝ) (npec : ℕ) (p : Fin n → Polynomial ℝ)
    (hp : ∀ k, (p k).natDegree ≤ 3) (x v : Fin n → ℝ → ℝ) (hP : ∀ k, Path (x k) (v k) (polyD (p k) 0))
    (hs : Starts (s i) m (t0 + h) t0 x v (fun k => polyD (p k) 0) (fun k => polyD (p k) 1))
    (hF : ∀ k, (G (t0 + h) i).1 k = polyD (p k) 0 (t0 + h) ∧ (G (t0 + h) i).2.1 k = polyD (p k) 1 (t0 + h))
    (k : Fin n) :
    (turn advance4 correct4TS (npec + 1) (fun t _ _ => G t) m (t0 + h) s i).v k = v k (t0 + h) ∧
    ((p k).natDegree ≤ 2 →
      (turn advance4 correct4TS (npec + 1) (fun t _ _ => G t) m (t0 + h) s i).r k = x k (t0 + h)) := by
  have hdt : t0 + h - (s i).tlast = h := by rw [hs.tlast]; ring
  obtain ⟨e1, e2⟩ := turn4TS G npec hs.ends (t := t0 + h) k
  rw [e1, e2, hdt, (hF k).1, (hF k).2, hs.r0, hs.v0, hs.a0, hs.adot0]
  obtain ⟨g1, g0, gv, gx⟩ := exact4 (hP k) (hp k) t0 h
  rw [g1, g0, gx]
  have ev : vel4 h (v k t0) (polyD (p k) 0 t0)
      (polyD (p k) 0 t0 + polyD (p k) 1 t0 * h + polyD (p k) 2 t0 * h ^ 2 / 2 + polyD (p k) 3 t0 * h ^ 3 / 6)
      (polyD (p k) 1 t0) (polyD (p k) 1 t0 + polyD (p k) 2 t0 * h + polyD (p k) 3 t0 * h ^ 2 / 2) = v k (t0 + h) := by
    rw [gv]; simp only [vel4]; ring
  rw [ev]
  refine ⟨rfl, fun h2 => ?_⟩
  rw [polyD_large (show (p k).natDegree < 3 by omega) t0, gv, polyD_large (show (p k).natDegree < 3 by omega) t0]
  simp only [pos4TS]
  ring

/-- **C46 (sixth-order scheme).** With correct second derivatives at both ends the corrector of
`NbodyHermite6TS` gives exact velocities for acceleration of degree five and exact positions for degree
four. -/
theorem C46_hermite6ts_exact (q : Body n) (m : ℤ) (t0 h : ℝ) (p : Fin n → Polynomial ℝ)
    (hp : ∀ k, (p k).natDegree ≤ 5) (x v : Fin n → ℝ → ℝ) (hP : ∀ k, Path (x k) (v k) (polyD (p k) 0))
    (hs : Starts q m (t0 + h) t0 x v (fun k => polyD (p k) 0) (fun k => polyD (p k) 1))
    (h2 : ∀ k, q.a2dot0 k = polyD (p k) 2 t0)
    (ha : ∀ k, q.a k = polyD (p k) 0 (t0 + h) ∧ q.adot k = polyD (p k) 1 (t0 + h) ∧ q.a2dot k = polyD (p k) 2 (t0 + h))
    (k : Fin n) :
    (correct6TS m (t0 + h) q).v k = v k (t0 + h) ∧
    ((p k).natDegree ≤ 4 → (correct6TS m (t0 + h) q).r k = x k (t0 + h)) := by
  have hdt : t0 + h - q.tlast = h := by rw [hs.tlast]; ring
  obtain ⟨g2, g1, g0, gv, gx⟩ := exact6 (hP k) (hp k) t0 h
  simp only [correct6TS, if_pos hs.ends, hdt]
  rw [(ha k).1, (ha k).2.1, (ha k).2.2, hs.r0, hs.v0, hs.a0, hs.adot0, h2, g2, g1, g0, gv, gx]
  have ev : v k t0 + 0.5 * (polyD (p k) 0 t0 +
        (polyD (p k) 0 t0 + polyD (p k) 1 t0 * h + polyD (p k) 2 t0 * h ^ 2 / 2 + polyD (p k) 3 t0 * h ^ 3 / 6 +
          polyD (p k) 4 t0 * h ^ 4 / 24 + polyD (p k) 5 t0 * h ^ 5 / 120)) * h -
      0.1 * (polyD (p k) 1 t0 + polyD (p k) 2 t0 * h + polyD (p k) 3 t0 * h ^ 2 / 2 + polyD (p k) 4 t0 * h ^ 3 / 6 +
        polyD (p k) 5 t0 * h ^ 4 / 24 - polyD (p k) 1 t0) * h * h +
      1 / 120 * (polyD (p k) 2 t0 + polyD (p k) 3 t0 * h + polyD (p k) 4 t0 * h ^ 2 / 2 + polyD (p k) 5 t0 * h ^ 3 / 6 +
        polyD (p k) 2 t0) * h ^ 3 =
      v k t0 + polyD (p k) 0 t0 * h + polyD (p k) 1 t0 * h ^ 2 / 2 + polyD (p k) 2 t0 * h ^ 3 / 6 +
        polyD (p k) 3 t0 * h ^ 4 / 24 + polyD (p k) 4 t0 * h ^ 5 / 120 + polyD (p k) 5 t0 * h ^ 6 / 720 := by
    ring
  refine ⟨ev, fun h4 => ?_⟩
  have z := polyD_large (show (p k).natDegree < 5 by omega) t0
  rw [z] at ev ⊢
  rw [ev]
  ring

/-- **C46 (sixth-order scheme, from one step to the next).** A star that ends its step at `t` on a trajectory with
quadratic acceleration, having acceleration, jerk and second derivative of that time, is predicted exactly at any later
or earlier time `t + h`: `EndTimestep` keeps all five start values and the predictor is the Taylor polynomial. A star
in the middle of its step keeps its record. -/
theorem C46_hermite6_predict (q : Body n) (m m' : ℤ) (t h : ℝ) (p : Fin n → Polynomial ℝ)
    (hp : ∀ k, (p k).natDegree ≤ 2) (x v : Fin n → ℝ → ℝ) (hP : ∀ k, Path (x k) (v k) (polyD (p k) 0))
    (hr : ∀ k, q.r k = x k t ∧ q.v k = v k t)
    (ha : ∀ k, q.a k = polyD (p k) 0 t ∧ q.adot k = polyD (p k) 1 t ∧ q.a2dot k = polyD (p k) 2 t) :
    (q.endts = true → ∀ k, (advance6 m' (t + h) (endStep m t q)).r k = x k (t + h) ∧
      (advance6 m' (t + h) (endStep m t q)).v k = v k (t + h)) ∧
    (q.endts = true → (endStep m t q).nlast = m ∧ (endStep m t q).active = false ∧ (endStep m t q).endts = false) ∧
    (q.endts = false → endStep m t q = q) := by
  refine ⟨fun he k => ?_, fun he => by simp [endStep, he], fun he => by simp [endStep, he]⟩
  obtain ⟨g2, g1, g0, gv, gx⟩ := exact6 (hP k) ((hp k).trans (by norm_num)) t h
  have h3 := polyD_large (show (p k).natDegree < 3 by have := hp k; omega) t
  have h4 := polyD_large (show (p k).natDegree < 4 by have := hp k; omega) t
  have h5 := polyD_large (show (p k).natDegree < 5 by have := hp k; omega) t
  simp only [advance6, endStep, he, if_true, add_sub_cancel_left]
  rw [gv, gx, (hr k).1, (hr k).2, (ha k).1, (ha k).2.1, (ha k).2.2, h3, h4, h5]
  constructor <;> ring

/-- a star on `x = t²` (constant acceleration 2) at `t = 0`: the hypotheses of `C46_hermite6_predict` hold -/
example : ∃ q : Body 1, q.endts = true ∧ Path (fun t => t ^ 2) (fun t => 2 * t) (polyD (Polynomial.C 2) 0) ∧
    (q.r 0 = (0 : ℝ) ^ 2 ∧ q.v 0 = 2 * 0) ∧
    (q.a 0 = polyD (Polynomial.C 2) 0 0 ∧ q.adot 0 = polyD (Polynomial.C 2) 1 0 ∧ q.a2dot 0 = polyD (Polynomial.C 2) 2 0) := by
  refine ⟨⟨fun _ => 0, fun _ => 0, fun _ => 2, fun _ => 0, fun _ => 0, fun _ => 0, fun _ => 0, fun _ => 0, fun _ => 0,
    fun _ => 0, fun _ => 0, 0, 0, 1, true, true⟩, rfl, ⟨fun t => ?_, fun t => ?_⟩, by norm_num, by norm_num [polyD]⟩
  · simpa using hasDerivAt_pow 2 t
  · simpa [polyD] using (hasDerivAt_id t).const_mul (2 : ℝ)

/-- **C46 (order four for a general force).** The exact motion of all stars under a force law has smooth
accelerations `g` with second derivative bounded by `M2` and fourth derivative bounded by `M4`; the force
routine gives acceleration and jerk that depend on positions and velocities with Lipschitz constant `L`.
Then one step of length `h` (prediction, one evaluation, correction) from exact data misses the exact
velocity by at most a constant times `h⁵` and the position by a constant times `h⁶`. -/
theorem C46_hermite4_order (F : ℝ → (Fin N → Vec n ℝ) → (Fin N → Vec n ℝ) → Fin N → Vec n ℝ × Vec n ℝ × Vec n ℝ)
    (s : Fin N → Body n) (m : ℤ) (t0 h M2 M4 L : ℝ) (hh : 0 < h)
    (x v g g1 g2 g3 g4 : Fin N → Fin n → ℝ → ℝ) (hP : ∀ i k, Path (x i k) (v i k) (g i k))
    (hS : ∀ i k, Smooth4 (g i k) (g1 i k) (g2 i k) (g3 i k) (g4 i k))
    (hM2 : ∀ i k τ, 0 ≤ τ → τ ≤ h → |g2 i k (t0 + τ)| ≤ M2) (hM4 : ∀ i k τ, 0 ≤ τ → τ ≤ h → |g4 i k (t0 + τ)| ≤ M4)
    (hs : ∀ i, Starts (s i) m (t0 + h) t0 (x i) (v i) (g i) (g1 i))
    (hF : ∀ i k, (F (t0 + h) (fun i k => x i k (t0 + h)) (fun i k => v i k (t0 + h)) i).1 k = g i k (t0 + h) ∧
      (F (t0 + h) (fun i k => x i k (t0 + h)) (fun i k => v i k (t0 + h)) i).2.1 k = g1 i k (t0 + h))
    (hLip : ∀ (r r' w w' : Fin N → Vec n ℝ) (D E : ℝ), (∀ i k, |r i k - r' i k| ≤ D) → (∀ i k, |w i k - w' i k| ≤ E) →
      ∀ i k, |(F (t0 + h) r w i).1 k - (F (t0 + h) r' w' i).1 k| ≤ L * D ∧
        |(F (t0 + h) r w i).2.1 k - (F (t0 + h) r' w' i).2.1 k| ≤ L * (D + E))
    (i : Fin N) (k : Fin n) :
    |(turn advance4 correct4 1 F m (t0 + h) s i).v k - v i k (t0 + h)| ≤
      (31 / 720 * M4 + L * M2 * (5 / 144 + h / 288)) * h ^ 5 ∧
    |(turn advance4 correct4 1 F m (t0 + h) s i).r k - x i k (t0 + h)| ≤
      (19 / 1440 * M4 + L * M2 * (17 / 1440 + h / 720)) * h ^ 6 := by
  have hdt : ∀ i, t0 + h - (s i).tlast = h := fun i => by rw [(hs i).tlast]; ring
  have hpr : ∀ i k, |predR m (t0 + h) s i k - x i k (t0 + h)| ≤ M2 / 24 * h ^ 4 := by
    intro i k
    have := (pred_error (hP i k) (hS i k) hh.le (hM2 i k)).2
    refine le_of_eq_of_le ?_ this
    congr 1
    simp only [predR, advance4, hdt, (hs i).r0, (hs i).v0, (hs i).a0, (hs i).adot0]
    ring
  have hpv : ∀ i k, |predV m (t0 + h) s i k - v i k (t0 + h)| ≤ M2 / 6 * h ^ 3 := by
    intro i k
    have := (pred_error (hP i k) (hS i k) hh.le (hM2 i k)).1
    refine le_of_eq_of_le ?_ this
    congr 1
    simp only [predV, advance4, hdt, (hs i).v0, (hs i).a0, (hs i).adot0]
    ring
  obtain ⟨l1, l2⟩ := hLip _ _ _ _ _ _ hpr hpv i k
  rw [(hF i k).1] at l1
  rw [(hF i k).2] at l2
  obtain ⟨e1, e2, -, -⟩ := turn4 F (hs i).ends (t := t0 + h) (by rw [hdt]; exact hh.ne') k
  rw [e1, e2, hdt, (hs i).r0, (hs i).v0, (hs i).a0, (hs i).adot0]
  constructor
  · refine (vel4_error (hP i k) (hS i k) hh.le (hM4 i k) l1 l2).trans (le_of_eq ?_)
    ring
  · refine (pos4_error (hP i k) (hS i k) hh.le (hM4 i k) l1 l2).trans (le_of_eq ?_)
    ring

/-- **C46 (time symmetry).** If a step of the time-symmetric scheme has converged (another round would not
change it), then the step run backwards – velocities and jerks reversed – leads back to the start: the
start satisfies the corrector equations of the reversed step. -/
theorem C46_hermite4ts_symmetric (p q : Body n) (m m' : ℤ) (t t' : ℝ)
    (hp : m - p.nlast = p.nstep) (hq : m' - q.nlast = q.nstep) (hlen : t' - q.tlast = t - p.tlast)
    (hconv : (correct4TS m t p).r = p.r ∧ (correct4TS m t p).v = p.v)
    (hstart : q.r0 = p.r ∧ (∀ k, q.v0 k = -p.v k) ∧ q.a0 = p.a ∧ ∀ k, q.adot0 k = -p.adot k)
    (hend : q.a = p.a0 ∧ ∀ k, q.adot k = -p.adot0 k) (k : Fin n) :
    (correct4TS m' t' q).r k = p.r0 k ∧ (correct4TS m' t' q).v k = -p.v0 k := by
  obtain ⟨c1, c2⟩ := hconv
  have c1 := congrFun c1 k
  have c2 := congrFun c2 k
  obtain ⟨s1, s2, s3, s4⟩ := hstart
  obtain ⟨f1, f2⟩ := hend
  simp only [correct4TS, if_pos hp] at c1 c2
  simp only [correct4TS, if_pos hq, hlen, s1, s2, s3, s4, f1, f2]
  rw [← c1]
  have c3 : p.v0 k = p.v k - 0.5 * (p.a0 k + p.a k) * (t - p.tlast) +
      1 / 12 * (p.adot k - p.adot0 k) * (t - p.tlast) * (t - p.tlast) := by rw [← c2]; ring
  rw [c2, c3]
  constructor <;> ring

/-! ### Derivatives at start-up -/

/-- a motion of stars of fixed mass whose velocity, acceleration and jerk are successive derivatives of
the position at `t` -/
structure Hermite.MovingPath (s : ℝ → Fin N → Moving n) (t : ℝ) : Prop where
  m : ∀ τ i, (s τ i).m = (s t i).m
  pos : ∀ i k, HasDerivAt (fun τ => (s τ i).r k) ((s t i).v k) t
  vel : ∀ i k, HasDerivAt (fun τ => (s τ i).v k) ((s t i).a k) t
  acc : ∀ i k, HasDerivAt (fun τ => (s τ i).a k) ((s t i).adot k) t

/-- **C46 (start-up).** Along every motion the second derivative computed at start-up is the time
derivative of the pair jerks, and the third derivative that of the second, for every number of stars, in
open and periodic boxes and with whatever number `sm ≥ 0` the code adds to the squared distance. -/
theorem C46_startup (sm : ℝ) (hsm : 0 ≤ sm) (d : Domain n ℝ) (s : ℝ → Fin N → Moving n) (t : ℝ)
    (hs : MovingPath s t) (hap : ∀ i j, i ≠ j → Stars.Apart d (s t i).r (s t j).r) (i : Fin N) (k : Fin n) :
    HasDerivAt (fun τ => ∑ j, if i = j then 0 else
      pairA sm (s τ j).m (Stars.sep d (s τ i).r (s τ j).r) k)
      (∑ j, if i = j then 0 else
        pairJ sm (s t j).m (Stars.sep d (s t i).r (s t j).r) (rel (s t i).v (s t j).v) k) t ∧
    HasDerivAt (fun τ => ∑ j, if i = j then 0 else
      pairJ sm (s τ j).m (Stars.sep d (s τ i).r (s τ j).r) (rel (s τ i).v (s τ j).v) k)
      (startA2 sm d (s t) i k) t ∧
    HasDerivAt (fun τ => startA2 sm d (s τ) i k) (startA3 sm d (s t) i k) t := by
  have hsep := fun j (h : i ≠ j) k => Stars.hasDerivAt_sep (hap i j h) (hs.pos i) (hs.pos j) k
  have hv : ∀ j k, HasDerivAt (fun τ => rel (s τ i).v (s τ j).v k) (rel (s t i).a (s t j).a k) t :=
    fun j k => (hs.vel j k).sub (hs.vel i k)
  have ha : ∀ j k, HasDerivAt (fun τ => rel (s τ i).a (s τ j).a k) (rel (s t i).adot (s t j).adot k) t :=
    fun j k => (hs.acc j k).sub (hs.acc i k)
  have hpos : ∀ j, i ≠ j → 0 < dot (Stars.sep d (s t i).r (s t j).r) (Stars.sep d (s t i).r (s t j).r) + sm :=
    fun j h => add_pos_of_pos_of_nonneg (dot_self_pos' (hap i j h).1) hsm
  refine ⟨?_, ?_, ?_⟩
  · refine HasDerivAt.fun_sum fun j _ => ?_
    by_cases h : i = j
    · simp only [if_pos h]; exact hasDerivAt_const _ _
    · simp only [if_neg h, hs.m _ j]
      exact hasDerivAt_pairA (dr := fun τ => Stars.sep d (s τ i).r (s τ j).r) (dv := fun τ => rel (s τ i).v (s τ j).v)
        _ (hsep j h) (hpos j h) k
  · simp only [startA2]
    refine HasDerivAt.fun_sum fun j _ => ?_
    by_cases h : i = j
    · simp only [if_pos h]; exact hasDerivAt_const _ _
    · simp only [if_neg h, hs.m _ j]
      exact hasDerivAt_pairJ (dr := fun τ => Stars.sep d (s τ i).r (s τ j).r) (dv := fun τ => rel (s τ i).v (s τ j).v)
        (da := fun τ => rel (s τ i).a (s τ j).a) _ (hsep j h) (hv j) (hpos j h) k
  · simp only [startA2, startA3]
    refine HasDerivAt.fun_sum fun j _ => ?_
    by_cases h : i = j
    · simp only [if_pos h]; exact hasDerivAt_const _ _
    · simp only [if_neg h, hs.m _ j]
      exact hasDerivAt_pairA2 (dr := fun τ => Stars.sep d (s τ i).r (s τ j).r) (dv := fun τ => rel (s τ i).v (s τ j).v)
        (da := fun τ => rel (s τ i).a (s τ j).a) (dj := fun τ => rel (s τ i).adot (s τ j).adot)
        _ (hsep j h) (hv j) (ha j) (hpos j h) k

/-! ### The hypotheses can be met -/

/-- a star at the start of the motion `x = t⁵/20 + t⁴/12`, `a = t³ + t²`, at time 1 -/
noncomputable def Hermite.cubicStar : Body 1 where
  r := fun _ => 0
  v := fun _ => 0
  a := fun _ => 0
  adot := fun _ => 0
  a2dot := fun _ => 0
  a3dot := fun _ => 0
  r0 := fun _ => 1 / 20 + 1 / 12
  v0 := fun _ => 1 / 4 + 1 / 3
  a0 := fun _ => 2
  adot0 := fun _ => 5
  a2dot0 := fun _ => 8
  tlast := 1
  nlast := 0
  nstep := 1
  active := false
  endts := false

/-- its acceleration -/
noncomputable def Hermite.cubicAcc : Polynomial ℝ := Polynomial.X ^ 3 + Polynomial.X ^ 2

theorem Hermite.cubicAcc_path : Path (fun t => t ^ 5 / 20 + t ^ 4 / 12) (fun t => t ^ 4 / 4 + t ^ 3 / 3)
    (polyD cubicAcc 0) where
  pos := fun t => (((hasDerivAt_pow 5 t).div_const 20).add ((hasDerivAt_pow 4 t).div_const 12)).congr_deriv (by
    norm_num; ring)
  vel := fun t => (((hasDerivAt_pow 4 t).div_const 4).add ((hasDerivAt_pow 3 t).div_const 3)).congr_deriv (by
    simp only [polyD_zero, cubicAcc]; norm_num)

theorem Hermite.cubicStar_starts (h : ℝ) : Starts cubicStar 1 (1 + h) 1 (fun _ t => t ^ 5 / 20 + t ^ 4 / 12)
    (fun _ t => t ^ 4 / 4 + t ^ 3 / 3) (fun _ => polyD cubicAcc 0) (fun _ => polyD cubicAcc 1) where
  ends := by simp [cubicStar]
  tlast := rfl
  r0 := fun _ => by norm_num [cubicStar]
  v0 := fun _ => by norm_num [cubicStar]
  a0 := fun _ => by norm_num [cubicStar, polyD_zero, cubicAcc]
  adot0 := fun _ => by norm_num [cubicStar, polyD_one, cubicAcc]

example (h : ℝ) (hh : h ≠ 0) : (turn advance4 correct4 1
    (fun t _ _ _ => (fun _ => polyD cubicAcc 0 t, fun _ => polyD cubicAcc 1 t, fun _ => 0)) 1 (1 + h)
      (fun _ : Fin 1 => cubicStar) 0).r 0 = (1 + h) ^ 5 / 20 + (1 + h) ^ 4 / 12 :=
  (C46_hermite4_exact _ (fun _ : Fin 1 => cubicStar) 0 1 1 h hh (fun _ => cubicAcc)
    (fun _ => by simp only [cubicAcc]; compute_degree) _ _ (fun _ => cubicAcc_path)
    (cubicStar_starts h) (fun _ => ⟨rfl, rfl⟩) 0).1

/-- the general theorem covers a force that depends on the position: the harmonic oscillator, with bounds
`M2 = M4 = 1` and Lipschitz constant 1 -/
example (h : ℝ) (hh : 0 < h) (s : Fin 1 → Body 1)
    (hs : ∀ i, Starts (s i) 1 (0 + h) 0 (fun _ => Real.sin) (fun _ => Real.cos) (fun _ t => -Real.sin t)
      (fun _ t => -Real.cos t)) :
    |(turn advance4 correct4 1 (fun _ r v i => (fun k => -r i k, fun k => -v i k, fun _ => 0)) 1 (0 + h) s 0).v 0 -
      Real.cos (0 + h)| ≤ (31 / 720 * 1 + 1 * 1 * (5 / 144 + h / 288)) * h ^ 5 := by
  refine (C46_hermite4_order _ s 1 0 h 1 1 1 hh (fun _ _ => Real.sin) (fun _ _ => Real.cos)
    (fun _ _ t => -Real.sin t) (fun _ _ t => -Real.cos t) (fun _ _ => Real.sin) (fun _ _ => Real.cos)
    (fun _ _ t => -Real.sin t) (fun _ _ => ⟨fun t => Real.hasDerivAt_sin t, fun t => Real.hasDerivAt_cos t⟩)
    (fun _ _ => ⟨fun t => (Real.hasDerivAt_sin t).neg, fun t => (Real.hasDerivAt_cos t).neg.congr_deriv (by ring),
      fun t => Real.hasDerivAt_sin t, fun t => Real.hasDerivAt_cos t⟩)
    (fun _ _ τ _ _ => Real.abs_sin_le_one _) (fun _ _ τ _ _ => by rw [abs_neg]; exact Real.abs_sin_le_one _) hs
    (fun _ _ => ⟨rfl, rfl⟩) ?_ 0 0).1
  intro r r' w w' D E hD hE i k
  have h1 := hD i k
  have h2 := hE i k
  have hD0 := (abs_nonneg _).trans h1
  refine ⟨?_, ?_⟩
  · rw [neg_sub_neg, abs_sub_comm, one_mul]; exact h1
  · rw [neg_sub_neg, abs_sub_comm, one_mul]; linarith

/-! ### Where the code departs from the claim -/

/-- **C46 (negation, two rounds).** The corrector of `NbodyHermite4` adds its terms to the position and
velocity it finds, so with `Npec = 2` – the parameter applies to every integrator – the correction is
added twice and the step is wrong even for the acceleration `t² + t³`. -/
theorem C46_npec_two_fails : (turn advance4 correct4 2
    (fun t _ _ _ => (fun _ => polyD cubicAcc 0 t, fun _ => polyD cubicAcc 1 t, fun _ => 0)) 1 2
      (fun _ : Fin 1 => cubicStar) 0).v 0 ≠ 2 ^ 4 / 4 + 2 ^ 3 / 3 := by
  have hf : ∀ p : Body 1, p.active = true → force (N := 1) (fun t _ _ _ => (fun _ => polyD cubicAcc 0 t,
      fun _ => polyD cubicAcc 1 t, fun _ => 0)) 2 (fun _ => p) 0 = { p with
        a := fun _ => 12
        adot := fun _ => 16
        a2dot := fun _ => 0
        a3dot := fun _ => 0 } := by
    intro p hp
    simp only [force, hp, if_true]
    have e1 : polyD cubicAcc 0 2 = 12 := by norm_num [polyD_zero, cubicAcc]
    have e2 : polyD cubicAcc 1 2 = 16 := by norm_num [polyD_one, cubicAcc]
    rw [e1, e2]
  have h0 : ∀ i : Fin 1, i = 0 := fun i => Subsingleton.elim _ _
  simp only [turn, pec]
  have ha : (advance4 1 2 cubicStar).active = true := by simp [advance4, cubicStar]
  have key : ∀ (p : Body 1), p.active = true → p.nlast = 0 → p.nstep = 1 →
      (correct4 1 2 (force (N := 1) (fun t _ _ _ => (fun _ => polyD cubicAcc 0 t,
        fun _ => polyD cubicAcc 1 t, fun _ => 0)) 2 (fun _ => p) 0)).v 0 =
      p.v 0 + (interp2 (2 - p.tlast) (p.a0 0) 12 (p.adot0 0) 16 * (2 - p.tlast) ^ 3 / 6 +
        interp3 (2 - p.tlast) (p.a0 0) 12 (p.adot0 0) 16 * (2 - p.tlast) ^ 3 * (2 - p.tlast) / 24) := by
    intro p hp h1 h2
    rw [hf p hp]
    simp only [correct4, h1, h2]
    norm_num
  have step : ∀ (p : Body 1), p.active = true →
      (correct4 1 2 (force (N := 1) (fun t _ _ _ => (fun _ => polyD cubicAcc 0 t,
        fun _ => polyD cubicAcc 1 t, fun _ => 0)) 2 (fun _ => p) 0)).active = true ∧
      (correct4 1 2 (force (N := 1) (fun t _ _ _ => (fun _ => polyD cubicAcc 0 t,
        fun _ => polyD cubicAcc 1 t, fun _ => 0)) 2 (fun _ => p) 0)).nlast = p.nlast ∧
      (correct4 1 2 (force (N := 1) (fun t _ _ _ => (fun _ => polyD cubicAcc 0 t,
        fun _ => polyD cubicAcc 1 t, fun _ => 0)) 2 (fun _ => p) 0)).nstep = p.nstep ∧
      (correct4 1 2 (force (N := 1) (fun t _ _ _ => (fun _ => polyD cubicAcc 0 t,
        fun _ => polyD cubicAcc 1 t, fun _ => 0)) 2 (fun _ => p) 0)).tlast = p.tlast ∧
      (correct4 1 2 (force (N := 1) (fun t _ _ _ => (fun _ => polyD cubicAcc 0 t,
        fun _ => polyD cubicAcc 1 t, fun _ => 0)) 2 (fun _ => p) 0)).a0 = p.a0 ∧
      (correct4 1 2 (force (N := 1) (fun t _ _ _ => (fun _ => polyD cubicAcc 0 t,
        fun _ => polyD cubicAcc 1 t, fun _ => 0)) 2 (fun _ => p) 0)).adot0 = p.adot0 := by
    intro p hp
    rw [hf p hp]
    simp only [correct4]
    split_ifs <;> exact ⟨hp, rfl, rfl, rfl, rfl, rfl⟩
  have hc : (fun i : Fin 1 => correct4 1 2 (force (N := 1) (fun t _ _ _ => (fun _ => polyD cubicAcc 0 t,
      fun _ => polyD cubicAcc 1 t, fun _ => 0)) 2 (fun _ => advance4 1 2 cubicStar) i)) =
      fun _ => correct4 1 2 (force (N := 1) (fun t _ _ _ => (fun _ => polyD cubicAcc 0 t,
      fun _ => polyD cubicAcc 1 t, fun _ => 0)) 2 (fun _ => advance4 1 2 cubicStar) 0) := by
    funext i; rw [h0 i]
  rw [hc]
  obtain ⟨s1, s2, s3, s4, s5, s6⟩ := step _ ha
  rw [key _ s1 (by rw [s2]; rfl) (by rw [s3]; rfl), s4, s5, s6, key _ ha rfl rfl]
  simp only [advance4, cubicStar, interp2, interp3]
  norm_num

/-- **C46 (negation, position of the time-symmetric scheme).** Its position is not exact for cubic
acceleration: for `a = t³`, started at the origin at rest, a step of length one ends at 1/24 and not at
1/20. -/
theorem C46_hermite4ts_cubic_fails : ∃ q : Body 1, ∃ x v : ℝ → ℝ, Path x v (polyD (Polynomial.X ^ 3) 0) ∧
    Starts q 1 1 0 (fun _ => x) (fun _ => v) (fun _ => polyD (Polynomial.X ^ 3) 0) (fun _ => polyD (Polynomial.X ^ 3) 1) ∧
    q.a 0 = polyD (Polynomial.X ^ 3) 0 1 ∧ q.adot 0 = polyD (Polynomial.X ^ 3) 1 1 ∧
    (correct4TS 1 1 q).r 0 = 1 / 24 ∧ x 1 = 1 / 20 := by
  refine ⟨{ cubicStar with
      r0 := fun _ => 0
      v0 := fun _ => 0
      a0 := fun _ => 0
      adot0 := fun _ => 0
      tlast := 0
      a := fun _ => 1
      adot := fun _ => 3 }, fun t => t ^ 5 / 20, fun t => t ^ 4 / 4, ⟨?_, ?_⟩, ?_, ?_, ?_, ?_, by norm_num⟩
  · exact fun t => ((hasDerivAt_pow 5 t).div_const 20).congr_deriv (by norm_num; ring)
  · exact fun t => ((hasDerivAt_pow 4 t).div_const 4).congr_deriv (by norm_num [polyD_zero])
  · exact ⟨by simp [cubicStar], rfl, fun _ => by norm_num, fun _ => by norm_num, fun _ => by norm_num [polyD_zero],
      fun _ => by norm_num [polyD_one]⟩
  · norm_num [polyD_zero]
  · norm_num [polyD_one]
  · norm_num [correct4TS, cubicStar]

/-- **C46 (negation, sixth-order scheme with softening).** `CalculateDirectSmoothedGravForces` of
`NbodyHermite6TS` never computes `a2dot`, which stays at the zero it was cleared to; with that the
corrector is wrong already for a quadratic acceleration: from rest with `a = t²` a step of length one ends
with velocity 3/10, not 1/3. -/
theorem C46_hermite6_smoothed_fails : ∃ q : Body 1, ∃ x v : ℝ → ℝ, Path x v (polyD (Polynomial.X ^ 2) 0) ∧
    Starts q 1 1 0 (fun _ => x) (fun _ => v) (fun _ => polyD (Polynomial.X ^ 2) 0) (fun _ => polyD (Polynomial.X ^ 2) 1) ∧
    q.a2dot0 0 = 0 ∧ q.a2dot 0 = 0 ∧
    q.a 0 = polyD (Polynomial.X ^ 2) 0 1 ∧ q.adot 0 = polyD (Polynomial.X ^ 2) 1 1 ∧
    (correct6TS 1 1 q).v 0 = 3 / 10 ∧ v 1 = 1 / 3 := by
  refine ⟨{ cubicStar with
      r0 := fun _ => 0
      v0 := fun _ => 0
      a0 := fun _ => 0
      adot0 := fun _ => 0
      a2dot0 := fun _ => 0
      tlast := 0
      a := fun _ => 1
      adot := fun _ => 2 }, fun t => t ^ 4 / 12, fun t => t ^ 3 / 3, ⟨?_, ?_⟩, ?_, rfl, rfl, ?_, ?_, ?_, by norm_num⟩
  · exact fun t => ((hasDerivAt_pow 4 t).div_const 12).congr_deriv (by norm_num; ring)
  · exact fun t => ((hasDerivAt_pow 3 t).div_const 3).congr_deriv (by norm_num [polyD_zero])
  · exact ⟨by simp [cubicStar], rfl, fun _ => by norm_num, fun _ => by norm_num, fun _ => by norm_num [polyD_zero],
      fun _ => by norm_num [polyD_one]⟩
  · norm_num [polyD_zero]
  · norm_num [polyD_one]
  · norm_num [correct6TS, cubicStar]

/-- **C46 (negation, sixth-order second derivative).** In `NbodyHermite6TS::CalculateDirectGravForces` the
second derivative is assigned, not added, in the loop over the other stars: it is the contribution of the
last other star alone, whatever the others are. -/
theorem C46_hermite6_a2dot_last (sm : ℝ) (s : Fin (N + 1) → Moving n) (i : Fin (N + 1)) (hi : i ≠ Fin.last N)
    (k : Fin n) : direct6A2 sm s i k = pairA2 sm (s (Fin.last N)).m (rel (s i).r (s (Fin.last N)).r)
      (rel (s i).v (s (Fin.last N)).v) (rel (s i).a (s (Fin.last N)).a) k := by
  simp only [direct6A2, List.finRange_succ_last, List.foldl_append, List.foldl_cons, List.foldl_nil, if_neg hi]

/-- three stars in a row, at rest, with accelerations 1, 0, −1 -/
noncomputable def Hermite.threeStars (i : Fin 3) : Moving 1 where
  m := 1
  r := fun _ => i.val
  v := fun _ => 0
  a := fun _ => 1 - i.val
  adot := fun _ => 0

/-- for three stars in a row the value differs from the sum that start-up computes -/
theorem C46_hermite6_a2dot_fails : direct6A2 0 threeStars 0 0 ≠
    startA2 0 (Domain.mk (fun _ => 0) (fun _ => 0) (fun _ => .open_) (fun _ => .open_) (fun _ => 0) (fun _ => 0))
      threeStars 0 0 := by
  rw [C46_hermite6_a2dot_last (N := 2) 0 threeStars 0 (by decide) 0]
  have hsep : ∀ x y : Vec 1 ℝ, Stars.sep (Domain.mk (fun _ => 0) (fun _ => 0) (fun _ => .open_) (fun _ => .open_)
      (fun _ => 0) (fun _ => 0)) x y = rel x y := by
    intro x y; funext k; rw [Stars.sep_open (by intro k h; cases h.1)]; rfl
  have h01 : ¬((0 : Fin 3) = 1) := by decide
  have h02 : ¬((0 : Fin 3) = 2) := by decide
  simp only [startA2, hsep, Fin.sum_univ_three, if_true, if_neg h01, if_neg h02, zero_add]
  have hl : Fin.last 2 = (2 : Fin 3) := rfl
  rw [hl]
  intro hbad
  have hz : pairA2 0 (threeStars 1).m (rel (threeStars 0).r (threeStars 1).r) (rel (threeStars 0).v (threeStars 1).v)
      (rel (threeStars 0).a (threeStars 1).a) 0 = 0 := by linarith
  revert hz
  norm_num [pairA2, pairA, pairJ, bfac, afac, invd, rel, threeStars, dot]

end Gandalf
