import Verif.Proof.ExactWave

/-!
# C55 – the star region of the exact Riemann solver

The pressure equation has a solution exactly when the vacuum test says so, the Newton iteration approaches it from below
whatever the first guess, and the velocity returned belongs to it.
-/

set_option autoImplicit false
set_option linter.unusedSectionVars false

namespace Gandalf

open Exact Filter Topology

variable {γ : ℝ} {L R : Side}

/-- The velocities behind the two waves agree at pressure `p`: the left wave takes `L.u` to `L.u - f_L p`, the right wave
takes `R.u` to `R.u + f_R p`. -/
def Exact.Balanced (γ : ℝ) (L R : Side) (p : ℝ) : Prop := 0 < p ∧ L.u - waveFn γ L p = R.u + waveFn γ R p

/-- the same side seen in a mirror -/
def Exact.mirror (S : Side) : Side := { S with u := -S.u }

namespace Exact

/-- the function whose root is sought -/
noncomputable def total (γ : ℝ) (L R : Side) (p : ℝ) : ℝ := waveFn γ L p + waveFn γ R p + R.u - L.u

noncomputable def total' (γ : ℝ) (L R : Side) (p : ℝ) : ℝ := waveFn' γ L p + waveFn' γ R p

theorem balanced_iff {p : ℝ} : Balanced γ L R p ↔ 0 < p ∧ total γ L R p = 0 := by
  unfold Balanced total
  refine and_congr_right fun _ => ?_
  constructor <;> intro h <;> linarith

theorem total_deriv (hγ : 1 < γ) (hL : Good γ L) (hR : Good γ R) {p : ℝ} (hp : 0 < p) :
    HasDerivAt (total γ L R) (total' γ L R p) p :=
  ((((waveFn_deriv hγ hL hp).add (waveFn_deriv hγ hR hp)).add_const R.u).sub_const L.u)

theorem total'_pos (hγ : 1 < γ) (hL : Good γ L) (hR : Good γ R) {p : ℝ} (hp : 0 < p) : 0 < total' γ L R p :=
  add_pos (waveFn'_pos hγ hL hp) (waveFn'_pos hγ hR hp)

theorem total'_anti (hγ : 1 < γ) (hL : Good γ L) (hR : Good γ R) (p q : ℝ) (hp : 0 < p) (h : p ≤ q) :
    total' γ L R q ≤ total' γ L R p :=
  add_le_add (waveFn'_antitone hγ hL hp h) (waveFn'_antitone hγ hR hp h)

theorem total_mono (hγ : 1 < γ) (hL : Good γ L) (hR : Good γ R) {p q : ℝ} (hp : 0 < p) (h : p < q) :
    total γ L R p < total γ L R q := by
  have := waveFn_mono hγ hL hp h
  have := waveFn_mono hγ hR hp h
  unfold total
  linarith

theorem total_tangent (hγ : 1 < γ) (hL : Good γ L) (hR : Good γ R) {p q : ℝ} (hp : 0 < p) (hq : 0 < q) :
    total γ L R q ≤ total γ L R p + total' γ L R p * (q - p) :=
  tangent_le (fun _ hx => total_deriv hγ hL hR hx) (total'_anti hγ hL hR) hp hq

theorem newton_eq (γ : ℝ) (L R : Side) (p : ℝ) : newton γ L R p = p - total γ L R p / total' γ L R p := rfl

/-- the step with the floor -/
noncomputable def clamped (γ small : ℝ) (L R : Side) (p : ℝ) : ℝ := max small (newton γ L R p)

theorem iter_spec (γ small tol : ℝ) (L R : Side) : ∀ (k : ℕ) (p : ℝ), ∃ j ≤ k,
    iter γ small tol L R k p = ((clamped γ small L R)^[j + 1] p, (clamped γ small L R)^[j] p) := by
  intro k
  induction k with
  | zero =>
    intro p
    refine ⟨0, le_rfl, ?_⟩
    simp only [iter, Function.iterate_succ, Function.iterate_zero, Function.comp, id, clamped]
    split_ifs with h
    · rw [max_eq_left h.le]
    · rw [max_eq_right (not_lt.mp h)]
  | succ k ih =>
    intro p
    simp only [iter]
    split_ifs with h h'
    · obtain ⟨j, hj, e⟩ := ih small
      refine ⟨j + 1, by omega, ?_⟩
      rw [e, Function.iterate_succ_apply (n := j + 1), Function.iterate_succ_apply (n := j) (x := p)]
      have : clamped γ small L R p = small := max_eq_left h.le
      rw [this]
    · refine ⟨0, by omega, ?_⟩
      simp only [Function.iterate_succ, Function.iterate_zero, Function.comp, id, clamped]
      rw [max_eq_right (not_lt.mp h)]
    · obtain ⟨j, hj, e⟩ := ih (newton γ L R p)
      refine ⟨j + 1, by omega, ?_⟩
      rw [e, Function.iterate_succ_apply (n := j + 1), Function.iterate_succ_apply (n := j) (x := p)]
      have : clamped γ small L R p = newton γ L R p := max_eq_right (not_lt.mp h)
      rw [this]

/-- without the tolerance test all the rounds are made -/
theorem iter_full {small tol : ℝ} (hs : 0 < small) (ht : tol ≤ 0) : ∀ (k : ℕ) (p : ℝ), 0 < p →
    iter γ small tol L R k p = ((clamped γ small L R)^[k + 1] p, (clamped γ small L R)^[k] p) := by
  intro k
  induction k with
  | zero =>
    intro p _
    obtain ⟨j, hj, e⟩ := iter_spec γ small tol L R 0 p
    obtain rfl : j = 0 := by omega
    exact e
  | succ k ih =>
    intro p hp
    simp only [iter]
    by_cases h : newton γ L R p < small
    · rw [if_pos h, ih small hs]
      have : clamped γ small L R p = small := max_eq_left h.le
      rw [Function.iterate_succ_apply (n := k + 1), Function.iterate_succ_apply (n := k) (x := p), this]
    · have h' := not_lt.mp h
      rw [if_neg h, if_neg, ih _ (lt_of_lt_of_le hs h')]
      · have : clamped γ small L R p = newton γ L R p := max_eq_right h'
        rw [Function.iterate_succ_apply (n := k + 1), Function.iterate_succ_apply (n := k) (x := p), this]
      · have : 0 ≤ 2 * |newton γ L R p - p| / (newton γ L R p + p) :=
          div_nonneg (by positivity) (by linarith)
        linarith

theorem guess_pos {small : ℝ} : small ≤ guess γ small L R := le_max_right _ _

end Exact

/-- `fprime` is the derivative of `f`, it is positive and decreasing. -/
theorem C55_derivative (hγ : 1 < γ) (S : Side) (hS : Good γ S) (p : ℝ) (hp : 0 < p) :
    HasDerivAt (waveFn γ S) (waveFn' γ S p) p ∧ 0 < waveFn' γ S p ∧ ∀ q, p ≤ q → waveFn' γ S q ≤ waveFn' γ S p :=
  ⟨waveFn_deriv hγ hS hp, waveFn'_pos hγ hS hp, fun _ h => waveFn'_antitone hγ hS hp h⟩

/-- The vacuum test is exact: a pressure at which the two waves balance exists, and is unique, if and only if the test is
false. -/
theorem C55_vacuum_test (hγ : 1 < γ) (hL : Good γ L) (hR : Good γ R) : ¬ Vacuum γ L R ↔ ∃! p, Balanced γ L R p := by
  have hk : g4 γ * (L.c + R.c - g7 γ * (R.u - L.u)) = g4 γ * L.c + g4 γ * R.c - (R.u - L.u) := by
    have := g47 hγ
    linear_combination (-(R.u - L.u)) * this
  constructor
  · intro hv
    unfold Vacuum at hv
    have hv' : 0 < g4 γ * L.c + g4 γ * R.c - (R.u - L.u) := by
      rw [← hk]; exact mul_pos (g4_pos hγ) (not_le.mp hv)
    obtain ⟨ε, hε⟩ : ∃ ε, ε = (g4 γ * L.c + g4 γ * R.c - (R.u - L.u)) / 2 := ⟨_, rfl⟩
    have hε0 : 0 < ε := by rw [hε]; linarith
    obtain ⟨a, ha, ha'⟩ := waveFn_small hγ hL hε0
    obtain ⟨b, hb, hb'⟩ := waveFn_small hγ hR hε0
    have hm : 0 < min a b := lt_min ha hb
    have lo : total γ L R (min a b) < 0 := by
      have := ha' _ hm (min_le_left _ _)
      have := hb' _ hm (min_le_right _ _)
      unfold total
      linarith
    obtain ⟨x, hx, hx'⟩ := waveFn_large hγ hL (g4 γ * R.c - (R.u - L.u))
    have hX : 0 < max x (min a b) := lt_of_lt_of_le hx (le_max_left _ _)
    have hi : 0 < total γ L R (max x (min a b)) := by
      have := hx' _ (le_max_left x (min a b))
      have := waveFn_gt hγ hR hX
      unfold total
      linarith
    have hc : ContinuousOn (total γ L R) (Set.Icc (min a b) (max x (min a b))) := fun y hy =>
      (total_deriv hγ hL hR (lt_of_lt_of_le hm hy.1)).continuousAt.continuousWithinAt
    obtain ⟨p, hp, hp0⟩ := intermediate_value_Icc (le_max_right x (min a b)) hc ⟨lo.le, hi.le⟩
    have hp1 : 0 < p := lt_of_lt_of_le hm hp.1
    refine ⟨p, balanced_iff.mpr ⟨hp1, hp0⟩, fun q hq => ?_⟩
    obtain ⟨hq1, hq0⟩ := balanced_iff.mp hq
    rcases lt_trichotomy q p with h | h | h
    · have := total_mono hγ hL hR hq1 h; linarith
    · exact h
    · have := total_mono hγ hL hR hp1 h; linarith
  · rintro ⟨p, hp, _⟩ hv
    obtain ⟨hp1, hp0⟩ := balanced_iff.mp hp
    unfold Vacuum at hv
    have : g4 γ * L.c + g4 γ * R.c - (R.u - L.u) ≤ 0 := by
      rw [← hk]; exact mul_nonpos_of_nonneg_of_nonpos (g4_pos hγ).le hv
    have := waveFn_gt hγ hL hp1
    have := waveFn_gt hγ hR hp1
    unfold total at hp0
    linarith

/-- One Newton step from any positive pressure does not pass the solution, and does not go back from below it. -/
theorem C55_newton (hγ : 1 < γ) (hL : Good γ L) (hR : Good γ R) (ps p : ℝ) (hps : Balanced γ L R ps) (hp : 0 < p) :
    newton γ L R p ≤ ps ∧ (p ≤ ps → p ≤ newton γ L R p) ∧ (p < ps → p < newton γ L R p) := by
  obtain ⟨h1, h0⟩ := balanced_iff.mp hps
  have hpos := total'_pos hγ hL hR hp
  have ht := total_tangent hγ hL hR hp h1
  rw [h0] at ht
  rw [newton_eq]
  refine ⟨?_, fun h => ?_, fun h => ?_⟩
  · have : p - ps ≤ total γ L R p / total' γ L R p := by
      rw [le_div_iff₀ hpos]
      linarith
    linarith
  · have hle : total γ L R p ≤ 0 := by
      rcases h.lt_or_eq with h | h
      · have := total_mono hγ hL hR hp h; linarith
      · rw [h, h0]
    have := div_nonpos_of_nonpos_of_nonneg hle hpos.le
    linarith
  · have hlt : total γ L R p < 0 := by have := total_mono hγ hL hR hp h; linarith
    have := div_neg_of_neg_of_pos hlt hpos
    linarith

/-- What `ComputeStarRegion` returns when there is no vacuum: a pressure between the floor and the solution (or the floor),
and a velocity within half the remaining mismatch of the solution's. -/
theorem C55_result (hγ : 1 < γ) (hL : Good γ L) (hR : Good γ R) (small tol : ℝ) (hs : 0 < small) (N : ℕ)
    (hv : ¬ Vacuum γ L R) (ps : ℝ) (hps : Balanced γ L R ps) :
    small ≤ (starRegion γ small tol N L R).1 ∧ (starRegion γ small tol N L R).1 ≤ max small ps ∧
    ∃ pold, 0 < pold ∧ (starRegion γ small tol N L R).1 = max small (newton γ L R pold) ∧
      |(starRegion γ small tol N L R).2 - (L.u - waveFn γ L ps)| ≤
        |waveFn γ L pold + waveFn γ R pold + R.u - L.u| / 2 := by
  obtain ⟨j, hj, e⟩ := iter_spec γ small tol L R (N - 1) (guess γ small L R)
  have hpold : 0 < (clamped γ small L R)^[j] (guess γ small L R) := by
    cases j with
    | zero => exact lt_of_lt_of_le hs guess_pos
    | succ j =>
      rw [Function.iterate_succ_apply']
      exact lt_of_lt_of_le hs (le_max_left _ _)
  have h1 : (starRegion γ small tol N L R).1 = max small (newton γ L R ((clamped γ small L R)^[j] (guess γ small L R))) := by
    unfold starRegion
    rw [if_neg hv]
    simp only [e]
    rw [Function.iterate_succ_apply']
    rfl
  have h2 : (starRegion γ small tol N L R).2 = 0.5 * (L.u + R.u) + 0.5 * (waveFn γ R ((clamped γ small L R)^[j] (guess γ small L R))
      - waveFn γ L ((clamped γ small L R)^[j] (guess γ small L R))) := by
    unfold starRegion
    rw [if_neg hv]
    simp only [e]
  generalize (clamped γ small L R)^[j] (guess γ small L R) = q at *
  rw [h1, h2]
  refine ⟨le_max_left _ _, max_le_max le_rfl (C55_newton hγ hL hR ps q hps hpold).1, q, hpold, rfl, ?_⟩
  obtain ⟨h1p, hb⟩ := hps
  have key : ∀ a b : ℝ, 0 < a → a ≤ b → waveFn γ L a ≤ waveFn γ L b ∧ waveFn γ R a ≤ waveFn γ R b := fun a b ha hab =>
    ⟨waveFn_mono_le hγ hL ha hab, waveFn_mono_le hγ hR ha hab⟩
  rw [abs_le]
  rcases le_total q ps with h | h
  · obtain ⟨k1, k2⟩ := key q ps hpold h
    rw [abs_of_nonpos (by linarith)]
    constructor <;> linarith
  · obtain ⟨k1, k2⟩ := key ps q h1p h
    rw [abs_of_nonneg (by linarith)]
    constructor <;> linarith

/-- The iterates increase from the second on ... -/
theorem C55_monotone (hγ : 1 < γ) (hL : Good γ L) (hR : Good γ R) (small : ℝ) (hs : 0 < small) (ps p0 : ℝ)
    (hps : Balanced γ L R ps) (hp0 : 0 < p0) (j : ℕ) :
    (fun p => max small (newton γ L R p))^[j + 1] p0 ≤ (fun p => max small (newton γ L R p))^[j + 2] p0 ∧
    (fun p => max small (newton γ L R p))^[j + 2] p0 ≤ max small ps := by
  have step : ∀ p, 0 < p → max small (newton γ L R p) ≤ max small ps := fun p hp =>
    max_le_max le_rfl (C55_newton hγ hL hR ps p hps hp).1
  have up : ∀ p, 0 < p → p ≤ max small ps → p ≤ max small (newton γ L R p) := by
    intro p hp h
    rcases le_total p ps with h' | h'
    · exact le_trans ((C55_newton hγ hL hR ps p hps hp).2.1 h') (le_max_right _ _)
    · rcases le_total small ps with h'' | h''
      · rw [max_eq_right h''] at h
        exact le_trans ((C55_newton hγ hL hR ps p hps hp).2.1 h) (le_max_right _ _)
      · rw [max_eq_left h''] at h
        exact le_trans h (le_max_left _ _)
  have pos : ∀ j, 0 < (fun p => max small (newton γ L R p))^[j] p0 := by
    intro j
    cases j with
    | zero => exact hp0
    | succ j => rw [Function.iterate_succ_apply']; exact lt_of_lt_of_le hs (le_max_left _ _)
  have bound : ∀ j, (fun p => max small (newton γ L R p))^[j + 1] p0 ≤ max small ps := by
    intro j
    rw [Function.iterate_succ_apply']
    exact step _ (pos j)
  refine ⟨?_, bound (j + 1)⟩
  rw [Function.iterate_succ_apply' (n := j + 1)]
  exact up _ (pos (j + 1)) (bound j)

/-- ... and converge to the solution (or to the floor, if the solution is below it) from any positive first guess. -/
theorem C55_converges (hγ : 1 < γ) (hL : Good γ L) (hR : Good γ R) (small : ℝ) (hs : 0 < small) (ps p0 : ℝ)
    (hps : Balanced γ L R ps) (hp0 : 0 < p0) :
    Tendsto (fun j => (fun p => max small (newton γ L R p))^[j] p0) atTop (𝓝 (max small ps)) := by
  obtain ⟨T, hT⟩ : ∃ T : ℝ → ℝ, T = fun p => max small (newton γ L R p) := ⟨_, rfl⟩
  rw [← hT]
  have mono := C55_monotone hγ hL hR small hs ps p0 hps hp0
  rw [← hT] at mono
  rw [← tendsto_add_atTop_iff_nat 1]
  obtain ⟨a, ha⟩ : ∃ a : ℕ → ℝ, a = fun j => T^[j + 1] p0 := ⟨_, rfl⟩
  have hmono : Monotone a := by
    refine monotone_nat_of_le_succ fun j => ?_
    rw [ha]
    exact (mono j).1
  have hstep : ∀ j, a (j + 1) = max small (newton γ L R (a j)) := by
    intro j
    rw [ha]
    change T^[j + 1 + 1] p0 = _
    rw [Function.iterate_succ_apply' (n := j + 1), hT]
  have hbd : ∀ j, a j ≤ max small ps := by
    intro j
    have := (mono j).1
    have h2 := (mono j).2
    rw [ha]
    exact le_trans this h2
  have hlow : ∀ j, small ≤ a j := by
    intro j
    rw [ha]
    change small ≤ T^[j + 1] p0
    rw [Function.iterate_succ_apply', hT]
    exact le_max_left _ _
  change Tendsto (fun j => T^[j + 1] p0) atTop (𝓝 (max small ps))
  have hae : (fun j => T^[j + 1] p0) = a := by rw [ha]
  rw [hae]
  obtain ⟨h1, h0⟩ := balanced_iff.mp hps
  rcases le_total ps small with hle | hle
  · rw [max_eq_left hle] at hbd ⊢
    have : a = fun _ => small := funext fun j => le_antisymm (hbd j) (hlow j)
    rw [this]
    exact tendsto_const_nhds
  · rw [max_eq_right hle] at hbd ⊢
    obtain ⟨l, hl⟩ : ∃ l, Tendsto a atTop (𝓝 l) := by
      rcases tendsto_of_monotone hmono with h | h
      · exfalso
        obtain ⟨j, hj⟩ := (h.eventually (eventually_gt_atTop ps)).exists
        exact absurd hj (not_lt.mpr (hbd j))
      · exact h
    have hl1 : l ≤ ps := le_of_tendsto' hl hbd
    have hl2 : small ≤ l := ge_of_tendsto' hl hlow
    have hl0 : 0 < l := lt_of_lt_of_le hs hl2
    have hal : ∀ j, a j ≤ l := hmono.ge_of_tendsto hl
    -- the steps go to zero, and bound the function value
    have hlim : Tendsto (fun j => a (j + 1) - a j) atTop (𝓝 0) := by
      have := (hl.comp (tendsto_add_atTop_nat 1)).sub hl
      simpa using this
    have hval : ∀ j, -(total' γ L R (a 0) * (a (j + 1) - a j)) ≤ total γ L R (a j) := by
      intro j
      have hpj : 0 < a j := lt_of_lt_of_le hs (hlow j)
      have hp0' : 0 < a 0 := lt_of_lt_of_le hs (hlow 0)
      have hd := total'_pos hγ hL hR hpj
      have hanti := total'_anti hγ hL hR _ _ hp0' (hmono (Nat.zero_le j))
      have hn : newton γ L R (a j) ≤ a (j + 1) := by rw [hstep]; exact le_max_right _ _
      rw [newton_eq] at hn
      have h3 : -(total γ L R (a j) / total' γ L R (a j)) ≤ a (j + 1) - a j := by linarith
      have h4 := mul_le_mul_of_nonneg_left h3 hd.le
      have h5 : total' γ L R (a j) * -(total γ L R (a j) / total' γ L R (a j)) = -total γ L R (a j) := by
        field_simp
      rw [h5] at h4
      have h6 : total' γ L R (a j) * (a (j + 1) - a j) ≤ total' γ L R (a 0) * (a (j + 1) - a j) :=
        mul_le_mul_of_nonneg_right hanti (sub_nonneg.mpr (hmono (Nat.le_succ j)))
      linarith
    have hcont : Tendsto (fun j => total γ L R (a j)) atTop (𝓝 (total γ L R l)) :=
      (total_deriv hγ hL hR hl0).continuousAt.tendsto.comp hl
    have hz : 0 ≤ total γ L R l := by
      have h7 : Tendsto (fun j => -(total' γ L R (a 0) * (a (j + 1) - a j))) atTop (𝓝 (-(total' γ L R (a 0) * 0))) :=
        (hlim.const_mul _).neg
      rw [mul_zero, neg_zero] at h7
      exact le_of_tendsto_of_tendsto' h7 hcont hval
    have : l = ps := by
      rcases hl1.lt_or_eq with h | h
      · have := total_mono hγ hL hR hl0 h; linarith
      · exact h
    rw [← this]
    exact hl

/-- With more and more rounds (and no tolerance) the routine returns the exact star state. -/
theorem C55_limit (hγ : 1 < γ) (hL : Good γ L) (hR : Good γ R) (small tol : ℝ) (hs : 0 < small) (ht : tol ≤ 0)
    (hv : ¬ Vacuum γ L R) (ps : ℝ) (hps : Balanced γ L R ps) (hle : small ≤ ps) :
    Tendsto (fun N => (starRegion γ small tol N L R).1) atTop (𝓝 ps) ∧
    Tendsto (fun N => (starRegion γ small tol N L R).2) atTop (𝓝 (L.u - waveFn γ L ps)) := by
  have hg : 0 < guess γ small L R := lt_of_lt_of_le hs guess_pos
  have hc := C55_converges hγ hL hR small hs ps _ hps hg
  rw [max_eq_right hle] at hc
  have hp := hps.1
  constructor
  · rw [← tendsto_add_atTop_iff_nat 1]
    refine Tendsto.congr (fun N => ?_) (hc.comp (tendsto_add_atTop_nat 1))
    unfold starRegion
    rw [if_neg hv, iter_full hs ht _ _ hg]
    rfl
  · rw [← tendsto_add_atTop_iff_nat 1]
    have hf : ∀ S : Side, Good γ S → Tendsto (fun j => waveFn γ S ((fun p => max small (newton γ L R p))^[j] (guess γ small L R)))
        atTop (𝓝 (waveFn γ S ps)) := fun S hS => (waveFn_deriv hγ hS hp).continuousAt.tendsto.comp hc
    have h := ((hf R hR).sub (hf L hL)).const_mul (0.5 : ℝ) |>.const_add (0.5 * (L.u + R.u))
    have e : 0.5 * (L.u + R.u) + 0.5 * (waveFn γ R ps - waveFn γ L ps) = L.u - waveFn γ L ps := by
      have := hps.2
      linarith
    rw [e] at h
    refine Tendsto.congr (fun N => ?_) h
    unfold starRegion
    rw [if_neg hv, iter_full hs ht _ _ hg]
    rfl

/-- Error when the tolerance test ends the iteration: the distance of the last but one pressure from the solution is at most
the last step, times the ratio of the slopes. -/
theorem C55_stop (hγ : 1 < γ) (hL : Good γ L) (hR : Good γ R) (ps p : ℝ) (hps : Balanced γ L R ps) (hp : 0 < p) :
    (ps - p) * (waveFn' γ L ps + waveFn' γ R ps) ≤ (newton γ L R p - p) * (waveFn' γ L p + waveFn' γ R p) := by
  obtain ⟨h1, h0⟩ := balanced_iff.mp hps
  have ht := total_tangent hγ hL hR h1 hp
  have hpos := total'_pos hγ hL hR hp
  have e : (newton γ L R p - p) * total' γ L R p = -total γ L R p := by
    rw [newton_eq]
    field_simp
    ring
  change (ps - p) * total' γ L R ps ≤ (newton γ L R p - p) * total' γ L R p
  rw [e]
  rw [h0] at ht
  linarith

/-- Identical sides are returned unchanged. -/
theorem C55_identical (S : Side) (hS : Good γ S) (small tol : ℝ) (hs : small ≤ S.p) (ht : 0 < tol) (N : ℕ) :
    starRegion γ small tol N S S = (S.p, S.u) := by
  have hv : ¬ Vacuum γ S S := by
    unfold Vacuum
    rw [sub_self, mul_zero, sub_zero, not_le]
    have := hS.c
    linarith
  have hppv : ppv S S = S.p := by
    unfold ppv
    rw [sub_self, mul_zero, zero_mul, add_zero, max_eq_right]
    · ring
    · have := hS.p
      linarith
  have hguess : guess γ small S S = S.p := by
    unfold guess
    simp only [hppv, min_self, max_self, le_refl, and_self, and_true]
    rw [if_pos (by rw [div_self hS.p.ne']; norm_num), max_eq_left hs]
  have hw : waveFn γ S S.p = 0 := by rw [waveFn_rare le_rfl, rare_at hS]
  have hn : newton γ S S S.p = S.p := by
    unfold newton
    rw [hw]
    simp
  have hit : iter γ small tol S S (N - 1) S.p = (S.p, S.p) := by
    cases N - 1 with
    | zero => simp only [iter, hn]; rw [if_neg (not_lt.mpr hs)]
    | succ k =>
      simp only [iter, hn]
      rw [if_neg (not_lt.mpr hs), if_pos]
      simpa using ht
  unfold starRegion
  rw [if_neg hv]
  simp only [hguess, hit, hw]
  refine Prod.ext rfl ?_
  simp only
  ring

/-- Seen in a mirror (sides exchanged, velocities reversed) the routine returns the same pressure and the opposite velocity:
the two particles of a pair agree on their star region. -/
theorem C55_mirror (hγ : 1 < γ) (hL : Good γ L) (hR : Good γ R) (small tol : ℝ) (N : ℕ) :
    starRegion γ small tol N (mirror R) (mirror L) = ((starRegion γ small tol N L R).1, -(starRegion γ small tol N L R).2) := by
  have hv : Vacuum γ (mirror R) (mirror L) ↔ Vacuum γ L R := by
    unfold Vacuum mirror
    simp only
    rw [show R.c + L.c - g7 γ * (-L.u - -R.u) = L.c + R.c - g7 γ * (R.u - L.u) by ring]
  have hw : ∀ S p, waveFn γ (mirror S) p = waveFn γ S p := fun _ _ => rfl
  have hw' : ∀ S p, waveFn' γ (mirror S) p = waveFn' γ S p := fun _ _ => rfl
  have hn : ∀ p, newton γ (mirror R) (mirror L) p = newton γ L R p := by
    intro p
    unfold newton
    simp only [hw, hw']
    simp only [mirror]
    rw [add_comm (waveFn' γ R p)]
    congr 2
    ring
  have hit : ∀ k p, iter γ small tol (mirror R) (mirror L) k p = iter γ small tol L R k p := by
    intro k
    induction k with
    | zero => intro p; simp only [iter, hn]
    | succ k ih => intro p; simp only [iter, hn, ih]
  have hppv : ppv (mirror R) (mirror L) = ppv L R := by
    unfold ppv mirror
    simp only
    congr 1
    ring
  have hguess : guess γ small (mirror R) (mirror L) = guess γ small L R := by
    unfold guess
    rw [hppv]
    simp only [mirror]
    simp only [min_comm R.p L.p, max_comm R.p L.p]
    congr 1
    by_cases h1 : max L.p R.p / min L.p R.p ≤ 2 ∧ min L.p R.p ≤ ppv L R ∧ ppv L R ≤ max L.p R.p
    · rw [if_pos h1, if_pos h1]
    · rw [if_neg h1, if_neg h1]
      by_cases h2 : ppv L R < min L.p R.p
      · rw [if_pos h2, if_pos h2]
        have hq : (R.p / L.p) ^ g1 γ = ((L.p / R.p) ^ g1 γ)⁻¹ := by
          rw [← Real.inv_rpow (div_pos hL.p hR.p).le, inv_div]
        have hq0 : 0 < (L.p / R.p) ^ g1 γ := Real.rpow_pos_of_pos (div_pos hL.p hR.p) _
        rw [hq]
        generalize (L.p / R.p) ^ g1 γ = q at *
        have hcl := hL.c
        have hcr := hR.c
        have hum : (q⁻¹ * -R.u / R.c + -L.u / L.c + g4 γ * (q⁻¹ - 1)) / (q⁻¹ / R.c + 1 / L.c) =
            -((q * L.u / L.c + R.u / R.c + g4 γ * (q - 1)) / (q / L.c + 1 / R.c)) := by
          have h3 : q⁻¹ / R.c + 1 / L.c = (q / L.c + 1 / R.c) / q := by field_simp; ring
          have h4 : q⁻¹ * -R.u / R.c + -L.u / L.c + g4 γ * (q⁻¹ - 1) =
              -(q * L.u / L.c + R.u / R.c + g4 γ * (q - 1)) / q := by field_simp; ring
          rw [h3, h4, div_div_div_cancel_right₀ hq0.ne', neg_div]
        rw [hum]
        generalize (q * L.u / L.c + R.u / R.c + g4 γ * (q - 1)) / (q / L.c + 1 / R.c) = um
        rw [show g7 γ * (-R.u - -um) = g7 γ * (um - R.u) by ring, show g7 γ * (-um - -L.u) = g7 γ * (L.u - um) by ring]
        ring
      · rw [if_neg h2, if_neg h2]
        rw [add_comm √(g5 γ / R.d / (g6 γ * R.p + ppv L R))]
        congr 1
        ring
  unfold starRegion
  by_cases h : Vacuum γ L R
  · rw [if_pos h, if_pos (hv.mpr h)]
    simp
  · rw [if_neg h, if_neg (fun h' => h (hv.mp h'))]
    simp only [hguess, hit, hw]
    refine Prod.ext rfl ?_
    simp only [mirror]
    ring

/-! ### a concrete case: two equal gases colliding -/

/-- density 7/5, pressure 1, sound speed 1, index 7/5 -/
noncomputable def collide (u : ℝ) : Side := ⟨1, 7 / 5, 1, u⟩

theorem collide_good (u : ℝ) : Good (7 / 5) (collide u) := ⟨by norm_num [collide], by norm_num [collide], by norm_num [collide], by norm_num [collide]⟩

example : ¬ Vacuum (7 / 5) (collide 1) (collide (-1)) := by norm_num [Vacuum, collide, g7]

example : Vacuum (7 / 5) (collide (-5)) (collide 5) := by norm_num [Vacuum, collide, g7]

end Gandalf
