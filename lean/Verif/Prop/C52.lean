import Verif.Prop.C18

/-!
# C52 The recorded step length

`part.dt` is meant to be the length of the particle's current step; the velocity and energy corrections
of `EndTimestep` are multiplied by it (SphLeapfrogKDK.cpp:242-253, MfvIntegration.cpp:165-175). It is set
from `dt_next`, which `ComputeBlockTimesteps` computes before the integer times are rescaled. The two
theorems say exactly what is recorded; `C52_zero` and `C52_limiter` show that this is not the length of
the step.
-/

set_option autoImplicit false

namespace Gandalf

open Block

/-- **C52, resynchronisation.** The recorded length is `2^(integration_step-1)` times the length of the
step; so they agree exactly when `integration_step` is one. -/
theorem C52_resync {cfg : Cfg} (hc : cfg.OK) {s s' : State} (hn : s.n = s.nresync)
    (h1 : ∀ p ∈ s.hydro, 0 < p.req) (h2 : ∀ p ∈ s.stars, 0 < p.req ∧ p.dead = false)
    (ha : apply cfg s .block = some s') :
    (∀ (i : ℕ) (p : Part), s.hydro[i]? = some p → p.dead = false → ∃ q, s'.hydro[i]? = some q ∧
      q.nlast = s'.n ∧ q.dt = 2 ^ (cfg.integration_step - 1) * (q.nstep * s'.timestep)) ∧
    ∀ (i : ℕ) (p : Part), s.stars[i]? = some p → ∃ q, s'.stars[i]? = some q ∧
      q.nlast = s'.n ∧ q.dt = 2 ^ (cfg.integration_step - 1) * (q.nstep * s'.timestep) := by
  rw [apply_block, computeBlock, if_pos hn] at ha
  injection ha with ha
  have hi : Block.Inv cfg s' := ha ▸ resync_inv hc h1 h2
  have hle := hi.clock.le hc
  obtain ⟨hdt, a1, a2⟩ := resync_trace hc h1 h2 ha.symm
  have key : baseStep cfg s = 2 ^ (cfg.integration_step - 1) * s'.timestep := by
    have hst := hi.clock.step
    have := hc.step
    rw [hi.clock.tick, hdt]
    have : s'.level_step = s'.level_max + (cfg.integration_step - 1) := by omega
    rw [this, pow_add]
    field_simp
  refine ⟨fun i p hip hd => ?_, fun i p hip => ?_⟩
  · obtain ⟨q, b1, -, b3, b4, b5, -, b7, -⟩ := a1 i p hip hd
    exact ⟨q, b1, b3, by rw [b7, key]; ring⟩
  · obtain ⟨q, b1, -, b3, b4, b5, -, b7, -⟩ := a2 i p hip
    exact ⟨q, b1, b3, by rw [b7, key]; ring⟩

/-- What is recorded for a step begun between resynchronisations: its length, or zero when its level lies
below the level step that was valid before the call. -/
def Recorded (s s' : State) (q : Part) : Prop :=
  q.nlast = s'.n ∧ (q.level ≤ s.level_step → q.dt = q.nstep * s'.timestep) ∧
    (s.level_step < q.level → q.dt = 0)

/-- **C52, between resynchronisations, in part** (without `hydro_single_timestep`). Missing: a correct
length for levels deeper than the previous level step, where the code records zero. -/
theorem C52_recorded_partial {cfg : Cfg} (hc : cfg.OK) (hsingle : cfg.single = false) {s s' : State}
    (h : Reach cfg s) (ho : Op.Allowed cfg s .block) (hn : s.n ≠ s.nresync)
    (ha : apply cfg s .block = some s') :
    (∀ (i : ℕ) (p : Part), s.hydro[i]? = some p → p.dead = false → s.n = p.nlast + p.nstep →
      ∃ q, s'.hydro[i]? = some q ∧ Recorded s s' q) ∧
    ∀ (i : ℕ) (p : Part), s.stars[i]? = some p → s.n = p.nlast + p.nstep →
      ∃ q, s'.stars[i]? = some q ∧ Recorded s s' q := by
  have hi := reach_inv hc h
  have hph : s.phase ≠ .idle := by
    rcases ho with ho | ⟨ho, -⟩ <;> rw [ho] <;> decide
  have hchk : cfg.limiter = true → s.phase = .checked := by
    intro hl
    rcases ho with ho | ⟨-, ho⟩
    · exact ho
    · rw [hl] at ho; cases ho
  obtain ⟨s2, e1, e2⟩ := step_inv hc hi .block ho
  rw [ha] at e1; injection e1 with e1; subst e1
  have hle := e2.clock.le hc
  rw [apply_block, computeBlock, if_neg hn] at ha
  obtain ⟨R, hR, hs'⟩ := Option.map_eq_some_iff.mp ha
  obtain ⟨-, a1, a2⟩ := adapt_trace hc hi hph hn hchk hR
  rw [hs'] at a1 a2
  have key : ∀ {p q : Part}, NewStep s s' p q → q.dt = pow2 s.level_step q.level * s.timestep →
      Recorded s s' q := by
    intro p q hq hdt
    have := hq.level
    refine ⟨hq.nlast, fun hl => ?_, fun hl => ?_⟩
    · rw [hdt, hq.nstep, e2.clock.tick, step_length (by omega), hq.dtMax, pow2_of_le hl, hi.clock.tick,
        step_length hl]
    · rw [hdt, pow2, if_neg (by omega)]; simp
  refine ⟨fun i p hip hd hnow => ?_, fun i p hip hnow => ?_⟩
  · obtain ⟨q, b1, b2, -, b4⟩ := a1 i p hip hd hnow
    exact ⟨q, b1, key b2 (b4 hsingle)⟩
  · obtain ⟨q, b1, b2, b3⟩ := a2 i p hip hnow
    exact ⟨q, b1, key b2 b3⟩

/-! ### where it goes wrong -/

/-- two levels, one tick per smallest step -/
noncomputable def c52cfg : Cfg where
  scheme := .kdk
  Nlevels := 2
  integration_step := 1
  level_diff_max := 1
  single := false
  limiter := false
  big := 1000
  sinkStar := id

noncomputable def c52state (phase : Phase) (n : ℕ) (t : ℝ) (hydro : List Part) : State where
  phase := phase
  n := n
  nresync := 2
  level_max := 1
  level_step := 1
  t := t
  timestep := 1
  dt_max := 2
  hydro := hydro
  stars := []

noncomputable def c52start : State := { c17start with hydro := [c17part 0 0 0 0 0 1, c17part 0 0 0 0 0 4] }

theorem c52_level_a : timestepLevel 1 2 = 2 := timestepLevel_eq (L := 1) (by norm_num) (by norm_num)
theorem c52_level_b : timestepLevel 4 2 = 0 := by
  rw [timestepLevel_small (by norm_num) (by norm_num), if_pos (by norm_num)]
theorem c52_level_c : timestepLevel (1 / 4) 2 = 4 :=
  timestepLevel_eq (L := 3) (by norm_num) (by norm_num)

theorem c52_run0 : Reach c52cfg (c52state .idle 0 0 [c17part 1 1 0 1 1 1, c17part 0 0 0 2 2 4]) := by
  refine .start (s := c52start) ⟨rfl, rfl, rfl, ?_, ?_⟩ ?_
  · intro p hp
    simp [c52start] at hp
    rcases hp with rfl | rfl <;> simp [c17part]
  · intro p hp; simp [c52start, c17start] at hp
  · have hb : baseStep c52cfg c52start = 1 := by
      simp [baseStep, dtMinHydro, dtMinNbody, c52start, c17start, c17part, c52cfg]
    have hr : resync c52cfg c52start = c52state .checked 0 0
        [{ c17part 1 1 0 1 0 1 with
            endStep := true
            dtNext := 1 },
          { c17part 0 0 0 2 0 4 with
            endStep := true
            dtNext := 2 }] := by
      unfold resync
      rw [hb]
      simp only [c52state, State.mk.injEq, c52cfg]
      norm_num [c52start, c17start, resyncHydro, c17part, c52_level_a, c52_level_b, pow2]
    rw [apply_block, computeBlock, if_pos (show c52start.n = c52start.nresync from rfl), hr]
    simp [endTimestep, c52state, endPart, c17part]

/-- the first particle now wants steps of a quarter -/
noncomputable def c52env : Env where
  req := fun i => if i = 0 then 1 / 4 else 4
  levelneib := fun i => if i = 0 then 1 else 0
  sinkid := fun _ => none
  die := fun _ => false
  starReq := fun _ => 1

theorem c52_run2 : Reach c52cfg (c52state .dirty 1 1 [c17part 1 1 0 1 1 (1 / 4), c17part 0 0 0 2 2 4]) :=
  .next (.env c52env) (.next .tick c52_run0 rfl (s' := c52state .dirty 1 1
      [c17part 1 1 0 1 1 1, c17part 0 0 0 2 2 4]) (by simp [apply, c52state]))
    ⟨fun i => by simp only [c52env]; split_ifs <;> norm_num, fun i => by simp [c52env],
      fun i p _ => by simp only [c52env, c52state]; split_ifs <;> simp⟩
    (by simp [apply, Env.apply, c52env, c52state, c17part])

/-- **C52 fails.** When a particle goes to a level deeper than all levels so far, the recorded length of
its step is zero: the corrections at the end of that step are lost. -/
theorem C52_zero : ∃ s, Reach c52cfg s ∧ s.phase = .idle ∧ ∃ p ∈ s.hydro, p.dead = false ∧ p.nlast = s.n ∧
    p.dt = 0 ∧ 0 < p.nstep * s.timestep := by
  have h : Reach c52cfg { c52state .idle 8 1 [{ c17part 4 4 8 1 0 (1 / 4) with tlast := 1 },
      c17part 0 0 0 16 2 4] with
      nresync := 16
      level_max := 4
      level_step := 4
      timestep := 1 / 8 } :=
    .next .block c52_run2 (Or.inr ⟨rfl, rfl⟩)
      (by
        rw [apply_block]
        simp only [computeBlock, adapt, c52state, c17part, c52cfg]
        norm_num [adaptHydro, newLevel, c52_level_c, maxLevel, live, rescale, single, finish, scaleUp,
          endTimestep, endPart, pow2])
  refine ⟨_, h, rfl, { c17part 4 4 8 1 0 (1 / 4) with tlast := 1 }, by simp [c52state], rfl, rfl, rfl, ?_⟩
  norm_num [c17part]

/-- **C52 fails.** The kick-drift-kick limiter shortens a step and leaves the recorded length alone. -/
theorem C52_limiter {cfg : Cfg} (hs : cfg.scheme = .kdk) {s : State} {p q : Part}
    (h : checkPart cfg s p = some q) : q.dt = p.dt := by
  simp only [checkPart, hs] at h
  split_ifs at h <;> injection h with h <;> rw [← h]

/-- an instance in which the step is shortened -/
example : ∃ s p q, checkPart (c17cfg .kdk) s p = some q ∧ q.nstep < p.nstep ∧ 0 < s.timestep :=
  ⟨c17state .dirty 4 2 [], c17part 0 2 0 8 8 16, c17part 1 2 0 4 8 16,
    by simp [checkPart, c17cfg, c17state, c17part, pow2], by simp [c17part], by norm_num [c17state]⟩

/-- The meshless limiter does record the new length. -/
theorem C52_limiter_mfv {cfg : Cfg} (hs : cfg.scheme = .mfv) {s : State} {p q : Part}
    (h : checkPart cfg s p = some q) (hne : q ≠ p) : q.dt = q.nstep * s.timestep := by
  simp only [checkPart, hs] at h
  split_ifs at h <;> injection h with h <;> subst h <;> first | rfl | exact absurd rfl hne

/-- The premises of `C52_recorded_partial` hold in the state before `C52_zero`. -/
example : c52cfg.OK ∧ c52cfg.single = false ∧ ∃ s, Reach c52cfg s ∧ Op.Allowed c52cfg s .block ∧
    s.n ≠ s.nresync ∧ ∃ p : Part, s.hydro[0]? = some p ∧ p.dead = false ∧ s.n = p.nlast + p.nstep :=
  ⟨⟨by decide, by decide, by decide, by norm_num [c52cfg]⟩, rfl, _, c52_run2, Or.inr ⟨rfl, rfl⟩,
    by simp [c52state], c17part 1 1 0 1 1 (1 / 4), rfl, rfl, rfl⟩

end Gandalf
