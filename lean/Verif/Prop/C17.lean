import Verif.Proof.BlockTrace

/-!
# C17 Block timestep invariants

`C17_hierarchy` and `C17_finish_together` cover the kick-drift-kick and meshless schemes with or without
the limiter and the drift-kick-drift scheme without it. With the limiter the drift-kick-drift scheme
breaks the hierarchy: `C17_dkd_limiter_breaks`.
-/

set_option autoImplicit false

namespace Gandalf

open Block

/-- **C17.** In every reachable state the hierarchy is nested: between passes each live particle is
inside an aligned step of `2^(level_step-level)` ticks; within a pass its step ends now or goes on. No
level exceeds the maximum. -/
theorem C17_hierarchy {cfg : Cfg} (hc : cfg.OK) {s : State} (h : Reach cfg s) :
    Clockwork cfg s ∧ s.n ≤ s.nresync ∧
    (s.phase = .idle → s.n < s.nresync ∧ (∀ p ∈ s.hydro, p.dead = false → Nested s p) ∧
      ∀ p ∈ s.stars, Nested s p) ∧
    (s.phase ≠ .idle → (∀ p ∈ s.hydro, p.dead = false → Ending s p ∨ Running s p) ∧
      ∀ p ∈ s.stars, Ending s p ∨ Running s p) := by
  have hi := reach_inv hc h
  refine ⟨hi.clock, ?_, hi.idle, fun hp => ⟨(hi.work hp).2.2.1, (hi.work hp).2.2.2⟩⟩
  by_cases hp : s.phase = .idle
  · exact (hi.idle hp).1.le
  · exact (hi.work hp).2.1

/-- **C17.** At the resynchronisation time the step of every particle ends. -/
theorem C17_finish_together {cfg : Cfg} (hc : cfg.OK) {s : State} (h : Reach cfg s)
    (hp : s.phase ≠ .idle) (hn : s.n = s.nresync) :
    (∀ p ∈ s.hydro, p.dead = false → p.nlast + p.nstep = s.n) ∧ ∀ p ∈ s.stars, p.nlast + p.nstep = s.n := by
  have hi := reach_inv hc h
  have hw := hi.work hp
  have hls := hi.clock.le hc
  rw [hi.clock.resync] at hn
  exact ⟨fun p hp hd => ((hw.2.2.1 p hp hd).at_resync hls hn).now.symm,
    fun p hp => ((hw.2.2.2 p hp).at_resync hls hn).now.symm⟩

/-- **C17.** No action of the main loop gets stuck on a division by zero. -/
theorem C17_no_failure {cfg : Cfg} (hc : cfg.OK) {s : State} (h : Reach cfg s) (o : Op)
    (ho : o.Allowed cfg s) : ∃ s', apply cfg s o = some s' ∧ Reach cfg s' := by
  obtain ⟨s', h1, -⟩ := step_inv hc (reach_inv hc h) o ho
  exact ⟨s', h1, .next o h ho h1⟩

/-- The resynchronisation is reached: `nresync - n` more ticks without a change of levels. -/
theorem C17_ticks_to_resync {cfg : Cfg} (hc : cfg.OK) {s : State} (h : Reach cfg s) :
    ∃ k, s.n + k = 2 ^ s.level_step ∧ s.t + k * s.timestep = s.t + (1 - s.n / 2 ^ s.level_step) * s.dt_max := by
  have hi := reach_inv hc h
  have hle := (C17_hierarchy hc h).2.1
  rw [hi.clock.resync] at hle
  refine ⟨2 ^ s.level_step - s.n, by omega, ?_⟩
  rw [hi.clock.tick, Nat.cast_sub hle]
  push_cast
  field_simp

/-! ### a run with two particles -/

/-- Nlevels = 3, two ticks per smallest step, neighbours may differ by one level. -/
noncomputable def c17cfg (sch : Scheme) : Cfg where
  scheme := sch
  Nlevels := 3
  integration_step := 2
  level_diff_max := 1
  single := false
  limiter := true
  big := 1000
  sinkStar := id

noncomputable def c17part (level levelneib nlast nstep : ℕ) (dt req : ℝ) : Part where
  dead := false
  level := level
  levelneib := levelneib
  nlast := nlast
  nstep := nstep
  endStep := false
  tlast := 0
  dt := dt
  dtNext := 0
  sinkid := none
  req := req

noncomputable def c17start : State where
  phase := .checked
  n := 0
  nresync := 0
  level_max := 0
  level_step := 0
  t := 0
  timestep := 0
  dt_max := 0
  hydro := [c17part 0 0 0 0 0 1, c17part 0 0 0 0 0 16]
  stars := []

noncomputable def c17state (phase : Phase) (n : ℕ) (t : ℝ) (hydro : List Part) : State where
  phase := phase
  n := n
  nresync := 8
  level_max := 2
  level_step := 3
  t := t
  timestep := 1 / 2
  dt_max := 4
  hydro := hydro
  stars := []

theorem c17_level_a : timestepLevel 1 4 = 3 := timestepLevel_eq (L := 2) (by norm_num) (by norm_num)

theorem c17_level_b : timestepLevel 16 4 = 0 := by
  rw [timestepLevel_small (by norm_num) (by norm_num), if_pos (by norm_num)]

theorem c17_level_c : timestepLevel (3 / 2) 4 = 2 := timestepLevel_eq (L := 1) (by norm_num) (by norm_num)

/-- after the first call of `ComputeBlockTimesteps` -/
theorem c17_run0 (sch : Scheme) :
    Reach (c17cfg sch) (c17state .idle 0 0 [c17part 2 2 0 2 2 1, c17part 0 0 0 8 8 16]) := by
  refine .start (s := c17start) ⟨rfl, rfl, rfl, ?_, ?_⟩ ?_
  · intro p hp
    simp [c17start] at hp
    rcases hp with rfl | rfl <;> simp [c17part]
  · intro p hp; simp [c17start] at hp
  · have hb : baseStep (c17cfg sch) c17start = 1 := by
      simp [baseStep, dtMinHydro, dtMinNbody, c17start, c17part, c17cfg]
    have hr : resync (c17cfg sch) c17start = c17state .checked 0 0
        [{ c17part 2 2 0 2 0 1 with
            endStep := true
            dtNext := 2 },
          { c17part 0 0 0 8 0 16 with
            endStep := true
            dtNext := 8 }] := by
      unfold resync
      rw [hb]
      simp only [c17state, State.mk.injEq, c17cfg]
      norm_num [c17start, resyncHydro, c17part, c17_level_a, c17_level_b, pow2]
    rw [apply_block, computeBlock, if_pos (show c17start.n = c17start.nresync from rfl), hr]
    simp [endTimestep, c17state, endPart, c17part]

theorem c17_run1 (sch : Scheme) :
    Reach (c17cfg sch) (c17state .dirty 1 (1 / 2) [c17part 2 2 0 2 2 1, c17part 0 0 0 8 8 16]) :=
  .next .tick (c17_run0 sch) rfl (by simp [apply, c17state])

/-- what the neighbour loops find: the first particle is a neighbour of the second -/
noncomputable def c17env : Env where
  req := fun i => if i = 0 then 3 / 2 else 16
  levelneib := fun _ => 2
  sinkid := fun _ => none
  die := fun _ => false
  starReq := fun _ => 1

theorem c17_run2 (sch : Scheme) :
    Reach (c17cfg sch) (c17state .dirty 1 (1 / 2) [c17part 2 2 0 2 2 (3 / 2), c17part 0 2 0 8 8 16]) :=
  .next (.env c17env) (c17_run1 sch)
    ⟨fun i => by simp only [c17env]; split_ifs <;> norm_num, fun i => by simp [c17env],
      fun i p _ => by simp [c17env, c17state]⟩
    (by simp [apply, Env.apply, c17env, c17state, c17part])

theorem c17_run3 (sch : Scheme) :
    Reach (c17cfg sch) (c17state .checked 1 (1 / 2) [c17part 2 2 0 2 2 (3 / 2), c17part 0 2 0 8 8 16]) :=
  .next .check (c17_run2 sch) ⟨by simp [c17state], rfl⟩
    (by cases sch <;> simp [apply, checkPart, c17cfg, c17state, c17part, pow2])

theorem c17_run4 (sch : Scheme) :
    Reach (c17cfg sch) (c17state .idle 1 (1 / 2) [c17part 2 2 0 2 2 (3 / 2), c17part 0 2 0 8 8 16]) :=
  .next .block (c17_run3 sch) (Or.inl rfl)
    (by
      rw [apply_block]
      simp only [computeBlock, adapt, c17state, c17part, c17cfg]
      norm_num [adaptHydro, maxLevel, live, rescale, single, finish, endTimestep, endPart, pow2])

theorem c17_run5 (sch : Scheme) :
    Reach (c17cfg sch) (c17state .dirty 2 1 [c17part 2 2 0 2 2 (3 / 2), c17part 0 2 0 8 8 16]) :=
  .next .tick (c17_run4 sch) rfl (by simp [apply, c17state]; norm_num)

/-- The premises hold for a state in which one step is about to end and the other goes on. -/
example : (c17cfg .kdk).OK ∧ (c17cfg .mfv).OK ∧
    Ending (c17state .dirty 2 1 [c17part 2 2 0 2 2 (3 / 2), c17part 0 2 0 8 8 16]) (c17part 2 2 0 2 2 (3 / 2)) ∧
    Running (c17state .dirty 2 1 [c17part 2 2 0 2 2 (3 / 2), c17part 0 2 0 8 8 16]) (c17part 0 2 0 8 8 16) := by
  refine ⟨⟨by decide, by decide, by decide, by norm_num [c17cfg]⟩,
    ⟨by decide, by decide, by decide, by norm_num [c17cfg]⟩, ?_, ?_⟩
  · constructor <;> norm_num [c17state, c17part]
  · constructor <;> norm_num [c17state, c17part]

/-- The hypotheses of `C17_finish_together` are met with two particles and a single level. -/
example : ∃ (cfg : Cfg) (s : State), cfg.OK ∧ Reach cfg s ∧ s.phase ≠ .idle ∧ s.n = s.nresync ∧
    s.hydro.length = 2 := by
  set cfg : Cfg := { c17cfg .kdk with
    Nlevels := 1
    integration_step := 1 } with hcfg
  have h1 : Start c17start := by
    refine ⟨rfl, rfl, rfl, ?_, ?_⟩
    · intro p hp
      simp [c17start] at hp
      rcases hp with rfl | rfl <;> simp [c17part]
    · intro p hp; simp [c17start] at hp
  have h2 : Reach cfg (endTimestep cfg { resync cfg c17start with phase := .idle }) :=
    .start h1 (by rw [apply_block, computeBlock, if_pos (show c17start.n = c17start.nresync from rfl)]; rfl)
  exact ⟨cfg, _, ⟨by decide, by decide, by decide, by norm_num [hcfg, c17cfg]⟩,
    .next (.tick) h2 (show _ = _ from rfl) rfl, by simp, rfl, rfl⟩

/-- **C17 fails for drift-kick-drift with the limiter.** `CheckTimesteps` there lets a step end when
`2*dn` is a multiple of the new step, and `ComputeBlockTimesteps` starts the new step at once, at a time
that is not a multiple of it. -/
theorem C17_dkd_limiter_breaks : ∃ s, Reach (c17cfg .dkd) s ∧ s.phase = .idle ∧
    ∃ p ∈ s.hydro, p.dead = false ∧ p.nlast = s.n ∧ p.nstep = 2 ^ (s.level_step - p.level) ∧
      ¬ p.nstep ∣ p.nlast := by
  have h6 : Reach (c17cfg .dkd)
      (c17state .checked 2 1 [c17part 2 2 0 2 2 (3 / 2), c17part 1 2 0 2 8 16]) :=
    .next .check (c17_run5 .dkd) ⟨by simp [c17state], rfl⟩
      (by simp [apply, checkPart, c17cfg, c17state, c17part, pow2])
  have h7 : Reach (c17cfg .dkd)
      (c17state .idle 2 1 [{ c17part 2 2 2 2 1 (3 / 2) with tlast := 1 },
        { c17part 1 1 2 4 2 16 with tlast := 1 }]) :=
    .next .block h6 (Or.inl rfl)
      (by
        rw [apply_block]
        simp only [computeBlock, adapt, c17state, c17part, c17cfg]
        norm_num [adaptHydro, newLevel, c17_level_c, c17_level_b, maxLevel, live, rescale, single, finish,
          endTimestep, endPart, pow2])
  refine ⟨_, h7, rfl, { c17part 1 1 2 4 2 16 with tlast := 1 }, by simp [c17state], rfl, rfl, ?_, ?_⟩
  · simp [c17state, c17part]
  · simp [c17part]

end Gandalf
