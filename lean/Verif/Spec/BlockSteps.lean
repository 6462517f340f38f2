import Verif.Model.BlockSteps

/-! What a nested hierarchy of block timesteps is. -/

set_option autoImplicit false

namespace Gandalf.Block

/-- Between two passes of the main loop: the particle is inside a step of length `2^(level_step-level)`
that began at a multiple of that length, and its clock agrees with the integer time. -/
structure Nested (s : State) (p : Part) : Prop where
  level : p.level ≤ s.level_max
  nstep : p.nstep = 2 ^ (s.level_step - p.level)
  aligned : p.nstep ∣ p.nlast
  begun : p.nlast ≤ s.n
  notOver : s.n < p.nlast + p.nstep
  clock : s.t - p.tlast = ((s.n : ℝ) - p.nlast) * s.timestep
  noEnd : p.endStep = false

/-- Within a pass, `n` having been advanced: the step ends now (perhaps cut short by the limiter) or
goes on. -/
structure Ending (s : State) (p : Part) : Prop where
  level : p.level ≤ s.level_max
  before : p.nlast < s.n
  now : s.n = p.nlast + p.nstep
  alignedNow : 2 ^ (s.level_step - p.level) ∣ s.n
  alignedStep : 2 ^ (s.level_step - p.level) ∣ p.nstep
  noEnd : p.endStep = false

structure Running (s : State) (p : Part) : Prop where
  level : p.level ≤ s.level_max
  before : p.nlast < s.n
  nstep : p.nstep = 2 ^ (s.level_step - p.level)
  aligned : p.nstep ∣ p.nlast
  notOver : s.n < p.nlast + p.nstep
  clock : s.t - p.tlast = ((s.n : ℝ) - p.nlast) * s.timestep
  noEnd : p.endStep = false

/-- The clockwork of the hierarchy: `2^level_step` ticks from one resynchronisation to the next. -/
structure Clockwork (cfg : Cfg) (s : State) : Prop where
  step : s.level_step = s.level_max + cfg.integration_step - 1
  resync : s.nresync = 2 ^ s.level_step
  tick : s.timestep = s.dt_max / 2 ^ s.level_step

end Gandalf.Block
