import Verif.Common
import Mathlib.Analysis.SpecialFunctions.Log.Base

/-!
# Block timesteps

Model of `Simulation::ComputeBlockTimesteps` (src/Common/Simulation.cpp:1764-2197), of the timestep
limiters `CheckTimesteps` and of the parts of `EndTimestep` and of the main loops that touch the
integer time, together with `ComputeGlobalTimestep` (1669-1754).

Simplifications: one process (no `MPI_Allreduce`), all `omp` loops in order, `int` without overflow,
`pow(2,e)` exact and cut to an integer, asserts compiled out. `hydroint->Timestep(part)` and
`nbody->Timestep(star)` are the field `req` of the particle, which the environment may set to anything
positive before the call. Differences of integers that the code compares are written as sums.
-/

set_option autoImplicit false

namespace Gandalf.Block

noncomputable section

/-- `(int) pow(2, a - b)` -/
def pow2 (a b : ℕ) : ℕ := if b ≤ a then 2 ^ (a - b) else 0

/-- conversion of a `double` to `int` -/
def truncate (x : ℝ) : ℤ := if 0 ≤ x then ⌊x⌋ else ⌈x⌉

/-- `ComputeTimestepLevel`, Headers/InlineFuncs.h:550-558; `invlogetwo*log(x)` is the logarithm to base
two. -/
def timestepLevel (dt dtMax : ℝ) : ℕ := (max (truncate (Real.logb 2 (dtMax / dt)) + 1) 0).toNat

/-- The fields of `Particle` (Headers/Particle.h:135-160) and of `NbodyParticle` used here. -/
structure Part where
  dead : Bool
  level : ℕ
  levelneib : ℕ
  nlast : ℕ
  nstep : ℕ
  endStep : Bool
  tlast : ℝ
  dt : ℝ
  dtNext : ℝ
  sinkid : Option ℕ
  /-- what `Timestep` would return now -/
  req : ℝ

/-- Where the main loop stands. -/
inductive Phase where
  /-- between two passes of the main loop -/
  | idle
  /-- within a pass, neighbour levels changed since the last `CheckTimesteps` -/
  | dirty
  /-- within a pass, nothing changed since the last `CheckTimesteps` -/
  | checked
deriving DecidableEq

inductive Scheme where
  | kdk | dkd | mfv
deriving DecidableEq

/-- Run parameters. `limiter`: `CheckTimesteps` is called and active (SphSimulation.cpp:745,
MfvIntegration.cpp:235). `sinkStar` : index of the star of a sink. -/
structure Cfg where
  scheme : Scheme
  Nlevels : ℕ
  integration_step : ℕ
  level_diff_max : ℕ
  single : Bool
  limiter : Bool
  big : ℝ
  sinkStar : ℕ → ℕ

structure State where
  phase : Phase
  n : ℕ
  nresync : ℕ
  level_max : ℕ
  level_step : ℕ
  t : ℝ
  timestep : ℝ
  dt_max : ℝ
  hydro : List Part
  stars : List Part

/-! ### Resynchronisation, Simulation.cpp:1795-1925 -/

/-- 1810-1817 and 1841: minimum over the live hydro particles -/
def dtMinHydro (cfg : Cfg) (hydro : List Part) : ℝ :=
  (hydro.filter (!·.dead)).foldl (fun m p => min m p.req) cfg.big

/-- 1824-1829 and 1842 -/
def dtMinNbody (cfg : Cfg) (stars : List Part) : ℝ := stars.foldl (fun m p => min m p.req) cfg.big

/-- new level of a star, 1870-1879 -/
def resyncStar (level_max level_step lmh : ℕ) (t timestep dtMax : ℝ) (p : Part) : Part :=
  let level := max (min (timestepLevel p.req dtMax) level_max) lmh
  { p with
    level := level
    nlast := 0
    nstep := pow2 level_step level
    tlast := t
    dtNext := pow2 level_step level * timestep
    endStep := true }

/-- 1883-1893: particles near a sink, applied to one particle and the running `level_max_hydro` -/
def sinkNeighbour (cfg : Cfg) (stars : List Part) (lmh : ℕ) (p : Part) : ℕ :=
  match p.sinkid with
  | none => lmh
  | some id =>
    match stars[cfg.sinkStar id]? with
    | none => lmh
    | some st => if p.level + cfg.level_diff_max < st.level then max lmh (st.level - cfg.level_diff_max)
        else lmh

/-- 1897-1923: level given to a live hydro particle. The level that lines 1886-1887 gave it is
overwritten here. -/
def resyncHydro (cfg : Cfg) (level_max level_step lmh : ℕ) (timestep dtMax : ℝ) (p : Part) : Part :=
  if p.dead then p
  else
    let level := if cfg.single then lmh else min (timestepLevel p.req dtMax) level_max
    { p with
      level := level
      levelneib := level
      nstep := pow2 level_step level
      nlast := 0
      dtNext := pow2 level_step level * timestep
      endStep := true }

/-- smallest requested step, 1797-1843 -/
def baseStep (cfg : Cfg) (s : State) : ℝ :=
  min (min cfg.big (dtMinHydro cfg s.hydro)) (dtMinNbody cfg s.stars)

/-- 1795-1929 -/
def resync (cfg : Cfg) (s : State) : State :=
  let timestep := baseStep cfg s
  let level_max := cfg.Nlevels - 1
  let level_step := level_max + cfg.integration_step - 1
  let dtMax := timestep * 2 ^ level_max
  let lmh := min (timestepLevel (dtMinHydro cfg s.hydro) dtMax) level_max
  let stars := s.stars.map (resyncStar level_max level_step lmh s.t timestep dtMax)
  let lmh := s.hydro.foldl (sinkNeighbour cfg stars) lmh
  { s with
    n := 0
    nresync := 2 ^ level_step
    level_max := level_max
    level_step := level_step
    dt_max := dtMax
    timestep := dtMax / 2 ^ level_step
    hydro := s.hydro.map (resyncHydro cfg level_max level_step lmh timestep dtMax)
    stars := stars }

/-! ### Between resynchronisations, Simulation.cpp:1933-2156 -/

/-- Level after the natural end of a step, 1978-1988 and 2039-2050: `up` are the conditions for moving
up apart from the synchronisation; `none` is a division by zero. -/
def newLevel (n nstep last level : ℕ) (up : Bool) : Option ℕ :=
  if up then
    if 2 * nstep = 0 then none
    else if n % (2 * nstep) = 0 then some (last - 1)
    else if last < level then some level else some last
  else if last < level then some level else some last

/-- 1951-1996, one hydro particle -/
def adaptHydro (cfg : Cfg) (s : State) (p : Part) : Option Part :=
  if p.dead then some p
  else if s.n = p.nlast + p.nstep then
    let level := max (timestepLevel p.req s.dt_max) (p.levelneib - cfg.level_diff_max)
    if p.nstep ≠ pow2 s.level_step p.level then
      let l := max p.level level
      some { p with
        level := l
        levelneib := l
        nlast := s.n
        nstep := pow2 s.level_step l
        dtNext := pow2 s.level_step l * s.timestep
        endStep := true }
    else
      (newLevel s.n p.nstep p.level level (decide (level < p.level) && decide (1 < p.level))).map fun l =>
        { p with
          level := l
          levelneib := level
          nlast := s.n
          nstep := pow2 s.level_step l
          dtNext := pow2 s.level_step l * s.timestep
          endStep := true }
  else some p

/-- 2027-2059, one star -/
def adaptStar (s : State) (lmh : ℕ) (p : Part) : Option Part :=
  if s.n = p.nlast + p.nstep then
    let level := max (timestepLevel p.req s.dt_max) lmh
    (newLevel s.n p.nstep p.level level
        (decide (level < p.level) && decide (lmh < level) && decide (1 < p.level))).map fun l =>
      { p with
        level := l
        nlast := s.n
        nstep := pow2 s.level_step l
        tlast := s.t
        dtNext := pow2 s.level_step l * s.timestep
        endStep := true }
  else some p

/-- 1998-1999: highest level in a list of particles -/
def maxLevel (l : List Part) : ℕ := l.foldl (fun m p => max m p.level) 0

def live (l : List Part) : List Part := l.filter (!·.dead)

/-- 2093-2099 -/
def single (cfg : Cfg) (n lmh : ℕ) (p : Part) : Part :=
  if cfg.single && !p.dead && decide (p.nlast = n) then { p with level := lmh } else p

/-- 2104-2113 -/
def scaleUp (f : ℕ) (p : Part) : Part :=
  if p.dead then p else { p with
    nstep := p.nstep * f
    nlast := p.nlast * f }

/-- 2119-2127 -/
def scaleDown (f : ℕ) (p : Part) : Part :=
  if p.dead then p else { p with
    nlast := p.nlast / f
    nstep := p.nstep / f }

/-- 2139-2152 -/
def finish (n level_step : ℕ) (p : Part) : Part :=
  if p.dead then p else if p.nlast = n then { p with nstep := pow2 level_step p.level } else p

/-- 2102-2152, after the levels are known: `lm` is the highest level now occupied. -/
def rescale (cfg : Cfg) (s : State) (lm : ℕ) : State :=
  let old := s.level_max
  let s' : State :=
    if old < lm then
      let f := 2 ^ (lm - old)
      { s with
        level_max := lm
        n := s.n * f
        hydro := s.hydro.map (scaleUp f)
        stars := s.stars.map (scaleUp f) }
    else if lm + 1 ≤ old ∧ 1 < old ∧ s.n % pow2 (s.level_step + 1) old = 0 then
      let f := 2 ^ (old - (old - 1))
      { s with
        level_max := old - 1
        n := s.n / f
        hydro := s.hydro.map (scaleDown f)
        stars := s.stars.map (scaleDown f) }
    else s
  let level_step := s'.level_max + cfg.integration_step - 1
  { s' with
    level_step := level_step
    nresync := 2 ^ level_step
    timestep := s.dt_max / 2 ^ level_step
    hydro := s'.hydro.map (finish s'.n level_step)
    stars := s'.stars.map (finish s'.n level_step) }

/-- 1933-2156 -/
def adapt (cfg : Cfg) (s : State) : Option State :=
  (s.hydro.mapM (adaptHydro cfg s)).bind fun hydro =>
    let lmh := maxLevel (live hydro)
    (s.stars.mapM (adaptStar s lmh)).map fun stars =>
      rescale cfg { s with
        hydro := hydro.map (single cfg s.n lmh)
        stars := stars } (max lmh (maxLevel stars))

/-- `Simulation::ComputeBlockTimesteps` -/
def computeBlock (cfg : Cfg) (s : State) : Option State :=
  if s.n = s.nresync then some (resync cfg s) else adapt cfg s

/-! ### The rest of the main loop -/

/-- Integer part of `EndTimestep`: SphLeapfrogKDK.cpp:241-265, SphLeapfrogDKD.cpp:194-209 and
MfvIntegration.cpp:153-201; for stars NbodyLeapfrogKDK.cpp:360-373. -/
def endPart (mfv : Bool) (n : ℕ) (t : ℝ) (p : Part) : Part :=
  if p.dead then p
  else if p.endStep || (mfv && decide (n = p.nlast + p.nstep)) then
    { p with
      nlast := n
      tlast := t
      dt := p.dtNext
      dtNext := 0
      endStep := false }
  else p

def endTimestep (cfg : Cfg) (s : State) : State :=
  { s with
    hydro := s.hydro.map (endPart (decide (cfg.scheme = .mfv)) s.n s.t)
    stars := s.stars.map (endPart false s.n s.t) }

/-- One particle in `CheckTimesteps`: SphLeapfrogKDK.cpp:306-324, SphLeapfrogDKD.cpp:247-266,
MfvIntegration.cpp:243-265 (there also `dt` and the predicted flux are set anew). `none` is a division
by zero. -/
def checkPart (cfg : Cfg) (s : State) (p : Part) : Option Part :=
  if p.dead then some p
  else if s.n = p.nlast + p.nstep then some p
  else if p.level + cfg.level_diff_max < p.levelneib then
    let levelNew := p.levelneib - cfg.level_diff_max
    let nnewstep := pow2 s.level_step levelNew
    let dn := s.n - p.nlast
    if nnewstep = 0 then none
    else match cfg.scheme with
      | .kdk => if dn % nnewstep = 0 then some { p with
            nstep := if 0 < dn then dn else p.nstep
            level := levelNew } else some p
      | .dkd => if (2 * dn) % nnewstep = 0 then some { p with
            nstep := if 0 < dn then dn else p.nstep
            level := levelNew } else some p
      | .mfv => if dn % nnewstep = 0 then some { p with
            nstep := dn
            level := levelNew
            dt := dn * s.timestep } else some p
  else some p

/-- What the rest of the code may do to the particles: requested steps, neighbour levels, sink
membership, death. -/
structure Env where
  req : ℕ → ℝ
  levelneib : ℕ → ℕ
  sinkid : ℕ → Option ℕ
  die : ℕ → Bool
  starReq : ℕ → ℝ

def Env.apply (e : Env) (s : State) : State :=
  { s with
    phase := match s.phase with
      | .idle => .idle
      | _ => .dirty
    hydro := s.hydro.mapIdx fun i p => { p with
      req := e.req i
      levelneib := e.levelneib i
      sinkid := e.sinkid i
      dead := p.dead || e.die i }
    stars := s.stars.mapIdx fun i p => { p with req := e.starReq i } }

/-- Actions of the main loop. -/
inductive Op where
  /-- `n++`, `t += timestep`, SphSimulation.cpp:586-588 -/
  | tick
  | env (e : Env)
  /-- `CheckTimesteps` -/
  | check
  /-- `CreateNewParticle`, Hydrodynamics.cpp:132-179 -/
  | birth (req : ℝ)
  /-- `DeleteDeadParticles`: the live particles in some order -/
  | delete (l : List Part)
  /-- `CreateNewSinkParticle` for hydro particle `i`, Sinks.cpp:288-355 -/
  | sink (i : ℕ) (req : ℝ)
  /-- `ComputeBlockTimesteps` and `EndTimestep` -/
  | block

/-- When the main loop performs an action. -/
def Op.Allowed (cfg : Cfg) (s : State) : Op → Prop
  | .tick => s.phase = .idle
  | .env e => (∀ i, 0 < e.req i) ∧ (∀ i, 0 < e.starReq i) ∧
      ∀ i p, s.hydro[i]? = some p → e.levelneib i ≤ max p.levelneib s.level_max
  | .check => s.phase ≠ .idle ∧ cfg.limiter = true
  | .birth req => s.phase ≠ .idle ∧ 0 < req ∧ s.n % pow2 s.level_step s.level_max = 0
  | .delete l => l.Perm (live s.hydro)
  | .sink i req => s.phase ≠ .idle ∧ 0 < req ∧
      ∃ p, s.hydro[i]? = some p ∧ p.dead = false ∧ s.n % p.nstep = 0
  | .block => s.phase = .checked ∨ (s.phase = .dirty ∧ cfg.limiter = false)

/-- The new particle, Hydrodynamics.cpp:155-160 -/
def newborn (s : State) (req : ℝ) : Part where
  dead := false
  level := s.level_max
  levelneib := s.level_max
  nlast := s.n - pow2 s.level_step s.level_max
  nstep := pow2 s.level_step s.level_max
  endStep := false
  tlast := s.t
  dt := 0
  dtNext := 0
  sinkid := none
  req := req

def apply (cfg : Cfg) (s : State) : Op → Option State
  | .tick => some { s with
      phase := .dirty
      n := s.n + 1
      t := s.t + s.timestep }
  | .env e => some (e.apply s)
  | .check => (s.hydro.mapM (checkPart cfg s)).map fun hydro => { s with
      phase := .checked
      hydro := hydro }
  | .birth req => some { s with hydro := s.hydro ++ [newborn s req] }
  | .delete l => some { s with hydro := l }
  | .sink i req =>
    match s.hydro[i]? with
    | none => some s
    | some p => some { s with
        hydro := s.hydro.set i { p with dead := true }
        stars := s.stars ++ [{ p with
          tlast := s.t
          req := req
          endStep := false }] }
  | .block => (computeBlock cfg s).map fun s => endTimestep cfg { s with phase := .idle }

/-- Before the first call (SphSimulation.cpp:241-243, 538): `n = nresync = 0`. -/
structure Start (s : State) : Prop where
  phase : s.phase = .checked
  n : s.n = 0
  nresync : s.nresync = 0
  hydro : ∀ p ∈ s.hydro, 0 < p.req
  stars : ∀ p ∈ s.stars, 0 < p.req ∧ p.dead = false

/-- The states a run can be in. A run starts with the first call of `ComputeBlockTimesteps`. -/
inductive Reach (cfg : Cfg) : State → Prop
  | start {s s' : State} : Start s → apply cfg s .block = some s' → Reach cfg s'
  | next {s s' : State} (o : Op) : Reach cfg s → o.Allowed cfg s → apply cfg s o = some s' →
      Reach cfg s'

/-! ### Global timesteps, Simulation.cpp:1669-1754 -/

/-- `ComputeGlobalTimestep` at a resynchronisation; the particles' `nlast` is left to `EndTimestep`. -/
def globalPart (level_step : ℕ) (timestep : ℝ) (p : Part) : Part :=
  { p with
    level := 0
    levelneib := 0
    nstep := pow2 level_step 0
    endStep := true
    dtNext := timestep }

/-- 1682-1743 -/
def computeGlobal (cfg : Cfg) (s : State) : State :=
  if s.n = s.nresync then
    let level_step := cfg.integration_step - 1
    let timestep := min ((s.hydro ++ s.stars).foldl (fun m p => min m p.req) cfg.big) cfg.big
    { s with
      n := 0
      nresync := cfg.integration_step
      level_max := 0
      level_step := level_step
      timestep := timestep
      hydro := s.hydro.map (globalPart level_step timestep)
      stars := s.stars.map (globalPart level_step timestep) }
  else s

end
end Gandalf.Block
