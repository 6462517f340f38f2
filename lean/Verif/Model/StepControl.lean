import Mathlib.Analysis.SpecialFunctions.Log.Base
import Mathlib.Algebra.Order.Floor.Ring

/-! `TimeStepController`, src/Headers/TimeStepControl.h:37-194.  A member of every simulation; nothing calls it yet.
`none` is a read outside of an array.  The step counter is not bounded here, in the code it has 32 bits. -/

set_option autoImplicit false

namespace Gandalf

namespace StepControl

/-- `_tCurrent`, `_dtLevel`, `_nstepCurrent`, `_nlevelmax`, `_tot_num_steps`, TimeStepControl.h:186-194 -/
structure Ctl (α : Type) where
  t : α
  dt : ℕ → α
  n : ℕ
  lmax : ℕ
  tot : ℕ

/-- `_levelfactor[i]`, TimeStepControl.h:47-49, an array of 32 -/
def factor (i : ℕ) : Option ℕ := if i < 32 then some (2 ^ i) else none

variable {α : Type} [Field α]

/-- The constructor, TimeStepControl.h:39-50, without argument: `num_levels = 32`; `junk` is in `_dtLevel` -/
def init (junk : ℕ → α) : Ctl α := ⟨0, junk, 0, 32, 0⟩

/-- `is_active`, TimeStepControl.h:169-171 -/
def isActive (s : Ctl α) (level : ℕ) : Option Bool :=
  if level ≤ s.lmax then (factor (s.lmax - level)).map fun f => decide (s.n % f = 0) else none

/-- `reset_timestep_hierarchy` with one argument, TimeStepControl.h:60-67 -/
def reset (dtMax : α) (s : Ctl α) : Ctl α :=
  { s with
    dt := fun i => dtMax / 2 ^ i
    n := 0 }

/-- `update_step`, TimeStepControl.h:71-75 -/
def step (s : Ctl α) : Option (Ctl α) :=
  if s.lmax < 32 then
    some
      { s with
        t := s.t + s.dt s.lmax
        n := s.n + 1
        tot := s.tot + 1 }
  else none

/-- The loop of `change_num_active_levels`, TimeStepControl.h:103-106, with at most `fuel` turns -/
def sync (n : ℕ) : ℕ → ℕ → ℕ → ℕ × ℕ
  | 0, level, ratio => (level, ratio)
  | fuel + 1, level, ratio => if n % ratio = 0 then (level, ratio) else sync n fuel (level + 1) (ratio / 2)

/-- `change_num_active_levels`, TimeStepControl.h:86-113 -/
def change (level : ℕ) (s : Ctl α) : Option (Ctl α) :=
  if s.lmax ≤ level then
    (factor level).bind fun a => (factor s.lmax).map fun b =>
      { s with
        n := s.n * (a / b)
        lmax := level }
  else
    (factor s.lmax).bind fun a => (factor level).map fun b =>
      let r := sync s.n 32 level (a / b)
      { s with
        n := s.n / r.2
        lmax := r.1 }

/-- `nlast`, TimeStepControl.h:131-134 -/
def nlast (s : Ctl α) (level : ℕ) : Option ℕ := (factor level).map fun f => s.n / f * f

/-- The loop of `min_synchronised_level`, TimeStepControl.h:177-179 -/
def minLoop (s : Ctl α) : ℕ → ℕ
  | 0 => 0
  | l + 1 => if isActive s (l + 1) = some true then minLoop s l else l + 1

/-- `min_synchronised_level`, TimeStepControl.h:176-182 -/
def minSync (s : Ctl α) : ℕ := minLoop s s.lmax + 1

noncomputable section

/-- Conversion of a floating-point number to `int` -/
def trunc (x : ℝ) : ℤ := if 0 ≤ x then ⌊x⌋ else ⌈x⌉

/-- `compute_timestep_level`, TimeStepControl.h:118-120 -/
def levelOf (dt0 dt : ℝ) : ℤ := max (trunc (Real.log (dt0 / dt) / Real.log 2) + 1) 0

end

/-- One call -/
inductive Op where
  | step
  | change (level : ℕ)

def Op.run (o : Op) (s : Ctl α) : Option (Ctl α) :=
  match o with
  | .step => StepControl.step s
  | .change level => StepControl.change level s

/-- Calls one after the other -/
def runAll : List Op → Ctl α → Option (Ctl α)
  | [], s => some s
  | o :: os, s => (o.run s).bind (runAll os)

end StepControl

end Gandalf
