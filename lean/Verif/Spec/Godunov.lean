import Verif.Spec.Hllc
import Mathlib.Analysis.Calculus.Deriv.Basic
import Mathlib.Analysis.Calculus.FDeriv.Prod

/-!
# Smooth flows of an ideal gas, and how fluxes look to another observer

Independent of the model of the scheme: the flow is a solution of the equations in conservation form, derivatives are
derivatives.
-/

set_option autoImplicit false

namespace Gandalf.God

open Hllc

variable {n : ℕ}

/-- density, velocity and pressure as functions of time and place -/
structure Flow (n : ℕ) where
  rho : ℝ → Vec n ℝ → ℝ
  v : ℝ → Vec n ℝ → Vec n ℝ
  p : ℝ → Vec n ℝ → ℝ

/-- energy per volume of an ideal gas -/
noncomputable def Flow.energy (F : Flow n) (gamma t : ℝ) (x : Vec n ℝ) : ℝ :=
  F.rho t x * (∑ i, F.v t x i ^ 2) / 2 + F.p t x / (gamma - 1)

/-- rate of change at a fixed place -/
noncomputable def rate (f : ℝ → Vec n ℝ → ℝ) (t : ℝ) (x : Vec n ℝ) : ℝ := deriv (fun s => f s x) t

/-- derivative along a coordinate -/
noncomputable def along (f : ℝ → Vec n ℝ → ℝ) (k : Fin n) (t : ℝ) (x : Vec n ℝ) : ℝ :=
  deriv (fun y => f t (Function.update x k y)) (x k)

/-- the variables are differentiable functions of time and place -/
structure Flow.Smooth (F : Flow n) (t : ℝ) (x : Vec n ℝ) : Prop where
  rho : DifferentiableAt ℝ (fun z : ℝ × Vec n ℝ => F.rho z.1 z.2) (t, x)
  v : ∀ i, DifferentiableAt ℝ (fun z : ℝ × Vec n ℝ => F.v z.1 z.2 i) (t, x)
  p : DifferentiableAt ℝ (fun z : ℝ × Vec n ℝ => F.p z.1 z.2) (t, x)

/-- Mass, momentum and energy change by what flows in, and by the work of the acceleration `a`. -/
structure Flow.Conserves (F : Flow n) (gamma : ℝ) (a : Vec n ℝ) (t : ℝ) (x : Vec n ℝ) : Prop where
  mass : rate F.rho t x + ∑ k, along (fun t x => F.rho t x * F.v t x k) k t x = 0
  mom : ∀ i, rate (fun t x => F.rho t x * F.v t x i) t x
    + ∑ k, along (fun t x => F.rho t x * F.v t x i * F.v t x k + if i = k then F.p t x else 0) k t x = F.rho t x * a i
  energy : rate (F.energy gamma) t x
    + ∑ k, along (fun t x => (F.energy gamma t x + F.p t x) * F.v t x k) k t x = F.rho t x * ∑ i, F.v t x i * a i

/-- `f'` is the rate of change of `f` seen at a point that passes through `x` with velocity `w` -/
def SeenBy (f : ℝ → Vec n ℝ → ℝ) (f' : ℝ) (w : Vec n ℝ) (t : ℝ) (x : Vec n ℝ) : Prop :=
  HasDerivAt (fun s => f (t + s) fun k => x k + s * w k) f' 0

/-- mass, momentum and energy `f` as they are measured by an observer who sees everything move faster by `w` -/
noncomputable def faster (f : Flux n) (w : Vec n ℝ) : Flux n where
  mass := f.mass
  mom := fun i => f.mom i + f.mass * w i
  en := f.en + (∑ i, f.mom i * w i) + f.mass * (∑ i, w i ^ 2) / 2

/-- `x` times `f` -/
def times (x : ℝ) (f : Flux n) : Flux n := ⟨fun i => x * f.mom i, x * f.mass, x * f.en⟩

end Gandalf.God
