import Verif.Model.ExactRiemann

/-!
Model of `ShocktubeSolution`, Headers/RiemannSolver.h:415-445 and Hydrodynamics/RiemannSolver.cpp:559-624: the exact curve
that analysis/analytical.py:272-290 draws over a shock tube.

Simplifications: real numbers; `nvalues`, which is stored and never read, is left out; times are positive and there are at
least two points (otherwise the code divides by zero).
-/

set_option autoImplicit false

namespace Gandalf.Tube

open Exact

/-- the stored arguments, RiemannSolver.cpp:563-567 -/
structure Tube where
  rhol : ℝ
  rhor : ℝ
  vl : ℝ
  vr : ℝ
  pl : ℝ
  pr : ℝ
  xl : ℝ
  x0 : ℝ
  xr : ℝ
  t : ℝ
  gamma : ℝ

/-- left state with `cl`, RiemannSolver.cpp:569 and 604 -/
noncomputable def Tube.left (T : Tube) : Side := ⟨T.pl, T.rhol, √(T.gamma * T.pl / T.rhol), T.vl⟩

/-- right state with `cr`, RiemannSolver.cpp:570 and 605 -/
noncomputable def Tube.right (T : Tube) : Side := ⟨T.pr, T.rhor, √(T.gamma * T.pr / T.rhor), T.vr⟩

/-- `pstar` and `ustar` kept by the constructor, RiemannSolver.cpp:572-573 -/
noncomputable def Tube.star (small tol : ℝ) (Nit : ℕ) (T : Tube) : ℝ × ℝ :=
  starRegion T.gamma small tol Nit T.left T.right

/-- `x` of point `i`, RiemannSolver.cpp:610 -/
noncomputable def Tube.x (T : Tube) (N i : ℕ) : ℝ := T.xl + (T.xr - T.xl) * (i : ℝ) / ((N : ℝ) - 1)

/-- the state sampled at point `i`, RiemannSolver.cpp:611-612 -/
noncomputable def Tube.state (T : Tube) (star : ℝ × ℝ) (N i : ℕ) : Sample :=
  sample T.gamma star.1 star.2 ((T.x N i - T.x0) / T.t) T.left T.right

/-- `ComputeShocktubeSolution`, RiemannSolver.cpp:593-624 -/
noncomputable def Tube.curve (T : Tube) (star : ℝ × ℝ) (quantity : String) (N : ℕ) : List ℝ :=
  (List.range N).map fun i =>
    if quantity = "x" then T.x N i
    else if quantity = "rho" then (T.state star N i).d
    else if quantity = "vx" then (T.state star N i).u
    else if quantity = "press" then (T.state star N i).p
    else if quantity = "u" then (T.state star N i).p / (T.state star N i).d / (T.gamma - 1)
    else 0

end Gandalf.Tube
