import Verif.Model.Kernel
import Verif.Model.Vec
import Mathlib.Algebra.BigOperators.Fin

/-!
# Matrix inversion and gradients of the meshless schemes (InlineFuncs.h:566-609, MfvCommon.cpp:241-370)

Over a field, without rounding.  A division by zero gives infinities and NaNs, for which the comparison
`sqd_condition_number < 1e4` is false; here it is `none`.
-/

set_option autoImplicit false

namespace Gandalf.Gradients

section
variable {α : Type*} [Field α] [DecidableEq α]

/-- `FLOAT A[ndim][ndim]` -/
abbrev Mat (n : ℕ) (α : Type*) := Fin n → Fin n → α

/-- `__matrixInverter<1>` (InlineFuncs.h:577-580) -/
def invert1 (A : Mat 1 α) : Option (Mat 1 α) :=
  if A 0 0 = 0 then none else some ![![1 / A 0 0]]

/-- `__matrixInverter<2>` (InlineFuncs.h:581-589) -/
def invert2 (A : Mat 2 α) : Option (Mat 2 α) :=
  let det := A 0 0 * A 1 1 - A 0 1 * A 1 0
  if det = 0 then none else
  let invdet := 1 / det
  some ![![invdet * A 1 1, -invdet * A 0 1],
         ![-invdet * A 1 0, invdet * A 0 0]]

/-- `__matrixInverter<3>` (InlineFuncs.h:590-605) -/
def invert3 (A : Mat 3 α) : Option (Mat 3 α) :=
  let det := A 0 0 * (A 1 1 * A 2 2 - A 2 1 * A 1 2) - A 0 1 * (A 1 0 * A 2 2 - A 1 2 * A 2 0)
    + A 0 2 * (A 1 0 * A 2 1 - A 1 1 * A 2 0)
  if det = 0 then none else
  let invdet := 1 / det
  some ![![(A 1 1 * A 2 2 - A 2 1 * A 1 2) * invdet, (A 0 2 * A 2 1 - A 0 1 * A 2 2) * invdet,
           (A 0 1 * A 1 2 - A 0 2 * A 1 1) * invdet],
         ![(A 1 2 * A 2 0 - A 1 0 * A 2 2) * invdet, (A 0 0 * A 2 2 - A 0 2 * A 2 0) * invdet,
           (A 1 0 * A 0 2 - A 0 0 * A 1 2) * invdet],
         ![(A 1 0 * A 2 1 - A 2 0 * A 1 1) * invdet, (A 2 0 * A 0 1 - A 0 0 * A 2 1) * invdet,
           (A 0 0 * A 1 1 - A 1 0 * A 0 1) * invdet]]

/-- `InvertMatrix<ndim>` (InlineFuncs.h:608-612); there are specialisations for 1, 2 and 3 only. -/
def invert : (n : ℕ) → Mat n α → Option (Mat n α)
  | 1, A => invert1 A
  | 2, A => invert2 A
  | 3, A => invert3 A
  | _, _ => none

end

noncomputable section
open Classical
variable {n nvar : ℕ}

/-- What is used of a particle or neighbour: position, velocity, primitive variables, sound speed, potential. -/
structure Pt (n nvar : ℕ) where
  r : Vec n ℝ
  v : Vec n ℝ
  W : Fin nvar → ℝ
  sound : ℝ
  gpot : ℝ

/-- The particle's own smoothing length, `hfactor` and number density. -/
structure Own where
  h : ℝ
  hfactor : ℝ
  ndens : ℝ

/-- relative position -/
def draux (p b : Pt n nvar) : Vec n ℝ := fun k => b.r k - p.r k

/-- weight of a neighbour (MfvCommon.cpp:281) -/
def weight (K : Kernel) (o : Own) (p b : Pt n nvar) : ℝ :=
  o.hfactor * K.w0 (√(dot (draux p b) (draux p b) * (1 / (o.h * o.h)))) / o.ndens

/-- the matrix `E` (MfvCommon.cpp:283-287) -/
def matE (K : Kernel) (o : Own) (p : Pt n nvar) (ngbs : List (Pt n nvar)) : Mat n ℝ := fun k kk =>
  (ngbs.map fun b => draux p b k * draux p b kk * weight K o p b).sum

/-- `grad_tmp` (MfvCommon.cpp:290-294) -/
def gradTmp (K : Kernel) (o : Own) (p : Pt n nvar) (ngbs : List (Pt n nvar)) (var : Fin nvar) : Vec n ℝ := fun k =>
  (ngbs.map fun b => draux p b k * (b.W var - p.W var) * weight K o p b).sum

/-- sum of squares of the entries (MfvCommon.cpp:316-321) -/
def modSqd (A : Mat n ℝ) : ℝ := ∑ i, ∑ j, A i j * A i j

/-- `sqd_condition_number` (MfvCommon.cpp:322) -/
def sqdCond (E B : Mat n ℝ) : ℝ := modSqd E * modSqd B / (n * n)

/-- SPH gradient (MfvCommon.cpp:347-366) -/
def sphGrad (K : Kernel) (o : Own) (p : Pt n nvar) (ngbs : List (Pt n nvar)) (var : Fin nvar) : Vec n ℝ := fun k =>
  (ngbs.map fun b =>
    let dr := √(dot (draux p b) (draux p b))
    if dr = 0 then 0 else
    -((b.W var - p.W var) * (draux p b k / dr) * (o.hfactor / o.ndens * K.w1 (dr / o.h)))).sum

/-- `ComputeGradients` before the limiter: `bad_gradients`, and the gradients (MfvCommon.cpp:312-365). -/
def gradients (K : Kernel) (o : Own) (p : Pt n nvar) (ngbs : List (Pt n nvar)) : Bool × (Fin nvar → Vec n ℝ) :=
  let E := matE K o p ngbs
  match invert n E with
  | some B =>
    if sqdCond E B < 10000 then (false, fun var k => dot (B k) (gradTmp K o p ngbs var))
    else (true, sphGrad K o p ngbs)
  | none => (true, sphGrad K o p ngbs)

/-- maximum signal speed (MfvCommon.cpp:256, 297-298) -/
def vsigMax (small : ℝ) (p : Pt n nvar) (ngbs : List (Pt n nvar)) : ℝ :=
  ngbs.foldl (fun m b => max m (p.sound + b.sound - min 0 (dot (fun k => b.v k - p.v k) (draux p b) /
    (√(dot (draux p b) (draux p b)) + small)))) 0

/-- the `potmin` flag (MfvCommon.cpp:268, 303-306) -/
def potmin (kernrangesqd : ℝ) (o : Own) (p : Pt n nvar) (ngbs : List (Pt n nvar)) : Bool :=
  ngbs.foldl (fun flag b => if 1.000000001 * p.gpot < b.gpot ∧
    dot (draux p b) (draux p b) * (1 / (o.h * o.h)) < kernrangesqd then false else flag) true

end
end Gandalf.Gradients
