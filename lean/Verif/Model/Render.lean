import Verif.Model.Vec
import Mathlib.Analysis.SpecialFunctions.Pow.Real
import Mathlib.Algebra.Order.Floor.Ring

/-!
# Rendered images, src/Common/Render.cpp, and the table of the kernel along lines of sight,
src/Hydrodynamics/TabulatedKernel.cpp

Numbers are real; a conversion to `int` does not overflow.  The particles are added one after another (the atomic updates
of the threads give the same sums).
-/

set_option autoImplicit false

noncomputable section

namespace Gandalf.Render

/-- the window: numbers of pixels and edges, Render.cpp:99-108, 263-274 -/
structure View where
  nx : ℕ
  ny : ℕ
  xmin : ℝ
  xmax : ℝ
  ymin : ℝ
  ymax : ℝ

/-- a particle: coordinates along the two axes and across the image, mass, density, smoothing length and the quantity
rendered, Render.cpp:156-166, 322-334 -/
structure Dot where
  x : ℝ
  y : ℝ
  z : ℝ
  m : ℝ
  rho : ℝ
  h : ℝ
  A : ℝ

/-- conversion of a floating point number to `int` -/
def trunc (x : ℝ) : ℤ := if 0 ≤ x then ⌊x⌋ else ⌈x⌉

namespace View
variable (v : View)

/-- Render.cpp:177-178, 344-345 -/
def dx : ℝ := (v.xmax - v.xmin) / v.nx
def dy : ℝ := (v.ymax - v.ymin) / v.ny

/-- the places of the pixels, `rgrid`, Render.cpp:181-188, 348-355 (not used further) -/
def rgrid : List (ℝ × ℝ) :=
  (List.range v.ny).reverse.flatMap fun j : ℕ => (List.range v.nx).map fun i : ℕ =>
    (v.xmin + ((i : ℝ) + 1 / 2) * v.dx, v.ymin + ((j : ℝ) + 1 / 2) * v.dy)

/-- the place in the array, Render.cpp:223, 391 -/
def index (i j : ℤ) : ℤ := i + (v.ny - j - 1) * v.nx

end View

/-- one end of a range of pixels, Render.cpp:209-212, 377-380 -/
def clampPix (n : ℕ) (x : ℝ) : ℤ := min ((n : ℤ) - 1) (max 0 (trunc x))

/-- the integers of a loop `for (i=a; i<=b; i++)` -/
def loopInts (a b : ℤ) : List ℤ := (List.range (b + 1 - a).toNat).map fun k : ℕ => a + k

/-- the arrays `values` and `rendernorm` -/
abbrev Image := ℤ → ℝ × ℝ

/-- `values[c] += a; rendernorm[c] += b;`, Render.cpp:233-235, 400-402 -/
def bump (I : Image) (c : ℤ) (a b : ℝ) : Image := Function.update I c ((I c).1 + a, (I c).2 + b)

/-- what differs between column and slice: the test in the third direction and the square of the distance in it -/
structure Mode where
  /-- particle is skipped, Render.cpp:374 -/
  skip : ℝ → Dot → Bool
  /-- `dr[2]*dr[2]`, Render.cpp:394-395 -/
  dz2 : Dot → ℝ

/-- Render.cpp:205-206, 226 -/
def column : Mode := ⟨fun _ _ => false, fun _ => 0⟩

open Classical in
/-- Render.cpp:374, 394-395 -/
def slice (zslice : ℝ) : Mode :=
  ⟨fun hrange p => decide (p.z + hrange < zslice ∨ zslice < p.z - hrange), fun p => (zslice - p.z) * (zslice - p.z)⟩

section
variable (M : Mode) (W : ℝ → ℝ) (R : ℝ) (nd : ℕ) (v : View)

/-- `wnorm`, Render.cpp:216-217, 384-385 -/
def wnorm (p : Dot) : ℝ := p.m / p.rho * (1 / p.h) ^ nd

/-- `wkern` at pixel `i`, `j`, Render.cpp:224-231, 392-398; `W` is `w0` or `wLOS` -/
def wkern (p : Dot) (i j : ℤ) : ℝ :=
  W (√((v.xmin + v.dx * i - p.x) * (v.xmin + v.dx * i - p.x) + (v.ymin + v.dy * j - p.y) * (v.ymin + v.dy * j - p.y)
    + M.dz2 p) * (1 / p.h))

/-- whether the kernel is outside the window, Render.cpp:202-206, 369-374; `R` is `kernrange` -/
def outside (p : Dot) : Prop :=
  p.x + R * p.h < v.xmin ∨ v.xmax < p.x - R * p.h ∨ p.y + R * p.h < v.ymin ∨ v.ymax < p.y - R * p.h ∨ M.skip (R * p.h) p = true

/-- the pixels of a particle, Render.cpp:209-212, 221-222 -/
def pixels (p : Dot) : List (ℤ × ℤ) :=
  (loopInts (clampPix v.ny ((p.y - R * p.h - v.ymin) * (1 / v.dy))) (clampPix v.ny ((p.y + R * p.h - v.ymin) * (1 / v.dy)))).flatMap fun j =>
    (loopInts (clampPix v.nx ((p.x - R * p.h - v.xmin) * (1 / v.dx))) (clampPix v.nx ((p.x + R * p.h - v.xmin) * (1 / v.dx)))).map fun i => (i, j)

open Classical in
/-- one particle, Render.cpp:201-240, 368-407 -/
def addDot (I : Image) (p : Dot) : Image :=
  if outside M R v p then I else
    (pixels R v p).foldl (fun I ij => bump I (v.index ij.1 ij.2) (wnorm nd p * p.A * wkern M W v p ij.1 ij.2)
      (wnorm nd p * wkern M W v p ij.1 ij.2)) I

/-- the sums, Render.cpp:191-240, 359-407 -/
def sums (ps : List Dot) : Image := ps.foldl (addDot M W R nd v) fun _ => (0, 0)

open Classical in
/-- normalisation, Render.cpp:244-246, 412-414 -/
def normalise (a : ℝ × ℝ) : ℝ := if 1 / 10000000000 < a.2 then a.1 / a.2 else a.1

/-- the image -/
def image (ps : List Dot) (c : ℤ) : ℝ := normalise (sums M W R nd v ps c)

end

/-- `tableLOS[i]`, TabulatedKernel.cpp:155-177, with `steps` for `intsteps` (4000); `b` is `i*step` -/
def tableLOS (W : ℝ → ℝ) (R : ℝ) (steps : ℕ) (b : ℝ) : ℝ :=
  2 * (List.range steps).foldl (fun sum (j : ℕ) =>
    sum + W (√(√(R ^ 2 - b ^ 2) / steps * j * (√(R ^ 2 - b ^ 2) / steps * j) + b ^ 2)) * (√(R ^ 2 - b ^ 2) / steps)) 0

end Gandalf.Render
