import Verif.Model.Render
import Mathlib.MeasureTheory.Integral.Bochner.Basic
import Mathlib.MeasureTheory.Measure.Lebesgue.Basic

/-!
# What an image should show

Only the data types `Dot` and `View` of the model are used.
-/

set_option autoImplicit false

noncomputable section

namespace Gandalf.RenderSpec
open Render MeasureTheory

/-- the centre of pixel `i`, `j`, counted from the lower left -/
def centre (v : View) (i j : ℕ) : ℝ × ℝ :=
  (v.xmin + ((i : ℝ) + 1 / 2) * ((v.xmax - v.xmin) / v.nx), v.ymin + ((j : ℝ) + 1 / 2) * ((v.ymax - v.ymin) / v.ny))

/-- the lower left corner -/
def corner (v : View) (i j : ℕ) : ℝ × ℝ :=
  (v.xmin + (i : ℝ) * ((v.xmax - v.xmin) / v.nx), v.ymin + (j : ℝ) * ((v.ymax - v.ymin) / v.ny))

/-- the smoothed value of the field `f` of the particles at a point: the sum of mass over density times the kernel -/
def smooth3 (W : ℝ → ℝ) (ps : List Dot) (f : Dot → ℝ) (X Y Z : ℝ) : ℝ :=
  (ps.map fun p => p.m / p.rho * f p * (W (√((X - p.x) ^ 2 + (Y - p.y) ^ 2 + (Z - p.z) ^ 2) / p.h) / p.h ^ 3)).sum

/-- the same in two dimensions -/
def smooth2 (W : ℝ → ℝ) (ps : List Dot) (f : Dot → ℝ) (X Y : ℝ) : ℝ :=
  (ps.map fun p => p.m / p.rho * f p * (W (√((X - p.x) ^ 2 + (Y - p.y) ^ 2) / p.h) / p.h ^ 2)).sum

/-- the kernel along a line of sight that passes the centre at the distance `b` -/
def sight (W : ℝ → ℝ) (b : ℝ) : ℝ := ∫ s, W (√(b ^ 2 + s ^ 2))

end Gandalf.RenderSpec
