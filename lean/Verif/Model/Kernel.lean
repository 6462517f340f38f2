import Verif.Common
import Mathlib.Analysis.Real.Pi.Bounds
import Mathlib.Analysis.SpecialFunctions.Exp
import Mathlib.Analysis.SpecialFunctions.Sqrt

/-!
# Smoothing kernels (src/Headers/SmoothingKernel.h, src/Common/{M4,Quintic,Gaussian,Tabulated}Kernel.cpp)

Over `ℝ`, without rounding. The decimal constants of the code that stand for a fraction or for `1/π`
(`invpi`, `twothirds`, `1.333333333333333333333`, …) are written as that number. `n` is the number of
dimensions, a template parameter that is 1, 2 or 3; for other values the constants of the constructors
are not set (here `0`).
-/

set_option autoImplicit false

namespace Gandalf

/-- the functions a kernel object offers, SmoothingKernel.h:46-92 -/
structure Kernel where
  w0 : ℝ → ℝ
  w1 : ℝ → ℝ
  womega : ℝ → ℝ
  wzeta : ℝ → ℝ
  wgrav : ℝ → ℝ
  wpot : ℝ → ℝ
  kernrange : ℝ
  kernrangesqd : ℝ
  invkernrange : ℝ
  kernnorm : ℝ
  kernnormdrag : ℝ

/-- `SmoothingKernel::wdrag`, SmoothingKernel.h:62-64 -/
noncomputable def Kernel.wdrag (K : Kernel) (q : ℝ) : ℝ := K.kernnormdrag * q * q * K.w0 q

namespace M4

/-- constructor, M4Kernel.cpp:42-53 -/
noncomputable def kernnorm : ℕ → ℝ
  | 1 => 2 / 3
  | 2 => 1 / Real.pi * (10 / 7)
  | 3 => 1 / Real.pi
  | _ => 0

/-- constructor, M4Kernel.cpp:42-53 -/
noncomputable def kernnormdrag : ℕ → ℝ
  | 1 => 3
  | 2 => 49 / 31
  | 3 => 10 / 9
  | _ => 0

/-- SmoothingKernel.h:132-140 -/
noncomputable def w0 (n : ℕ) (s : ℝ) : ℝ :=
  if s < 1 then kernnorm n * (1 - 1.5 * s * s + 0.75 * s * s * s)
  else if s < 2 then 0.25 * kernnorm n * (2 - s) ^ 3
  else 0

/-- SmoothingKernel.h:149-157 -/
noncomputable def w1 (n : ℕ) (s : ℝ) : ℝ :=
  if s < 1 then kernnorm n * (-3 * s + 2.25 * s * s)
  else if s < 2 then -0.75 * kernnorm n * (2 - s) * (2 - s)
  else 0

/-- SmoothingKernel.h:167-181 -/
noncomputable def womega (n : ℕ) (s : ℝ) : ℝ :=
  if s < 1 then kernnorm n * (-n + 1.5 * (n + 2) * s * s - 0.75 * (n + 3) * s ^ 3)
  else if s < 2 then
    kernnorm n * (-2 * n + 3 * (n + 1) * s - 1.50 * (n + 2) * s * s + 0.25 * (n + 3) * s ^ 3)
  else 0

/-- SmoothingKernel.h:191-201 -/
noncomputable def wzeta (s : ℝ) : ℝ :=
  if s < 1 then 1.4 - 2 * s * s + 1.5 * s ^ 4 - 0.6 * s ^ 5
  else if s < 2 then 1.6 - 4 * s * s + 4 * s ^ 3 - 1.5 * s ^ 4 + 0.2 * s ^ 5
  else 0

/-- SmoothingKernel.h:211-220 -/
noncomputable def wgrav (s : ℝ) : ℝ :=
  if s < 1 then 4 / 3 * s - 1.2 * s ^ 3 + 0.5 * s ^ 4
  else if s < 2 then 8 / 3 * s - 3 * s * s + 1.2 * s ^ 3 - 1 / 6 * s ^ 4 - 1 / 15 / (s * s)
  else 1 / (s * s)

/-- SmoothingKernel.h:230-240 -/
noncomputable def wpot (s : ℝ) : ℝ :=
  if s < 1 then 1.4 - 2 / 3 * s * s + 0.3 * s ^ 4 - 0.1 * s ^ 5
  else if s < 2 then
    -1 / (15 * s) + 1.6 - 4 / 3 * s * s + s ^ 3 - 0.3 * s ^ 4 + 1 / 30 * s ^ 5
  else 1 / s

end M4

/-- the M4 kernel object, M4Kernel.cpp:36-55 -/
noncomputable def m4Kernel (n : ℕ) : Kernel where
  w0 := M4.w0 n
  w1 := M4.w1 n
  womega := M4.womega n
  wzeta := M4.wzeta
  wgrav := M4.wgrav
  wpot := M4.wpot
  kernrange := 2
  kernrangesqd := 4
  invkernrange := 0.5
  kernnorm := M4.kernnorm n
  kernnormdrag := M4.kernnormdrag n

namespace Quintic

/-- constructor, QuinticKernel.cpp:42-53 -/
noncomputable def kernnorm : ℕ → ℝ
  | 1 => 1 / 120
  | 2 => 1 / Real.pi * (7 / 478)
  | 3 => 1 / Real.pi * (1 / 120)
  | _ => 0

/-- constructor, QuinticKernel.cpp:42-53 -/
noncomputable def kernnormdrag : ℕ → ℝ
  | 1 => 2
  | 2 => 2868 / 2771
  | 3 => 5 / 7
  | _ => 0

/-- SmoothingKernel.h:282-294 -/
noncomputable def w0 (n : ℕ) (s : ℝ) : ℝ :=
  if s < 1 then kernnorm n * (66 - 60 * s * s + 30 * s ^ 4 - 10 * s ^ 5)
  else if s < 2 then
    kernnorm n * (51 + 75 * s - 210 * s * s + 150 * s ^ 3 - 45 * s ^ 4 + 5 * s ^ 5)
  else if s < 3 then
    kernnorm n * (243 - 405 * s + 270 * s * s - 90 * s ^ 3 + 15 * s ^ 4 - s ^ 5)
  else 0

/-- SmoothingKernel.h:303-313 -/
noncomputable def w1 (n : ℕ) (s : ℝ) : ℝ :=
  if s < 1 then kernnorm n * (-120 * s + 120 * s ^ 3 - 50 * s ^ 4)
  else if s < 2 then kernnorm n * (75 - 420 * s + 450 * s * s - 180 * s ^ 3 + 25 * s ^ 4)
  else if s < 3 then kernnorm n * (-405 + 540 * s - 270 * s * s + 60 * s ^ 3 - 5 * s ^ 4)
  else 0

/-- SmoothingKernel.h:322-340 -/
noncomputable def womega (n : ℕ) (s : ℝ) : ℝ :=
  if s < 1 then
    kernnorm n * (-66 * n + 60 * (n + 2) * s * s - 30 * (n + 4) * s ^ 4 + 10 * (n + 5) * s ^ 5)
  else if s < 2 then
    kernnorm n * (-51 * n - 75 * (n + 1) * s + 210 * (n + 2) * s * s - 150 * (n + 3) * s ^ 3
      + 45 * (n + 4) * s ^ 4 - 5 * (n + 5) * s ^ 5)
  else if s < 3 then
    kernnorm n * (-243 * n + 405 * (n + 1) * s - 270 * (n + 2) * s * s + 90 * (n + 3) * s ^ 3
      - 15 * (n + 4) * s ^ 4 + (n + 5) * s ^ 5)
  else 0

/-- SmoothingKernel.h:349-365 (decimals as in the code) -/
noncomputable def wzeta (s : ℝ) : ℝ :=
  if s < 1 then 33 * s * s - 15 * s ^ 4 + 5 * s ^ 6 - 1.42857142857 * s ^ 7 - 34.14285714
  else if s < 2 then
    25.5 * s * s + 25 * s ^ 3 - 52.5 * s ^ 4 + 30 * s ^ 5 - 7.5 * s ^ 6 + 0.7142857143 * s ^ 7
      - 33.785714286
  else if s < 3 then
    121.5 * s * s - 135 * s ^ 3 + 67.5 * s ^ 4 - 18 * s ^ 5 + 2.5 * s ^ 6 - 0.142857143 * s ^ 7
      - 52.07142857
  else 0

/-- SmoothingKernel.h:374-386 -/
noncomputable def wgrav (s : ℝ) : ℝ :=
  if s < 1 then 12 / 359 * (22 * s - 12 * s ^ 3 + 30 / 7 * s ^ 5 - 5 / 4 * s ^ 6)
  else if s < 2 then
    12 / 359 * (17 * s + 75 / 4 * s * s - 42 * s ^ 3 + 25 * s ^ 4 - 45 / 7 * s ^ 5 + 5 / 8 * s ^ 6
      + 5 / 56 / (s * s))
  else if s < 3 then
    12 / 359 * (81 * s - 405 / 4 * s ^ 2 + 54 * s ^ 3 - 15 * s ^ 4 + 15 / 7 * s ^ 5 - 1 / 8 * s ^ 6
      - 507 / 56 / (s * s))
  else 1 / (s * s)

/-- SmoothingKernel.h:395-408 -/
noncomputable def wpot (s : ℝ) : ℝ :=
  if s < 1 then 12 / 359 * (-11 * s * s + 3 * s ^ 4 - 5 / 7 * s ^ 6 + 5 / 28 * s ^ 7 + 478 / 14)
  else if s < 2 then
    12 / 359 * (-(17 / 2) * s * s - 25 / 4 * s ^ 3 + 21 / 2 * s ^ 4 - 5 * s ^ 5 + 15 / 14 * s ^ 6
      - 5 / 56 * s ^ 7 + 473 / 14 + 5 / 56 / s)
  else if s < 3 then
    12 / 359 * (-(81 / 2) * s * s + 135 / 4 * s ^ 3 - 27 / 2 * s ^ 4 + 3 * s ^ 5 - 5 / 14 * s ^ 6
      + 1 / 56 * s ^ 7 + 729 / 14 - 507 / 56 / s)
  else 1 / s

end Quintic

/-- the quintic kernel object, QuinticKernel.cpp:36-54 -/
noncomputable def quinticKernel (n : ℕ) : Kernel where
  w0 := Quintic.w0 n
  w1 := Quintic.w1 n
  womega := Quintic.womega n
  wzeta := Quintic.wzeta
  wgrav := Quintic.wgrav
  wpot := Quintic.wpot
  kernrange := 3
  kernrangesqd := 9
  invkernrange := 1 / 3
  kernnorm := Quintic.kernnorm n
  kernnormdrag := Quintic.kernnormdrag n

namespace Gaussian

/-- constructor, GaussianKernel.cpp:43-54 -/
noncomputable def kernnorm : ℕ → ℝ
  | 1 => Real.sqrt (1 / Real.pi)
  | 2 => 1 / Real.pi
  | 3 => 1 / Real.pi * Real.sqrt (1 / Real.pi)
  | _ => 0

/-- constructor, GaussianKernel.cpp:43-54 -/
noncomputable def kernnormdrag : ℕ → ℝ
  | 1 => 2
  | 2 => 1
  | 3 => 2 / 3
  | _ => 0

/-- constructor, GaussianKernel.cpp:40 -/
def kernrange : ℝ := 3

/-- SmoothingKernel.h:452-459 -/
noncomputable def w0 (n : ℕ) (s : ℝ) : ℝ :=
  if s < kernrange then kernnorm n * Real.exp (-s * s) else 0

/-- SmoothingKernel.h:467-474 -/
noncomputable def w1 (n : ℕ) (s : ℝ) : ℝ :=
  if s < kernrange then -2 * kernnorm n * s * Real.exp (-s * s) else 0

/-- SmoothingKernel.h:482-490 -/
noncomputable def womega (n : ℕ) (s : ℝ) : ℝ :=
  if s < kernrange then kernnorm n * (2 * s * Real.exp (-s * s) - n * Real.exp (-s * s)) else 0

/-- SmoothingKernel.h:498-505 -/
def wzeta (_s : ℝ) : ℝ := 0
/-- SmoothingKernel.h:513-520 -/
def wgrav (_s : ℝ) : ℝ := 0
/-- SmoothingKernel.h:528-535 -/
def wpot (_s : ℝ) : ℝ := 0

end Gaussian

/-- the Gaussian kernel object, GaussianKernel.cpp:36-55 -/
noncomputable def gaussianKernel (n : ℕ) : Kernel where
  w0 := Gaussian.w0 n
  w1 := Gaussian.w1 n
  womega := Gaussian.womega n
  wzeta := Gaussian.wzeta
  wgrav := Gaussian.wgrav
  wpot := Gaussian.wpot
  kernrange := Gaussian.kernrange
  kernrangesqd := 9
  invkernrange := 1 / 3
  kernnorm := Gaussian.kernnorm n
  kernnormdrag := Gaussian.kernnormdrag n

/-! ### tabulated kernel -/

namespace Tabulated

/-- `initializeTable`, SmoothingKernel.h:583-588 -/
noncomputable def initializeTable (kernrange : ℝ) (res : ℕ) (f : ℝ → ℝ) : List ℝ :=
  (List.range res).map fun i : ℕ => f (kernrange / res * (i : ℝ))

/-- `initializeTableSqd`, SmoothingKernel.h:607-612 -/
noncomputable def initializeTableSqd (kernrangesqd : ℝ) (res : ℕ) (f : ℝ → ℝ) : List ℝ :=
  (List.range res).map fun i : ℕ => f (Real.sqrt (kernrangesqd / res * (i : ℝ)))

/-- the index computed by the look-ups, SmoothingKernel.h:621-622; `(int)` of a non-negative number is its
floor -/
noncomputable def index (range : ℝ) (res : ℕ) (s : ℝ) : ℕ := ⌊s * (res / range)⌋₊

/-- look-ups, SmoothingKernel.h:619-663: beyond the range the function `out` (0, `1/(s*s)`, `1/s`);
`none`: read outside the table -/
noncomputable def lookup (range : ℝ) (res : ℕ) (out : ℝ → ℝ) (table : List ℝ) (s : ℝ) : Option ℝ :=
  if s ≥ range then some (out s) else table[index range res s]?

end Tabulated

end Gandalf
