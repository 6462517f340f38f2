import Verif.Model.Vec
import Mathlib.Analysis.SpecialFunctions.Pow.Real
import Mathlib.Analysis.Real.Pi.Bounds
import Mathlib.Algebra.BigOperators.Fin

/-! First guess of the smoothing lengths, src/Hydrodynamics/Sph.cpp:71-117 and
src/MeshlessFV/MeshlessFV.cpp:196-293, with the bounding box of
src/Hydrodynamics/Hydrodynamics.cpp:184-208.  Real numbers; `sqrtf` and `powf` are exact and
`onethird` is 1/3. -/

set_option autoImplicit false

namespace Gandalf

noncomputable section

namespace HGuess

variable {n : ℕ}

/-- What is read and written of a particle -/
structure Part (n : ℕ) where
  r : Vec n ℝ
  h : ℝ
  hrangesqd : ℝ

/-- `big_number`, Headers/Constants.h:72 -/
def big : ℝ := 99 * 10 ^ 19

/-- `rmin` of `ComputeBoundingBox`, Hydrodynamics.cpp:198, 201-203, 205 -/
def rmin (ps : List (Part n)) : Vec n ℝ :=
  ps.foldl (fun b p => fun k => min (b k) (p.r k)) fun _ => big

/-- `rmax` of `ComputeBoundingBox`, Hydrodynamics.cpp:199, 201-202, 204-205 -/
def rmax (ps : List (Part n)) : Vec n ℝ :=
  ps.foldl (fun b p => fun k => max (b k) (p.r k)) fun _ => -big

/-- `Ngather`, Sph.cpp:93, 99, 105; MeshlessFV.cpp:218, 249, 280.  The conversion to `int` of a
positive number rounds down. -/
def ngather : ℕ → ℝ → ℝ → ℕ
  | 1, range, h_fac => ⌊2 * range * h_fac⌋₊
  | 2, range, h_fac => ⌊Real.pi * (range * h_fac) ^ 2⌋₊
  | 3, range, h_fac => ⌊4 * Real.pi * (range * h_fac) ^ 3 / 3⌋₊
  | _, _, _ => 0

/-- `volume`, Sph.cpp:94, 100, 106; MeshlessFV.cpp:219, 250, 281 -/
def volume (ps : List (Part n)) : ℝ := ∏ k, (rmax ps k - rmin ps k)

/-- `h_guess` from the volume and numbers of particles, Sph.cpp:95, 101, 107;
MeshlessFV.cpp:220, 251, 282 -/
def hOf : ℕ → ℝ → ℝ → ℝ → ℝ
  | 1, vol, g, N => vol * g / (4 * N)
  | 2, vol, g, N => √(vol * g / (4 * N))
  | 3, vol, g, N => (3 * vol * g / (32 * Real.pi * N)) ^ (1 / 3 : ℝ)
  | _, _, _, _ => 0

/-- `h_guess` -/
def hguess (range h_fac : ℝ) (ps : List (Part n)) : ℝ :=
  hOf n (volume ps) (ngather n range h_fac) ps.length

/-- `InitialSmoothingLengthGuess`, Sph.cpp:75-117; MeshlessFV.cpp:201-293 -/
def guess (range h_fac : ℝ) (ps : List (Part n)) : List (Part n) :=
  ps.map fun p =>
    { p with
      h := hguess range h_fac ps
      hrangesqd := range ^ 2 * hguess range h_fac ps * hguess range h_fac ps }

/-- The two families of schemes -/
inductive Scheme where
  | sph
  | meshless

/-- Value of the member `Ngather` (Headers/Hydrodynamics.h:134, without initial value) when the tree
is built first and sizes its buffers with it (HydroTree.cpp:345): GradhSphSimulation.cpp:313-319 sets
it for SPH in any case, SphSimulation.cpp:273-274 and MeshlessFVSimulation.cpp:487-488 call the guess
only if no smoothing lengths are given. `none` is a value never set. -/
def ngatherAtBuild (sch : Scheme) (provided : Bool) (n : ℕ) (range h_fac : ℝ) : Option ℕ :=
  let x : Option ℕ := match sch with
    | .sph => some (ngather n range h_fac)
    | .meshless => none
  if provided then x else some (ngather n range h_fac)

end HGuess

end

end Gandalf
