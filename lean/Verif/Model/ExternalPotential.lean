import Verif.Model.Vec
import Mathlib.Analysis.SpecialFunctions.Pow.Real

/-! # External potentials

src/Headers/ExternalPotential.h:60-200 and their choice in src/Common/Simulation.cpp:1163-1181. Numbers are real. The unit scaling of the
unused constants of `SilccPotential` is left out. -/

set_option autoImplicit false

namespace Gandalf.Ext

variable {n : ℕ}

/-- the last three arguments of `AddExternalPotential` -/
structure Acc (n : ℕ) where
  a : Vec n ℝ
  adot : Vec n ℝ
  pot : ℝ

/-- the classes -/
inductive Pot
  | null
  | vertical (kgrav : ℕ) (avert rzero : ℝ)
  | plummer (mplummer rplummer : ℝ)
  | silcc

/-- `VerticalPotential::AddExternalPotential`, ExternalPotential.h:100-112; `none` if `kgrav` is not an index of the arrays -/
noncomputable def addVertical (kgrav : ℕ) (avert rzero : ℝ) (rp : Vec n ℝ) (x : Acc n) : Option (Acc n) :=
  if h : kgrav < n then
    some
      { a := Function.update x.a ⟨kgrav, h⟩ (x.a ⟨kgrav, h⟩ + avert)
        adot := Function.update x.adot ⟨kgrav, h⟩ (x.adot ⟨kgrav, h⟩ + 0)
        pot := x.pot + (rp ⟨kgrav, h⟩ - rzero) * avert }
  else none

/-- `PlummerPotential::AddExternalPotential`, ExternalPotential.h:139-159 -/
noncomputable def addPlummer (mplummer rplummer : ℝ) (rp vp : Vec n ℝ) (x : Acc n) : Acc n :=
  let drsqd := ∑ k, rp k * rp k
  let dvdr := ∑ k, rp k * vp k
  { a := fun k => x.a k - mplummer * rp k * (drsqd + rplummer * rplummer) ^ (-(3 / 2) : ℝ)
    adot := fun k => x.adot k + (3 * mplummer * (drsqd + rplummer * rplummer) ^ (-(5 / 2) : ℝ) * dvdr * rp k -
      mplummer * (drsqd + rplummer * rplummer) ^ (-(3 / 2) : ℝ) * vp k)
    pot := x.pot + 2 * mplummer * (drsqd + rplummer * rplummer) ^ (-(1 / 2) : ℝ) }

/-- `AddExternalPotential` -/
noncomputable def add (p : Pot) (rp vp : Vec n ℝ) (x : Acc n) : Option (Acc n) :=
  match p with
  | .null => some x
  | .vertical kgrav avert rzero => addVertical kgrav avert rzero rp x
  | .plummer m b => some (addPlummer m b rp vp x)
  | .silcc => some x

/-- the choice of the object, Simulation.cpp:1163-1181; `boxmin` is `simbox.min` (read outside of the array if `kgrav ≥ ndim`,
where the model says `none`) -/
noncomputable def choose (name : String) (fp : String → ℝ) (ip : String → ℕ) (boxmin : Vec n ℝ) : Option Pot :=
  if name = "none" then some .null
  else if name = "vertical" then
    if h : ip "kgrav" < n then some (.vertical (ip "kgrav") (fp "avert") (boxmin ⟨ip "kgrav", h⟩)) else none
  else if name = "plummer" then some (.plummer (fp "mplummer") (fp "rplummer"))
  else if name = "silcc" then some .silcc
  else none

end Gandalf.Ext
