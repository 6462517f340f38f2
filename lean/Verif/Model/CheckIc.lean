import Verif.Model.Box

/-! # The check of the initial conditions

`Ic::CheckInitialConditions` (src/Ic/Ic.cpp:177-260), called by `Simulation::GenerateIC`
(src/Common/SimulationIC.hpp:220-221) for generated initial conditions. Floating point numbers are the three kinds
the check distinguishes; finite numbers are rationals. Printing is a list of the indices printed. -/

set_option autoImplicit false

namespace Gandalf.CheckIc

/-- a number of type FLOAT -/
inductive Fl where
  | nan
  | inf (negative : Bool)
  | fin (q : ℚ)
deriving DecidableEq

/-- `isfinite` -/
def Fl.isfinite : Fl → Bool
  | .fin _ => true
  | _ => false

/-- `isnormal` of a double: finite and at least `2^-1022` in size -/
def Fl.isnormal : Fl → Bool
  | .fin q => decide ((1 / 2 ^ 1022 : ℚ) ≤ |q|)
  | _ => false

/-- `a < b` of doubles -/
def Fl.lt : Fl → Fl → Bool
  | .nan, _ => false
  | _, .nan => false
  | .inf a, .inf b => a && !b
  | .inf a, .fin _ => a
  | .fin _, .inf b => !b
  | .fin a, .fin b => decide (a < b)

/-- the fields of `Particle` used -/
structure Part (n : ℕ) where
  m : Fl
  u : Fl
  r : Fin n → Fl
  v : Fin n → Fl
  ptype : ℤ
  dead : Bool

/-- outcome: an exception with its message, or the particles and the indices of the particles printed -/
inductive Outcome (n : ℕ) where
  | badNumber
  | badOrder
  | ok (parts : List (Part n)) (printed : List ℕ)

/-- `okflag`, Ic.cpp:196-201 -/
def okflag {n : ℕ} (p : Part n) : Bool :=
  p.m.isnormal && p.u.isfinite && (List.finRange n).all fun k => (p.r k).isfinite && (p.v k).isfinite

/-- Ic.cpp:205-206 for the direction `k` -/
def outLhs {n : ℕ} (box : Domain n ℚ) (p : Part n) (k : Fin n) : Bool :=
  (p.r k).lt (.fin (box.min k)) && (box.lhs k == .periodic || box.lhs k == .mirror)

/-- Ic.cpp:215-216 for the direction `k`; the second comparison is with `boundary_lhs` -/
def outRhs {n : ℕ} (box : Domain n ℚ) (p : Part n) (k : Fin n) : Bool :=
  (Fl.fin (box.max k)).lt (p.r k) && (box.rhs k == .periodic || box.lhs k == .mirror)

/-- one of the two in any direction: Ic.cpp:204-225 (the body sets `dead` or clears `boxflag`) -/
def outside {n : ℕ} (box : Domain n ℚ) (p : Part n) : Bool :=
  (List.finRange n).any fun k => outLhs box p k || outRhs box p k

/-- the loop over the particles, Ic.cpp:190-240; `none` is the exception of line 229. Particles are given as the
list from number `i` on. -/
def particles {n : ℕ} (cutbox : Bool) (box : Domain n ℚ) : ℕ → List (Part n) → Option (List (Part n) × List ℕ)
  | _, [] => some ([], [])
  | i, p :: ps =>
    let p' : Part n := if outside box p && cutbox then { p with dead := true } else p
    if okflag p then
      match particles cutbox box (i + 1) ps with
      | none => none
      | some (qs, pr) => some (p' :: qs, if outside box p && !cutbox then i :: pr else pr)
    else none

/-- the loop of Ic.cpp:244-251; false is the exception -/
def ordered {n : ℕ} : ℤ → List (Part n) → Bool
  | _, [] => true
  | t, p :: ps => if p.ptype < t then false else ordered p.ptype ps

/-- `Ic::CheckInitialConditions`, Ic.cpp:177-260. The exception of lines 254-257 is never reached. -/
def check {n : ℕ} (cutbox : Bool) (box : Domain n ℚ) (parts : List (Part n)) : Outcome n :=
  match particles cutbox box 0 parts with
  | none => .badNumber
  | some (qs, pr) => if ordered (-1) qs then .ok qs pr else .badOrder

end Gandalf.CheckIc
