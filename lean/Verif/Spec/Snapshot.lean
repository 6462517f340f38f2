import Verif.Model.Snapshot

/-!
# What snapshot files are for: specification of C80
-/

set_option autoImplicit false

namespace Gandalf.Snap
open Units (Quantity SimUnit)

/-- The units are those of some parameter file (`SetupUnits`; the parameters `forceinunit` and `forceoutunit` do not
exist, see C49). -/
def Scale.Setup (U : Scale) : Prop :=
  ∃ p, Units.setupUnits U.dimensionless false p = some U.unit ∧ p.inunit "force" = "" ∧ p.outunit "force" = ""

/-- no number changes: a binary file, or a text file whose decimals are exact -/
def Fmt.Exact (f : Fmt) : Prop := f.binary = true ∨ ∀ y, f.rnd y = y

/-- `a` differs from `b` by at most the fraction `ε` -/
def Near (ε a b : ℝ) : Prop := |a - b| ≤ ε * |b|

/-- the same particle, the numbers up to the fraction `ε` -/
structure NearPart {n : ℕ} (ε : ℝ) (p q : Part n) : Prop where
  ptype : q.ptype = p.ptype
  dead : q.dead = p.dead
  iorig : q.iorig = p.iorig
  r : ∀ k, Near ε (q.r k) (p.r k)
  v : ∀ k, Near ε (q.v k) (p.v k)
  m : Near ε q.m p.m
  h : Near ε q.h p.h
  rho : Near ε q.rho p.rho
  u : Near ε q.u p.u

/-- the same star, the numbers up to the fraction `ε` -/
structure NearStar {n : ℕ} (ε : ℝ) (p q : Star n) : Prop where
  r : ∀ k, Near ε (q.r k) (p.r k)
  v : ∀ k, Near ε (q.v k) (p.v k)
  m : Near ε q.m p.m
  h : Near ε q.h p.h
  radius : Near ε q.radius p.radius

/-- the live particles of one type in their order -/
def liveOf {n : ℕ} (ps : List (Part n)) (ty : PType) : List (Part n) :=
  ps.filter fun p => p.dead = false ∧ p.ptype = ty

end Gandalf.Snap
