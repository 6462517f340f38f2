import Verif.Model.Box

/-!
# Particles leaving the simulation box
(src/Common/Integration.cpp `CheckBoundaries`, src/Nbody/Nbody.cpp:296-369)
-/

set_option autoImplicit false

namespace Gandalf

variable {n : ℕ} {α : Type*}

/-- The kinematic fields of a particle or star (Particle.h:144-150): current values and those at the
beginning of the step. -/
structure Kin (n : ℕ) (α : Type*) where
  r : Vec n α
  r0 : Vec n α
  v : Vec n α
  v0 : Vec n α
  a : Vec n α
  a0 : Vec n α

section
variable [Field α] [LinearOrder α]

/-- `r[k] += x; r0[k] += x;` -/
def Kin.shift (p : Kin n α) (k : Fin n) (x : α) : Kin n α :=
  { p with
    r := Function.update p.r k (p.r k + x)
    r0 := Function.update p.r0 k (p.r0 k + x) }

/-- `r[k] = 2*x - r[k]; r0[k] = 2*x - r0[k]; v[k] = -v[k]; …` -/
def Kin.bounce (p : Kin n α) (k : Fin n) (x : α) : Kin n α where
  r := Function.update p.r k (2 * x - p.r k)
  r0 := Function.update p.r0 k (2 * x - p.r0 k)
  v := Function.update p.v k (-p.v k)
  v0 := Function.update p.v0 k (-p.v0 k)
  a := Function.update p.a k (-p.a k)
  a0 := Function.update p.a0 k (-p.a0 k)

/-- Integration.cpp:35-53, Nbody.cpp:319-337: LHS of dimension `k`. The periodic test and the
mirror/wall test are two `if`s on the same boundary type. -/
def Kin.checkLhs (d : Domain n α) (p : Kin n α) (k : Fin n) : Kin n α :=
  if p.r k < d.min k then
    let p := if d.lhs k = .periodic then p.shift k (d.size k) else p
    if d.lhs k = .mirror ∨ d.lhs k = .wall then p.bounce k (d.min k) else p
  else p

/-- Integration.cpp:57-75, Nbody.cpp:341-359: RHS of dimension `k`. -/
def Kin.checkRhs (d : Domain n α) (p : Kin n α) (k : Fin n) : Kin n α :=
  if p.r k > d.max k then
    let p := if d.rhs k = .periodic then p.shift k (-d.size k) else p
    if d.rhs k = .mirror ∨ d.rhs k = .wall then p.bounce k (d.max k) else p
  else p

/-- One turn of the loop over the dimensions. -/
def Kin.checkDim (d : Domain n α) (p : Kin n α) (k : Fin n) : Kin n α :=
  (p.checkLhs d k).checkRhs d k

/-- All dimensions of one particle. -/
def Kin.check (d : Domain n α) (p : Kin n α) : Kin n α := (List.finRange n).foldl (Kin.checkDim d) p

/-- `Nbody::CheckBoundaries`, Nbody.cpp:296-369 -/
def nbodyCheckBoundaries (d : Domain n α) (ps : List (Kin n α)) : List (Kin n α) :=
  ps.map (Kin.check d)

/-- `CheckBoundaries` of Integration.cpp: returns at once if every side is open. (The code looks at
all three dimensions also when `ndim < 3`; unused dimensions are open by default. If one of them is
not, the loop below runs, which gives the same result.) -/
def checkBoundaries (d : Domain n α) (ps : List (Kin n α)) : List (Kin n α) :=
  if ∀ k, d.lhs k = .open_ ∧ d.rhs k = .open_ then ps else ps.map (Kin.check d)

end
end Gandalf
