import Verif.Model.Vec
import Mathlib.LinearAlgebra.CrossProduct
import Mathlib.Algebra.BigOperators.Group.List.Basic

/-! # Totals of a set of bodies

Written from mechanics, without reference to the code. -/

set_option autoImplicit false

namespace Gandalf.Totals

variable {n : ℕ} {α : Type} [Field α]

/-- a body with mass -/
structure Body (n : ℕ) (α : Type) where
  m : α
  r : Vec n α
  v : Vec n α

/-- total mass -/
def mass (l : List (Body n α)) : α := (l.map fun b => b.m).sum

/-- total momentum -/
def momentum (l : List (Body n α)) (k : Fin n) : α := (l.map fun b => b.m * b.v k).sum

/-- total kinetic energy -/
def kinetic (l : List (Body n α)) : α := (l.map fun b => b.m * (∑ k, b.v k ^ 2) / 2).sum

/-- a vector of the plane or the line in space -/
def inSpace (x : Vec n α) : Vec 3 α := fun k => if h : k.val < n then x ⟨k.val, h⟩ else 0

/-- total angular momentum about the origin -/
def angular (l : List (Body n α)) : Vec 3 α :=
  fun j => (l.map fun b => b.m * (crossProduct (inSpace b.r) (inSpace b.v)) j).sum

/-- `c` is the centre of mass: the moments about it balance -/
def IsCentre (l : List (Body n α)) (c : Vec n α) : Prop :=
  ∀ k, (l.map fun b => b.m * (b.r k - c k)).sum = 0

/-- `w` is the velocity of the centre of mass -/
def IsDrift (l : List (Body n α)) (w : Vec n α) : Prop :=
  ∀ k, (l.map fun b => b.m * (b.v k - w k)).sum = 0

/-- each pair once -/
def pairs {N : ℕ} (f : Fin N → Fin N → α) : α := ∑ i, ∑ j, if i < j then f i j else 0

end Gandalf.Totals
