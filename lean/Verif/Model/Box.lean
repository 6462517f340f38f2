import Verif.Model.Vec
import Verif.Model.Flags

/-!
# Boxes, domain boundaries and periodic corrections
(src/Headers/DomainBox.h, src/Headers/InlineFuncs.h:347-480, src/Headers/GhostNeighbours.hpp:119-226)

Numbers are elements of an ordered field. The code unrolls `BoxOverlap` for `ndim = 1,2,3`; the model
goes through the dimensions of any `n` in the same order.
-/

set_option autoImplicit false

namespace Gandalf

variable {n : ℕ} {α : Type*}

/-- `Box`, DomainBox.h:48-59 -/
structure Box (n : ℕ) (α : Type*) where
  min : Vec n α
  max : Vec n α

/-- `boundaryEnum`, DomainBox.h:39 -/
inductive Bnd where
  | open_ | periodic | mirror | wall
deriving DecidableEq

/-- `DomainBox`, DomainBox.h:85-92 -/
structure Domain (n : ℕ) (α : Type*) where
  min : Vec n α
  max : Vec n α
  lhs : Fin n → Bnd
  rhs : Fin n → Bnd
  size : Vec n α
  half : Vec n α

section
variable [Field α] [LinearOrder α]

/-- `BoxOverlap`, InlineFuncs.h:362-390 -/
def boxOverlap (a b : Box n α) : Bool :=
  (List.finRange n).all fun k =>
    if a.min k > b.max k then false else if b.min k > a.max k then false else true

/-- `valueInRange`, DomainBox.h:181-184 -/
def valueInRange (x lo hi : α) : Bool := decide (x ≥ lo) && decide (x ≤ hi)

/-- `BoxesOverlap`, DomainBox.h:194-211 -/
def boxesOverlap (a b : Box n α) : Bool :=
  (List.finRange n).foldl (fun res k => res &&
    (valueInRange (a.min k) (b.min k) (b.max k) || valueInRange (b.min k) (a.min k) (a.max k))) true

/-- `ParticleInBox`, InlineFuncs.h:473-480 -/
def particleInBox (r : Vec n α) (b : Box n α) : Bool :=
  (List.finRange n).all fun k => !(decide (r k < b.min k) || decide (r k ≥ b.max k))

/-- One turn of the loop of `FractionalBoxOverlap`, InlineFuncs.h:415-434; the pair is
`(area, overlap)`. Note the parameter names of the C++ function: its first two arguments are called
`box2…`, the last two `box1…`; `b1` here is the box called `box1` in the body. -/
def fracStep (b1 b2 : Box n α) (s : α × α) (k : Fin n) : α × α :=
  let area := s.1 * (b1.max k - b1.min k)
  if b1.max k ≤ b2.min k ∨ b1.min k ≥ b2.max k then (area, s.2 * 0)
  else if b1.min k > b2.min k ∧ b1.max k < b2.max k then (area, s.2 * (b1.max k - b1.min k))
  else if b1.min k < b2.min k ∧ b1.max k > b2.max k then (area, s.2 * (b2.max k - b2.min k))
  else if b1.min k < b2.min k ∧ b1.max k < b2.max k then (area, s.2 * (b1.max k - b2.min k))
  else if b1.min k > b2.min k ∧ b1.max k > b2.max k then (area, s.2 * (b2.max k - b1.min k))
  else (area, s.2)

/-- `FractionalBoxOverlap`, InlineFuncs.h:398-439 (`first`, `second` = boxes in argument order). -/
def fractionalBoxOverlap (first second : Box n α) : α :=
  let s := (List.finRange n).foldl (fracStep second first) (1, 1)
  if s.1 > 0 then s.2 / s.1 else 0

/-- `NearestPeriodicVector` of DomainBox.h:221-237: the new `dr` and `dr_corr`. -/
def nearestPeriodicVector (d : Domain n α) (dr : Vec n α) : Vec n α × Vec n α :=
  let corr : Vec n α := fun k =>
    if d.lhs k = .periodic ∧ d.rhs k = .periodic then
      if dr k > d.half k then -d.size k else if dr k < -d.half k then d.size k else 0
    else 0
  (fun k => dr k + corr k, corr)

/-- the flag `_periodic_bound[k]`, GhostNeighbours.hpp:54 -/
def Domain.periodicBound (d : Domain n α) (k : Fin n) : Bool := d.lhs k == .periodic

/-- the flag `_any_periodic`, GhostNeighbours.hpp:61 -/
def Domain.anyPeriodic (d : Domain n α) : Bool := (List.finRange n).any d.periodicBound

/-- column of the flag tables belonging to dimension `k` (the code has `ndim ≤ 3`) -/
def dimFlag {n : ℕ} (k : Fin n) : Fin 3 := Fin.ofNat 3 k.val

/-- flags set by the periodic corrections for dimension `k` -/
def periodicFlag (d : Domain n α) (dr : Vec n α) (bound : BitVec 32) (k : Fin n) : BitVec 32 :=
  if d.periodicBound k then
    if dr k > d.half k then Flags.set bound (Flags.periodic_bound_flags (dimFlag k) 1)
    else if dr k < -d.half k then Flags.set bound (Flags.periodic_bound_flags (dimFlag k) 0)
    else bound
  else bound

/-- The flag word returned by the three periodic functions of GhostNeighbours.hpp:119-195. -/
def periodicFlags (d : Domain n α) (dr : Vec n α) : BitVec 32 :=
  if d.anyPeriodic then (List.finRange n).foldl (periodicFlag d dr) Flags.none_ else Flags.none_

/-- new `dr[k]` in `GhostNeighbourFinder::NearestPeriodicVector`, GhostNeighbours.hpp:119-138 -/
def ghostNearest (d : Domain n α) (dr : Vec n α) : Vec n α :=
  if d.anyPeriodic then fun k =>
    if d.periodicBound k then
      if dr k > d.half k then dr k - d.size k
      else if dr k < -d.half k then dr k + d.size k else dr k
    else dr k
  else dr

/-- `ApplyPeriodicDistanceCorrection`, GhostNeighbours.hpp:146-166: new `(r, dr)` -/
def applyPeriodic (d : Domain n α) (r dr : Vec n α) : Vec n α × Vec n α :=
  if d.anyPeriodic then
    (fun k => if d.periodicBound k then
        if dr k > d.half k then r k + -d.size k
        else if dr k < -d.half k then r k + d.size k else r k
      else r k,
     fun k => if d.periodicBound k then
        if dr k > d.half k then dr k + -d.size k
        else if dr k < -d.half k then dr k + d.size k else dr k
      else dr k)
  else (r, dr)

/-- `PeriodicDistanceCorrection`, GhostNeighbours.hpp:174-195: new `dr_corr`. The entries of
non-periodic dimensions are not written: they keep what was there before (`old`). -/
def periodicCorrection (d : Domain n α) (dr old : Vec n α) : Vec n α :=
  if d.anyPeriodic then fun k =>
    if d.periodicBound k then
      if dr k > d.half k then -d.size k
      else if dr k < -d.half k then d.size k else 0
    else old k
  else old

/-- `PeriodicBoxOverlap`, GhostNeighbours.hpp:202-226. `junk` is the initial content of the
uninitialised local array `dr_corr`. -/
def periodicBoxOverlap (d : Domain n α) (junk : Vec n α) (b1 b2 : Box n α) : Bool :=
  if !d.anyPeriodic then boxOverlap b1 b2
  else
    let dr : Vec n α := fun k => (1 / 2) * ((b2.max k + b2.min k) - (b1.max k + b1.min k))
    let corr := periodicCorrection d dr junk
    if Flags.is_periodic (periodicFlags d dr) then
      boxOverlap b1 ⟨fun k => b2.min k + corr k, fun k => b2.max k + corr k⟩
    else boxOverlap b1 b2

end

end Gandalf
