import Verif.Model.Box

/-!
# On-the-fly ghosts of a particle (src/Headers/GhostNeighbours.hpp)

The C++ code appends to an array or vector `ngbs`; the model appends to a list. The loop
`for (n=0; n<Nghost; n++) ngbs[nc++] = f(ngbs[n])` with its optional test is
`ngbs ++ ((ngbs.take Nghost).filter test).map f`.
-/

set_option autoImplicit false

namespace Gandalf

variable {n : ℕ} {α : Type*}

/-- The fields of a particle used by the neighbour machinery (Particle.h:133-223). -/
structure NPart (n : ℕ) (α : Type*) where
  r : Vec n α
  v : Vec n α
  a : Vec n α
  m : α
  h : α
  hrangesqd : α
  ptype : ℕ
  flags : BitVec 32
  level : ℤ
  iorig : ℤ

/-- The fields of a tree cell used by the neighbour machinery (TreeCell.h:24-77). -/
structure TargetCell (n : ℕ) (α : Type*) where
  rcell : Vec n α
  bb : Box n α
  hbox : Box n α
  rmax : α
  hmax : α

/-- The side of a dimension: index `0` (lhs) or `1` (rhs) of the tables `[ndim][2]`. -/
abbrev Side := Fin 2

section
variable [Field α] [LinearOrder α]

/-- `_mirror_bound[k][side]`, GhostNeighbours.hpp:58-59 -/
def Domain.mirrorBound (d : Domain n α) (k : Fin n) (s : Side) : Bool :=
  if s = 0 then d.lhs k == .mirror else d.rhs k == .mirror

/-- the plane a side reflects about -/
def Domain.wall (d : Domain n α) (k : Fin n) (s : Side) : α := if s = 0 then d.min k else d.max k

/-- `_any_mirror`, GhostNeighbours.hpp:62 -/
def Domain.anyMirror (d : Domain n α) : Bool :=
  (List.finRange n).any fun k => d.mirrorBound k 0 || d.mirrorBound k 1

/-- `_need_mirror[k][side]`, GhostNeighbours.hpp:103-107 -/
def Domain.needMirror (d : Domain n α) (c : TargetCell n α) (k : Fin n) (s : Side) : Bool :=
  d.anyMirror && (d.mirrorBound k s &&
    (if s = 0 then decide (c.hbox.min k < d.min k) else decide (c.hbox.max k > d.max k)))

/-- `_need_mirrors`, GhostNeighbours.hpp:107 -/
def Domain.needMirrors (d : Domain n α) (c : TargetCell n α) : Bool :=
  (List.finRange n).any fun k => d.needMirror c k 0 || d.needMirror c k 1

/-- `MaxNumGhosts`, GhostNeighbours.hpp:234-243 -/
def Domain.maxNumGhosts (d : Domain n α) : ℕ :=
  if d.anyMirror then
    (List.finRange n).foldl (fun N k => N * (1 + (d.mirrorBound k 0).toNat +
      (d.mirrorBound k 1).toNat)) 1
  else 1

/-- `reflect`, Particle.h:601-614 -/
def NPart.reflect (p : NPart n α) (k : Fin n) (x : α) : NPart n α :=
  { p with
    r := Function.update p.r k (2 * x - p.r k)
    v := Function.update p.v k (p.v k * -1)
    a := Function.update p.a k (p.a k * -1) }

/-- copy, reflect and flag: GhostNeighbours.hpp:379-381, 390-393 and their analogues -/
def NPart.mirrorCopy (d : Domain n α) (k : Fin n) (s : Side) (p : NPart n α) : NPart n α :=
  { p.reflect k (d.wall k s) with
    flags := Flags.set p.flags (Flags.mirror_bound_flags (dimFlag k) s) }

/-- `_MakePeriodicGhost`, GhostNeighbours.hpp:342-357 -/
def NPart.periodicGhost (d : Domain n α) (centre : Vec n α) (p : NPart n α) : NPart n α :=
  let dr : Vec n α := fun k => p.r k - centre k
  let dr' := ghostNearest d dr
  let bound := periodicFlags d dr
  { p with
    r := if Flags.is_periodic bound then fun k => centre k + dr' k else p.r
    flags := Flags.set p.flags bound }

/-- first step of all three constructors, GhostNeighbours.hpp:255-258, 281-283, 306-308 -/
def NPart.nearestGhost (d : Domain n α) (centre : Vec n α) (p : NPart n α) : NPart n α :=
  if d.anyPeriodic then p.periodicGhost d centre else p

/-- the reflections of one dimension: both sides copy the images present before the dimension -/
def mirrorDim (d : Domain n α) (test : Fin n → Side → NPart n α → Bool) (ngbs : List (NPart n α))
    (k : Fin n) : List (NPart n α) :=
  let Nghost := ngbs.length
  let ngbs := ngbs ++ ((ngbs.take Nghost).filter (test k 0)).map (NPart.mirrorCopy d k 0)
  ngbs ++ ((ngbs.take Nghost).filter (test k 1)).map (NPart.mirrorCopy d k 1)

/-- `_MakeReflectedGhostsGather`, GhostNeighbours.hpp:367-400 -/
def reflectedGather (d : Domain n α) (c : TargetCell n α) (p : NPart n α) : List (NPart n α) :=
  (List.finRange n).foldl (mirrorDim d fun k s q => d.needMirror c k s &&
    (if s = 0 then decide (2 * d.min k - q.r k > c.hbox.min k)
     else decide (2 * d.max k - q.r k < c.hbox.max k))) [p]

/-- `_MakeReflectedGhostsAll`, GhostNeighbours.hpp:461-490 -/
def reflectedAll (d : Domain n α) (p : NPart n α) : List (NPart n α) :=
  (List.finRange n).foldl (mirrorDim d fun k s _ => d.mirrorBound k s) [p]

/-- `_MakeReflectedScatterGatherGhosts`, GhostNeighbours.hpp:410-450. `real_particle` is a reference
to the last element of the vector; after a `push_back` that reallocates, it dangles. `seen k s` is the
value read through it as `real_particle.r[k]` when side `s` of dimension `k` is treated: `p.r k` as
long as the reference is valid, anything after that. -/
def reflectedScatterGather (d : Domain n α) (c : TargetCell n α) (seen : Fin n → Side → α)
    (p : NPart n α) : List (NPart n α) :=
  (List.finRange n).foldl (mirrorDim d fun k s _ => d.mirrorBound k s &&
    (if s = 0 then
      let x := 2 * d.min k - seen k 0
      decide ((x - c.bb.min k) * (x - c.bb.min k) < p.hrangesqd) || decide (x > c.hbox.min k)
     else
      let x := 2 * d.max k - seen k 1
      decide ((x - c.bb.max k) * (x - c.bb.max k) < p.hrangesqd) || decide (x < c.hbox.max k))) [p]

/-- `ConstructGhostsGather`, GhostNeighbours.hpp:302-318 -/
def constructGhostsGather (d : Domain n α) (c : TargetCell n α) (p : NPart n α) : List (NPart n α) :=
  let q := p.nearestGhost d c.rcell
  if d.needMirrors c then reflectedGather d c q else [q]

/-- `ConstructAllGhosts`, GhostNeighbours.hpp:277-293 -/
def constructAllGhosts (d : Domain n α) (c : TargetCell n α) (p : NPart n α) : List (NPart n α) :=
  let q := p.nearestGhost d c.rcell
  if d.needMirrors c then reflectedAll d q else [q]

/-- `ConstructGhostsScatterGather`, GhostNeighbours.hpp:252-268: the elements appended to `ngbs`.
`seen`: see `reflectedScatterGather`. -/
def constructGhostsScatterGather (d : Domain n α) (c : TargetCell n α)
    (seen : NPart n α → Fin n → Side → α) (p : NPart n α) : List (NPart n α) :=
  let q := p.nearestGhost d c.rcell
  if d.anyMirror then reflectedScatterGather d c (seen q) q else [q]

/-- `ParticleCellProxy`, GhostNeighbours.hpp:498-518, with `dr = sqrt(p.hrangesqd)` given; `junk` is
the content of the fields the constructor does not set. -/
def particleCellProxy (junk : TargetCell n α) (p : NPart n α) (dr : α) : TargetCell n α :=
  { junk with
    rcell := p.r
    hbox := ⟨fun k => p.r k - dr, fun k => p.r k + dr⟩ }

/-- `DomainCellProxy`, GhostNeighbours.hpp:525-543. Both assignments go to `hbox.max`; `hbox.min`
keeps its previous content. -/
def domainCellProxy (junk : TargetCell n α) (d : Domain n α) : TargetCell n α :=
  { junk with
    rcell := fun k => 1 / 2 * (d.max k + d.min k)
    hbox := ⟨junk.hbox.min,
      fun k => 1 / 2 * (d.max k + d.min k) - 6 / 10 * (d.max k - d.min k)⟩ }

end
end Gandalf
