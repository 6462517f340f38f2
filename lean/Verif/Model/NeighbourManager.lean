import Verif.Model.GhostFinder

/-!
# `NeighbourManager` (src/Headers/NeighbourManager.h)

Vectors are lists. `mask` is a `Typemask` (Particle.h:52-71) as a function of the type number.
-/

set_option autoImplicit false

namespace Gandalf

variable {n : ℕ} {α : Type*}

/-- The members of `NeighbourManager` (NeighbourManager.h:200-219) filled by a search. -/
structure NM (n : ℕ) (α : Type*) where
  neiblist : List ℕ := []
  directlist : List ℕ := []
  neibIdx : List ℕ := []
  neibdata : List (NPart n α) := []
  nPeriodicGhosts : ℕ := 0
  nCellDirectNeib : ℕ := 0

section
variable [Field α] [LinearOrder α]

/-- the distance test of NeighbourManager.h:425-428, 455-458 -/
def NM.near (kernrange : α) (cell : TargetCell n α) (q : NPart n α) : Bool :=
  let dr : Vec n α := fun k => q.r k - cell.rcell k
  let drsqd := dot dr dr
  let h2 := cell.rmax + kernrange * q.h
  decide (drsqd < (cell.rmax + kernrange * cell.hmax) ^ 2) || decide (drsqd < h2 * h2)

/-- The `while` loop NeighbourManager.h:423-443 over the ghosts of particle `i`. `Nneib` is the
running index; `junk` stands for reads outside the vector (there are none here). Each turn either
advances `Nneib` or shortens `neibdata`, so `neibdata.length` turns are enough fuel. -/
def NM.cullLoop (near grav : NPart n α → Bool) (keepDirect : Bool) (junk : NPart n α) (i : ℕ) :
    ℕ → ℕ → NM n α → NM n α
  | 0, _, s => s
  | fuel + 1, Nneib, s =>
    if Nneib < s.neibdata.length then
      let Nmax := s.neibdata.length
      let q := s.neibdata.getD Nneib junk
      if near q then
        NM.cullLoop near grav keepDirect junk i fuel (Nneib + 1)
          { s with
            neiblist := s.neiblist ++ [Nneib]
            neibIdx := s.neibIdx ++ [i] }
      else if keepDirect && grav q then
        NM.cullLoop near grav keepDirect junk i fuel (Nneib + 1)
          { s with
            directlist := s.directlist ++ [Nneib]
            neibIdx := s.neibIdx ++ [i] }
      else
        let data := if Nmax - 1 > Nneib then
            s.neibdata.set Nneib (s.neibdata.getD (Nmax - 1) junk) else s.neibdata
        NM.cullLoop near grav keepDirect junk i fuel Nneib { s with neibdata := data.dropLast }
    else s

/-- One turn of the loop over `tempdirectneib`, NeighbourManager.h:397-408 -/
def NM.directStep (ghosts : NPart n α → List (NPart n α)) (grav : NPart n α → Bool)
    (part : ℕ → NPart n α) (s : NM n α) (i : ℕ) : NM n α :=
  if Flags.is_dead (part i).flags then s
  else if !grav (part i) then s
  else
    let data := s.neibdata ++ ghosts (part i)
    { s with
      neibdata := data
      directlist := s.directlist ++ [data.length - 1]
      neibIdx := s.neibIdx ++ [i] }

/-- One turn of the loop over `tempperneib`, NeighbourManager.h:417-444. The index `Nneib` always
equals the old size of `neibdata` when a turn starts. -/
def NM.perStep (ghosts : NPart n α → List (NPart n α)) (near grav : NPart n α → Bool)
    (keepDirect : Bool) (junk : NPart n α) (part : ℕ → NPart n α) (s : NM n α × ℕ) (i : ℕ) :
    NM n α × ℕ :=
  if Flags.is_dead (part i).flags then s
  else
    let gs := ghosts (part i)
    let t := NM.cullLoop near grav keepDirect junk i (s.1.neibdata.length + gs.length) s.2
      { s.1 with neibdata := s.1.neibdata ++ gs }
    (t, t.neibdata.length)

/-- One turn of the loop over `tempneib`, NeighbourManager.h:450-470. Line 463 reads
`neibdata[Nneib].ptype` although `neibdata` has exactly `Nneib` elements: the read is outside the
vector and yields some `junk` particle. -/
def NM.neibStep (near grav : NPart n α → Bool) (keepDirect : Bool) (junk : NPart n α)
    (part : ℕ → NPart n α) (s : NM n α × ℕ) (i : ℕ) : NM n α × ℕ :=
  if Flags.is_dead (part i).flags then s
  else if near (part i) then
    ({ s.1 with
       neibdata := s.1.neibdata ++ [part i]
       neiblist := s.1.neiblist ++ [s.2]
       neibIdx := s.1.neibIdx ++ [i] }, s.2 + 1)
  else if keepDirect && grav (s.1.neibdata.getD s.2 junk) then
    ({ s.1 with
       neibdata := s.1.neibdata ++ [part i]
       directlist := s.1.directlist ++ [s.2]
       neibIdx := s.1.neibIdx ++ [i] }, s.2 + 1)
  else s

/-- `_EndSearch`, NeighbourManager.h:367-474, on cleared members. `tempper`, `temp`, `tempdirect` are
the lists collected by the tree walk; `seen` see `reflectedScatterGather`; `junk` see `neibStep`. -/
def NM.endSearch (d : Domain n α) (kernrange : α) (gravmask : ℕ → Bool)
    (seen : NPart n α → Fin n → Side → α) (junk : NPart n α) (cell : TargetCell n α)
    (part : ℕ → NPart n α) (tempper temp tempdirect : List ℕ) (keepDirect : Bool) : NM n α :=
  let ghosts := constructGhostsScatterGather d cell seen
  let near := NM.near kernrange cell
  let grav : NPart n α → Bool := fun q => gravmask q.ptype
  let s : NM n α := if keepDirect then tempdirect.foldl (NM.directStep ghosts grav part) {} else {}
  let s := tempper.foldl (NM.perStep ghosts near grav keepDirect junk part) (s, s.directlist.length)
  let s1 := { s.1 with nPeriodicGhosts := s.1.neiblist.length }
  let s := temp.foldl (NM.neibStep near grav keepDirect junk part) (s1, s.2)
  { s.1 with nCellDirectNeib := s.1.directlist.length }

/-- `_first_appearance`, NeighbourManager.h:545-562 -/
def firstAppearance (pairOnce : Bool) (p q : NPart n α) : Bool :=
  if pairOnce then
    Flags.is_mirror q.flags || decide (p.level > q.level) ||
      (decide (p.level = q.level) && decide (p.iorig < q.iorig))
  else true

/-- What `TrimNeighbourLists` writes. -/
structure TrimSt (n : ℕ) (α : Type*) where
  neibdata : List (NPart n α)
  culled : List ℕ := []
  smooth : List ℕ := []
  direct : List ℕ := []
  nonInteract : ℕ := 0

/-- One turn of the loop NeighbourManager.h:503-542; `ji = (j, neiblist[j])`. -/
def trimStep (d : Domain n α) (hydromask gravmask : ℕ → Bool) (pairOnce keepGrav : Bool)
    (nPer : ℕ) (junk p : NPart n α) (s : TrimSt n α) (ji : ℕ × ℕ) : TrimSt n α :=
  let q := s.neibdata.getD ji.2 junk
  if !firstAppearance pairOnce p q then s
  else
    let dr0 : Vec n α := fun k => q.r k - p.r k
    let corr := decide (ji.1 < nPer) && hydromask q.ptype
    let rd := if corr then applyPeriodic d q.r dr0 else (q.r, dr0)
    let s : TrimSt n α := if corr then
        { s with neibdata := s.neibdata.set ji.2 { q with r := rd.1 } } else s
    let drsqd := dot rd.2 rd.2
    if drsqd ≥ p.hrangesqd ∧ drsqd ≥ q.hrangesqd then
      if keepGrav then
        if gravmask q.ptype then { s with direct := s.direct ++ [ji.2] }
        else { s with nonInteract := s.nonInteract + 1 }
      else s
    else if hydromask q.ptype then { s with culled := s.culled ++ [ji.2] }
    else if keepGrav then
      if gravmask q.ptype then { s with smooth := s.smooth ++ [ji.2] }
      else { s with nonInteract := s.nonInteract + 1 }
    else s

/-- `TrimNeighbourLists`, NeighbourManager.h:482-543, for the particle `p`. -/
def NM.trim (d : Domain n α) (hydromask gravmask : ℕ → Bool) (pairOnce keepGrav : Bool)
    (junk : NPart n α) (s : NM n α) (p : NPart n α) : TrimSt n α :=
  ((List.range s.neiblist.length).zip s.neiblist).foldl
    (trimStep d hydromask gravmask pairOnce keepGrav s.nPeriodicGhosts junk p)
    { neibdata := s.neibdata, direct := s.directlist.take s.nCellDirectNeib }

/-- The manager after a trim: `neibdata` and `directlist` are members and stay changed. -/
def NM.afterTrim (s : NM n α) (t : TrimSt n α) : NM n α :=
  { s with
    neibdata := t.neibdata
    directlist := t.direct }

end
end Gandalf
