import Verif.Model.GhostFinder
import Verif.Model.TreeSearch

/-!
# Boundary ghost particles stored in the main arrays
(src/Hydrodynamics/Hydrodynamics.cpp:217-289, src/Tree/Tree.cpp:1098-1146,
src/Tree/HydroTree.cpp:495-545, src/Hydrodynamics/Ghosts.cpp:47-135, src/Headers/Particle.h:601-645)

Memory is unbounded: `AllocateMemory` (Hydrodynamics.cpp:267-270) copies the whole old array, see
MeshlessFV.cpp:93-121.
-/

set_option autoImplicit false

namespace Gandalf
open Walk

variable {n : ℕ} {α τ τ' : Type*}

/-- A particle. `th` stands for all further members of the base class `Particle` (Particle.h:133-178:
types, level, density, energy, …); the last six fields belong to the derived class
(`MeshlessFVParticle`), `ext` being its further members. -/
structure GPart (n : ℕ) (α τ τ' : Type*) where
  r : Vec n α
  v : Vec n α
  a : Vec n α
  r0 : Vec n α
  v0 : Vec n α
  a0 : Vec n α
  m : α
  h : α
  th : τ
  flags : BitVec 32
  iorig : ℕ
  Wprim : Fin (n + 2) → α
  dQ : Fin (n + 2) → α
  dQdt : Fin (n + 2) → α
  grad : Fin (n + 2) → Vec n α
  B : Fin n → Vec n α
  ext : τ'

/-- The counters and the particle array of `Hydrodynamics`. -/
structure HState (n : ℕ) (α τ τ' : Type*) where
  part : ℕ → GPart n α τ τ'
  Nhydro : ℕ
  Nghost : ℕ
  NPeriodicGhost : ℕ
  Ntot : ℕ

/-- component `k < ndim` among the `ndim + 2` fluid variables -/
def velIdx (k : Fin n) : Fin (n + 2) := k.castAdd 2

section
variable [Field α] [LinearOrder α]

/-- `x *= -1` if the condition holds -/
def negIf (c : Prop) [Decidable c] (x : α) : α := if c then x * -1 else x

/-- `reflect`, Particle.h:616-633 (`MeshlessFVParticle`; the version for SPH particles, 601-606, is
the same without the derived fields). Both loops are written as what they do to each entry: the
diagonal entries change sign twice. -/
def GPart.reflect (p : GPart n α τ τ') (k : Fin n) (x : α) : GPart n α τ τ' :=
  { p with
    r := Function.update p.r k (2 * x - p.r k)
    v := Function.update p.v k (p.v k * -1)
    a := Function.update p.a k (p.a k * -1)
    Wprim := Function.update p.Wprim (velIdx k) (p.Wprim (velIdx k) * -1)
    dQ := Function.update p.dQ (velIdx k) (p.dQ (velIdx k) * -1)
    dQdt := Function.update p.dQdt (velIdx k) (p.dQdt (velIdx k) * -1)
    grad := fun i j => negIf (i = velIdx k) (negIf (j = k) (p.grad i j))
    B := fun i j => negIf (i = k) (negIf (j = k) (p.B i j)) }

/-- `CreateBoundaryGhostParticle`, Hydrodynamics.cpp:259-289. `ghostpart = origpart` assigns through
references to the base class: the members of the derived class keep what was in that slot. -/
def HState.createGhost (s : HState n α τ τ') (i : ℕ) (k : Fin n) (ghosttype : BitVec 32)
    (rk vk : α) : HState n α τ τ' :=
  let id := s.Nhydro + s.Nghost
  let o := s.part i
  let old := s.part id
  { s with
    part := Function.update s.part id
      { r := Function.update o.r k rk
        v := Function.update o.v k vk
        a := o.a
        r0 := o.r0
        v0 := o.v0
        a0 := o.a0
        m := o.m
        h := o.h
        th := o.th
        flags := Flags.set (Flags.unset o.flags Flags.active) ghosttype
        iorig := i
        Wprim := old.Wprim
        dQ := old.dQ
        dQdt := old.dQdt
        grad := old.grad
        B := old.B
        ext := old.ext }
    Nghost := s.Nghost + 1 }

/-- `CheckBoundaryGhostParticle`, Hydrodynamics.cpp:217-248; `grange = ghost_range*kernrange`. -/
def HState.checkGhost (d : Domain n α) (grange tghost : α) (j : Fin n) (s : HState n α τ τ') (i : ℕ) :
    HState n α τ τ' :=
  let r := (s.part i).r j
  let v := (s.part i).v j
  let h := (s.part i).h
  let s := if r + min 0 (v * tghost) < d.min j + grange * h then
      let s := if d.lhs j = .periodic then
          s.createGhost i j (Flags.periodic_bound_flags (dimFlag j) 0) (r + d.size j) v else s
      if d.lhs j = .mirror then
        s.createGhost i j (Flags.mirror_bound_flags (dimFlag j) 0) (2 * d.min j - r) (-v) else s
    else s
  if r + max 0 (v * tghost) > d.max j - grange * h then
    let s := if d.rhs j = .periodic then
        s.createGhost i j (Flags.periodic_bound_flags (dimFlag j) 1) (r - d.size j) v else s
    if d.rhs j = .mirror then
      s.createGhost i j (Flags.mirror_bound_flags (dimFlag j) 1) (2 * d.max j - r) (-v) else s
  else s

/-- Body of the loop over the ghosts in `CopyHydroDataToGhosts`, Ghosts.cpp:62-131; `j` counts the
ghosts. The code tests the dimensions from the highest to the lowest and stops at the first flag set:
`(List.finRange n).reverse` below. -/
def refreshOp (d : Domain n α) (itype : BitVec 32) (p : GPart n α τ τ') : GPart n α τ τ' :=
  match (List.finRange n).reverse.find? (fun k =>
      itype &&& Flags.periodic_bound_flags (dimFlag k) 0 != 0 ||
      itype &&& Flags.periodic_bound_flags (dimFlag k) 1 != 0 ||
      itype &&& Flags.mirror_bound_flags (dimFlag k) 0 != 0 ||
      itype &&& Flags.mirror_bound_flags (dimFlag k) 1 != 0) with
  | none => p
  | some k =>
    if itype &&& Flags.periodic_bound_flags (dimFlag k) 0 != 0 then
      { p with r := Function.update p.r k (p.r k + d.size k) }
    else if itype &&& Flags.periodic_bound_flags (dimFlag k) 1 != 0 then
      { p with r := Function.update p.r k (p.r k - d.size k) }
    else if itype &&& Flags.mirror_bound_flags (dimFlag k) 0 != 0 then p.reflect k (d.min k)
    else p.reflect k (d.max k)

def HState.refreshStep (d : Domain n α) (s : HState n α τ τ') (j : ℕ) : HState n α τ τ' :=
  let i := s.Nhydro + j
  let iorig := (s.part i).iorig
  let itype := (s.part i).flags
  { s with
    part := Function.update s.part i (refreshOp d itype
      { s.part iorig with
        iorig := iorig
        flags := Flags.unset itype Flags.active }) }

/-- `PeriodicGhostsSpecific::CopyHydroDataToGhosts`, Ghosts.cpp:47-135 -/
def HState.refresh (d : Domain n α) (s : HState n α τ τ') : HState n α τ τ' :=
  (List.range s.NPeriodicGhost).foldl (HState.refreshStep d) s

/-- `SearchBoundaryGhostParticles`, HydroTree.cpp:495-545. `gen j` is the call
`tree->GenerateBoundaryGhostParticles(tghost, grange, j, simbox, hydro)`; `none` if that call does not
end. The early return for open boxes is covered by the test inside the loop. -/
def HState.searchDim (d : Domain n α) (grange tghost : α)
    (gen : Fin n → HState n α τ τ' → Option (HState n α τ τ')) (os : Option (HState n α τ τ'))
    (j : Fin n) : Option (HState n α τ τ') :=
  os.bind fun s =>
    if d.lhs j ≠ .open_ ∨ d.rhs j ≠ .open_ then
      (gen j s).map fun s =>
        let s := if 0 < j.val then (List.range' s.Nhydro (s.Ntot - s.Nhydro)).foldl
            (HState.checkGhost d grange tghost j) s else s
        { s with Ntot := s.Nhydro + s.Nghost }
    else some s

def HState.search (d : Domain n α) (grange tghost : α)
    (gen : Fin n → HState n α τ τ' → Option (HState n α τ τ')) (s : HState n α τ τ') :
    Option (HState n α τ τ') :=
  let s := { s with
    Nghost := 0
    NPeriodicGhost := 0
    Ntot := s.Nhydro }
  if ∀ k, d.lhs k = .open_ ∧ d.rhs k = .open_ then some s
  else ((List.finRange n).foldl (HState.searchDim d grange tghost gen) (some s)).map fun s =>
    { s with NPeriodicGhost := s.Nghost }

end

noncomputable section

/-- Body of the walk of `GenerateBoundaryGhostParticles`, Tree.cpp:1111-1143. -/
def Tree.generateBody (T : Tree n) (d : Domain n ℝ) (grange tghost : ℝ) (j : Fin n) (pfuel : ℕ)
    (c : ℕ) (s : HState n ℝ τ τ') : Act (HState n ℝ τ τ') :=
  if (T.cell c).bbmin j + min 0 ((T.cell c).v j * tghost) < d.min j + grange * (T.cell c).hmax ∨
      (T.cell c).bbmax j + max 0 ((T.cell c).v j * tghost) > d.max j - grange * (T.cell c).hmax then
    if T.links.copen c ≠ none then .open_ s
    else if (T.cell c).N = 0 then .next s
    else match T.leafList pfuel c with
      | none => .open_ s
      | some l => .next (l.foldl (HState.checkGhost d grange tghost j) s)
  else .next s

/-- `GenerateBoundaryGhostParticles`, Tree.cpp:1098-1146 -/
def Tree.generate (T : Tree n) (d : Domain n ℝ) (grange tghost : ℝ) (pfuel fuel : ℕ) (j : Fin n)
    (s : HState n ℝ τ τ') : Option (HState n ℝ τ τ') :=
  match walk T.links T.Ncell (T.generateBody d grange tghost j pfuel) fuel 0 s with
  | .done s => some s
  | _ => none

end
end Gandalf
