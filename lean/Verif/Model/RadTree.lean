import Verif.Model.QuickSelect
import Verif.Model.KDStructure
import Verif.Model.Vec
import Mathlib.Data.Fin.VecNotation

/-!
# Model of the radiation KD-tree and of the photon packets walking through it
(src/Tree/KDRadiationTree.cpp, src/Thermal/MonochromaticIonisationMonteCarlo.cpp)

* `KDRadiationTree::ComputeTreeSize` and `CreateTreeStructure` (lines 218-248, 258-314) set the levels
  and the child links exactly as the hydrodynamical KD-tree does; the table `KD.Links` of
  `Verif.Model.KDStructure` is used for them.
* The cell array is a function `ℕ → Cell`; a cell id of `-1` is `none`.
* `big` is `big_number` (also the literal `9.9e20` of line 474), `small` is `small_number`
  (Headers/Constants.h:72-73). FLOAT is an arbitrary ordered field.
* The list of the particles of a cell is the slice `ids[first], …, ids[iend-1]`; the linked list that
  the code makes of it (lines 339-347, 439-446) is the one of C03.
* The two recursive calls are made one after the other (lines 430-433).
* Not modelled: mass, density, centre of mass and volume of the cells (lines 603-617, 630-657); more
  than one frequency; the counts of cells crossed and of scatterings; `ComputeGatherCellList`.
-/

set_option autoImplicit false

namespace Gandalf.RadTree

/-- The geometrical members of `KDRadTreeCell`, Headers/KDRadiationTree.h. `exit false k` is
`cexit[0][k]`, `exit true k` is `cexit[1][k]`. -/
structure Cell (n : ℕ) (α : Type*) where
  kdiv : Fin n
  N : ℕ
  bbmin : Vec n α
  bbmax : Vec n α
  exit : Bool → Fin n → Option ℕ

/-- The mutable data of the build. -/
structure State (n : ℕ) (α : Type*) where
  cell : ℕ → Cell n α
  ids : ℕ → ℕ

variable {n : ℕ} {α : Type} [NeZero n] [Field α] [LinearOrder α]

section build
variable (t : KD.Links) (ltot : ℕ) (big : α) (r : ℕ → Vec n α) (dead : ℕ → Bool)

/-- Upper corner of the box round all particles, KDRadiationTree.cpp:171-176. -/
def boxMax (h : ℕ → α) (Ntot : ℕ) (k : Fin n) : α :=
  (List.range Ntot).foldl (fun (b : α) (i : ℕ) => if b < r i k + 2 * h i then r i k + 2 * h i else b) (-big)

/-- Lower corner, KDRadiationTree.cpp:170, 172-180. -/
def boxMin (h : ℕ → α) (Ntot : ℕ) (k : Fin n) : α :=
  (List.range Ntot).foldl (fun (b : α) (i : ℕ) => if r i k - 2 * h i < b then r i k - 2 * h i else b) big

/-- Dimension of the longest side, KDRadiationTree.cpp:332-333, 354-360. -/
def longest (c : Cell n α) : Fin n :=
  ((List.finRange n).foldl
    (fun (s : α × Fin n) k => if s.1 < c.bbmax k - c.bbmin k then (c.bbmax k - c.bbmin k, k) else s)
    (0, 0)).2

/-- Position of the dividing plane once the ids are in order, KDRadiationTree.cpp:528-537: midway
between the last particle of the left half and the first of the right half. -/
def plane (key : ℕ → α) (ids : ℕ → ℕ) (first p N : ℕ) (rpivot : α) : α :=
  if 1 < N then
    ((List.range' first (p - first)).foldl (fun (m : α) (j : ℕ) => max m (key (ids j))) (-big) + rpivot) / 2
  else rpivot

/-- Set-up of the two children, KDRadiationTree.cpp:374-407. -/
def setChildren (cells : ℕ → Cell n α) (c c1 c2 : ℕ) (k : Fin n) (x : α) : ℕ → Cell n α :=
  let a := cells c
  -- lines 375-379
  let b1 : Cell n α := { cells c1 with bbmin := a.bbmin, bbmax := a.bbmax, exit := a.exit, N := a.N / 2 }
  -- lines 386-390
  let b2 : Cell n α :=
    { cells c2 with bbmin := a.bbmin, bbmax := a.bbmax, exit := a.exit, N := a.N - a.N / 2 }
  -- lines 399-404
  if 0 < b1.N ∧ 0 < b2.N then
    Function.update (Function.update cells c1
      { b1 with
        bbmax := Function.update b1.bbmax k x
        exit := Function.update b1.exit true (Function.update (b1.exit true) k (some c2)) }) c2
      { b2 with
        bbmin := Function.update b2.bbmin k x
        exit := Function.update b2.exit false (Function.update (b2.exit false) k (some c1)) }
  -- lines 405-407
  else if 0 < b2.N then
    Function.update (Function.update cells c1
      { b1 with bbmax := Function.update b1.bbmax k (-big) }) c2 b2
  else Function.update (Function.update cells c1 b1) c2 b2

/-- `DivideTreeCell`, KDRadiationTree.cpp:323-453, for the cell `c` holding `ids[first..iend-1]`.
`none`: fuel used up, or an inner cell without particles (whose `ifirst` was never set, so that
`QuickSelect` would read outside of its array). -/
def divide : (fuel : ℕ) → (first iend c : ℕ) → State n α → Option (State n α)
  | 0, _, _, _, _ => none
  | fuel + 1, first, iend, c, s =>
    if t.level c = ltot then
      -- lines 338-350; the count of lines 601, 626-637
      some { s with
        cell := Function.update s.cell c
          { s.cell c with
            N := ((List.range' first (iend - first)).filter fun j : ℕ => !dead (s.ids j)).length } }
    else
      match t.c1 c, t.c2 c with
      | some c1, some c2 =>
        let a := s.cell c
        if a.N = 0 then none
        else do
          let k := longest a
          -- line 365
          let q ← QuickSelect.quickSelect (fun i => r i k) (iend - first) s.ids first (iend - 1)
            (first + a.N / 2)
          let x := plane big (fun i => r i k) q.1 first (first + a.N / 2) (iend - first) q.2
          let s1 : State n α := ⟨setChildren big (Function.update s.cell c { a with kdiv := k }) c c1 c2 k x, q.1⟩
          -- lines 430-433
          let s2 ← divide fuel first (first + a.N / 2) c1 s1
          let s3 ← divide fuel (first + a.N / 2) iend c2 s2
          -- lines 450, 652
          some { s3 with
            cell := Function.update s3.cell c
              { s3.cell c with N := (s3.cell c1).N + (s3.cell c2).N } }
      | _, _ => none

/-- `BuildTree` before `OptimiseTree`, KDRadiationTree.cpp:169-202, for `Ntot > 0` particles and
arbitrary previous contents of the cell array. `ids0` is the id array of lines 196-199: the identity,
or the order left behind by the previous build of equally many particles. -/
def build (h : ℕ → α) (Ntot : ℕ) (old : ℕ → Cell n α) (ids0 : ℕ → ℕ) : Option (State n α) :=
  divide t ltot big r dead (ltot + 1) 0 Ntot 0
    { cell := Function.update old 0
        { old 0 with
          N := Ntot, bbmin := boxMin big r h Ntot, bbmax := boxMax big r h Ntot
          exit := fun _ _ => none }
      ids := ids0 }

end build

section walk
variable (t : KD.Links) (cells : ℕ → Cell n α)

/-- Does `b` span the extent of the cell `a` along `k`? KDRadiationTree.cpp:789-790, 794-795. -/
def spans (b a : Cell n α) (k : Fin n) : Prop := a.bbmax k ≤ b.bbmax k ∧ b.bbmin k ≤ a.bbmin k

instance (b a : Cell n α) (k : Fin n) : Decidable (spans b a k) :=
  inferInstanceAs (Decidable (_ ∧ _))

/-- The loops narrowing one exit pointer `e` of the cell `a` on level `level`:
KDRadiationTree.cpp:780-801 (left-hand face, `s = false`) and 811-835 (right-hand face, `s = true`).
The level of `e` grows in every turn and the loop ends at `level ≤ ltot`, so `ltot` turns do. -/
def narrow (level : ℕ) (a : Cell n α) (s : Bool) (k : Fin n) : (fuel e : ℕ) → ℕ
  | 0, e => e
  | fuel + 1, e =>
    if t.level e < level then
      match t.c2 e with
      | none => e
      | some c2 =>
        let kd := (cells e).kdiv
        if kd = k ∧ s = false ∧ 0 < (cells c2).N then narrow level a s k fuel c2
        else if kd = k ∧ s = true ∧ 0 < (cells (e + 1)).N then narrow level a s k fuel (e + 1)
        else if kd = k ∧ s = true ∧ 0 < (cells c2).N then narrow level a s k fuel c2
        else if 0 < (cells (e + 1)).N ∧ spans (cells (e + 1)) a kd then narrow level a s k fuel (e + 1)
        else if 0 < (cells c2).N ∧ spans (cells c2) a kd then narrow level a s k fuel c2
        else e
    else e

/-- `OptimiseTree`, KDRadiationTree.cpp:750-848. The turn for one cell reads and writes only the
exit pointers of that cell, so all turns can be made at once. The tests of lines 780 and 811 read
`radcell[cexit]` before they ask whether `cexit` is `-1`; the value read is not used in that case.
See `loopReads`. -/
def optimise (ltot Ncell : ℕ) : ℕ → Cell n α := fun c =>
  if c < Ncell then
    { cells c with
      exit := fun s k => ((cells c).exit s k).map (narrow t cells (t.level c) (cells c) s k ltot) }
  else cells c

/-- The indices with which the loop conditions of lines 780 and 811 read the cell array when the
loops are entered; `none` is `radcell[-1]`. -/
def loopReads (Ncell : ℕ) : List (Option ℕ) :=
  (List.range Ncell).flatMap fun c : ℕ =>
    (List.finRange n).flatMap fun k => [(cells c).exit false k, (cells c).exit true k]

/-- The descent common to `FindCell` (KDRadiationTree.cpp:862-883) and `FindAdjacentCell` (972-991). -/
def descend (level : ℕ) (rp : Vec n α) : (fuel c : ℕ) → Option ℕ
  | 0, _ => none
  | fuel + 1, c =>
    if t.level c < level then
      match t.c2 c with
      | none => none
      | some c2 =>
        if rp (cells c).kdiv < (cells (c + 1)).bbmax (cells c).kdiv then descend level rp fuel (c + 1)
        else descend level rp fuel c2
    else some c

/-- `FindCell`, KDRadiationTree.cpp:857-896: the descent and the check of lines 886-892 (`none`: the
code raises an exception). -/
def findCell (ltot level : ℕ) (rp : Vec n α) (cparent : ℕ) : Option ℕ :=
  (descend t cells level rp (ltot + 1) cparent).bind fun c =>
    if ∀ k, (cells c).bbmin k ≤ rp k ∧ rp k ≤ (cells c).bbmax k then some c else none

/-- `FindRayExitFace`, KDRadiationTree.cpp:906-958: path length and exit cell. -/
def exitFace (big : α) (c : Cell n α) (rp eray inveray : Vec n α) : α × Option ℕ :=
  (List.finRange n).foldl
    (fun s k =>
      if 0 < eray k then
        if (c.bbmax k - rp k) * inveray k < s.1 then ((c.bbmax k - rp k) * inveray k, c.exit true k) else s
      else
        if (c.bbmin k - rp k) * inveray k < s.1 then ((c.bbmin k - rp k) * inveray k, c.exit false k) else s)
    (big, none)

/-- `inveray`, MonochromaticIonisationMonteCarlo.cpp:591, 650. -/
def invRay (small : α) (eray : Vec n α) : Vec n α := fun k => 1 / (eray k + small)

/-- What changes while a photon packet is followed. -/
structure Photon (n : ℕ) (α : Type*) where
  c : ℕ
  r : Vec n α
  tau : α
  lsum : ℕ → α
  Nphoton : ℕ → ℕ

/-- How the loop of one packet ends. -/
inductive Fate
  | absorbed
  | escaped
  deriving DecidableEq

/-- The loop over the cells crossed by one packet, MonochromaticIonisationMonteCarlo.cpp:361-417.
`none`: still running after `fuel` turns. -/
def fly (ltot level : ℕ) (big : α) (opacity : ℕ → α) (eray inveray : Vec n α) (taumax : α) :
    (fuel : ℕ) → Photon n α → Option (Fate × Photon n α)
  | 0, _ => none
  | fuel + 1, ph =>
    let f := exitFace big (cells ph.c) ph.r eray inveray
    if taumax < ph.tau + f.1 * opacity ph.c then
      -- lines 373-383
      let d := (taumax - ph.tau) / opacity ph.c
      some (.absorbed, { ph with
        r := fun k => ph.r k + d * eray k
        lsum := Function.update ph.lsum ph.c (ph.lsum ph.c + d)
        Nphoton := Function.update ph.Nphoton ph.c (ph.Nphoton ph.c + 1) })
    else
      -- lines 391-396
      let ph1 : Photon n α :=
        { ph with
          r := fun k => ph.r k + f.1 * eray k
          lsum := Function.update ph.lsum ph.c (ph.lsum ph.c + f.1)
          Nphoton := Function.update ph.Nphoton ph.c (ph.Nphoton ph.c + 1)
          tau := ph.tau + f.1 * opacity ph.c }
      match f.2 with
      | none => some (.escaped, ph1)
      | some e =>
        -- line 411
        match descend t cells level ph1.r (ltot + 1) e with
        | none => none
        | some c => fly ltot level big opacity eray inveray taumax fuel { ph1 with c := c }

/-- `SumRadiationField`, KDRadiationTree.cpp:1028-1069. `level` is an `int` in the code and may be
negative. `none`: the children of a leaf are asked for (cell `-1`). -/
def sumField (level : ℤ) : (fuel c : ℕ) → (ℕ → α) → Option (ℕ → α)
  | 0, _, _ => none
  | fuel + 1, c, lsum =>
    if (t.level c : ℤ) ≠ level then
      match t.c1 c, t.c2 c with
      | some c1, some c2 => do
        let l1 ← sumField level fuel c1 lsum
        let l2 ← sumField level fuel c2 l1
        some (Function.update l2 c (l2 c1 + l2 c2))
      | _, _ => none
    else some lsum

/-- The test meant to catch a wrong level, MonochromaticIonisationMonteCarlo.cpp:313 (and
TreeMonteCarlo.cpp:180). -/
def levelRejected (level : ℤ) (ltot : ℕ) : Bool := decide (level < 0) && decide ((ltot : ℤ) < level)

end walk

end Gandalf.RadTree
