import Verif.Model.Vec
import Verif.Model.TreeWalk
import Mathlib.Algebra.Order.Field.Basic

/-!
# Model of `OctTree::BuildTree` (src/Tree/OctTree.cpp:210-445) and of its memory (97-127)

Coordinates live in an ordered field. `-1` is `none`. Writes behind the end of `celldata`, `firstCell` and
`lastCell` are outcomes of their own. Not modelled: `id`, `cexit`, `v`, `hmax` of the root (never read
before the stocking), the box `bb` of the children (set at 322-351, read only there and overwritten by
`StockTree`), `ids`, and the local box `bbmin`, `bbmax` of lines 263-276, which is never used.
-/

set_option autoImplicit false

namespace Gandalf.Oct

variable {n : ℕ} {α : Type*} [Field α] [LinearOrder α]

/-- The particle lists of the cells: fields `N`, `ifirst`, `ilast` of `TreeCell` and the array `inext`. -/
structure Lists where
  N : ℕ → ℕ
  ifirst : ℕ → Option ℕ
  ilast : ℕ → Option ℕ
  inext : ℕ → Option ℕ

/-- The tree during the build. -/
structure State (n : ℕ) (α : Type*) where
  lists : Lists
  copen : ℕ → Option ℕ
  cnext : ℕ → Option ℕ
  level : ℕ → ℕ
  rcentre : ℕ → Vec n α
  Ncell : ℕ
  ltot : ℕ
  firstCell : ℕ → ℕ
  lastCell : ℕ → ℕ

/-- the links as the tree walks see them -/
def State.links (s : State n α) : Walk.Links := ⟨s.copen, s.cnext⟩

/-- `ckid`, OctTree.cpp:367-376: bit `k` is set iff `r[k] > rcentre[k]`. -/
def octant (x c : Vec n α) : ℕ := ∑ k : Fin n, if x k > c k then 2 ^ k.val else 0

/-- Appending particle `i` to the list of cell `c`, OctTree.cpp:378-389; `none`: `inext[-1]` written. -/
def append (s : Lists) (c i : ℕ) : Option Lists :=
  match s.ifirst c with
  | none => some { s with
      ifirst := Function.update s.ifirst c (some i)
      ilast := Function.update s.ilast c (some i)
      N := Function.update s.N c (s.N c + 1) }
  | some _ =>
    match s.ilast c with
    | none => none
    | some a => some { s with
        inext := Function.update s.inext a (some i)
        ilast := Function.update s.ilast c (some i)
        N := Function.update s.N c (s.N c + 1) }

/-- The loop over the particles of a divided cell, OctTree.cpp:364-392: `kid i` is the number of the child
that takes particle `i`, `base` the first child. `none`: not finished within `fuel`. -/
def distLoop (kid : ℕ → ℕ) (base : ℕ) (ilast : Option ℕ) : (fuel : ℕ) → Option ℕ → Lists → Option Lists
  | _, none, s => some s
  | 0, some _, _ => none
  | fuel + 1, some i, s =>
    match append s (base + kid i) i with
    | none => none
    | some s' => if some i = ilast then some s' else distLoop kid base ilast fuel (s'.inext i) s'

/-- `rcentre` of child `k`, OctTree.cpp:326-352: in dimension `j` the upper half iff bit `j` of `k` is set. -/
def childCentre (ctr : Vec n α) (size : α) (k : ℕ) : Vec n α :=
  fun j => if k.testBit j.val then ctr j + size else ctr j - size

/-- Overwrite the entries `base … base+m-1` of an array. -/
def setBlock {β : Type*} (a : ℕ → β) (base m : ℕ) (v : ℕ → β) : ℕ → β :=
  fun c => if base ≤ c ∧ c < base + m then v (c - base) else a c

/-- One turn of the loop over the unfinished cells, OctTree.cpp:311-403, for cell `c` with first child
`base`; `size` is `cellSize`, already halved. -/
def divide (r : ℕ → Vec n α) (size : α) (pfuel : ℕ) (c base : ℕ) (s : State n α) : Option (State n α) :=
  match distLoop (fun i => octant (r i) (s.rcentre c)) base (s.lists.ilast c) pfuel (s.lists.ifirst c) s.lists with
  | none => none
  | some lists => some { s with
    lists := lists
    level := setBlock s.level base (2 ^ n) fun _ => s.ltot + 1
    rcentre := setBlock s.rcentre base (2 ^ n) (childCentre (s.rcentre c) size)
    copen := Function.update s.copen c (some base)
    cnext := setBlock s.cnext base (2 ^ n) fun k =>
      if k + 1 = 2 ^ n then s.cnext c else some (base + k + 1) }

/-- The loop over `celllist`, OctTree.cpp:309-404; `cc` counts the cells done. -/
def divideAll (r : ℕ → Vec n α) (size : α) (pfuel : ℕ) : List ℕ → ℕ → State n α → Option (State n α)
  | [], _, s => some s
  | c :: cs, cc, s =>
    match divide r size pfuel c (s.Ncell + cc * 2 ^ n) s with
    | none => none
    | some s' => divideAll r size pfuel cs (cc + 1) s'

/-- New level, OctTree.cpp:408-412. -/
def newLevel (Nlist : ℕ) (s : State n α) : State n α :=
  { s with
    Ncell := s.Ncell + 2 ^ n * Nlist
    ltot := s.ltot + 1
    firstCell := Function.update s.firstCell (s.ltot + 1) (s.lastCell s.ltot + 1)
    lastCell := Function.update s.lastCell (s.ltot + 1) (s.Ncell + 2 ^ n * Nlist - 1) }

/-- The cells still too full, OctTree.cpp:415-422. -/
def unfinished (Nleafmax : ℕ) (s : State n α) : List ℕ :=
  (List.range' (s.firstCell s.ltot) (s.lastCell s.ltot + 1 - s.firstCell s.ltot)).filter
    fun c => decide (Nleafmax < s.lists.N c)

/-- How the build ends. `stuck`: a list loop does not end; `overflow`: a cell behind `celldata[Ncellmax-1]` is
written (`assert(cnew < Ncellmax)`, line 319, in debug builds only); `levels`: `firstCell[lmax]` is written,
after which the code raises "reached maximum oct-tree level" (lines 410 and 425-428). -/
inductive Outcome (σ : Type*) where
  | stuck
  | overflow
  | levels
  | done (s : σ)

/-- The loop `while (!allDone)`, OctTree.cpp:304-431. -/
def buildLoop (r : ℕ → Vec n α) (Nleafmax Ncellmax lmax pfuel : ℕ) :
    (fuel : ℕ) → α → List ℕ → State n α → Outcome (State n α)
  | 0, _, _, _ => .stuck
  | fuel + 1, size, cs, s =>
    if s.Ncell + 2 ^ n * cs.length > Ncellmax then .overflow
    else
      match divideAll r (1 / 2 * size) pfuel cs 0 s with
      | none => .stuck
      | some s1 =>
        if s1.ltot + 1 ≥ lmax then .levels
        else
          let s2 := newLevel cs.length s1
          match unfinished Nleafmax s2 with
          | [] => .done s2
          | c :: cs' => buildLoop r Nleafmax Ncellmax lmax pfuel fuel (1 / 2 * size) (c :: cs') s2

/-- The start, OctTree.cpp:242-252, 270-300, for the particles `i0 … i0+N-1`; `bbmin`, `bbmax` is the box the
root cell happens to hold, `junk` the former contents of the memory. -/
def start (i0 N Ncellmax : ℕ) (bbmin bbmax : Vec n α) (junk : State n α) : State n α where
  lists := {
    N := Function.update (fun c => if c < Ncellmax then 0 else junk.lists.N c) 0 N
    ifirst := Function.update (fun c => if c < Ncellmax then none else junk.lists.ifirst c) 0 (some i0)
    ilast := Function.update (fun c => if c < Ncellmax then none else junk.lists.ilast c) 0 (some (i0 + N - 1))
    inext := fun i => if i0 ≤ i ∧ i < i0 + N - 1 then some (i + 1)
      else if i = i0 + N - 1 then none else junk.lists.inext i }
  copen := fun c => if c < Ncellmax then none else junk.copen c
  cnext := fun c => if c < Ncellmax then some Ncellmax else junk.cnext c
  level := Function.update junk.level 0 0
  rcentre := Function.update junk.rcentre 0 fun k => 1 / 2 * (bbmin k + bbmax k)
  Ncell := 1
  ltot := 0
  firstCell := Function.update junk.firstCell 0 0
  lastCell := Function.update junk.lastCell 0 0

/-- `cellSize` of the root, OctTree.cpp:284-287: the largest half width of the box. -/
def rootSize (bbmin bbmax : Vec n α) : α :=
  (List.finRange n).foldl (fun a k => max a (bbmax k - 1 / 2 * (bbmin k + bbmax k))) 0

/-- `BuildTree` for `N > 0` particles up to the call of `StockTree`. -/
def build (r : ℕ → Vec n α) (i0 N Nleafmax Ncellmax lmax : ℕ) (bbmin bbmax : Vec n α) (junk : State n α) :
    Outcome (State n α) :=
  buildLoop r Nleafmax Ncellmax lmax N lmax (rootSize bbmin bbmax) [0] (start i0 N Ncellmax bbmin bbmax junk)

/-- `Ncellmax` after `AllocateTreeMemory(Npartmax,0,false)` on a tree with `Nold` cells and `Ntotmax` particles
allocated (0 and 0 before the first build), OctTree.cpp:104-121; `allocated` is `allocated_tree`. -/
def cellMemory (allocated : Bool) (Npartmax Ntotmax Nold : ℕ) : ℕ :=
  if allocated = false ∨ Npartmax > Ntotmax then max (2 * Nold) (4 * max Npartmax Ntotmax) else Nold

end Gandalf.Oct
