import Verif.Model.TreeRefresh
import Verif.Model.TreeSearch

/-!
# The brute-force tree (src/Tree/BruteForceTree.cpp, `neib_search = bruteforce`)

One root cell holding all particles, and one leaf per particle. The particle lists share the array `inext`:
the list of the root runs through all particles, that of a leaf is the particle itself.
-/

set_option autoImplicit false

namespace Gandalf.Brute
open KD

variable {n : ℕ}

/-- The links set by `BuildTree` for `Ntot` particles, BruteForceTree.cpp:263-264 and 281-282 (`Ncell = Ntot + 1`,
line 237). Cells from `Ncell` on are never looked at. -/
def links (Ntot : ℕ) : Walk.Links where
  copen c := if c = 0 then (if Ntot > 0 then some 1 else none) else none
  cnext c := if c = 0 then some (Ntot + 1) else some (c + 1)

/-- `level`, BruteForceTree.cpp:266 and 284. -/
def level (c : ℕ) : ℕ := if c = 0 then 0 else 1

/-- State of the loop over the leaves: the tree arrays and the running particle id. -/
structure Lists where
  inext : ℕ → Option ℕ
  ifirst : ℕ → Option ℕ
  ilast : ℕ → Option ℕ
  i : ℕ

/-- One turn of the loop over the leaves, BruteForceTree.cpp:279-280 and 294-295. -/
def leafStep (s : Lists) (c : ℕ) : Lists where
  ifirst := Function.update s.ifirst c (some s.i)
  ilast := Function.update s.ilast c (some s.i)
  inext := Function.update s.inext s.i (some (s.i + 1))
  i := s.i + 1

/-- The particle lists made by `BuildTree` for the particles `first … first+Ntot-1`,
BruteForceTree.cpp:243-262 and 275-297. `Npart = Ntot`, as in all calls (HydroTree.cpp). -/
def lists (first Ntot : ℕ) (s0 : TState n) : Lists :=
  if Ntot > 0 then
    let ilast := first + Ntot - 1
    let s := (List.range' 1 Ntot).foldl leafStep
      ⟨s0.inext, Function.update s0.ifirst 0 (some first), Function.update s0.ilast 0 (some ilast), first⟩
    { s with inext := Function.update s.inext ilast none }
  else ⟨s0.inext, Function.update s0.ifirst 0 none, Function.update s0.ilast 0 none, first⟩

/-- Multipole terms of a cell, BruteForceTree.cpp:439-463: none in one dimension. -/
noncomputable def quad (P : Parts n) (l : List ℕ) (c : Props n) : Props n :=
  if n = 3 ∨ n = 2 then l.foldl (quadBody P) c else c

/-- `StockTreeProperties` after the clean-up of the list, BruteForceTree.cpp:349-372 and 392-463; `l` is the list of
particles the loops run through. The bodies of the loops are those of the KD-tree. (`mac`, 465-487, and `dhmaxdt`,
`drmaxdt`, which nothing reads, are left out.) -/
noncomputable def props (cfg : Cfg) (P : Parts n) (l : List ℕ) (c : Props n) : Props n :=
  let c1 := l.foldl (leafBody cfg P) (zeroProps cfg c)
  let c2 := setExtent cfg (normalise c1)
  if cfg.needQuad then quad P l c2 else c2

/-- `StockTreeProperties`, BruteForceTree.cpp:331-490, of cell `c`. -/
noncomputable def stockCell (cfg : Cfg) (P : Parts n) (pfuel : ℕ) (c : ℕ) (s : TState n) : Option (TState n) := do
  let r ← LeafList.compact P.dead s.inext (s.ifirst c) (s.ilast c) pfuel
  let l ← LeafList.traverse r.inext r.iaux pfuel r.ifirst
  some { inext := r.inext
         ifirst := Function.update s.ifirst c r.ifirst
         ilast := Function.update s.ilast c r.iaux
         cell := Function.update s.cell c (props cfg P l (s.cell c)) }

/-- The loop `for (; c < Ncell; c++)`, BruteForceTree.cpp:322-323. -/
noncomputable def stockCells (cfg : Cfg) (P : Parts n) (pfuel : ℕ) : List ℕ → TState n → Option (TState n)
  | [], s => some s
  | c :: cs, s => do
    let s1 ← stockCell cfg P pfuel c s
    stockCells cfg P pfuel cs s1

/-- The first cell of that loop, BruteForceTree.cpp:320-321 and 543-544. -/
def firstCell (L : Walk.Links) (Ncell c : ℕ) : ℕ := (L.copen c).getD ((L.cnext c).getD Ncell)

/-- `StockTree`, BruteForceTree.cpp:312-324. -/
noncomputable def stockTree (cfg : Cfg) (P : Parts n) (L : Walk.Links) (Ncell : ℕ) (stockLeaf : Bool) (pfuel c : ℕ)
    (s : TState n) : Option (TState n) :=
  if stockLeaf then do
    let s1 ← stockCell cfg P pfuel c s
    stockCells cfg P pfuel (List.range' (firstCell L Ncell c) (Ncell - firstCell L Ncell c)) s1
  else some s

/-- The root cell before stocking, BruteForceTree.cpp:260, 267 and 270 (the boxes are overwritten by the stocking). -/
def rootProps (Ntot : ℕ) (c : Props n) : Props n :=
  { c with
    N := Ntot
    hmax := 0
    v := fun _ => 0 }

/-- `BuildTree`, BruteForceTree.cpp:214-304: the lists and, if there are particles, the stocked cells. -/
noncomputable def build (cfg : Cfg) (P : Parts n) (first Ntot pfuel : ℕ) (s0 : TState n) : Option (TState n) :=
  let b := lists first Ntot s0
  let s : TState n := ⟨b.inext, b.ifirst, b.ilast, Function.update s0.cell 0 (rootProps Ntot (s0.cell 0))⟩
  if Ntot > 0 then stockTree cfg P (links Ntot) (Ntot + 1) true pfuel 0 s else some s

/-- The tree as the searches of Tree.cpp see it. -/
def toTree (Ntot Nleafmax : ℕ) (s : TState n) (mac : ℕ → ℝ) : Tree n where
  links := links Ntot
  Ncell := Ntot + 1
  Nend := Ntot + 1
  Nleafmax := Nleafmax
  cell := s.cell
  mac := mac
  ifirst := s.ifirst
  ilast := s.ilast
  inext := s.inext

/-- `UpdateHmaxValuesCell`, BruteForceTree.cpp:554-587; the loop body is that of the KD-tree. -/
noncomputable def hmaxCell (cfg : Cfg) (P : Parts n) (pfuel c : ℕ) (s : TState n) : Option (TState n) := do
  let l ← LeafList.traverse s.inext (s.ilast c) pfuel (s.ifirst c)
  some { s with cell := Function.update s.cell c (hLeaf cfg P l (s.cell c)) }

/-- The loop BruteForceTree.cpp:545-546. -/
noncomputable def hmaxCells (cfg : Cfg) (P : Parts n) (pfuel : ℕ) : List ℕ → TState n → Option (TState n)
  | [], s => some s
  | c :: cs, s => do
    let s1 ← hmaxCell cfg P pfuel c s
    hmaxCells cfg P pfuel cs s1

/-- `UpdateHmaxValues`, BruteForceTree.cpp:537-547. -/
noncomputable def updHmax (cfg : Cfg) (P : Parts n) (L : Walk.Links) (Ncell pfuel c : ℕ) (s : TState n) :
    Option (TState n) :=
  hmaxCells cfg P pfuel (c :: List.range' (firstCell L Ncell c) (Ncell - firstCell L Ncell c)) s

/-- `UpdateActiveParticleCounters`, BruteForceTree.cpp:498-528, with `ltot = 1` (line 298). -/
def updActive (T : Tree n) (P : Parts n) (Ntot pfuel : ℕ) : Option (Tree n) :=
  T.updActive (fun c => decide (level c = 1)) (Tree.counts P Ntot) pfuel T.Ncell

end Gandalf.Brute
