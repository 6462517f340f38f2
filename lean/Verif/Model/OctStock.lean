import Verif.Model.KDStock
import Verif.Model.TreeSearch
import Verif.Model.OctTree

/-!
# Model of `OctTree::StockTree` (src/Tree/OctTree.cpp:454-726)

As for the KD-tree (`Verif.Model.KDStock`): real arithmetic, `dhmaxdt`, `drmaxdt` and the eigenvalue MAC of lines
697-717 are not modelled. The properties, constants and the body of the leaf loops are those of the KD-tree.
-/

set_option autoImplicit false

namespace Gandalf.Oct
open KD

variable {n : ℕ}

/-- Zeroing, OctTree.cpp:488-509. Unlike in the KD-tree `vbox` keeps its old value. -/
def zero (cfg : Cfg) (c : Props n) : Props n := { zeroProps cfg c with vmin := c.vmin, vmax := c.vmax }

/-- Box centre, size and opening distance, OctTree.cpp:572-575 and 646-649. -/
noncomputable def extent (cfg : Cfg) (c : Props n) : Props n :=
  let dr : Vec n ℝ := fun k => 0.5 * (c.bbmax k - c.bbmin k)
  { c with
    rcell := fun k => 0.5 * (c.bbmin k + c.bbmax k)
    cdistsqd := max (dot dr dr) (c.hmax * c.hmax) / cfg.thetamaxsqd
    rmax := Real.sqrt (dot dr dr) }

/-- Leaf after the clean-up of its list, OctTree.cpp:535-606. The box is only set if there is mass (line 569). -/
noncomputable def leafProps (cfg : Cfg) (P : Parts n) (l : List ℕ) (c : Props n) : Props n :=
  let c1 := l.foldl (leafBody cfg P) (zero cfg c)
  let c2 := if c1.m > 0 then extent cfg (normalise c1) else c1
  if cfg.needQuad then l.foldl (quadBody P) c2 else c2

/-- Contribution of one child, OctTree.cpp:620-637; `Nactive` is not summed. -/
noncomputable def add (cfg : Cfg) (c ch : Props n) : Props n :=
  if ch.N > 0 then
    { addChild cfg ch c with
      r := fun k => c.r k + ch.m * ch.r k
      v := fun k => c.v k + ch.m * ch.v k
      m := c.m + ch.m
      N := c.N + ch.N }
  else c

/-- Quadrupole contribution of one child, OctTree.cpp:662-684. -/
noncomputable def addQuad (c ch : Props n) : Props n :=
  if ch.N > 0 then
    { c with q := fun k =>
        (c.q k + if quadUsed n k then ch.q k else 0) + quadTerm ch.m (fun k => ch.r k - c.r k) k }
  else c

/-- Cell with the children `ks`, OctTree.cpp:611-690. -/
noncomputable def innerProps (cfg : Cfg) (ks : List (Props n)) (c : Props n) : Props n :=
  let a := ks.foldl (add cfg) (zero cfg c)
  let b := extent cfg (normalise a)
  if cfg.needQuad then ks.foldl addQuad b else b

/-- The loop `while (cc != cend) { …; cc = child.cnext; }`, OctTree.cpp:617-640 and 658-687: the children. -/
def kids (L : Walk.Links) (cend : ℕ) : (fuel : ℕ) → ℕ → Option (List ℕ)
  | 0, cc => if cc = cend then some [] else none
  | fuel + 1, cc =>
    if cc = cend then some []
    else
      match L.cnext cc with
      | none => none
      | some c' => (kids L cend fuel c').map (cc :: ·)

/-- One cell, OctTree.cpp:485-716. `pfuel` bounds the length of a leaf list, `kfuel` the number of children. -/
noncomputable def stockCell (cfg : Cfg) (P : Parts n) (L : Walk.Links) (stockLeaf : Bool) (pfuel kfuel : ℕ)
    (s : TState n) (c : ℕ) : Option (TState n) :=
  match L.copen c with
  | none =>
    if stockLeaf then
      match LeafList.compact P.dead s.inext (s.ifirst c) (s.ilast c) pfuel with
      | none => none
      | some r =>
        match LeafList.traverse r.inext r.iaux pfuel r.ifirst with
        | none => none
        | some l => some { inext := r.inext
                           ifirst := Function.update s.ifirst c r.ifirst
                           ilast := Function.update s.ilast c r.iaux
                           cell := Function.update s.cell c (leafProps cfg P l (s.cell c)) }
    else some { s with cell := Function.update s.cell c (zero cfg (s.cell c)) }
  | some c1 =>
    match L.cnext c with
    | none => none
    | some cend =>
      match kids L cend kfuel c1 with
      | none => none
      | some ks => some { s with
          cell := Function.update s.cell c (innerProps cfg (ks.map s.cell) (s.cell c)) }

/-- The order of the cells, OctTree.cpp:479-484: levels from the deepest to the root, each from `firstCell` to
`lastCell`. -/
def order (ltot : ℕ) (firstCell lastCell : ℕ → ℕ) : List ℕ :=
  (List.range (ltot + 1)).reverse.flatMap fun l => List.range' (firstCell l) (lastCell l + 1 - firstCell l)

/-- `StockTree` -/
noncomputable def stock (cfg : Cfg) (P : Parts n) (L : Walk.Links) (stockLeaf : Bool) (pfuel kfuel : ℕ)
    (cs : List ℕ) (s : TState n) : Option (TState n) :=
  match cs with
  | [] => some s
  | c :: cs =>
    match stockCell cfg P L stockLeaf pfuel kfuel s c with
    | none => none
    | some s' => stock cfg P L stockLeaf pfuel kfuel cs s'

/-- The tree the searches see after stocking. -/
def toTree {α : Type*} (b : State n α) (Ncellmax Nleafmax : ℕ) (s : TState n) (mac : ℕ → ℝ) : Tree n where
  links := b.links
  Ncell := b.Ncell
  Nend := Ncellmax
  Nleafmax := Nleafmax
  cell := s.cell
  mac := mac
  ifirst := s.ifirst
  ilast := s.ilast
  inext := s.inext

end Gandalf.Oct
