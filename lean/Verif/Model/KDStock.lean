import Verif.Model.Vec
import Verif.Model.KDStructure
import Verif.Model.LeafList
import Mathlib.Analysis.SpecialFunctions.Pow.Real

/-!
# Model of `KDTree::StockTree` and `KDTree::StockCellProperties`
(src/Tree/KDTree.cpp:760-798 and 808-1083)

Real arithmetic. Not modelled: `dhmaxdt`, `drmaxdt` (only zeroed there), `worktot` (MPI) and the
eigenvalue MAC of lines 1057-1079. The square root `sqrt(DotProduct(atree,atree))` and the power
`pow(gpot,-2/3)` per particle are the given numbers `anorm i`, `gfac i`. The two recursive calls of
`StockTree` are executed one after the other.
-/

set_option autoImplicit false

namespace Gandalf.KD

/-- Particle data read by the stocking. -/
structure Parts (n : ℕ) where
  r : ℕ → Vec n ℝ
  v : ℕ → Vec n ℝ
  m : ℕ → ℝ
  h : ℕ → ℝ
  sound : ℕ → ℝ
  anorm : ℕ → ℝ
  gfac : ℕ → ℝ
  dead : ℕ → Bool
  active : ℕ → Bool
  /-- `gravmask[partdata[i].ptype]` -/
  grav : ℕ → Bool

/-- Constants of the tree; `gadget2`, `eigenmac`: which `gravity_mac` is selected (at most one). `oct`: the
tree is an `OctTree`, whose inner cells do not count their active particles. -/
structure Cfg where
  big : ℝ
  kernrange : ℝ
  thetamaxsqd : ℝ
  gadget2 : Bool
  eigenmac : Bool
  needQuad : Bool
  oct : Bool := false

/-- The physical fields of a `TreeCell`, src/Headers/TreeCell.h:24-77. -/
structure Props (n : ℕ) where
  N : ℕ
  Nactive : ℕ
  m : ℝ
  hmax : ℝ
  rmax : ℝ
  cdistsqd : ℝ
  maxsound : ℝ
  amin : ℝ
  macfactor : ℝ
  q : Fin 5 → ℝ
  r : Vec n ℝ
  v : Vec n ℝ
  rcell : Vec n ℝ
  bbmin : Vec n ℝ
  bbmax : Vec n ℝ
  hmin : Vec n ℝ
  hmx : Vec n ℝ
  vmin : Vec n ℝ
  vmax : Vec n ℝ

variable {n : ℕ}

/-- Zeroing, KDTree.cpp:828-851. (`amin` / `macfactor` only with their MAC.) -/
def zeroProps (cfg : Cfg) (c : Props n) : Props n where
  N := 0
  Nactive := 0
  m := 0
  hmax := 0
  rmax := 0
  cdistsqd := cfg.big
  maxsound := 0
  amin := if cfg.gadget2 then cfg.big else c.amin
  macfactor := if cfg.gadget2 then c.macfactor else if cfg.eigenmac then 0 else c.macfactor
  q := fun _ => 0
  r := fun _ => 0
  v := fun _ => 0
  rcell := fun _ => 0
  bbmin := fun _ => cfg.big
  bbmax := fun _ => -cfg.big
  hmin := fun _ => cfg.big
  hmx := fun _ => -cfg.big
  vmin := fun _ => cfg.big
  vmax := fun _ => -cfg.big

/-- First loop over the particles of a leaf, one particle: KDTree.cpp:879-904. -/
noncomputable def leafBody (cfg : Cfg) (P : Parts n) (c : Props n) (i : ℕ) : Props n :=
  if P.dead i then c
  else
    { c with
      N := c.N + 1
      Nactive := if P.active i then c.Nactive + 1 else c.Nactive
      hmax := max c.hmax (P.h i)
      maxsound := max c.maxsound (P.sound i)
      m := if P.grav i then c.m + P.m i else c.m
      r := if P.grav i then fun k => c.r k + P.m i * P.r i k else c.r
      v := if P.grav i then fun k => c.v k + P.m i * P.v i k else c.v
      bbmin := fun k => if P.r i k < c.bbmin k then P.r i k else c.bbmin k
      bbmax := fun k => if P.r i k > c.bbmax k then P.r i k else c.bbmax k
      hmin := fun k => if P.r i k - cfg.kernrange * P.h i < c.hmin k
        then P.r i k - cfg.kernrange * P.h i else c.hmin k
      hmx := fun k => if P.r i k + cfg.kernrange * P.h i > c.hmx k
        then P.r i k + cfg.kernrange * P.h i else c.hmx k
      vmax := fun k => if P.v i k > c.vmax k then P.v i k else c.vmax k
      vmin := fun k => if P.v i k < c.vmin k then P.v i k else c.vmin k
      amin := if cfg.gadget2 then min c.amin (P.anorm i) else c.amin
      macfactor := if cfg.gadget2 then c.macfactor
        else if cfg.eigenmac then max c.macfactor (P.gfac i) else c.macfactor }

/-- Normalisation of a leaf, KDTree.cpp:910-913. -/
noncomputable def normalise (c : Props n) : Props n :=
  if c.m > 0 then { c with r := fun k => c.r k / c.m, v := fun k => c.v k / c.m } else c

/-- Box centre, size and opening distance, KDTree.cpp:914-919 and 994-998. -/
noncomputable def setExtent (cfg : Cfg) (c : Props n) : Props n :=
  if c.N > 0 then
    let dr : Vec n ℝ := fun k => 0.5 * (c.bbmax k - c.bbmin k)
    { c with
      rcell := fun k => 0.5 * (c.bbmin k + c.bbmax k)
      cdistsqd := max (dot dr dr) (c.hmax * c.hmax) / cfg.thetamaxsqd
      rmax := Real.sqrt (dot dr dr) }
  else c

/-- `dr[k]`, absent coordinates read as 0. -/
def coord (dr : Vec n ℝ) (k : ℕ) : ℝ := if h : k < n then dr ⟨k, h⟩ else 0

/-- Which of the five quadrupole terms exist in `ndim = n` dimensions, KDTree.cpp:930-943. -/
def quadUsed (n : ℕ) (k : Fin 5) : Bool :=
  if n = 3 then true else if n = 2 then k.val < 3 else if n = 1 then k.val < 1 else false

/-- The increment of `cell.q[k]` by a mass `mi` at offset `dr`, KDTree.cpp:930-943, 1009-1026 and
1033-1050. -/
def quadTerm (mi : ℝ) (dr : Vec n ℝ) (k : Fin 5) : ℝ :=
  if quadUsed n k then
    let drsqd := dot dr dr
    match k with
    | 0 => mi * (3 * coord dr 0 * coord dr 0 - drsqd)
    | 1 => mi * 3 * coord dr 0 * coord dr 1
    | 2 => mi * (3 * coord dr 1 * coord dr 1 - drsqd)
    | 3 => mi * 3 * coord dr 2 * coord dr 0
    | 4 => mi * 3 * coord dr 2 * coord dr 1
  else 0

/-- Second loop over the particles of a leaf, KDTree.cpp:926-944. -/
noncomputable def quadBody (P : Parts n) (c : Props n) (i : ℕ) : Props n :=
  if !P.dead i && P.grav i then
    { c with q := fun k => c.q k + quadTerm (P.m i) (fun k => P.r i k - c.r k) k }
  else c

/-- Leaf branch after the clean-up of the list, KDTree.cpp:828-852 and 876-948; `l` is the list of
particles the loops run through. -/
noncomputable def stockLeafProps (cfg : Cfg) (P : Parts n) (l : List ℕ) (c : Props n) : Props n :=
  let c1 := l.foldl (leafBody cfg P) (zeroProps cfg c)
  let c2 := setExtent cfg (normalise c1)
  if cfg.needQuad then l.foldl (quadBody P) c2 else c2

/-- Contribution of a non-empty child to boxes and maxima, KDTree.cpp:958-971 and 972-985. -/
noncomputable def addChild (cfg : Cfg) (ch c : Props n) : Props n :=
  if ch.N > 0 then
    { c with
      bbmin := fun k => min (ch.bbmin k) (c.bbmin k)
      bbmax := fun k => max (ch.bbmax k) (c.bbmax k)
      hmin := fun k => min (ch.hmin k) (c.hmin k)
      hmx := fun k => max (ch.hmx k) (c.hmx k)
      vmin := fun k => min (ch.vmin k) (c.vmin k)
      vmax := fun k => max (ch.vmax k) (c.vmax k)
      hmax := max c.hmax ch.hmax
      maxsound := max c.maxsound ch.maxsound
      amin := if cfg.gadget2 then min c.amin ch.amin else c.amin
      macfactor := if cfg.gadget2 then c.macfactor
        else if cfg.eigenmac then max c.macfactor ch.macfactor else c.macfactor }
  else c

/-- Sums over the two children, KDTree.cpp:987-993. -/
noncomputable def sumChildren (c1 c2 c : Props n) : Props n :=
  let m := c1.m + c2.m
  { c with
    N := c1.N + c2.N
    Nactive := c1.Nactive + c2.Nactive
    m := m
    r := if m > 0 then fun k => (c1.m * c1.r k + c2.m * c2.r k) / m else c.r
    v := if m > 0 then fun k => (c1.m * c1.v k + c2.m * c2.v k) / m else c.v }

/-- Quadrupole contribution of one child, KDTree.cpp:1005-1027 and 1029-1051. -/
noncomputable def addChildQuad (ch c : Props n) : Props n :=
  if ch.m > 0 then
    { c with q := fun k =>
        (c.q k + if quadUsed n k then ch.q k else 0) + quadTerm ch.m (fun k => ch.r k - c.r k) k }
  else c

/-- Internal branch, KDTree.cpp:828-852 and 953-1053. -/
noncomputable def stockInternalProps (cfg : Cfg) (c1 c2 c : Props n) : Props n :=
  let a := addChild cfg c2 (addChild cfg c1 (zeroProps cfg c))
  let b := setExtent cfg (sumChildren c1 c2 a)
  if cfg.needQuad then addChildQuad c2 (addChildQuad c1 b) else b

/-- Tree data changed by the stocking. -/
structure TState (n : ℕ) where
  inext : ℕ → Option ℕ
  ifirst : ℕ → Option ℕ
  ilast : ℕ → Option ℕ
  cell : ℕ → Props n

/-- `StockCellProperties`, KDTree.cpp:808-1083. `pfuel` bounds the length of a leaf list. -/
noncomputable def stockCell (cfg : Cfg) (P : Parts n) (t : Links) (ltot : ℕ) (stockLeaf : Bool)
    (pfuel : ℕ) (c : ℕ) (s : TState n) : Option (TState n) :=
  if t.level c = ltot ∧ stockLeaf = true then do
    let r ← LeafList.compact P.dead s.inext (s.ifirst c) (s.ilast c) pfuel
    let l ← LeafList.traverse r.inext r.iaux pfuel r.ifirst
    some { inext := r.inext
           ifirst := Function.update s.ifirst c r.ifirst
           ilast := Function.update s.ilast c r.iaux
           cell := Function.update s.cell c (stockLeafProps cfg P l (s.cell c)) }
  else
    match t.copen c with
    | none => some s
    | some c1 =>
      match t.cnext c1 with
      | none => none
      | some c2 =>
        some { s with
          cell := Function.update s.cell c
            (stockInternalProps cfg (s.cell c1) (s.cell c2) (s.cell c)) }

/-- `StockTree`, KDTree.cpp:760-798. -/
noncomputable def stockTree (cfg : Cfg) (P : Parts n) (t : Links) (ltot : ℕ) (stockLeaf : Bool)
    (pfuel : ℕ) : (fuel : ℕ) → (c : ℕ) → TState n → Option (TState n)
  | 0, _, _ => none
  | fuel + 1, c, s =>
    match t.copen c with
    | none => stockCell cfg P t ltot stockLeaf pfuel c s
    | some c1 =>
      match t.cnext c1 with
      | none => none
      | some c2 => do
        let s1 ← stockTree cfg P t ltot stockLeaf pfuel fuel c1 s
        let s2 ← stockTree cfg P t ltot stockLeaf pfuel fuel c2 s1
        stockCell cfg P t ltot stockLeaf pfuel c s2

end Gandalf.KD
