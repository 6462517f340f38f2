import Verif.Model.KDStock

/-! What a stocked cell has to know about its live particles. -/

set_option autoImplicit false

namespace Gandalf.KD

variable {n : ℕ}

/-- `Σ_{i ∈ l, gravitating} f i` -/
def gsum (P : Parts n) (l : List ℕ) (f : ℕ → ℝ) : ℝ := ((l.filter P.grav).map f).sum

/-- `c` summarises the live particles `l`. -/
structure Summary (cfg : Cfg) (P : Parts n) (l : List ℕ) (c : Props n) : Prop where
  N : c.N = l.length
  Nactive : cfg.oct = false → c.Nactive = (l.filter P.active).length
  /-- exact mass, centre of mass and momentum of the gravitating particles -/
  m : c.m = gsum P l P.m
  com : 0 < c.m → ∀ k, c.m * c.r k = gsum P l fun i => P.m i * P.r i k
  mom : 0 < c.m → ∀ k, c.m * c.v k = gsum P l fun i => P.m i * P.v i k
  /-- bounding box contains all particles and is tight (or still the sentinel value) -/
  bb : ∀ i ∈ l, ∀ k, c.bbmin k ≤ P.r i k ∧ P.r i k ≤ c.bbmax k
  bbminTight : ∀ k, c.bbmin k = cfg.big ∨ ∃ i ∈ l, c.bbmin k = P.r i k
  bbmaxTight : ∀ k, c.bbmax k = -cfg.big ∨ ∃ i ∈ l, c.bbmax k = P.r i k
  /-- smoothing box contains every particle's kernel support -/
  hbox : ∀ i ∈ l, ∀ k, c.hmin k ≤ P.r i k - cfg.kernrange * P.h i ∧
    P.r i k + cfg.kernrange * P.h i ≤ c.hmx k
  hminTight : ∀ k, c.hmin k = cfg.big ∨ ∃ i ∈ l, c.hmin k = P.r i k - cfg.kernrange * P.h i
  hmxTight : ∀ k, c.hmx k = -cfg.big ∨ ∃ i ∈ l, c.hmx k = P.r i k + cfg.kernrange * P.h i
  vbox : ∀ i ∈ l, ∀ k, c.vmin k ≤ P.v i k ∧ P.v i k ≤ c.vmax k
  hmax : ∀ i ∈ l, P.h i ≤ c.hmax
  hmaxTight : c.hmax = 0 ∨ ∃ i ∈ l, c.hmax = P.h i
  hmaxNonneg : 0 ≤ c.hmax
  maxsound : ∀ i ∈ l, P.sound i ≤ c.maxsound
  amin : cfg.gadget2 = true → ∀ i ∈ l, c.amin ≤ P.anorm i
  macfactor : cfg.gadget2 = false → cfg.eigenmac = true → ∀ i ∈ l, P.gfac i ≤ c.macfactor
  /-- the cell centre is the middle of the bounding box -/
  centre : c.N ≠ 0 → ∀ k, c.rcell k = 1 / 2 * (c.bbmin k + c.bbmax k)
  /-- every particle is within `rmax` of the cell centre -/
  rmaxNonneg : 0 ≤ c.rmax
  extent : ∀ i ∈ l, dot (fun k => P.r i k - c.rcell k) (fun k => P.r i k - c.rcell k) ≤ c.rmax ^ 2
  /-- the size is half the diagonal of the bounding box -/
  size : c.N ≠ 0 → c.rmax ^ 2 = ∑ k, (1 / 2 * (c.bbmax k - c.bbmin k)) ^ 2
  /-- opening distance covers cell size and largest smoothing length -/
  cdist : c.N ≠ 0 → c.cdistsqd = max (c.rmax ^ 2) (c.hmax ^ 2) / cfg.thetamaxsqd
  /-- the quadrupole is the particle sum about the cell's centre of mass -/
  quad : cfg.needQuad = true → ∀ k, c.q k = gsum P l fun i =>
    quadTerm (P.m i) (fun k => P.r i k - c.r k) k

end Gandalf.KD

namespace Gandalf.KD

variable {n : ℕ}

/-- The leaves below `c` hold, in order, the particles of `l` (dead or alive), at most `M` each. -/
def LeafLists (t : Links) (s : TState n) (M : ℕ) : (d c : ℕ) → List ℕ → Prop
  | 0, c, l => l.length ≤ M ∧ s.ifirst c = l.head? ∧ s.ilast c = l.getLast? ∧
      l.IsChain (fun a b => s.inext a = some b)
  | d + 1, c, l => ∃ c1 c2 l1 l2, t.c1 c = some c1 ∧ t.c2 c = some c2 ∧ l = l1 ++ l2 ∧
      LeafLists t s M d c1 l1 ∧ LeafLists t s M d c2 l2

/-- Every cell of the subtree of depth `d` below `c` summarises exactly the particles in the leaves
beneath it, of which no leaf holds more than `M`. -/
def Stocked (cfg : Cfg) (P : Parts n) (t : Links) (s : TState n) (M : ℕ) : (d c : ℕ) → List ℕ → Prop
  | 0, c, l => Summary cfg P l (s.cell c) ∧ l.length ≤ M ∧ s.ifirst c = l.head? ∧ s.ilast c = l.getLast? ∧
      l.IsChain (fun a b => s.inext a = some b)
  | d + 1, c, l => Summary cfg P l (s.cell c) ∧ ∃ c1 c2 l1 l2, t.c1 c = some c1 ∧ t.c2 c = some c2 ∧
      l = l1 ++ l2 ∧ Stocked cfg P t s M d c1 l1 ∧ Stocked cfg P t s M d c2 l2

end Gandalf.KD
