import Verif.Common

/-!
# Model of `KDTree::ComputeTreeSize` and `KDTree::CreateTreeStructure`
(src/Tree/KDTree.cpp:322-352 and 362-433)

Integers are natural numbers (no 32-bit overflow: the C++ would need more than 2^30 leaves);
`pow(2,l)` with small integer `l` is exact in `double`, so it is `2^l`.
`-1` pointers are `none`.
-/

set_option autoImplicit false

namespace Gandalf.KD

/-- The loop `l = 0; while (Nleafmax*pow(2,l) < Ntot) l++;` of KDTree.cpp:327-330 and 335-338.
`fuel` bounds the number of turns, `none` = still running. -/
def sizeLoop (Nleafmax Ntot : ℕ) : (fuel l : ℕ) → Option ℕ
  | 0, _ => none
  | fuel + 1, l => if Nleafmax * 2 ^ l < Ntot then sizeLoop Nleafmax Ntot fuel (l + 1) else some l

/-- `ltot`, KDTree.cpp:335-338. -/
def computeLtot (Nleafmax Ntot fuel : ℕ) : Option ℕ := sizeLoop Nleafmax Ntot fuel 0

/-- `gtot = pow(2,ltot)`, KDTree.cpp:339 (and `gmax`, line 331). -/
def gtotOf (ltot : ℕ) : ℕ := 2 ^ ltot

/-- `Ncell = 2*gtot - 1`, KDTree.cpp:340 (and `Ncellmax`, line 332). -/
def ncellOf (ltot : ℕ) : ℕ := 2 * gtotOf ltot - 1

/-- The pointer fields of the cell array, and the leaf table `g2c`. -/
structure Links where
  level : ℕ → ℕ
  copen : ℕ → Option ℕ
  cnext : ℕ → Option ℕ
  c1 : ℕ → Option ℕ
  c2 : ℕ → Option ℕ
  c2g : ℕ → ℕ
  g2c : ℕ → ℕ
  /-- running leaf counter `g` -/
  g : ℕ

/-- `c2L[l] = pow(2,ltot-l)`, KDTree.cpp:377-378.  Only entries `l < ltot` are written. -/
def c2L (ltot l : ℕ) : Option ℕ := if l < ltot then some (2 ^ (ltot - l)) else none

/-- `cNL[l] = 2*c2L[l] - 1`, KDTree.cpp:379. -/
def cNL (ltot l : ℕ) : Option ℕ := (c2L ltot l).map fun x => 2 * x - 1

/-- Zeroing loop, KDTree.cpp:384-397, applied to arbitrary previous contents `s`.
(`ifirst`, `ilast`, `N`, `Nactive` are handled in the build model.) Note that only `level[0]` is
written; the other levels keep whatever was there. -/
def zeroed (Ncell gmax : ℕ) (s : Links) : Links where
  level := Function.update s.level 0 0
  copen c := if c < Ncell then none else s.copen c
  cnext c := if c < Ncell then none else s.cnext c
  c1 c := if c < Ncell then none else s.c1 c
  c2 c := if c < Ncell then none else s.c2 c
  c2g c := if c < Ncell then 0 else s.c2g c
  g2c g := if g < gmax then 0 else s.g2c g
  g := 0

/-- Body of the loop over cells, KDTree.cpp:405-418.  `none` when an unwritten entry of `c2L`/`cNL`
would be read, when a child slot lies outside the table, or when the assertion of line 408 fails. -/
def structStep (ltot Ncell gmax : ℕ) (s : Links) (c : ℕ) : Option Links :=
  if s.level c = ltot then
    if s.g < gmax then
      some { s with
        cnext := Function.update s.cnext c (some (c + 1))
        c2g := Function.update s.c2g c s.g
        g2c := Function.update s.g2c s.g c
        g := s.g + 1 }
    else none
  else do
    let level1 := Function.update s.level (c + 1) (s.level c + 1)
    let off2 ← c2L ltot (level1 c)
    let c2 := c + off2
    let level2 := Function.update level1 c2 (level1 c + 1)
    let offN ← cNL ltot (level2 c)
    if c + 1 < Ncell ∧ c2 < Ncell then
      some { s with
        level := level2
        copen := Function.update s.copen c (some (c + 1))
        c1 := Function.update s.c1 c (some (c + 1))
        c2 := Function.update s.c2 c (some c2)
        cnext := Function.update s.cnext c (some (c + offN)) }
    else none

/-- `n` turns of the cell loop starting at cell `c`, KDTree.cpp:402-424. -/
def structLoop (ltot Ncell gmax : ℕ) : (n : ℕ) → (c : ℕ) → Links → Option Links
  | 0, _, s => some s
  | n + 1, c, s => (structStep ltot Ncell gmax s c).bind (structLoop ltot Ncell gmax n (c + 1))

/-- `CreateTreeStructure`, KDTree.cpp:362-433, on arbitrary previous contents. -/
def createTreeStructure (ltot gmax : ℕ) (s : Links) : Option Links :=
  structLoop ltot (ncellOf ltot) gmax (ncellOf ltot) 0 (zeroed (ncellOf ltot) gmax s)

end Gandalf.KD
