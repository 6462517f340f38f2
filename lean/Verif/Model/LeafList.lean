import Verif.Common

/-!
# Linked particle lists of tree cells

Every cell owns the particles reached from `ifirst` through `inext` up to `ilast`
(`-1` is `none`).
-/

set_option autoImplicit false

namespace Gandalf.LeafList

/-- The loop
`i = cell.ifirst; while (i != -1) { visit i; if (i == cell.ilast) break; i = inext[i]; }`
used by every routine that looks at the particles of a cell (KDTree.cpp:877-907, 923-947, 1170-1185;
Tree.cpp:66-77, 251-258, …): the list of particles visited. `none` = not finished within `fuel`. -/
def traverse (inext : ℕ → Option ℕ) (ilast : Option ℕ) : (fuel : ℕ) → (i : Option ℕ) →
    Option (List ℕ)
  | _, none => some []
  | 0, some _ => none
  | fuel + 1, some i =>
    if some i = ilast then some [i]
    else (traverse inext ilast fuel (inext i)).map (i :: ·)

/-- State of the clean-up loop: links, new `cell.ifirst`, and `iaux`. -/
structure Compact where
  inext : ℕ → Option ℕ
  ifirst : Option ℕ
  iaux : Option ℕ

/-- Body of the clean-up loop for one particle, KDTree.cpp:865-869. -/
def compactBody (dead : ℕ → Bool) (s : Compact) (i : ℕ) : Compact :=
  if dead i then s
  else
    match s.iaux with
    | none => { inext := s.inext, ifirst := some i, iaux := some i }
    | some a => { inext := Function.update s.inext a (some i), ifirst := s.ifirst, iaux := some i }

/-- The clean-up loop, KDTree.cpp:864-872. -/
def compactLoop (dead : ℕ → Bool) (ilast : Option ℕ) : (fuel : ℕ) → (i : Option ℕ) → Compact →
    Option Compact
  | _, none, s => some s
  | 0, some _, _ => none
  | fuel + 1, some i, s =>
    let s' := compactBody dead s i
    if some i = ilast then some s'
    else compactLoop dead ilast fuel (s'.inext i) s'

/-- Removal of dead particles from the list of a leaf, KDTree.cpp:861-873: returns the links and the
new `cell.ifirst` and `cell.ilast`. -/
def compact (dead : ℕ → Bool) (inext : ℕ → Option ℕ) (ifirst ilast : Option ℕ) (fuel : ℕ) :
    Option Compact :=
  compactLoop dead ilast fuel ifirst ⟨inext, none, none⟩

end Gandalf.LeafList
