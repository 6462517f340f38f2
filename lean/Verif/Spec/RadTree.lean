import Verif.Model.RadTree
import Verif.Spec.KDLayout

/-! Specification of the radiation tree: boxes that tile, faces that lead on, straight rays. -/

set_option autoImplicit false

namespace Gandalf.RadTree

variable {n : ℕ} {α : Type}

/-- `p` lies in the closed box of `c` -/
def InBox [LE α] (c : Cell n α) (p : Vec n α) : Prop := ∀ k, c.bbmin k ≤ p k ∧ p k ≤ c.bbmax k

/-- `p` lies in the open box of `c` -/
def Inside [LT α] (c : Cell n α) (p : Vec n α) : Prop := ∀ k, c.bbmin k < p k ∧ p k < c.bbmax k

/-- position of the left-hand (`false`) or right-hand (`true`) face along `k` -/
def face (c : Cell n α) (s : Bool) (k : Fin n) : α := if s then c.bbmax k else c.bbmin k

/-- The circumstances of a build: the link table of C05 for the depth of C02, at least one particle, an
id array naming particles only, no dead particles, smoothing lengths that are not negative, and
positions within the range of `big_number`. -/
structure Setup [AddGroup α] [Mul α] [OfNat α 2] [Zero α] [LE α] (t : KD.Links) (ltot : ℕ) (big : α)
    (r : ℕ → Vec n α) (h : ℕ → α) (dead : ℕ → Bool) (Ntot : ℕ) (ids0 : ℕ → ℕ) : Prop where
  laid : KD.LaidOut t ltot ltot 0 0
  pos : 0 < Ntot
  count : 0 < ltot → 2 ^ (ltot - 1) ≤ Ntot
  ids : ∀ j, j < Ntot → ids0 j < Ntot
  live : ∀ i, i < Ntot → dead i = false
  hnn : ∀ i, i < Ntot → 0 ≤ h i
  low : ∀ i, i < Ntot → ∀ k, -big ≤ r i k - 2 * h i
  big : 0 ≤ big

/-- What the pointer behind a face promises. `none`: the face is a face of the root cell. Otherwise
the pointer names a cell with particles, not smaller in level, which touches the face from the other
side and covers all of it. -/
def FaceOK [LE α] (t : KD.Links) (Ncell : ℕ) (cells : ℕ → Cell n α) (c : ℕ) (s : Bool) (k : Fin n) :
    Option ℕ → Prop
  | none => face (cells c) s k = face (cells 0) s k
  | some e => e < Ncell ∧ 0 < (cells e).N ∧ t.level e ≤ t.level c ∧
      face (cells e) (!s) k = face (cells c) s k ∧
      ∀ j, j ≠ k → (cells e).bbmin j ≤ (cells c).bbmin j ∧ (cells c).bbmax j ≤ (cells e).bbmax j

/-- A straight ray of direction `e` from `r` to `r'`, cut into pieces: each piece has a length that is
not negative and lies wholly in the closed box of the cell it is booked on. -/
def Pieces [LE α] [Add α] [Mul α] [Zero α] (cells : ℕ → Cell n α) (e : Vec n α) :
    Vec n α → List (ℕ × α) → Vec n α → Prop
  | r, [], r' => r' = r
  | r, (c, d) :: l, r' => 0 ≤ d ∧
      (∀ x, 0 ≤ x → x ≤ d → InBox (cells c) (fun k => r k + x * e k)) ∧
      Pieces cells e (fun k => r k + d * e k) l r'

/-- sum of `f` over the cells of level `level` among the `N` cells from `c` on -/
def levelSum [Add α] [Zero α] (t : KD.Links) (level : ℕ) (f : ℕ → α) (c N : ℕ) : α :=
  (((List.range' c N).filter fun i => t.level i = level).map f).sum

end Gandalf.RadTree
