import Verif.Model.Box
import Verif.Model.WorkShare
import Verif.Model.Forest
import Mathlib.Algebra.BigOperators.Fin

/-!
# What the share of a box in the work is (specification side)
-/

set_option autoImplicit false

namespace Gandalf.Work

variable {n : ℕ} {α : Type*} [Field α] [LinearOrder α]

/-- the part of the interval `[hmin, hmax]` that lies in `[bmin, bmax]` -/
def part (bmin bmax hmin hmax : α) : α := max 0 (min bmax hmax - max bmin hmin) / (hmax - hmin)

/-- the part of the volume of the box `h` that lies in `b` -/
def share (b h : Box n α) : α := ∏ k, part (b.min k) (b.max k) (h.min k) (h.max k)

/-- the work in `b` of boxes with works -/
def inBox (b : Box n α) (l : List (Box n α × α)) : α := (l.map fun x => share b x.1 * x.2).sum

/-- the sum of the works of the roots of a forest -/
def topWork (work : ℕ → α) : Forest → α
  | .nil => 0
  | .cons c _ rest => work c + topWork work rest

/-- all roots satisfy `Q` -/
def Tops (Q : ℕ → Prop) : Forest → Prop
  | .nil => True
  | .cons c _ rest => Q c ∧ Tops Q rest

/-- The boxes have a volume, children lie in the boxes of their parents, and the work of a cell is the sum of that of its
children. -/
def Sums (hbox : ℕ → Box n α) (work : ℕ → α) : Forest → Prop
  | .nil => True
  | .cons c ch rest =>
    (∀ k, (hbox c).min k < (hbox c).max k) ∧
    (ch ≠ .nil → work c = topWork work ch) ∧
    Tops (fun d => ∀ k, (hbox c).min k ≤ (hbox d).min k ∧ (hbox d).max k ≤ (hbox c).max k) ch ∧
    Sums hbox work ch ∧ Sums hbox work rest

/-- the leaf cells with their boxes and works -/
def leafItems (hbox : ℕ → Box n α) (work : ℕ → α) (f : Forest) : List (Box n α × α) := f.leaves.map fun c => (hbox c, work c)

/-- the boxes of the cells and the box measured have no edge in common, and no share is so small or so large that the walk
takes it for none or all -/
def Clear (T : Tol α) (hbox : ℕ → Box n α) (b : Box n α) (c : ℕ) : Prop :=
  (∀ k, (hbox c).min k ≠ b.min k ∧ (hbox c).max k ≠ b.max k) ∧
  (share b (hbox c) = 0 ∨ T.small ≤ share b (hbox c)) ∧ (share b (hbox c) = 1 ∨ share b (hbox c) ≤ T.full)

/-- a pruned tree whose links are those of the forest `f` -/
structure Fits (P : Pruned n α) (f : Forest) : Prop where
  entry : f.entry P.Ncell = 0
  linked : f.Linked P.links P.Ncell
  cells : ∀ c ∈ f.cells, c < P.Ncell
  size : f.size ≤ P.Ncell
  sums : Sums P.hbox P.work f

/-- the leaf cells of all processes -/
def allItems (l : List (Pruned n α × Forest)) : List (Box n α × α) := l.flatMap fun x => leafItems x.1.hbox x.1.work x.2

/-- the positions a bisection that starts at `r` between `rmin` and `rmax` may look at in `m` turns -/
def Looks : ℕ → α → α → α → α → Prop
  | 0, _, _, _, _ => False
  | m + 1, rmin, rmax, r, x => x = r ∨ Looks m r rmax (1 / 2 * (r + rmax)) x ∨ Looks m rmin r (1 / 2 * (rmin + r)) x

end Gandalf.Work
