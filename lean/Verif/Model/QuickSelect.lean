import Mathlib.Data.Nat.Notation
import Mathlib.Logic.Function.Basic
import Mathlib.Order.Defs.LinearOrder

/-!
# Model of `KDTree::QuickSelect`  (src/Tree/KDTree.cpp:682-750)

* `ids` (an `int*` owned by the tree) is a total function `ℕ → ι`; a C++ store `ids[i] = x` is
  `Function.update ids i x`.  Nothing is assumed about entries outside the range the caller passes.
* `partdata[i].r[k]` for the fixed split dimension `k` is `key i`, in any linear order
  (so: finite, non-NaN coordinates).
* the `do … while` loop is run for at most `fuel` turns; `none` means *not finished yet*, or *called
  with a pivot index outside `[left,right]`* (in which case the C++ reads outside its range).
-/

set_option autoImplicit false

namespace Gandalf.QuickSelect

variable {ι α : Type*}

/-- Exchange of two entries through `jtemp`: KDTree.cpp:705-707, 716-718, 727-729.
The C++ writes `ids[i] = ids[j]` and then `ids[j] = jtemp`. -/
def swap (ids : ℕ → ι) (i j : ℕ) : ℕ → ι :=
  let jtemp := ids i
  Function.update (Function.update ids i (ids j)) j jtemp

variable [LinearOrder α]

/-- The `for (j=left; j<right; j++)` partition loop, KDTree.cpp:713-722, started at `j` with the
current `jguess`; `m = right - j` iterations remain. Returns the array and the final `jguess`. -/
def partLoop (key : ι → α) (rpivot : α) : (m : ℕ) → (ids : ℕ → ι) → (j jguess : ℕ) → (ℕ → ι) × ℕ
  | 0, ids, _, jguess => (ids, jguess)
  | m + 1, ids, j, jguess =>
    if key (ids j) ≤ rpivot then
      partLoop key rpivot m (swap ids j jguess) (j + 1) (jguess + 1)
    else
      partLoop key rpivot m ids (j + 1) jguess

/-- One turn of the `do` loop up to the range update, KDTree.cpp:700-729.
Returns the new array, `jguess` and `rpivot`. -/
def pass (key : ι → α) (ids : ℕ → ι) (left right : ℕ) : (ℕ → ι) × ℕ × α :=
  let jguess := (left + right) / 2
  let rpivot := key (ids jguess)
  let ids1 := swap ids jguess right
  let p := partLoop key rpivot (right - left) ids1 left left
  (swap p.1 right p.2, p.2, rpivot)

/-- The whole routine, KDTree.cpp:698-749. -/
def quickSelect (key : ι → α) : (fuel : ℕ) → (ids : ℕ → ι) → (left right jpivot : ℕ) →
    Option ((ℕ → ι) × α)
  | 0, _, _, _, _ => none
  | fuel + 1, ids, left, right, jpivot =>
    if left ≤ jpivot ∧ jpivot ≤ right then
      let q := pass key ids left right
      let ids' := q.1
      let jguess := q.2.1
      let rpivot := q.2.2
      if jguess < jpivot then quickSelect key fuel ids' (jguess + 1) right jpivot
      else if jpivot < jguess then quickSelect key fuel ids' left (jguess - 1) jpivot
      else some (ids', rpivot)
    else none

end Gandalf.QuickSelect
