import Verif.Common

/-!
# Generic skip-pointer tree walk

All walks of src/Tree/Tree.cpp have the shape

```
cc = 0;
while (cc < Ncell) {
  … look at celldata[cc], possibly append to result lists, possibly `return -1` …
  if (open)  cc = celldata[cc].copen;
  else       cc = celldata[cc].cnext;
}
```
(Tree.cpp:225-279, 310-380, 414-551, 580-616, 660-733, 780-883, 1181-1310, 1410-1478, 1507-1547,
1574-1606, 1634-1676, 1699-1729).  `walk` is that loop, parametrised by the loop body.
-/

set_option autoImplicit false

namespace Gandalf.Walk

/-- The two links of each cell; `none` is `-1`. -/
structure Links where
  copen : ℕ → Option ℕ
  cnext : ℕ → Option ℕ

/-- Outcome of one loop body: abort with `-1`, or go on with new state, opening the cell or not. -/
inductive Act (σ : Type*) where
  | abort : Act σ
  | open_ : σ → Act σ
  | next : σ → Act σ

/-- Outcome of a walk. `stuck`: fuel exhausted or a `-1` link followed. -/
inductive Res (σ : Type*) where
  | stuck : Res σ
  | fail : Res σ
  | done : σ → Res σ

/-- The `while (cc < Ncell)` loop. -/
def walk {σ : Type*} (L : Links) (Ncell : ℕ) (body : ℕ → σ → Act σ) :
    (fuel : ℕ) → (cc : ℕ) → σ → Res σ
  | fuel, cc, s =>
    if cc < Ncell then
      match fuel with
      | 0 => .stuck
      | fuel + 1 =>
        match body cc s with
        | .abort => .fail
        | .open_ s' =>
          match L.copen cc with
          | some c' => walk L Ncell body fuel c' s'
          | none => .stuck
        | .next s' =>
          match L.cnext cc with
          | some c' => walk L Ncell body fuel c' s'
          | none => .stuck
    else .done s

end Gandalf.Walk
