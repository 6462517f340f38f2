import Verif.Common

/-!
# `VerifyUniqueIds` (src/Headers/InlineFuncs.h:509-541)

The `assert` is the same test as the `if` below it and is left out. `counter` is a function on the ids.
`Nrange` is taken non-negative (it is a number of particles).
-/

set_option autoImplicit false

namespace Gandalf.UniqueIds

/-- outcome of the counting loop: rejected, or the counters and the last value of the variable `i` -/
abbrev Count := Option ((ℤ → ℕ) × ℤ)

/-- counting loop, InlineFuncs.h:519-527; `i` starts as left by the loop at 517 -/
def count (Nrange : ℕ) : List ℤ → (ℤ → ℕ) × ℤ → Count
  | [], s => some s
  | v :: vs, s =>
    if ¬ (v ≥ 0 ∧ v < Nrange) then none
    else count Nrange vs (Function.update s.1 v (s.1 v + 1), v)

/-- checking loop, InlineFuncs.h:529-536: `N` turns, each looking at `counter[i]` -/
def check (c : ℤ → ℕ) (i : ℤ) : ℕ → Bool
  | 0 => true
  | n + 1 => if ¬ (c i = 0 ∨ c i = 1) then false else check c i n

/-- `VerifyUniqueIds`, InlineFuncs.h:513-541, on the first `N` values -/
def verifyUniqueIds (Nrange : ℕ) (values : List ℤ) : Bool :=
  match count Nrange values (fun _ => 0, Nrange) with
  | none => false
  | some s => check s.1 s.2 values.length

end Gandalf.UniqueIds
