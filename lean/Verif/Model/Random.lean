import Verif.Common
import Mathlib.Analysis.SpecialFunctions.Log.Basic
import Mathlib.Analysis.SpecialFunctions.Trigonometric.Basic

/-!
# `XorshiftRand` (src/Headers/RandomNumber.h:62-129, src/Common/RandomNumber.cpp:25)

`unsigned long int` is 64 bits wide (the platform the code is written for; the comments speak of
modulo 2^64). Real variates are exact quotients: the rounding of the conversion and of the product is
outside the model.
-/

set_option autoImplicit false

namespace Gandalf.Xorshift

/-- RandomNumber.h:78 -/
def a1 : ℕ := 21
/-- RandomNumber.h:79 -/
def a2 : ℕ := 35
/-- RandomNumber.h:80 -/
def a3 : ℕ := 4
/-- RandomNumber.h:81 -/
def amod : BitVec 64 := 4768777513237032717#64

/-- state update of `xorshiftrand`, RandomNumber.h:100-102 -/
def next (x : BitVec 64) : BitVec 64 :=
  let x := x ^^^ (x >>> a1)
  let x := x ^^^ (x <<< a2)
  x ^^^ (x >>> a3)

/-- `xorshiftrand`: new state and returned integer, RandomNumber.h:98-104 -/
def xorshiftrand (x : BitVec 64) : BitVec 64 × BitVec 64 :=
  let x := next x
  (x, x * amod)

/-- constructor, RandomNumber.h:91-94: ten draws from the seed -/
def init (seed : BitVec 64) : BitVec 64 :=
  (List.range 10).foldl (fun x _ => (xorshiftrand x).1) seed

/-- state after `n` draws and the list of integers returned, oldest first -/
def draws : ℕ → BitVec 64 → BitVec 64 × List (BitVec 64)
  | 0, x => (x, [])
  | n + 1, x =>
    let p := xorshiftrand x
    let q := draws n p.1
    (q.1, p.2 :: q.2)

/-- `invrandmax`, RandomNumber.cpp:25 -/
def invrandmax : ℚ := 1 / 18446744073709500000

/-- `floatrand`/`doublerand`, RandomNumber.h:108 -/
def floatrand (x : BitVec 64) : BitVec 64 × ℚ :=
  let p := xorshiftrand x
  (p.1, invrandmax * (p.2.toNat : ℚ))

/-- `gaussrand`, RandomNumber.h:111-120, with the `while` loop cut after `fuel` turns (`none`: still
running). Second component: `none` stands for the not-a-number of `sqrt` of a negative argument. -/
noncomputable def gaussrand (_mean _sigma : ℝ) : ℕ → BitVec 64 → Option (BitVec 64 × Option ℝ)
  | 0, _ => none
  | fuel + 1, x =>
    let u := floatrand x
    let v := floatrand u.1
    if u.2 = 0 then gaussrand _mean _sigma fuel v.1
    else
      let arg := -2 * Real.log (u.2 : ℝ)
      some (v.1, if arg < 0 then none else some (Real.sqrt arg * Real.cos (2 * Real.pi * (v.2 : ℝ))))

end Gandalf.Xorshift
