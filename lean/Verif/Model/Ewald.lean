import Verif.Model.Vec
import Mathlib.Analysis.SpecialFunctions.Trigonometric.Basic
import Mathlib.Analysis.SpecialFunctions.Pow.Real
import Mathlib.Algebra.Order.Floor.Ring
import Mathlib.Data.Int.Interval

/-! # Periodic gravity (src/Common/Ewald.cpp)

Numbers are real. The order of the sums over images and wave numbers (Ewald.cpp:306-407) does not matter over the reals, so the
nested loops are finite sums. Except in three dimensions the class does nothing (59, 508). The functions `erf`, `erfc`
of the C library and the Bessel functions of GSL are parameters; `erfcx` is `exp(x² + log erfc x)` and so
`exp(x²) erfc(x)`. Left out: writing of the table to a file (429-448), the check for reflecting
boundaries (88-92), the refusal of `EFratio > 1.5` (142-146; a hypothesis where needed), the static variables kept for
debugging (518, 638-642). At least one direction is taken to be periodic: for `ewald_periodicity = 0` the code has `linv = 0`
and tables of another size, and the definitions below say nothing about it. -/

set_option autoImplicit false

namespace Gandalf.Ewald

/-- `erf`, `erfc` of the C library, `gsl_sf_bessel_J0`, `gsl_sf_bessel_J1` -/
structure Special where
  erf : ℝ → ℝ
  erfc : ℝ → ℝ
  J0 : ℝ → ℝ
  J1 : ℝ → ℝ

/-- the arguments of the constructor, Ewald.cpp:42-55; `per k` if both boundaries of direction `k` are periodic
(95-105), `L k` is `simbox.size[k]` -/
structure Cfg where
  per : Fin 3 → Bool
  L : Fin 3 → ℝ
  series : ℕ
  simpson : ℕ
  grid : ℕ
  mult : ℝ
  ixmin : ℝ
  ixmax : ℝ
  ratio : ℝ

/-- a point in space -/
abbrev P3 := Fin 3 → ℝ

section terms
variable (S : Special)

/-- `erfcx`, Ewald.cpp:672-681 -/
noncomputable def erfcx (x : ℝ) : ℝ := Real.exp (x ^ 2) * S.erfc x

/-- `SimpsonInt`, Ewald.cpp:689-718; `x0prev` after `i` rounds is `xmin + i·2dx` -/
noncomputable def simpsonInt (f : ℝ → ℝ) (xmin xmax : ℝ) (n : ℕ) : ℝ :=
  let dx := (xmax - xmin) / (2 * n)
  (∑ i ∈ Finset.range n, (f (xmin + i * (2 * dx)) + 4 * f (xmin + i * (2 * dx) + dx) +
    f (xmin + i * (2 * dx) + 2 * dx))) * dx / 3

/-- `GravInt2p1i`, Ewald.cpp:726-756 -/
noncomputable def gravInt (l1 l2 : ℤ) (z linv dzeta ratio_pinv ewc1 ewc2 : ℝ) : ℝ :=
  let a := 2 * Real.pi * z * linv
  if l1 ≠ 0 ∨ l2 ≠ 0 then
    let s2 := (l1 : ℝ) ^ 2 + (l2 * ratio_pinv) ^ 2
    let s := Real.sqrt s2
    let c := Real.exp (-a ^ 2 * ewc2 - dzeta * s2) * erfcx S (ewc1 * (dzeta * s + a / 2)) +
      Real.exp (-a * s) * S.erfc (ewc1 * (dzeta * s - a / 2))
    c * (1 / (2 * s))
  else
    -(a * S.erf (a / 2 * ewc1) + 2 * Real.sqrt (dzeta * (1 / Real.pi)) * Real.exp (-a ^ 2 * ewc2))

/-- `DerGravInt2p1i`, Ewald.cpp:764-783 -/
noncomputable def derGravInt (l1 l2 : ℤ) (z linv dzeta ratio_pinv ewc1 ewc2 : ℝ) : ℝ :=
  let a := 2 * Real.pi * z * linv
  let s2 := (l1 : ℝ) ^ 2 + (l2 * ratio_pinv) ^ 2
  let s := Real.sqrt s2
  erfcx S (ewc1 * (dzeta * s + a / 2)) * Real.exp (-a ^ 2 * ewc2 - dzeta * s2) -
    S.erfc (ewc1 * (dzeta * s - a / 2)) * Real.exp (-a * s)

/-- `IntFPot`, Ewald.cpp:792-811 -/
noncomputable def intFPot (l : ℤ) (dzeta eta x : ℝ) : ℝ :=
  if l = 0 then (S.J0 (x * eta) - 1) * Real.exp (-dzeta * x ^ 2) / x
  else S.J0 (x * eta) * Real.exp (-dzeta * x ^ 2) * x / ((l : ℝ) ^ 2 + x ^ 2)

/-- `IntFAcc`, Ewald.cpp:819-832 -/
noncomputable def intFAcc (l : ℤ) (dzeta eta x : ℝ) : ℝ :=
  S.J1 (x * eta) * Real.exp (-dzeta * x ^ 2) * x ^ 2 / ((l : ℝ) ^ 2 + x ^ 2)

/-- `AccShort`, Ewald.cpp:840-850 -/
noncomputable def accShort (alpha proj r : ℝ) : ℝ :=
  2 * alpha * proj * Real.exp (-r ^ 2 * alpha ^ 2) / (Real.sqrt Real.pi * r ^ 2) + proj * S.erfc (alpha * r) / r ^ 3

/-- `hypot` -/
noncomputable def hypot (y z : ℝ) : ℝ := Real.sqrt (y ^ 2 + z ^ 2)

/-- `PotLong1p2i`, Ewald.cpp:858-873 -/
noncomputable def potLong1 (c : Cfg) (l : ℤ) (dzeta linv x y z : ℝ) : ℝ :=
  let eta := 2 * Real.pi * linv * hypot y z
  2 * linv * Real.exp (-dzeta * (l : ℝ) ^ 2) * Real.cos (2 * Real.pi * l * x * linv) *
    simpsonInt (intFPot S l dzeta eta) c.ixmin c.ixmax c.simpson

/-- `AccLong1p2iPer`, Ewald.cpp:881-896 -/
noncomputable def accLong1Per (c : Cfg) (l : ℤ) (dzeta linv x y z : ℝ) : ℝ :=
  let eta := 2 * Real.pi * linv * hypot y z
  l * Real.exp (-dzeta * (l : ℝ) ^ 2) * Real.sin (2 * Real.pi * linv * l * x) *
    simpsonInt (intFPot S l dzeta eta) c.ixmin c.ixmax c.simpson

open Classical in
/-- `AccLong1p2iIso`, Ewald.cpp:904-924 -/
noncomputable def accLong1Iso (c : Cfg) (l : ℤ) (dzeta linv x y z : ℝ) : ℝ :=
  let eta := 2 * Real.pi * linv * hypot y z
  if eta ≠ 0 then
    y * Real.exp (-dzeta * (l : ℝ) ^ 2) * Real.cos (2 * Real.pi * linv * l * x) / hypot y z *
      simpsonInt (intFAcc S l dzeta eta) c.ixmin c.ixmax c.simpson
  else 0

/-- `PotLong2p1i`, Ewald.cpp:932-948 -/
noncomputable def potLong2 (dzeta linv ratio_pinv x y z : ℝ) (l1 l2 : ℤ) (ewc1 ewc2 : ℝ) : ℝ :=
  linv * ratio_pinv * Real.cos (linv * (2 * Real.pi) * (l1 * x + l2 * y * ratio_pinv)) *
    gravInt S l1 l2 z linv dzeta ratio_pinv ewc1 ewc2

/-- `AccLong2p1iPer`, Ewald.cpp:956-972 -/
noncomputable def accLong2Per (dzeta linv ratio_pinv x y z : ℝ) (l1 l2 : ℤ) (ewc1 ewc2 : ℝ) : ℝ :=
  2 * Real.pi * ratio_pinv * linv ^ 2 * Real.sin (linv * (2 * Real.pi) * (l1 * x + l2 * y * ratio_pinv)) *
    gravInt S l1 l2 z linv dzeta ratio_pinv ewc1 ewc2

/-- `AccLong2p1iIso`, Ewald.cpp:980-996 -/
noncomputable def accLong2Iso (dzeta linv ratio_pinv x y z : ℝ) (l1 l2 : ℤ) (ewc1 ewc2 : ℝ) : ℝ :=
  -Real.pi * linv ^ 2 * ratio_pinv * Real.cos (linv * (2 * Real.pi) * (l1 * x + l2 * y * ratio_pinv)) *
    derGravInt S l1 l2 z linv dzeta ratio_pinv ewc1 ewc2

/-- `AccLong3pPer`, Ewald.cpp:1004-1014 -/
noncomputable def accLong3 (l : ℤ) (linv_acc dzeta ewc3 ewc4 : ℝ) : ℝ :=
  l * linv_acc * Real.exp (-dzeta * ewc3) * Real.sin ewc4 / ewc3

end terms

/-- `ewald_periodicity`, Ewald.cpp:95-105 -/
def periodicity (c : Cfg) : ℕ :=
  (if c.per 0 then 1 else 0) + (if c.per 1 then 2 else 0) + (if c.per 2 then 4 else 0)

/-- the constants of the constructor -/
structure Consts where
  linv : ℝ
  ratio_p : ℝ
  nr : Fin 3 → ℤ
  nf : Fin 3 → ℤ
  cr : Fin 3 → ℝ
  cf : Fin 3 → ℝ

/-- `(int) (1 + n*x)`, Ewald.cpp:196, 198 and the like; the argument is positive, so the cast rounds down -/
noncomputable def ceil1 (n : ℕ) (x : ℝ) : ℤ := ⌊(1 : ℝ) + n * x⌋

/-- the `switch`, Ewald.cpp:118-133, 149-251: constants that steer the sums. In case 6 `cf3` is `1.0/cr1` (line 229). The last
case is 7. -/
noncomputable def consts (c : Cfg) : Consts :=
  let n : ℤ := c.series
  match periodicity c with
  | 1 => ⟨1 / c.L 0, 1e-20, ![n, 0, 0], ![n, 0, 0], ![1, 1, 1], ![1, 1, 1]⟩
  | 2 => ⟨1 / c.L 1, 1e-20, ![0, n, 0], ![0, n, 0], ![1, 1, 1], ![1, 1, 1]⟩
  | 4 => ⟨1 / c.L 2, 1e-20, ![0, 0, n], ![0, 0, n], ![1, 1, 1], ![1, 1, 1]⟩
  | 3 =>
    let q := c.L 1 / c.L 0
    ⟨1 / c.L 0, q, ![n, ceil1 c.series (1 / q), 0], ![n, ceil1 c.series q, 0], ![1, q ^ 2, 1], ![1, 1 / q ^ 2, 1]⟩
  | 5 =>
    let q := c.L 0 / c.L 2
    ⟨1 / c.L 2, q, ![ceil1 c.series (1 / q), 0, n], ![ceil1 c.series q, 0, n], ![q ^ 2, 1, 1], ![1 / q ^ 2, 1, 1]⟩
  | 6 =>
    let q := c.L 2 / c.L 1
    ⟨1 / c.L 1, q, ![0, n, ceil1 c.series (1 / q)], ![0, n, ceil1 c.series q], ![1, 1, q ^ 2], ![1, 1, 1 / 1]⟩
  | _ =>
    let q1 := c.L 1 / c.L 0
    let q2 := c.L 2 / c.L 0
    ⟨1 / c.L 0, 1e-20, ![n, ceil1 c.series (1 / q1), ceil1 c.series (1 / q2)],
      ![n, ceil1 c.series q1, ceil1 c.series q2], ![1, q1 ^ 2, q2 ^ 2], ![1, 1 / q1 ^ 2, 1 / q2 ^ 2]⟩

/-- `ewald_alpha`, Ewald.cpp:268 -/
noncomputable def alpha (c : Cfg) : ℝ := 2 * (consts c).linv * c.mult

/-- `ewald_dzeta`, Ewald.cpp:269 -/
noncomputable def dzeta (c : Cfg) : ℝ := Real.pi * Real.pi * (consts c).linv * (consts c).linv / (alpha c * alpha c)

/-- `ewc1`, Ewald.cpp:272 -/
noncomputable def ewc1 (c : Cfg) : ℝ := 1 / Real.sqrt (dzeta c)

/-- `ewc2`, Ewald.cpp:273 -/
noncomputable def ewc2 (c : Cfg) : ℝ := 1 / 4 / dzeta c

open Classical in
/-- the numbers a triple loop with the test of the ellipsoid goes through, Ewald.cpp:306-309, 328-331 -/
noncomputable def range3 (lim : Fin 3 → ℤ) (w : Fin 3 → ℝ) (n : ℕ) : Finset (ℤ × ℤ × ℤ) :=
  (Finset.Icc (-lim 0) (lim 0) ×ˢ (Finset.Icc (-lim 1) (lim 1) ×ˢ Finset.Icc (-lim 2) (lim 2))).filter fun h =>
    w 0 * h.1 * h.1 + w 1 * h.2.1 * h.2.1 + w 2 * h.2.2 * h.2.2 ≤ (n * n : ℕ)

/-- the images, Ewald.cpp:306-309 -/
noncomputable def images (c : Cfg) : Finset (ℤ × ℤ × ℤ) := range3 (consts c).nr (consts c).cr c.series

/-- the wave numbers, Ewald.cpp:328-331 -/
noncomputable def waves (c : Cfg) : Finset (ℤ × ℤ × ℤ) := range3 (consts c).nf (consts c).cf c.series

/-- potential and acceleration -/
structure PA where
  pot : ℝ
  acc : P3

/-- the body of the short-range loop, Ewald.cpp:310-322 -/
noncomputable def short (S : Special) (c : Cfg) (h : ℤ × ℤ × ℤ) (p : P3) : PA :=
  let rrel : P3 := ![p 0 + h.1 * c.L 0, p 1 + h.2.1 * c.L 1, p 2 + h.2.2 * c.L 2]
  let rni := Real.sqrt (rrel 0 ^ 2 + rrel 1 ^ 2 + rrel 2 ^ 2)
  ⟨S.erfc (alpha c * rni) / rni, fun j => accShort S (alpha c) (rrel j) rni⟩

/-- the body of the long-range loop, Ewald.cpp:332-403, with `linv_acc`, `linv2`, `ratio_pinv` (Ewald.cpp:254-267) -/
noncomputable def long (S : Special) (c : Cfg) (h : ℤ × ℤ × ℤ) (p : P3) : PA :=
  let k := consts c
  let d := dzeta c
  let x := p 0
  let y := p 1
  let z := p 2
  let rp := 1 / k.ratio_p
  match periodicity c with
  | 1 =>
    let la := Real.pi * (2 * k.linv) ^ 2
    ⟨potLong1 S c h.1 d k.linv x y z,
      ![la * accLong1Per S c h.1 d k.linv x y z, la * accLong1Iso S c h.1 d k.linv x y z,
        la * accLong1Iso S c h.1 d k.linv x z y]⟩
  | 2 =>
    let la := Real.pi * (2 * k.linv) ^ 2
    ⟨potLong1 S c h.2.1 d k.linv y x z,
      ![la * accLong1Iso S c h.2.1 d k.linv y x z, la * accLong1Per S c h.2.1 d k.linv y x z,
        la * accLong1Iso S c h.2.1 d k.linv y z x]⟩
  | 4 =>
    let la := Real.pi * (2 * k.linv) ^ 2
    ⟨potLong1 S c h.2.2 d k.linv z x y,
      ![la * accLong1Iso S c h.2.2 d k.linv z x y, la * accLong1Iso S c h.2.2 d k.linv z y x,
        la * accLong1Per S c h.2.2 d k.linv z x y]⟩
  | 3 =>
    ⟨potLong2 S d k.linv rp x y z h.1 h.2.1 (ewc1 c) (ewc2 c),
      ![h.1 * accLong2Per S d k.linv rp x y z h.1 h.2.1 (ewc1 c) (ewc2 c),
        h.2.1 * rp * accLong2Per S d k.linv rp x y z h.1 h.2.1 (ewc1 c) (ewc2 c),
        accLong2Iso S d k.linv rp x y z h.1 h.2.1 (ewc1 c) (ewc2 c)]⟩
  | 5 =>
    ⟨potLong2 S d k.linv rp z x y h.1 h.2.2 (ewc1 c) (ewc2 c),
      ![h.2.2 * rp * accLong2Per S d k.linv rp z x y h.1 h.2.2 (ewc1 c) (ewc2 c),
        accLong2Iso S d k.linv rp z x y h.1 h.2.2 (ewc1 c) (ewc2 c),
        h.1 * accLong2Per S d k.linv rp z x y h.1 h.2.2 (ewc1 c) (ewc2 c)]⟩
  | 6 =>
    ⟨potLong2 S d k.linv rp y z x h.2.2 h.2.1 (ewc1 c) (ewc2 c),
      ![accLong2Iso S d k.linv rp y z x h.2.2 h.2.1 (ewc1 c) (ewc2 c),
        h.2.2 * accLong2Per S d k.linv rp y z x h.2.2 h.2.1 (ewc1 c) (ewc2 c),
        h.2.1 * rp * accLong2Per S d k.linv rp y z x h.2.2 h.2.1 (ewc1 c) (ewc2 c)]⟩
  | 7 =>
    let i1 := 1 / (c.L 1 / c.L 0)
    let i2 := 1 / (c.L 2 / c.L 0)
    let linv2 := k.linv * i1 * i2 / Real.pi
    let la := 2 * k.linv ^ 2 * i1 * i2
    if (h.1 ^ 2 + h.2.1 ^ 2 + h.2.2 ^ 2 : ℤ) > 0 then
      let ewc3 := (h.1 : ℝ) ^ 2 + (h.2.1 * i1) ^ 2 + (h.2.2 * i2) ^ 2
      let ewc4 := 2 * Real.pi * k.linv * (h.1 * x + h.2.1 * y * i1 + h.2.2 * z * i2)
      ⟨linv2 * Real.exp (-d * ewc3) * Real.cos ewc4 / ewc3,
        ![accLong3 h.1 la d ewc3 ewc4, i1 * accLong3 h.2.1 la d ewc3 ewc4, i2 * accLong3 h.2.2 la d ewc3 ewc4]⟩
    else ⟨0, 0⟩
  | _ => ⟨0, 0⟩

/-- the value tabulated for the point `p`, Ewald.cpp:305-416: the sums minus the term `1/r` -/
noncomputable def field (S : Special) (c : Cfg) (p : P3) : PA :=
  let rni := Real.sqrt (p 0 ^ 2 + p 1 ^ 2 + p 2 ^ 2)
  ⟨∑ h ∈ images c, (short S c h p).pot + ∑ h ∈ waves c, (long S c h p).pot - 1 / rni,
    fun j => ∑ h ∈ images c, (short S c h p).acc j + ∑ h ∈ waves c, (long S c h p).acc j - p j / rni ^ 3⟩

/-- `Ncells`, Ewald.cpp:138 and, in the open directions, 161-162, 174-175, 187-188, 203, 217, 231 -/
def Ncells (c : Cfg) (k : Fin 3) : ℕ := if c.per k then c.grid - 1 else 4 * (c.grid - 2) + 1

/-- the periodic direction whose length sets the table in the open ones, Ewald.cpp:159, 172, 185, 202, 216, 230 -/
def lead (c : Cfg) : Fin 3 :=
  match periodicity c with
  | 1 => 0 | 2 => 1 | 4 => 2 | 3 => 0 | 5 => 2 | 6 => 1 | _ => 0

/-- `Lewald`, Ewald.cpp:137 and, in the open directions, 159-160, 172-173, 185-186, 202, 216, 230; `half` is half of the size -/
noncomputable def Lewald (c : Cfg) (k : Fin 3) : ℝ :=
  if c.per k then c.ratio * (1 / 2 * c.L k) else 4 * (1 / 2 * c.L (lead c))

/-- `Ngrid`, Ewald.cpp:278 -/
def Ngrid (c : Cfg) (k : Fin 3) : ℕ := Ncells c k + 1

/-- `dI`, Ewald.cpp:277 -/
noncomputable def dI (c : Cfg) (k : Fin 3) : ℝ := ((Ncells c k : ℝ) - 1) / Lewald c k

/-- the point of the table with given indices, Ewald.cpp:301-303 -/
noncomputable def node (c : Cfg) (i : Fin 3 → ℕ) : P3 := fun k => i k * Lewald c k / ((Ncells c k : ℝ) - 1)

/-- position in the table, Ewald.cpp:296 -/
def index (c : Cfg) (i : Fin 3 → ℕ) : ℕ := i 2 * Ngrid c 1 * Ngrid c 0 + i 1 * Ngrid c 0 + i 0

/-- `one_component`, Ewald.cpp:280 -/
def size (c : Cfg) : ℕ := Ngrid c 0 * Ngrid c 1 * Ngrid c 2

/-- the finished table `ewald_field`: component 0 is the potential, 1-3 the acceleration; the origin is set to zero
(Ewald.cpp:283-288, 296, 421-425). Closed form of the array the loops fill; see `C64_table`. -/
noncomputable def table (S : Special) (c : Cfg) (q : ℕ) : ℝ :=
  let comp := q / size c
  let e := q % size c
  if e = 0 then 0
  else
    let i : Fin 3 → ℕ := ![e % Ngrid c 0, e / Ngrid c 0 % Ngrid c 1, e / (Ngrid c 0 * Ngrid c 1)]
    let v := field S c (node c i)
    if comp = 0 then v.pot else if comp = 1 then v.acc 0 else if comp = 2 then v.acc 1 else v.acc 2

/-- `potC1p2i`, Ewald.cpp:450-471 -/
noncomputable def potC (c : Cfg) (tab : ℕ → ℝ) : ℝ :=
  match periodicity c with
  | 1 => -(2 * (consts c).linv * Real.log (2 * c.L 0) + tab (Ngrid c 0 * (Ngrid c 1 - 2)) + 1 / 2 / c.L 0)
  | 2 => -(2 * (consts c).linv * Real.log (2 * c.L 1) + tab (Ngrid c 0 - 2) + 1 / 2 / c.L 1)
  | 4 => -(2 * (consts c).linv * Real.log (2 * c.L 2) + tab (Ngrid c 0 - 2) + 1 / 2 / c.L 2)
  | _ => 0

/-- `accPlane`, Ewald.cpp:259 -/
noncomputable def accPlane (c : Cfg) : ℝ := 2 * Real.pi * (consts c).linv ^ 2 / (consts c).ratio_p

open Classical in
/-- `sgn`, InlineFuncs.h:122-126 -/
noncomputable def sgn (x : ℝ) : ℝ := (if 0 < x then 1 else 0) - (if x < 0 then 1 else 0)

/-- the analytical formulas far away in open directions, Ewald.cpp:575-619, without the mass -/
noncomputable def far (c : Cfg) (tab : ℕ → ℝ) (dr : P3) : PA :=
  let inv := 1 / Real.sqrt (dr 0 ^ 2 + dr 1 ^ 2 + dr 2 ^ 2)
  match periodicity c with
  | 1 =>
    let q := dr 1 ^ 2 + dr 2 ^ 2
    let d := 2 / (c.L 0 * q)
    ⟨-(Real.log q / c.L 0 + potC c tab + inv),
      ![-(dr 0 * inv ^ 3), dr 1 * d - dr 1 * inv ^ 3, dr 2 * d - dr 2 * inv ^ 3]⟩
  | 2 =>
    let q := dr 0 ^ 2 + dr 2 ^ 2
    let d := 2 / (c.L 1 * q)
    ⟨-(Real.log q / c.L 1 + potC c tab + inv),
      ![dr 0 * d - dr 0 * inv ^ 3, -(dr 1 * inv ^ 3), dr 2 * d - dr 2 * inv ^ 3]⟩
  | 4 =>
    let q := dr 0 ^ 2 + dr 1 ^ 2
    let d := 2 / (c.L 2 * q)
    ⟨-(Real.log q / c.L 2 + potC c tab + inv),
      ![dr 0 * d - dr 0 * inv ^ 3, dr 1 * d - dr 1 * inv ^ 3, -(dr 2 * inv ^ 3)]⟩
  | 3 =>
    ⟨-(|dr 2| * accPlane c + inv),
      ![-(dr 0 * inv ^ 3), -(dr 1 * inv ^ 3), accPlane c * sgn (dr 2) - inv ^ 3 * dr 2]⟩
  | 5 =>
    ⟨-(|dr 1| * accPlane c + inv),
      ![-(dr 0 * inv ^ 3), accPlane c * sgn (dr 1) - inv ^ 3 * dr 1, -(dr 2 * inv ^ 3)]⟩
  | 6 =>
    ⟨-(|dr 0| * accPlane c + inv),
      ![accPlane c * sgn (dr 0) - inv ^ 3 * dr 0, -(dr 1 * inv ^ 3), -(dr 2 * inv ^ 3)]⟩
  | _ => ⟨0, 0⟩

/-- the plain force the callers add, as the code writes it with `small_number` = 1e-20, Ewald.cpp:528-532 -/
noncomputable def plain (m : ℝ) (dr : P3) : PA :=
  let inv := 1 / Real.sqrt (dr 0 * dr 0 + dr 1 * dr 1 + dr 2 * dr 2 + 1e-20)
  ⟨m * inv, fun k => m * dr k * (inv * inv * inv)⟩

open Classical in
/-- one component of the wrapping, Ewald.cpp:535-541 -/
noncomputable def wrap1 (L x : ℝ) : ℝ :=
  if x > 1 / 2 * L then x - 2 * (1 / 2 * L) else if x < -(1 / 2 * L) then x + 2 * (1 / 2 * L) else x

open Classical in
/-- the first part of `CalculatePeriodicCorrection`, Ewald.cpp:521-549: the new vector and what it adds -/
noncomputable def wrapStep (c : Cfg) (m : ℝ) (dr : P3) : P3 × PA :=
  if |dr 0| > 1 / 2 * c.L 0 ∨ |dr 1| > 1 / 2 * c.L 1 ∨ |dr 2| > 1 / 2 * c.L 2 then
    let dr' : P3 := fun k => wrap1 (c.L k) (dr k)
    (dr', ⟨0 - (plain m dr).pot + (plain m dr').pot, fun k => 0 - (plain m dr).acc k + (plain m dr').acc k⟩)
  else (dr, ⟨0, 0⟩)

/-- `il`, Ewald.cpp:553-554 -/
noncomputable def il (c : Cfg) (dr : P3) (k : Fin 3) : ℕ := ⌊dI c k * |dr k|⌋₊

/-- `a`, Ewald.cpp:556 -/
noncomputable def frac (c : Cfg) (dr : P3) (k : Fin 3) : ℝ := dI c k * |dr k| - il c dr k

/-- the weighted sum over the eight corners, Ewald.cpp:626-633, 645-651, `base` is `indexBase0 + k*one_component` -/
noncomputable def interpolate (c : Cfg) (tab : ℕ → ℝ) (a : Fin 3 → ℝ) (base : ℕ) : ℝ :=
  let n0 := Ngrid c 0
  let up := base + Ngrid c 0 * Ngrid c 1
  (1 - a 2) * (1 - a 1) * (1 - a 0) * tab base + (1 - a 2) * (1 - a 1) * a 0 * tab (base + 1) +
  (1 - a 2) * a 1 * (1 - a 0) * tab (base + n0) + (1 - a 2) * a 1 * a 0 * tab (base + n0 + 1) +
  a 2 * (1 - a 1) * (1 - a 0) * tab up + a 2 * (1 - a 1) * a 0 * tab (up + 1) +
  a 2 * a 1 * (1 - a 0) * tab (up + n0) + a 2 * a 1 * a 0 * tab (up + n0 + 1)

/-- the highest position read by `interpolate` for the last component, Ewald.cpp:651 with `k = 3` -/
def lastRead (c : Cfg) (base : ℕ) : ℕ := base + 3 * size c + Ngrid c 0 * Ngrid c 1 + Ngrid c 0 + 1

/-- `indexBase0`, Ewald.cpp:635 -/
noncomputable def base0 (c : Cfg) (dr : P3) : ℕ :=
  il c dr 0 + il c dr 1 * Ngrid c 0 + il c dr 2 * Ngrid c 0 * Ngrid c 1

/-- the reading of the table, Ewald.cpp:625-657, without the mass. The potential is not interpolated (line 654). -/
noncomputable def lookup (c : Cfg) (tab : ℕ → ℝ) (dr : P3) : PA :=
  ⟨tab (base0 c dr), fun k =>
    interpolate c tab (frac c dr) (base0 c dr + (k.val + 1) * size c) * sgn (dr k)⟩

open Classical in
/-- `CalculatePeriodicCorrection`, Ewald.cpp:499-663: `gpotcorr` and `acorr` -/
noncomputable def correction (c : Cfg) (tab : ℕ → ℝ) (m : ℝ) (dr0 : P3) : PA :=
  let w := wrapStep c m dr0
  let dr := w.1
  let v := if periodicity c ≠ 7 ∧ max (max (il c dr 0 + 1) (il c dr 1 + 1)) (il c dr 2 + 1) > 4 * c.grid - 7 then
      far c tab dr
    else lookup c tab dr
  ⟨w.2.pot + m * v.pot, fun k => w.2.acc k + m * v.acc k⟩

end Gandalf.Ewald
