import Mathlib.Analysis.SpecialFunctions.Log.Base
import Mathlib.Analysis.SpecialFunctions.Pow.Real
import Mathlib.Analysis.SpecialFunctions.Exp

/-!
# Model of the radiative cooling scheme

Sources: `Headers/InlineFuncs.h:650-678` (`getClosest`), `Headers/OpacityTable.h:79-194`, `Common/OpacityTable.cpp:176-214`,
`Hydrodynamics/EnergyRadws.cpp:107-193, 347-718`, `Thermal/RadwsEOS.cpp:57-125`. Numbers are real; a read outside an array
is the outcome `none`. The second opacity returned by `GetKappa` (`kappar`) is never used and left out.
-/

set_option autoImplicit false

namespace Gandalf

namespace Radws

open Real

/-! ### tables -/

/-- `std::lower_bound` on `a[first], …, a[first+len-1]`, called at InlineFuncs.h:656: halving as in the library -/
noncomputable def lowerBound (a : ℕ → ℝ) (v : ℝ) (first len : ℕ) : ℕ :=
  if len = 0 then first
  else if a (first + len / 2) < v then lowerBound a v (first + len / 2 + 1) (len - len / 2 - 1)
  else lowerBound a v first (len / 2)
termination_by len
decreasing_by all_goals omega

/-- `getClosestIndex`, InlineFuncs.h:650-678 -/
noncomputable def closest (a : ℕ → ℝ) (n : ℕ) (v : ℝ) : ℕ :=
  let b := lowerBound a v 0 n
  if b = 0 then 0
  else if b = n then n - 1
  else if a b - v < v - a (b - 1) then b else b - 1

/-- the table, OpacityTable.h:60-71; `dens` and `temp` hold decimal logarithms (OpacityTable.cpp:120, 127) -/
structure Table where
  ndens : ℕ
  ntemp : ℕ
  dens : ℕ → ℝ
  temp : ℕ → ℝ
  energy : ℕ → ℕ → ℝ
  mu : ℕ → ℕ → ℝ
  kappa : ℕ → ℕ → ℝ
  kappap : ℕ → ℕ → ℝ
  gamma : ℕ → ℕ → ℝ
  gamma1 : ℕ → ℕ → ℝ

/-- `GetIDens`, OpacityTable.h:79-84 -/
noncomputable def Table.iDens (t : Table) (x : ℝ) : ℕ := closest t.dens t.ndens x

/-- `GetITemp`, OpacityTable.h:92-97 -/
noncomputable def Table.iTemp (t : Table) (x : ℝ) : ℕ := closest t.temp t.ntemp x

/-- `GetIEner` for a given density, OpacityTable.h:112-117 -/
noncomputable def Table.iEner (t : Table) (u : ℝ) (idens : ℕ) : ℕ := closest (t.energy idens) t.ntemp u

/-- `pow(10.0, table->eos_temp[i])`, as at EnergyRadws.cpp:446-449 -/
noncomputable def Table.T (t : Table) (i : ℕ) : ℝ := (10 : ℝ) ^ t.temp i

/-- `GetGamma`, OpacityTable.h:170-177 -/
noncomputable def Table.getGamma (t : Table) (rho u : ℝ) : ℝ := t.gamma (t.iDens rho) (t.iEner u (t.iDens rho))

/-- `GetMuBar`, OpacityTable.h:155-162 -/
noncomputable def Table.getMu (t : Table) (rho u : ℝ) : ℝ := t.mu (t.iDens rho) (t.iEner u (t.iDens rho))

/-- `Pressure`, RadwsEOS.cpp:58-62 -/
noncomputable def Table.pressure (t : Table) (rho u : ℝ) : ℝ := (t.getGamma rho u - 1) * rho * u

/-- `Temperature`, RadwsEOS.cpp:111-116 -/
noncomputable def Table.temperature (t : Table) (rho u : ℝ) : ℝ := (t.getGamma rho u - 1) * u * t.getMu rho u

/-- pressure of an entry, OpacityTable.cpp:189, 197 -/
noncomputable def Table.entry (t : Table) (i : ℕ) (rho : ℝ) (c : ℕ) : ℝ := (t.gamma i c - 1) * rho * t.energy i c

/-- the binary search, OpacityTable.cpp:194-203 -/
noncomputable def bisectIdx (f : ℕ → ℝ) (P : ℝ) (l u : ℕ) : ℕ :=
  if l + 1 < u then
    if f ((l + u) / 2) > P then bisectIdx f P l ((l + u) / 2) else bisectIdx f P ((l + u) / 2) u
  else l
termination_by u - l
decreasing_by all_goals omega

/-- `GetEnergyFromPressure`, OpacityTable.cpp:176-214 -/
noncomputable def Table.energyFromPressure (t : Table) (rho P : ℝ) : ℝ :=
  let i := t.iDens rho
  if t.entry i rho (t.ntemp - 1) < P then P / (rho * (t.gamma i (t.ntemp - 1) - 1))
  else if t.entry i rho 0 > P then P / (rho * (t.gamma i 0 - 1))
  else
    let l := bisectIdx (t.entry i rho) P 0 (t.ntemp - 1)
    let l' := if t.entry i rho (l + 1) - P < P - t.entry i rho l then l + 1 else l
    P / (rho * (t.gamma i l' - 1))

/-! ### the equilibrium temperature -/

/-- what does not change in a search: constant of radiation, ambient temperature, column density, heating by the flow,
lowest temperature -/
structure Env where
  rad : ℝ
  tamb : ℝ
  col2 : ℝ
  dudt : ℝ
  tmin : ℝ

/-- `ebalance`, EnergyRadws.cpp:709-718 -/
noncomputable def ebal (E : Env) (x T kappa kappap : ℝ) : ℝ :=
  x - 4 * E.rad * (T ^ 4 - E.tamb ^ 4) / (E.col2 * kappa + 1 / kappap)

/-- the two ends between which the equilibrium is sought -/
structure Br where
  Tl : ℝ
  Th : ℝ
  kl : ℝ
  kh : ℝ
  kpl : ℝ
  kph : ℝ
  bl : ℝ
  bh : ℝ

/-- the search towards lower entries, EnergyRadws.cpp:459-472; the first argument is `itemplow`; below entry 0 the read is
outside the table. Returns the ends and `itemplow` -/
noncomputable def down (t : Table) (i : ℕ) (E : Env) : ℕ → Br → Option (Br × ℕ)
  | 0, B => if B.bl * B.bh > 0 then none else some (B, 0)
  | il + 1, B =>
    if B.bl * B.bh > 0 then
      down t i E il
        { Tl := t.T il, Th := B.Tl, kl := t.kappa i il, kh := B.kl, kpl := t.kappap i il, kph := B.kpl
          bl := ebal E E.dudt (t.T il) (t.kappa i il) (t.kappap i il), bh := B.bl }
    else some (B, il + 1)

/-- the search towards higher entries, EnergyRadws.cpp:489-502; the first argument is the number of entries above
`itemphigh`, the second `itemphigh`. Returns the ends and `itemphigh` -/
noncomputable def up (t : Table) (i : ℕ) (E : Env) : ℕ → ℕ → Br → Option (Br × ℕ)
  | 0, ih, B => if B.bl * B.bh > 0 then none else some (B, ih)
  | k + 1, ih, B =>
    if B.bl * B.bh > 0 then
      up t i E k (ih + 1)
        { Tl := B.Th, Th := t.T (ih + 1), kl := B.kh, kh := t.kappa i (ih + 1), kpl := B.kph, kph := t.kappap i (ih + 1)
          bl := B.bh, bh := ebal E E.dudt (t.T (ih + 1)) (t.kappa i (ih + 1)) (t.kappap i (ih + 1)) }
    else some (B, ih)

/-- the first ends for a particle that cools, EnergyRadws.cpp:446-457 (the opacity of the upper end is that of entry `c`) -/
noncomputable def coolStart (t : Table) (i : ℕ) (E : Env) (c : ℕ) : Br :=
  { Tl := t.T (c - 1), Th := t.T (c + 1), kl := t.kappa i (c - 1), kh := t.kappa i c
    kpl := t.kappap i (c - 1), kph := t.kappap i c
    bl := ebal E E.dudt (t.T (c - 1)) (t.kappa i (c - 1)) (t.kappap i (c - 1))
    bh := ebal E E.dudt (t.T (c + 1)) (t.kappa i c) (t.kappap i c) }

/-- the first ends for a particle that is heated, EnergyRadws.cpp:476-487 (the opacity of the lower end is that of entry `c`) -/
noncomputable def heatStart (t : Table) (i : ℕ) (E : Env) (c : ℕ) : Br :=
  { Tl := t.T (c - 1), Th := t.T (c + 1), kl := t.kappa i c, kh := t.kappa i (c + 1)
    kpl := t.kappap i c, kph := t.kappap i (c + 1)
    bl := ebal E E.dudt (t.T (c - 1)) (t.kappa i c) (t.kappap i c)
    bh := ebal E E.dudt (t.T (c + 1)) (t.kappa i (c + 1)) (t.kappap i (c + 1)) }

/-- one turn of the refinement, EnergyRadws.cpp:513-537: the middle either is the answer (`Sum.inl`) or a new end; `k`, `kp`
are `kappa`, `kappap`, and `tk`, `tkp` the opacities of entry `itemplow` -/
noncomputable def halve (E : Env) (tk tkp : ℝ) (B : Br) (k kp : ℝ) : Option (Br × ℝ × ℝ) :=
  let Tc := (B.Tl + B.Th) / 2
  let b := ebal E E.dudt Tc k kp
  if b = 0 then none
  else if B.bl * b < 0 then
    some ({ Tl := B.Tl, Th := Tc, kl := tk, kh := k, kpl := tkp, kph := kp, bl := B.bl, bh := b }, (k + tk) / 2, (kp + tkp) / 2)
  else
    some ({ Tl := Tc, Th := B.Th, kl := k, kh := B.kh, kpl := kp, kph := B.kph, bl := b, bh := B.bh },
      (B.kh + k) / 2, (B.kph + kp) / 2)

/-- the refinement, EnergyRadws.cpp:507-540, for at most `fuel` turns (`none`: still running) -/
noncomputable def refine (E : Env) (tk tkp : ℝ) : ℕ → Br → ℝ → ℝ → Option ℝ
  | 0, _, _, _ => none
  | fuel + 1, B, k, kp =>
    if B.Th - B.Tl ≠ 0 ∧ |2 * (B.Th - B.Tl) / (B.Th + B.Tl)| > 1 / 1000 then
      match halve E tk tkp B k kp with
      | none => some ((B.Tl + B.Th) / 2)
      | some (B', k', kp') => refine E tk tkp fuel B' k' kp'
    else some (max ((B.Tl + B.Th) / 2) E.tamb)

/-- outcome of `EnergyFindEquiTemp` -/
inductive Out where
  | outside
  | running
  | found (T : ℝ)

/-- the end of a search, EnergyRadws.cpp:474, 504-540 -/
noncomputable def ended (t : Table) (i : ℕ) (E : Env) (fuel : ℕ) (k kp : ℝ) (il : ℕ) (B : Br) : Out :=
  match refine E (t.kappa i il) (t.kappap i il) fuel B k kp with
  | none => .running
  | some T => .found T

/-- the two searches of `EnergyFindEquiTemp`, EnergyRadws.cpp:440-505 -/
noncomputable def searched (t : Table) (i : ℕ) (E : Env) (cool : Bool) (c : ℕ) : Option (Br × ℕ) :=
  if c = 0 ∨ c + 1 ≥ t.ntemp then none
  else if cool then down t i E (c - 1) (coolStart t i E c)
  else (up t i E (t.ntemp - 1 - (c + 1)) (c + 1) (heatStart t i E c)).map fun x => (x.1, x.2 - 1)

/-- `EnergyFindEquiTemp`, EnergyRadws.cpp:402-543, for a particle of temperature `temp` -/
noncomputable def equiTemp (t : Table) (i : ℕ) (E : Env) (fuel : ℕ) (temp : ℝ) : Out :=
  let p := t.iTemp (logb 10 temp)
  let k := t.kappa i p
  let kp := t.kappap i p
  let c := t.iTemp (logb 10 E.tmin)
  let balance := ebal E 0 temp k kp
  let minbalance := ebal E 0 E.tmin (t.kappa i c) (t.kappap i c)
  if E.dudt ≤ -balance ∧ E.dudt ≤ -minbalance then .found E.tmin
  else
    match searched t i E (decide (E.dudt ≤ -balance)) c with
    | none => .outside
    | some (B, il) => ended t i E fuel k kp il B

/-- the thermal time, EnergyRadws.cpp:383-391, from the equilibrium temperature -/
noncomputable def thermal (t : Table) (i : ℕ) (E : Env) (temp u Teq : ℝ) : ℝ × ℝ :=
  let p := t.iTemp (logb 10 temp)
  let q := t.iTemp (logb 10 Teq)
  let rate := ebal E 0 temp (t.kappa i p) (t.kappap i p)
  let ueq := t.energy i q
  (ueq, if ebal E 0 Teq (t.kappa i q) (t.kappap i q) = rate then 10 ^ 30 else (ueq - u) / (E.dudt + rate))

/-- `EnergyIntegration` for SPH, EnergyRadws.cpp:129-140; `small` is `small_number` -/
noncomputable def integrate (small u0 ueq tau dt : ℝ) : ℝ :=
  if tau ≤ small then u0
  else if dt < 40 * tau then u0 * exp (-dt / tau) + ueq * (1 - exp (-dt / tau))
  else ueq

/-! ### the implicit update of the meshless schemes -/

/-- ends with the properties of the gas there -/
structure Gas where
  T : ℝ
  k : ℝ
  kp : ℝ
  g : ℝ
  mu : ℝ

/-- an entry of the table, EnergyRadws.cpp:586-592, 595, 600 -/
noncomputable def Table.gas (t : Table) (i c : ℕ) : Gas := ⟨t.T c, t.kappa i c, t.kappap i c, t.gamma i c, t.mu i c⟩

/-- heating at an end, EnergyRadws.cpp:596, 601 -/
noncomputable def Gas.heating (E : Env) (x : Gas) : ℝ := ebal E E.dudt x.T x.k x.kp

/-- `balanceLow`, `balanceHigh`, EnergyRadws.cpp:598, 603 -/
noncomputable def Gas.balance (E : Env) (u dt : ℝ) (x : Gas) : ℝ := x.T / (x.mu * (x.g - 1)) - u - x.heating E * dt

/-- search towards higher entries, EnergyRadws.cpp:608-629; `c` is `itemp`, the first argument the number of entries above
`itemp + 1` -/
noncomputable def implUp (t : Table) (i : ℕ) (E : Env) (u dt : ℝ) : ℕ → ℕ → Option (Gas × Gas)
  | 0, c => if (t.gas i c).balance E u dt * (t.gas i (c + 1)).balance E u dt > 0 then none else some (t.gas i c, t.gas i (c + 1))
  | k + 1, c =>
    if (t.gas i c).balance E u dt * (t.gas i (c + 1)).balance E u dt > 0 then implUp t i E u dt k (c + 1)
    else some (t.gas i c, t.gas i (c + 1))

/-- search towards lower entries, EnergyRadws.cpp:632-660; below entry 0 the lower end is temperature 0 with the properties
of entry 0 -/
noncomputable def implDown (t : Table) (i : ℕ) (E : Env) (u dt : ℝ) : ℕ → Gas × Gas
  | 0 => if (t.gas i 0).balance E u dt * (t.gas i 1).balance E u dt > 0 then ({ t.gas i 0 with T := 0 }, t.gas i 0)
    else (t.gas i 0, t.gas i 1)
  | c + 1 =>
    if (t.gas i (c + 1)).balance E u dt * (t.gas i (c + 2)).balance E u dt > 0 then implDown t i E u dt c
    else (t.gas i (c + 1), t.gas i (c + 2))

/-- the gas at `Tc` between two ends, EnergyRadws.cpp:669-679 -/
noncomputable def between (lo hi : Gas) (Tc : ℝ) : Gas :=
  let f := (hi.T - Tc) / (hi.T - lo.T)
  ⟨Tc, f * hi.k + (1 - f) * lo.k, f * hi.kp + (1 - f) * lo.kp, f * hi.g + (1 - f) * lo.g, f * hi.mu + (1 - f) * lo.mu⟩

/-- the refinement, EnergyRadws.cpp:670-697, for at most `fuel` turns; returns the last middle; `bl` is `balanceLow`, `tol`
is `tolerance` -/
noncomputable def implRefine (E : Env) (u dt tol : ℝ) (lo hi : Gas) : ℕ → ℝ → ℝ → ℝ → Option Gas
  | 0, _, _, _ => none
  | fuel + 1, Tl, Th, bl =>
    let x := between lo hi ((Tl + Th) / 2)
    let b := x.balance E u dt
    if b = 0 then some x
    else
      let Tl' := if b * bl < 0 then Tl else x.T
      let Th' := if b * bl < 0 then x.T else Th
      let bl' := if b * bl < 0 then bl else b
      if |b| > tol * (x.T / (x.mu * (x.g - 1))) ∧ Th' - Tl' > tol * Tl' then implRefine E u dt tol lo hi fuel Tl' Th' bl'
      else some x

/-- outcome of `ImplicitEnergyUpdate` -/
inductive ImplOut where
  | outside
  | running
  | heating (x : ℝ)

/-- the two ends, EnergyRadws.cpp:606-661 -/
noncomputable def implEnds (t : Table) (i : ℕ) (E : Env) (u dt : ℝ) (c : ℕ) : Option (Gas × Gas) :=
  if (t.gas i c).balance E u dt < 0 then implUp t i E u dt (t.ntemp - 1 - (c + 1)) c else some (implDown t i E u dt c)

/-- `ImplicitEnergyUpdate`, EnergyRadws.cpp:550-701 -/
noncomputable def implicit (t : Table) (E : Env) (fuel : ℕ) (tol rho u temp dt : ℝ) : ImplOut :=
  let i := t.iDens rho
  let c := t.iTemp (logb 10 temp)
  let h := ebal E E.dudt temp (t.kappa i c) (t.kappap i c)
  if |h * dt| < tol * u then .heating h
  else if c + 1 ≥ t.ntemp then .outside
  else
    match implEnds t i E u dt c with
    | none => .outside
    | some (lo, hi) =>
      match implRefine E u dt tol lo hi fuel lo.T hi.T (lo.balance E u dt) with
      | none => .running
      | some x => .heating (x.heating E - E.dudt)

/-- the bound on the cooling of the meshless schemes, EnergyRadws.cpp:249-253: `part.cooling` -/
noncomputable def cooling (m u dt heating : ℝ) : ℝ := -m * max heating (-(95 / 100) * u / dt)

/-! ### threads -/

/-- what the threads of the loop over the particles do to the shared variable `temp_amb` (EnergyRadws.cpp:161, 171, 179, 182):
the thread with particle `i` sets it, or uses it -/
inductive Op where
  | set (i : ℕ)
  | use (i : ℕ)

/-- run of the threads in some order: value of `temp_amb` and what each particle used -/
def run (amb : ℕ → ℝ) : List Op → ℝ × (ℕ → ℝ) → ℝ × (ℕ → ℝ)
  | [], s => s
  | .set i :: l, s => run amb l (amb i, s.2)
  | .use i :: l, s => run amb l (s.1, Function.update s.2 i s.1)

end Radws

end Gandalf
