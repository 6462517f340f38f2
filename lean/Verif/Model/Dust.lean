import Verif.Model.Vec
import Verif.Model.Kernel
import Mathlib.Analysis.SpecialFunctions.Exp
import Mathlib.Analysis.SpecialFunctions.Pow.Real
import Mathlib.Analysis.SpecialFunctions.Sqrt

/-!
# Dust drag (src/Common/Dust.cpp, src/Headers/DragLaws.h)

Over `ℝ`. The iteration for the smoothing length of the interpolation is not modelled (its result is handed in).
Assertions that can fail are modelled by `none`.
-/

set_option autoImplicit false

namespace Gandalf.Dust

variable {n N : ℕ}

/-! ### drag laws, Headers/DragLaws.h -/

/-- `_t_stop(grho, drho, gsound)` -/
abbrev Law := ℝ → ℝ → ℝ → ℝ

/-- `FixedDrag`, DragLaws.h:33-44 -/
noncomputable def fixedDrag (K : ℝ) : Law := fun _ _ _ => 1 / K

/-- `DensityDrag`, DragLaws.h:53-64 -/
noncomputable def densityDrag (K : ℝ) : Law := fun grho drho _ => 1 / ((grho + drho) * K)

/-- `EpsteinNorm`, DragLaws.h:73-74 -/
noncomputable def epsteinNorm : ℝ := 0.4699928014933126

/-- `EpsteinDrag`, DragLaws.h:75-85 -/
noncomputable def epsteinDrag (K : ℝ) : Law := fun grho drho gsound => epsteinNorm / ((grho + drho) * gsound * K)

/-- `LP12_Drag`, DragLaws.h:96-106 -/
noncomputable def lp12Drag (K : ℝ) : Law := fun grho drho _ => drho * grho / ((grho + drho) * K)

/-! ### semi-implicit coefficients -/

open Classical in
/-- `Xi` and `Lambda` with the density factor `rho`, Dust.cpp:1084-1094 (`rho = 1`: 967-977) -/
noncomputable def coeffs (dt ts rho : ℝ) : ℝ × ℝ :=
  let tau := dt / ts
  if 1e-3 < tau then
    let Xi := (1 - Real.exp (-tau)) / (dt * rho)
    (Xi, (dt + ts) * Xi - 1 / rho)
  else
    let Xi := (1 - 0.5 * tau * (1 - tau / 3)) / rho
    (Xi / ts, (1 + tau) * Xi - 1 / rho)

/-! ### the two particle types -/

/-- members of `GradhSphParticle` used here (Headers/Particle.h) -/
structure SphP (n : ℕ) where
  gas : Bool
  r : Vec n ℝ
  m : ℝ
  rho : ℝ
  h : ℝ
  sound : ℝ
  v : Vec n ℝ
  a : Vec n ℝ
  a0 : Vec n ℝ
  dt : ℝ
  dt_next : ℝ
  dudt : ℝ

/-- members of `MeshlessFVParticle` used here (Headers/Particle.h); `Q0m` is `Qcons0[irho]`, `dQ` the momentum
part and `dE` the energy part of `dQ` -/
structure MfvP (n : ℕ) where
  gas : Bool
  r : Vec n ℝ
  r0 : Vec n ℝ
  m : ℝ
  rho : ℝ
  h : ℝ
  sound : ℝ
  v : Vec n ℝ
  v0 : Vec n ℝ
  a : Vec n ℝ
  a0 : Vec n ℝ
  Q0m : ℝ
  dQ : Vec n ℝ
  dE : ℝ
  dt : ℝ
  dt_next : ℝ
  dudt : ℝ

/-- what `ComputeDragForces` reads of a particle type: the data members and the overloaded helpers -/
structure Ops (n : ℕ) (P : Type) where
  gas : P → Bool
  r : P → Vec n ℝ
  m : P → ℝ
  rho : P → ℝ
  h : P → ℝ
  sound : P → ℝ
  /-- `get_initial_velocity` -/
  vini : P → Vec n ℝ
  /-- `get_velocity_difference` -/
  vdiff : P → P → Vec n ℝ
  /-- `get_total_accel` -/
  acc : P → Vec n ℝ

open Classical in
/-- helpers for grad-h SPH, Dust.cpp:39-67 -/
noncomputable def sphOps (n : ℕ) : Ops n (SphP n) where
  gas p := p.gas
  r p := p.r
  m p := p.m
  rho p := p.rho
  h p := p.h
  sound p := p.sound
  vini p k := p.v k - 0.5 * p.dt * p.a0 k
  vdiff p q k := (p.v k - q.v k) - 0.5 * p.dt * (p.a0 k - q.a0 k)
  acc p k := p.a k

open Classical in
/-- helpers for the meshless scheme, Dust.cpp:45-48, 57-61 and 69-77 -/
noncomputable def mfvOps (n : ℕ) : Ops n (MfvP n) where
  gas p := p.gas
  r p := p.r
  m p := p.m
  rho p := p.rho
  h p := p.h
  sound p := p.sound
  vini p k := p.v0 k
  vdiff p q k := p.v0 k - q.v0 k
  acc p k := 0.5 * (p.a k + p.a0 k * p.Q0m / p.m) + if 0 < p.dt then p.dQ k / (p.m * p.dt) else 0

/-- `drag_timestep`, Dust.cpp:216-218, with `w_tstep` of the constructor (173-193): `0.5` for `lfkdk`, `1` for
`lfdkd` and the meshless schemes -/
noncomputable def dragTimestep (w dt dt_next : ℝ) : ℝ := w * dt + (1 - w) * dt_next

/-- `update_particle` for grad-h SPH, Dust.cpp:91-98 -/
def SphP.update (p : SphP n) (acc : Vec n ℝ) (dudt : ℝ) : SphP n :=
  { p with
    a := fun k => p.a k + acc k
    dudt := if p.gas then p.dudt + dudt else p.dudt }

/-- `update_particle` for the meshless scheme, Dust.cpp:100-136 (without the rates `dQdt` and `vsig_max`) -/
noncomputable def MfvP.update (p : MfvP n) (acc : Vec n ℝ) (dudt dt : ℝ) : MfvP n :=
  let dudt := dudt + p.dudt
  let dE := if p.gas then
      p.dE + p.m * (dudt + ∑ k, acc k * (((mfvOps n).vini p k + (mfvOps n).acc p k * dt) + acc k * dt / 2)) * dt
    else p.dE
  let dQ : Vec n ℝ := fun k => p.dQ k + p.m * acc k * dt
  let v : Vec n ℝ := fun k => p.v0 k + dQ k + p.a0 k * dt
  { p with
    dE := dE
    dQ := dQ
    v := v
    r := fun k => p.r0 k + 0.5 * (p.v0 k + v k) * dt
    dudt := 0 }

/-! ### two fluids: `DustSemiImplictForces::ComputeDragForces`, Dust.cpp:1004-1135 -/

section pair

variable {P : Type} (O : Ops n P) (K : Kernel) (L : Law)

/-- `sqrt(DotProduct(draux,draux,ndim))` -/
noncomputable def mag (d : Vec n ℝ) : ℝ := Real.sqrt (dot d d)

open Classical in
/-- `if (drmag>0) draux[k] /= drmag`, Dust.cpp:1055-1056 -/
noncomputable def unit (d : Vec n ℝ) : Vec n ℝ := fun k => if 0 < mag d then d k / mag d else d k

/-- value of the drag kernel, Dust.cpp:1047-1050; `d` is `parti.r - neib.r` -/
noncomputable def kern (p q : P) (d : Vec n ℝ) : ℝ :=
  if O.gas p then (1 / O.h p) ^ n * K.wdrag (mag d * (1 / O.h p))
  else (1 / O.h q) ^ n * K.wdrag (mag d * (1 / O.h q))

/-- `wkern` after `wkern *= neiblist[j].m / neiblist[j].rho`, Dust.cpp:1052 -/
noncomputable def wkern (p q : P) (d : Vec n ℝ) : ℝ := kern O K p q d * (O.m q / O.rho q)

/-- `t_stop(grho, drho, gsound)`, Dust.cpp:1065-1079 -/
noncomputable def tstop (p q : P) : ℝ :=
  if O.gas p then L (O.rho p) (O.rho q) (O.sound p) else L (O.rho q) (O.rho p) (O.sound q)

/-- `S`, Dust.cpp:1055-1061 and 1096-1099 -/
noncomputable def term (dt : ℝ) (p q : P) (d : Vec n ℝ) : ℝ :=
  let dvdr := dot (unit d) (O.vdiff p q)
  let dadr := dot (unit d) (fun k => O.acc p k - O.acc q k)
  let rho := if O.gas p then O.rho q + O.rho p else O.rho p + O.rho q
  let c := coeffs dt (tstop O L p q) rho
  (dvdr + dt * dadr) * c.1 - dadr * c.2

/-- the neighbours of a particle: each with the separation `parti.r - neib.r` (of the image found) -/
abbrev Neibs (n : ℕ) (P : Type) := List (P × Vec n ℝ)

/-- `_adrag`, Dust.cpp:1033-1103 -/
noncomputable def adrag (dt : ℝ) (p : P) (l : Neibs n P) : Vec n ℝ := fun k =>
  l.foldl (fun s x => s - n * O.rho x.1 * term O L dt p x.1 x.2 * unit x.2 k * wkern O K p x.1 x.2) 0

/-- `norm`, Dust.cpp:1053 -/
noncomputable def norm (p : P) (l : Neibs n P) : ℝ := l.foldl (fun s x => s + wkern O K p x.1 x.2) 0

/-- `dEk_dt`, Dust.cpp:1110-1115 -/
noncomputable def dEk (dt : ℝ) (p : P) (ad : Vec n ℝ) : ℝ :=
  ∑ k, ad k * ((O.vini p k + O.acc p k * dt) + ad k * dt / 2)

open Classical in
/-- What the energy term adds to the neighbours of a dust particle, Dust.cpp:1117-1128, in the order of the list;
`none`: the division `0/0` that makes the heating of a neighbour not a number. -/
noncomputable def spread (dt : ℝ) (p : P) (l : Neibs n P) : Option (List ℝ) :=
  if l ≠ [] ∧ norm O K p l = 0 then none
  else some (l.map fun x =>
    -(O.m p * ((1 / O.h x.1) ^ n * K.wdrag (mag x.2 * (1 / O.h x.1)) / (norm O K p l * O.rho x.1)) *
      dEk O dt p (adrag O K L dt p l)))

end pair

/-! ### the loop over all particles, `FindNeibAndDoForces`, Dust.cpp:609-798 -/

section system

variable {P : Type} (O : Ops n P) (K : Kernel) (L : Law)

/-- neighbour list of a particle: number and shift of the image, as returned by `GetParticleNeib` with the mask
of the particle type -/
abbrev Lists (n N : ℕ) := Fin N → List (Fin N × Vec n ℝ)

/-- the neighbour copies with their separations -/
def copies (sys : Fin N → P) (i : Fin N) (l : List (Fin N × Vec n ℝ)) : Neibs n P :=
  l.map fun x => (sys x.1, fun k => O.r (sys i) k - (O.r (sys x.1) k + x.2 k))

/-- drag acceleration of particle `i` -/
noncomputable def accel (dt : Fin N → ℝ) (nb : Lists n N) (sys : Fin N → P) (i : Fin N) : Vec n ℝ :=
  adrag O K L (dt i) (sys i) (copies O sys i (nb i))

/-- the sum over the cells and threads of the heating terms (`dudt[i]`, Dust.cpp:736-754): the particle's own
term if it is gas, and what the dust particles give to it -/
noncomputable def heat (dt : Fin N → ℝ) (nb : Lists n N) (sys : Fin N → P) : Option (Fin N → ℝ) :=
  if ∀ j, O.gas (sys j) = false → (spread O K L (dt j) (sys j) (copies O sys j (nb j))).isSome then
    some fun i =>
      (if O.gas (sys i) then -dEk O (dt i) (sys i) (accel O K L dt nb sys i) else 0) +
      ∑ j, if O.gas (sys j) then 0 else
        (((nb j).zip ((spread O K L (dt j) (sys j) (copies O sys j (nb j))).getD [])).map
          fun x => if x.1.1 = i then x.2 else 0).sum
  else none

/-- the whole update for grad-h SPH with every particle active, with the energy term -/
noncomputable def updateSph (K : Kernel) (L : Law) (w : ℝ) (nb : Lists n N) (sys : Fin N → SphP n) :
    Option (Fin N → SphP n) :=
  let dt := fun i => dragTimestep w (sys i).dt (sys i).dt_next
  (heat (sphOps n) K L dt nb sys).map fun q i => (sys i).update (accel (sphOps n) K L dt nb sys i) (q i)

/-- the whole update for the meshless schemes with every particle active, with the energy term -/
noncomputable def updateMfv (K : Kernel) (L : Law) (w : ℝ) (nb : Lists n N) (sys : Fin N → MfvP n) :
    Option (Fin N → MfvP n) :=
  let dt := fun i => dragTimestep w (sys i).dt (sys i).dt_next
  (heat (mfvOps n) K L dt nb sys).map fun q i =>
    (sys i).update (accel (mfvOps n) K L dt nb sys i) (q i) (dt i)

open Classical in
/-- what a process sends back for one of its MPI ghosts, Dust.cpp:763-770: nothing unless `dudt[i] > 0` -/
noncomputable def sendBack (dudt : ℝ) : Option ℝ := if 0 < dudt then some dudt else none

/-- heating of the parent: its own and what comes back from the ghosts of it (`update_dust_parents` adds) -/
noncomputable def parentHeat (own : ℝ) (ghosts : List ℝ) : ℝ := own + (ghosts.filterMap sendBack).sum

end system

/-! ### test particles: `DustInterpolant::DoInterpolate`, Dust.cpp:813-988 -/

/-- data of one gas neighbour, with its weight `m[j]*w` -/
structure Gas (n : ℕ) where
  mw : ℝ
  cs : ℝ
  /-- `get_velocity_difference(parti, d[j], k)` -/
  dv : Vec n ℝ
  /-- `get_total_accel(parti, k) - d[j].a[k]` -/
  da : Vec n ℝ

/-- a weighted mean over the neighbours, Dust.cpp:863-891 (`hfactor` is `pow(invh, ndim)`) -/
noncomputable def mean (hfactor : ℝ) (l : List (Gas n)) (f : Gas n → ℝ) : ℝ :=
  (l.map fun g => g.mw * f g).sum * (1 / ((l.map fun g => g.mw).sum * hfactor) * hfactor)

/-- drag acceleration of the test particle, Dust.cpp:957-981, from the interpolated values; `none`: the
assertion on the stopping time fails -/
noncomputable def testAccel (L : Law) (dt grho gsound : ℝ) (dv da : Vec n ℝ) : Option (Vec n ℝ) :=
  open Classical in
  let dv' : Vec n ℝ := fun k => dv k + da k * dt
  let ts := L grho 0 gsound
  if ts = 0 then none
  else
    let c := coeffs dt ts 1
    some fun k => -dv' k * c.1 + da k * c.2

/-! ### the copy of the neighbours, `FindNeibAndDoInterp`, Dust.cpp:511-525 -/

/-- state of the loop: `jj`, the variable `j`, `Nneib`, and which particle was copied to each slot (`none`: what
the slot held before) -/
structure Copy where
  jj : ℕ
  j : ℕ
  Nneib : ℕ
  slot : ℕ → Option ℕ

/-- one iteration, Dust.cpp:513-524 -/
def Copy.step (dead : ℕ → Bool) (neiblist : ℕ → ℕ) (s : Copy) : Copy :=
  if dead s.j then { s with
      jj := s.jj + 1
      Nneib := s.Nneib - 1 }
  else { s with
      jj := s.jj + 1
      j := neiblist s.jj
      slot := Function.update s.slot s.jj (some (neiblist s.jj)) }

/-- the loop; `fuel` is the number of iterations allowed -/
def Copy.loop (dead : ℕ → Bool) (neiblist : ℕ → ℕ) : ℕ → Copy → Copy
  | 0, s => s
  | fuel + 1, s => if s.jj < s.Nneib then Copy.loop dead neiblist fuel (s.step dead neiblist) else s

/-- the loop as it is entered: `j` is the number of active particles of the cell, left over from the loop before
(Dust.cpp:475); `Nneib` iterations are enough -/
def copyNeibs (dead : ℕ → Bool) (neiblist : ℕ → ℕ) (Nactive Nneib : ℕ) : Copy :=
  Copy.loop dead neiblist Nneib ⟨0, Nactive, Nneib, fun _ => none⟩

/-- The loop over one cell, Dust.cpp:460-580: `hmax` grows by 1.05 until the interpolation of every dust particle
succeeds. `gather h` is the number of gas particles in range of a dust particle, `interp` the value returned by
`DoInterpolate` when there are some (it returns 0 when there is none, Dust.cpp:840-841). -/
noncomputable def cellLoop (gather : ℝ → ℕ) (interp : ℝ → ℤ) : ℕ → ℝ → Option ℝ
  | 0, _ => none
  | fuel + 1, hmax =>
    let hmax := 1.05 * hmax
    if (if gather hmax = 0 then 0 else interp hmax) = 0 then cellLoop gather interp fuel hmax else some hmax

end Gandalf.Dust
