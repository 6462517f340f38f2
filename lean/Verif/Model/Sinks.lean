import Verif.Model.Vec
import Verif.Model.Sorting
import Mathlib.Analysis.SpecialFunctions.Pow.Real

/-!
# Sink particles

Model of `Sinks::AccreteMassToSinks` (src/Nbody/Sinks.cpp:365-769), `SearchForNewSinkParticles` (118-278)
and `CreateNewSinkParticle` (288-355), and of `DoDeleteDeadParticles`
(src/Headers/Hydrodynamics.h:157-204). One process; the `omp` loops over sinks in order.

Left out: the energy sums and time scales of a sink (menc aside), which only enter the accreted mass
through the factor `1 - exp(-dt/taccrete)`; the exponential is the parameter `decay` and `trot` an input.
`GetGatherNeighbourList` is the parameter `gather` (its result is property C07). Only the order of one
thread is modelled for the marking; accretion itself (`accreteAll`) starts from any marking. Each sink holds the star
it points to.
-/

set_option autoImplicit false

namespace Gandalf.Sinks

/-- members of a hydro particle used here -/
structure Gas (n : ℕ) (α : Type*) where
  dead : Bool
  active : Bool
  potmin : Bool
  m : α
  u : α
  rho : α
  h : α
  dt : α
  gpot : α
  r : Vec n α
  v : Vec n α
  a : Vec n α
  r0 : Vec n α
  v0 : Vec n α
  a0 : Vec n α
  nstep : ℕ
  nlast : ℕ
  level : ℕ
  levelneib : ℕ
  sinkid : Option ℕ
  /-- `dQ[irho]`, `dQ[k]` of a meshless particle -/
  dQrho : α
  dQv : Vec n α

/-- members of a star used here -/
structure Star (n : ℕ) (α : Type*) where
  active : Bool
  m : α
  h : α
  radius : α
  gpot : α
  dt : α
  tlast : α
  r : Vec n α
  v : Vec n α
  a : Vec n α
  r0 : Vec n α
  v0 : Vec n α
  a0 : Vec n α
  nstep : ℕ
  nlast : ℕ
  level : ℕ

structure Sink (n : ℕ) (α : Type*) where
  star : Star n α
  radius : α
  mmax : α
  utot : α
  trot : α
  Ngas : ℕ
  angmom : Vec 3 α

/-- parameters of accretion -/
structure Prm (α : Type*) where
  /-- `smooth_accretion == 1` -/
  smooth : Bool
  /-- `smooth_accrete_frac*hydro->mmean` -/
  mleft : α
  /-- `smooth_accrete_dt` -/
  dtfrac : α
  small : α
  /-- the particles are meshless ones -/
  mfv : Bool

section accretion

variable {n : ℕ} {α : Type*} [Field α] [LinearOrder α]

/-- mass taken from a particle, Sinks.cpp:633-640 and 691-697 -/
def amount (prm : Prm α) (trot : α) (p : Gas n α) (macc : α) : α :=
  if prm.smooth = false ∨ p.m - min p.m macc < prm.mleft ∨ p.dt < prm.dtfrac * trot then p.m
  else min p.m macc

/-- the sums of the first loop -/
structure Acc (n : ℕ) (α : Type*) where
  m : α
  r : Vec n α
  v : Vec n α
  a : Vec n α
  utot : α

/-- first loop, Sinks.cpp:627-653, from `macc_temp = macc` -/
def loop1 (prm : Prm α) (trot : α) (g : ℕ → Gas n α) : List ℕ → α → Acc n α → Acc n α
  | [], _, s => s
  | i :: l, macc, s =>
    if (g i).dead then loop1 prm trot g l macc s
    else
      let mt := amount prm trot (g i) macc
      let s' : Acc n α :=
        { m := s.m + mt
          r := fun k => s.r k + mt * (g i).r k
          v := fun k => s.v k + mt * (g i).v k
          a := fun k => s.a k + mt * (g i).a k
          utot := s.utot + mt * (g i).u }
      if macc - mt < prm.small then s' else loop1 prm trot g l (macc - mt) s'

/-- `dr × dv` where the code has it: three components in three dimensions, the last one in two,
Sinks.cpp:673-680 -/
def spin : {n : ℕ} → Vec n α → Vec n α → Vec 3 α
  | 3, dr, dv => ![dr 1 * dv 2 - dr 2 * dv 1, dr 2 * dv 0 - dr 0 * dv 2, dr 0 * dv 1 - dr 1 * dv 0]
  | 2, dr, dv => ![0, 0, dr 0 * dv 1 - dr 1 * dv 0]
  | _, _, _ => 0

/-- what is left of the particle, Sinks.cpp:691-705, with `AccreteMassFromParticle`
(Headers/Sph.h:108, Headers/MeshlessFV.h:112-118) -/
def takeFrom (prm : Prm α) (trot : α) (p : Gas n α) (macc : α) : Gas n α :=
  if prm.smooth = false ∨ p.m - min p.m macc < prm.mleft ∨ p.dt < prm.dtfrac * trot then
    { p with
      m := 0
      dead := true
      active := false }
  else if prm.mfv then
    { p with
      m := p.m - min p.m macc
      dQrho := p.dQrho - min p.m macc
      dQv := fun k => p.dQv k - min p.m macc * p.v k }
  else { p with m := p.m - min p.m macc }

/-- second loop, Sinks.cpp:685-730: particles and spin; `R`, `V` position and velocity of the sink -/
def loop2 (prm : Prm α) (trot : α) (R V : Vec n α) :
    List ℕ → α → (ℕ → Gas n α) × Vec 3 α → (ℕ → Gas n α) × Vec 3 α
  | [], _, s => s
  | i :: l, macc, s =>
    let p := s.1 i
    if p.dead then loop2 prm trot R V l macc s
    else
      let mt := amount prm trot p macc
      let s' : (ℕ → Gas n α) × Vec 3 α :=
        (Function.update s.1 i (takeFrom prm trot p macc),
          s.2 + mt • spin (fun k => p.r k - R k) (fun k => p.v k - V k))
      if macc - mt < prm.small then s' else loop2 prm trot R V l (macc - mt) s'

/-- 605-680: the sink after the first loop, spin of the old centre of mass included -/
def absorb (prm : Prm α) (g : ℕ → Gas n α) (l : List ℕ) (macc : α) (sk : Sink n α) : Sink n α :=
  let st := sk.star
  let s := loop1 prm sk.trot g l macc
    { m := st.m
      r := fun k => st.r k * st.m
      v := fun k => st.v k * st.m
      a := fun k => st.a k * st.m
      utot := sk.utot }
  let R : Vec n α := fun k => s.r k / s.m
  let V : Vec n α := fun k => s.v k / s.m
  let A : Vec n α := fun k => s.a k / s.m
  { sk with
    star := { st with
      m := s.m
      r := R
      v := V
      a := A
      r0 := R
      v0 := V
      a0 := A }
    utot := s.utot
    angmom := sk.angmom + st.m • spin (fun k => st.r k - R k) (fun k => st.v k - V k) }

/-- 603-730: one sink and its neighbours `l` -/
def accreteList (prm : Prm α) (g : ℕ → Gas n α) (l : List ℕ) (macc : α) (sk : Sink n α) :
    (ℕ → Gas n α) × Sink n α :=
  let sk1 := absorb prm g l macc sk
  let q := loop2 prm sk.trot sk1.star.r sk1.star.v l macc (g, sk1.angmom)
  (q.1, { sk1 with angmom := q.2 })

/-- squared distance of a particle from a sink -/
def distSq (p : Gas n α) (sk : Sink n α) : α :=
  dot (fun k => p.r k - sk.star.r k) (fun k => p.r k - sk.star.r k)

/-- 448-463: particles found in sink `s` are marked; returns the particles and `Ngas` -/
def markOne (s : ℕ) (sk : Sink n α) (g : ℕ → Gas n α) (l : List ℕ) : (ℕ → Gas n α) × ℕ :=
  l.foldl (fun x i =>
    if (x.1 i).dead then x
    else if distSq (x.1 i) sk ≤ sk.radius * sk.radius then
      (Function.update x.1 i { x.1 i with sinkid := some s }, x.2 + 1)
    else x) (g, 0)

/-- 420-466: the loop over all sinks from number `s` on -/
def markAll (gather : ℕ → List ℕ) : ℕ → List (Sink n α) → (ℕ → Gas n α) → (ℕ → Gas n α) × List (Sink n α)
  | _, [], g => (g, [])
  | s, sk :: l, g =>
    let q := markOne s sk g (gather s)
    let rest := markAll gather (s + 1) l q.1
    (rest.1, { sk with Ngas := q.2 } :: rest.2)

/-- 510-525: ids of the particles of sink `s`, in the order of the gather list -/
def members (s : ℕ) (sk : Sink n α) (g : ℕ → Gas n α) (l : List ℕ) : List ℕ :=
  l.filter fun i => !(g i).dead && decide ((g i).sinkid = some s) &&
    decide (distSq (g i) sk ≤ sk.radius * sk.radius)

/-- 528: sorted by distance -/
def sorted (sk : Sink n α) (g : ℕ → Gas n α) (l : List ℕ) : List ℕ :=
  let keys := l.map fun i => distSq (g i) sk
  (List.range l.length).map
    (Sorting.insertionSortIds l.length (fun j => l.getD j 0) (fun j => keys.getD j 0)).2

/-- 572-600: mass to accrete -/
def target (prm : Prm α) (decay menc : α) : α :=
  if prm.smooth then menc * max (1 - decay) 0 else menc

/-- 520: `levelneib` of the particles in the sink -/
def raiseLevels (lev : ℕ) (l : List ℕ) (g : ℕ → Gas n α) : ℕ → Gas n α :=
  l.foldl (fun g i => Function.update g i { g i with levelneib := max (g i).levelneib lev }) g

/-- 474-735: turn of sink `s`; `trot` and `decay` from outside -/
def accreteOne (prm : Prm α) (N : ℕ) (gather : ℕ → List ℕ) (trot decay : ℕ → α) (s : ℕ) (sk : Sink n α)
    (g : ℕ → Gas n α) : (ℕ → Gas n α) × Sink n α :=
  if sk.Ngas = 0 ∨ N % sk.star.nstep ≠ 0 then (g, sk)
  else
    let mem := members s sk g (gather s)
    let g := raiseLevels sk.star.level mem g
    let ilist := sorted sk g mem
    let menc := (ilist.map fun i => (g i).m).sum
    accreteList prm g ilist (target prm (decay s) menc)
      { sk with trot := if prm.smooth then trot s else sk.trot }

/-- the loop over all sinks from number `s` on -/
def accreteAll (prm : Prm α) (N : ℕ) (gather : ℕ → List ℕ) (trot decay : ℕ → α) :
    ℕ → List (Sink n α) → (ℕ → Gas n α) → (ℕ → Gas n α) × List (Sink n α)
  | _, [], g => (g, [])
  | s, sk :: l, g =>
    let q := accreteOne prm N gather trot decay s sk g
    let rest := accreteAll prm N gather trot decay (s + 1) l q.1
    (rest.1, q.2 :: rest.2)

/-- `Sinks::AccreteMassToSinks` at integer time `N`. The second search (507) is not repeated when its
buffer is too short and then gives nothing, so its lists `gather'` are kept apart from those of the first. -/
def accrete (prm : Prm α) (N Ntot : ℕ) (gather gather' : ℕ → List ℕ) (trot decay : ℕ → α)
    (g : ℕ → Gas n α) (sinks : List (Sink n α)) : (ℕ → Gas n α) × List (Sink n α) :=
  let g := fun i => if i < Ntot then { g i with sinkid := none } else g i
  let q := markAll gather 0 sinks g
  accreteAll prm N gather' trot decay 0 q.2 q.1

/-- 745-755: the check at the end -/
def sanity (Nhydro : ℕ) (g : ℕ → Gas n α) : Bool :=
  (List.range Nhydro).all fun i => (g i).dead || decide (0 < (g i).m)

end accretion

/-! ### creation -/

noncomputable section creation

open Real

variable {n : ℕ}

inductive RadiusMode where
  | fixed | hmult | kernel

/-- parameters of sink creation -/
structure CPrm where
  rho_sink : ℝ
  sink_radius : ℝ
  mode : RadiusMode
  kernrange : ℝ
  Nsinkmax : ℕ
  Nstarmax : ℕ
  /-- `none`: -1 -/
  Nsinkfixed : Option ℕ

structure SState (n : ℕ) where
  gas : ℕ → Gas n ℝ
  Nhydro : ℕ
  sinks : List (Sink n ℝ)
  Nstar : ℕ

/-- tests against an existing sink, 170-194 -/
def excluded (prm : CPrm) (p : Gas n ℝ) (sk : Sink n ℝ) : Bool :=
  let dr : Vec n ℝ := fun k => p.r k - sk.star.r k
  let da : Vec n ℝ := fun k => p.a k - sk.star.a k
  let dv : Vec n ℝ := fun k => p.v k - sk.star.v k
  let drsqd := dot dr dr
  let dadr := dot dr da
  let dvdr := dot dr dv
  let tff := (1 / 2) / sqrt p.rho
  (decide (tff > drsqd / dvdr) && decide (dvdr > 0)) || decide (p.rho < -dadr / drsqd) ||
    decide (drsqd < (prm.sink_radius * p.h + sk.radius) ^ 2)

/-- 155-206: one particle, running choice (`isink`, `rho_max`) -/
def candidate (prm : CPrm) (N : ℕ) (sinks : List (Sink n ℝ)) (g : ℕ → Gas n ℝ)
    (c : Option ℕ × ℝ) (i : ℕ) : Option ℕ × ℝ :=
  let p := g i
  if p.dead then c
  else if !p.potmin then c
  else if p.rho < prm.rho_sink ∨ p.rho < c.2 then c
  else if N % p.nstep ≠ 0 then c
  else if (sinks.any (excluded prm p)) then c
  else if p.rho > c.2 then (some i, p.rho)
  else c

/-- 144-208 -/
def choose (prm : CPrm) (N : ℕ) (s : SState n) : Option ℕ :=
  ((List.range s.Nhydro).foldl (candidate prm N s.sinks s.gas) (none, 0)).1

def newRadius (prm : CPrm) (p : Gas n ℝ) : ℝ :=
  match prm.mode with
  | .fixed => prm.sink_radius
  | .hmult => prm.sink_radius * p.h
  | .kernel => prm.kernrange * p.h

/-- the new star and sink, 305-347 -/
def newSink (prm : CPrm) (t : ℝ) (p : Gas n ℝ) : Sink n ℝ where
  star :=
    { active := p.active
      m := p.m
      h := newRadius prm p / prm.kernrange
      radius := newRadius prm p
      gpot := p.gpot
      dt := p.dt
      tlast := t
      r := p.r
      v := p.v
      a := p.a
      r0 := p.r0
      v0 := p.v0
      a0 := p.a0
      nstep := p.nstep
      nlast := p.nlast
      level := p.level }
  radius := newRadius prm p
  mmax := 0
  utot := 0
  trot := 0
  Ngas := 0
  angmom := 0

/-- 349-352 -/
def removed (p : Gas n ℝ) : Gas n ℝ :=
  { p with
    m := 0
    active := false
    dead := true }

/-- 246-253: mass inside the new sink -/
def enclosed (Nhydro : ℕ) (g : ℕ → Gas n ℝ) (sk : Sink n ℝ) : ℝ :=
  ((List.range Nhydro).map fun i =>
    if (g i).dead then 0
    else if dot (fun k => sk.star.r k - (g i).r k) (fun k => sk.star.r k - (g i).r k) < sk.radius ^ 2 then (g i).m
    else 0).sum

inductive Outcome (n : ℕ) where
  | done (s : SState n)
  /-- `ExceptionHandler::raise` -/
  | error (s : SState n)
  /-- loop longer than `fuel` -/
  | running

/-- `CreateNewSinkParticle` and the rest of one pass of the search, 229-274 -/
def create (prm : CPrm) (t : ℝ) (s : SState n) (i : ℕ) : Outcome n :=
  if s.sinks.length = prm.Nsinkmax ∨ s.Nstar = prm.Nstarmax then .error s
  else
    let sk := newSink prm t (s.gas i)
    let gas := Function.update s.gas i (removed (s.gas i))
    let sk := { sk with mmax := enclosed s.Nhydro gas sk }
    .done
      { s with
        gas := gas
        sinks := s.sinks ++ [sk]
        Nstar := s.Nstar + 1 }

/-- the `do` loop, 142-276 -/
def searchLoop (prm : CPrm) (N : ℕ) (t : ℝ) : ℕ → SState n → Outcome n
  | 0, _ => .running
  | fuel + 1, s =>
    match choose prm N s with
    | none => .done s
    | some i =>
      match create prm t s i with
      | .done s' => searchLoop prm N t fuel s'
      | o => o

/-- `SearchForNewSinkParticles` -/
def search (prm : CPrm) (N : ℕ) (t : ℝ) (fuel : ℕ) (s : SState n) : Outcome n :=
  match prm.Nsinkfixed with
  | some k => if k ≤ s.sinks.length then .done s else searchLoop prm N t fuel s
  | none => searchLoop prm N t fuel s

end creation

/-! ### dead particles -/

section dead

variable {P : Type*}

/-- the `while` loop, Headers/Hydrodynamics.h:173-183, at place `i`: array, `Ndead`, `ilast`. `bury` is
`flags.set(dead); m = 0`. -/
def fill (isDead : P → Bool) (bury : P → P) (i : ℕ) : ℕ → (ℕ → P) × ℕ × ℕ → (ℕ → P) × ℕ × ℕ
  | 0, s => s
  | fuel + 1, (p, nd, il) =>
    if isDead (p i) then
      if i < il - 1 then
        fill isDead bury i fuel
          (Function.update (Function.update p i (p (il - 1))) (il - 1) (bury (p (il - 1))), nd + 1, il - 1)
      else (p, nd + 1, il - 1)
    else (p, nd, il)

/-- the `for` loop, 175-189, over `i, i+1, …`, `k` of them left -/
def compact (isDead : P → Bool) (bury : P → P) : ℕ → ℕ → (ℕ → P) × ℕ × ℕ → (ℕ → P) × ℕ × ℕ
  | _, 0, s => s
  | i, k + 1, s =>
    let s' := fill isDead bury i (s.2.2 + 1) s
    if s'.2.2 - 1 ≤ i then s' else compact isDead bury (i + 1) k s'

/-- `DoDeleteDeadParticles`: the array and the new `Nhydro` -/
def deleteDead (isDead : P → Bool) (bury : P → P) (Nhydro : ℕ) (p : ℕ → P) : (ℕ → P) × ℕ :=
  let s := compact isDead bury 0 Nhydro (p, 0, Nhydro)
  (s.1, Nhydro - s.2.1)

end dead

end Gandalf.Sinks
