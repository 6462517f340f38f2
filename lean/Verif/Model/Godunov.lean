import Verif.Model.Gradients
import Verif.Model.Hllc
import Verif.Model.ExactRiemann

/-!
# The flux between two particles of the meshless schemes (src/MeshlessFV/MfvMuscl.cpp, MfvRungeKutta.cpp,
src/Hydrodynamics/FV.cpp, src/Headers/RiemannSolver.h)

Over `ℝ`, without rounding.  `kern.w0_s2(s)` is `w0 (√s)`.  A primitive vector is `Exact.Prim` (velocity, density,
pressure), the flux tensor `flux[nvar][ndim]` is `Exact.VFlux`.  The gas follows an adiabatic or isothermal equation of
state.  Assertions are left out.  What is done with the flux of a pair for all particles is in Model/FvFlux.
-/

set_option autoImplicit false

namespace Gandalf.God

open Hllc Exact

noncomputable section
open Classical

variable {n : ℕ}

/-- `FLOAT grad[ndim+2][ndim]`: gradients of the velocities, density and pressure -/
@[ext] structure Grad (n : ℕ) where
  v : Fin n → Vec n ℝ
  d : Vec n ℝ
  p : Vec n ℝ

/-- what is used of a particle or of a neighbour copy, Headers/Particle.h:414-433, 507-565 -/
structure Part (n : ℕ) where
  r : Vec n ℝ
  v : Vec n ℝ
  a : Vec n ℝ
  W : Prim n
  grad : Grad n
  /-- `alpha_slope`, one factor for each variable -/
  alpha : Prim n
  h : ℝ
  hfactor : ℝ
  ndens : ℝ
  sound : ℝ
  B : Gradients.Mat n ℝ
  /-- flag `bad_gradients` -/
  bad : Bool

/-- `neibpart[j].r - part.r`, MfvMuscl.cpp:109 -/
def sep (p q : Part n) : Vec n ℝ := fun k => q.r k - p.r k

/-- a place, as `ComputeGradients` sees a particle or neighbour for the matrix `E` (the other members do not enter) -/
def place (r : Vec n ℝ) : Gradients.Pt n 0 := ⟨r, fun _ => 0, Fin.elim0, 0, 0⟩

/-- the matrix `B` and the flag as left by `ComputeGradients` for neighbours at the places `nb`, MfvCommon.cpp:277-336: the
flag is unset only if `B` is the inverse of `E` -/
def Built (K : Kernel) (nb : List (Vec n ℝ)) (p : Part n) : Prop :=
  p.bad = false →
    Gradients.invert n (Gradients.matE K ⟨p.h, p.hfactor, p.ndens⟩ (place p.r) (nb.map place)) = some p.B

/-- `psitildaj` of the particle itself, MfvMuscl.cpp:113-125 (also MfvRungeKutta.cpp:106-118) -/
def psiJ (K : Kernel) (small : ℝ) (p : Part n) (d : Vec n ℝ) : Vec n ℝ :=
  if p.bad = false then fun k =>
    ∑ kk, p.B k kk * d kk * p.hfactor * K.w0 (√(dot d d * (1 / p.h) * (1 / p.h))) * (1 / p.ndens)
  else fun k =>
    -(d k / (√(dot d d) + small)) * (p.hfactor * (1 / p.ndens) * K.w1 ((√(dot d d) + small) * (1 / p.h)))

/-- `psitildai` of the neighbour, MfvMuscl.cpp:127-139 (also MfvRungeKutta.cpp:120-132) -/
def psiI (K : Kernel) (small : ℝ) (q : Part n) (d : Vec n ℝ) : Vec n ℝ :=
  if q.bad = false then fun k =>
    ∑ kk, -(q.B k kk * d kk * q.hfactor * K.w0 (√(dot d d * (1 / q.h) * (1 / q.h))) * (1 / q.ndens))
  else fun k =>
    d k / (√(dot d d) + small) * (q.hfactor * (1 / q.ndens) * K.w1 ((√(dot d d) + small) * (1 / q.h)))

/-- `Aij`, MfvMuscl.cpp:142-143, for the separation `d` -/
def areaOf (K : Kernel) (small : ℝ) (p q : Part n) (d : Vec n ℝ) : Vec n ℝ := fun k =>
  1 / p.ndens * psiJ K small p d k - 1 / q.ndens * psiI K small q d k

/-- the face between a particle and its neighbour, MfvMuscl.cpp:109-143 -/
def area (K : Kernel) (small : ℝ) (p q : Part n) : Vec n ℝ := areaOf K small p q (sep p q)

/-- `rface`, MfvMuscl.cpp:156, 160 -/
def rface (p q : Part n) : Vec n ℝ := fun k => 1 / 2 * (p.r k + q.r k)

/-- `vface`, MfvMuscl.cpp:155-162; `st` is `staticParticles` -/
def vface (st : Bool) (p q : Part n) : Vec n ℝ := fun k => if st then 0 else 1 / 2 * (p.v k + q.v k)

/-- a slope limiter: the limited gradients and the change of the variables over `draux` -/
abbrev Lim (n : ℕ) := Part n → Part n → Vec n ℝ → Grad n × Prim n

/-- `SlopeLimiter::ComputeLimitedSlopes`, SlopeLimiter.h:60-69 -/
def Lim.base : Lim n := fun p _ dr =>
  (⟨fun i k => p.alpha.v i * p.grad.v i k, fun k => p.alpha.d * p.grad.d k, fun k => p.alpha.p * p.grad.p k⟩,
   ⟨fun i => p.alpha.v i * dot (p.grad.v i) dr, p.alpha.d * dot p.grad.d dr, p.alpha.p * dot p.grad.p dr⟩)

/-- `ZeroSlopeLimiter::ComputeLimitedSlopes`, SlopeLimiter.h:92-99 -/
def Lim.zero : Lim n := fun _ _ _ => (⟨fun _ _ => 0, fun _ => 0, fun _ => 0⟩, ⟨fun _ => 0, 0, 0⟩)

/-- `CalculatePrimitiveTimeDerivative`, Hydrodynamics/FV.cpp:79-95 -/
def timeDeriv (W : Prim n) (g : Grad n) (c : ℝ) : Prim n where
  d := -dot W.v g.d - W.d * ∑ i, g.v i i
  p := -dot W.v g.p - W.d * c * c * ∑ i, g.v i i
  v := fun i => -dot W.v (g.v i) - g.p i / W.d

/-- the state of `p` at the face relative to the face, MfvMuscl.cpp:165-168 (`q` the other particle; also 176-179) -/
def atFace (lim : Lim n) (p q : Part n) (rf vf : Vec n ℝ) : Prim n :=
  let dW := (lim p q fun k => rf k - p.r k).2
  ⟨fun k => p.W.v k + dW.v k - vf k, p.W.d + dW.d, p.W.p + dW.p⟩

/-- time integration of a state with the gradients `g`, the sound speed `c` and the acceleration `a` over `x`,
MfvMuscl.cpp:171-173 (also 182-184) -/
def evolve (W : Prim n) (g : Grad n) (c : ℝ) (a : Vec n ℝ) (x : ℝ) : Prim n :=
  let D := timeDeriv W g c
  ⟨fun k => W.v k + x * (D.v k + a k), W.d + x * D.d, W.p + x * D.p⟩

/-- floors, MfvMuscl.cpp:187-190 -/
def floored (small : ℝ) (W : Prim n) : Prim n := { W with
  d := max W.d small
  p := max W.p small }

/-- the state of `p` handed to the Riemann solver, MfvMuscl.cpp:165-190 -/
def predicted (lim : Lim n) (small : ℝ) (p q : Part n) (rf vf : Vec n ℝ) (dt : ℝ) : Prim n :=
  floored small (evolve (atFace lim p q rf vf) (lim p q fun k => rf k - p.r k).1 p.sound p.a (1 / 2 * dt))

/-- the state object of the HLLC solver, MfvMuscl.cpp:204-221, EOS.h:164-181, RiemannSolver.h:194-203; sound speed
AdiabaticEOS.cpp:69-72, IsothermalEOS.cpp:72-75 -/
def hllcState (gamma : ℝ) (iso : Bool) (W : Prim n) (nrm : Vec n ℝ) : St n :=
  let u := W.p / (W.d * (gamma - 1))
  { v := W.v
    rho := W.d
    press := W.p
    e := W.d * u + 0.5 * W.d * dot W.v W.v
    cs := if iso then √((gamma - 1) * u) else √(gamma * (gamma - 1) * u)
    vline := dot W.v nrm }

/-- `flux[i][j] = flux_tmp[i]*n[j]`, RiemannSolver.h:149-151, 162-165 -/
def outer (f : Flux n) (nrm : Vec n ℝ) : VFlux n where
  mom := fun i k => f.mom i * nrm k
  mass := fun k => f.mass * nrm k
  en := fun k => f.en * nrm k

/-- parameters of the scheme: `gamma`, isothermal gas, `zero_mass_flux`, the Riemann solver (`exact` with tolerance and
number of iterations), `small_number`, `staticParticles`, the viscosities -/
structure Scheme where
  gamma : ℝ
  iso : Bool
  zmf : Bool
  exact : Bool
  tol : ℝ
  iters : ℕ
  small : ℝ
  static : Bool
  shear : ℝ
  bulk : ℝ

/-- the Riemann solver of the MUSCL scheme, MfvMuscl.cpp:198-225 -/
def riemann [NeZero n] (s : Scheme) (Wl Wr : Prim n) (nrm vf : Vec n ℝ) : VFlux n × Vec n ℝ :=
  if s.exact then fluxes s.gamma s.small s.tol s.iters s.zmf Wl Wr nrm vf
  else
    let f := solve s.iso s.zmf (hllcState s.gamma s.iso Wl nrm) (hllcState s.gamma s.iso Wr nrm) nrm vf
    (outer f.1 nrm, f.2)

/-- average of two primitive vectors, RiemannSolver.h:470 -/
def mean (Wl Wr : Prim n) : Prim n := ⟨fun i => (Wl.v i + Wr.v i) / 2, (Wl.d + Wr.d) / 2, (Wl.p + Wr.p) / 2⟩

/-- `gradv` at the face, RiemannSolver.h:473 -/
def meanGrad (gl gr : Fin n → Vec n ℝ) : Fin n → Vec n ℝ := fun i j => (gl i j + gr i j) / 2

/-- `stress`, RiemannSolver.h:471-489, `eta_shear` and `eta_bulk` 501-506 -/
def stress (shear bulk rho : ℝ) (g : Fin n → Vec n ℝ) : Fin n → Vec n ℝ := fun i j =>
  shear * rho * (g i j + g j i) + if i = j then (bulk * rho - 2 * (shear * rho) / 3) * ∑ k, g k k else 0

/-- `ComputeViscousFlux`, RiemannSolver.h:464-498 -/
def viscous (shear bulk : ℝ) (Wl Wr : Prim n) (gl gr : Fin n → Vec n ℝ) (F : VFlux n) : VFlux n :=
  let W := mean Wl Wr
  let τ := stress shear bulk W.d (meanGrad gl gr)
  { mom := fun i j => F.mom i j - τ i j
    mass := F.mass
    en := fun j => F.en j - ∑ i, τ i j * W.v i }

/-- `need_viscosity`, MfvCommon.cpp:59 -/
def needVisc (s : Scheme) : Bool := decide (s.shear ≠ 0 ∨ s.bulk ≠ 0)

/-- `DotProduct(flux[var], Aij, ndim)`, MfvMuscl.cpp:234 -/
def throughArea (F : VFlux n) (A : Vec n ℝ) : Flux n where
  mom := fun i => dot (F.mom i) A
  mass := dot F.mass A
  en := dot F.en A

/-- `Aunit`, MfvMuscl.cpp:145-147 -/
def unit (A : Vec n ℝ) : Vec n ℝ := fun k => A k / √(dot A A)

/-- the flux tensor at the face, MfvMuscl.cpp:165-230 -/
def tensor [NeZero n] (lim : Lim n) (s : Scheme) (p q : Part n) (A : Vec n ℝ) (dt : ℝ) : VFlux n :=
  let Wi := predicted lim s.small p q (rface p q) (vface s.static p q) dt
  let Wj := predicted lim s.small q p (rface p q) (vface s.static p q) dt
  let F := (riemann s Wi Wj (unit A) (vface s.static p q)).1
  if needVisc s then viscous s.shear s.bulk Wi Wj p.grad.v q.grad.v F else F

/-- what leaves `p` towards `q` per unit time, MfvMuscl.cpp:109-239; `none`: no face (149-150) -/
def pairFlux [NeZero n] (K : Kernel) (lim : Lim n) (s : Scheme) (p q : Part n) (dt : ℝ) : Option (Flux n) :=
  let A := area K s.small p q
  if 0 < √(dot A A) then some (throughArea (tensor lim s p q A dt) A) else none

/-! ### the Runge-Kutta scheme -/

/-- `draux = part.r - neibpart.r`, MfvRungeKutta.cpp:100 -/
def rkSep (p q : Part n) : Vec n ℝ := fun k => p.r k - q.r k

/-- `Aij`, MfvRungeKutta.cpp:106-136 -/
def rkArea (K : Kernel) (small : ℝ) (p q : Part n) : Vec n ℝ := areaOf K small p q (rkSep p q)

/-- `dr_unit`, MfvRungeKutta.cpp:102-103 -/
def rkUnit (small : ℝ) (p q : Part n) : Vec n ℝ := fun k => rkSep p q k * (1 / √(dot (rkSep p q) (rkSep p q) + small))

/-- `vface`, MfvRungeKutta.cpp:139-150 -/
def rkVface (small : ℝ) (st : Bool) (p q : Part n) : Vec n ℝ := fun k =>
  if st then 0 else
  p.v k + (q.v k - p.v k) * dot (fun k => p.r k - rface p q k) (rkUnit small p q) *
    (1 / √(dot (rkSep p q) (rkSep p q) + small))

/-- the Riemann solver of this scheme, MfvRungeKutta.cpp:170-173 -/
def rkRiemann [NeZero n] (s : Scheme) (Wl Wr : Prim n) (nrm vf : Vec n ℝ) : VFlux n × Vec n ℝ :=
  if s.exact then fluxes s.gamma s.small s.tol s.iters s.zmf Wl Wr nrm vf
  else
    let f := solve s.iso s.zmf (ofPrim s.gamma s.iso Wl.v Wl.d Wl.p nrm) (ofPrim s.gamma s.iso Wr.v Wr.d Wr.p nrm) nrm vf
    (outer f.1 nrm, f.2)

/-- the states of the first and of the second call of the solver, MfvRungeKutta.cpp:153-162, 182-189.  `gradW` is written
for the neighbour last (160) and used for both states. -/
def rkStates (lim : Lim n) (s : Scheme) (p q : Part n) (dt : ℝ) : (Prim n × Prim n) × (Prim n × Prim n) :=
  let vf := rkVface s.small s.static p q
  let Wleft := atFace lim p q (rface p q) vf
  let Wright := atFace lim q p (rface p q) vf
  let gradW := (lim q p fun k => rface p q k - q.r k).1
  ((Wleft, Wright), (evolve Wleft gradW p.sound p.a dt, evolve Wright gradW q.sound q.a dt))

/-- the two fluxes times area, MfvRungeKutta.cpp:170-178, 197-205; the second call gets the face velocity left by the first -/
def rkFluxes [NeZero n] (K : Kernel) (lim : Lim n) (s : Scheme) (p q : Part n) (dt : ℝ) : Flux n × Flux n :=
  let A := rkArea K s.small p q
  let st := rkStates lim s p q dt
  let F1 := rkRiemann s st.1.2 st.1.1 (rkUnit s.small p q) (rkVface s.small s.static p q)
  let F2 := rkRiemann s st.2.2 st.2.1 (rkUnit s.small p q) F1.2
  (throughArea F1.1 A, throughArea F2.1 A)

/-- the change of `part.dQ` by one neighbour, MfvRungeKutta.cpp:177, 204; the neighbour gets the negative (178, 205) -/
def rkGain [NeZero n] (K : Kernel) (lim : Lim n) (s : Scheme) (p q : Part n) (dt : ℝ) : Flux n :=
  let f := rkFluxes K lim s p q dt
  ⟨fun i => -(1 / 2 * f.1.mom i * dt) - 1 / 2 * f.2.mom i * dt, -(1 / 2 * f.1.mass * dt) - 1 / 2 * f.2.mass * dt,
   -(1 / 2 * f.1.en * dt) - 1 / 2 * f.2.en * dt⟩

/-- the change of `part.dQ` by one neighbour in the MUSCL scheme, MfvMuscl.cpp:235; the neighbour gets the negative (237) -/
def gain [NeZero n] (K : Kernel) (lim : Lim n) (s : Scheme) (p q : Part n) (dt : ℝ) : Flux n :=
  match pairFlux K lim s p q dt with
  | none => ⟨fun _ => 0, 0, 0⟩
  | some f => ⟨fun i => -(f.mom i * dt), -(f.mass * dt), -(f.en * dt)⟩

end
end Gandalf.God
