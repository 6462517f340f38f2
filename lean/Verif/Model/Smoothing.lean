import Verif.Model.Kernel
import Verif.Model.Vec
import Mathlib.Analysis.SpecialFunctions.Pow.Real

/-!
# Smoothing length iteration (GradhSph.cpp:141-326, SM2012Sph.cpp:132-250, MfvCommon.cpp:104-233)

The three versions are the same loop with different tests.  The loop is modelled for any linearly ordered field and
any function `mid` in place of `0.5*(lower + upper)`, so that what is proved for every `mid` between its
arguments does not depend on rounding of the midpoint.  The sums over neighbours are over ℝ.  Assertions are not
modelled.
-/

set_option autoImplicit false

namespace Gandalf.Smoothing

/-- What the loop is run with. -/
structure Iter (α : Type*) where
  /-- density (or number density) at a smoothing length -/
  dens : α → α
  /-- smoothing length belonging to a density, `h_rho_func` -/
  est : α → α
  /-- `(FLOAT) 0.5*(h_lower_bound + h_upper_bound)` -/
  mid : α → α → α
  /-- exit test, from `h`, the density and `h_lower_bound` -/
  near : α → α → α → Bool
  /-- bisection test: `h` is the new upper bound -/
  above : α → α → Bool
  hmax : α

/-- How the loop ends: by the exit test, by `return 0`, by the exception, or by the loop condition. -/
inductive Res (α : Type*) where
  | conv (h rho lo : α)
  | large (h rho : α)
  | raised
  | left (h rho lo up h' : α)

inductive Next (α : Type*) where
  | stop (r : Res α)
  | go (h lo up : α)

section
variable {α : Type*} [LinearOrder α]

/-- New `h` and bounds; `none`: exception (GradhSph.cpp:227-252 with `iteration_max = 30`). -/
def newH (F : Iter α) (it : ℕ) (h rho lo up : α) : Option (α × α × α) :=
  if it < 30 then some (F.est rho, lo, up)
  else if it = 30 then some (F.mid lo up, lo, up)
  else if it < 5 * 30 then
    if F.above h rho then some (F.mid lo h, lo, h) else some (F.mid h up, h, up)
  else none

/-- One pass through the loop body and the loop condition (GradhSph.cpp:184-257, SM2012Sph.cpp:156-219,
MfvCommon.cpp:144-209). -/
def step (F : Iter α) (it : ℕ) (h lo up : α) : Next α :=
  let rho := F.dens h
  if F.near h rho lo then .stop (.conv h rho lo)
  else match newH F it h rho lo up with
    | none => .stop .raised
    | some (h', lo', up') =>
      if F.hmax < h' then .stop (.large h' rho)
      else if lo' < h' ∧ h' < up' then .go h' lo' up'
      else .stop (.left h rho lo' up' h')

/-- The loop; pass 150 raises or stops, so 150 passes are enough. -/
def loop (F : Iter α) : ℕ → ℕ → α → α → α → Res α
  | 0, _, _, _, _ => .raised
  | f + 1, it, h, lo, up =>
    match step F it h lo up with
    | .stop r => r
    | .go h' lo' up' => loop F f (it + 1) h' lo' up'

/-- Result: return value, smoothing length and density left in the particle. -/
structure Out (α : Type*) where
  flag : Int
  h : α
  rho : α
  deriving DecidableEq

/-- `ComputeH` up to the thermal properties; `none`: exception.  `final` gives the smoothing length from the density and
the lower bound. -/
def computeH (F : Iter α) (final : α → α → α) (h0 rho0 lo0 : α) : Option (Out α) :=
  if F.hmax < lo0 then some ⟨-1, h0, rho0⟩ else
  let finish := fun rho lo => let h := final rho lo; some (⟨if h ≤ F.hmax then 1 else -1, h, rho⟩ : Out α)
  match loop F 150 1 h0 lo0 F.hmax with
  | .conv _ rho lo => finish rho lo
  | .left _ rho lo _ _ => finish rho lo
  | .large h rho => some ⟨0, h, rho⟩
  | .raised => none

/-- One pass over the active particles of a cell: stops at the first that returns 0 (`some none`), or at an exception
(`none`) (GradhSphTree.cpp:193-236, MeshlessFVTree.cpp:217-266). -/
def cellPass (compute : ℕ → Option (Out α)) : List ℕ → Option (Option (List (Out α)))
  | [] => some (some [])
  | i :: l =>
    match compute i with
    | none => none
    | some o => if o.flag = 0 then some none else (cellPass compute l).map (Option.map (o :: ·))

/-- Caller for one cell (GradhSphTree.cpp:154-240, MeshlessFVTree.cpp:169-268): `hmax` grows by `grow` (= 1.05)
until no active particle returns 0.  `compute hmax i` is `ComputeH` for particle `i`.  Loop with fuel; the
result is what is written back. -/
def cellLoop [Mul α] (grow : α) (compute : α → ℕ → Option (Out α)) (active : List ℕ) :
    ℕ → α → Option (List (Out α))
  | 0, _ => none
  | f + 1, hmax =>
    match cellPass (compute (grow * hmax)) active with
    | none => none
    | some none => cellLoop grow compute active f (grow * hmax)
    | some (some outs) => some outs

end

/-! ## The three instances -/

section
variable {α : Type*} [Field α] [LinearOrder α]

/-- Grad-h SPH: relative tolerance (GradhSph.cpp:219-220, 234). -/
def gradh (dens est : α → α) (mid : α → α → α) (small tol hmax : α) : Iter α where
  dens := dens
  est := est
  mid := mid
  near := fun h rho lo => decide (0 < rho ∧ lo < h ∧ |h - est rho| * (1 / h) < tol)
  above := fun h rho => decide (rho < small ∨ est rho < h)
  hmax := hmax

/-- Saitoh & Makino SPH: absolute tolerance, bisection test without root (SM2012Sph.cpp:186-187, 202). -/
def sm2012 (dens est : α → α) (mid : α → α → α) (n : ℕ) (hfac m small tol hmax : α) : Iter α where
  dens := dens
  est := est
  mid := mid
  near := fun h rho lo => decide (0 < rho ∧ lo < h ∧ |h - est rho| < tol)
  above := fun h rho => decide (rho < small ∨ hfac ^ n * m < rho * h ^ n)
  hmax := hmax

/-- Meshless: the exit test looks at the smoothing length `h0` and density `rho0` the particle came with
(MfvCommon.cpp:172-173, 188). -/
def mfv (dens est : α → α) (mid : α → α → α) (n : ℕ) (hfac small tol hmax h0 rho0 : α) : Iter α where
  dens := dens
  est := est
  mid := mid
  near := fun _ ndens lo => decide (0 < rho0 ∧ lo < h0 ∧ |h0 - est ndens| < tol)
  above := fun h ndens => decide (ndens < small ∨ hfac ^ n < ndens * h ^ n)
  hmax := hmax

/-- Grad-h SPH and Saitoh & Makino: `max(h_rho_func(m, rho), h_lower_bound)` (GradhSph.cpp:262, SM2012Sph.cpp:218). -/
def gradhComputeH (dens est : α → α) (mid : α → α → α) (small tol hmax h0 rho0 lo0 : α) : Option (Out α) :=
  computeH (gradh dens est mid small tol hmax) (fun rho lo => max (est rho) lo) h0 rho0 lo0

def sm2012ComputeH (dens est : α → α) (mid : α → α → α) (n : ℕ) (hfac m small tol hmax h0 rho0 : α) :
    Option (Out α) :=
  computeH (sm2012 dens est mid n hfac m small tol hmax) (fun rho lo => max (est rho) lo) h0 rho0 0

/-- Meshless: the lower bound is not applied (MfvCommon.cpp:216).  `rho` in the result is the number density. -/
def mfvComputeH (dens est : α → α) (mid : α → α → α) (n : ℕ) (hfac small tol hmax h0 rho0 lo0 : α) :
    Option (Out α) :=
  computeH (mfv dens est mid n hfac small tol hmax h0 rho0) (fun rho _ => est rho) h0 rho0 lo0

end

/-! ## Sums over neighbours -/

noncomputable section
variable {n : ℕ}

/-- mass and position of a neighbour -/
structure Ngb (n : ℕ) where
  m : ℝ
  r : Vec n ℝ
  gpot : ℝ

/-- squared distance to neighbour -/
def drsqd (r : Vec n ℝ) (b : Ngb n) : ℝ := dot (fun k => b.r k - r k) (fun k => b.r k - r k)

/-- `ssqd` for smoothing length `h` -/
def ssqd (r : Vec n ℝ) (h : ℝ) (b : Ngb n) : ℝ := 1 / h * (1 / h) * drsqd r b

/-- `rho` (GradhSph.cpp:197-207); `w0_s2(x) = w0(sqrt(x))` (SmoothingKernel.h:78) -/
def density (K : Kernel) (r : Vec n ℝ) (ngbs : List (Ngb n)) (h : ℝ) : ℝ :=
  (ngbs.map fun b => b.m * K.w0 (√(ssqd r h b))).sum * (1 / h) ^ n

/-- the sum in `invomega` (GradhSph.cpp:202, 208) -/
def omegaSum (K : Kernel) (r : Vec n ℝ) (ngbs : List (Ngb n)) (h : ℝ) : ℝ :=
  (ngbs.map fun b => b.m * (1 / h) * K.womega (√(ssqd r h b))).sum * (1 / h) ^ n

/-- number density (MfvCommon.cpp:158-165), from squared distances -/
def numberDensity (K : Kernel) (n : ℕ) (drsqd : List ℝ) (h : ℝ) : ℝ :=
  (drsqd.map fun d => K.w0 (√(d * (1 / h * (1 / h))))).sum * (1 / h) ^ n

/-- `h_rho_func` (Sph.h:259-263) -/
def hRho (n : ℕ) (hfac m rho : ℝ) : ℝ := hfac * (m / rho) ^ (1 / (n : ℝ))

/-- `h_rho_deriv` (Sph.h:264-268) -/
def hRhoDeriv (n : ℕ) (h rho : ℝ) : ℝ := -(1 / (n : ℝ)) * h / rho

/-- `invomega` of a particle not in a sink (GradhSph.cpp:285-286) -/
def invomega (K : Kernel) (r : Vec n ℝ) (ngbs : List (Ngb n)) (h h' rho : ℝ) : ℝ :=
  1 / (1 - hRhoDeriv n h rho * omegaSum K r ngbs h')

/-- `h_fac*pow(volume, invndim)` with `volume = 1/ndens` (MfvCommon.cpp:168, 216) -/
def hVol (n : ℕ) (hfac ndens : ℝ) : ℝ := hfac * (1 / ndens) ^ (1 / (n : ℝ))

/-- `invomega` of the meshless scheme: from the value the particle had before, not from the local sum
(MfvCommon.cpp:220-221). -/
def mfvInvomega (n : ℕ) (h ndens oldInvomega _omegaSum : ℝ) : ℝ :=
  1 / (1 + 1 / (n : ℝ) * h * oldInvomega / ndens)

/-- Neighbours handed to `ComputeH` (GradhSphTree.cpp:201-219). -/
def gather (small kernrangesqd hmax : ℝ) (r : Vec n ℝ) (l : List (Ngb n)) : List (Ngb n) :=
  open Classical in l.filter fun b => decide (drsqd r b + small ≤ kernrangesqd * hmax * hmax)

open Classical in
/-- The `potmin` loop (GradhSph.cpp:271-280): `drsqd` is computed before `dr` is set, so it belongs to the neighbour before;
`d` is the value of `drsqd` from `dr` as left by the code before. -/
def potminLoop (kernrangesqd invhsqd gpot : ℝ) (r : Vec n ℝ) : ℝ → List (Ngb n) → Bool → Bool
  | _, [], flag => flag
  | d, b :: l, flag =>
    potminLoop kernrangesqd invhsqd gpot r (drsqd r b) l
      (if 1.000000001 * gpot < b.gpot ∧ d * invhsqd < kernrangesqd then false else flag)

/-- the flag: `dr` is that of the last neighbour of the density sum -/
def potmin (kernrangesqd invhsqd gpot : ℝ) (r : Vec n ℝ) (ngbs : List (Ngb n)) : Bool :=
  potminLoop kernrangesqd invhsqd gpot r ((ngbs.getLast?.map (drsqd r)).getD 0) ngbs true

end
end Gandalf.Smoothing
