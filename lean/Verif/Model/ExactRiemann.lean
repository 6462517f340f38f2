import Verif.Model.Vec
import Mathlib.Analysis.SpecialFunctions.Pow.Real
import Mathlib.Analysis.SpecialFunctions.Complex.Arg
import Mathlib.LinearAlgebra.Matrix.Notation

/-!
# Exact Riemann solver (src/Hydrodynamics/RiemannSolver.cpp)

Over `ℝ`; the test for non-finite values (RiemannSolver.cpp:237-245) has no counterpart.
-/

set_option autoImplicit false

namespace Gandalf.Exact

/-! ### constants, RiemannSolver.cpp:29-38 -/

noncomputable def g1 (γ : ℝ) : ℝ := 0.5 * (γ - 1) / γ
noncomputable def g2 (γ : ℝ) : ℝ := 0.5 * (γ + 1) / γ
noncomputable def g3 (γ : ℝ) : ℝ := 2 * γ / (γ - 1)
noncomputable def g4 (γ : ℝ) : ℝ := 2 / (γ - 1)
noncomputable def g5 (γ : ℝ) : ℝ := 2 / (γ + 1)
noncomputable def g6 (γ : ℝ) : ℝ := (γ - 1) / (γ + 1)
noncomputable def g7 (γ : ℝ) : ℝ := 0.5 * (γ - 1)

/-! ### rotations -/

/-- `atan2(y, x)` -/
noncomputable def atan2 (y x : ℝ) : ℝ := Complex.arg ⟨x, y⟩

open Real in
/-- `ComputeRotationMatrices`, RiemannSolver.cpp:51-95: the pair `rotMat`, `invRotMat` -/
noncomputable def rotMats : (n : ℕ) → Vec n ℝ → Matrix (Fin n) (Fin n) ℝ × Matrix (Fin n) (Fin n) ℝ
  | 1, u => (!![u 0], !![u 0])
  | 2, u =>
    let t := atan2 (u 1) (u 0)
    (!![cos t, -sin t; sin t, cos t], !![cos t, sin t; -sin t, cos t])
  | 3, u =>
    let p := atan2 (u 1) (u 0)
    let d := atan2 (u 2) √(u 0 * u 0 + u 1 * u 1)
    (!![cos d * cos p, -sin p, -sin d * cos p; cos d * sin p, cos p, -sin d * sin p; sin d, 0, cos d],
     !![cos d * cos p, cos d * sin p, sin d; -sin p, cos p, 0; -sin d * cos p, -sin d * sin p, cos d])
  | _, _ => (0, 0)

/-- `RotateVector`, RiemannSolver.cpp:104-126 (written out for `ndim = 1,2,3`) -/
noncomputable def rotate {n : ℕ} (m : Matrix (Fin n) (Fin n) ℝ) (v : Vec n ℝ) : Vec n ℝ := m.mulVec v

/-! ### star region -/

/-- one side of the interface: pressure, density, sound speed and normal velocity -/
structure Side where
  p : ℝ
  d : ℝ
  c : ℝ
  u : ℝ

/-- `fl` or `fr`, RiemannSolver.cpp:212-230 -/
noncomputable def waveFn (γ : ℝ) (S : Side) (p : ℝ) : ℝ :=
  if S.p < p then (p - S.p) * √(g5 γ / S.d / (p + S.p * g6 γ)) else g4 γ * S.c * ((p / S.p) ^ g1 γ - 1)

/-- `flprime` or `frprime`, RiemannSolver.cpp:212-230 -/
noncomputable def waveFn' (γ : ℝ) (S : Side) (p : ℝ) : ℝ :=
  if S.p < p then √(g5 γ / S.d / (p + S.p * g6 γ)) * (1 - 0.5 * (p - S.p) / (p + S.p * g6 γ))
  else (p / S.p) ^ (-g2 γ) / (S.d * S.c)

/-- `ppv`, RiemannSolver.cpp:171-173 -/
noncomputable def ppv (L R : Side) : ℝ :=
  max 0 (0.5 * (L.p + R.p) + 0.5 * (L.u - R.u) * (0.25 * (L.d + R.d) * (L.c + R.c)))

/-- the vacuum test, RiemannSolver.cpp:178 -/
def Vacuum (γ : ℝ) (L R : Side) : Prop := L.c + R.c - g7 γ * (R.u - L.u) ≤ 0

open Classical in
/-- first guess, RiemannSolver.cpp:184-204 -/
noncomputable def guess (γ small : ℝ) (L R : Side) : ℝ :=
  let pmin := min L.p R.p
  let pmax := max L.p R.p
  let q := ppv L R
  let p :=
    if pmax / pmin ≤ 2 ∧ pmin ≤ q ∧ q ≤ pmax then q
    else if q < pmin then
      let pq := (L.p / R.p) ^ g1 γ
      let um := (pq * L.u / L.c + R.u / R.c + g4 γ * (pq - 1)) / (pq / L.c + 1 / R.c)
      let ptl := 1 + g7 γ * (L.u - um) / L.c
      let ptr := 1 + g7 γ * (um - R.u) / R.c
      0.5 * (L.p * ptl ^ g3 γ + R.p * ptr ^ g3 γ)
    else
      let gel := √(g5 γ / L.d / (g6 γ * L.p + q))
      let ger := √(g5 γ / R.d / (g6 γ * R.p + q))
      (gel * L.p + ger * R.p - (R.u - L.u)) / (gel + ger)
  max p small

/-- the Newton step, RiemannSolver.cpp:234 -/
noncomputable def newton (γ : ℝ) (L R : Side) (p : ℝ) : ℝ :=
  p - (waveFn γ L p + waveFn γ R p + R.u - L.u) / (waveFn' γ L p + waveFn' γ R p)

open Classical in
/-- the iteration, RiemannSolver.cpp:209-252, with `k` further rounds allowed after this one: final `pstar` and `pold` -/
noncomputable def iter (γ small tol : ℝ) (L R : Side) : ℕ → ℝ → ℝ × ℝ
  | 0, p => if newton γ L R p < small then (small, p) else (newton γ L R p, p)
  | k + 1, p =>
    if newton γ L R p < small then iter γ small tol L R k small
    else if 2 * |newton γ L R p - p| / (newton γ L R p + p) < tol then (newton γ L R p, p)
    else iter γ small tol L R k (newton γ L R p)

open Classical in
/-- `ComputeStarRegion`, RiemannSolver.cpp:135-260: `pstar`, `ustar`; `N` is `Niterationmax` -/
noncomputable def starRegion (γ small tol : ℝ) (N : ℕ) (L R : Side) : ℝ × ℝ :=
  if Vacuum γ L R then (0, 0)
  else
    let r := iter γ small tol L R (N - 1) (guess γ small L R)
    (r.1, 0.5 * (L.u + R.u) + 0.5 * (waveFn γ R r.2 - waveFn γ L r.2))

/-! ### sampling -/

/-- a sampled state -/
@[ext] structure Sample where
  d : ℝ
  u : ℝ
  p : ℝ

open Classical in
/-- left of the contact, RiemannSolver.cpp:298-352 -/
noncomputable def sampleL (γ ps us s : ℝ) (L : Side) : Sample :=
  if ps ≤ L.p then
    if s ≤ L.u - L.c then ⟨L.d, L.u, L.p⟩
    else if us - L.c * (ps / L.p) ^ g1 γ < s then ⟨L.d * (ps / L.p) ^ (1 / γ), us, ps⟩
    else
      let c := g5 γ * (L.c + g7 γ * (L.u - s))
      ⟨L.d * (c / L.c) ^ g4 γ, g5 γ * (L.c + g7 γ * L.u + s), L.p * (c / L.c) ^ g3 γ⟩
  else
    let m := ps / L.p
    if s ≤ L.u - L.c * √(g2 γ * m + g1 γ) then ⟨L.d, L.u, L.p⟩
    else ⟨L.d * (m + g6 γ) / (m * g6 γ + 1), us, ps⟩

open Classical in
/-- right of the contact, RiemannSolver.cpp:355-409 -/
noncomputable def sampleR (γ ps us s : ℝ) (R : Side) : Sample :=
  if R.p ≤ ps then
    let m := ps / R.p
    if R.u + R.c * √(g2 γ * m + g1 γ) ≤ s then ⟨R.d, R.u, R.p⟩
    else ⟨R.d * (m + g6 γ) / (m * g6 γ + 1), us, ps⟩
  else
    if R.u + R.c ≤ s then ⟨R.d, R.u, R.p⟩
    else if s ≤ us + R.c * (ps / R.p) ^ g1 γ then ⟨R.d * (ps / R.p) ^ (1 / γ), us, ps⟩
    else
      let c := g5 γ * (R.c - g7 γ * (R.u - s))
      ⟨R.d * (c / R.c) ^ g4 γ, g5 γ * (-R.c + g7 γ * R.u + s), R.p * (c / R.c) ^ g3 γ⟩

open Classical in
/-- `SampleExactSolution`, RiemannSolver.cpp:269-421 -/
noncomputable def sample (γ ps us s : ℝ) (L R : Side) : Sample :=
  if s ≤ us then sampleL γ ps us s L else sampleR γ ps us s R

/-! ### fluxes -/

/-- primitive state: velocity, density and pressure -/
structure Prim (n : ℕ) where
  v : Vec n ℝ
  d : ℝ
  p : ℝ

/-- vector flux: `mom kv k`, `mass k`, `en k` -/
structure VFlux (n : ℕ) where
  mom : Fin n → Fin n → ℝ
  mass : Vec n ℝ
  en : Vec n ℝ

/-- `cl`, `uleft[0]` of RiemannSolver.cpp:438, 462 -/
noncomputable def side {n : ℕ} [NeZero n] (γ : ℝ) (W : Prim n) (runit : Vec n ℝ) : Side where
  p := W.p
  d := W.d
  c := √(γ * W.p / W.d)
  u := rotate (rotMats n runit).2 W.v 0

/-- flux of the state at the face, RiemannSolver.cpp:502-513; `v` is the velocity relative to the face -/
noncomputable def faceFlux {n : ℕ} (γ d p : ℝ) (v vface : Vec n ℝ) : VFlux n :=
  let w : Vec n ℝ := fun k => v k + vface k
  let etot := 0.5 * (dot w w) + p / (γ - 1) / d
  { mom := fun kv k => if kv = k then d * w k * (w k - vface k) + p else d * (w k - vface k) * w kv
    mass := fun k => d * (w k - vface k)
    en := fun k => d * etot * (w k - vface k) + p * w k }

open Classical in
/-- `ComputeFluxes`, RiemannSolver.cpp:430-554: the flux and the final face velocity -/
noncomputable def fluxes {n : ℕ} [NeZero n] (γ small tol : ℝ) (N : ℕ) (zmf : Bool) (Wl Wr : Prim n) (runit vface : Vec n ℝ) :
    VFlux n × Vec n ℝ :=
  let L := side γ Wl runit
  let R := side γ Wr runit
  let st := starRegion γ small tol N L R
  if 0 < st.1 then
    let a := sample γ st.1 st.2 0 L R
    if zmf then
      let vf : Vec n ℝ := fun k => vface k + a.u * runit k
      (faceFlux γ a.d a.p (rotate (rotMats n runit).1 fun _ => 0) vf, vf)
    else
      let t := if 0 < a.u then rotate (rotMats n runit).2 Wl.v else rotate (rotMats n runit).2 Wr.v
      let w : Vec n ℝ := fun k => if k = 0 then a.u else t k
      (faceFlux γ a.d a.p (rotate (rotMats n runit).1 w) vface, vface)
  else (⟨fun _ _ => 0, fun _ => 0, fun _ => 0⟩, vface)

end Gandalf.Exact
