import Verif.Model.Vec
import Mathlib.Analysis.SpecialFunctions.Pow.Real

/-!
# HLLC approximate Riemann solver (src/Headers/RiemannSolver.h)

Over `ℝ`.  The returned vector flux is `flux[i][j] = flux_tmp[i]*n[j]` (RiemannSolver.h:148-151); here the scalar
`flux_tmp` is kept.
-/

set_option autoImplicit false

namespace Gandalf.Hllc

variable {n : ℕ}

/-- `HLLC_State`, RiemannSolver.h:170-209 -/
structure St (n : ℕ) where
  v : Vec n ℝ
  rho : ℝ
  press : ℝ
  e : ℝ
  cs : ℝ
  vline : ℝ

/-- `flux[ndim+2]`: momentum, mass and energy -/
@[ext] structure Flux (n : ℕ) where
  mom : Vec n ℝ
  mass : ℝ
  en : ℝ

/-- constructor from a primitive vector, RiemannSolver.h:172-194 -/
noncomputable def ofPrim (gamma : ℝ) (iso : Bool) (v : Vec n ℝ) (rho press : ℝ) (nrm : Vec n ℝ) : St n where
  v := v
  rho := rho
  press := press
  e := if iso then 0.5 * rho * dot v v + press else 0.5 * rho * dot v v + press / (gamma - 1)
  cs := if iso then √(press / rho) else √(gamma * press / rho)
  vline := dot v nrm

/-- `Hydro_Flux`, RiemannSolver.h:388-402 -/
def hydroFlux (S : St n) (nrm : Vec n ℝ) : Flux n where
  mom := fun i => S.rho * S.vline * S.v i + S.press * nrm i
  mass := S.rho * S.vline
  en := (S.press + S.e) * S.vline

/-- `Q`, RiemannSolver.h:276-282 -/
def cons (S : St n) : Flux n where
  mom := fun i => S.rho * S.v i
  mass := S.rho
  en := S.e

/-- `Qs`, RiemannSolver.h:284-294 -/
noncomputable def starCons (S : St n) (nrm : Vec n ℝ) (vwave vm : ℝ) : Flux n :=
  let dms := S.rho * (S.vline - vwave)
  let rs := S.rho * (vwave - S.vline) / (vwave - vm)
  { mom := fun i => rs * (S.v i + (vm - S.vline) * nrm i)
    mass := rs
    en := rs * (S.e / S.rho + (vm - S.vline) * (vm - S.press / dms)) }

/-- `add_RH_flux`, RiemannSolver.h:272-299 -/
noncomputable def addRH (S : St n) (nrm : Vec n ℝ) (vwave vm : ℝ) (f : Flux n) : Flux n where
  mom := fun i => f.mom i + vwave * ((starCons S nrm vwave vm).mom i - (cons S).mom i)
  mass := f.mass + vwave * ((starCons S nrm vwave vm).mass - (cons S).mass)
  en := f.en + vwave * ((starCons S nrm vwave vm).en - (cons S).en)

/-- `compute_HLL_flux`, RiemannSolver.h:301-321 -/
noncomputable def hllFlux (Sl Sr : St n) (Smin Smax : ℝ) (nrm : Vec n ℝ) : Flux n where
  mom := fun i => (Smax * (hydroFlux Sl nrm).mom i - Smin * (hydroFlux Sr nrm).mom i
    + Smin * Smax * ((cons Sr).mom i - (cons Sl).mom i)) / (Smax - Smin)
  mass := (Smax * (hydroFlux Sl nrm).mass - Smin * (hydroFlux Sr nrm).mass
    + Smin * Smax * ((cons Sr).mass - (cons Sl).mass)) / (Smax - Smin)
  en := (Smax * (hydroFlux Sl nrm).en - Smin * (hydroFlux Sr nrm).en
    + Smin * Smax * ((cons Sr).en - (cons Sl).en)) / (Smax - Smin)

/-- `fl` of `HLL_Speeds`, RiemannSolver.h:332-334 -/
noncomputable def weight (Sl Sr : St n) : ℝ := 1 / (1 + √(Sr.rho / Sl.rho))

/-- `v_av`, RiemannSolver.h:337-341 -/
noncomputable def vav (Sl Sr : St n) : ℝ := weight Sl Sr * Sl.vline + (1 - weight Sl Sr) * Sr.vline

/-- `cs_av`, RiemannSolver.h:343-357 -/
noncomputable def csav (Sl Sr : St n) : ℝ :=
  let gamma := max ((Sl.rho * Sl.cs * Sl.cs + Sr.rho * Sr.cs * Sr.cs) / (Sl.press + Sr.press)) 1
  √(weight Sl Sr * Sl.cs * Sl.cs + (1 - weight Sl Sr) * Sr.cs * Sr.cs
    + 0.5 * weight Sl Sr * (1 - weight Sl Sr) * (gamma - 1) * dot (fun i => Sl.v i - Sr.v i) fun i => Sl.v i - Sr.v i)

/-- `Smin`, `Smax`, RiemannSolver.h:360-361 -/
noncomputable def smin (Sl Sr : St n) : ℝ := min (Sl.vline - Sl.cs) (vav Sl Sr - csav Sl Sr)

noncomputable def smax (Sl Sr : St n) : ℝ := max (Sr.vline + Sr.cs) (vav Sl Sr + csav Sl Sr)

/-- `compute_central_wave_speed`, RiemannSolver.h:365-385 -/
noncomputable def central (iso : Bool) (Sl Sr : St n) (Smin Smax : ℝ) : ℝ :=
  let dml := Sl.rho * (Sl.vline - Smin)
  let dmr := Sr.rho * (Sr.vline - Smax)
  if iso then (Smax * dml - Smin * dmr) / (dml - dmr)
  else ((Sr.vline * dmr + Sr.press) - (Sl.vline * dml + Sl.press)) / (dmr - dml)

/-- `Sl.vline -= vm; Sl.v[i] -= vm*n[i]`, RiemannSolver.h:225-232 (the energy is left as it is) -/
def shift (S : St n) (vm : ℝ) (nrm : Vec n ℝ) : St n :=
  { S with
    v := fun i => S.v i - vm * nrm i
    vline := S.vline - vm }

/-- RiemannSolver.h:236-256 -/
noncomputable def frameFlux (iso : Bool) (Sl Sr : St n) (nrm : Vec n ℝ) (Smin Smax vm : ℝ) : Flux n :=
  if Smax ≤ 0 then hydroFlux Sr nrm
  else if 0 ≤ Smin then hydroFlux Sl nrm
  else if iso then hllFlux Sl Sr Smin Smax nrm
  else if 0 < vm then addRH Sl nrm Smin vm (hydroFlux Sl nrm)
  else addRH Sr nrm Smax vm (hydroFlux Sr nrm)

/-- back to the lab frame, RiemannSolver.h:262-267; the loop uses `flux[i]` before its update -/
noncomputable def toLab (f : Flux n) (vface : Vec n ℝ) : Flux n where
  mom := fun i => f.mom i + f.mass * vface i
  mass := f.mass
  en := f.en + (dot f.mom vface) + f.mass * 0.5 * dot vface vface

/-- `solve`, RiemannSolver.h:212-268: the flux and the final velocity of the face -/
noncomputable def solve (iso zmf : Bool) (Sl Sr : St n) (nrm vface : Vec n ℝ) : Flux n × Vec n ℝ :=
  let Smin := smin Sl Sr
  let Smax := smax Sl Sr
  let vm := central iso Sl Sr Smin Smax
  if zmf then
    let vf : Vec n ℝ := fun i => vface i + vm * nrm i
    let f := frameFlux iso (shift Sl vm nrm) (shift Sr vm nrm) nrm (Smin - vm) (Smax - vm) 0
    (toLab { f with mass := 0 } vf, vf)
  else (toLab (frameFlux iso Sl Sr nrm Smin Smax vm) vface, vface)

end Gandalf.Hllc
