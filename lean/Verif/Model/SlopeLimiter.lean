import Verif.Model.Vec
import Mathlib.Analysis.SpecialFunctions.Pow.Real

/-!
# Slope limiters (src/Headers/SlopeLimiter.h)

Over `ℝ`, one variable of the primitive vector at a time (the loops over `var` are independent).
-/

set_option autoImplicit false

namespace Gandalf.Limiter

variable {n nv : ℕ}

/-- the members of a particle that are read -/
structure Part (n nv : ℕ) where
  r : Vec n ℝ
  h : ℝ
  W : Fin nv → ℝ
  grad : Fin nv → Vec n ℝ

/-- `if (_edge_limit) dW *= 0.51`, SlopeLimiter.h:161, 230, 305 -/
noncomputable def edge (b : Bool) (x : ℝ) : ℝ := if b then x * 0.51 else x

/-- `DotProduct(parti.grad[var], dr, ndim)` with `dr` to the neighbour -/
noncomputable def slope (p q : Part n nv) (v : Fin nv) : ℝ := dot (p.grad v) fun k => q.r k - p.r k

/-- `TVDScalarLimiter::CellLimiter`, SlopeLimiter.h:145-173 -/
noncomputable def tvd (b : Bool) (p : Part n nv) (nb : List (Part n nv)) (v : Fin nv) : ℝ :=
  nb.foldl (fun al q =>
    if edge b (slope p q v) ≠ 0 then min al (max 0 (min 1 ((q.W v - p.W v) / edge b (slope p q v)))) else al) 1

/-- `Wmax`, `Wmin`, SlopeLimiter.h:208-225 and 278-295 -/
noncomputable def wmax (p : Part n nv) (nb : List (Part n nv)) (v : Fin nv) : ℝ :=
  nb.foldl (fun w q => max w (q.W v)) (p.W v)

noncomputable def wmin (p : Part n nv) (nb : List (Part n nv)) (v : Fin nv) : ℝ :=
  nb.foldl (fun w q => min w (q.W v)) (p.W v)

/-- `drmax`, SlopeLimiter.h:214-230 -/
noncomputable def drmax (b : Bool) (p : Part n nv) (nb : List (Part n nv)) : ℝ :=
  edge b (max √(nb.foldl (fun d q => max d (dot (fun k => q.r k - p.r k) fun k => q.r k - p.r k)) 0) (2 * p.h))

/-- `ScalarLimiter::CellLimiter`, SlopeLimiter.h:202-245 -/
noncomputable def scalar (b : Bool) (p : Part n nv) (nb : List (Part n nv)) (v : Fin nv) : ℝ :=
  let dW := drmax b p nb * √(dot (p.grad v) (p.grad v))
  if dW ≠ 0 then max 0 (min 1 (min ((wmax p nb v - p.W v) / dW) ((p.W v - wmin p nb v) / dW))) else 1

/-- `Springel2009Limiter::CellLimiter`, SlopeLimiter.h:271-316 -/
noncomputable def springel (b : Bool) (p : Part n nv) (nb : List (Part n nv)) (v : Fin nv) : ℝ :=
  nb.foldl (fun al q =>
    if 0 < edge b (slope p q v) then min al ((wmax p nb v - p.W v) / edge b (slope p q v))
    else if edge b (slope p q v) < 0 then min al ((wmin p nb v - p.W v) / edge b (slope p q v))
    else al) 1

/-- `SlopeLimiter::ComputeLimitedSlopes`, SlopeLimiter.h:61-71, the change `dW` over `draux` -/
noncomputable def limited (alpha : ℝ) (p : Part n nv) (draux : Vec n ℝ) (v : Fin nv) : ℝ := alpha * dot (p.grad v) draux

/-- `sgn`, InlineFuncs.h:122-126 -/
noncomputable def sgn (x : ℝ) : ℤ := (if 0 < x then 1 else 0) - if x < 0 then 1 else 0

/-- `phiminus`, SlopeLimiter.h:373-378 -/
noncomputable def phiminus (phimin delta1 : ℝ) : ℝ :=
  if sgn (phimin - delta1) = sgn phimin then phimin - delta1 else phimin / (1 + delta1 / |phimin|)

/-- `phiplus`, SlopeLimiter.h:380-385 -/
noncomputable def phiplus (phimax delta1 : ℝ) : ℝ :=
  if sgn (phimax + delta1) = sgn phimax then phimax + delta1 else phimax / (1 + delta1 / |phimax|)

/-- `GizmoLimiter::ComputeLimitedSlopes`, SlopeLimiter.h:343-399, the change `dW` over `draux` towards `q` -/
noncomputable def gizmo (alpha : ℝ) (p q : Part n nv) (draux : Vec n ℝ) (v : Fin nv) : ℝ :=
  let delta1 := 0.5 * |p.W v - q.W v|
  let delta2 := 0.375 * |p.W v - q.W v|
  let phimin := min (p.W v) (q.W v)
  let phimax := max (p.W v) (q.W v)
  let phibar := p.W v + (q.W v - p.W v) * √(dot draux draux) / √(dot (fun k => q.r k - p.r k) fun k => q.r k - p.r k)
  let phimid0 := p.W v + limited alpha p draux v
  let phimid :=
    if p.W v < q.W v then max (phiminus phimin delta1) (min (phibar + delta2) phimid0)
    else if q.W v < p.W v then min (phiplus phimax delta1) (max (phibar - delta2) phimid0)
    else p.W v
  phimid - p.W v

/-- vector from a particle to the face it shares with a neighbour, MfvMuscl.cpp:154-165 -/
noncomputable def toFace (p q : Part n nv) : Vec n ℝ := fun k => 0.5 * (p.r k + q.r k) - p.r k

end Gandalf.Limiter
