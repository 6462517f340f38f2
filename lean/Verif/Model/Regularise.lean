import Verif.Model.Vec
import Verif.Model.Kernel
import Mathlib.Analysis.SpecialFunctions.Sqrt
import Mathlib.Algebra.BigOperators.Pi
import Mathlib.Data.List.FinRange

/-! Regularisation of the positions of particles in initial conditions,
src/Ic/ICRegularization.cpp and src/Headers/Ic.h:1194-1287.  Real numbers. -/

set_option autoImplicit false

namespace Gandalf

noncomputable section

namespace Reg

open Classical

variable {n : ℕ}

/-- What is read of a particle -/
structure Part (n : ℕ) where
  r : Vec n ℝ
  h : ℝ
  rho : ℝ
  hrangesqd : ℝ

/-- `small_number`, Headers/Constants.h:73 -/
def small : ℝ := 1 / 10 ^ 20

/-- Weight of a neighbour, Headers/Ic.h:1279-1282 -/
def factor (alphaReg rhoReg rho rhotrue : ℝ) : ℝ :=
  let rhofrac := (rho - rhotrue) / (rhotrue + small)
  let rhofrac := min (max rhofrac (-(1 / 10))) 10
  rhoReg * rhofrac + alphaReg

/-- `dr[k]` of the grid, Headers/Ic.h:1235, 1244, 1256 -/
def offset (hrange : ℝ) (i : Fin 5) : ℝ := ((i : ℝ) + 1 / 2) * 2 * hrange / 5 - hrange

/-- The density wanted, smoothed with the kernel over a grid of five points in each direction,
Headers/Ic.h:1218-1274; the three nested loops as one sum over all points of the grid. -/
def smoothDensity (w0 : ℝ → ℝ) (kernrange h : ℝ) (rhofunc : Vec n ℝ → ℝ) (r : Vec n ℝ) : ℝ :=
  let hrange := kernrange * h
  let invh := 1 / h
  let invhsqd := invh * invh
  let hfactor := invh ^ n
  let dV := (2 * hrange / 5) ^ n
  (∑ g : Fin n → Fin 5,
    let dr : Vec n ℝ := fun k => offset hrange (g k)
    hfactor * w0 (√(dot dr dr * invhsqd)) * rhofunc (fun k => r k + dr k)) * dV

/-- The loop over the neighbours, ICRegularization.cpp:93-107 -/
def push (w0 : ℝ → ℝ) (reg : Part n → Part n → ℝ) (p : Part n) :
    List (Part n) → Vec n ℝ → Vec n ℝ
  | [], a => a
  | q :: l, a =>
    let dr : Vec n ℝ := fun k => q.r k - p.r k
    let drsqd := dot dr dr
    if p.hrangesqd ≤ drsqd then push w0 reg p l a
    else push w0 reg p l (fun k => a k - dr k * w0 (√(drsqd * (1 / (p.h * p.h)))) * reg p q)

/-- `icBox`: always taken as periodic, Common/Simulation.cpp:1148-1159 -/
structure IcBox (n : ℕ) where
  min : Vec n ℝ
  max : Vec n ℝ

/-- `size`, Simulation.cpp:1157 -/
def IcBox.size (b : IcBox n) (k : Fin n) : ℝ := b.max k - b.min k

/-- ICRegularization.cpp:110-113 -/
def clip (b : IcBox n) (a : Vec n ℝ) : Vec n ℝ :=
  fun k => Max.max (Min.min (a k) (b.size k)) (-b.size k)

/-- No further than half a smoothing length, ICRegularization.cpp:127-134 -/
def limit (h : ℝ) (a : Vec n ℝ) : Vec n ℝ :=
  let rdiff := √(∑ k, a k * a k)
  if 1 / 2 * h < rdiff then fun k => 1 / 2 * h * (a k / rdiff) else a

/-- ICRegularization.cpp:141; `none`: still going round after so many turns -/
def down (mx sz : ℝ) : ℕ → ℝ → Option ℝ
  | 0, _ => none
  | f + 1, r => if mx < r then down mx sz f (r - sz) else some r

/-- ICRegularization.cpp:142 -/
def up (mn sz : ℝ) : ℕ → ℝ → Option ℝ
  | 0, _ => none
  | f + 1, r => if r < mn then up mn sz f (r + sz) else some r

/-- Both loops -/
def wrap (mn mx : ℝ) (f : ℕ) (r : ℝ) : Option ℝ := (down mx (mx - mn) f r).bind (up mn (mx - mn) f)

/-- The displacement of one particle -/
def shift (w0 : ℝ → ℝ) (reg : Part n → Part n → ℝ) (b : IcBox n) (p : Part n)
    (neibs : List (Part n)) : Vec n ℝ :=
  limit p.h (clip b (push w0 reg p neibs fun _ => 0))

/-- What a round finds for given positions: the particles with their smoothing lengths and
densities, and the neighbours of each (ICRegularization.cpp:62-67, 84-87) -/
structure Env (N n : ℕ) where
  parts : (Fin N → Vec n ℝ) → Fin N → Part n
  neibs : (Fin N → Vec n ℝ) → Fin N → List (Part n)

/-- One round, ICRegularization.cpp:60-148: first all displacements, then all positions -/
def round {N : ℕ} (w0 : ℝ → ℝ) (reg : Part n → Part n → ℝ) (b : IcBox n) (f : ℕ) (e : Env N n)
    (x : Fin N → Vec n ℝ) : Option (Fin N → Vec n ℝ) :=
  let new := fun i k =>
    wrap (b.min k) (b.max k) f (x i k + shift w0 reg b (e.parts x i) (e.neibs x i) k)
  if h : ∀ i k, (new i k).isSome then some fun i k => (new i k).get (h i k) else none

/-- `Nreg` rounds -/
def rounds {N : ℕ} (w0 : ℝ → ℝ) (reg : Part n → Part n → ℝ) (b : IcBox n) (f : ℕ) :
    List (Env N n) → (Fin N → Vec n ℝ) → Option (Fin N → Vec n ℝ)
  | [], x => some x
  | e :: l, x => (round w0 reg b f e x).bind (rounds w0 reg b f l)

end Reg

end

end Gandalf
