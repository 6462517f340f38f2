import Verif.Model.MfvGravity
import Verif.Spec.Multipole

/-!
# Gravity of the meshless schemes: the laws meant
-/

set_option autoImplicit false

namespace Gandalf.MfvGrav

open Gravity

noncomputable section

variable {n N : ℕ}

/-- force of `q` on `p` (mass times acceleration) along the line of the pair: mean of the forces smoothed with either
length, and the terms for the variation of the smoothing lengths -/
def strength (K : Kernel) (s : ℝ) (p q : Part n) : ℝ :=
  p.m * q.m * ((K.wgrav (s / p.h) / p.h ^ 2 + K.wgrav (s / q.h) / q.h ^ 2) / 2) +
    (p.zeta * p.hfactor * K.w1 (s / p.h) + q.zeta * q.hfactor * K.w1 (s / q.h)) / 2

/-- acceleration of `p` by `q` -/
def pull (K : Kernel) (sm : ℝ) (p q : Part n) (k : Fin n) : ℝ :=
  let s := gdist sm p.r q.r
  strength K s p q / p.m * ((q.r k - p.r k) / s)

/-- potential of `q` at `p` -/
def well (K : Kernel) (sm : ℝ) (p q : Part n) : ℝ :=
  let s := gdist sm p.r q.r
  q.m * ((K.wpot (s / p.h) / p.h + K.wpot (s / q.h) / q.h) / 2)

/-- Newton's law -/
def newton (sm : ℝ) (x : Vec n ℝ) (m : ℝ) (y : Vec n ℝ) (k : Fin n) : ℝ := m * (y k - x k) / gdist sm x y ^ 3

/-- acceleration of gas by a star, smoothed with the mean of the lengths -/
def starPull (K : Kernel) (sm : ℝ) (p : Part n) (s : Star n) (k : Fin n) : ℝ :=
  let d := gdist sm p.r s.r
  let h := (p.h + s.h) / 2
  s.m * K.wgrav (d / h) / h ^ 2 * ((s.r k - p.r k) / d)

def starWell (K : Kernel) (sm : ℝ) (p : Part n) (s : Star n) : ℝ :=
  let d := gdist sm p.r s.r
  let h := (p.h + s.h) / 2
  s.m * K.wpot (d / h) / h

/-- both particles are outside the other's kernel -/
def Apart (K : Kernel) (p q : Part n) : Prop :=
  K.kernrange * p.h ≤ gdist 0 p.r q.r ∧ K.kernrange * q.h ≤ gdist 0 p.r q.r

/-- the lists name every other particle once, and only those outside the kernels for the direct sum; no distant cells -/
structure Split (K : Kernel) (sys : Fin N → Part n) (L : Fin N → Lists n) : Prop where
  all : ∀ i, ∃ l : List (Fin N), l.Nodup ∧ (∀ j, j ∈ l ↔ j ≠ i) ∧
    ((L i).hyd ++ (L i).smo ++ (L i).dir).Perm (l.map sys)
  far : ∀ i, ∀ q ∈ (L i).dir, 0 < q.h ∧ Apart K (sys i) q
  near : ∀ i, (L i).fa = (fun _ => 0) ∧ (L i).fpot = 0

end

end Gandalf.MfvGrav
