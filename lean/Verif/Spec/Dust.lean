import Verif.Model.Dust

/-! # What is meant by the conservation laws of the dust drag -/

set_option autoImplicit false

namespace Gandalf.Dust

variable {n N : ℕ} {P : Type}

/-- The lists name no image twice, only images under the shifts `S`, only particles of the other kind (the masks of
Common/Particle.cpp:46-63), and every particle of the other kind within the drag kernel of the gas particle of the
pair (what the tree search delivers, C08); they may contain more. -/
structure Complete (O : Ops n P) (K : Kernel) (S : Finset (Vec n ℝ)) (sys : Fin N → P) (nb : Lists n N) : Prop where
  nodup : ∀ i, (nb i).Nodup
  shifts : ∀ i, ∀ x ∈ nb i, x.2 ∈ S
  other : ∀ i, ∀ x ∈ nb i, O.gas (sys x.1) = !O.gas (sys i)
  all : ∀ i j, ∀ s ∈ S, O.gas (sys j) = (!O.gas (sys i)) →
    (let d : Vec n ℝ := fun k => O.r (sys i) k - (O.r (sys j) k + s k)
     let hg := if O.gas (sys i) then O.h (sys i) else O.h (sys j)
     K.wdrag (mag d * (1 / hg)) ≠ 0) → (j, s) ∈ nb i

/-- the shifts come in opposite pairs -/
def Symm (S : Finset (Vec n ℝ)) : Prop := ∀ s ∈ S, (fun k => -s k) ∈ S

/-- velocity at the end of the kick of length `dt` -/
def vend (O : Ops n P) (dt : ℝ) (p : P) : Vec n ℝ := fun k => O.vini p k + O.acc p k * dt

/-- kinetic energy at the end of the kick -/
noncomputable def kinetic (O : Ops n P) (dt : ℝ) (p : P) : ℝ := 1 / 2 * O.m p * ∑ k, vend O dt p k ^ 2

/-- what every particle needs -/
structure Good (O : Ops n P) (p : P) : Prop where
  m : 0 < O.m p
  rho : 0 < O.rho p

end Gandalf.Dust
