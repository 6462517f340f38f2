import Verif.Model.Vec
import Mathlib.Data.Real.Basic
import Mathlib.Data.Finset.Card
import Mathlib.Data.Finset.Range

/-! # What is expected of the positions of the initial conditions

Written without the model. `a i` is the position of particle `i` of `N`. -/

set_option autoImplicit false

namespace Gandalf.LatticeSpec

variable {n : ℕ}

/-- square of the distance of two points -/
def gapSq (x y : Vec n ℝ) : ℝ := ∑ k, (x k - y k) ^ 2

/-- any two particles are at least `d` apart -/
def Apart (N : ℕ) (a : ℕ → Vec n ℝ) (d : ℝ) : Prop :=
  ∀ i j, i < N → j < N → i ≠ j → d ^ 2 ≤ gapSq (a i) (a j)

/-- the same with the images of the particles in a periodic box with edges `L` (and no particle nearer than
`d` to an image of itself) -/
def ApartPeriodic (N : ℕ) (a : ℕ → Vec n ℝ) (L : Vec n ℝ) (d : ℝ) : Prop :=
  ∀ i j (s : Fin n → ℤ), i < N → j < N → (i ≠ j ∨ s ≠ 0) →
    d ^ 2 ≤ gapSq (a i) (fun k => a j k + s k * L k)

/-- the box is the union of the cells of edges `s` centred on the particles, without overlap: every point
of the box is in the cell of exactly one particle -/
def Tiles (N : ℕ) (a : ℕ → Vec n ℝ) (lo hi s : Vec n ℝ) : Prop :=
  ∀ y : Vec n ℝ, (∀ k, lo k ≤ y k ∧ y k < hi k) →
    ∃! i, i < N ∧ ∀ k, a i k - s k / 2 ≤ y k ∧ y k < a i k + s k / 2

/-- particles within the distance `R` of `c` -/
noncomputable def within (N : ℕ) (a : ℕ → Vec n ℝ) (c : Vec n ℝ) (R : ℝ) : Finset ℕ :=
  open Classical in (Finset.range N).filter fun i => gapSq (a i) c ≤ R ^ 2

end Gandalf.LatticeSpec
