import Verif.Model.HGuess

/-! What a first guess of the smoothing length is meant to be. -/

set_option autoImplicit false

namespace Gandalf

noncomputable section

namespace HGuess

variable {n : ℕ}

/-- Volume of a ball of radius `R` in `n` dimensions -/
def ball : ℕ → ℝ → ℝ
  | 1, R => 2 * R
  | 2, R => Real.pi * R ^ 2
  | 3, R => 4 / 3 * Real.pi * R ^ 3
  | _, _ => 0

/-- Number of particles in a ball, for `N` particles spread evenly over a volume -/
def inBall (n : ℕ) (N vol R : ℝ) : ℝ := N / vol * ball n R

/-- Smoothing length that the iteration ends with for `N` equal particles spread evenly over a volume:
`h_fac` times the mean distance -/
def even (n : ℕ) (h_fac N vol : ℝ) : ℝ := h_fac * (vol / N) ^ (1 / (n : ℝ))

/-- All coordinates are smaller than the initial values of the box -/
def Inside (ps : List (Part n)) : Prop := ∀ p ∈ ps, ∀ k, -big ≤ p.r k ∧ p.r k ≤ big

/-- The smallest box about the particles -/
def IsBox (ps : List (Part n)) (lo hi : Vec n ℝ) : Prop :=
  (∀ p ∈ ps, ∀ k, lo k ≤ p.r k ∧ p.r k ≤ hi k) ∧
    ∀ k, (∃ p ∈ ps, p.r k = lo k) ∧ ∃ p ∈ ps, p.r k = hi k

/-- Stretched and shifted -/
def move (l : ℝ) (c : Vec n ℝ) (ps : List (Part n)) : List (Part n) :=
  ps.map fun p => { p with r := fun k => l * p.r k + c k }

end HGuess

end

end Gandalf
