import Verif.Model.ExactRiemann
import Mathlib.Analysis.Calculus.Deriv.Basic

/-! The one-dimensional Euler equations of an ideal gas, for shocks and for self-similar flows. -/

set_option autoImplicit false

namespace Gandalf.Exact

/-- total energy per volume -/
noncomputable def Sample.energy (γ : ℝ) (a : Sample) : ℝ := a.d * a.u ^ 2 / 2 + a.p / (γ - 1)

/-- Conservation of mass, momentum and energy across a discontinuity of speed `s`. -/
structure RankineHugoniot (γ : ℝ) (a b : Sample) (s : ℝ) : Prop where
  mass : b.d * b.u - a.d * a.u = s * (b.d - a.d)
  mom : (b.d * b.u ^ 2 + b.p) - (a.d * a.u ^ 2 + a.p) = s * (b.d * b.u - a.d * a.u)
  energy : b.u * (b.energy γ + b.p) - a.u * (a.energy γ + a.p) = s * (b.energy γ - a.energy γ)

/-- A flow that depends on `s = x/t` only satisfies the Euler equations at `s`. -/
def SelfSimilarEuler (γ : ℝ) (w : ℝ → Sample) (s : ℝ) : Prop :=
  ∃ d' u' p' : ℝ, HasDerivAt (fun x => (w x).d) d' s ∧ HasDerivAt (fun x => (w x).u) u' s ∧
    HasDerivAt (fun x => (w x).p) p' s ∧
    ((w s).u - s) * d' + (w s).d * u' = 0 ∧
    ((w s).u - s) * u' + p' / (w s).d = 0 ∧
    ((w s).u - s) * p' + γ * (w s).p * u' = 0

/-- sound speed -/
noncomputable def Sample.sound (γ : ℝ) (a : Sample) : ℝ := √(γ * a.p / a.d)

/-- the data state on one side -/
def Side.state (S : Side) : Sample := ⟨S.d, S.u, S.p⟩

/-- A wave travelling to the left relative to the gas, from the state `a` far left to the state `b` on its right: either a
shock that compresses, or a rarefaction fan across which entropy and one Riemann invariant stay constant.  `w` gives the
state at every speed. -/
inductive LeftWave (γ : ℝ) (a b : Sample) (w : ℝ → Sample) (smax : ℝ) : Prop
  | shock (s0 : ℝ) (below : ∀ s ≤ s0, w s = a) (above : ∀ s, s0 < s → s ≤ smax → w s = b)
      (jump : RankineHugoniot γ a b s0) (compress : a.p < b.p ∧ a.d < b.d)
      (lax : b.u - b.sound γ < s0 ∧ s0 < a.u - a.sound γ) (behind : s0 < b.u)
  | fan (head tail : ℝ) (le : head ≤ tail) (behind : tail < b.u)
      (below : ∀ s ≤ head, w s = a) (above : ∀ s, tail ≤ s → s ≤ smax → w s = b)
      (expand : b.p ≤ a.p ∧ b.d ≤ a.d)
      (fan : ℝ → Sample) (inside : ∀ s, head ≤ s → s ≤ tail → w s = fan s)
      (euler : ∀ s, head ≤ s → s ≤ tail → SelfSimilarEuler γ fan s)
      (invariant : ∀ s, head ≤ s → s ≤ tail → 0 < (fan s).d ∧ (fan s).u - (fan s).sound γ = s ∧
        (fan s).u + 2 / (γ - 1) * (fan s).sound γ = a.u + 2 / (γ - 1) * a.sound γ ∧ (fan s).p / (fan s).d ^ γ = a.p / a.d ^ γ)

/-- mirror image of a state -/
def Sample.flip (a : Sample) : Sample := { a with u := -a.u }

end Gandalf.Exact
