import Verif.Common
import Verif.Model.Vec
import Mathlib.Analysis.Calculus.Deriv.Basic
import Mathlib.Analysis.Calculus.Deriv.Polynomial

/-!
# What a trajectory is
-/

set_option autoImplicit false

namespace Gandalf

/-- a trajectory with acceleration `g` -/
structure Path (x v g : ℝ → ℝ) : Prop where
  pos : ∀ t, HasDerivAt x (v t) t
  vel : ∀ t, HasDerivAt v (g t) t

/-- `g1`, … are the successive derivatives of `g` -/
structure Smooth4 (g g1 g2 g3 g4 : ℝ → ℝ) : Prop where
  d1 : ∀ t, HasDerivAt g (g1 t) t
  d2 : ∀ t, HasDerivAt g1 (g2 t) t
  d3 : ∀ t, HasDerivAt g2 (g3 t) t
  d4 : ∀ t, HasDerivAt g3 (g4 t) t

/-- the value of a polynomial and of its derivatives -/
noncomputable def polyD (p : Polynomial ℝ) (j : ℕ) (t : ℝ) : ℝ := (Polynomial.derivative^[j] p).eval t

end Gandalf
