import Verif.Spec.Cover
import Mathlib.Analysis.SpecialFunctions.Pow.Real

/-!
# Signals between particles
-/

set_option autoImplicit false

namespace Gandalf.SignalSpec
open KD

variable {n : ℕ}

/-- distance -/
noncomputable def distance (r r' : Vec n ℝ) : ℝ := √(∑ k, (r k - r' k) ^ 2)

/-- how fast two particles approach each other: the relative velocity along the line between them -/
noncomputable def approach (r v r' v' : Vec n ℝ) : ℝ := -(∑ k, (r k - r' k) * (v k - v' k)) / distance r r'

/-- sound speeds and approach: how fast the waves of two particles run towards each other -/
noncomputable def closing (P : Parts n) (i j : ℕ) : ℝ := P.sound j + P.sound i + approach (P.r j) (P.v j) (P.r i) (P.v i)

/-- the bounds of a cell that the walk uses -/
structure Bounds (P : Parts n) (l : List ℕ) (c : Props n) : Prop where
  N : c.N = l.length
  bb : ∀ i ∈ l, ∀ k, c.bbmin k ≤ P.r i k ∧ P.r i k ≤ c.bbmax k
  vbox : ∀ i ∈ l, ∀ k, c.vmin k ≤ P.v i k ∧ P.v i k ≤ c.vmax k
  sound : ∀ i ∈ l, P.sound i ≤ c.maxsound

/-- a tree over `l` whose cells have right bounds -/
structure BoundTree (T : Tree n) (P : Parts n) (pfuel : ℕ) (f : Forest) (l : List ℕ) : Prop where
  linked : f.Linked T.links T.Nend
  root : f.entry T.Nend = 0
  ends : T.Ncell ≤ T.Nend
  cells : ∀ c ∈ f.cells, c < T.Ncell
  covers : f.Covers (T.leafList pfuel) (fun c l' => Bounds P l' (T.cell c)) l

end Gandalf.SignalSpec
