import Verif.Model.KDStock
import Mathlib.Analysis.SpecialFunctions.Sqrt

/-! # The field of point masses -/

set_option autoImplicit false

namespace Gandalf.Gravity

variable {n : ℕ}

/-- distance with the floor `eps` on its square -/
noncomputable def gdist (eps : ℝ) (x y : Vec n ℝ) : ℝ := Real.sqrt (∑ k, (x k - y k) ^ 2 + eps)

/-- potential (positive) at `x` of masses `m` at `r` -/
noncomputable def pot (eps : ℝ) (src : List (ℝ × Vec n ℝ)) (x : Vec n ℝ) : ℝ :=
  (src.map fun s => s.1 / gdist eps x s.2).sum

/-- acceleration at `x` -/
noncomputable def acc (eps : ℝ) (src : List (ℝ × Vec n ℝ)) (x : Vec n ℝ) (k : Fin n) : ℝ :=
  (src.map fun s => s.1 * (s.2 k - x k) / gdist eps x s.2 ^ 3).sum

/-- second moments `Σ m (3 d_k d_l - |d|² δ_kl)` about `c` -/
noncomputable def tensor (src : List (ℝ × Vec n ℝ)) (c : Vec n ℝ) (k l : Fin n) : ℝ :=
  (src.map fun s => s.1 * (3 * (s.2 k - c k) * (s.2 l - c l) - if k = l then ∑ j, (s.2 j - c j) ^ 2 else 0)).sum

/-- `m`, `r` are mass and centre of mass of the sources -/
structure IsCentre (src : List (ℝ × Vec n ℝ)) (r : Vec n ℝ) (m : ℝ) : Prop where
  mass : m = (src.map Prod.fst).sum
  com : ∀ k, m * r k = (src.map fun s => s.1 * s.2 k).sum

/-- and `q` are their second moments, stored in the order xx, xy, yy, xz, yz (zz is minus the sum of xx and yy) -/
structure IsMoment (src : List (ℝ × Vec n ℝ)) (r : Vec n ℝ) (m : ℝ) (q : Fin 5 → ℝ) : Prop
    extends IsCentre src r m where
  xx : ∀ h : 0 < n, q 0 = tensor src r ⟨0, h⟩ ⟨0, h⟩
  xy : ∀ h : 1 < n, q 1 = tensor src r ⟨0, by omega⟩ ⟨1, h⟩
  yy : ∀ h : 1 < n, q 2 = tensor src r ⟨1, h⟩ ⟨1, h⟩
  xz : ∀ h : 2 < n, q 3 = tensor src r ⟨0, by omega⟩ ⟨2, h⟩
  yz : ∀ h : 2 < n, q 4 = tensor src r ⟨1, by omega⟩ ⟨2, h⟩

/-- the gravitating particles among `l` as point masses -/
def masses (P : KD.Parts n) (l : List ℕ) : List (ℝ × Vec n ℝ) := (l.filter P.grav).map fun i => (P.m i, P.r i)

end Gandalf.Gravity
