import Verif.Model.Ewald
import Verif.Spec.Field

/-! # What periodic gravity has to satisfy -/

set_option autoImplicit false

namespace Gandalf.Ewald

/-- the properties of the error function and of the Bessel functions that are used; `exactSpecial_ok` shows that the
functions defined by the usual integrals have them -/
structure Special.OK (S : Special) : Prop where
  erfc_deriv : ∀ x, HasDerivAt S.erfc (-(2 / Real.sqrt Real.pi) * Real.exp (-x ^ 2)) x
  erf_erfc : ∀ x, S.erf x = 1 - S.erfc x
  erf_odd : ∀ x, S.erf (-x) = -S.erf x
  J0_deriv : ∀ x, HasDerivAt S.J0 (-S.J1 x) x
  J1_zero : S.J1 0 = 0

/-- arguments of the constructor that make sense: some direction is periodic, lengths are positive -/
structure Cfg.OK (c : Cfg) : Prop where
  some_per : ∃ k, c.per k = true
  L_pos : ∀ k, 0 < c.L k
  mult_pos : 0 < c.mult
  ixmin_pos : 0 < c.ixmin
  ix_le : c.ixmin ≤ c.ixmax

/-- mirror image in direction `j` -/
def reflect (j : Fin 3) (p : P3) : P3 := fun k => if k = j then -p k else p k

/-- the components of a triple -/
def comp (h : ℤ × ℤ × ℤ) : Fin 3 → ℤ := ![h.1, h.2.1, h.2.2]

/-- the length that the series is measured in -/
noncomputable def unit (c : Cfg) : ℝ := c.L (lead c)

/-- the shift that belongs to an image -/
def shift (c : Cfg) (h : ℤ × ℤ × ℤ) : P3 := fun k => comp h k * c.L k

/-- `p` lies on no image of the origin -/
def OffLattice (c : Cfg) (p : P3) : Prop := ∀ h : ℤ × ℤ × ℤ, ∃ k, p k + shift c h k ≠ 0

/-- no shift in an open direction -/
def Allowed (c : Cfg) (h : ℤ × ℤ × ℤ) : Prop := ∀ k, c.per k = false → comp h k = 0

/-- `f` is a plane wave with `m k` periods along the box in direction `k`; its amplitude may depend on the open directions -/
def IsWave (c : Cfg) (m : ℤ × ℤ × ℤ) (f : P3 → ℝ) : Prop :=
  ∃ A : P3 → ℝ, (∀ p q : P3, (∀ k, c.per k = false → p k = q k) → A p = A q) ∧
    ∀ p, f p = A p * Real.cos (2 * Real.pi * ∑ k, comp m k * p k / c.L k)

/-- the vector from `p` to the nearest image: moved by whole periods in the periodic directions, where no component is over half a
period; in the open directions there is no other image -/
def Nearest (c : Cfg) (d e : P3) : Prop :=
  ∀ k, (c.per k = true → (∃ n : ℤ, e k = d k + n * c.L k) ∧ |e k| ≤ c.L k / 2) ∧ (c.per k = false → e k = d k)

/-- the eight corners of a cell -/
abbrev Corner := Fin 2 × Fin 2 × Fin 2

/-- the corner as a triple of steps -/
def Corner.step (q : Corner) : Fin 3 → ℕ := ![q.1.val, q.2.1.val, q.2.2.val]

/-- the table is usable: at least three points, and it covers half of the box in the periodic directions -/
structure Cfg.Covers (c : Cfg) : Prop where
  three : 3 ≤ c.grid
  half : 1 ≤ c.ratio

end Gandalf.Ewald
