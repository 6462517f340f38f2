import Verif.Model.BoundaryGhosts
import Verif.Spec.Box

/-! What the image of a particle across a combination of box sides is. A *choice* `σ` names at most
one side for every dimension. -/

set_option autoImplicit false

namespace Gandalf

variable {n : ℕ} {α τ τ' : Type*} [Field α] [LinearOrder α]

/-- boundary type of a side -/
def Domain.side (d : Domain n α) (k : Fin n) (s : Side) : Bnd := if s = 0 then d.lhs k else d.rhs k

/-- sides that have images behind them -/
def Domain.Imaging (d : Domain n α) (k : Fin n) (s : Side) : Prop :=
  d.side k s = .periodic ∨ d.side k s = .mirror

instance (d : Domain n α) (k : Fin n) (s : Side) : Decidable (d.Imaging k s) :=
  inferInstanceAs (Decidable (_ ∨ _))

/-- position of the image -/
def Domain.imagePos (d : Domain n α) (σ : Fin n → Option Side) (x : Vec n α) : Vec n α := fun k =>
  match σ k with
  | none => x k
  | some s =>
    if d.side k s = .mirror then 2 * (if s = 0 then d.min k else d.max k) - x k
    else if s = 0 then x k + d.size k else x k - d.size k

/-- `-1` in the dimensions in which the image is reflected -/
def Domain.imageSign (d : Domain n α) (σ : Fin n → Option Side) (k : Fin n) : α :=
  match σ k with
  | none => 1
  | some s => if d.side k s = .mirror then -1 else 1

/-- the same for the `n + 2` fluid variables: only the `n` velocities have a direction -/
def Domain.fluidSign (d : Domain n α) (σ : Fin n → Option Side) (i : Fin (n + 2)) : α :=
  if h : i.val < n then d.imageSign σ ⟨i.val, h⟩ else 1

/-- `q` is the image of `p`: position and velocity transformed, mass, smoothing length and all thermal
and other base data kept, flagged with exactly the sides used. -/
structure IsBndImage (d : Domain n α) (σ : Fin n → Option Side) (p q : GPart n α τ τ') : Prop where
  r : q.r = d.imagePos σ p.r
  v : ∀ k, q.v k = d.imageSign σ k * p.v k
  m : q.m = p.m
  h : q.h = p.h
  th : q.th = p.th
  start : q.r0 = p.r0 ∧ q.v0 = p.v0 ∧ q.a0 = p.a0
  periodic : ∀ k s, q.flags &&& Flags.periodic_bound_flags (dimFlag k) s ≠ 0 ↔
    σ k = some s ∧ d.side k s = .periodic
  mirror : ∀ k s, q.flags &&& Flags.mirror_bound_flags (dimFlag k) s ≠ 0 ↔
    σ k = some s ∧ d.side k s = .mirror
  other : ∀ b, b &&& Flags.any_boundary = 0 → b &&& Flags.active = 0 →
    (q.flags &&& b ≠ 0 ↔ p.flags &&& b ≠ 0)

/-- The image as a physical copy: accelerations, fluid variables, fluxes and the tensors of gradients
are transformed too. -/
structure IsFullImage (d : Domain n α) (σ : Fin n → Option Side) (p q : GPart n α τ τ') : Prop where
  r : q.r = d.imagePos σ p.r
  v : ∀ k, q.v k = d.imageSign σ k * p.v k
  a : ∀ k, q.a k = d.imageSign σ k * p.a k
  m : q.m = p.m
  h : q.h = p.h
  th : q.th = p.th
  start : q.r0 = p.r0 ∧ q.v0 = p.v0 ∧ q.a0 = p.a0
  ext : q.ext = p.ext
  Wprim : ∀ i, q.Wprim i = d.fluidSign σ i * p.Wprim i
  dQ : ∀ i, q.dQ i = d.fluidSign σ i * p.dQ i
  dQdt : ∀ i, q.dQdt i = d.fluidSign σ i * p.dQdt i
  grad : ∀ i j, q.grad i j = d.fluidSign σ i * d.imageSign σ j * p.grad i j
  B : ∀ i j, q.B i j = d.imageSign σ i * d.imageSign σ j * p.B i j

/-- A real particle carries no boundary flag. -/
def GPart.IsReal (p : GPart n α τ τ') : Prop := p.flags &&& Flags.any_boundary = 0

/-- The particle, moving with its velocity for the time `tghost`, comes within `x` of the side. -/
def Domain.Reaches (d : Domain n α) (tghost x : α) (p : GPart n α τ τ') (k : Fin n) (s : Side) :
    Prop :=
  ∃ t, 0 ≤ t ∧ t ≤ tghost ∧
    (if s = 0 then p.r k + p.v k * t < d.min k + x else d.max k - x < p.r k + p.v k * t)

end Gandalf
