import Verif.Model.GhostFinder
import Verif.Spec.Box

/-! What a mirror image of a particle is. A *choice* `σ` says for every dimension whether and about
which wall the particle is reflected. -/

set_option autoImplicit false

namespace Gandalf

variable {n : ℕ} {α : Type*} [Field α] [LinearOrder α]

/-- position of the image of `x` -/
def Domain.mirrorPos (d : Domain n α) (σ : Fin n → Option Side) (x : Vec n α) : Vec n α := fun k =>
  match σ k with
  | none => x k
  | some s => 2 * (if s = 0 then d.min k else d.max k) - x k

/-- image of a velocity or acceleration -/
def mirrorVel (σ : Fin n → Option Side) (v : Vec n α) : Vec n α := fun k =>
  if σ k = none then v k else -v k

/-- The choices that only use reflecting walls. -/
def Domain.MirrorChoice (d : Domain n α) (σ : Fin n → Option Side) : Prop :=
  ∀ k, (σ k = some 0 → d.lhs k = .mirror) ∧ (σ k = some 1 → d.rhs k = .mirror)

/-- `q` is the image of `p` under `σ`, carrying all other data unchanged and flagged with exactly the
walls used. -/
structure IsReflection (d : Domain n α) (σ : Fin n → Option Side) (p q : NPart n α) : Prop where
  r : q.r = d.mirrorPos σ p.r
  v : q.v = mirrorVel σ p.v
  a : q.a = mirrorVel σ p.a
  m : q.m = p.m
  h : q.h = p.h
  hrangesqd : q.hrangesqd = p.hrangesqd
  ptype : q.ptype = p.ptype
  level : q.level = p.level
  iorig : q.iorig = p.iorig
  flagged : ∀ b : BitVec 32, (q.flags &&& b ≠ 0 ↔ p.flags &&& b ≠ 0 ∨
    ∃ k s, σ k = some s ∧ Flags.mirror_bound_flags (dimFlag k) s &&& b ≠ 0)

end Gandalf
