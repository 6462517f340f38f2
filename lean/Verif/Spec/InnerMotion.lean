import Verif.Model.InnerMotion

/-!
# What the inner motion of a sub-system should be
-/

set_option autoImplicit false

namespace Gandalf.Inner

open Stars

variable {n N : ℕ}

/-- the centre of mass of the members, its velocity and its acceleration are `R`, `V`, `A` -/
def CentredOn (c : Fin N → Child n) (R V A : Vec n ℝ) : Prop :=
  ∀ k, ∑ i, (c i).m * (c i).r k = (∑ i, (c i).m) * R k ∧ ∑ i, (c i).m * (c i).v k = (∑ i, (c i).m) * V k ∧
    ∑ i, (c i).m * (c i).a k = (∑ i, (c i).m) * A k

/-- every system of a hierarchy sits in the centre of mass of its members and moves with it -/
inductive Coherent : Node n → Prop
  | star (b : Child n) : Coherent (.star b)
  | sys (b : Child n) (N : ℕ) (c : Fin N → Node n) : CentredOn (fun i => (c i).top) b.r b.v b.a →
      (∀ i, Coherent (c i)) → Coherent (.sys b N c)

/-- two states of the same hierarchy with the same masses, and with the same separations and relative
velocities of the members of every system -/
inductive Alike : Node n → Node n → Prop
  | star (b b' : Child n) : b.m = b'.m → Alike (.star b) (.star b')
  | sys (b b' : Child n) (N : ℕ) (c c' : Fin N → Node n) : b.m = b'.m →
      (∀ i j k, (c i).top.r k - (c j).top.r k = (c' i).top.r k - (c' j).top.r k) →
      (∀ i j k, (c i).top.v k - (c j).top.v k = (c' i).top.v k - (c' j).top.v k) →
      (∀ i, Alike (c i) (c' i)) → Alike (.sys b N c) (.sys b' N c')

/-- the mass of a star is positive, that of a system is the mass of its members (of which it has some) -/
inductive Massed : Node n → Prop
  | star (b : Child n) : 0 < b.m → Massed (.star b)
  | sys (b : Child n) (N : ℕ) (c : Fin N → Node n) : 0 < N → b.m = ∑ i, (c i).top.m → (∀ i, Massed (c i)) →
      Massed (.sys b N c)

/-- sum over the stars of a hierarchy -/
def starSum (f : Child n → ℝ) : Node n → ℝ
  | .star b => f b
  | .sys _ _ c => ∑ i, starSum f (c i)

/-- Newton's acceleration of member `i` by the other members -/
noncomputable def grav (m : Fin N → ℝ) (r : Fin N → Vec n ℝ) (i : Fin N) (k : Fin n) : ℝ :=
  ∑ j, if i = j then 0 else m j * (r j k - r i k) / √(∑ l, (r j l - r i l) ^ 2) ^ 3

/-- the energy of the members in their own gravity, each pair once (as the code counts it: positive) -/
noncomputable def pairEnergy (m : Fin N → ℝ) (r : Fin N → Vec n ℝ) : ℝ :=
  1 / 2 * ∑ i, m i * ∑ j, if i = j then 0 else m j / √(∑ l, (r j l - r i l) ^ 2)

/-- a kick-drift-kick step of length `τ` of the motion of the members relative to each other: from the
values at the beginning of the step (`r0`, `v0`, `a0`) of `c` to `r`, `v`, `a` of `c'`, with Newton's
accelerations at the end -/
def RelStep (τ : ℝ) (c c' : Fin N → Child n) : Prop :=
  ∀ i j k,
    (c' i).r k - (c' j).r k = ((c i).r0 k - (c j).r0 k) + ((c i).v0 k - (c j).v0 k) * τ +
      1 / 2 * ((c i).a0 k - (c j).a0 k) * τ ^ 2 ∧
    (c' i).v k - (c' j).v k = ((c i).v0 k - (c j).v0 k) +
      1 / 2 * (((c i).a0 k - (c j).a0 k) + ((c' i).a k - (c' j).a k)) * τ ∧
    (c' i).a k - (c' j).a k = grav (fun i => (c i).m) (fun i => (c' i).r) i k -
      grav (fun i => (c i).m) (fun i => (c' i).r) j k

/-- the open box -/
def OpenBox (d : Domain n ℝ) : Prop := ∀ k, ¬(d.lhs k = .periodic ∧ d.rhs k = .periodic)

end Gandalf.Inner
