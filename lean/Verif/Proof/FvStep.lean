import Verif.Spec.FvStep
import Mathlib.Tactic.FieldSimp
import Mathlib.Tactic.Ring
import Mathlib.Tactic.LinearCombination
import Mathlib.Algebra.CharP.Lemmas

/-! # Helper lemmas on the integrator of the meshless schemes -/

set_option autoImplicit false
set_option linter.unusedSectionVars false

namespace Gandalf.FvStep

variable {n N : ℕ} {α : Type*} [Field α] [CharZero α]

theorem arrayVars_u {Q : Cons n α} {p : Part n α} (hp : p.hydro = true) (hm : Q.mass ≠ 0) :
    (arrayVars Q p).u = Q.internal := by
  simp only [arrayVars, hp, if_true, Cons.internal, Cons.kinetic]
  congr 2
  rw [Finset.mul_sum]
  refine Finset.sum_congr rfl fun k _ => ?_
  field_simp

theorem internal_eq {Q R : Cons n α} (hm : Q.mass ≠ 0) (hR : R.mass = Q.mass) {x : α}
    (h : R.en - R.kinetic = Q.en - Q.kinetic + Q.mass * x) : R.internal = Q.internal + x := by
  rw [Cons.internal, Cons.internal, h, hR]
  field_simp

/-- no fluxes: internal energy at the end of a step -/
theorem endCons_internal {p : Part n α} (hm : p.Q0.mass ≠ 0) (hQ : p.dQ = Cons.zero) (hr : p.rdmdt = fun _ => 0) :
    (endCons p).internal = p.Q0.internal + (p.dt ^ 2 / 8 * ∑ k, (p.a k - p.a0 k) ^ 2 - p.cooling * p.dt / p.Q0.mass) := by
  refine internal_eq hm (by simp [endCons, Cons.add, hQ, Cons.zero]) ?_
  simp only [endCons, Cons.kinetic, Cons.add, Cons.zero, hQ, hr, add_zero, dot, mul_zero, Finset.sum_const_zero]
  have key : (∑ k, 1 / 2 * p.dt * (p.a0 k * (p.Q0.mom k + 1 / 2 * p.Q0.mass * p.a0 k * p.dt) +
        p.a k * (p.Q0.mom k + 1 / 2 * p.Q0.mass * p.a k * p.dt))) -
      ∑ k, (p.Q0.mom k + 1 / 2 * p.dt * (p.Q0.mass * p.a0 k + p.Q0.mass * p.a k)) ^ 2 / (2 * p.Q0.mass) =
      p.Q0.mass * (p.dt ^ 2 / 8 * ∑ k, (p.a k - p.a0 k) ^ 2) - ∑ k, p.Q0.mom k ^ 2 / (2 * p.Q0.mass) := by
    rw [← Finset.sum_sub_distrib, Finset.mul_sum, Finset.mul_sum, ← Finset.sum_sub_distrib]
    refine Finset.sum_congr rfl fun k _ => ?_
    field_simp
    ring
  have e : p.Q0.mass * (p.cooling * p.dt / p.Q0.mass) = p.cooling * p.dt := by field_simp
  linear_combination key + e

/-- no fluxes: internal energy between -/
theorem advanced_internal {p : Part n α} (dt : α) (hm : p.Q0.mass ≠ 0) :
    (advancedGrav dt p p.Q0).internal =
      p.Q0.internal + (dt * (p.dt - dt) / 2 * ∑ k, p.a0 k ^ 2 - p.cooling * dt / p.Q0.mass) := by
  refine internal_eq (R := advancedGrav dt p p.Q0) hm rfl ?_
  simp only [advancedGrav, Cons.kinetic]
  have key : (∑ k, 1 / 2 * dt * (p.a0 k * (p.Q0.mom k + 1 / 2 * p.Q0.mass * p.a0 k * p.dt) +
        p.a0 k * (p.Q0.mom k + 1 / 2 * p.Q0.mass * p.a0 k * p.dt))) -
      ∑ k, (p.Q0.mom k + 1 / 2 * (p.Q0.mass + p.Q0.mass) * p.a0 k * dt) ^ 2 / (2 * p.Q0.mass) =
      p.Q0.mass * (dt * (p.dt - dt) / 2 * ∑ k, p.a0 k ^ 2) - ∑ k, p.Q0.mom k ^ 2 / (2 * p.Q0.mass) := by
    rw [← Finset.sum_sub_distrib, Finset.mul_sum, Finset.mul_sum, ← Finset.sum_sub_distrib]
    refine Finset.sum_congr rfl fun k _ => ?_
    field_simp
    ring
  have e : p.Q0.mass * (p.cooling * dt / p.Q0.mass) = p.cooling * dt := by field_simp
  linear_combination key + e

theorem boost_internal (w : Vec n α) {Q : Cons n α} (hm : Q.mass ≠ 0) : (Q.boost w).internal = Q.internal := by
  have := internal_eq (Q := Q) (R := Q.boost w) hm rfl (x := 0) ?_
  · rw [this, add_zero]
  · simp only [Cons.boost, Cons.kinetic]
    have key : (∑ k, (w k * Q.mom k + Q.mass * w k ^ 2 / 2)) - ∑ k, (Q.mom k + Q.mass * w k) ^ 2 / (2 * Q.mass) =
        -∑ k, Q.mom k ^ 2 / (2 * Q.mass) := by
      rw [← Finset.sum_sub_distrib, ← Finset.sum_neg_distrib]
      refine Finset.sum_congr rfl fun k _ => ?_
      field_simp
      ring
    linear_combination key

theorem boost_add (w : Vec n α) (A B : Cons n α) : (A.add B).boost w = (A.boost w).add (B.boost w) := by
  ext1
  · funext k; simp only [Cons.boost, Cons.add]; ring
  · rfl
  · simp only [Cons.boost, Cons.add]
    have : ∑ k, (w k * (A.mom k + B.mom k) + (A.mass + B.mass) * w k ^ 2 / 2) =
        ∑ k, (w k * A.mom k + A.mass * w k ^ 2 / 2) + ∑ k, (w k * B.mom k + B.mass * w k ^ 2 / 2) := by
      rw [← Finset.sum_add_distrib]
      exact Finset.sum_congr rfl fun k _ => by ring
    rw [this]; ring

theorem boost_smul (w : Vec n α) (x : α) (A : Cons n α) : (Cons.smul x A).boost w = Cons.smul x (A.boost w) := by
  ext1
  · funext k; simp only [Cons.boost, Cons.smul]; ring
  · rfl
  · simp only [Cons.boost, Cons.smul]
    rw [add_mul, Finset.sum_mul]
    congr 1
    exact Finset.sum_congr rfl fun k _ => by ring

/-! ### turns of the main loop -/

/-- what does not change before the end of a step -/
structure Keeps (p q : Part n α) : Prop where
  r0 : q.r0 = p.r0
  v0 : q.v0 = p.v0
  a0 : q.a0 = p.a0
  Q0 : q.Q0 = p.Q0
  dt : q.dt = p.dt
  tlast : q.tlast = p.tlast
  nlast : q.nlast = p.nlast
  nstep : q.nstep = p.nstep
  endts : q.endts = p.endts
  dead : q.dead = p.dead
  hydro : q.hydro = p.hydro
  cooling : q.cooling = p.cooling

theorem Keeps.refl (p : Part n α) : Keeps p p := ⟨rfl, rfl, rfl, rfl, rfl, rfl, rfl, rfl, rfl, rfl, rfl, rfl⟩

theorem Keeps.trans {p q r : Part n α} (h : Keeps p q) (g : Keeps q r) : Keeps p r :=
  ⟨g.r0.trans h.r0, g.v0.trans h.v0, g.a0.trans h.a0, g.Q0.trans h.Q0, g.dt.trans h.dt, g.tlast.trans h.tlast,
    g.nlast.trans h.nlast, g.nstep.trans h.nstep, g.endts.trans h.endts, g.dead.trans h.dead, g.hydro.trans h.hydro,
    g.cooling.trans h.cooling⟩

theorem gain_keeps (G : Gain n α) (p : Part n α) : Keeps p (gain G p) :=
  ⟨rfl, rfl, rfl, rfl, rfl, rfl, rfl, rfl, rfl, rfl, rfl, rfl⟩

theorem advance_keeps (st : Bool) (m : ℤ) (ts : α) (p : Part n α) : Keeps p (advance st m ts p) := by
  rw [advance]
  by_cases h : p.dead = true
  · rw [if_pos h]; exact Keeps.refl p
  · rw [if_neg h]; exact ⟨rfl, rfl, rfl, rfl, rfl, rfl, rfl, rfl, rfl, rfl, rfl, rfl⟩

theorem advance_more (st : Bool) (m : ℤ) (ts : α) (p : Part n α) :
    (advance st m ts p).dQ = p.dQ ∧ (advance st m ts p).dQdt = p.dQdt ∧ (advance st m ts p).rdmdt = p.rdmdt := by
  rw [advance]
  by_cases h : p.dead = true
  · rw [if_pos h]; exact ⟨rfl, rfl, rfl⟩
  · rw [if_neg h]; exact ⟨rfl, rfl, rfl⟩

theorem force_keeps (F : (Fin N → Vec n α) → (Fin N → α) → Fin N → Vec n α) (s : Fin N → Part n α) (i : Fin N) :
    Keeps (s i) (force F s i) ∧ (force F s i).dQ = (s i).dQ ∧ (force F s i).rdmdt = (s i).rdmdt ∧
      (force F s i).r = (s i).r := by
  rw [force]
  by_cases h : (s i).active = true
  · rw [if_pos h]; exact ⟨⟨rfl, rfl, rfl, rfl, rfl, rfl, rfl, rfl, rfl, rfl, rfl, rfl⟩, rfl, rfl, rfl⟩
  · rw [if_neg h]; exact ⟨Keeps.refl _, rfl, rfl, rfl⟩

/-- the state before the end of the step -/
def moved (st : Bool) (F : (Fin N → Vec n α) → (Fin N → α) → Fin N → Vec n α) (s : Fin N → Part n α) (c : Tick N n α) :
    Fin N → Part n α := force F fun i => advance st c.m c.ts (gain (c.gain i) (s i))

theorem moved_keeps (st : Bool) (F : (Fin N → Vec n α) → (Fin N → α) → Fin N → Vec n α) (s : Fin N → Part n α)
    (c : Tick N n α) (i : Fin N) : Keeps (s i) (moved st F s c i) ∧ (moved st F s c i).dQ = (s i).dQ.add (c.gain i).dQ ∧
      (moved st F s c i).rdmdt = (fun k => (s i).rdmdt k + (c.gain i).rdmdt k) ∧
      (moved st F s c i).r = (advance st c.m c.ts (gain (c.gain i) (s i))).r := by
  obtain ⟨h1, h2, h3, h4⟩ := force_keeps F (fun i => advance st c.m c.ts (gain (c.gain i) (s i))) i
  obtain ⟨g2, _, g3⟩ := advance_more st c.m c.ts (gain (c.gain i) (s i))
  exact ⟨((gain_keeps _ _).trans (advance_keeps st c.m c.ts _)).trans h1, h2.trans g2, h3.trans g3, h4⟩

theorem tick_mid (st : Bool) (F : (Fin N → Vec n α) → (Fin N → α) → Fin N → Vec n α) (s : Fin N → Part n α)
    (c : Tick N n α) (i : Fin N) (h : c.m - (s i).nlast ≠ (s i).nstep) (he : (s i).endts = false) :
    Keeps (s i) (tick st F s c i) ∧ (tick st F s c i).dQ = (s i).dQ.add (c.gain i).dQ ∧
      (tick st F s c i).rdmdt = fun k => (s i).rdmdt k + (c.gain i).rdmdt k := by
  obtain ⟨k, h1, h2, _⟩ := moved_keeps st F s c i
  have e : tick st F s c i = finish c.m c.t (assign c.m (c.ns i) (c.d i) (moved st F s c i)) := rfl
  have ea : assign c.m (c.ns i) (c.d i) (moved st F s c i) = moved st F s c i := by
    rw [assign, if_neg (by rw [k.nlast, k.nstep]; exact h)]
  rw [e, ea, finish]
  by_cases hd : (moved st F s c i).dead = true
  · rw [if_pos hd]; exact ⟨k, h1, h2⟩
  · rw [if_neg hd, if_neg (by rw [k.nlast, k.nstep, k.endts, he]; simpa using h)]
    exact ⟨⟨k.r0, k.v0, k.a0, k.Q0, k.dt, k.tlast, k.nlast, k.nstep, k.endts, k.dead, k.hydro, k.cooling⟩, h1, h2⟩

theorem tick_end (st : Bool) (F : (Fin N → Vec n α) → (Fin N → α) → Fin N → Vec n α) (s : Fin N → Part n α)
    (c : Tick N n α) (i : Fin N) (h : c.m - (s i).nlast = (s i).nstep) (hd : (s i).dead = false) :
    tick st F s c i = record c.m c.t (endCons (moved st F s c i)) (arrayVars (endCons (moved st F s c i))
      { moved st F s c i with
        endts := true
        nstep := c.ns i
        dtNext := c.d i }) := by
  obtain ⟨k, _⟩ := moved_keeps st F s c i
  have e : tick st F s c i = finish c.m c.t (assign c.m (c.ns i) (c.d i) (moved st F s c i)) := rfl
  rw [e, assign, if_pos (by rw [k.nlast, k.nstep]; exact h), finish,
    if_neg (by simp [k.dead, hd]), if_pos (Or.inr rfl)]
  rfl

/-- all particles take the same step -/
structure Together (s : Fin N → Part n α) (m M : ℤ) (h : α) : Prop where
  nlast : ∀ i, (s i).nlast = m
  nstep : ∀ i, (s i).nstep = M
  endts : ∀ i, (s i).endts = false
  dead : ∀ i, (s i).dead = false
  dt : ∀ i, (s i).dt = h

/-- the sum of what the flux loop adds -/
def gains (cs : List (Tick N n α)) (i : Fin N) : Cons n α := cs.foldl (fun A c => A.add (c.gain i).dQ) Cons.zero

theorem foldl_gain (cs : List (Tick N n α)) (i : Fin N) : ∀ A : Cons n α,
    cs.foldl (fun A c => A.add (c.gain i).dQ) A = A.add (gains cs i) := by
  induction cs with
  | nil => intro A; simp [gains, Cons.add, Cons.zero]
  | cons c cs ih =>
    intro A
    have e : gains (c :: cs) i = (Cons.zero.add (c.gain i).dQ).add (gains cs i) := ih _
    rw [List.foldl_cons, ih, e]
    ext1
    · funext k; simp only [Cons.add, Cons.zero]; ring
    · simp only [Cons.add, Cons.zero]; ring
    · simp only [Cons.add, Cons.zero]; ring

theorem gains_append (cs : List (Tick N n α)) (c : Tick N n α) (i : Fin N) :
    gains (cs ++ [c]) i = (gains cs i).add (c.gain i).dQ := by
  rw [gains, List.foldl_append]; rfl

theorem run_mid (st : Bool) (F : (Fin N → Vec n α) → (Fin N → α) → Fin N → Vec n α) {m M : ℤ} {h : α}
    (cs : List (Tick N n α)) (hcs : ∀ c ∈ cs, c.m ≠ m + M) : ∀ (s : Fin N → Part n α), Together s m M h →
    (∀ i, Keeps (s i) (cs.foldl (tick st F) s i) ∧ (cs.foldl (tick st F) s i).dQ = (s i).dQ.add (gains cs i) ∧
      ((∀ c ∈ cs, (c.gain i).rdmdt = fun _ => 0) → (cs.foldl (tick st F) s i).rdmdt = (s i).rdmdt)) ∧
    Together (cs.foldl (tick st F) s) m M h := by
  induction cs using List.reverseRecOn with
  | nil => intro s hs; exact ⟨fun i => ⟨Keeps.refl _, by simp [gains, Cons.add, Cons.zero], fun _ => rfl⟩, hs⟩
  | append_singleton cs c ih =>
    intro s hs
    obtain ⟨g1, g2⟩ := ih (fun c' h' => hcs c' (by simp [h'])) s hs
    rw [List.foldl_append]
    simp only [List.foldl_cons, List.foldl_nil]
    have key := fun i => tick_mid st F (cs.foldl (tick st F) s) c i (by
      have := hcs c (by simp)
      rw [g2.nlast, g2.nstep]
      omega) (g2.endts i)
    refine ⟨fun i => ⟨(g1 i).1.trans (key i).1, ?_, ?_⟩, ⟨fun i => ?_, fun i => ?_, fun i => ?_, fun i => ?_, fun i => ?_⟩⟩
    · rw [(key i).2.1, (g1 i).2.1, gains_append]
      ext1
      · funext k; simp only [Cons.add]; ring
      · simp only [Cons.add]; ring
      · simp only [Cons.add]; ring
    · intro hr
      rw [(key i).2.2, (g1 i).2.2 fun c hc => hr c (by simp [hc]), hr c (by simp)]
      simp
    · rw [(key i).1.nlast, g2.nlast]
    · rw [(key i).1.nstep, g2.nstep]
    · rw [(key i).1.endts, g2.endts]
    · rw [(key i).1.dead, g2.dead]
    · rw [(key i).1.dt, g2.dt]

end Gandalf.FvStep
