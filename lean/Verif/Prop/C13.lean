import Verif.Model.Boundary
import Verif.Spec.Box
import Mathlib.Tactic.Linarith
import Mathlib.Tactic.Ring
import Mathlib.Data.Rat.Defs
import Mathlib.Algebra.Order.Ring.Rat

/-!
# C13 – particles leaving the box
-/

set_option autoImplicit false
set_option linter.unusedSectionVars false

namespace Gandalf

variable {n : ℕ} {α : Type*} [Field α] [LinearOrder α] [IsStrictOrderedRing α]

/-! ### Specification -/

/-- nothing happened to component `k` -/
def Kin.Same (k : Fin n) (p q : Kin n α) : Prop :=
  q.r k = p.r k ∧ q.r0 k = p.r0 k ∧ q.v k = p.v k ∧ q.v0 k = p.v0 k ∧ q.a k = p.a k ∧ q.a0 k = p.a0 k

/-- component `k` of current and initial position moved by `x`, all else unchanged -/
def Kin.Moved (k : Fin n) (x : α) (p q : Kin n α) : Prop :=
  q.r k = p.r k + x ∧ q.r0 k = p.r0 k + x ∧ q.v k = p.v k ∧ q.v0 k = p.v0 k ∧ q.a k = p.a k ∧
    q.a0 k = p.a0 k

/-- component `k` reflected about `x`: both positions have their mean with the new one at `x`, all
rates change sign -/
def Kin.Reflected (k : Fin n) (x : α) (p q : Kin n α) : Prop :=
  q.r k + p.r k = 2 * x ∧ q.r0 k + p.r0 k = 2 * x ∧ q.v k = -p.v k ∧ q.v0 k = -p.v0 k ∧
    q.a k = -p.a k ∧ q.a0 k = -p.a0 k

/-! ### One dimension at a time -/

theorem checkDim_other (d : Domain n α) (p : Kin n α) (k j : Fin n) (h : j ≠ k) :
    Kin.Same j p (p.checkDim d k) := by
  have l : ∀ p : Kin n α, Kin.Same j p (p.checkLhs d k) := by
    intro p
    unfold Kin.checkLhs
    by_cases h1 : p.r k < d.min k
    · rw [if_pos h1]
      by_cases h2 : d.lhs k = .periodic <;> by_cases h3 : d.lhs k = .mirror ∨ d.lhs k = .wall <;>
        simp [h2, h3, Kin.Same, Kin.shift, Kin.bounce, Function.update_of_ne h]
    · rw [if_neg h1]; simp [Kin.Same]
  have r : ∀ p : Kin n α, Kin.Same j p (p.checkRhs d k) := by
    intro p
    unfold Kin.checkRhs
    by_cases h1 : p.r k > d.max k
    · rw [if_pos h1]
      by_cases h2 : d.rhs k = .periodic <;> by_cases h3 : d.rhs k = .mirror ∨ d.rhs k = .wall <;>
        simp [h2, h3, Kin.Same, Kin.shift, Kin.bounce, Function.update_of_ne h]
    · rw [if_neg h1]; simp [Kin.Same]
  obtain ⟨a1, a2, a3, a4, a5, a6⟩ := l p
  obtain ⟨b1, b2, b3, b4, b5, b6⟩ := r (p.checkLhs d k)
  exact ⟨b1.trans a1, b2.trans a2, b3.trans a3, b4.trans a4, b5.trans a5, b6.trans a6⟩

/-- component `j` depends on the step of dimension `j` only -/
theorem checkFold_same (d : Domain n α) (j : Fin n) : ∀ (ks : List (Fin n)) (p : Kin n α), j ∉ ks →
    Kin.Same j p (ks.foldl (Kin.checkDim d) p)
  | [], p, _ => ⟨rfl, rfl, rfl, rfl, rfl, rfl⟩
  | k :: ks, p, h => by
    rw [List.mem_cons, not_or] at h
    obtain ⟨a1, a2, a3, a4, a5, a6⟩ := checkDim_other d p k j h.1
    obtain ⟨b1, b2, b3, b4, b5, b6⟩ := checkFold_same d j ks (p.checkDim d k) h.2
    exact ⟨b1.trans a1, b2.trans a2, b3.trans a3, b4.trans a4, b5.trans a5, b6.trans a6⟩

/-- component `j` of `p` as a one-dimensional record -/
def Kin.comp (p : Kin n α) (j : Fin n) : Fin 6 → α
  | 0 => p.r j | 1 => p.r0 j | 2 => p.v j | 3 => p.v0 j | 4 => p.a j | 5 => p.a0 j

theorem comp_eq_of_same {k : Fin n} {p q : Kin n α} (h : Kin.Same k p q) : q.comp k = p.comp k := by
  obtain ⟨h1, h2, h3, h4, h5, h6⟩ := h
  funext i
  fin_cases i <;> simp [Kin.comp, *]

theorem checkDim_comp (d : Domain n α) (k : Fin n) (p q : Kin n α) (h : q.comp k = p.comp k) :
    (q.checkDim d k).comp k = (p.checkDim d k).comp k := by
  have e1 : q.r k = p.r k := congrFun h 0
  have e2 : q.r0 k = p.r0 k := congrFun h 1
  have e3 : q.v k = p.v k := congrFun h 2
  have e4 : q.v0 k = p.v0 k := congrFun h 3
  have e5 : q.a k = p.a k := congrFun h 4
  have e6 : q.a0 k = p.a0 k := congrFun h 5
  have l : ∀ p q : Kin n α, q.comp k = p.comp k → (q.checkLhs d k).comp k = (p.checkLhs d k).comp k := by
    intro p q h
    have e1 : q.r k = p.r k := congrFun h 0
    have e2 : q.r0 k = p.r0 k := congrFun h 1
    have e3 : q.v k = p.v k := congrFun h 2
    have e4 : q.v0 k = p.v0 k := congrFun h 3
    have e5 : q.a k = p.a k := congrFun h 4
    have e6 : q.a0 k = p.a0 k := congrFun h 5
    unfold Kin.checkLhs
    rw [e1]
    by_cases h1 : p.r k < d.min k
    · rw [if_pos h1, if_pos h1]
      by_cases h2 : d.lhs k = .periodic <;> by_cases h3 : d.lhs k = .mirror ∨ d.lhs k = .wall <;>
        · funext i
          fin_cases i <;> simp [h2, h3, Kin.comp, Kin.shift, Kin.bounce, e1, e2, e3, e4, e5, e6]
    · rw [if_neg h1, if_neg h1, h]
  have r : ∀ p q : Kin n α, q.comp k = p.comp k → (q.checkRhs d k).comp k = (p.checkRhs d k).comp k := by
    intro p q h
    have e1 : q.r k = p.r k := congrFun h 0
    have e2 : q.r0 k = p.r0 k := congrFun h 1
    have e3 : q.v k = p.v k := congrFun h 2
    have e4 : q.v0 k = p.v0 k := congrFun h 3
    have e5 : q.a k = p.a k := congrFun h 4
    have e6 : q.a0 k = p.a0 k := congrFun h 5
    unfold Kin.checkRhs
    rw [e1]
    by_cases h1 : p.r k > d.max k
    · rw [if_pos h1, if_pos h1]
      by_cases h2 : d.rhs k = .periodic <;> by_cases h3 : d.rhs k = .mirror ∨ d.rhs k = .wall <;>
        · funext i
          fin_cases i <;> simp [h2, h3, Kin.comp, Kin.shift, Kin.bounce, e1, e2, e3, e4, e5, e6]
    · rw [if_neg h1, if_neg h1, h]
  exact r _ _ (l _ _ h)

theorem checkFold_comp (d : Domain n α) (j : Fin n) : ∀ (ks : List (Fin n)) (p : Kin n α), ks.Nodup →
    j ∈ ks → (ks.foldl (Kin.checkDim d) p).comp j = (p.checkDim d j).comp j
  | [], _, _, h => by cases h
  | k :: ks, p, hnd, hj => by
    rw [List.nodup_cons] at hnd
    rw [List.foldl_cons]
    by_cases e : j = k
    · subst e
      exact comp_eq_of_same (checkFold_same d j ks _ hnd.1)
    · rw [checkFold_comp d j ks _ hnd.2 (by rcases List.mem_cons.mp hj with h | h; exact absurd h e; exact h)]
      exact checkDim_comp d j _ _ (comp_eq_of_same (checkDim_other d p k j e))

theorem check_comp (d : Domain n α) (p : Kin n α) (j : Fin n) :
    (p.check d).comp j = (p.checkDim d j).comp j :=
  checkFold_comp d j _ p (List.nodup_finRange n) (List.mem_finRange j)

/-! ### The theorems -/

/-- **C13, what happens.** For each dimension: inside, or outside beyond an open side, nothing
changes; beyond a periodic side by less than a box length, current and initial position move by one
box length and nothing else changes; beyond a mirror or wall by less than a box length, both
positions are reflected and all rates change sign. -/
theorem C13_outcome (d : Domain n α) (hd : d.WF) (p : Kin n α) (k : Fin n)
    (hlo : d.min k - d.size k < p.r k) (hhi : p.r k < d.max k + d.size k) :
    (d.min k ≤ p.r k → p.r k ≤ d.max k → Kin.Same k p (p.check d)) ∧
    (p.r k < d.min k →
      (d.lhs k = .open_ → Kin.Same k p (p.check d)) ∧
      (d.lhs k = .periodic → Kin.Moved k (d.max k - d.min k) p (p.check d)) ∧
      (d.lhs k = .mirror ∨ d.lhs k = .wall → Kin.Reflected k (d.min k) p (p.check d))) ∧
    (d.max k < p.r k →
      (d.rhs k = .open_ → Kin.Same k p (p.check d)) ∧
      (d.rhs k = .periodic → Kin.Moved k (-(d.max k - d.min k)) p (p.check d)) ∧
      (d.rhs k = .mirror ∨ d.rhs k = .wall → Kin.Reflected k (d.max k) p (p.check d))) := by
  have hp := hd.pos k
  have hs := hd.size k
  have hc := check_comp d p k
  have c0 : (p.check d).r k = (p.checkDim d k).r k := congrFun hc 0
  have c1 : (p.check d).r0 k = (p.checkDim d k).r0 k := congrFun hc 1
  have c2 : (p.check d).v k = (p.checkDim d k).v k := congrFun hc 2
  have c3 : (p.check d).v0 k = (p.checkDim d k).v0 k := congrFun hc 3
  have c4 : (p.check d).a k = (p.checkDim d k).a k := congrFun hc 4
  have c5 : (p.check d).a0 k = (p.checkDim d k).a0 k := congrFun hc 5
  unfold Kin.Same Kin.Moved Kin.Reflected
  rw [c0, c1, c2, c3, c4, c5]
  refine ⟨fun h1 h2 => ?_, fun h1 => ⟨fun h2 => ?_, fun h2 => ?_, fun h2 => ?_⟩,
    fun h1 => ⟨fun h2 => ?_, fun h2 => ?_, fun h2 => ?_⟩⟩
  · simp [Kin.checkDim, Kin.checkLhs, Kin.checkRhs, not_lt.mpr h1, not_lt.mpr h2]
  · have : ¬ d.max k < p.r k := by linarith
    simp [Kin.checkDim, Kin.checkLhs, Kin.checkRhs, h1, h2, this]
  · have : ¬ d.max k < p.r k + d.size k := by linarith
    simp [Kin.checkDim, Kin.checkLhs, Kin.checkRhs, Kin.shift, h1, h2, this, hs]
    have : ¬ d.max k < p.r k + (d.max k - d.min k) := by linarith
    simp [this]
  · have hnp : d.lhs k ≠ .periodic := by rcases h2 with h2 | h2 <;> simp [h2]
    have : ¬ d.max k < 2 * d.min k - p.r k := by linarith
    simp [Kin.checkDim, Kin.checkLhs, Kin.checkRhs, Kin.bounce, h1, h2, hnp, this]
  · have : ¬ p.r k < d.min k := by linarith
    simp [Kin.checkDim, Kin.checkLhs, Kin.checkRhs, h1, h2, this]
  · have : ¬ p.r k < d.min k := by linarith
    simp [Kin.checkDim, Kin.checkLhs, Kin.checkRhs, Kin.shift, h1, h2, this, hs]
  · have hnp : d.rhs k ≠ .periodic := by rcases h2 with h2 | h2 <;> simp [h2]
    have : ¬ p.r k < d.min k := by linarith
    simp [Kin.checkDim, Kin.checkLhs, Kin.checkRhs, Kin.bounce, h1, h2, hnp, this]

/-- **C13, inside afterwards.** If in dimension `k` the particle left by less than one box length
through a side that is not open, it is inside the box in that dimension afterwards. -/
theorem C13_inside (d : Domain n α) (hd : d.WF) (p : Kin n α) (k : Fin n)
    (hlo : d.min k - d.size k < p.r k) (hhi : p.r k < d.max k + d.size k)
    (hl : p.r k < d.min k → d.lhs k ≠ .open_) (hr : d.max k < p.r k → d.rhs k ≠ .open_) :
    d.min k ≤ (p.check d).r k ∧ (p.check d).r k ≤ d.max k := by
  obtain ⟨h1, h2, h3⟩ := C13_outcome d hd p k hlo hhi
  have hs := hd.size k
  have hp := hd.pos k
  rcases lt_or_ge (p.r k) (d.min k) with hc | hc
  · obtain ⟨-, a, b⟩ := h2 hc
    have ho := hl hc
    cases e : d.lhs k with
    | open_ => exact absurd e ho
    | periodic => obtain ⟨a, -⟩ := a e; constructor <;> linarith
    | mirror => obtain ⟨a, -⟩ := b (Or.inl e); constructor <;> linarith
    | wall => obtain ⟨a, -⟩ := b (Or.inr e); constructor <;> linarith
  · rcases lt_or_ge (d.max k) (p.r k) with hc' | hc'
    · obtain ⟨-, a, b⟩ := h3 hc'
      have ho := hr hc'
      cases e : d.rhs k with
      | open_ => exact absurd e ho
      | periodic => obtain ⟨a, -⟩ := a e; constructor <;> linarith
      | mirror => obtain ⟨a, -⟩ := b (Or.inl e); constructor <;> linarith
      | wall => obtain ⟨a, -⟩ := b (Or.inr e); constructor <;> linarith
    · obtain ⟨a, -⟩ := h1 hc hc'
      rw [a]; exact ⟨hc, hc'⟩

/-- **C13, consistency.** Whatever the particle and the boundaries, each dimension gets one sign `±1`
by which current and initial velocity, current and initial acceleration and the displacement since
the beginning of the step are all multiplied. -/
theorem C13_consistent (d : Domain n α) (p : Kin n α) : ∃ s : Fin n → α, ∀ k, (s k = 1 ∨ s k = -1) ∧
    (p.check d).v k = s k * p.v k ∧ (p.check d).v0 k = s k * p.v0 k ∧
    (p.check d).a k = s k * p.a k ∧ (p.check d).a0 k = s k * p.a0 k ∧
    (p.check d).r k - (p.check d).r0 k = s k * (p.r k - p.r0 k) := by
  have key : ∀ k, ∃ s : α, (s = 1 ∨ s = -1) ∧
    (p.check d).v k = s * p.v k ∧ (p.check d).v0 k = s * p.v0 k ∧
    (p.check d).a k = s * p.a k ∧ (p.check d).a0 k = s * p.a0 k ∧
    (p.check d).r k - (p.check d).r0 k = s * (p.r k - p.r0 k) := by
    intro k
    have hc := check_comp d p k
    have c0 : (p.check d).r k = (p.checkDim d k).r k := congrFun hc 0
    have c1 : (p.check d).r0 k = (p.checkDim d k).r0 k := congrFun hc 1
    have c2 : (p.check d).v k = (p.checkDim d k).v k := congrFun hc 2
    have c3 : (p.check d).v0 k = (p.checkDim d k).v0 k := congrFun hc 3
    have c4 : (p.check d).a k = (p.checkDim d k).a k := congrFun hc 4
    have c5 : (p.check d).a0 k = (p.checkDim d k).a0 k := congrFun hc 5
    rw [c0, c1, c2, c3, c4, c5]
    have l : ∀ p : Kin n α, ∃ s : α, (s = 1 ∨ s = -1) ∧
        (p.checkLhs d k).v k = s * p.v k ∧ (p.checkLhs d k).v0 k = s * p.v0 k ∧
        (p.checkLhs d k).a k = s * p.a k ∧ (p.checkLhs d k).a0 k = s * p.a0 k ∧
        (p.checkLhs d k).r k - (p.checkLhs d k).r0 k = s * (p.r k - p.r0 k) := by
      intro p
      unfold Kin.checkLhs
      by_cases h1 : p.r k < d.min k
      · rw [if_pos h1]
        by_cases h2 : d.lhs k = .periodic
        · exact ⟨1, Or.inl rfl, by simp [h2, Kin.shift]⟩
        · by_cases h3 : d.lhs k = .mirror ∨ d.lhs k = .wall
          · exact ⟨-1, Or.inr rfl, by simp [h2, h3, Kin.bounce]⟩
          · exact ⟨1, Or.inl rfl, by simp [h2, h3]⟩
      · rw [if_neg h1]; exact ⟨1, Or.inl rfl, by simp⟩
    have r : ∀ p : Kin n α, ∃ s : α, (s = 1 ∨ s = -1) ∧
        (p.checkRhs d k).v k = s * p.v k ∧ (p.checkRhs d k).v0 k = s * p.v0 k ∧
        (p.checkRhs d k).a k = s * p.a k ∧ (p.checkRhs d k).a0 k = s * p.a0 k ∧
        (p.checkRhs d k).r k - (p.checkRhs d k).r0 k = s * (p.r k - p.r0 k) := by
      intro p
      unfold Kin.checkRhs
      by_cases h1 : p.r k > d.max k
      · rw [if_pos h1]
        by_cases h2 : d.rhs k = .periodic
        · exact ⟨1, Or.inl rfl, by simp [h2, Kin.shift]⟩
        · by_cases h3 : d.rhs k = .mirror ∨ d.rhs k = .wall
          · exact ⟨-1, Or.inr rfl, by simp [h2, h3, Kin.bounce]⟩
          · exact ⟨1, Or.inl rfl, by simp [h2, h3]⟩
      · rw [if_neg h1]; exact ⟨1, Or.inl rfl, by simp⟩
    obtain ⟨s, hs, a1, a2, a3, a4, a5⟩ := l p
    obtain ⟨t, ht, b1, b2, b3, b4, b5⟩ := r (p.checkLhs d k)
    refine ⟨t * s, ?_, ?_, ?_, ?_, ?_, ?_⟩
    · rcases hs with rfl | rfl <;> rcases ht with rfl | rfl <;> simp
    all_goals (unfold Kin.checkDim; simp only [b1, b2, b3, b4, b5, a1, a2, a3, a4, a5]; ring)
  choose s hs using key
  exact ⟨s, hs⟩

/-- **C13, speed.** The speed is unchanged, for every particle and all boundaries. -/
theorem C13_speed (d : Domain n α) (p : Kin n α) :
    dot (p.check d).v (p.check d).v = dot p.v p.v ∧
    dot (p.check d).v0 (p.check d).v0 = dot p.v0 p.v0 := by
  obtain ⟨s, hs⟩ := C13_consistent d p
  constructor
  all_goals
    unfold dot
    congr 1
    funext k
    obtain ⟨h, a1, a2, -⟩ := hs k
    simp only [a1, a2]
    rcases h with h | h <;> rw [h] <;> ring

/-- **C13, both routines.** The gas and the star version do the same to every particle, keep the
number and order of the particles, and treat each one by itself; the early exit for open boxes
changes nothing. -/
theorem C13_all_particles (d : Domain n α) (ps : List (Kin n α)) :
    checkBoundaries d ps = ps.map (Kin.check d) ∧ nbodyCheckBoundaries d ps = ps.map (Kin.check d) ∧
    ((∀ k, d.lhs k = .open_ ∧ d.rhs k = .open_) → checkBoundaries d ps = ps) := by
  have e : (∀ k, d.lhs k = .open_ ∧ d.rhs k = .open_) → ∀ p : Kin n α, p.check d = p := by
    intro h p
    have : ∀ (ks : List (Fin n)) (p : Kin n α), ks.foldl (Kin.checkDim d) p = p := by
      intro ks
      induction ks with
      | nil => intro p; rfl
      | cons k ks ih =>
        intro p
        rw [List.foldl_cons, ih]
        simp [Kin.checkDim, Kin.checkLhs, Kin.checkRhs, h k]
    exact this _ _
  refine ⟨?_, rfl, fun h => by simp [checkBoundaries, h]⟩
  unfold checkBoundaries
  split_ifs with h
  · symm; rw [List.map_congr_left (g := id) (fun p _ => e h p), List.map_id]
  · rfl

/-! ### Instance -/

/-- periodic in x, mirror below and wall above in y -/
def ex13 : Domain 2 ℚ where
  min := fun _ => 0
  max := fun _ => 4
  lhs := fun k => if k = 0 then .periodic else .mirror
  rhs := fun k => if k = 0 then .periodic else .wall
  size := fun _ => 4
  half := fun _ => 2

def ex13p : Kin 2 ℚ where
  r := fun k => if k = 0 then -1 else 5
  r0 := fun _ => 1
  v := fun _ => 3
  v0 := fun _ => 2
  a := fun _ => 7
  a0 := fun _ => 8

theorem ex13_wf : ex13.WF where
  size := fun k => by simp [ex13]
  half := fun k => by simp [ex13]; norm_num
  pos := fun k => by simp [ex13]
  pair := fun k => by fin_cases k <;> decide

example : (ex13.min 0 - ex13.size 0 < ex13p.r 0 ∧ ex13p.r 0 < ex13.max 0 + ex13.size 0) ∧
    (ex13p.check ex13).r 0 = 3 ∧ (ex13p.check ex13).r0 0 = 5 ∧ (ex13p.check ex13).v 0 = 3 ∧
    (ex13p.check ex13).r 1 = 3 ∧ (ex13p.check ex13).r0 1 = 7 ∧ (ex13p.check ex13).v 1 = -3 := by
  decide +kernel

/-- The bound on the distance is needed: a particle 1.5 box lengths outside stays outside. -/
theorem C13_far_particle_stays_outside : ∃ (d : Domain 1 ℚ) (p : Kin 1 ℚ), d.WF ∧
    d.lhs 0 = .periodic ∧ (p.check d).r 0 < d.min 0 := by
  refine ⟨⟨fun _ => 0, fun _ => 4, fun _ => .periodic, fun _ => .periodic, fun _ => 4, fun _ => 2⟩,
    ⟨fun _ => -6, fun _ => 0, fun _ => 0, fun _ => 0, fun _ => 0, fun _ => 0⟩, ⟨?_, ?_, ?_, ?_⟩, rfl, ?_⟩
  · intro k; norm_num
  · intro k; norm_num
  · intro k; norm_num
  · intro k; simp
  · decide +kernel

end Gandalf
