import Verif.Model.CheckIc

/-! # Lemmas on the check of the initial conditions -/

set_option autoImplicit false

namespace Gandalf.CheckIc

/-- what becomes of one particle -/
def mark {n : ℕ} (cutbox : Bool) (box : Domain n ℚ) (p : Part n) : Part n :=
  if outside box p && cutbox then { p with dead := true } else p

theorem particles_none {n : ℕ} (cutbox : Bool) (box : Domain n ℚ) (ps : List (Part n)) :
    ∀ i, particles cutbox box i ps = none ↔ ∃ p ∈ ps, okflag p = false := by
  induction ps with
  | nil => intro i; simp [particles]
  | cons p ps ih =>
    intro i
    by_cases h : okflag p
    · rw [particles]
      simp only [h, if_true]
      have := ih (i + 1)
      cases hp : particles cutbox box (i + 1) ps with
      | none =>
        rw [hp] at this
        obtain ⟨q, hq, hq'⟩ := this.1 rfl
        exact ⟨fun _ => ⟨q, List.mem_cons_of_mem _ hq, hq'⟩, fun _ => rfl⟩
      | some x =>
        rw [hp] at this
        simp only [reduceCtorEq, false_iff] at this ⊢
        rintro ⟨q, hq, hq'⟩
        rcases List.mem_cons.1 hq with rfl | hq
        · rw [h] at hq'; exact absurd hq' (by simp)
        · exact this ⟨q, hq, hq'⟩
    · rw [particles]
      simp only [h]
      simp only [Bool.not_eq_true] at h
      exact ⟨fun _ => ⟨p, List.mem_cons_self, h⟩, fun _ => by simp⟩

theorem particles_some {n : ℕ} (cutbox : Bool) (box : Domain n ℚ) (ps : List (Part n)) :
    ∀ i qs pr, particles cutbox box i ps = some (qs, pr) →
      qs = ps.map (mark cutbox box) ∧
      ∀ a, a ∈ pr ↔ cutbox = false ∧ ∃ p, i ≤ a ∧ ps[a - i]? = some p ∧ outside box p = true := by
  induction ps with
  | nil => intro i qs pr h; simp [particles] at h; obtain ⟨rfl, rfl⟩ := h; simp
  | cons p ps ih =>
    intro i qs pr h
    rw [particles] at h
    by_cases hk : okflag p
    · simp only [hk, if_true] at h
      cases hp : particles cutbox box (i + 1) ps with
      | none => rw [hp] at h; simp at h
      | some x =>
        obtain ⟨qs', pr'⟩ := x
        rw [hp] at h
        simp only [Option.some.injEq, Prod.mk.injEq] at h
        obtain ⟨h1, h2⟩ := h
        obtain ⟨e1, e2⟩ := ih (i + 1) qs' pr' hp
        refine ⟨by rw [← h1, e1]; rfl, ?_⟩
        intro a
        have tail : (a ∈ pr') ↔ (cutbox = false ∧ ∃ q, i + 1 ≤ a ∧ (p :: ps)[a - i]? = some q ∧
            outside box q = true) := by
          rw [e2]
          constructor
          · rintro ⟨c, q, l, g, o⟩
            exact ⟨c, q, l, by rw [show a - i = (a - (i + 1)) + 1 by omega]; simpa using g, o⟩
          · rintro ⟨c, q, l, g, o⟩
            refine ⟨c, q, l, ?_, o⟩
            rw [show a - i = (a - (i + 1)) + 1 by omega] at g
            simpa using g
        rw [← h2]
        by_cases ho : (outside box p && !cutbox) = true
        · rw [if_pos ho]
          simp only [Bool.and_eq_true, Bool.not_eq_true'] at ho
          rw [List.mem_cons, tail]
          constructor
          · rintro (rfl | ⟨c, q, l, g, o⟩)
            · exact ⟨ho.2, p, le_rfl, by simp, ho.1⟩
            · exact ⟨c, q, by omega, g, o⟩
          · rintro ⟨c, q, l, g, o⟩
            rcases l.eq_or_lt with l | l
            · exact Or.inl l.symm
            · exact Or.inr ⟨c, q, l, g, o⟩
        · rw [if_neg ho, tail]
          constructor
          · rintro ⟨c, q, l, g, o⟩
            exact ⟨c, q, by omega, g, o⟩
          · rintro ⟨c, q, l, g, o⟩
            rcases l.eq_or_lt with l | l
            · subst l
              simp at g
              subst g
              exact absurd (by simp [c, o]) ho
            · exact ⟨c, q, l, g, o⟩
    · simp only [hk] at h
      simp at h

theorem ordered_iff {n : ℕ} (ps : List (Part n)) :
    ∀ t, ordered t ps = true ↔ (∀ p ∈ ps, t ≤ p.ptype) ∧ ps.Pairwise (fun p q => p.ptype ≤ q.ptype) := by
  induction ps with
  | nil => intro t; simp [ordered]
  | cons p ps ih =>
    intro t
    rw [ordered, List.pairwise_cons]
    by_cases h : p.ptype < t
    · rw [if_pos h]
      constructor
      · intro c; simp at c
      · rintro ⟨c, -⟩
        have := c p List.mem_cons_self
        omega
    · rw [if_neg h, ih]
      constructor
      · rintro ⟨a, b⟩
        refine ⟨?_, a, b⟩
        intro q hq
        rcases List.mem_cons.1 hq with rfl | hq
        · omega
        · have := a q hq; omega
      · rintro ⟨-, a, b⟩
        exact ⟨a, b⟩

theorem mark_ptype {n : ℕ} (cutbox : Bool) (box : Domain n ℚ) (p : Part n) :
    (mark cutbox box p).ptype = p.ptype := by
  unfold mark; split <;> rfl

end Gandalf.CheckIc
