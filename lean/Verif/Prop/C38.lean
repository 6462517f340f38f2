import Verif.Model.UniqueIds
import Mathlib.Data.List.Count

/-!
# C38 – the unique-id check
-/

set_option autoImplicit false

namespace Gandalf

open UniqueIds

theorem UniqueIds.count_spec (Nrange : ℕ) : ∀ (vs : List ℤ) (s : (ℤ → ℕ) × ℤ),
    count Nrange vs s = if ∀ v ∈ vs, 0 ≤ v ∧ v < Nrange then
      some (fun a => s.1 a + vs.count a, vs.getLastD s.2) else none := by
  intro vs
  induction vs with
  | nil => intro s; simp [count]
  | cons v vs ih =>
    intro s
    rw [count]
    by_cases hv : v ≥ 0 ∧ v < Nrange
    · rw [if_neg (not_not.mpr hv), ih]
      by_cases h : ∀ w ∈ vs, 0 ≤ w ∧ w < Nrange
      · rw [if_pos h, if_pos (by
          intro w hw
          rcases List.mem_cons.mp hw with rfl | hw
          · exact hv
          · exact h w hw)]
        congr 1
        refine Prod.ext ?_ ?_
        · funext a
          simp only [Function.update_apply, List.count_cons, beq_iff_eq]
          by_cases ha : a = v
          · subst ha; simp; omega
          · rw [if_neg ha, if_neg (fun h => ha h.symm)]; rfl
        · cases vs <;> rfl
      · rw [if_neg h, if_neg (fun h' => h fun w hw => h' w (List.mem_cons_of_mem _ hw))]
    · rw [if_pos hv, if_neg (fun h => hv (h v (List.mem_cons_self)))]

theorem UniqueIds.check_eq (c : ℤ → ℕ) (i : ℤ) (n : ℕ) : check c i n = (n == 0 || decide (c i ≤ 1)) := by
  induction n with
  | zero => rfl
  | succ n ih =>
    rw [check, ih]
    by_cases h : c i = 0 ∨ c i = 1
    · rw [if_neg (not_not.mpr h)]; simp; omega
    · rw [if_pos h]; simp; omega

/-- What the check really decides: all ids are in range and the *last* one occurs once. -/
theorem C38_what_it_decides (Nrange : ℕ) (vs : List ℤ) :
    verifyUniqueIds Nrange vs = true ↔
      (∀ v ∈ vs, 0 ≤ v ∧ v < Nrange) ∧ ∀ v ∈ vs.getLast?, vs.count v = 1 := by
  rw [verifyUniqueIds, count_spec]
  by_cases h : ∀ v ∈ vs, 0 ≤ v ∧ v < Nrange
  · rw [if_pos h]
    simp only [check_eq, zero_add, Bool.or_eq_true, beq_iff_eq, decide_eq_true_eq]
    rcases List.eq_nil_or_concat vs with rfl | ⟨l, a, rfl⟩
    · simp
    · have hc : 1 ≤ (l.concat a).count a := by
        rw [List.one_le_count_iff]; simp
      simp only [List.concat_eq_append] at *
      simp only [List.getLastD_concat, List.length_append, List.length_singleton, List.getLast?_append,
        List.getLast?_singleton, Option.some_or, Option.mem_def, Option.some.injEq]
      constructor
      · rintro (h0 | h1)
        · omega
        · exact ⟨h, fun v e => by subst e; omega⟩
      · rintro ⟨_, h2⟩
        right
        rw [h2 a rfl]
  · rw [if_neg h]
    simp [h]

/-- **C38, partial.** A list of different ids inside the range is never rejected, and a list with an id
out of range always is. Missing: rejection of every list with a repeated id, which is false
(`C38_duplicates_accepted`). -/
theorem C38_unique_ids_accepted_partial (Nrange : ℕ) (vs : List ℤ) :
    ((∀ v ∈ vs, 0 ≤ v ∧ v < Nrange) → vs.Nodup → verifyUniqueIds Nrange vs = true) ∧
    ((∃ v ∈ vs, v < 0 ∨ (Nrange : ℤ) ≤ v) → verifyUniqueIds Nrange vs = false) := by
  constructor
  · intro h hn
    rw [C38_what_it_decides]
    refine ⟨h, fun v hv => ?_⟩
    exact List.count_eq_one_of_mem hn (List.mem_of_getLast? hv)
  · rintro ⟨v, hv, h⟩
    rw [← Bool.not_eq_true, C38_what_it_decides]
    intro h'
    have := h'.1 v hv
    omega

/-- **C38, defect.** Any list of ids whose last one is new is accepted, however often the others are
repeated: for every `n` there is an accepted list that holds an id `n` times. -/
theorem C38_duplicates_accepted (n : ℕ) :
    verifyUniqueIds 2 (List.replicate n 0 ++ [1]) = true ∧ (List.replicate n (0 : ℤ) ++ [1]).count 0 = n := by
  constructor
  · rw [C38_what_it_decides]
    constructor
    · intro v hv
      rcases List.mem_append.mp hv with h | h
      · rw [List.eq_of_mem_replicate h]; norm_num
      · rw [List.mem_singleton.mp h]; norm_num
    · intro v hv
      simp only [List.getLast?_append, List.getLast?_singleton, Option.some_or, Option.mem_def,
        Option.some.injEq] at hv
      subst hv
      simp [List.count_append, List.count_replicate]
  · simp [List.count_append]

example : verifyUniqueIds 3 [0, 0, 1] = true ∧ verifyUniqueIds 3 [0, 1, 1] = false ∧
    verifyUniqueIds 3 [2, 0, 1] = true := by decide

end Gandalf
