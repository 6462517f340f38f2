import Verif.Model.MpiCalendar
import Verif.Spec.MpiCalendar
import Mathlib.Data.Nat.ModEq
import Mathlib.Data.Fintype.Card
import Mathlib.Data.Fintype.EquivFin
import Mathlib.Tactic.Linarith

/-!
# Helper lemmas for the calendar (C40)
-/

set_option autoImplicit false

namespace Gandalf.Mpi

theorem set2_apply (cal : ℕ → ℕ → ℕ) (r t v r' t' : ℕ) :
    set2 cal r t v r' t' = if r' = r ∧ t' = t then v else cal r' t' := by
  unfold set2
  by_cases h : r' = r
  · subst h
    by_cases h2 : t' = t
    · subst h2; simp
    · simp [h2]
  · simp [h]

theorem pairsTurn_lt {N t i : ℕ} (hN : 2 ≤ N) : pairsTurn N t i < N := by
  unfold pairsTurn
  split_ifs
  · omega
  · have := Nat.mod_lt (i + t) (show 0 < N - 1 by omega)
    omega

theorem mod_add_inj {M a b t : ℕ} (ha : a < M) (hb : b < M)
    (h : (a + t) % M = (b + t) % M) : a = b := by
  have h1 : a + t ≡ b + t [MOD M] := h
  have h2 : a ≡ b [MOD M] := Nat.ModEq.add_right_cancel' t h1
  have h3 : a % M = b % M := h2
  rwa [Nat.mod_eq_of_lt ha, Nat.mod_eq_of_lt hb] at h3

theorem pairsTurn_inj {N t i j : ℕ} (hN : 2 ≤ N) (hi : i < N) (hj : j < N)
    (h : pairsTurn N t i = pairsTurn N t j) : i = j := by
  unfold pairsTurn at h
  have hpos : 0 < N - 1 := by omega
  by_cases hi0 : i = 0
  · by_cases hj0 : j = 0
    · omega
    · rw [if_pos hi0, if_neg hj0] at h
      have := Nat.mod_lt (j + t) hpos
      omega
  · by_cases hj0 : j = 0
    · rw [if_neg hi0, if_pos hj0] at h
      have := Nat.mod_lt (i + t) hpos
      omega
    · rw [if_neg hi0, if_neg hj0] at h
      have h1 : ((i - 1) + (t + 1)) % (N - 1) = ((j - 1) + (t + 1)) % (N - 1) := by
        rw [show (i - 1) + (t + 1) = i + t by omega, show (j - 1) + (t + 1) = j + t by omega]
        exact h
      have := mod_add_inj (by omega) (by omega) h1
      omega

/-- Every process occurs in the list of pairs of a turn. -/
theorem pairsTurn_surj {N t r : ℕ} (hN : 2 ≤ N) (hr : r < N) : ∃ i < N, pairsTurn N t i = r := by
  have hinj : Function.Injective
      (fun i : Fin N => (⟨pairsTurn N t i, pairsTurn_lt hN⟩ : Fin N)) := by
    intro a b h
    exact Fin.ext (pairsTurn_inj hN a.2 b.2 (Fin.mk.inj_iff.mp h))
  have hs := Finite.surjective_of_injective hinj
  obtain ⟨i, hi⟩ := hs ⟨r, hr⟩
  exact ⟨i, i.2, Fin.mk.inj_iff.mp hi⟩

/-- Turn `t` leaves the other columns alone. -/
theorem fillSteps_other {N t t' r : ℕ} (ht : t' ≠ t) (l : List ℕ) (cal : ℕ → ℕ → ℕ) :
    l.foldl (fillStep N t) cal r t' = cal r t' := by
  induction l generalizing cal with
  | nil => rfl
  | cons a l ih =>
    rw [List.foldl_cons, ih]
    simp [fillStep, set2_apply, ht]

theorem fillTurn_other {N t t' r : ℕ} (ht : t' ≠ t) (cal : ℕ → ℕ → ℕ) :
    fillTurn N cal t r t' = cal r t' := fillSteps_other ht _ _

/-- The column written in turn `t`. -/
theorem fillSteps_at {N t : ℕ} (hN : 2 ≤ N) (cal : ℕ → ℕ → ℕ) (m : ℕ) (hm : m ≤ N / 2)
    (i : ℕ) (hi : i < N) :
    (List.range m).foldl (fillStep N t) cal (pairsTurn N t i) t =
      if i < m ∨ N - 1 - i < m then pairsTurn N t (N - 1 - i) else cal (pairsTurn N t i) t := by
  induction m with
  | zero => simp
  | succ m ih =>
    rw [List.range_succ, List.foldl_append, List.foldl_cons, List.foldl_nil]
    simp only [fillStep, set2_apply, and_true]
    rw [ih (by omega)]
    by_cases h1 : i = N - 1 - m
    · rw [if_pos (by rw [h1]), if_pos (by omega), h1]
      congr 1
      omega
    · rw [if_neg (fun h => h1 (pairsTurn_inj hN hi (by omega) h))]
      by_cases h2 : i = m
      · rw [if_pos (by rw [h2]), if_pos (by omega), h2]
      · rw [if_neg (fun h => h2 (pairsTurn_inj hN hi (by omega) h))]
        by_cases h3 : i < m ∨ N - 1 - i < m
        · rw [if_pos h3, if_pos (by omega)]
        · rw [if_neg h3, if_neg (by omega)]

theorem foldTurns_at {N : ℕ} (T t : ℕ) (ht : t < T) (cal : ℕ → ℕ → ℕ) (r : ℕ) :
    (List.range T).foldl (fillTurn N) cal r t =
      fillTurn N ((List.range t).foldl (fillTurn N) cal) t r t := by
  induction T with
  | zero => omega
  | succ T ih =>
    rw [List.range_succ, List.foldl_append, List.foldl_cons, List.foldl_nil]
    by_cases h : t = T
    · subst h; rfl
    · rw [fillTurn_other h, ih (by omega)]

theorem foldTurns_before {N : ℕ} (T t : ℕ) (ht : T ≤ t) (cal : ℕ → ℕ → ℕ) (r : ℕ) :
    (List.range T).foldl (fillTurn N) cal r t = cal r t := by
  induction T with
  | zero => rfl
  | succ T ih =>
    rw [List.range_succ, List.foldl_append, List.foldl_cons, List.foldl_nil,
      fillTurn_other (by omega), ih (by omega)]

/-- What the calendar holds, for any number of processes: position `i` of the list meets position
`N-1-i`; the middle position of an odd list keeps the initial zero. -/
theorem calendar_at {N t : ℕ} (hN : 2 ≤ N) (ht : t < N - 1) (i : ℕ) (hi : i < N) :
    calendar N (pairsTurn N t i) t =
      if i < N / 2 ∨ N - 1 - i < N / 2 then pairsTurn N t (N - 1 - i) else 0 := by
  unfold calendar
  rw [foldTurns_at _ _ ht]
  rw [show ∀ c : ℕ → ℕ → ℕ, fillTurn N c t = (List.range (N / 2)).foldl (fillStep N t) c from
    fun _ => rfl, fillSteps_at hN _ _ le_rfl i hi]
  rw [foldTurns_before (N := N) t t le_rfl (fun _ _ => 0) (pairsTurn N t i)]

theorem calendar_even {N t : ℕ} (hN : 2 ≤ N) (he : N % 2 = 0) (ht : t < N - 1) (i : ℕ)
    (hi : i < N) : calendar N (pairsTurn N t i) t = pairsTurn N t (N - 1 - i) := by
  rw [calendar_at hN ht i hi, if_pos (by omega)]

/-- The two sides of a pair. -/
theorem calendar_iff {N t r s : ℕ} (hN : 2 ≤ N) (he : N % 2 = 0) (ht : t < N - 1)
    (hr : r < N - 1) (hs : s < N - 1) (hrs : r ≠ s) :
    calendar N r t = s ↔ (r + s) % (N - 1) = (2 * t) % (N - 1) := by
  obtain ⟨i, hi, rfl⟩ := pairsTurn_surj (t := t) hN (show r < N by omega)
  obtain ⟨j, hj, rfl⟩ := pairsTurn_surj (t := t) hN (show s < N by omega)
  have hi0 : i ≠ 0 := by
    rintro rfl
    simp [pairsTurn] at hr
  have hj0 : j ≠ 0 := by
    rintro rfl
    simp [pairsTurn] at hs
  have hij : i ≠ j := fun h => hrs (by rw [h])
  rw [calendar_even hN he ht i hi]
  have e1 : pairsTurn N t i = (i + t) % (N - 1) := if_neg hi0
  have e2 : pairsTurn N t j = (j + t) % (N - 1) := if_neg hj0
  have key : (pairsTurn N t i + pairsTurn N t j) % (N - 1) = ((i + j) + 2 * t) % (N - 1) := by
    rw [e1, e2, ← Nat.add_mod]
    congr 1
    omega
  rw [key]
  constructor
  · intro h
    have := pairsTurn_inj hN (by omega) hj h
    rw [show i + j + 2 * t = 2 * t + (N - 1) by omega, Nat.add_mod_right]
  · intro h
    have h1 : i + j + 2 * t ≡ 0 + 2 * t [MOD (N - 1)] := by
      rw [zero_add]; exact h
    have h2 : i + j ≡ 0 [MOD (N - 1)] := Nat.ModEq.add_right_cancel' _ h1
    have h3 : (N - 1) ∣ (i + j) := (Nat.modEq_zero_iff_dvd).mp h2
    obtain ⟨c, hc⟩ := h3
    have hc1 : c = 1 := by
      have hlt : (N - 1) * c < (N - 1) * 2 := by omega
      have hlt2 : c < 2 := lt_of_mul_lt_mul_left hlt (Nat.zero_le _)
      have : c ≠ 0 := by rintro rfl; omega
      omega
    rw [hc1] at hc
    rw [show N - 1 - i = j by omega]

/-- The process `N-1` meets process `t` in turn `t`. -/
theorem calendar_last {N t : ℕ} (hN : 2 ≤ N) (he : N % 2 = 0) (ht : t < N - 1) :
    calendar N (N - 1) t = t ∧ calendar N t t = N - 1 := by
  have h0 : pairsTurn N t 0 = N - 1 := if_pos rfl
  have hl : pairsTurn N t (N - 1) = t := by
    unfold pairsTurn
    rw [if_neg (by omega), Nat.add_mod_left, Nat.mod_eq_of_lt ht]
  have a := calendar_even hN he ht 0 (by omega)
  have b := calendar_even hN he ht (N - 1) (by omega)
  rw [h0, Nat.sub_zero, hl] at a
  rw [hl, Nat.sub_self, h0] at b
  exact ⟨a, b⟩

/-- For odd `M` the equation `2 t ≡ x` has exactly one solution. -/
theorem half_unique {M : ℕ} (hM : M % 2 = 1) (x : ℕ) :
    ∃! t, t < M ∧ x % M = (2 * t) % M := by
  refine ⟨(x * ((M + 1) / 2)) % M, ⟨Nat.mod_lt _ (by omega), ?_⟩, ?_⟩
  · rw [Nat.mul_mod_mod]
    have : 2 * (x * ((M + 1) / 2)) = x + M * x := by
      have h : 2 * ((M + 1) / 2) = M + 1 := by omega
      calc 2 * (x * ((M + 1) / 2)) = x * (2 * ((M + 1) / 2)) := by ring
        _ = x + M * x := by rw [h]; ring
    rw [this, Nat.add_mul_mod_self_left]
  · rintro t ⟨ht, he⟩
    have h1 : 2 * t ≡ x [MOD M] := he.symm
    have h2 : 2 * t * ((M + 1) / 2) ≡ x * ((M + 1) / 2) [MOD M] := h1.mul_right _
    have h3 : 2 * t * ((M + 1) / 2) = t + M * t := by
      have h : 2 * ((M + 1) / 2) = M + 1 := by omega
      calc 2 * t * ((M + 1) / 2) = t * (2 * ((M + 1) / 2)) := by ring
        _ = t + M * t := by rw [h]; ring
    rw [h3] at h2
    have h4 : (t + M * t) % M = (x * ((M + 1) / 2)) % M := h2
    rw [Nat.add_mul_mod_self_left, Nat.mod_eq_of_lt ht] at h4
    exact h4

end Gandalf.Mpi
