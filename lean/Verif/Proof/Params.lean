import Verif.Model.Params
import Mathlib.Tactic.Linarith
import Mathlib.Tactic.IntervalCases
import Mathlib.Data.Nat.Digits.Lemmas
import Mathlib.Tactic.FieldSimp
import Mathlib.Tactic.Positivity

set_option autoImplicit false

namespace Gandalf.Params

/-! ### positions -/

theorem find_none {c : Char} {s : List Char} (h : c ∉ s) : find c s = -1 := by
  unfold find
  rw [List.idxOf?_eq_none_iff.mpr h]

theorem idxOf_append {c : Char} {a : List Char} (h : c ∉ a) (b : List Char) : (a ++ c :: b).idxOf? c = some a.length := by
  induction a with
  | nil => simp [List.idxOf?_cons]
  | cons x a ih =>
    have hx : ¬ x = c := fun e => h (by simp [e])
    have ha : c ∉ a := fun e => h (List.mem_cons_of_mem _ e)
    rw [List.cons_append, List.idxOf?_cons, ih ha]
    simp [hx]

theorem find_append {c : Char} {a : List Char} (h : c ∉ a) (b : List Char) : find c (a ++ c :: b) = a.length := by
  unfold find
  rw [idxOf_append h]

theorem find_hash {s : List Char} : find '#' s = 0 ↔ s.head? = some '#' := by
  cases s with
  | nil => simp [find, List.idxOf?_nil]
  | cons x s =>
    unfold find
    rw [List.idxOf?_cons]
    by_cases h : x = '#'
    · simp [h]
    · simp only [beq_iff_eq, h, if_false, List.head?_cons, Option.some.injEq, iff_false]
      cases s.idxOf? '#' with
      | none => simp
      | some i => simp; omega

theorem find_lt (c : Char) (s : List Char) : find c s < s.length ∧ -1 ≤ find c s := by
  by_cases h : c ∈ s
  · obtain ⟨a, b, rfl, ha⟩ := List.eq_append_cons_of_mem h
    rw [find_append ha]
    simp only [List.length_append, List.length_cons]
    omega
  · rw [find_none h]
    omega

theorem find_nonneg {c : Char} {s : List Char} (h : c ∈ s) : 0 ≤ find c s := by
  obtain ⟨a, b, rfl, ha⟩ := List.eq_append_cons_of_mem h
  rw [find_append ha]
  simp

theorem trim_append (a b : List Char) : trim (a ++ b) = trim a ++ trim b := List.filter_append ..
theorem trim_cons {c : Char} (h : c ≠ ' ') (b : List Char) : trim (c :: b) = c :: trim b := by simp [trim, h]
theorem mem_trim {c : Char} {s : List Char} : c ∈ trim s ↔ c ∈ s ∧ c ≠ ' ' := by simp [trim]
theorem trim_id {s : List Char} (h : ' ' ∉ s) : trim s = s := by
  unfold trim
  rw [List.filter_eq_self]
  intro a ha
  simpa using fun e => h (by rw [← e]; exact ha)

theorem substr_mid (a k b : List Char) (c : Char) : substr (a ++ c :: k ++ b) ((a.length : ℤ) + 1) (k.length : ℤ) = k := by
  unfold substr
  rw [if_neg (by omega)]
  have : ((a.length : ℤ) + 1).toNat = a.length + 1 := by omega
  rw [this, Int.toNat_natCast]
  have e : a ++ c :: k ++ b = (a ++ [c]) ++ (k ++ b) := by simp
  rw [e, List.drop_append_of_le_length (by simp), List.drop_eq_nil_of_le (by simp)]
  simp

theorem substr_front (k b : List Char) : substr (k ++ b) 0 (k.length : ℤ) = k := by
  unfold substr
  rw [if_neg (by omega)]
  simp

theorem substr_end (a v : List Char) (c : Char) : substr (a ++ c :: v) ((a.length : ℤ) + 1) (v.length : ℤ) = v := by
  have := substr_mid a v [] c
  simpa using this

/-! ### integers -/

theorem digit_ok {d : ℕ} (h : d < 10) : isDigit (digitChar d) = true ∧ (digitChar d).toNat - 48 = d ∧
    digitChar d ≠ ' ' ∧ digitChar d ≠ '\t' ∧ digitChar d ≠ '\n' ∧ digitChar d ≠ '\r' ∧ digitChar d ≠ '-' ∧ digitChar d ≠ '+' ∧
    digitChar d ≠ ':' := by
  interval_cases d <;> decide

theorem foldr_digits (l : List ℕ) (h : ∀ d ∈ l, d < 10) : digitsVal (l.reverse.map digitChar) = Nat.ofDigits 10 l := by
  unfold digitsVal
  rw [List.map_reverse, List.foldl_reverse]
  induction l with
  | nil => rfl
  | cons d l ih =>
    rw [List.map_cons, List.foldr_cons, ih (fun x hx => h x (List.mem_cons_of_mem _ hx)), Nat.ofDigits_cons,
      (digit_ok (h d (by simp))).2.1]
    push_cast
    omega

theorem showNat_shape (n : ℕ) : ∃ l : List ℕ, l ≠ [] ∧ (∀ d ∈ l, d < 10) ∧ showNat n = l.reverse.map digitChar ∧ Nat.ofDigits 10 l = n := by
  by_cases h : n = 0
  · exact ⟨[0], by simp, by simp, by subst h; rfl, by subst h; rfl⟩
  · refine ⟨Nat.digits 10 n, Nat.digits_ne_nil_iff_ne_zero.mpr h, fun d hd => Nat.digits_lt_base (by norm_num) hd, ?_, Nat.ofDigits_digits 10 n⟩
    unfold showNat
    rw [if_neg h]

theorem showNat_val (n : ℕ) : digitsVal (showNat n) = n := by
  obtain ⟨l, _, h, e, hl⟩ := showNat_shape n
  rw [e, foldr_digits l h, hl]

theorem showNat_digit {n : ℕ} {c : Char} (h : c ∈ showNat n) : ∃ d < 10, c = digitChar d := by
  obtain ⟨l, _, hd, e, _⟩ := showNat_shape n
  rw [e] at h
  simp only [List.mem_map, List.mem_reverse] at h
  obtain ⟨d, hm, rfl⟩ := h
  exact ⟨d, hd d hm, rfl⟩

theorem showNat_cons (n : ℕ) : ∃ d r, d < 10 ∧ showNat n = digitChar d :: r := by
  obtain ⟨l, h0, hd, e, _⟩ := showNat_shape n
  cases hr : showNat n with
  | nil => rw [hr] at e; simp at e; exact absurd e h0
  | cons c r =>
    obtain ⟨d, h1, h2⟩ := showNat_digit (n := n) (c := c) (by rw [hr]; simp)
    exact ⟨d, r, h1, by rw [h2]⟩

theorem takeWhile_showNat (n : ℕ) (rest : List Char) (hr : ∀ c ∈ rest.head?, isDigit c = false) :
    (showNat n ++ rest).takeWhile isDigit = showNat n := by
  rw [List.takeWhile_append_of_pos]
  · cases rest with
    | nil => simp
    | cons c r => simp [hr c (by simp)]
  · intro c hc
    obtain ⟨d, hd, rfl⟩ := showNat_digit hc
    exact (digit_ok hd).1

/-- reading back a written integer that fits, whatever follows -/
theorem readInt_showInt (z : ℤ) (h1 : intMin ≤ z) (h2 : z ≤ intMax) (rest : List Char) (hr : ∀ c ∈ rest.head?, isDigit c = false) :
    readInt (showInt z ++ rest) = z := by
  unfold readInt showInt
  by_cases hz : z < 0
  · rw [if_pos hz]
    simp only [List.cons_append]
    rw [List.dropWhile_cons_of_neg (by decide)]
    simp only [signedVal]
    rw [takeWhile_showNat _ _ hr, showNat_val]
    have : -(z.natAbs : ℤ) = z := by omega
    rw [this, min_eq_right h2, max_eq_right h1]
  · rw [if_neg hz]
    obtain ⟨d, r, hd, e⟩ := showNat_cons z.natAbs
    obtain ⟨_, _, a1, a2, a3, a4, a5, a6, _⟩ := digit_ok hd
    have hdrop : (showNat z.natAbs ++ rest).dropWhile (fun c => c = ' ' ∨ c = '\t' ∨ c = '\n' ∨ c = '\r') = showNat z.natAbs ++ rest := by
      rw [e, List.cons_append, List.dropWhile_cons_of_neg (by simp [a1, a2, a3, a4])]
    rw [hdrop]
    have hval : digitsVal ((showNat z.natAbs ++ rest).takeWhile isDigit) = z.natAbs := by
      rw [takeWhile_showNat _ _ hr, showNat_val]
    have hm : signedVal (showNat z.natAbs ++ rest) = digitsVal ((showNat z.natAbs ++ rest).takeWhile isDigit) := by
      rw [e, List.cons_append]
      unfold signedVal
      split
      · rename_i h; simp only [List.cons.injEq] at h; exact absurd h.1 a5
      · rename_i h; simp only [List.cons.injEq] at h; exact absurd h.1 a6
      · rfl
    rw [hm, hval]
    have : (z.natAbs : ℤ) = z := by omega
    rw [this, min_eq_right h2, max_eq_right h1]

theorem showInt_chars {z : ℤ} {c : Char} (h : c ∈ showInt z) : c = '-' ∨ ∃ d < 10, c = digitChar d := by
  unfold showInt at h
  split_ifs at h
  · rcases List.mem_cons.mp h with h | h
    · exact Or.inl h
    · exact Or.inr (showNat_digit h)
  · exact Or.inr (showNat_digit h)

theorem showInt_plain (z : ℤ) : ' ' ∉ showInt z ∧ ':' ∉ showInt z := by
  constructor
  · intro h
    rcases showInt_chars h with h | ⟨d, hd, h⟩
    · exact absurd h (by decide)
    · exact absurd h.symm (digit_ok hd).2.2.1
  · intro h
    rcases showInt_chars h with h | ⟨d, hd, h⟩
    · exact absurd h (by decide)
    · exact absurd h.symm (digit_ok hd).2.2.2.2.2.2.2.2

end Gandalf.Params
