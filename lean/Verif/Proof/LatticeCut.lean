import Verif.Proof.Lattice
import Verif.Proof.Binary

/-! Lemmas on cutting spheres out of lattices. -/

set_option autoImplicit false
set_option linter.unusedSectionVars false

namespace Gandalf.Lattice

open Real LatticeSpec

variable {n : ℕ}

theorem distSq_eq (c x : Vec n ℝ) : distSq c x = gapSq x c := by
  unfold distSq gapSq dot
  exact Finset.sum_congr rfl fun k _ => by ring

theorem gapSq_nonneg (x y : Vec n ℝ) : 0 ≤ gapSq x y := Finset.sum_nonneg fun _ _ => sq_nonneg _

open Classical in
theorem count_eq (c : Vec n ℝ) (r : ℕ → Vec n ℝ) (N : ℕ) (R : ℝ) :
    count c r N R = (within N r c R).card := by
  unfold count within
  induction N with
  | zero => simp [loop_zero]
  | succ N ih =>
    rw [loop_succ, ih, Finset.range_add_one, Finset.filter_insert, distSq_eq]
    have e : R * R = R ^ 2 := by ring
    rw [e]
    by_cases h : gapSq (r N) c ≤ R ^ 2
    · rw [if_pos h, if_pos h, Finset.card_insert_of_notMem (by simp)]
    · rw [if_neg h, if_neg h]

theorem mem_within {N : ℕ} {a : ℕ → Vec n ℝ} {c : Vec n ℝ} {R : ℝ} {i : ℕ} :
    i ∈ within N a c R ↔ i < N ∧ gapSq (a i) c ≤ R ^ 2 := by
  classical
  unfold within; rw [Finset.mem_filter, Finset.mem_range]

theorem within_mono (N : ℕ) (a : ℕ → Vec n ℝ) (c : Vec n ℝ) {R R' : ℝ} (h0 : 0 ≤ R) (h : R ≤ R') :
    within N a c R ⊆ within N a c R' := by
  intro i hi
  rw [mem_within] at hi ⊢
  exact ⟨hi.1, hi.2.trans (pow_le_pow_left₀ h0 h 2)⟩

/-- the number of particles inside does not grow on a short way outwards -/
theorem within_right (N : ℕ) (a : ℕ → Vec n ℝ) (c : Vec n ℝ) {R : ℝ} (h0 : 0 ≤ R) :
    ∃ δ > 0, ∀ R', R ≤ R' → R' ≤ R + δ → within N a c R' = within N a c R := by
  have key : ∃ δ > 0, ∀ R', R ≤ R' → R' ≤ R + δ → ∀ i < N, gapSq (a i) c ≤ R' ^ 2 → gapSq (a i) c ≤ R ^ 2 := by
    induction N with
    | zero => exact ⟨1, one_pos, fun _ _ _ i hi => by omega⟩
    | succ N ih =>
      obtain ⟨δ, hδ, H⟩ := ih
      by_cases hN : gapSq (a N) c ≤ R ^ 2
      · refine ⟨δ, hδ, fun R' h1 h2 i hi hh => ?_⟩
        rcases Nat.lt_succ_iff_lt_or_eq.1 hi with hi | hi
        · exact H R' h1 h2 i hi hh
        · rw [hi]; exact hN
      · push Not at hN
        have hs : R < sqrt (gapSq (a N) c) := Real.lt_sqrt_of_sq_lt hN
        refine ⟨min δ ((sqrt (gapSq (a N) c) - R) / 2), lt_min hδ (by linarith), fun R' h1 h2 i hi hh => ?_⟩
        have m1 := min_le_left δ ((sqrt (gapSq (a N) c) - R) / 2)
        have m2 := min_le_right δ ((sqrt (gapSq (a N) c) - R) / 2)
        rcases Nat.lt_succ_iff_lt_or_eq.1 hi with hi | hi
        · exact H R' h1 (by linarith) i hi hh
        · exfalso
          rw [hi] at hh
          have : sqrt (gapSq (a N) c) ≤ R' := by
            rw [Real.sqrt_le_left (by linarith)]; exact hh
          linarith
  obtain ⟨δ, hδ, H⟩ := key
  refine ⟨δ, hδ, fun R' h1 h2 => Finset.Subset.antisymm ?_ (within_mono N a c h0 h1)⟩
  intro i hi
  rw [mem_within] at hi ⊢
  exact ⟨hi.1, H R' h1 h2 i hi.1 hi.2⟩

/-! ### the bisection -/

theorem bisect_succ (c : Vec n ℝ) (r : ℕ → Vec n ℝ) (N Ns fuel : ℕ) (low high : ℝ) :
    bisect c r N Ns (fuel + 1) low high =
      if (within N r c ((low + high) / 2)).card = Ns then some ((low + high) / 2)
      else if (within N r c ((low + high) / 2)).card < Ns then
        (if |high - low| / ((low + high) / 2) < 1 / 100000000 then some ((low + high) / 2)
          else bisect c r N Ns fuel ((low + high) / 2) high)
      else bisect c r N Ns fuel low ((low + high) / 2) := by
  have e : (1 : ℝ) / 2 * (low + high) = (low + high) / 2 := by ring
  rw [bisect]
  simp only [e, count_eq]
  generalize (within N r c ((low + high) / 2)).card = m
  rcases lt_trichotomy m Ns with h | h | h
  · have h1 : m ≠ Ns := h.ne
    rw [if_neg h1]
    by_cases h2 : |high - low| / ((low + high) / 2) < 1 / 100000000
    · rw [if_pos ⟨h, h2⟩, if_pos h, if_pos h2]
    · rw [if_neg (fun a => h2 a.2), if_pos h, if_neg h2, if_pos h1, if_pos h,
        if_neg (by omega : ¬ m > Ns)]
  · subst h
    simp
  · have h1 : m ≠ Ns := h.ne'
    rw [if_neg h1, if_neg (by omega : ¬ m < Ns), if_neg (fun a => absurd a.1 (by omega)), if_pos h1,
      if_pos h, if_neg (by omega : ¬ m < Ns)]

/-- what holds of the radius found -/
theorem bisect_sound (c : Vec n ℝ) (r : ℕ → Vec n ℝ) (N Ns fuel : ℕ) (low high high0 R : ℝ)
    (h0 : 0 ≤ low) (h1 : low < high) (hh : high ≤ high0)
    (hi : Ns < (within N r c high).card ∨ high = high0)
    (h : bisect c r N Ns fuel low high = some R) :
    0 < R ∧ R ≤ high0 ∧ (within N r c R).card ≤ Ns ∧
      ((within N r c R).card = Ns ∨ ∃ R', R ≤ R' ∧ R' ≤ R * (1 + 1 / 100000000) ∧
        (Ns < (within N r c R').card ∨ R' = high0)) := by
  induction fuel generalizing low high with
  | zero => simp [bisect] at h
  | succ fuel ih =>
    rw [bisect_succ] at h
    by_cases e : (within N r c ((low + high) / 2)).card = Ns
    · rw [if_pos e, Option.some.injEq] at h
      subst h
      exact ⟨by linarith, by linarith, e.le, Or.inl e⟩
    · rw [if_neg e] at h
      by_cases e2 : (within N r c ((low + high) / 2)).card < Ns
      · rw [if_pos e2] at h
        by_cases e3 : |high - low| / ((low + high) / 2) < 1 / 100000000
        · rw [if_pos e3, Option.some.injEq] at h
          subst h
          refine ⟨by linarith, by linarith, e2.le, Or.inr ⟨high, by linarith, ?_, hi⟩⟩
          rw [abs_of_pos (by linarith), div_lt_iff₀ (by linarith)] at e3
          linarith
        · rw [if_neg e3] at h
          exact ih _ _ (by linarith) (by linarith) hh hi h
      · rw [if_neg e2] at h
        exact ih _ _ h0 (by linarith) (by linarith) (Or.inl (by omega)) h

theorem bisect_mono (c : Vec n ℝ) (r : ℕ → Vec n ℝ) (N Ns fuel : ℕ) (low high R : ℝ)
    (h : bisect c r N Ns fuel low high = some R) : bisect c r N Ns (fuel + 1) low high = some R := by
  induction fuel generalizing low high with
  | zero => simp [bisect] at h
  | succ fuel ih =>
    rw [bisect_succ] at h
    rw [bisect_succ]
    split_ifs at h ⊢ <;> first | exact h | exact ih _ _ h

/-- with too many particles at the centre the loop never ends -/
theorem bisect_never (c : Vec n ℝ) (r : ℕ → Vec n ℝ) (N Ns fuel : ℕ) (low high : ℝ)
    (h0 : 0 ≤ low) (h1 : low ≤ high) (h : Ns < (within N r c 0).card) :
    bisect c r N Ns fuel low high = none := by
  induction fuel generalizing low high with
  | zero => rfl
  | succ fuel ih =>
    have := Finset.card_le_card (within_mono N r c (le_refl 0) (by linarith : 0 ≤ (low + high) / 2))
    rw [bisect_succ, if_neg (by omega), if_neg (by omega)]
    exact ih _ _ h0 (by linarith)

theorem exists_pow_half {x y : ℝ} (hy : 0 < y) : ∃ k : ℕ, x < 2 ^ k * y := by
  obtain ⟨k, hk⟩ := pow_unbounded_of_one_lt (x / y) (one_lt_two)
  exact ⟨k, by rwa [div_lt_iff₀ hy] at hk⟩

/-- the interval is already short: only its upper end can still move -/
theorem bisect_end_short (c : Vec n ℝ) (r : ℕ → Vec n ℝ) (N Ns : ℕ) (low δ : ℝ) (h0 : 0 < low)
    (hl : (within N r c low).card ≤ Ns) (hδ : ∀ R', low ≤ R' → R' ≤ low + δ → within N r c R' = within N r c low)
    (k : ℕ) (high : ℝ) (h1 : low < high) (hs : high - low < low * (1 / 100000000))
    (hk : high - low < 2 ^ k * δ) : ∃ fuel R, bisect c r N Ns fuel low high = some R := by
  induction k generalizing high with
  | zero =>
    refine ⟨1, (low + high) / 2, ?_⟩
    rw [pow_zero, one_mul] at hk
    rw [bisect_succ, hδ ((low + high) / 2) (by linarith) (by linarith)]
    by_cases e : (within N r c low).card = Ns
    · rw [if_pos e]
    · rw [if_neg e, if_pos (by omega), if_pos]
      rw [abs_of_pos (by linarith), div_lt_iff₀ (by linarith)]
      linarith
  | succ k ih =>
    rw [pow_succ] at hk
    by_cases e : (within N r c ((low + high) / 2)).card ≤ Ns
    · refine ⟨1, (low + high) / 2, ?_⟩
      rw [bisect_succ]
      by_cases e1 : (within N r c ((low + high) / 2)).card = Ns
      · rw [if_pos e1]
      · rw [if_neg e1, if_pos (by omega), if_pos]
        rw [abs_of_pos (by linarith), div_lt_iff₀ (by linarith)]
        linarith
    · obtain ⟨fuel, R, h⟩ := ih ((low + high) / 2) (by linarith) (by linarith) (by linarith)
      refine ⟨fuel + 1, R, ?_⟩
      rw [bisect_succ, if_neg (by omega), if_neg (by omega), h]

/-- a positive lower end -/
theorem bisect_end_pos (c : Vec n ℝ) (r : ℕ → Vec n ℝ) (N Ns k : ℕ) (low high : ℝ) (h0 : 0 < low)
    (hl : (within N r c low).card ≤ Ns) (h1 : low < high)
    (hk : high - low < 2 ^ k * (low * (1 / 100000000))) :
    ∃ fuel R, bisect c r N Ns fuel low high = some R := by
  induction k generalizing low high with
  | zero =>
    rw [pow_zero, one_mul] at hk
    obtain ⟨δ, hδ, H⟩ := within_right N r c h0.le
    obtain ⟨k, hk'⟩ := exists_pow_half (x := high - low) hδ
    exact bisect_end_short c r N Ns low δ h0 hl H k high h1 hk hk'
  | succ k ih =>
    rw [pow_succ] at hk
    by_cases e : (within N r c ((low + high) / 2)).card = Ns
    · exact ⟨1, (low + high) / 2, by rw [bisect_succ, if_pos e]⟩
    · by_cases e2 : (within N r c ((low + high) / 2)).card < Ns
      · have hp : (0 : ℝ) < 2 ^ k := by positivity
        obtain ⟨fuel, R, h⟩ := ih ((low + high) / 2) high (by linarith) e2.le (by linarith) (by
          have : (low * (1 / 100000000) : ℝ) ≤ (low + high) / 2 * (1 / 100000000) := by linarith
          have := mul_le_mul_of_nonneg_left this hp.le
          linarith)
        by_cases e3 : |high - low| / ((low + high) / 2) < 1 / 100000000
        · exact ⟨1, (low + high) / 2, by rw [bisect_succ, if_neg e, if_pos e2, if_pos e3]⟩
        · exact ⟨fuel + 1, R, by rw [bisect_succ, if_neg e, if_pos e2, if_neg e3, h]⟩
      · obtain ⟨fuel, R, h⟩ := ih low ((low + high) / 2) h0 hl (by linarith) (by linarith)
        exact ⟨fuel + 1, R, by rw [bisect_succ, if_neg e, if_neg e2, h]⟩

theorem bisect_end_zero (c : Vec n ℝ) (r : ℕ → Vec n ℝ) (N Ns k : ℕ) (δ high : ℝ)
    (hl : (within N r c 0).card ≤ Ns) (hδ : ∀ R', 0 ≤ R' → R' ≤ 0 + δ → within N r c R' = within N r c 0)
    (h1 : 0 < high) (hk : high < 2 ^ k * δ) : ∃ fuel R, bisect c r N Ns fuel 0 high = some R := by
  have up : (within N r c ((0 + high) / 2)).card ≤ Ns → ∃ fuel R, bisect c r N Ns fuel 0 high = some R := by
    intro e
    by_cases e1 : (within N r c ((0 + high) / 2)).card = Ns
    · exact ⟨1, (0 + high) / 2, by rw [bisect_succ, if_pos e1]⟩
    · obtain ⟨k, hk⟩ := exists_pow_half (x := high - (0 + high) / 2)
        (y := (0 + high) / 2 * (1 / 100000000)) (by linarith)
      obtain ⟨fuel, R, h⟩ := bisect_end_pos c r N Ns k ((0 + high) / 2) high (by linarith) e
        (by linarith) hk
      by_cases e3 : |high - 0| / ((0 + high) / 2) < 1 / 100000000
      · exact ⟨1, (0 + high) / 2, by rw [bisect_succ, if_neg e1, if_pos (by omega), if_pos e3]⟩
      · exact ⟨fuel + 1, R, by rw [bisect_succ, if_neg e1, if_pos (by omega), if_neg e3, h]⟩
  induction k generalizing high with
  | zero =>
    rw [pow_zero, one_mul] at hk
    apply up
    rw [hδ ((0 + high) / 2) (by linarith) (by linarith)]
    exact hl
  | succ k ih =>
    by_cases e : (within N r c ((0 + high) / 2)).card ≤ Ns
    · exact up e
    · rw [pow_succ] at hk
      have ih' := ih ((0 + high) / 2) (by linarith) (by linarith)
      have : ∃ fuel R, bisect c r N Ns fuel 0 ((0 + high) / 2) = some R := by
        apply ih'
        intro e4
        by_cases e5 : (within N r c ((0 + (0 + high) / 2) / 2)).card = Ns
        · exact ⟨1, _, by rw [bisect_succ, if_pos e5]⟩
        · obtain ⟨k, hk⟩ := exists_pow_half (x := (0 + high) / 2 - (0 + (0 + high) / 2) / 2)
            (y := (0 + (0 + high) / 2) / 2 * (1 / 100000000)) (by linarith)
          obtain ⟨fuel, R, h⟩ := bisect_end_pos c r N Ns k ((0 + (0 + high) / 2) / 2) ((0 + high) / 2)
            (by linarith) e4 (by linarith) hk
          by_cases e3 : |(0 + high) / 2 - 0| / ((0 + (0 + high) / 2) / 2) < 1 / 100000000
          · exact ⟨1, _, by rw [bisect_succ, if_neg e5, if_pos (by omega), if_pos e3]⟩
          · exact ⟨fuel + 1, R, by rw [bisect_succ, if_neg e5, if_pos (by omega), if_neg e3, h]⟩
      obtain ⟨fuel, R, h⟩ := this
      exact ⟨fuel + 1, R, by rw [bisect_succ, if_neg (by omega), if_neg (by omega), h]⟩

/-- the bisection ends unless there are more particles at the centre than wanted -/
theorem bisect_ends (c : Vec n ℝ) (r : ℕ → Vec n ℝ) (N Ns : ℕ) (high : ℝ) (h1 : 0 < high)
    (hl : (within N r c 0).card ≤ Ns) : ∃ fuel R, bisect c r N Ns fuel 0 high = some R := by
  obtain ⟨δ, hδ, H⟩ := within_right N r c (le_refl 0)
  obtain ⟨k, hk⟩ := exists_pow_half (x := high) hδ
  exact bisect_end_zero c r N Ns k δ high hl H h1 hk

/-! ### keeping the particles inside -/

open Classical in
theorem compact_aux (c : Vec n ℝ) (N : ℕ) (R : ℝ) (r : ℕ → Vec n ℝ) :
    (compact c N R r).2 ≤ N ∧ (∀ j, N ≤ j → (compact c N R r).1 j = r j) ∧
      (List.range (compact c N R r).2).map (compact c N R r).1 =
        ((List.range N).filter fun i => gapSq (r i) c ≤ R ^ 2).map fun i k => r i k / R := by
  unfold compact
  induction N with
  | zero => simp [loop_zero]
  | succ N ih =>
    rw [loop_succ]
    obtain ⟨a, b, d⟩ := ih
    generalize loop N (fun i (s : (ℕ → Vec n ℝ) × ℕ) =>
      if distSq c (s.1 i) ≤ R * R then
        (Function.update s.1 s.2 (fun k => s.1 i k / R), s.2 + 1) else s) (r, 0) = s at a b d ⊢
    have eR : R * R = R ^ 2 := by ring
    rw [distSq_eq, b N le_rfl, eR, List.range_succ, List.filter_append, List.map_append, ← d]
    by_cases h : gapSq (r N) c ≤ R ^ 2
    · rw [if_pos h]
      refine ⟨by omega, fun j hj => ?_, ?_⟩
      · show Function.update s.1 s.2 (fun k => r N k / R) j = r j
        rw [Function.update_of_ne (by omega), b j (by omega)]
      · simp only
        rw [List.range_succ, List.map_append]
        congr 1
        · apply List.map_congr_left
          intro i hi
          rw [List.mem_range] at hi
          rw [Function.update_of_ne (by omega)]
        · simp [h]
    · rw [if_neg h]
      refine ⟨by omega, fun j hj => b j (by omega), ?_⟩
      simp [h]

open Classical in
/-- positions kept, in order -/
theorem compact_list (c : Vec n ℝ) (N : ℕ) (R : ℝ) (r : ℕ → Vec n ℝ) :
    (List.range (compact c N R r).2).map (compact c N R r).1 =
        ((List.range N).filter fun i => gapSq (r i) c ≤ R ^ 2).map fun i k => r i k / R :=
  (compact_aux c N R r).2.2

theorem compact_card (c : Vec n ℝ) (N : ℕ) (R : ℝ) (r : ℕ → Vec n ℝ) :
    (compact c N R r).2 = (within N r c R).card := by
  classical
  have := congrArg List.length (compact_list c N R r)
  rw [List.length_map, List.length_range, List.length_map] at this
  rw [this]
  unfold within
  rfl

/-- where the particles kept come from -/
theorem compact_src (c : Vec n ℝ) (N : ℕ) (R : ℝ) (r : ℕ → Vec n ℝ) :
    ∃ src : ℕ → ℕ, (∀ i j, i < j → j < (compact c N R r).2 → src i < src j) ∧
      ∀ i < (compact c N R r).2, src i ∈ within N r c R ∧
        (compact c N R r).1 i = fun k => r (src i) k / R := by
  classical
  have hl := compact_list c N R r
  set l := (List.range N).filter fun i => gapSq (r i) c ≤ R ^ 2 with hdef
  have hlen : l.length = (compact c N R r).2 := by
    have := congrArg List.length hl
    rw [List.length_map, List.length_range, List.length_map] at this
    exact this.symm
  have hsorted : l.Pairwise (· < ·) := List.Pairwise.filter _ List.pairwise_lt_range
  have gd : ∀ i (h : i < l.length), l.getD i 0 = l[i] := fun i h => by
    rw [List.getD_eq_getElem?_getD, List.getElem?_eq_getElem h]; rfl
  refine ⟨fun i => l.getD i 0, fun i j hij hj => ?_, fun i hi => ?_⟩
  · show l.getD i 0 < l.getD j 0
    rw [gd i (by omega), gd j (by omega)]
    exact List.pairwise_iff_getElem.1 hsorted i j (by omega) (by omega) hij
  · have hi' : i < l.length := by omega
    simp only [gd i hi']
    refine ⟨?_, ?_⟩
    · have := List.mem_filter.1 (List.getElem_mem hi')
      rw [mem_within]
      exact ⟨List.mem_range.1 this.1, of_decide_eq_true this.2⟩
    · have h1 : ((List.range (compact c N R r).2).map (compact c N R r).1)[i]? =
          (l.map fun i k => r i k / R)[i]? := by rw [hl]
      rw [List.getElem?_map, List.getElem?_map, List.getElem?_range hi, List.getElem?_eq_getElem hi'] at h1
      simpa using h1

end Gandalf.Lattice
