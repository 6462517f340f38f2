import Verif.Proof.Random

/-!
# C37 – the random number generator
-/

set_option autoImplicit false

namespace Gandalf

open Xorshift

/-- **C37 (state update).** The update of the 64-bit state is a bijection; zero is the only state that
leads to zero. -/
theorem C37_state_bijective : Function.Bijective next ∧ ∀ x, next x = 0 ↔ x = 0 :=
  ⟨next_bijective, fun _ => next_eq_zero⟩

/-- **C37 (full period).** From every non-zero state the generator visits every non-zero state, and comes
back after exactly `2^64 - 1` draws: the triple of shifts is a full-period triple. -/
theorem C37_full_period (x : BitVec 64) (hx : x ≠ 0) :
    (∀ y, y ≠ 0 → ∃ n < 2 ^ 64 - 1, next^[n] x = y) ∧ next^[2 ^ 64 - 1] x = x ∧
    ∀ n, 0 < n → n < 2 ^ 64 - 1 → next^[n] x ≠ x := by
  obtain ⟨i, hi, rfl⟩ := orbit_from_one x hx
  have hmp : Function.minimalPeriod next (next^[i] 1) = period := by
    rw [← minimalPeriod_next_one]
    exact Function.minimalPeriod_apply_iterate
      (Function.mk_mem_periodicPts (by norm_num [period]) next_period_one) i
  refine ⟨?_, next_period _, ?_⟩
  · intro y hy
    obtain ⟨j, hj, rfl⟩ := orbit_from_one y hy
    by_cases hij : i ≤ j
    · refine ⟨j - i, by simp only [period] at hj; omega, ?_⟩
      rw [← Function.iterate_add_apply, Nat.sub_add_cancel hij]
    · refine ⟨period + j - i, by simp only [period] at *; omega, ?_⟩
      rw [← Function.iterate_add_apply, show period + j - i + i = j + period by omega,
        Function.iterate_add_apply, next_period]
  · intro n h0 hn h
    have : period ∣ n := by
      rw [← hmp]; exact Function.IsPeriodicPt.minimalPeriod_dvd h
    have := Nat.le_of_dvd h0 this
    simp only [period] at this
    omega

/-- **C37 (draws).** A generator constructed with any non-zero seed returns, in up to `2^64 - 1` draws,
only non-zero integers and none of them twice; its state never is zero. -/
theorem C37_draws_distinct (seed : BitVec 64) (hs : seed ≠ 0) (n : ℕ) :
    (draws n (init seed)).1 ≠ 0 ∧ 0 ∉ (draws n (init seed)).2 ∧ (draws n (init seed)).2.length = n ∧
    (n ≤ 2 ^ 64 - 1 → (draws n (init seed)).2.Nodup) := by
  have hne : ∀ m (x : BitVec 64), x ≠ 0 → next^[m] x ≠ 0 := by
    intro m
    induction m with
    | zero => exact fun x h => h
    | succ m ih =>
      intro x h
      rw [Function.iterate_succ_apply]
      exact ih _ (fun h' => h (next_eq_zero.mp h'))
  have hi : init seed ≠ 0 := by rw [init_eq]; exact hne 10 seed hs
  rw [draws_state, draws_list]
  refine ⟨hne n _ hi, ?_, by simp, ?_⟩
  · intro h
    obtain ⟨m, _, hm⟩ := List.mem_map.mp h
    refine hne (m + 1) _ hi (mul_amod_injective (?_ : next^[m + 1] (init seed) * amod = 0 * amod))
    rw [hm]; decide
  · intro hn
    refine List.nodup_range.map_on ?_
    intro a ha b hb h
    rw [List.mem_range] at ha hb
    have h' := mul_amod_injective h
    by_contra hab
    wlog hlt : a < b generalizing a b with H
    · exact H b hb a ha h.symm h'.symm (fun e => hab e.symm) (by omega)
    refine (C37_full_period (next^[a + 1] (init seed)) (hne _ _ hi)).2.2 (b - a) (by omega) (by omega) ?_
    rw [← Function.iterate_add_apply, show b - a + (a + 1) = b + 1 by omega]
    exact h'.symm

/-- **C37 (variates), partial.** Every real variate of a non-zero state is positive and exceeds one by
less than `3·10⁻¹⁵`. Missing: `≤ 1`, which is false (`C37_floatrand_exceeds_one`). -/
theorem C37_floatrand_partial (x : BitVec 64) (hx : x ≠ 0) :
    0 < (floatrand x).2 ∧ (floatrand x).2 < 1 + 3 / 10 ^ 15 := by
  have h0 : 0 < (next x * amod).toNat := by
    refine toNat_ne_zero fun h => hx (next_eq_zero.mp (mul_amod_injective (?_ : next x * amod = 0 * amod)))
    rw [h]; decide
  have h1 : (next x * amod).toNat < 2 ^ 64 := (next x * amod).isLt
  simp only [floatrand, xorshiftrand, invrandmax]
  have h1' : ((next x * amod).toNat : ℚ) < 2 ^ 64 := by exact_mod_cast h1
  have h0' : (0 : ℚ) < ((next x * amod).toNat : ℚ) := by exact_mod_cast h0
  constructor
  · positivity
  · calc 1 / 18446744073709500000 * ((next x * amod).toNat : ℚ)
        < 1 / 18446744073709500000 * 2 ^ 64 := by
          apply mul_lt_mul_of_pos_left h1'; norm_num
      _ < 1 + 3 / 10 ^ 15 := by norm_num

/-- the state before the integer `2^64 - 1` is returned -/
theorem top_state : ∃ x : BitVec 64, x ≠ 0 ∧ (next x * amod).toNat = 2 ^ 64 - 1 := by
  obtain ⟨x, hx⟩ := next_bijective.2 (18446744073709551615#64 * 1615231051170002885#64)
  refine ⟨x, ?_, ?_⟩
  · rintro rfl
    rw [next_zero] at hx
    revert hx; decide
  · rw [hx]; decide

/-- **C37, defect.** Whatever the (non-zero) seed, among its draws there is a variate above one. -/
theorem C37_floatrand_exceeds_one (seed : BitVec 64) (hs : seed ≠ 0) :
    ∃ n < 2 ^ 64 - 1, 1 < (floatrand (draws n (init seed)).1).2 := by
  obtain ⟨x, hx, ht⟩ := top_state
  have hi : init seed ≠ 0 := (C37_draws_distinct seed hs 0).1
  obtain ⟨n, hn, e⟩ := (C37_full_period (init seed) hi).1 x hx
  refine ⟨n, hn, ?_⟩
  rw [draws_state, e]
  simp only [floatrand, xorshiftrand, invrandmax, ht]
  norm_num

/-- **C37 (Gaussian variates).** With a non-zero state the rejection loop ends in its first turn. -/
theorem C37_gaussrand_ends (m s : ℝ) (x : BitVec 64) (hx : x ≠ 0) :
    ∃ r, gaussrand m s 1 x = some r := by
  simp only [gaussrand, if_neg (C37_floatrand_partial x hx).1.ne']
  exact ⟨_, rfl⟩

/-- **C37, defect.** The mean and the width asked for are ignored. -/
theorem C37_gaussrand_ignores_parameters (m s m' s' : ℝ) (fuel : ℕ) (x : BitVec 64) :
    gaussrand m s fuel x = gaussrand m' s' fuel x := by
  induction fuel generalizing x with
  | zero => rfl
  | succ fuel ih => simp only [gaussrand, ih]

/-- **C37, defect.** Every generator has a state from which `gaussrand` takes the square root of a negative
number. -/
theorem C37_gaussrand_not_a_number (seed : BitVec 64) (hs : seed ≠ 0) (m s : ℝ) :
    ∃ n < 2 ^ 64 - 1, ∃ x', gaussrand m s 1 (draws n (init seed)).1 = some (x', none) := by
  obtain ⟨n, hn, h⟩ := C37_floatrand_exceeds_one seed hs
  refine ⟨n, hn, ?_⟩
  have h0 : (floatrand (draws n (init seed)).1).2 ≠ 0 := fun e => by rw [e] at h; exact absurd h (by norm_num)
  simp only [gaussrand, if_neg h0]
  refine ⟨(floatrand (floatrand (draws n (init seed)).1).1).1, ?_⟩
  rw [if_pos]
  have h' : (1 : ℝ) < ((floatrand (draws n (init seed)).1).2 : ℝ) := by exact_mod_cast h
  have := Real.log_pos h'
  linarith

/-- **C37, defect.** With seed zero every draw is zero and `gaussrand` never returns. -/
theorem C37_zero_seed_stuck (m s : ℝ) (n : ℕ) :
    (draws n (init 0)).1 = 0 ∧ (∀ r ∈ (draws n (init 0)).2, r = 0#64) ∧ gaussrand m s n (init 0) = none := by
  have hz : ∀ k, next^[k] 0 = 0 := by
    intro k
    induction k with
    | zero => rfl
    | succ k ih => rw [Function.iterate_succ_apply, next_zero, ih]
  have hi : init 0 = 0 := by rw [init_eq, hz]
  rw [hi, draws_state, draws_list]
  refine ⟨hz n, ?_, ?_⟩
  · intro r hr
    obtain ⟨k, _, rfl⟩ := List.mem_map.mp hr
    rw [hz]; decide
  · have hf : floatrand 0 = (0, 0) := by
      simp only [floatrand, xorshiftrand, next_zero]
      rw [show (0 : BitVec 64) * amod = 0 by decide]
      simp
    induction n with
    | zero => rfl
    | succ n ih => simp only [gaussrand, hf, if_true]; exact ih

/-- the first three integers of the generator with seed 1 -/
example : (draws 3 (init 1)).2.length = 3 ∧ (draws 3 (init 1)).2.Nodup ∧ (1 : BitVec 64) ≠ 0 := by decide

end Gandalf
