import Verif.Model.StarHeat
import Verif.Spec.StarHeat
import Verif.Proof.Units

set_option autoImplicit false

namespace Gandalf.StarHeat

open Units Real

theorem root_pow {t : ℝ} (h : 0 ≤ t) : (t ^ (1 / 4 : ℝ)) ^ 4 = t := by
  rw [← Real.rpow_natCast, ← Real.rpow_mul h]; norm_num

theorem root4_spec {t : ℝ} (h : 0 ≤ t) : ∃ T, root4 t = some T ∧ 0 ≤ T ∧ T ^ 4 = t :=
  ⟨_, by rw [root4, if_neg (not_lt.mpr h)], Real.rpow_nonneg h _, root_pow h⟩

theorem heat_one {n : ℕ} (H : Heat) (x : Vec (n + 2) ℝ) (a : ℝ) (s : Sink n) (hr : 0 < H.rad)
    (hs : (H.source s.m).1 ≠ 0)
    (hL : 0 ≤ H.luminosity s.m s.dmdt s.radius (H.source s.m).1 (H.source s.m).2) :
    H.add x (some a) s = some (a + grey H.rad (H.luminosity s.m s.dmdt s.radius (H.source s.m).1 (H.source s.m).2) (distance x s.r)) := by
  set L := H.luminosity s.m s.dmdt s.radius (H.source s.m).1 (H.source s.m).2 with hLd
  set r := (H.source s.m).1
  have hd : 0 < 4 * π * H.rad * r * r := by
    have : 0 < r * r := mul_self_pos.mpr hs
    rw [mul_assoc]
    positivity
  have h0 : 0 ≤ L / (4 * π * H.rad * r * r) := div_nonneg hL hd.le
  have e : H.temperature L r = some ((L / (4 * π * H.rad * r * r)) ^ (1 / 4 : ℝ)) := by
    rw [Heat.temperature, if_neg (not_lt.mpr h0)]
  simp only [Heat.add, Option.bind_some]
  rw [e]
  simp only [Option.map_some, Option.some.injEq, root_pow h0]
  congr 1
  simp only [grey]
  have hπ := Real.pi_ne_zero
  rcases eq_or_ne (distance x s.r) 0 with h | h
  · rw [h]; simp
  · have := hr.ne'
    field_simp
    norm_num
    exact mul_comm _ _

theorem heat_none {n : ℕ} (H : Heat) (x : Vec (n + 2) ℝ) (l : List (Sink n)) : l.foldl (H.add x) none = none := by
  induction l with
  | nil => rfl
  | cons s l ih => exact ih

theorem heat_all {n : ℕ} (H : Heat) (x : Vec (n + 2) ℝ) (hr : 0 < H.rad) (l : List (Sink n)) (a : ℝ)
    (h : ∀ s ∈ l, (H.source s.m).1 ≠ 0 ∧ 0 ≤ H.luminosity s.m s.dmdt s.radius (H.source s.m).1 (H.source s.m).2) :
    l.foldl (H.add x) (some a) = some (a + (l.map fun s =>
      grey H.rad (H.luminosity s.m s.dmdt s.radius (H.source s.m).1 (H.source s.m).2) (distance x s.r)).sum) := by
  induction l generalizing a with
  | nil => simp
  | cons s l ih =>
    rw [List.foldl_cons, heat_one H x a s hr (h s (by simp)).1 (h s (by simp)).2, ih _ fun t ht => h t (by simp [ht])]
    simp only [List.map_cons, List.sum_cons, add_assoc]

theorem grey_nonneg {sigma L d : ℝ} (hs : 0 < sigma) (hL : 0 ≤ L) : 0 ≤ grey sigma L d := by
  rw [grey]; positivity

/-- a sink of negative luminosity leaves no number -/
theorem heat_dark {n : ℕ} (H : Heat) (x : Vec (n + 2) ℝ) (hr : 0 < H.rad) (l : List (Sink n)) (acc : Option ℝ) (s : Sink n)
    (hs : s ∈ l) (h0 : (H.source s.m).1 ≠ 0)
    (hL : H.luminosity s.m s.dmdt s.radius (H.source s.m).1 (H.source s.m).2 < 0) : l.foldl (H.add x) acc = none := by
  induction l generalizing acc with
  | nil => simp at hs
  | cons t l ih =>
    rw [List.foldl_cons]
    rcases List.mem_cons.mp hs with rfl | h
    · have : H.add x acc s = none := by
        have hd : 0 < 4 * π * H.rad * (H.source s.m).1 * (H.source s.m).1 := by
          have : 0 < (H.source s.m).1 * (H.source s.m).1 := mul_self_pos.mpr h0
          rw [mul_assoc]; positivity
        cases acc with
        | none => rfl
        | some a =>
          simp only [Heat.add, Option.bind_some, Heat.temperature]
          rw [if_pos (div_neg_of_neg_of_pos hL hd)]
          rfl
      rw [this]; exact heat_none H x l
    · exact ih _ h

/-! ### the rate of accretion -/

theorem counted_idle (smooth : Bool) (nstep : ℕ) (ts d : ℝ) (l : List Event) (h : ∀ e ∈ l, e.gas = false ∨ e.due = false)
    (l' : List Event) : counted smooth nstep ts d (l ++ l') = l.length * (d * ts) + counted smooth nstep ts d l' := by
  induction l with
  | nil => simp
  | cons e l ih =>
    have e1 : rate smooth nstep ts d e = d := by
      rw [rate, if_pos]
      rcases h e (by simp) with h | h <;> simp [h]
    rw [List.cons_append, counted, e1, ih fun e he => h e (by simp [he])]
    simp only [List.length_cons]
    push_cast
    ring

theorem counted_starStep (smooth : Bool) (nstep : ℕ) (hn : 1 ≤ nstep) (ts d macc : ℝ) (l' : List Event) :
    counted smooth nstep ts d (starStep nstep true macc ++ l') =
      nstep * ((if smooth then macc / (nstep * ts) else macc / ts) * ts) +
        counted smooth nstep ts (if smooth then macc / (nstep * ts) else macc / ts) l' := by
  rw [starStep, List.cons_append, counted]
  have e1 : rate smooth nstep ts d ⟨true, true, macc⟩ = if smooth then macc / (nstep * ts) else macc / ts := by
    simp [rate]
  rw [e1, counted_idle _ _ _ _ _ (by intro e he; rw [List.mem_replicate] at he; rw [he.2]; exact Or.inr rfl)]
  rw [List.length_replicate, Nat.cast_sub hn]
  push_cast
  ring

/-! ### ionising photons -/

theorem findBin_ge (mass : ℕ → ℝ) (ms : ℝ) (k j : ℕ) : j ≤ findBin mass ms k j := by
  induction k generalizing j with
  | zero => exact le_rfl
  | succ k ih =>
    rw [findBin]
    split_ifs
    · exact le_rfl
    · exact (Nat.le_succ j).trans (ih _)

/-- the bin of a mass within the table -/
theorem findBin_in (mass : ℕ → ℝ) (ms : ℝ) (k j : ℕ) (h0 : mass j ≤ ms) (h1 : ms < mass (j + k)) :
    findBin mass ms k j < j + k ∧ mass (findBin mass ms k j) ≤ ms ∧ ms < mass (findBin mass ms k j + 1) := by
  induction k generalizing j with
  | zero => rw [Nat.add_zero] at h1; exact absurd h1 (not_lt.mpr h0)
  | succ k ih =>
    rw [findBin]
    by_cases h : mass j ≤ ms ∧ ms < mass (j + 1)
    · rw [if_pos h]; exact ⟨by omega, h⟩
    · rw [if_neg h]
      have h2 : mass (j + 1) ≤ ms := by
        by_contra hc; exact h ⟨h0, not_le.mp hc⟩
      have := ih (j + 1) h2 (by rw [show j + 1 + k = j + (k + 1) by omega]; exact h1)
      exact ⟨by omega, this.2⟩

/-- no bin has a mass outside the table -/
theorem findBin_out (mass : ℕ → ℝ) (ms : ℝ) (k j : ℕ) (h : ∀ i, j ≤ i → i < j + k → ms < mass i ∨ mass (i + 1) ≤ ms) :
    findBin mass ms k j = j + k := by
  induction k generalizing j with
  | zero => rfl
  | succ k ih =>
    rw [findBin, if_neg]
    · rw [ih (j + 1) fun i h1 h2 => h i (by omega) (by omega)]; omega
    · intro hc
      rcases h j le_rfl (by omega) with h | h <;> linarith [hc.1, hc.2]

theorem stellar_in {N : ℕ} {mass nlyc : ℕ → ℝ} {ms : ℝ} (h0 : mass 0 ≤ ms) (h1 : ms < mass (N - 1)) :
    ∃ j, j + 1 < N ∧ mass j ≤ ms ∧ ms < mass (j + 1) ∧
      stellar N mass nlyc ms = some (photons (nlyc j) (nlyc (j + 1)) ((ms - mass j) / (mass (j + 1) - mass j))) := by
  obtain ⟨a, b, c⟩ := findBin_in mass ms (N - 1) 0 h0 (by rwa [Nat.zero_add])
  refine ⟨_, by omega, b, c, ?_⟩
  simp only [stellar]
  rw [if_neg (by omega), if_neg (by omega)]

theorem stellar_out {N : ℕ} (hN : 2 ≤ N) {mass nlyc : ℕ → ℝ} {ms : ℝ}
    (h : ∀ i, i < N - 1 → ms < mass i ∨ mass (i + 1) ≤ ms) : stellar N mass nlyc ms = some ((10 : ℝ) ^ nlyc (N - 1)) := by
  have e := findBin_out mass ms (N - 1) 0 fun i _ hi => h i (by omega)
  simp only [stellar, e]
  rw [if_pos (by omega), if_neg (by omega)]
  simp [photons]

end Gandalf.StarHeat
