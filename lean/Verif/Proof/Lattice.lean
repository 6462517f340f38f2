import Verif.Model.Lattice
import Verif.Spec.Lattice
import Mathlib.Tactic.Linarith
import Mathlib.Tactic.Ring
import Mathlib.Tactic.FieldSimp
import Mathlib.Tactic.NormNum
import Mathlib.Tactic.LinearCombination
import Mathlib.Tactic.IntervalCases
import Mathlib.Tactic.Positivity
import Mathlib.Algebra.Order.Floor.Ring
import Mathlib.Data.Real.Archimedean
import Mathlib.Analysis.SpecificLimits.Basic

/-! Lemmas on the lattices. -/

set_option autoImplicit false
set_option linter.unusedSectionVars false

namespace Gandalf.Lattice

open Real LatticeSpec

variable {n : ℕ}

theorem loop_succ {σ : Type} (N : ℕ) (f : ℕ → σ → σ) (s : σ) :
    loop (N + 1) f s = f N (loop N f s) := by
  simp [loop, List.range_succ]

theorem loop_zero {σ : Type} (f : ℕ → σ → σ) (s : σ) : loop 0 f s = s := rfl

/-- a loop writing to places numbered from `base` -/
theorem loop_row {β : Type} (N base : ℕ) (g : ℕ → β) (r : ℕ → β) (i : ℕ) :
    loop N (fun ii r => Function.update r (base + ii) (g ii)) r i =
      if base ≤ i ∧ i < base + N then g (i - base) else r i := by
  induction N with
  | zero => rw [loop_zero, if_neg (by omega)]
  | succ N ih =>
    rw [loop_succ]
    by_cases h : i = base + N
    · subst h
      rw [Function.update_self, if_pos (by omega)]
      congr 1; omega
    · rw [Function.update_of_ne h, ih]
      by_cases h2 : base ≤ i ∧ i < base + N
      · rw [if_pos h2, if_pos (by omega)]
      · rw [if_neg h2, if_neg (by omega)]

/-- a loop over rows of `M` places, each of which is written by `f` -/
theorem loop_rows {β : Type} (N M base : ℕ) (f : ℕ → (ℕ → β) → ℕ → β) (g : ℕ → ℕ → β)
    (hf : ∀ j r i, f j r i = if base + j * M ≤ i ∧ i < base + j * M + M then g j (i - (base + j * M)) else r i)
    (r : ℕ → β) (i : ℕ) :
    loop N f r i =
      if base ≤ i ∧ i < base + N * M then g ((i - base) / M) ((i - base) % M) else r i := by
  induction N with
  | zero => rw [loop_zero, if_neg (by omega)]
  | succ N ih =>
    rw [loop_succ, hf, ih]
    have e : (N + 1) * M = N * M + M := by ring
    by_cases h : base + N * M ≤ i ∧ i < base + N * M + M
    · rw [if_pos h, if_pos (by omega)]
      have h1 : i - base = (i - (base + N * M)) + M * N := by
        have : M * N = N * M := by ring
        omega
      have hM : 0 < M := by omega
      rw [h1, Nat.add_mul_div_left _ _ hM, Nat.add_mul_mod_self_left,
        Nat.div_eq_of_lt (by omega), Nat.mod_eq_of_lt (by omega), zero_add]
    · rw [if_neg h]
      by_cases h2 : base ≤ i ∧ i < base + N * M
      · rw [if_pos h2, if_pos (by omega)]
      · rw [if_neg h2, if_neg (by omega)]

/-- the array after the loops -/
theorem fill_apply (N0 N1 N2 : ℕ) (site : ℕ → ℕ → ℕ → Vec n ℝ) (r : ℕ → Vec n ℝ) (i : ℕ) :
    fill N0 N1 N2 site r i =
      if i < N0 * N1 * N2 then
        site (i % (N0 * N1) % N0) (i % (N0 * N1) / N0) (i / (N0 * N1)) else r i := by
  have h1 : ∀ kk jj (r : ℕ → Vec n ℝ) i,
      loop N0 (fun ii r => Function.update r (kk * N0 * N1 + jj * N0 + ii) (site ii jj kk)) r i =
      if kk * N0 * N1 + jj * N0 ≤ i ∧ i < kk * N0 * N1 + jj * N0 + N0 then
        site (i - (kk * N0 * N1 + jj * N0)) jj kk else r i := by
    intro kk jj r i
    exact loop_row N0 (kk * N0 * N1 + jj * N0) (fun ii => site ii jj kk) r i
  have h2 : ∀ kk (r : ℕ → Vec n ℝ) i,
      loop N1 (fun jj => loop N0 fun ii r =>
        Function.update r (kk * N0 * N1 + jj * N0 + ii) (site ii jj kk)) r i =
      if 0 + kk * (N0 * N1) ≤ i ∧ i < 0 + kk * (N0 * N1) + N0 * N1 then
        site ((i - (0 + kk * (N0 * N1))) % N0) ((i - (0 + kk * (N0 * N1))) / N0) kk else r i := by
    intro kk r i
    have := loop_rows N1 N0 (kk * N0 * N1) (fun jj => loop N0 fun ii r =>
        Function.update r (kk * N0 * N1 + jj * N0 + ii) (site ii jj kk))
        (fun jj ii => site ii jj kk) (fun j r i => h1 kk j r i) r i
    rw [this]
    have e : kk * N0 * N1 = 0 + kk * (N0 * N1) := by ring
    have e' : N1 * N0 = N0 * N1 := by ring
    rw [e, e']
  unfold fill
  have := loop_rows N2 (N0 * N1) 0 (fun kk => loop N1 fun jj => loop N0 fun ii r =>
        Function.update r (kk * N0 * N1 + jj * N0 + ii) (site ii jj kk))
        (fun kk i => site (i % N0) (i / N0) kk) (fun k r i => h2 k r i) r i
  rw [this]
  have e : 0 + N2 * (N0 * N1) = N0 * N1 * N2 := by ring
  rw [e]
  simp

/-- numbers of the sites -/
theorem index_split {N0 N1 N2 ii jj kk : ℕ} (h0 : ii < N0) (h1 : jj < N1) (h2 : kk < N2) :
    kk * N0 * N1 + jj * N0 + ii < N0 * N1 * N2 ∧
    (kk * N0 * N1 + jj * N0 + ii) % (N0 * N1) % N0 = ii ∧
    (kk * N0 * N1 + jj * N0 + ii) % (N0 * N1) / N0 = jj ∧
    (kk * N0 * N1 + jj * N0 + ii) / (N0 * N1) = kk := by
  have hlt : jj * N0 + ii < N0 * N1 := by
    have : (jj + 1) * N0 ≤ N1 * N0 := Nat.mul_le_mul_right _ h1
    have e : (jj + 1) * N0 = jj * N0 + N0 := by ring
    have e2 : N1 * N0 = N0 * N1 := by ring
    omega
  have hpos : 0 < N0 * N1 := by omega
  have e : kk * N0 * N1 + jj * N0 + ii = (jj * N0 + ii) + N0 * N1 * kk := by ring
  have hN0 : 0 < N0 := by omega
  rw [e, Nat.add_mul_mod_self_left, Nat.add_mul_div_left _ _ hpos, Nat.mod_eq_of_lt hlt,
    Nat.div_eq_of_lt hlt]
  have e3 : jj * N0 + ii = ii + N0 * jj := by ring
  refine ⟨?_, ?_, ?_, by omega⟩
  · have : N0 * N1 * (kk + 1) ≤ N0 * N1 * N2 := Nat.mul_le_mul_left _ h2
    have e4 : N0 * N1 * (kk + 1) = N0 * N1 * kk + N0 * N1 := by ring
    omega
  · rw [e3, Nat.add_mul_mod_self_left, Nat.mod_eq_of_lt h0]
  · rw [e3, Nat.add_mul_div_left _ _ hN0, Nat.div_eq_of_lt h0, zero_add]

/-- site of a number -/
theorem split_index {N0 N1 N2 i : ℕ} (h : i < N0 * N1 * N2) :
    ∃ ii jj kk, ii < N0 ∧ jj < N1 ∧ kk < N2 ∧ i = kk * N0 * N1 + jj * N0 + ii := by
  have hp : 0 < N0 * N1 := by
    rcases Nat.eq_zero_or_pos (N0 * N1) with h' | h'
    · rw [h'] at h; omega
    · exact h'
  have hN0 : 0 < N0 := Nat.pos_of_mul_pos_right hp
  refine ⟨i % (N0 * N1) % N0, i % (N0 * N1) / N0, i / (N0 * N1), Nat.mod_lt _ hN0, ?_, ?_, ?_⟩
  · exact Nat.div_lt_of_lt_mul (Nat.mod_lt _ hp)
  · exact Nat.div_lt_of_lt_mul h
  · have a := Nat.div_add_mod i (N0 * N1)
    have b := Nat.div_add_mod (i % (N0 * N1)) N0
    have e : i / (N0 * N1) * N0 * N1 = N0 * N1 * (i / (N0 * N1)) := by ring
    have e2 : i % (N0 * N1) / N0 * N0 = N0 * (i % (N0 * N1) / N0) := by ring
    omega

theorem fill_site {N0 N1 N2 ii jj kk : ℕ} (h0 : ii < N0) (h1 : jj < N1) (h2 : kk < N2)
    (site : ℕ → ℕ → ℕ → Vec n ℝ) (r : ℕ → Vec n ℝ) :
    fill N0 N1 N2 site r (kk * N0 * N1 + jj * N0 + ii) = site ii jj kk := by
  obtain ⟨a, b, c, d⟩ := index_split h0 h1 h2
  rw [fill_apply, if_pos a, b, c, d]

theorem fill_outside {N0 N1 N2 i : ℕ} (h : N0 * N1 * N2 ≤ i) (site : ℕ → ℕ → ℕ → Vec n ℝ)
    (r : ℕ → Vec n ℝ) : fill N0 N1 N2 site r i = r i := by
  rw [fill_apply, if_neg (by omega)]

/-! ### cubic lattices -/

/-- the cell of a point along one direction -/
theorem cell_unique {N : ℕ} {lo hi s y : ℝ} (hs : 0 < s) (hN : lo + N * s = hi)
    (h1 : lo ≤ y) (h2 : y < hi) :
    ∃ x : ℕ, x < N ∧ (lo + ((x : ℝ) + 1 / 2) * s - s / 2 ≤ y ∧ y < lo + ((x : ℝ) + 1 / 2) * s + s / 2) ∧
      ∀ x' : ℕ, (lo + ((x' : ℝ) + 1 / 2) * s - s / 2 ≤ y ∧ y < lo + ((x' : ℝ) + 1 / 2) * s + s / 2) →
        x' = x := by
  have hq : 0 ≤ (y - lo) / s := div_nonneg (by linarith) hs.le
  have key : ∀ x : ℕ, (lo + ((x : ℝ) + 1 / 2) * s - s / 2 ≤ y ∧
      y < lo + ((x : ℝ) + 1 / 2) * s + s / 2) ↔ ⌊(y - lo) / s⌋₊ = x := by
    intro x
    rw [Nat.floor_eq_iff hq, le_div_iff₀ hs, div_lt_iff₀ hs]
    constructor
    · rintro ⟨a, b⟩; exact ⟨by linarith, by linarith⟩
    · rintro ⟨a, b⟩; exact ⟨by linarith, by linarith⟩
  refine ⟨⌊(y - lo) / s⌋₊, ?_, (key _).2 rfl, fun x' hx' => ((key x').1 hx').symm⟩
  rw [Nat.floor_lt hq, div_lt_iff₀ hs]
  linarith

/-- distance of two different sites along one direction -/
theorem sites_apart {x y : ℤ} (h : x ≠ y) (s : ℝ) :
    s ^ 2 ≤ (((x : ℝ) + 1 / 2) * s - ((y : ℝ) + 1 / 2) * s) ^ 2 := by
  have h1 : (1 : ℝ) ≤ ((x : ℝ) - y) ^ 2 := by
    have : (1 : ℤ) ≤ (x - y) ^ 2 := by
      have : (x - y) ≠ 0 := sub_ne_zero.2 h
      have := pow_pos (abs_pos.2 this) 2
      rw [sq_abs] at this
      omega
    exact_mod_cast this
  nlinarith [sq_nonneg s]

/-! ### close packing -/

theorem pack2 (i j i' j' : ℤ) (h : (i, j) ≠ (i', j')) :
    4 ≤ ((2 * i + j % 2) - (2 * i' + j' % 2)) ^ 2 + 3 * (j - j') ^ 2 := by
  by_cases hj : j = j'
  · subst hj
    have hi : i - i' ≠ 0 := fun e => h (by rw [sub_eq_zero.1 e])
    have := pow_pos (abs_pos.2 hi) 2
    rw [sq_abs] at this
    nlinarith
  · have h3 : 1 ≤ (j - j') ^ 2 := by
      have := pow_pos (abs_pos.2 (sub_ne_zero.2 hj)) 2
      rw [sq_abs] at this; omega
    by_cases h4 : j - j' = 1 ∨ j - j' = -1
    · have : (2 * i + j % 2) - (2 * i' + j' % 2) ≠ 0 := by omega
      have := pow_pos (abs_pos.2 this) 2
      rw [sq_abs] at this
      nlinarith
    · have : 2 ≤ |j - j'| := by
        have : j - j' ≠ 0 := sub_ne_zero.2 hj
        rcases le_or_gt 0 (j - j') with h5 | h5
        · rw [abs_of_nonneg h5]; omega
        · rw [abs_of_neg h5]; omega
      have h6 : 4 ≤ (j - j') ^ 2 := by rw [← sq_abs]; nlinarith
      nlinarith [sq_nonneg ((2 * i + j % 2) - (2 * i' + j' % 2))]

theorem one_le_sq {z : ℤ} (h : z ≠ 0) : 1 ≤ z ^ 2 := by
  have := pow_pos (abs_pos.2 h) 2
  rw [sq_abs] at this
  omega

theorem four_le_sq {z : ℤ} (h : z ≤ -2 ∨ 2 ≤ z) : 4 ≤ z ^ 2 := by
  rcases h with h | h <;> nlinarith

/-- three times the squared distance of two sites of the close packing, in units of `rad` -/
def packSq (i j k i' j' k' : ℤ) : ℤ :=
  3 * ((2 * i + j % 2 + (k + 1) % 2) - (2 * i' + j' % 2 + (k' + 1) % 2)) ^ 2 +
    ((3 * j + k % 2) - (3 * j' + k' % 2)) ^ 2 + 8 * (k - k') ^ 2

theorem pack3 (i j k i' j' k' : ℤ) (h : (i, j, k) ≠ (i', j', k')) : 12 ≤ packSq i j k i' j' k' := by
  unfold packSq
  by_cases hk : k = k'
  · subst hk
    have h' : (i, j) ≠ (i', j') := fun e => h (by
      rw [Prod.mk.injEq] at e ⊢; rw [Prod.mk.injEq]; exact ⟨e.1, e.2, rfl⟩)
    have := pack2 i j i' j' h'
    nlinarith
  · by_cases h4 : k - k' = 1 ∨ k - k' = -1
    · have hk2 : (k - k') ^ 2 = 1 := by rcases h4 with h | h <;> rw [h] <;> norm_num
      by_cases hj : j = j'
      · subst hj
        have h5 : (2 * i + j % 2 + (k + 1) % 2) - (2 * i' + j % 2 + (k' + 1) % 2) ≠ 0 := by omega
        have h6 : (3 * j + k % 2) - (3 * j + k' % 2) ≠ 0 := by omega
        nlinarith [one_le_sq h5, one_le_sq h6]
      · have h6 : (3 * j + k % 2) - (3 * j' + k' % 2) ≤ -2 ∨ 2 ≤ (3 * j + k % 2) - (3 * j' + k' % 2) := by
          omega
        nlinarith [four_le_sq h6,
          sq_nonneg ((2 * i + j % 2 + (k + 1) % 2) - (2 * i' + j' % 2 + (k' + 1) % 2))]
    · have h5 : k - k' ≤ -2 ∨ 2 ≤ k - k' := by omega
      nlinarith [four_le_sq h5, sq_nonneg ((3 * j + k % 2) - (3 * j' + k' % 2)),
        sq_nonneg ((2 * i + j % 2 + (k + 1) % 2) - (2 * i' + j' % 2 + (k' + 1) % 2))]

end Gandalf.Lattice
