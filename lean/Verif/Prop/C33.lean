import Verif.Model.Kernel
import Mathlib.Algebra.Order.Floor.Ring
import Mathlib.Algebra.Order.Floor.Semiring
import Mathlib.Order.Filter.AtTopBot.Basic
import Mathlib.Topology.MetricSpace.Pseudo.Defs

/-!
# C33 – tabulated kernels
-/

set_option autoImplicit false

namespace Gandalf

open Tabulated

/-- the index is inside the table and the tabulated abscissa is at most one spacing below `s` -/
theorem Tabulated.index_spec {range : ℝ} (hr : 0 < range) {res : ℕ} (hres : 0 < res) {s : ℝ} (h0 : 0 ≤ s)
    (hs : s < range) : index range res s < res ∧ range / res * index range res s ≤ s ∧
    s < range / res * index range res s + range / res := by
  have hres' : (0 : ℝ) < res := by exact_mod_cast hres
  have hx : 0 ≤ s * (res / range) := by positivity
  have h1 := Nat.floor_le hx
  have h2 := Nat.lt_floor_add_one (s * (res / range))
  refine ⟨?_, ?_, ?_⟩
  · rw [index, Nat.floor_lt hx]
    rw [← mul_div_assoc, div_lt_iff₀ hr, mul_comm (res : ℝ)]
    exact mul_lt_mul_of_pos_right hs hres'
  · calc range / res * ((index range res s : ℕ) : ℝ) ≤ range / res * (s * (res / range)) :=
          mul_le_mul_of_nonneg_left h1 (by positivity)
      _ = s := by field_simp
  · calc s = range / res * (s * (res / range)) := by field_simp
      _ < range / res * (((index range res s : ℕ) : ℝ) + 1) :=
          mul_lt_mul_of_pos_left h2 (by positivity)
      _ = _ := by ring

/-- **C33.** For every kernel function, table resolution and separation the look-up stays inside the
table; inside the range it returns the exact function value at a separation at most one table spacing
below `s`, beyond it the value of the analytic continuation (`0`, `1/s²`, `1/s`). -/
theorem C33_lookup (f out : ℝ → ℝ) {range : ℝ} (hr : 0 < range) {res : ℕ} (hres : 0 < res) (s : ℝ)
    (h0 : 0 ≤ s) :
    (range ≤ s → lookup range res out (initializeTable range res f) s = some (out s)) ∧
    (s < range → ∃ s', 0 ≤ s' ∧ s' ≤ s ∧ s < s' + range / res ∧
      lookup range res out (initializeTable range res f) s = some (f s')) := by
  constructor
  · intro h
    rw [lookup, if_pos h]
  · intro h
    obtain ⟨h1, h2, h3⟩ := index_spec hr hres h0 h
    refine ⟨range / res * index range res s, by positivity, h2, h3, ?_⟩
    rw [lookup, if_neg (not_le.mpr h), initializeTable, List.getElem?_map, List.getElem?_range h1]
    rfl

/-- **C33, tables in the squared separation.** The value returned for `s²` is the exact function value at a
separation whose square is at most one spacing of the table below `s²`. -/
theorem C33_lookup_squared (f : ℝ → ℝ) {rangesqd : ℝ} (hr : 0 < rangesqd) {res : ℕ} (hres : 0 < res) (ssqd : ℝ)
    (h0 : 0 ≤ ssqd) :
    (rangesqd ≤ ssqd → lookup rangesqd res (fun _ => 0) (initializeTableSqd rangesqd res f) ssqd = some 0) ∧
    (ssqd < rangesqd → ∃ s', 0 ≤ s' ∧ s' ^ 2 ≤ ssqd ∧ ssqd < s' ^ 2 + rangesqd / res ∧
      lookup rangesqd res (fun _ => 0) (initializeTableSqd rangesqd res f) ssqd = some (f s')) := by
  constructor
  · intro h
    rw [lookup, if_pos h]
  · intro h
    obtain ⟨h1, h2, h3⟩ := index_spec hr hres h0 h
    have hx : 0 ≤ rangesqd / res * (index rangesqd res ssqd : ℝ) := by positivity
    refine ⟨Real.sqrt (rangesqd / res * index rangesqd res ssqd), Real.sqrt_nonneg _, ?_, ?_, ?_⟩
    · rw [Real.sq_sqrt hx]; exact h2
    · rw [Real.sq_sqrt hx]; exact h3
    · rw [lookup, if_neg (not_le.mpr h), initializeTableSqd, List.getElem?_map, List.getElem?_range h1]
      rfl

/-- **C33 (accuracy).** If the kernel function changes by at most `L` per unit separation, the tabulated
value is within `L` spacings of the exact one. -/
theorem C33_accuracy (f out : ℝ → ℝ) {range : ℝ} (hr : 0 < range) {res : ℕ} (hres : 0 < res) {L : ℝ}
    (hL : ∀ x y, 0 ≤ x → x ≤ y → y ≤ range → |f x - f y| ≤ L * (y - x)) (s : ℝ) (h0 : 0 ≤ s) (hs : s < range) :
    ∃ v, lookup range res out (initializeTable range res f) s = some v ∧ |v - f s| ≤ L * (range / res) := by
  obtain ⟨s', h1, h2, h3, h4⟩ := (C33_lookup f out hr hres s h0).2 hs
  refine ⟨f s', h4, (hL s' s h1 h2 hs.le).trans ?_⟩
  have hL0 : 0 ≤ L := by
    have := (abs_nonneg _).trans (hL 0 range le_rfl hr.le le_rfl)
    nlinarith
  exact mul_le_mul_of_nonneg_left (by linarith) hL0

/-- a table of four entries on `[0,2)`: the look-up at 1.3 gives the value at 1 -/
example : lookup 2 4 (fun _ => 0) (initializeTable 2 4 (fun s => s * s)) 1.3 = some 1 := by
  have h1 : index 2 4 1.3 = 2 := by
    rw [index, Nat.floor_eq_iff (by norm_num)]; norm_num
  rw [lookup, if_neg (by norm_num), h1]
  norm_num [initializeTable, List.range_succ]

end Gandalf
