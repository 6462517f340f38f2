import Verif.Model.Perturb
import Verif.Proof.Lattice
import Mathlib.Analysis.SpecialFunctions.Trigonometric.Bounds
import Mathlib.Analysis.SpecialFunctions.Trigonometric.Deriv
import Mathlib.Analysis.Calculus.Deriv.Add
import Mathlib.Topology.Order.IntermediateValue
import Mathlib.Analysis.Real.Pi.Bounds
import Mathlib.Algebra.BigOperators.Intervals
import Mathlib.Algebra.BigOperators.Ring.Finset

/-! Lemmas on the perturbations of the initial conditions. -/

set_option autoImplicit false
set_option linter.unusedSectionVars false

namespace Gandalf.Perturb

open Real

/-! ### azimuthal -/

theorem cos_arcsin_abs {x y : ℝ} (h : 0 < sqrt (x * x + y * y)) :
    cos (arcsin (|y| / sqrt (x * x + y * y))) = |x| / sqrt (x * x + y * y) ∧
      sin (arcsin (|y| / sqrt (x * x + y * y))) = |y| / sqrt (x * x + y * y) := by
  have hn : 0 ≤ x * x + y * y := by nlinarith [sq_nonneg x, sq_nonneg y]
  have hs := Real.sq_sqrt hn
  set R := sqrt (x * x + y * y) with hR
  have hy : |y| / R ≤ 1 := by
    rw [div_le_one h]
    apply abs_le_of_sq_le_sq _ h.le
    rw [hs]; nlinarith [sq_nonneg x]
  have hy0 : 0 ≤ |y| / R := by positivity
  constructor
  · rw [cos_arcsin]
    rw [Real.sqrt_eq_iff_mul_self_eq (by nlinarith) (by positivity)]
    have e : |x| / R * (|x| / R) = x ^ 2 / R ^ 2 := by rw [← sq, div_pow, sq_abs]
    rw [e, div_pow, sq_abs, hs]
    have : x * x + y * y ≠ 0 := by rw [← hs]; positivity
    rw [eq_div_iff this, sub_mul, div_mul_cancel₀ _ this]
    ring
  · exact sin_arcsin (by linarith) hy

/-- the angle found is the azimuth, off the negative half axes -/
theorem azimuth_spec {small x y : ℝ} (hs : 0 ≤ small) (h : small < sqrt (x * x + y * y))
    (h1 : ¬ (y = 0 ∧ x < 0)) (h2 : ¬ (x = 0 ∧ y < 0)) :
    x = sqrt (x * x + y * y) * cos (azimuth small x y) ∧
      y = sqrt (x * x + y * y) * sin (azimuth small x y) ∧
      0 ≤ azimuth small x y ∧ azimuth small x y < 2 * π := by
  have hR : 0 < sqrt (x * x + y * y) := lt_of_le_of_lt hs h
  obtain ⟨hc, hsn⟩ := cos_arcsin_abs hR
  unfold azimuth
  simp only [gt_iff_lt, if_pos h]
  have hp0 : 0 ≤ arcsin (|y| / sqrt (x * x + y * y)) := arcsin_nonneg.2 (by positivity)
  have hp1 := arcsin_le_pi_div_two (|y| / sqrt (x * x + y * y))
  have pi0 := Real.pi_pos
  set R := sqrt (x * x + y * y)
  set p := arcsin (|y| / R)
  by_cases a : x < 0 ∧ 0 < y
  · rw [if_pos a, cos_pi_sub, sin_pi_sub, hc, hsn, abs_of_neg a.1, abs_of_pos a.2]
    refine ⟨by field_simp, by field_simp, by linarith, by linarith⟩
  · rw [if_neg a]
    by_cases b : x < 0 ∧ y < 0
    · rw [if_pos b, add_comm π p, cos_add_pi, sin_add_pi, hc, hsn, abs_of_neg b.1, abs_of_neg b.2]
      refine ⟨by field_simp, by field_simp, by linarith, by linarith⟩
    · rw [if_neg b]
      by_cases c : 0 < x ∧ y < 0
      · rw [if_pos c, cos_two_pi_sub, sin_two_pi_sub, hc, hsn, abs_of_pos c.1, abs_of_neg c.2]
        have hp : 0 < p := by
          rw [arcsin_pos, abs_of_neg c.2]
          exact div_pos (by linarith) hR
        refine ⟨by field_simp, by field_simp, by linarith, by linarith⟩
      · rw [if_neg c, hc, hsn]
        have hx : 0 ≤ x := by
          by_contra hx
          rw [not_le] at hx
          rcases lt_trichotomy y 0 with hy | hy | hy
          · exact b ⟨hx, hy⟩
          · exact h1 ⟨hy, hx⟩
          · exact a ⟨hx, hy⟩
        have hy : 0 ≤ y := by
          by_contra hy
          rw [not_le] at hy
          rcases hx.eq_or_lt with hx | hx
          · exact h2 ⟨hx.symm, hy⟩
          · exact c ⟨hx, hy⟩
        rw [abs_of_nonneg hx, abs_of_nonneg hy]
        refine ⟨by field_simp, by field_simp, hp0, by linarith⟩

/-- what the table holds -/
noncomputable def shape (amp : ℝ) (m : ℕ) (q : ℝ) : ℝ := q + amp * cos (m * q) / m

theorem entry_eq (amp : ℝ) (m tab j : ℕ) : entry amp m tab j = shape amp m (spacing tab * j) := by
  unfold entry shape; ring

theorem shape_cont (amp : ℝ) (m : ℕ) : Continuous (shape amp m) := by
  unfold shape; fun_prop

theorem shape_strict {amp : ℝ} {m : ℕ} (hm : 0 < m) (ha : |amp| < 1) {q q' : ℝ} (h : q < q') :
    shape amp m q < shape amp m q' := by
  unfold shape
  have hm' : (0 : ℝ) < m := by exact_mod_cast hm
  have h1 := abs_cos_sub_cos_le (m * q) (m * q')
  have h2 : |(m : ℝ) * q - m * q'| = m * (q' - q) := by
    rw [← mul_sub, abs_mul, abs_of_pos hm', abs_sub_comm, abs_of_pos (by linarith)]
  rw [h2] at h1
  have h3 : |amp * (cos (m * q) - cos (m * q'))| ≤ |amp| * (m * (q' - q)) := by
    rw [abs_mul]; exact mul_le_mul_of_nonneg_left h1 (abs_nonneg _)
  have h4 : |amp| * (m * (q' - q)) < 1 * (m * (q' - q)) :=
    mul_lt_mul_of_pos_right ha (mul_pos hm' (by linarith))
  have h5 := le_abs_self (amp * (cos (m * q) - cos (m * q')))
  have h6 : amp * cos (m * q) / m - amp * cos (m * q') / m < q' - q := by
    rw [← sub_div, ← mul_sub, div_lt_iff₀ hm']
    linarith
  linarith

/-- the search ends at a cell of the table around the angle -/
theorem search_found (amp : ℝ) (m tab : ℕ) (phi : ℝ) (fuel j : ℕ) (hj : 1 ≤ j)
    (h1 : entry amp m tab (j - 1) < phi) (h2 : phi ≤ entry amp m tab (j + fuel - 1)) :
    ∃ i, j ≤ i ∧ i < j + fuel ∧ entry amp m tab (i - 1) < phi ∧ phi ≤ entry amp m tab i ∧
      search amp m tab phi fuel j =
        some (spacing tab * ((i - 1 : ℕ) : ℝ) +
          spacing tab * (phi - entry amp m tab (i - 1)) / (entry amp m tab i - entry amp m tab (i - 1))) := by
  induction fuel generalizing j with
  | zero => rw [Nat.add_zero] at h2; linarith
  | succ fuel ih =>
    by_cases hc : phi ≤ entry amp m tab j
    · refine ⟨j, le_rfl, by omega, h1, hc, ?_⟩
      rw [search, if_pos ⟨hc, h1⟩]
    · obtain ⟨i, a, b, c, d, e⟩ := ih (j + 1) (by omega) (by rw [Nat.add_sub_cancel]; linarith)
        (by rw [show j + 1 + fuel - 1 = j + (fuel + 1) - 1 by omega]; exact h2)
      refine ⟨i, by omega, by omega, c, d, ?_⟩
      rw [search, if_neg (fun x => hc x.1), e]

theorem entry_first (amp : ℝ) (m tab : ℕ) : entry amp m tab 0 = amp / m := by
  unfold entry; simp; ring

theorem entry_last (amp : ℝ) (m tab : ℕ) (h : 2 ≤ tab) :
    entry amp m tab (tab - 1) = 2 * π + amp / m := by
  have e : spacing tab * ((tab - 1 : ℕ) : ℝ) = 2 * π := by
    unfold spacing
    have : ((tab - 1 : ℕ) : ℝ) ≠ 0 := by exact_mod_cast (by omega : tab - 1 ≠ 0)
    field_simp
  unfold entry
  rw [e, Real.cos_nat_mul_two_pi]
  ring

/-! ### sinusoidal -/

theorem sineStep_lip (amp : ℝ) {k : ℝ} (hk : 0 < k) (r x y : ℝ) :
    |sineStep amp k r x - sineStep amp k r y| ≤ |amp| * |x - y| := by
  unfold sineStep
  have e : r - amp * (1 - cos (k * x)) / k - (r - amp * (1 - cos (k * y)) / k) =
      amp * ((cos (k * x) - cos (k * y)) / k) := by ring
  rw [e, abs_mul]
  apply mul_le_mul_of_nonneg_left _ (abs_nonneg _)
  rw [abs_div, abs_of_pos hk, div_le_iff₀ hk]
  have := abs_cos_sub_cos_le (k * x) (k * y)
  rw [← mul_sub, abs_mul, abs_of_pos hk] at this
  linarith

theorem sineSolve_ends (amp lambda r : ℝ) (hl : 0 < lambda) (ha : |amp| < 1) (n : ℕ) (x : ℝ)
    (h : |amp| ^ n * |(sineStep amp (2 * π / lambda) r x - x)| ≤ lambda * (1 / 1000000000000)) :
    ∃ fuel y, sineSolve amp lambda r fuel x = some y := by
  have hk : 0 < 2 * π / lambda := div_pos (by linarith [Real.pi_pos]) hl
  have test : ∀ z : ℝ, |z / lambda| > 1 / 1000000000000 ↔ lambda * (1 / 1000000000000) < |z| := by
    intro z
    rw [abs_div, abs_of_pos hl, gt_iff_lt, lt_div_iff₀ hl]
    constructor <;> intro h <;> linarith
  induction n generalizing x with
  | zero =>
    refine ⟨1, sineStep amp (2 * π / lambda) r x, ?_⟩
    rw [sineSolve]
    rw [if_neg]
    rw [test]
    rw [pow_zero, one_mul] at h
    linarith
  | succ n ih =>
    by_cases hc : |(sineStep amp (2 * π / lambda) r x - x) / lambda| > 1 / 1000000000000
    · obtain ⟨fuel, y, hy⟩ := ih (sineStep amp (2 * π / lambda) r x) (by
        have h1 := sineStep_lip amp hk r (sineStep amp (2 * π / lambda) r x) x
        have h2 := mul_le_mul_of_nonneg_left h1 (pow_nonneg (abs_nonneg amp) n)
        rw [pow_succ] at h
        linarith)
      exact ⟨fuel + 1, y, by rw [sineSolve, if_pos hc, hy]⟩
    · exact ⟨1, _, by rw [sineSolve, if_neg hc]⟩

theorem sineSolve_sound (amp lambda r : ℝ) (hl : 0 < lambda) (fuel : ℕ) (x y : ℝ)
    (h : sineSolve amp lambda r fuel x = some y) :
    ∃ z, y = sineStep amp (2 * π / lambda) r z ∧ |y - z| ≤ lambda * (1 / 1000000000000) := by
  induction fuel generalizing x with
  | zero => simp [sineSolve] at h
  | succ fuel ih =>
    rw [sineSolve] at h
    by_cases hc : |(sineStep amp (2 * π / lambda) r x - x) / lambda| > 1 / 1000000000000
    · rw [if_pos hc] at h; exact ih _ h
    · rw [if_neg hc, Option.some.injEq] at h
      refine ⟨x, h.symm, ?_⟩
      rw [not_lt, abs_div, abs_of_pos hl, div_le_iff₀ hl, h] at hc
      linarith

/-! ### interpolation -/

theorem toInt_of_nonneg {x : ℝ} (h : 0 ≤ x) : toInt x = ⌊x⌋ := by unfold toInt; rw [if_pos h]

theorem nodes_inside {N : ℕ} {d i j k : ℤ} (hd : 0 ≤ d ∧ d < 3) (hi : 0 ≤ i ∧ i + 1 < N)
    (hj : 0 ≤ j ∧ j + 1 < N) (hk : 0 ≤ k ∧ k + 1 < N) (q : Fin 8) :
    0 ≤ nodes N d i j k q ∧ nodes N d i j k q < 3 * (N : ℤ) ^ 3 := by
  have gen : ∀ i j k : ℤ, 0 ≤ i → i < N → 0 ≤ j → j < N → 0 ≤ k → k < N →
      0 ≤ node N d i j k ∧ node N d i j k < 3 * (N : ℤ) ^ 3 := by
    intro i j k a b c e f g
    unfold node
    have hN : (0 : ℤ) ≤ N := by omega
    constructor
    · have := hd.1
      positivity
    · have h1 : (N : ℤ) * j ≤ N * (N - 1) := mul_le_mul_of_nonneg_left (by omega) hN
      have h2 : (N : ℤ) * N * k ≤ N * N * (N - 1) := mul_le_mul_of_nonneg_left (by omega) (by positivity)
      nlinarith
  fin_cases q
  · exact gen i j k (by omega) (by omega) (by omega) (by omega) (by omega) (by omega)
  · exact gen i j (k + 1) (by omega) (by omega) (by omega) (by omega) (by omega) (by omega)
  · exact gen i (j + 1) k (by omega) (by omega) (by omega) (by omega) (by omega) (by omega)
  · exact gen i (j + 1) (k + 1) (by omega) (by omega) (by omega) (by omega) (by omega) (by omega)
  · exact gen (i + 1) j k (by omega) (by omega) (by omega) (by omega) (by omega) (by omega)
  · exact gen (i + 1) j (k + 1) (by omega) (by omega) (by omega) (by omega) (by omega) (by omega)
  · exact gen (i + 1) (j + 1) k (by omega) (by omega) (by omega) (by omega) (by omega) (by omega)
  · exact gen (i + 1) (j + 1) (k + 1) (by omega) (by omega) (by omega) (by omega) (by omega) (by omega)

theorem vint_sum (dx : Vec 3 ℝ) : ∑ q, vint dx q = 1 := by
  simp [vint, Fin.sum_univ_eight]; ring

theorem vint_nonneg (dx : Vec 3 ℝ) (h : ∀ k, 0 ≤ dx k ∧ dx k ≤ 1) (q : Fin 8) : 0 ≤ vint dx q := by
  have a := (h 0).1
  have b := (h 1).1
  have c := (h 2).1
  have a' : 0 ≤ 1 - dx 0 := by linarith [(h 0).2]
  have b' : 0 ≤ 1 - dx 1 := by linarith [(h 1).2]
  have c' : 0 ≤ 1 - dx 2 := by linarith [(h 2).2]
  fin_cases q <;> simp [vint] <;> positivity

/-! ### mass -/

theorem loop_add (N : ℕ) (f : ℕ → ℝ) (g : ℕ → ℝ → ℝ) (hg : ∀ i s, g i s = s + f i) (s : ℝ) :
    Lattice.loop N g s = s + ∑ i ∈ Finset.range N, f i := by
  induction N with
  | zero => simp [Lattice.loop_zero]
  | succ N ih => rw [Lattice.loop_succ, ih, hg, Finset.sum_range_succ]; ring

theorem sum_mid (N : ℕ) (α β : ℝ) :
    ∑ i ∈ Finset.range N, (α + β * ((i : ℝ) + 1 / 2)) = N * α + β * (N : ℝ) ^ 2 / 2 := by
  induction N with
  | zero => simp
  | succ N ih => rw [Finset.sum_range_succ, ih]; push_cast; ring

end Gandalf.Perturb
