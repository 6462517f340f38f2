import Verif.Model.Regularise
import Mathlib.Algebra.Order.Archimedean.Basic

/-! Lemmas on the regularisation of positions. -/

set_option autoImplicit false
set_option linter.unusedSectionVars false

namespace Gandalf

noncomputable section

namespace Reg

open Classical

variable {n : ℕ}

/-! ### the loops round the box -/

theorem down_spec {mx sz : ℝ} (hs : 0 < sz) : ∀ (m : ℕ) (r : ℝ), r ≤ mx + m * sz →
    ∃ (f j : ℕ), (∀ f', f ≤ f' → down mx sz f' r = some (r - j * sz)) ∧ r - j * sz ≤ mx ∧
      (j ≠ 0 → mx - sz < r - j * sz) := by
  intro m
  induction m with
  | zero =>
    intro r hr
    refine ⟨1, 0, fun f' hf => ?_, by simpa using hr, fun h => absurd rfl h⟩
    obtain ⟨g, rfl⟩ : ∃ g, f' = g + 1 := ⟨f' - 1, by omega⟩
    have : ¬ mx < r := not_lt.mpr (by simpa using hr)
    simp [down, this]
  | succ m ih =>
    intro r hr
    by_cases h : mx < r
    · obtain ⟨f, j, h1, h2, h3⟩ := ih (r - sz) (by push_cast at hr; linarith)
      refine ⟨f + 1, j + 1, fun f' hf => ?_, by push_cast; linarith, fun _ => ?_⟩
      · obtain ⟨g, rfl⟩ : ∃ g, f' = g + 1 := ⟨f' - 1, by omega⟩
        rw [down, if_pos h, h1 g (by omega)]
        push_cast; congr 1; ring
      · push_cast
        rcases Nat.eq_zero_or_pos j with rfl | hj
        · push_cast; linarith
        · have := h3 (by omega); linarith
    · refine ⟨1, 0, fun f' hf => ?_, by simpa using not_lt.mp h, fun h => absurd rfl h⟩
      obtain ⟨g, rfl⟩ : ∃ g, f' = g + 1 := ⟨f' - 1, by omega⟩
      simp [down, h]

theorem up_spec {mn sz : ℝ} (hs : 0 < sz) : ∀ (m : ℕ) (r : ℝ), mn - m * sz ≤ r →
    ∃ (f j : ℕ), (∀ f', f ≤ f' → up mn sz f' r = some (r + j * sz)) ∧ mn ≤ r + j * sz ∧
      (j ≠ 0 → r + j * sz < mn + sz) := by
  intro m
  induction m with
  | zero =>
    intro r hr
    refine ⟨1, 0, fun f' hf => ?_, by simpa using hr, fun h => absurd rfl h⟩
    obtain ⟨g, rfl⟩ : ∃ g, f' = g + 1 := ⟨f' - 1, by omega⟩
    have : ¬ r < mn := not_lt.mpr (by simpa using hr)
    simp [up, this]
  | succ m ih =>
    intro r hr
    by_cases h : r < mn
    · obtain ⟨f, j, h1, h2, h3⟩ := ih (r + sz) (by push_cast at hr; linarith)
      refine ⟨f + 1, j + 1, fun f' hf => ?_, by push_cast; linarith, fun _ => ?_⟩
      · obtain ⟨g, rfl⟩ : ∃ g, f' = g + 1 := ⟨f' - 1, by omega⟩
        rw [up, if_pos h, h1 g (by omega)]
        push_cast; congr 1; ring
      · push_cast
        rcases Nat.eq_zero_or_pos j with rfl | hj
        · push_cast; linarith
        · have := h3 (by omega); linarith
    · refine ⟨1, 0, fun f' hf => ?_, by simpa using not_lt.mp h, fun h => absurd rfl h⟩
      obtain ⟨g, rfl⟩ : ∃ g, f' = g + 1 := ⟨f' - 1, by omega⟩
      simp [up, h]

theorem wrap_spec {mn mx : ℝ} (h : mn < mx) (r : ℝ) :
    ∃ (f : ℕ) (j : ℤ), (∀ f', f ≤ f' → wrap mn mx f' r = some (r + j * (mx - mn))) ∧
      mn ≤ r + j * (mx - mn) ∧ r + j * (mx - mn) ≤ mx := by
  have hs : 0 < mx - mn := sub_pos.mpr h
  obtain ⟨m, hm⟩ := exists_nat_ge ((r - mx) / (mx - mn))
  rw [div_le_iff₀ hs] at hm
  obtain ⟨f, j, h1, h2, h3⟩ := down_spec (mx := mx) hs m r (by linarith)
  obtain ⟨m', hm'⟩ := exists_nat_ge ((mn - (r - j * (mx - mn))) / (mx - mn))
  rw [div_le_iff₀ hs] at hm'
  obtain ⟨f', j', h1', h2', h3'⟩ := up_spec (mn := mn) hs m' (r - j * (mx - mn)) (by linarith)
  refine ⟨max f f', (j' : ℤ) - j, fun g hg => ?_, ?_, ?_⟩
  · rw [wrap, h1 g (le_trans (le_max_left _ _) hg), Option.bind_some,
      h1' g (le_trans (le_max_right _ _) hg)]
    push_cast; congr 1; ring
  · push_cast; linarith
  · push_cast
    rcases Nat.eq_zero_or_pos j' with rfl | hj
    · push_cast; linarith
    · have := h3' (by omega); linarith

theorem round_spec {N : ℕ} (w0 : ℝ → ℝ) (reg : Part n → Part n → ℝ) (b : IcBox n)
    (hb : ∀ k, b.min k < b.max k) (e : Env N n) (x : Fin N → Vec n ℝ) :
    ∃ (f : ℕ) (x' : Fin N → Vec n ℝ), (∀ f', f ≤ f' → round w0 reg b f' e x = some x') ∧
      ∀ i k, b.min k ≤ x' i k ∧ x' i k ≤ b.max k ∧
        ∃ j : ℤ, x' i k = x i k + shift w0 reg b (e.parts x i) (e.neibs x i) k + j * b.size k := by
  choose F J h1 h2 h3 using fun (i : Fin N) (k : Fin n) => wrap_spec (hb k)
    (x i k + shift w0 reg b (e.parts x i) (e.neibs x i) k)
  refine ⟨Finset.univ.sup fun q : Fin N × Fin n => F q.1 q.2, fun i k => _ , fun f' hf => ?_,
    fun i k => ⟨h2 i k, h3 i k, J i k, rfl⟩⟩
  have hw : ∀ i k, wrap (b.min k) (b.max k) f'
      (x i k + shift w0 reg b (e.parts x i) (e.neibs x i) k) = some _ := fun i k =>
    h1 i k f' (le_trans
      (Finset.le_sup (f := fun q : Fin N × Fin n => F q.1 q.2) (Finset.mem_univ (i, k))) hf)
  rw [round]
  simp only [hw, Option.isSome_some, implies_true, dite_true, Option.get_some]

/-! ### the displacement -/

/-- Weight of a neighbour -/
def weight (w0 : ℝ → ℝ) (reg : Part n → Part n → ℝ) (p q : Part n) : ℝ :=
  if p.hrangesqd ≤ dot (fun k => q.r k - p.r k) (fun k => q.r k - p.r k) then 0
  else w0 (√(dot (fun k => q.r k - p.r k) (fun k => q.r k - p.r k) * (1 / (p.h * p.h)))) * reg p q

theorem push_eq (w0 : ℝ → ℝ) (reg : Part n → Part n → ℝ) (p : Part n) :
    ∀ (l : List (Part n)) (a : Vec n ℝ) (k : Fin n),
      push w0 reg p l a k = a k - (l.map fun q => (q.r k - p.r k) * weight w0 reg p q).sum := by
  intro l
  induction l with
  | nil => intro a k; simp [push]
  | cons q l ih =>
    intro a k
    by_cases h : p.hrangesqd ≤ dot (fun k => q.r k - p.r k) (fun k => q.r k - p.r k)
    · rw [push]
      simp only [h, if_true]
      rw [ih]
      simp [weight, h]
    · rw [push]
      simp only [h, if_false]
      rw [ih]
      simp only [List.map_cons, List.sum_cons, weight, h, if_false]
      ring

theorem limit_le {h : ℝ} (hh : 0 ≤ h) (a : Vec n ℝ) :
    dot (limit h a) (limit h a) ≤ (h / 2) ^ 2 := by
  have hq : 0 ≤ ∑ k, a k * a k := Finset.sum_nonneg fun k _ => mul_self_nonneg _
  unfold limit
  by_cases hc : 1 / 2 * h < √(∑ k, a k * a k)
  · simp only [hc, if_true]
    have hpos : 0 < √(∑ k, a k * a k) := lt_of_le_of_lt (by positivity) hc
    have hsq : √(∑ k, a k * a k) ^ 2 = ∑ k, a k * a k := Real.sq_sqrt hq
    have : dot (fun k => 1 / 2 * h * (a k / √(∑ k, a k * a k)))
        (fun k => 1 / 2 * h * (a k / √(∑ k, a k * a k))) =
        (1 / 2 * h) ^ 2 / √(∑ k, a k * a k) ^ 2 * ∑ k, a k * a k := by
      rw [dot, Finset.mul_sum]
      refine Finset.sum_congr rfl fun k _ => ?_
      field_simp
    have hne : (∑ k, a k * a k) ≠ 0 := by rw [← hsq]; positivity
    rw [this, hsq, div_mul_cancel₀ _ hne]
    exact le_of_eq (by ring)
  · simp only [hc, if_false]
    have hle := not_lt.mp hc
    have hsq : √(∑ k, a k * a k) ^ 2 = ∑ k, a k * a k := Real.sq_sqrt hq
    rw [dot, ← hsq]
    have := Real.sqrt_nonneg (∑ k, a k * a k)
    calc √(∑ k, a k * a k) ^ 2 ≤ (1 / 2 * h) ^ 2 := pow_le_pow_left₀ this hle 2
      _ = (h / 2) ^ 2 := by ring

theorem limit_dir {h : ℝ} (hh : 0 ≤ h) (a : Vec n ℝ) :
    ∃ c : ℝ, 0 ≤ c ∧ c ≤ 1 ∧ ∀ k, limit h a k = c * a k := by
  unfold limit
  by_cases hc : 1 / 2 * h < √(∑ k, a k * a k)
  · have hpos : 0 < √(∑ k, a k * a k) := lt_of_le_of_lt (by positivity) hc
    refine ⟨1 / 2 * h / √(∑ k, a k * a k), by positivity, (div_le_one hpos).mpr hc.le, fun k => ?_⟩
    simp only [hc, if_true]
    ring
  · exact ⟨1, by norm_num, le_rfl, fun k => by simp only [hc, if_false, one_mul]⟩

end Reg

end

end Gandalf
