import Verif.Proof.Multipole

/-! # Truncation errors of the multipole expansions, one cell -/

set_option autoImplicit false
set_option linter.unusedSectionVars false

namespace Gandalf.Multipole

open Gravity

variable {n : ℕ}

section

variable {eps : ℝ} (he : 0 ≤ eps) {src : List (ℝ × Vec n ℝ)} {r : Vec n ℝ} {m : ℝ} {q : Fin 5 → ℝ}
  (h : IsMoment src r m q) (hw : ∀ s ∈ src, 0 ≤ s.1) (x : Vec n ℝ) {χ : ℝ} (hχ : χ < 1) (ha : 0 < gdist eps x r)
  (hd : ∀ s ∈ src, gdist 0 s.2 r ≤ χ * gdist eps x r)

include he h hw hχ ha hd

theorem conf_mem (s : ℝ × Vec n ℝ) (hs : s ∈ src) : Expansion.Conf (gdist eps x r) (gdist eps x s.2)
    (gdist 0 s.2 r) (dot (fun k => x k - r k) (fun k => s.2 k - r k)) :=
  conf he x r s.2 (lt_of_le_of_lt (hd s hs) (by nlinarith))

theorem mono_pot_err : |m / gdist eps x r - pot eps src x| ≤
    m / gdist eps x r * ((1 + 1 / (1 - χ)) * χ ^ 2) := by
  have hE := sum_err src Prod.fst (fun s => 1 / gdist eps x s.2 - (1 / gdist eps x r +
    dot (fun k => x k - r k) (fun k => s.2 k - r k) / gdist eps x r ^ 3)) _ hw
    (fun s hs => Expansion.pot1 (conf_mem he h hw x hχ ha hd s hs) hχ (hd s hs))
  have e : (src.map fun s => s.1 * (1 / gdist eps x s.2 - (1 / gdist eps x r +
      dot (fun k => x k - r k) (fun k => s.2 k - r k) / gdist eps x r ^ 3))).sum =
      pot eps src x - (src.map Prod.fst).sum / gdist eps x r -
        (src.map fun s => s.1 * dot (fun k => x k - r k) (fun k => s.2 k - r k)).sum / gdist eps x r ^ 3 := by
    unfold pot
    generalize src = l
    induction l with
    | nil => simp
    | cons s l ih => simp only [List.map_cons, List.sum_cons, ih]; ring
  rw [e, moment_dot h, ← h.mass, zero_div, sub_zero, abs_sub_comm] at hE
  refine hE.trans (le_of_eq ?_)
  ring

theorem mono_acc_err (k : Fin n) : |m * (r k - x k) / gdist eps x r ^ 3 - acc eps src x k| ≤
    m / gdist eps x r ^ 2 * (21 * (1 / (1 - χ)) ^ 3 * χ ^ 2) := by
  have hE := sum_err src Prod.fst (fun s => ((s.2 k - r k) - (x k - r k)) / gdist eps x s.2 ^ 3 -
    (-(x k - r k) / gdist eps x r ^ 3 + (s.2 k - r k) / gdist eps x r ^ 3 -
      3 * dot (fun k => x k - r k) (fun k => s.2 k - r k) * (x k - r k) / gdist eps x r ^ 5)) _ hw
    (fun s hs => Expansion.acc1 (conf_mem he h hw x hχ ha hd s hs) hχ (hd s hs) (comp_le he x r k)
      (comp_le le_rfl s.2 r k))
  have e : (src.map fun s => s.1 * (((s.2 k - r k) - (x k - r k)) / gdist eps x s.2 ^ 3 -
    (-(x k - r k) / gdist eps x r ^ 3 + (s.2 k - r k) / gdist eps x r ^ 3 -
      3 * dot (fun k => x k - r k) (fun k => s.2 k - r k) * (x k - r k) / gdist eps x r ^ 5))).sum =
      acc eps src x k - (src.map Prod.fst).sum * (r k - x k) / gdist eps x r ^ 3 -
        (src.map fun s => s.1 * (s.2 k - r k)).sum / gdist eps x r ^ 3 +
        (src.map fun s => s.1 * dot (fun k => x k - r k) (fun k => s.2 k - r k)).sum *
          (3 * (x k - r k) / gdist eps x r ^ 5) := by
    unfold acc
    generalize src = l
    induction l with
    | nil => simp
    | cons s l ih => simp only [List.map_cons, List.sum_cons, ih]; ring
  rw [e, moment_dot h, moment_first h, ← h.mass, zero_div, sub_zero, zero_mul, add_zero, abs_sub_comm] at hE
  refine hE.trans (le_of_eq ?_)
  ring

theorem inertia_le : 0 ≤ (src.map fun s => s.1 * gdist 0 s.2 r ^ 2).sum ∧
    (src.map fun s => s.1 * gdist 0 s.2 r ^ 2).sum ≤ m * (χ ^ 2 * gdist eps x r ^ 2) := by
  constructor
  · apply List.sum_nonneg
    simp only [List.mem_map]
    rintro _ ⟨s, hs, rfl⟩
    exact mul_nonneg (hw s hs) (sq_nonneg _)
  · have := sum_err src Prod.fst (fun s => gdist 0 s.2 r ^ 2) (χ ^ 2 * gdist eps x r ^ 2) hw (fun s hs => by
      rw [abs_of_nonneg (sq_nonneg _), ← mul_pow]
      exact pow_le_pow_left₀ (gdist_nonneg _ _ _) (hd s hs) 2)
    rw [← h.mass] at this
    exact (le_abs_self _).trans this

variable (hn : n = 1 ∨ n = 2 ∨ n = 3)

include hn

theorem quad_pot_err : |m / gdist eps x r + qscalar n q (fun k => x k - r k) / (2 * gdist eps x r ^ 5) -
      pot eps src x| ≤
    m / gdist eps x r * ((15 / 4 + 1 / (1 - χ)) * χ ^ 3 + eps * χ ^ 2 / (2 * gdist eps x r ^ 2)) := by
  have hE := sum_err src Prod.fst (fun s => 1 / gdist eps x s.2 - (1 / gdist eps x r +
    dot (fun k => x k - r k) (fun k => s.2 k - r k) / gdist eps x r ^ 3 +
    (3 * dot (fun k => x k - r k) (fun k => s.2 k - r k) ^ 2 - gdist 0 s.2 r ^ 2 * gdist eps x r ^ 2) /
      (2 * gdist eps x r ^ 5))) _ hw
    (fun s hs => Expansion.pot2 (conf_mem he h hw x hχ ha hd s hs) hχ (hd s hs))
  have e : (src.map fun s => s.1 * (1 / gdist eps x s.2 - (1 / gdist eps x r +
    dot (fun k => x k - r k) (fun k => s.2 k - r k) / gdist eps x r ^ 3 +
    (3 * dot (fun k => x k - r k) (fun k => s.2 k - r k) ^ 2 - gdist 0 s.2 r ^ 2 * gdist eps x r ^ 2) /
      (2 * gdist eps x r ^ 5)))).sum =
      pot eps src x - (src.map Prod.fst).sum / gdist eps x r -
        (src.map fun s => s.1 * dot (fun k => x k - r k) (fun k => s.2 k - r k)).sum / gdist eps x r ^ 3 -
        (src.map fun s => s.1 * (3 * dot (fun k => x k - r k) (fun k => s.2 k - r k) ^ 2 -
          dot (fun k => s.2 k - r k) (fun k => s.2 k - r k) *
            dot (fun k => x k - r k) (fun k => x k - r k))).sum / (2 * gdist eps x r ^ 5) +
        (src.map fun s => s.1 * gdist 0 s.2 r ^ 2).sum * (eps / (2 * gdist eps x r ^ 5)) := by
    have e2 : ∀ s : ℝ × Vec n ℝ, gdist 0 s.2 r ^ 2 * gdist eps x r ^ 2 =
        dot (fun k => s.2 k - r k) (fun k => s.2 k - r k) * dot (fun k => x k - r k) (fun k => x k - r k) +
          eps * gdist 0 s.2 r ^ 2 := by
      intro s
      rw [dist_sq he x r, dist_sq le_rfl s.2 r]
      ring
    simp only [e2]
    unfold pot
    generalize src = l
    induction l with
    | nil => simp
    | cons s l ih => simp only [List.map_cons, List.sum_cons, ih]; ring
  rw [e, moment_dot h, ← h.mass, zero_div, sub_zero, ← moment_qscalar hn h] at hE
  obtain ⟨i0, i1⟩ := inertia_le he h hw x hχ ha hd
  set I := (src.map fun s => s.1 * gdist 0 s.2 r ^ 2).sum
  have i2 : I * (eps / (2 * gdist eps x r ^ 5)) ≤ m / gdist eps x r * (eps * χ ^ 2 / (2 * gdist eps x r ^ 2)) := by
    refine (mul_le_mul_of_nonneg_right i1 (by positivity)).trans (le_of_eq ?_)
    field_simp
  have i3 : 0 ≤ I * (eps / (2 * gdist eps x r ^ 5)) := by positivity
  have e3 : m * ((15 / 4 + 1 / (1 - χ)) * χ ^ 3 / gdist eps x r) =
    m / gdist eps x r * ((15 / 4 + 1 / (1 - χ)) * χ ^ 3) := by ring
  rw [e3] at hE
  rw [mul_add]
  rw [abs_le] at hE ⊢
  constructor <;> linarith [hE.1, hE.2]

theorem quad_acc_err (k : Fin n) : |m * (r k - x k) / gdist eps x r ^ 3 +
      (qdr n q (fun k => x k - r k) k / gdist eps x r ^ 5 -
        5 / 2 * qscalar n q (fun k => x k - r k) * (x k - r k) / gdist eps x r ^ 7) - acc eps src x k| ≤
    m / gdist eps x r ^ 2 * (69 * (1 / (1 - χ)) ^ 3 * χ ^ 3 + 5 * eps * χ ^ 2 / (2 * gdist eps x r ^ 2)) := by
  have hE := sum_err src Prod.fst (fun s => ((s.2 k - r k) - (x k - r k)) / gdist eps x s.2 ^ 3 -
    (-(x k - r k) / gdist eps x r ^ 3 + (s.2 k - r k) / gdist eps x r ^ 3 -
      3 * dot (fun k => x k - r k) (fun k => s.2 k - r k) * (x k - r k) / gdist eps x r ^ 5 +
      (3 * dot (fun k => x k - r k) (fun k => s.2 k - r k) * (s.2 k - r k) / gdist eps x r ^ 5 +
        3 / 2 * gdist 0 s.2 r ^ 2 * (x k - r k) / gdist eps x r ^ 5 -
        15 / 2 * dot (fun k => x k - r k) (fun k => s.2 k - r k) ^ 2 * (x k - r k) / gdist eps x r ^ 7))) _ hw
    (fun s hs => Expansion.acc2 (conf_mem he h hw x hχ ha hd s hs) hχ (hd s hs) (comp_le he x r k)
      (comp_le le_rfl s.2 r k))
  have e : (src.map fun s => s.1 * (((s.2 k - r k) - (x k - r k)) / gdist eps x s.2 ^ 3 -
    (-(x k - r k) / gdist eps x r ^ 3 + (s.2 k - r k) / gdist eps x r ^ 3 -
      3 * dot (fun k => x k - r k) (fun k => s.2 k - r k) * (x k - r k) / gdist eps x r ^ 5 +
      (3 * dot (fun k => x k - r k) (fun k => s.2 k - r k) * (s.2 k - r k) / gdist eps x r ^ 5 +
        3 / 2 * gdist 0 s.2 r ^ 2 * (x k - r k) / gdist eps x r ^ 5 -
        15 / 2 * dot (fun k => x k - r k) (fun k => s.2 k - r k) ^ 2 * (x k - r k) / gdist eps x r ^ 7)))).sum =
      acc eps src x k - (src.map Prod.fst).sum * (r k - x k) / gdist eps x r ^ 3 -
        (src.map fun s => s.1 * (s.2 k - r k)).sum / gdist eps x r ^ 3 +
        (src.map fun s => s.1 * dot (fun k => x k - r k) (fun k => s.2 k - r k)).sum *
          (3 * (x k - r k) / gdist eps x r ^ 5) -
        ((src.map fun s => s.1 * (3 * dot (fun k => x k - r k) (fun k => s.2 k - r k) * (s.2 k - r k) -
          dot (fun k => s.2 k - r k) (fun k => s.2 k - r k) * (x k - r k))).sum / gdist eps x r ^ 5 -
         5 / 2 * (src.map fun s => s.1 * (3 * dot (fun k => x k - r k) (fun k => s.2 k - r k) ^ 2 -
          dot (fun k => s.2 k - r k) (fun k => s.2 k - r k) *
            dot (fun k => x k - r k) (fun k => x k - r k))).sum * (x k - r k) / gdist eps x r ^ 7) -
        (src.map fun s => s.1 * gdist 0 s.2 r ^ 2).sum * (5 * eps * (x k - r k) / (2 * gdist eps x r ^ 7)) := by
    have hR : ∀ s : ℝ × Vec n ℝ, dot (fun k => s.2 k - r k) (fun k => s.2 k - r k) = gdist 0 s.2 r ^ 2 := by
      intro s
      rw [dist_sq le_rfl s.2 r, add_zero]
    have hA : dot (fun k => x k - r k) (fun k => x k - r k) = gdist eps x r ^ 2 - eps := by
      rw [dist_sq he x r]; ring
    simp only [hR, hA]
    unfold acc
    have hz := ha.ne'
    generalize gdist eps x r = A at hz ⊢
    generalize src = l
    induction l with
    | nil => simp
    | cons s l ih =>
      simp only [List.map_cons, List.sum_cons, ih]
      generalize gdist eps x s.2 = B
      generalize gdist 0 s.2 r = C
      have : 5 / 2 * (C ^ 2 * A ^ 2) / A ^ 7 = 5 / 2 * C ^ 2 / A ^ 5 := by field_simp
      linear_combination (s.1 * (x k - r k)) * this
  rw [e, moment_dot h, moment_first h, ← h.mass, zero_div, sub_zero, zero_mul, add_zero, ← moment_qscalar hn h,
    ← moment_qdr hn h] at hE
  obtain ⟨i0, i1⟩ := inertia_le he h hw x hχ ha hd
  set I := (src.map fun s => s.1 * gdist 0 s.2 r ^ 2).sum
  have i2 : |I * (5 * eps * (x k - r k) / (2 * gdist eps x r ^ 7))| ≤
      m / gdist eps x r ^ 2 * (5 * eps * χ ^ 2 / (2 * gdist eps x r ^ 2)) := by
    rw [abs_mul, abs_of_nonneg i0, abs_div, abs_mul, abs_of_nonneg (by linarith : 0 ≤ 5 * eps),
      abs_of_pos (by positivity : 0 < 2 * gdist eps x r ^ 7)]
    have h1 : 5 * eps * |x k - r k| / (2 * gdist eps x r ^ 7) ≤ 5 * eps * gdist eps x r / (2 * gdist eps x r ^ 7) :=
      div_le_div_of_nonneg_right (mul_le_mul_of_nonneg_left (comp_le he x r k) (by linarith)) (by positivity)
    refine (mul_le_mul i1 h1 (by positivity) (i0.trans i1)).trans (le_of_eq ?_)
    field_simp
  have e3 : m * (69 * (1 / (1 - χ)) ^ 3 * χ ^ 3 / gdist eps x r ^ 2) =
    m / gdist eps x r ^ 2 * (69 * (1 / (1 - χ)) ^ 3 * χ ^ 3) := by ring
  rw [e3] at hE
  rw [mul_add]
  rw [abs_le] at hE i2 ⊢
  constructor <;> linarith [hE.1, hE.2, i2.1, i2.2]

end

end Gandalf.Multipole
