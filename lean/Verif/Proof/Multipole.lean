import Verif.Model.Multipole
import Verif.Spec.Multipole
import Verif.Proof.Expansion
import Mathlib.Algebra.Order.BigOperators.Ring.Finset
import Mathlib.Analysis.Calculus.Deriv.Inv
import Mathlib.Analysis.Calculus.Deriv.Pow
import Mathlib.Analysis.Calculus.Deriv.Mul

/-! # Lemmas on multipole gravity -/

set_option autoImplicit false
set_option linter.unusedSectionVars false

namespace Gandalf.Multipole

open Gravity

variable {n : ℕ}

/-! ### vectors -/

theorem dot_self_nonneg (u : Vec n ℝ) : 0 ≤ dot u u := Finset.sum_nonneg fun k _ => mul_self_nonneg (u k)

theorem dot_sq_le (u v : Vec n ℝ) : dot u v ^ 2 ≤ dot u u * dot v v := by
  have := Finset.sum_mul_sq_le_sq_mul_sq Finset.univ u v
  unfold dot
  simpa only [pow_two] using this

theorem comp_sq_le (u : Vec n ℝ) (k : Fin n) : u k ^ 2 ≤ dot u u := by
  rw [pow_two]
  exact Finset.single_le_sum (f := fun k => u k * u k) (fun j _ => mul_self_nonneg (u j)) (Finset.mem_univ k)

theorem abs_le_sqrt_mul {p A B : ℝ} (h : p ^ 2 ≤ A * B) : |p| ≤ Real.sqrt A * Real.sqrt B ∨ A < 0 := by
  by_cases hA : 0 ≤ A
  · left
    rw [← Real.sqrt_mul hA]
    exact Real.abs_le_sqrt h
  · exact Or.inr (not_le.mp hA)

theorem dot_abs_le (u v : Vec n ℝ) : |dot u v| ≤ Real.sqrt (dot u u) * Real.sqrt (dot v v) := by
  rcases abs_le_sqrt_mul (dot_sq_le u v) with h | h
  · exact h
  · exact absurd (dot_self_nonneg u) (not_le.mpr h)

theorem dist_eq (eps : ℝ) (x y : Vec n ℝ) :
    gdist eps x y = Real.sqrt (dot (fun k => x k - y k) (fun k => x k - y k) + eps) := by
  unfold gdist dot
  simp only [pow_two]

theorem gdist_nonneg (eps : ℝ) (x y : Vec n ℝ) : 0 ≤ gdist eps x y := Real.sqrt_nonneg _

theorem gdist_pos {eps : ℝ} (he : 0 < eps) (x y : Vec n ℝ) : 0 < gdist eps x y := by
  rw [dist_eq]
  exact Real.sqrt_pos.mpr (add_pos_of_nonneg_of_pos (dot_self_nonneg _) he)

theorem dist_symm (eps : ℝ) (x y : Vec n ℝ) : gdist eps x y = gdist eps y x := by
  unfold gdist
  congr 2
  exact Finset.sum_congr rfl fun k _ => by ring

theorem dist_sq {eps : ℝ} (he : 0 ≤ eps) (x y : Vec n ℝ) :
    gdist eps x y ^ 2 = dot (fun k => x k - y k) (fun k => x k - y k) + eps := by
  rw [dist_eq, Real.sq_sqrt (add_nonneg (dot_self_nonneg _) he)]

/-- configuration of one source seen from `x` about the centre `c` -/
theorem conf {eps : ℝ} (he : 0 ≤ eps) (x c y : Vec n ℝ) (hlt : gdist 0 y c < gdist eps x c) :
    Expansion.Conf (gdist eps x c) (gdist eps x y) (gdist 0 y c)
      (dot (fun k => x k - c k) (fun k => y k - c k)) := by
  have h0 : 0 ≤ gdist 0 y c := Real.sqrt_nonneg _
  have ha : 0 < gdist eps x c := lt_of_le_of_lt h0 hlt
  have hsq : gdist eps x y ^ 2 = gdist eps x c ^ 2 - 2 * dot (fun k => x k - c k) (fun k => y k - c k) +
      gdist 0 y c ^ 2 := by
    rw [dist_sq he, dist_sq he, dist_sq le_rfl]
    unfold dot
    rw [Finset.mul_sum, ← sub_eq_zero]
    have : ∀ A B C D E : ℝ, A + E - (B + E - C + (D + 0)) = A - B + C - D := by intros; ring
    rw [this, ← Finset.sum_sub_distrib, ← Finset.sum_add_distrib, ← Finset.sum_sub_distrib]
    exact Finset.sum_eq_zero fun k _ => by ring
  have hcs : |dot (fun k => x k - c k) (fun k => y k - c k)| ≤ gdist eps x c * gdist 0 y c := by
    refine (dot_abs_le _ _).trans ?_
    rw [dist_eq, dist_eq, add_zero]
    exact mul_le_mul_of_nonneg_right (Real.sqrt_le_sqrt (by linarith)) (Real.sqrt_nonneg _)
  refine ⟨ha, ?_, h0, hlt, hsq, hcs⟩
  have hb0 : 0 ≤ gdist eps x y := Real.sqrt_nonneg _
  have : 0 < gdist eps x y ^ 2 := by
    rw [hsq]
    have := (abs_le.mp hcs).2
    nlinarith
  exact lt_of_le_of_ne hb0 fun h => by rw [← h] at this; norm_num at this

theorem comp_le {eps : ℝ} (he : 0 ≤ eps) (x c : Vec n ℝ) (k : Fin n) : |x k - c k| ≤ gdist eps x c := by
  rw [dist_eq]
  exact Real.abs_le_sqrt ((comp_sq_le (fun k => x k - c k) k).trans (by linarith))

/-! ### the code's sums -/

theorem sqrt_inv (s : ℝ) : Real.sqrt (1 / s) = 1 / Real.sqrt s := by
  rw [one_div, Real.sqrt_inv, one_div]

/-- field of one monopole -/
theorem monopole_eq {eps : ℝ} (he : 0 ≤ eps) (rp : Vec n ℝ) (s : Field n) (c : Moment n) :
    monopole eps rp s c = ⟨s.gpot + c.m / gdist eps rp c.r,
      fun k => s.a k + c.m * (c.r k - rp k) / gdist eps rp c.r ^ 3⟩ := by
  unfold monopole
  have e : dot (fun k => c.r k - rp k) (fun k => c.r k - rp k) + eps = gdist eps rp c.r ^ 2 := by
    rw [dist_symm, dist_sq he]
  simp only [e, sqrt_inv, Real.sqrt_sq (gdist_nonneg eps rp c.r)]
  congr 1
  · ring
  · funext k
    by_cases h : gdist eps rp c.r = 0
    · simp [h]
    · field_simp

/-- field of one cell with quadrupole -/
theorem quadrupole_eq {eps : ℝ} (he : 0 ≤ eps) (rp : Vec n ℝ) (s : Field n) (c : Moment n) :
    quadrupole eps rp s c = ⟨s.gpot + (c.m / gdist eps rp c.r +
        qscalar n c.q (fun k => rp k - c.r k) / (2 * gdist eps rp c.r ^ 5)),
      fun k => s.a k + (c.m * (c.r k - rp k) / gdist eps rp c.r ^ 3 +
        (qdr n c.q (fun k => rp k - c.r k) k / gdist eps rp c.r ^ 5 -
          5 / 2 * qscalar n c.q (fun k => rp k - c.r k) * (rp k - c.r k) / gdist eps rp c.r ^ 7))⟩ := by
  unfold quadrupole
  have e : dot (fun k => rp k - c.r k) (fun k => rp k - c.r k) + eps = gdist eps rp c.r ^ 2 := (dist_sq he _ _).symm
  simp only [e, sqrt_inv, Real.sqrt_sq (gdist_nonneg eps rp c.r)]
  congr 1
  · by_cases h : gdist eps rp c.r = 0
    · simp [h]
    · field_simp
  · funext k
    by_cases h : gdist eps rp c.r = 0
    · simp [h]
    · field_simp
      ring

/-- folding sums up contributions -/
theorem fold_sum {α : Type} (step : Field n → α → Field n) (g : α → ℝ) (a : α → Vec n ℝ)
    (hs : ∀ s c, step s c = ⟨s.gpot + g c, fun k => s.a k + a c k⟩) (l : List α) (s : Field n) :
    l.foldl step s = ⟨s.gpot + (l.map g).sum, fun k => s.a k + (l.map fun c => a c k).sum⟩ := by
  induction l generalizing s with
  | nil => simp
  | cons c l ih =>
    rw [List.foldl_cons, ih, hs]
    simp [add_assoc]

/-! ### moments -/

theorem qscalar_add (hn : n = 1 ∨ n = 2 ∨ n = 3) (q q' : Fin 5 → ℝ) (R : Vec n ℝ) :
    qscalar n (fun e => q e + q' e) R = qscalar n q R + qscalar n q' R := by
  rcases hn with rfl | rfl | rfl <;> simp only [qscalar] <;> ring

theorem qdr_add (hn : n = 1 ∨ n = 2 ∨ n = 3) (q q' : Fin 5 → ℝ) (R : Vec n ℝ) (k : Fin n) :
    qdr n (fun e => q e + q' e) R k = qdr n q R k + qdr n q' R k := by
  rcases hn with rfl | rfl | rfl <;> fin_cases k <;> simp [qdr] <;> ring

theorem qscalar_zero (hn : n = 1 ∨ n = 2 ∨ n = 3) (R : Vec n ℝ) : qscalar n (fun _ => 0) R = 0 := by
  rcases hn with rfl | rfl | rfl <;> simp [qscalar]

theorem qdr_zero (hn : n = 1 ∨ n = 2 ∨ n = 3) (R : Vec n ℝ) (k : Fin n) : qdr n (fun _ => 0) R k = 0 := by
  rcases hn with rfl | rfl | rfl <;> fin_cases k <;> simp [qdr]

theorem qscalar_sum (hn : n = 1 ∨ n = 2 ∨ n = 3) {α : Type} (l : List α) (f : α → Fin 5 → ℝ) (R : Vec n ℝ) :
    qscalar n (fun e => (l.map fun s => f s e).sum) R = (l.map fun s => qscalar n (f s) R).sum := by
  induction l with
  | nil => simp [qscalar_zero hn]
  | cons c l ih => simp only [List.map_cons, List.sum_cons]; rw [qscalar_add hn, ih]

theorem qdr_sum (hn : n = 1 ∨ n = 2 ∨ n = 3) {α : Type} (l : List α) (f : α → Fin 5 → ℝ) (R : Vec n ℝ) (k : Fin n) :
    qdr n (fun e => (l.map fun s => f s e).sum) R k = (l.map fun s => qdr n (f s) R k).sum := by
  induction l with
  | nil => simp [qdr_zero hn]
  | cons c l ih => simp only [List.map_cons, List.sum_cons]; rw [qdr_add hn, ih]

theorem qscalar_one (hn : n = 1 ∨ n = 2 ∨ n = 3) (m : ℝ) (d R : Vec n ℝ) :
    qscalar n (KD.quadTerm m d) R = m * (3 * dot R d ^ 2 - dot d d * dot R R) := by
  rcases hn with rfl | rfl | rfl <;>
    simp [qscalar, KD.quadTerm, KD.quadUsed, KD.coord, dot, Fin.sum_univ_succ] <;> ring

theorem qdr_one (hn : n = 1 ∨ n = 2 ∨ n = 3) (m : ℝ) (d R : Vec n ℝ) (k : Fin n) :
    qdr n (KD.quadTerm m d) R k = m * (3 * dot R d * d k - dot d d * R k) := by
  rcases hn with rfl | rfl | rfl <;> fin_cases k <;>
    simp [qdr, KD.quadTerm, KD.quadUsed, KD.coord, dot, Fin.sum_univ_succ] <;> ring

theorem qscalar_congr (hn : n = 1 ∨ n = 2 ∨ n = 3) {q q' : Fin 5 → ℝ} (h : ∀ e, KD.quadUsed n e = true → q e = q' e)
    (R : Vec n ℝ) : qscalar n q R = qscalar n q' R := by
  rcases hn with rfl | rfl | rfl
  · simp only [qscalar]
    rw [h 0 (by decide)]
  · simp only [qscalar]
    rw [h 0 (by decide), h 1 (by decide), h 2 (by decide)]
  · simp only [qscalar]
    rw [h 0 (by decide), h 1 (by decide), h 2 (by decide), h 3 (by decide), h 4 (by decide)]

theorem qdr_congr (hn : n = 1 ∨ n = 2 ∨ n = 3) {q q' : Fin 5 → ℝ} (h : ∀ e, KD.quadUsed n e = true → q e = q' e)
    (R : Vec n ℝ) (k : Fin n) : qdr n q R k = qdr n q' R k := by
  rcases hn with rfl | rfl | rfl
  · simp only [qdr]
    rw [h 0 (by decide)]
  · simp only [qdr]
    rw [h 0 (by decide), h 1 (by decide), h 2 (by decide)]
  · simp only [qdr]
    rw [h 0 (by decide), h 1 (by decide), h 2 (by decide), h 3 (by decide), h 4 (by decide)]

/-- the stored entries are sums of `quadTerm` -/
theorem moment_entry (hn : n = 1 ∨ n = 2 ∨ n = 3) {src : List (ℝ × Vec n ℝ)} {r : Vec n ℝ} {m : ℝ} {q : Fin 5 → ℝ}
    (h : IsMoment src r m q) (e : Fin 5) (he : KD.quadUsed n e = true) :
    q e = (src.map fun s => KD.quadTerm s.1 (fun k => s.2 k - r k) e).sum := by
  have key : ∀ (k l : Fin n), (∀ s : ℝ × Vec n ℝ, KD.quadTerm s.1 (fun k => s.2 k - r k) e =
      s.1 * (3 * (s.2 k - r k) * (s.2 l - r l) - if k = l then ∑ j, (s.2 j - r j) ^ 2 else 0)) →
      q e = tensor src r k l → q e = (src.map fun s => KD.quadTerm s.1 (fun k => s.2 k - r k) e).sum := by
    intro k l h1 h2
    rw [h2]
    unfold tensor
    simp only [h1]
  rcases hn with rfl | rfl | rfl
  · fin_cases e <;> first | (exfalso; revert he; decide) | skip
    refine key 0 0 (fun s => ?_) (h.xx (by norm_num))
    simp [KD.quadTerm, KD.quadUsed, KD.coord, dot, Fin.sum_univ_succ, -mul_eq_mul_left_iff] <;> ring
  · fin_cases e <;> first | (exfalso; revert he; decide) | skip
    · refine key 0 0 (fun s => ?_) (h.xx (by norm_num))
      simp [KD.quadTerm, KD.quadUsed, KD.coord, dot, Fin.sum_univ_succ, -mul_eq_mul_left_iff] <;> ring
    · refine key 0 1 (fun s => ?_) (h.xy (by norm_num))
      simp [KD.quadTerm, KD.quadUsed, KD.coord, dot, Fin.sum_univ_succ, -mul_eq_mul_left_iff] <;> ring
    · refine key 1 1 (fun s => ?_) (h.yy (by norm_num))
      simp [KD.quadTerm, KD.quadUsed, KD.coord, dot, Fin.sum_univ_succ, -mul_eq_mul_left_iff] <;> ring
  · fin_cases e
    · refine key 0 0 (fun s => ?_) (h.xx (by norm_num))
      simp [KD.quadTerm, KD.quadUsed, KD.coord, dot, Fin.sum_univ_succ, -mul_eq_mul_left_iff] <;> ring
    · refine key 0 1 (fun s => ?_) (h.xy (by norm_num))
      simp [KD.quadTerm, KD.quadUsed, KD.coord, dot, Fin.sum_univ_succ, -mul_eq_mul_left_iff] <;> ring
    · refine key 1 1 (fun s => ?_) (h.yy (by norm_num))
      simp [KD.quadTerm, KD.quadUsed, KD.coord, dot, Fin.sum_univ_succ, -mul_eq_mul_left_iff] <;> ring
    · refine key 0 2 (fun s => ?_) (h.xz (by norm_num))
      simp [KD.quadTerm, KD.quadUsed, KD.coord, dot, Fin.sum_univ_succ, -mul_eq_mul_left_iff] <;> ring
    · refine key 1 2 (fun s => ?_) (h.yz (by norm_num))
      simp [KD.quadTerm, KD.quadUsed, KD.coord, dot, Fin.sum_univ_succ, -mul_eq_mul_left_iff] <;> ring

theorem moment_qscalar (hn : n = 1 ∨ n = 2 ∨ n = 3) {src : List (ℝ × Vec n ℝ)} {r : Vec n ℝ} {m : ℝ} {q : Fin 5 → ℝ}
    (h : IsMoment src r m q) (R : Vec n ℝ) :
    qscalar n q R = (src.map fun s => s.1 * (3 * dot R (fun k => s.2 k - r k) ^ 2 -
      dot (fun k => s.2 k - r k) (fun k => s.2 k - r k) * dot R R)).sum := by
  rw [qscalar_congr hn (moment_entry hn h), qscalar_sum hn]
  simp only [qscalar_one hn]

theorem moment_qdr (hn : n = 1 ∨ n = 2 ∨ n = 3) {src : List (ℝ × Vec n ℝ)} {r : Vec n ℝ} {m : ℝ} {q : Fin 5 → ℝ}
    (h : IsMoment src r m q) (R : Vec n ℝ) (k : Fin n) :
    qdr n q R k = (src.map fun s => s.1 * (3 * dot R (fun k => s.2 k - r k) * (s.2 k - r k) -
      dot (fun k => s.2 k - r k) (fun k => s.2 k - r k) * R k)).sum := by
  rw [qdr_congr hn (moment_entry hn h), qdr_sum hn]
  simp only [qdr_one hn]

/-- moments of first order vanish -/
theorem moment_first {src : List (ℝ × Vec n ℝ)} {r : Vec n ℝ} {m : ℝ} {q : Fin 5 → ℝ} (h : IsMoment src r m q)
    (k : Fin n) : (src.map fun s => s.1 * (s.2 k - r k)).sum = 0 := by
  have h1 : (src.map fun s => s.1 * (s.2 k - r k)).sum =
      (src.map fun s => s.1 * s.2 k).sum - (src.map Prod.fst).sum * r k := by
    clear h
    induction src with
    | nil => simp
    | cons s l ih => simp only [List.map_cons, List.sum_cons, ih]; ring
  rw [h1, ← h.com k, ← h.mass]
  ring

theorem moment_dot {src : List (ℝ × Vec n ℝ)} {r : Vec n ℝ} {m : ℝ} {q : Fin 5 → ℝ} (h : IsMoment src r m q)
    (R : Vec n ℝ) : (src.map fun s => s.1 * dot R (fun k => s.2 k - r k)).sum = 0 := by
  have h1 : (src.map fun s => s.1 * dot R (fun k => s.2 k - r k)).sum =
      ∑ k, R k * (src.map fun s => s.1 * (s.2 k - r k)).sum := by
    clear h
    induction src with
    | nil => simp
    | cons s l ih =>
      simp only [List.map_cons, List.sum_cons, mul_add, Finset.sum_add_distrib]
      rw [ih]
      congr 1
      unfold dot
      rw [Finset.mul_sum]
      exact Finset.sum_congr rfl fun k _ => by ring
  rw [h1]
  exact Finset.sum_eq_zero fun k _ => by rw [moment_first h k, mul_zero]

/-- a weighted sum of bounded errors -/
theorem sum_err {α : Type} (l : List α) (w e : α → ℝ) (B : ℝ) (hw : ∀ s ∈ l, 0 ≤ w s) (he : ∀ s ∈ l, |e s| ≤ B) :
    |(l.map fun s => w s * e s).sum| ≤ (l.map w).sum * B := by
  induction l with
  | nil => simp
  | cons s l ih =>
    simp only [List.map_cons, List.sum_cons]
    have h1 := ih (fun t ht => hw t (by simp [ht])) (fun t ht => he t (by simp [ht]))
    have h2 : |w s * e s| ≤ w s * B := by
      rw [abs_mul, abs_of_nonneg (hw s (by simp))]
      exact mul_le_mul_of_nonneg_left (he s (by simp)) (hw s (by simp))
    calc _ ≤ _ := abs_add_le _ _
      _ ≤ w s * B + (l.map w).sum * B := add_le_add h2 h1
      _ = _ := by ring

end Gandalf.Multipole
