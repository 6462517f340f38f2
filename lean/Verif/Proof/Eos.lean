import Verif.Model.Eos
import Verif.Spec.Eos
import Mathlib.Analysis.SpecialFunctions.Pow.Deriv

set_option autoImplicit false

namespace Gandalf.Eos
open IdealGas

variable {n : ℕ}

theorem entropic_law (gamma : ℝ) (q : Proxy n) (hr : 0 < q.rho) :
    entropyLaw gamma (basePressure gamma q) q.rho (entropic gamma q) := by
  unfold entropyLaw basePressure entropic
  have : q.rho ^ (1 - gamma) * q.rho ^ gamma = q.rho := by
    rw [← Real.rpow_add hr]; simp
  rw [mul_assoc ((gamma - 1) * q.u), this]; ring

theorem starFold_le (r : Vec n ℝ) : ∀ (stars : List (Vec n ℝ)) (a : ℝ),
    stars.foldl (fun a s => min (dot (fun k => r k - s k) (fun k => r k - s k)) a) a ≤ a := by
  intro stars
  induction stars with
  | nil => intro a; exact le_rfl
  | cons s l ih => intro a; exact (ih _).trans (min_le_right _ _)

theorem starFold_spec (r : Vec n ℝ) : ∀ (stars : List (Vec n ℝ)) (a : ℝ),
    (∀ s ∈ stars, stars.foldl (fun a s => min (dot (fun k => r k - s k) (fun k => r k - s k)) a) a ≤
      dot (fun k => r k - s k) (fun k => r k - s k)) ∧
    (stars.foldl (fun a s => min (dot (fun k => r k - s k) (fun k => r k - s k)) a) a = a ∨
      ∃ s ∈ stars, stars.foldl (fun a s => min (dot (fun k => r k - s k) (fun k => r k - s k)) a) a =
        dot (fun k => r k - s k) (fun k => r k - s k)) := by
  intro stars
  induction stars with
  | nil => intro a; exact ⟨by simp, Or.inl rfl⟩
  | cons s l ih =>
    intro a
    obtain ⟨h1, h2⟩ := ih (min (dot (fun k => r k - s k) (fun k => r k - s k)) a)
    constructor
    · intro x hx
      rcases List.mem_cons.mp hx with rfl | hx
      · exact (starFold_le r l _).trans (min_le_left _ _)
      · exact h1 x hx
    · rcases h2 with h2 | ⟨x, hx, h2⟩
      · rcases min_choice (dot (fun k => r k - s k) (fun k => r k - s k)) a with h | h
        · exact Or.inr ⟨s, by simp, by rw [List.foldl_cons, h2, h]⟩
        · exact Or.inl (by rw [List.foldl_cons, h2, h])
      · exact Or.inr ⟨x, List.mem_cons_of_mem _ hx, h2⟩

theorem dot_sq (a b : Vec n ℝ) : dot (fun k => a k - b k) (fun k => a k - b k) = ∑ k, (a k - b k) ^ 2 :=
  Finset.sum_congr rfl fun k _ => by ring

theorem starDist_nearest (stars : List (Vec n ℝ)) (r : Vec n ℝ)
    (h : ∃ s ∈ stars, Real.sqrt (∑ k, (r k - s k) ^ 2) ≤ 10 ^ 15) : nearest stars r (starDist stars r) := by
  obtain ⟨h1, h2⟩ := starFold_spec r stars (10 ^ 30)
  refine ⟨fun s hs => ?_, ?_⟩
  · rw [← dot_sq]; exact Real.sqrt_le_sqrt (h1 s hs)
  · rcases h2 with h2 | ⟨s, hs, h2⟩
    · obtain ⟨s, hs, h⟩ := h
      refine ⟨s, hs, le_antisymm ?_ ?_⟩
      · rw [← dot_sq]; exact Real.sqrt_le_sqrt (h1 s hs)
      · unfold starDist
        rw [h2, show (10 : ℝ) ^ 30 = (10 ^ 15) ^ 2 by norm_num, Real.sqrt_sq (by norm_num)]
        exact h
    · exact ⟨s, hs, by unfold starDist; rw [h2, dot_sq]⟩

theorem conserved_energy (q : Proxy n) : (conserved q).2.2 = q.rho * (q.u + 1 / 2 * ∑ k, q.v k ^ 2) := by
  have key : ∀ (l : List (Fin n)) (a : ℝ), l.foldl (fun e k => e + 1 / 2 * q.rho * q.v k * q.v k) a =
      a + (l.map fun k => 1 / 2 * q.rho * q.v k * q.v k).sum := by
    intro l
    induction l with
    | nil => intro a; simp
    | cons x l ih => intro a; rw [List.foldl_cons, ih, List.map_cons, List.sum_cons]; ring
  simp only [conserved]
  rw [key, ← List.ofFn_eq_map, List.sum_ofFn, mul_add, Finset.mul_sum, Finset.mul_sum]
  congr 1
  exact Finset.sum_congr rfl fun k _ => by ring

end Gandalf.Eos
