import Verif.Prop.C79

/-!
# C79, continued: where the blast is hot, dust of the blast wave, pressure of the Noh problem
-/

set_option autoImplicit false
set_option linter.unusedSectionVars false

namespace Gandalf

open TestIc Real

section
variable {n : ℕ} {small kefrac kernrange rhot m : ℝ} {w0 : ℝ → ℝ}

open Classical in
/-- **C79, blast wave.** Without smoothing, the energy is shared equally by the particles closer to the centre than `rhot`; the
others have the cold energy. -/
theorem C79_sedov_region (hr : 0 < rhot) (hm : m ≠ 0) (l : List (Vec n ℝ)) (x : Vec n ℝ) :
    let p := sedov small kefrac false w0 kernrange rhot m (utot false w0 kernrange rhot m l) x
    (√(dot x x) < rhot → p.m * p.u = max 0 (1 - kefrac) / (l.filter fun y => decide (√(dot y y) < rhot)).length) ∧
    (rhot ≤ √(dot x x) → p.m * p.u = 1 / 1000000 ∧ p.v = fun _ => 0) ∧ p.r = x ∧ p.m = m := by
  intro p
  have hh : ∀ y : Vec n ℝ, hot rhot y ↔ √(dot y y) < rhot := by
    intro y
    rw [hot, sqrt_lt' hr, sq]
  have ht : utot false w0 kernrange rhot m l = (l.filter fun y => decide (√(dot y y) < rhot)).length * m := by
    have : (fun y : Vec n ℝ => decide (hot rhot y)) = fun y => decide (√(dot y y) < rhot) := by
      funext y
      simp only [hh]
    simp [utot, this, share]
  refine ⟨fun h => ?_, fun h => ?_, ?_, ?_⟩
  · have h' := (hh x).2 h
    simp only [p, sedov, if_pos h', ht, share, Bool.false_eq_true, if_false]
    field_simp
  · have h' : ¬hot rhot x := by rw [hh]; exact not_lt.2 h
    simp only [p, sedov, if_neg h', and_true]
    field_simp
  · simp only [p, sedov]
    by_cases h : hot rhot x
    · rw [if_pos h]
    · rw [if_neg h]
  · simp only [p, sedov]
    by_cases h : hot rhot x
    · rw [if_pos h]
    · rw [if_neg h]

end

example : √(dot (![1 / 2, 0] : Vec 2 ℝ) ![1 / 2, 0]) < 2 := by
  rw [sqrt_lt' (by norm_num)]
  norm_num [dot, Fin.sum_univ_two]

/-- **C79, blast wave.** The dust has the given ratio to the mass of the gas and to its momentum and energy of motion, no thermal
energy, and every dust particle is a hundredth of the smoothing length beside its gas particle. -/
theorem C79_sedov_dust {n : ℕ} [NeZero n] (d2g h : ℝ) (l : List (Part n)) :
    ((l.map (sedovDust d2g h)).map fun p => p.m).sum = d2g * (l.map fun p => p.m).sum ∧
    (∀ k, ((l.map (sedovDust d2g h)).map fun p => p.m * p.v k).sum = d2g * (l.map fun p => p.m * p.v k).sum) ∧
    kinetic (l.map (sedovDust d2g h)) = d2g * kinetic l ∧ thermal (l.map (sedovDust d2g h)) = 0 ∧
    (∀ p : Part n, dot (fun k => (sedovDust d2g h p).r k - p.r k) (fun k => (sedovDust d2g h p).r k - p.r k) = (h / 100) ^ 2) := by
  refine ⟨?_, fun k => ?_, ?_, ?_, fun p => ?_⟩
  · rw [List.map_map, ← List.sum_map_mul_left]
    congr 1
    exact List.map_congr_left fun p _ => by simp [sedovDust, mul_comm]
  · rw [List.map_map, ← List.sum_map_mul_left]
    congr 1
    exact List.map_congr_left fun p _ => by simp [sedovDust]; ring
  · rw [kinetic, kinetic, List.map_map, ← List.sum_map_mul_left]
    congr 1
    exact List.map_congr_left fun p _ => by simp [sedovDust]; ring
  · rw [thermal, List.map_map]
    have : ((fun p : Part n => p.m * p.u) ∘ sedovDust d2g h) = fun _ => 0 := by
      funext p
      simp [sedovDust]
    rw [this]
    simp
  · have : ∀ k, ((sedovDust d2g h p).r k - p.r k) * ((sedovDust d2g h p).r k - p.r k) = if k = 0 then (h / 100) ^ 2 else 0 := by
      intro k
      simp only [sedovDust]
      by_cases hk : k = 0
      · rw [if_pos hk, if_pos hk]
        ring
      · rw [if_neg hk, if_neg hk]
        ring
    rw [dot, Finset.sum_congr rfl fun k _ => this k]
    simp

example : ((([⟨![0, 0], ![1, 0], 2, 3⟩] : List (Part 2)).map (sedovDust (1 / 10) 1)).map fun p => p.m).sum = 1 / 10 * 2 := by
  rw [(C79_sedov_dust _ _ _).1]
  norm_num

/-- **C79, Noh problem.** The gas has the given pressure, is where the lattice put it, and has together the mass of the given density
in the volume. -/
theorem C79_noh_state {n : ℕ} {small rho press gamma vol : ℝ} (hr : rho ≠ 0) (hg : gamma ≠ 1) (l : List (Vec n ℝ)) (hl : l ≠ []) :
    let ps := l.map (noh small rho press gamma (rho * vol / l.length))
    (∀ p ∈ ps, (gamma - 1) * rho * p.u = press) ∧ (ps.map fun p => p.m).sum = rho * vol ∧ (ps.map fun p => p.r) = l := by
  intro ps
  have hg' : gamma - 1 ≠ 0 := sub_ne_zero.2 hg
  have hl' : (l.length : ℝ) ≠ 0 := by
    have := List.length_pos_iff.2 hl
    exact_mod_cast this.ne'
  refine ⟨?_, ?_, ?_⟩
  · intro p hp
    obtain ⟨x, _, rfl⟩ := List.mem_map.1 hp
    simp only [noh]
    field_simp
  · have : (fun p : Part n => p.m) ∘ noh small rho press gamma (rho * vol / l.length) = fun _ => rho * vol / l.length := rfl
    rw [List.map_map, this]
    simp
    field_simp
  · have : (fun p : Part n => p.r) ∘ noh small rho press gamma (rho * vol / l.length) = id := rfl
    rw [List.map_map, this, List.map_id]

example : ∀ p ∈ [![(1 : ℝ), 0]].map (noh 0 2 3 (5 / 3) (2 * 4 / ([![(1 : ℝ), 0]]).length)), (5 / 3 - 1) * 2 * p.u = 3 :=
  (C79_noh_state (n := 2) (by norm_num) (by norm_num) _ (by simp)).1

end Gandalf
