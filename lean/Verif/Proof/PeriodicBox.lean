import Verif.Proof.TreeSearch
import Verif.Proof.Periodic
import Verif.Spec.Box

/-! Periodic box overlap finds overlaps of any pair of images. -/

set_option autoImplicit false

namespace Gandalf

variable {n : ℕ}

theorem wrap_overlap {a1 a2 b1 b2 size : ℝ} (hs : 0 ≤ size)
    (hD : |1 / 2 * (b2 + b1 - (a2 + a1))| ≤ 3 / 2 * size) (m : ℤ)
    (h1 : a1 ≤ b2 + m * size) (h2 : b1 + m * size ≤ a2) :
    a1 ≤ b2 + (wrap1 size (1 / 2 * (b2 + b1 - (a2 + a1))) - 1 / 2 * (b2 + b1 - (a2 + a1))) ∧
    b1 + (wrap1 size (1 / 2 * (b2 + b1 - (a2 + a1))) - 1 / 2 * (b2 + b1 - (a2 + a1))) ≤ a2 := by
  have h := wrap1_min hs hD m
  set D := 1 / 2 * (b2 + b1 - (a2 + a1)) with hDd
  have h3 : |D + m * size| ≤ 1 / 2 * (a2 - a1) + 1 / 2 * (b2 - b1) := by
    rw [abs_le]; constructor <;> linarith
  have h4 := abs_le.mp (h.trans h3)
  constructor <;> linarith

/-- If an image of box 2 (under the periodic dimensions) overlaps box 1 and the box centres are not
further apart than one and a half domain sizes, `PeriodicBoxOverlap` says so – provided the
uninitialised entries it reads (non-periodic dimensions of a partly periodic box) happen to be zero. -/
theorem periodicBoxOverlap_of_image (d : Domain n ℝ) (hd : d.WF) (junk : Vec n ℝ)
    (hj : d.anyPeriodic = true → ∀ k, d.lhs k ≠ .periodic → junk k = 0) (b1 b2 : Box n ℝ)
    (hc : ∀ k, d.lhs k = .periodic →
      |1 / 2 * ((b2.max k + b2.min k) - (b1.max k + b1.min k))| ≤ 3 / 2 * d.size k)
    (m : Fin n → ℤ) (hm : ∀ k, d.lhs k ≠ .periodic → m k = 0)
    (ho : ∀ k, b1.min k ≤ b2.max k + m k * d.size k ∧ b2.min k + m k * d.size k ≤ b1.max k) :
    periodicBoxOverlap d junk b1 b2 = true := by
  unfold periodicBoxOverlap
  by_cases ha : d.anyPeriodic = true
  · simp only [ha, Bool.not_true, Bool.false_eq_true, if_false]
    set dr : Vec n ℝ := fun k => 1 / 2 * ((b2.max k + b2.min k) - (b1.max k + b1.min k)) with hdr
    have hs : ∀ k, 0 ≤ d.size k := fun k => by rw [hd.size k]; linarith [hd.pos k]
    have hcorr : ∀ k, d.lhs k = .periodic →
        periodicCorrection d dr junk k = wrap1 (d.size k) (dr k) - dr k := by
      intro k hk
      have hb : d.periodicBound k = true := by simp [Domain.periodicBound, hk]
      simp only [periodicCorrection, ha, hb, if_true, wrap1, hd.half k]
      split_ifs <;> ring
    have hcorr0 : ∀ k, d.lhs k ≠ .periodic → periodicCorrection d dr junk k = 0 := by
      intro k hk
      have hb : d.periodicBound k = false := by simp [Domain.periodicBound, hk]
      simp only [periodicCorrection, ha, hb, if_true]
      simpa using hj ha k hk
    have key : ∀ k, b1.min k ≤ b2.max k + periodicCorrection d dr junk k ∧
        b2.min k + periodicCorrection d dr junk k ≤ b1.max k := by
      intro k
      by_cases hk : d.lhs k = .periodic
      · rw [hcorr k hk]
        exact wrap_overlap (hs k) (hc k hk) (m k) (ho k).1 (ho k).2
      · rw [hcorr0 k hk]
        have := ho k
        rw [hm k hk] at this
        simpa using this
    by_cases hf : Flags.is_periodic (periodicFlags d dr) = true
    · rw [if_pos hf, boxOverlap_eq_true]; exact key
    · rw [if_neg hf, boxOverlap_eq_true]
      rw [periodicFlags_is_periodic] at hf
      push Not at hf
      intro k
      have hz : periodicCorrection d dr junk k = 0 := by
        by_cases hk : d.lhs k = .periodic
        · rw [hcorr k hk, wrap1]
          have := hf k hk
          rw [hd.half k] at this
          rw [if_neg (not_lt.mpr this.1), if_neg (not_lt.mpr this.2)]; ring
        · exact hcorr0 k hk
      have := key k
      rw [hz] at this
      simpa using this
  · have ha' : d.anyPeriodic = false := by simpa using ha
    simp only [ha', Bool.not_false, if_true, boxOverlap_eq_true]
    intro k
    have hk : d.lhs k ≠ .periodic := fun h => ha ((anyPeriodic_iff d).mpr ⟨k, h⟩)
    have := ho k
    rw [hm k hk] at this
    simpa using this

end Gandalf
