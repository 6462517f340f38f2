import Verif.Spec.StepControl
import Mathlib.Tactic.FieldSimp
import Mathlib.Tactic.Ring
import Mathlib.Tactic.Linarith

set_option autoImplicit false
set_option linter.unusedSectionVars false

namespace Gandalf

namespace StepControl

theorem sync_spec (n : ℕ) : ∀ (fuel level k : ℕ), k ≤ fuel → ∃ j ≤ k,
    sync n fuel level (2 ^ k) = (level + j, 2 ^ (k - j)) ∧ 2 ^ (k - j) ∣ n ∧ ∀ i < j, ¬2 ^ (k - i) ∣ n
  | 0, level, k, hk => by
    have : k = 0 := by omega
    subst this
    exact ⟨0, le_rfl, rfl, by simp, fun i hi => absurd hi (by omega)⟩
  | fuel + 1, level, k, hk => by
    unfold sync
    by_cases h : n % 2 ^ k = 0
    · rw [if_pos h]
      exact ⟨0, by omega, rfl, Nat.dvd_of_mod_eq_zero h, fun i hi => absurd hi (by omega)⟩
    · rw [if_neg h]
      rcases k with _ | k
      · exact absurd (Nat.mod_one n) (by simpa using h)
      · have e : 2 ^ (k + 1) / 2 = 2 ^ k := by rw [pow_succ]; omega
        rw [e]
        obtain ⟨j, hj, h1, h2, h3⟩ := sync_spec n fuel (level + 1) k (by omega)
        refine ⟨j + 1, by omega, ?_, ?_, fun i hi => ?_⟩
        · rw [h1, show k + 1 - (j + 1) = k - j by omega, show level + 1 + j = level + (j + 1) by omega]
        · rw [show k + 1 - (j + 1) = k - j by omega]
          exact h2
        · rcases i with _ | i
          · exact fun hd => h (Nat.mod_eq_zero_of_dvd hd)
          · rw [show k + 1 - (i + 1) = k - i by omega]
            exact h3 i (by omega)

/-- `change` on a controller with fewer than 32 levels -/
theorem change_spec {α : Type} [Field α] (s : Ctl α) (hs : s.lmax < 32) (level : ℕ) (hl : level < 32) :
    ∃ s', change level s = some s' ∧ s'.t = s.t ∧ s'.dt = s.dt ∧ s'.tot = s.tot ∧
      level ≤ s'.lmax ∧ s'.lmax ≤ max level s.lmax ∧ s'.n * 2 ^ s.lmax = s.n * 2 ^ s'.lmax ∧
      (∀ l, level ≤ l → l < s'.lmax → ¬2 ^ (s.lmax - l) ∣ s.n) := by
  unfold change factor
  by_cases h : s.lmax ≤ level
  · rw [if_pos h, if_pos hl, if_pos hs]
    refine ⟨_, rfl, rfl, rfl, rfl, le_rfl, le_max_left _ _, ?_, fun l h1 h2 => absurd h2 (by simp; omega)⟩
    have e : 2 ^ level / 2 ^ s.lmax = 2 ^ (level - s.lmax) := Nat.pow_div h (by norm_num)
    show s.n * (2 ^ level / 2 ^ s.lmax) * 2 ^ s.lmax = s.n * 2 ^ level
    rw [e, mul_assoc, ← pow_add, Nat.sub_add_cancel h]
  · rw [if_neg h, if_pos hl, if_pos hs]
    have hlt : level < s.lmax := by omega
    have e : 2 ^ s.lmax / 2 ^ level = 2 ^ (s.lmax - level) := Nat.pow_div hlt.le (by norm_num)
    obtain ⟨j, hj, h1, h2, h3⟩ := sync_spec s.n 32 level (s.lmax - level) (by omega)
    refine ⟨_, rfl, rfl, rfl, rfl, ?_⟩
    show level ≤ (sync s.n 32 level (2 ^ s.lmax / 2 ^ level)).1 ∧ _
    simp only [e, h1]
    refine ⟨by omega, by omega, ?_, fun l hl1 hl2 => ?_⟩
    · obtain ⟨c, hc⟩ := h2
      rw [hc, Nat.mul_div_cancel_left _ (by positivity)]
      have : s.lmax = (s.lmax - level - j) + (level + j) := by omega
      calc c * 2 ^ s.lmax = c * (2 ^ (s.lmax - level - j) * 2 ^ (level + j)) := by rw [← pow_add, ← this]
        _ = 2 ^ (s.lmax - level - j) * c * 2 ^ (level + j) := by ring
    · have := h3 (l - level) (by omega)
      rwa [show s.lmax - level - (l - level) = s.lmax - l by omega] at this

theorem active_iff {α : Type} [Field α] (s : Ctl α) (hs : s.lmax < 32) (l : ℕ) (hl : l ≤ s.lmax) :
    isActive s l = some (decide (2 ^ (s.lmax - l) ∣ s.n)) := by
  unfold isActive factor
  rw [if_pos hl, if_pos (by omega)]
  simp only [Option.map_some, Nat.dvd_iff_mod_eq_zero]

theorem minLoop_spec {α : Type} [Field α] (s : Ctl α) (hs : s.lmax < 32) :
    ∀ l ≤ s.lmax, minLoop s l ≤ l ∧ (∀ k, minLoop s l < k → k ≤ l → 2 ^ (s.lmax - k) ∣ s.n) ∧
      (minLoop s l ≠ 0 → ¬2 ^ (s.lmax - minLoop s l) ∣ s.n)
  | 0, _ => ⟨le_rfl, fun k h1 h2 => absurd h1 (by unfold minLoop; omega), fun h => absurd rfl h⟩
  | l + 1, hl => by
    have ha := active_iff s hs (l + 1) hl
    obtain ⟨i1, i2, i3⟩ := minLoop_spec s hs l (by omega)
    unfold minLoop
    by_cases hd : 2 ^ (s.lmax - (l + 1)) ∣ s.n
    · rw [if_pos (by rw [ha]; simpa using hd)]
      refine ⟨by omega, fun k h1 h2 => ?_, i3⟩
      by_cases hk : k = l + 1
      · rw [hk]
        exact hd
      · exact i2 k h1 (by omega)
    · rw [if_neg (by rw [ha]; simpa using hd)]
      exact ⟨le_rfl, fun k h1 h2 => absurd h1 (by omega), fun _ => hd⟩

end StepControl

end Gandalf
