import Verif.Spec.Bondi
import Mathlib.Analysis.SpecialFunctions.Log.Deriv
import Mathlib.Analysis.Calculus.MeanValue

/-! Lemmas on the table of the Bondi flow and on the search in it. -/

set_option autoImplicit false
set_option linter.unusedSectionVars false

namespace Gandalf

noncomputable section

namespace Bondi

open Classical

/-! ### the table -/

/-- An entry that the loop could have made at place `i` -/
def Good (isonic i : ℤ) (t : Tab) : Prop := ∃ s, t i = some (row isonic i s)

theorem step_x (ep : ℝ) (s : St) : (step ep s).x1 = s.x1 * (1 + ep) := by
  simp only [step]; ring

theorem step_log {ep : ℝ} {s : St} (hx : 0 < s.x1) (he : 0 < 1 + ep) :
    Real.logb 10 (step ep s).x1 = Real.logb 10 s.x1 + Real.logb 10 (1 + ep) := by
  rw [step_x, Real.logb_mul hx.ne' he.ne']

theorem fill_ends (isonic dir e : ℤ) (ep : ℝ) (go : ℤ → Bool) (hd : dir = 1 ∨ dir = -1)
    (he : 0 < 1 + ep) (hc : 0 < (dir : ℝ) * Real.logb 10 (1 + ep))
    (hgo : ∀ i, go i = true ↔ 0 < dir * (e - i)) :
    ∀ (d : ℕ) (k : ℕ) (s : St) (i : ℤ) (t : Tab), dir * (e - i) = (d : ℤ) + 1 → 0 < s.x1 →
      0 < (dir : ℝ) * (100 * (Real.logb 10 s.x1 + k * Real.logb 10 (1 + ep)) + isonic - i) →
      ∃ n r, fill isonic dir ep go n s i t = some r := by
  have hpos : ∀ s : St, 0 < s.x1 → 0 < (step ep s).x1 := fun s h => by
    rw [step_x]; exact mul_pos h he
  have hdd : dir * dir = 1 := by rcases hd with h | h <;> rw [h] <;> norm_num
  intro d
  induction d with
  | zero =>
    intro k
    induction k with
    | zero =>
      intro s i t hi hx hk
      refine ⟨1, (step ep s, Function.update t i (some (row isonic i s))), ?_⟩
      have hdisc : 0 < (dir : ℝ) * (100 * Real.logb 10 s.x1 + isonic - i) := by simpa using hk
      have hstop : go (i + dir) = false := by
        rw [Bool.eq_false_iff]; intro h
        have h' := (hgo _).mp h
        have : dir * (e - (i + dir)) = dir * (e - i) - dir * dir := by ring
        rw [this, hi, hdd] at h'; simp at h'
      simp [fill, hdisc, hstop]
    | succ k ih =>
      intro s i t hi hx hk
      by_cases hdisc : 0 < (dir : ℝ) * (100 * Real.logb 10 s.x1 + isonic - i)
      · refine ⟨1, (step ep s, Function.update t i (some (row isonic i s))), ?_⟩
        have hstop : go (i + dir) = false := by
          rw [Bool.eq_false_iff]; intro h
          have h' := (hgo _).mp h
          have : dir * (e - (i + dir)) = dir * (e - i) - dir * dir := by ring
          rw [this, hi, hdd] at h'; simp at h'
        simp [fill, hdisc, hstop]
      · have hgoi : go i = true := (hgo i).mpr (by rw [hi]; positivity)
        obtain ⟨n, r, hn⟩ := ih (step ep s) i t hi (hpos s hx) (by
          rw [step_log hx he]
          refine lt_of_lt_of_eq hk ?_
          push_cast; ring)
        exact ⟨n + 1, r, by simp only [fill, hdisc, if_false]; rw [if_pos hgoi]; exact hn⟩
  | succ d ihd =>
    intro k
    induction k with
    | zero =>
      intro s i t hi hx hk
      have hdisc : 0 < (dir : ℝ) * (100 * Real.logb 10 s.x1 + isonic - i) := by simpa using hk
      have hi' : dir * (e - (i + dir)) = (d : ℤ) + 1 := by
        have : dir * (e - (i + dir)) = dir * (e - i) - dir * dir := by ring
        rw [this, hi, hdd]; push_cast; ring
      have hgoi : go (i + dir) = true := (hgo _).mpr (by rw [hi']; positivity)
      obtain ⟨k', hk'⟩ := exists_nat_gt
        ((-((dir : ℝ) * (100 * Real.logb 10 (step ep s).x1 + isonic - (i + dir : ℤ)))) /
          (100 * ((dir : ℝ) * Real.logb 10 (1 + ep))))
      obtain ⟨n, r, hn⟩ := ihd k' (step ep s) (i + dir)
        (Function.update t i (some (row isonic i s))) hi' (hpos s hx) (by
          rw [div_lt_iff₀ (by positivity)] at hk'
          nlinarith)
      exact ⟨n + 1, r, by simp only [fill, hdisc, if_true]; rw [if_pos hgoi]; exact hn⟩
    | succ k ih =>
      intro s i t hi hx hk
      by_cases hdisc : 0 < (dir : ℝ) * (100 * Real.logb 10 s.x1 + isonic - i)
      · have hi' : dir * (e - (i + dir)) = (d : ℤ) + 1 := by
          have : dir * (e - (i + dir)) = dir * (e - i) - dir * dir := by ring
          rw [this, hi, hdd]; push_cast; ring
        have hgoi : go (i + dir) = true := (hgo _).mpr (by rw [hi']; positivity)
        obtain ⟨k', hk'⟩ := exists_nat_gt
          ((-((dir : ℝ) * (100 * Real.logb 10 (step ep s).x1 + isonic - (i + dir : ℤ)))) /
            (100 * ((dir : ℝ) * Real.logb 10 (1 + ep))))
        obtain ⟨n, r, hn⟩ := ihd k' (step ep s) (i + dir)
          (Function.update t i (some (row isonic i s))) hi' (hpos s hx) (by
            rw [div_lt_iff₀ (by positivity)] at hk'
            nlinarith)
        exact ⟨n + 1, r, by simp only [fill, hdisc, if_true]; rw [if_pos hgoi]; exact hn⟩
      · have hgoi : go i = true := (hgo i).mpr (by rw [hi]; positivity)
        obtain ⟨n, r, hn⟩ := ih (step ep s) i t hi (hpos s hx) (by
          rw [step_log hx he]
          refine lt_of_lt_of_eq hk ?_
          push_cast; ring)
        exact ⟨n + 1, r, by simp only [fill, hdisc, if_false]; rw [if_pos hgoi]; exact hn⟩

theorem fill_start (isonic dir e : ℤ) (ep : ℝ) (go : ℤ → Bool) (hd : dir = 1 ∨ dir = -1)
    (he : 0 < 1 + ep) (hc : 0 < (dir : ℝ) * Real.logb 10 (1 + ep))
    (hgo : ∀ i, go i = true ↔ 0 < dir * (e - i)) (s : St) (i : ℤ) (t : Tab)
    (hi : 0 < dir * (e - i)) (hx : 0 < s.x1) :
    ∃ n r, fill isonic dir ep go n s i t = some r := by
  obtain ⟨k', hk'⟩ := exists_nat_gt
    ((-((dir : ℝ) * (100 * Real.logb 10 s.x1 + isonic - i))) /
      (100 * ((dir : ℝ) * Real.logb 10 (1 + ep))))
  refine fill_ends isonic dir e ep go hd he hc hgo (dir * (e - i) - 1).toNat k' s i t ?_ hx ?_
  · omega
  · rw [div_lt_iff₀ (by positivity)] at hk'
    nlinarith

/-- More passes do not change the result. -/
theorem fill_mono (isonic dir : ℤ) (ep : ℝ) (go : ℤ → Bool) :
    ∀ (n m : ℕ) (s : St) (i : ℤ) (t : Tab) r, n ≤ m → fill isonic dir ep go n s i t = some r →
      fill isonic dir ep go m s i t = some r := by
  intro n
  induction n with
  | zero => intro m s i t r _ h; simp [fill] at h
  | succ n ih =>
    intro m s i t r hm h
    obtain ⟨m', rfl⟩ : ∃ m', m = m' + 1 := ⟨m - 1, by omega⟩
    simp only [fill] at h ⊢
    by_cases hd : 0 < (dir : ℝ) * (100 * Real.logb 10 s.x1 + isonic - i)
    · simp only [hd, if_true] at h ⊢
      by_cases hg : go (i + dir) = true
      · rw [if_pos hg] at h ⊢; exact ih _ _ _ _ _ (by omega) h
      · rw [if_neg hg] at h ⊢; exact h
    · simp only [hd, if_false] at h ⊢
      by_cases hg : go i = true
      · rw [if_pos hg] at h ⊢; exact ih _ _ _ _ _ (by omega) h
      · rw [if_neg hg] at h ⊢; exact h

/-- Every place between the start and the end gets an entry, no other place is touched. -/
theorem fill_table (isonic dir e : ℤ) (ep : ℝ) (go : ℤ → Bool) (hd : dir = 1 ∨ dir = -1)
    (hgo : ∀ i, go i = true ↔ 0 < dir * (e - i)) :
    ∀ (n : ℕ) (s : St) (i : ℤ) (t : Tab) s' t', 0 < dir * (e - i) →
      fill isonic dir ep go n s i t = some (s', t') →
      (∀ j, 0 ≤ dir * (j - i) → 0 < dir * (e - j) → Good isonic j t') ∧
      (∀ j, ¬(0 ≤ dir * (j - i) ∧ 0 < dir * (e - j)) → t' j = t j) := by
  have hdd : dir * dir = 1 := by rcases hd with h | h <;> rw [h] <;> norm_num
  have hne : dir ≠ 0 := by rcases hd with h | h <;> rw [h] <;> norm_num
  intro n
  induction n with
  | zero => intro s i t s' t' _ h; simp [fill] at h
  | succ n ih =>
    intro s i t s' t' hi h
    simp only [fill] at h
    by_cases hdisc : 0 < (dir : ℝ) * (100 * Real.logb 10 s.x1 + isonic - i)
    · simp only [hdisc, if_true] at h
      have hnx : dir * (e - (i + dir)) = dir * (e - i) - 1 := by
        have : dir * (e - (i + dir)) = dir * (e - i) - dir * dir := by ring
        rw [this, hdd]
      have hjx : ∀ j, dir * (j - (i + dir)) = dir * (j - i) - 1 := by
        intro j
        have : dir * (j - (i + dir)) = dir * (j - i) - dir * dir := by ring
        rw [this, hdd]
      have hself : ∀ j, dir * (j - i) = 0 → j = i := by
        intro j hj
        rcases mul_eq_zero.mp hj with h | h
        · exact absurd h hne
        · omega
      by_cases hg : go (i + dir) = true
      · rw [if_pos hg] at h
        have hi' := (hgo _).mp hg
        obtain ⟨h1, h2⟩ := ih _ _ _ _ _ hi' h
        refine ⟨fun j hj he => ?_, fun j hj => ?_⟩
        · by_cases hji : j = i
          · subst hji
            refine ⟨s, ?_⟩
            rw [h2 j (by rw [hjx]; simp)]
            simp
          · refine h1 j ?_ he
            have : dir * (j - i) ≠ 0 := fun h0 => hji (hself j h0)
            rw [hjx]; omega
        · rw [h2 j (by rw [hjx]; rintro ⟨a, b⟩; exact hj ⟨by omega, b⟩)]
          refine Function.update_of_ne ?_ _ _
          rintro rfl
          exact hj ⟨by simp, hi⟩
      · rw [if_neg hg] at h
        obtain ⟨-, rfl⟩ := Prod.mk.inj (Option.some.inj h)
        have hlast : ¬ 0 < dir * (e - (i + dir)) := fun h => hg ((hgo _).mpr h)
        rw [hnx] at hlast
        refine ⟨fun j hj he => ?_, fun j hj => ?_⟩
        · have hji : j = i := by
            refine hself j ?_
            have : dir * (e - j) = dir * (e - i) - dir * (j - i) := by ring
            omega
          subst hji
          exact ⟨s, by simp⟩
        · refine Function.update_of_ne ?_ _ _
          rintro rfl
          exact hj ⟨by simp, hi⟩
    · simp only [hdisc, if_false] at h
      rw [if_pos ((hgo i).mpr hi)] at h
      exact ih _ _ _ _ _ hi h

/-! ### the search -/

theorem find_spec (z : ℕ → ℝ) (m : ℝ) : ∀ (n j : ℕ), m ≤ z (j + n) →
    j ≤ find z m (n + 1) j ∧ find z m (n + 1) j ≤ j + n ∧ m ≤ z (find z m (n + 1) j) ∧
      ∀ i, j ≤ i → i < find z m (n + 1) j → z i < m := by
  intro n
  induction n with
  | zero =>
    intro j h
    have : find z m 1 j = j := by simp [find]
    rw [this]
    exact ⟨le_rfl, le_rfl, by simpa using h, fun i a b => absurd b (by omega)⟩
  | succ n ih =>
    intro j h
    by_cases hj : m ≤ z j
    · have : find z m (n + 1 + 1) j = j := by rw [find]; simp [hj]
      rw [this]
      exact ⟨le_rfl, by omega, hj, fun i a b => absurd b (by omega)⟩
    · have : find z m (n + 1 + 1) j = find z m (n + 1) (j + 1) := by rw [find]; simp [hj]
      rw [this]
      obtain ⟨a, b, c, d⟩ := ih (j + 1) (by convert h using 2; omega)
      refine ⟨by omega, by omega, c, fun i hi hlt => ?_⟩
      rcases Nat.eq_or_lt_of_le hi with h' | h'
      · subst h'; exact not_le.mp hj
      · exact d i h' hlt

theorem place_spec {N : ℕ} (hN : 0 < N) (z : ℕ → ℝ) {m : ℝ} (h : m ≤ z (N - 1)) :
    place N z m < N ∧ m ≤ z (place N z m) ∧ ∀ i, i < place N z m → z i < m := by
  obtain ⟨n, rfl⟩ : ∃ n, N = n + 1 := ⟨N - 1, by omega⟩
  obtain ⟨-, b, c, d⟩ := find_spec z m n 0 (by simpa using h)
  exact ⟨by unfold place; omega, c, fun i hi => d i (by omega) hi⟩

theorem place_pos {N : ℕ} (hN : 0 < N) (z : ℕ → ℝ) {m : ℝ} (h0 : z 0 < m) (h : m ≤ z (N - 1)) :
    1 ≤ place N z m := by
  obtain ⟨-, b, -⟩ := place_spec hN z h
  by_contra hc
  have : place N z m = 0 := by omega
  rw [this] at b
  exact absurd b (not_le.mpr h0)

theorem place_mono {N : ℕ} (hN : 0 < N) (z : ℕ → ℝ) {m m' : ℝ} (hm : m ≤ m')
    (h' : m' ≤ z (N - 1)) : place N z m ≤ place N z m' := by
  obtain ⟨-, -, c⟩ := place_spec hN z (hm.trans h')
  obtain ⟨-, b', -⟩ := place_spec hN z h'
  by_contra hc
  exact absurd (c _ (not_le.mp hc)) (not_lt.mpr (hm.trans b'))

theorem place_first {N : ℕ} (hN : 0 < N) (z : ℕ → ℝ) {m : ℝ} (h : m ≤ z 0) : place N z m = 0 := by
  obtain ⟨n, rfl⟩ : ∃ n, N = n + 1 := ⟨N - 1, by omega⟩
  simp [place, find, h]

/-- Position between the two entries -/
def rem (N : ℕ) (z : ℕ → ℝ) (m : ℝ) : ℝ :=
  (m - z (place N z m - 1)) / (z (place N z m) - z (place N z m - 1))

theorem lookup_eq {N : ℕ} (x w z : ℕ → ℝ) {m : ℝ} (h : 1 ≤ place N z m) :
    lookup N x w z m = some
      (x (place N z m - 1) + rem N z m * (x (place N z m) - x (place N z m - 1)),
       w (place N z m - 1) + rem N z m * (w (place N z m) - w (place N z m - 1))) := by
  have : place N z m ≠ 0 := by omega
  simp [lookup, this, rem]

theorem rem_mem {N : ℕ} (hN : 0 < N) (z : ℕ → ℝ) {m : ℝ} (h0 : z 0 < m) (h : m ≤ z (N - 1)) :
    0 < rem N z m ∧ rem N z m ≤ 1 ∧
      rem N z m * (z (place N z m) - z (place N z m - 1)) = m - z (place N z m - 1) := by
  have hp := place_pos hN z h0 h
  obtain ⟨-, b, c⟩ := place_spec hN z h
  have hlt := c (place N z m - 1) (by omega)
  have hd : 0 < z (place N z m) - z (place N z m - 1) := by linarith
  refine ⟨div_pos (by linarith) hd, ?_, ?_⟩
  · rw [rem, div_le_one hd]; linarith
  · rw [rem, div_mul_cancel₀ _ hd.ne']

end Bondi

end

end Gandalf
