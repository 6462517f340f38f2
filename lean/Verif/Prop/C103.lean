import Verif.Proof.StepControl
import Mathlib.Algebra.Order.Ring.Rat
import Mathlib.Tactic.NormNum
import Mathlib.Tactic.Positivity

/-!
# C103: the controller of time-step levels
-/

set_option autoImplicit false
set_option linter.unusedSectionVars false

namespace Gandalf

open StepControl

variable {α : Type} [Field α]

/-- **C103, clock.** After a reset at time `t0` and any number of steps and changes of the number of levels, none
of them outside of the 32 levels, every call succeeds and the time is `t0` plus the counter times the
finest step; a change of levels never moves the time. -/
theorem C103_clock [CharZero α] (dtMax : α) (s : Ctl α) (hs : s.lmax < 32) (ops : List Op)
    (hops : ∀ l, Op.change l ∈ ops → l < 32) :
    ∃ s', runAll ops (reset dtMax s) = some s' ∧ Counts s.t dtMax s' ∧
      s'.tot = s.tot + ops.countP (fun o => match o with | .step => true | .change _ => false) := by
  have h0 : Counts s.t dtMax (reset dtMax s) := ⟨by simp [reset], fun _ => rfl, hs⟩
  have ht : (reset dtMax s).tot = s.tot := rfl
  rw [← ht]
  generalize reset dtMax s = r at h0
  generalize s.t = t0 at h0
  clear ht hs
  induction ops generalizing r with
  | nil => exact ⟨r, rfl, h0, by simp⟩
  | cons o os ih =>
    have hos : ∀ l, Op.change l ∈ os → l < 32 := fun l hl => hops l (List.mem_cons_of_mem _ hl)
    cases o with
    | step =>
      have e : runAll (.step :: os) r = runAll os
          { r with
            t := r.t + r.dt r.lmax
            n := r.n + 1
            tot := r.tot + 1 } := by
        simp only [runAll, Op.run, step, if_pos h0.small, Option.bind_some]
      obtain ⟨s', h1, h2, h3⟩ := ih hos
          { r with
            t := r.t + r.dt r.lmax
            n := r.n + 1
            tot := r.tot + 1 } ⟨by
        show r.t + r.dt r.lmax = t0 + ((r.n + 1 : ℕ) : α) * (dtMax / 2 ^ r.lmax)
        rw [h0.time, h0.levels]
        push_cast
        ring, h0.levels, h0.small⟩
      refine ⟨s', by rw [e, h1], h2, ?_⟩
      rw [h3, List.countP_cons_of_pos rfl]
      show r.tot + 1 + _ = _
      omega
    | change l =>
      have hl : l < 32 := hops l List.mem_cons_self
      obtain ⟨r', c1, c2, c3, c4, c5, c6, c7, -⟩ := change_spec r h0.small l hl
      have e : runAll (.change l :: os) r = runAll os r' := by
        simp only [runAll, Op.run, c1, Option.bind_some]
      obtain ⟨s', h1, h2, h3⟩ := ih hos r' ⟨by
        rw [c2, h0.time]
        have h2 : ∀ k : ℕ, (2 : α) ^ k ≠ 0 := fun k => pow_ne_zero _ two_ne_zero
        have c7' : (r'.n : α) * 2 ^ r.lmax = r.n * 2 ^ r'.lmax := by exact_mod_cast c7
        have ha := h2 r.lmax
        have hb := h2 r'.lmax
        generalize (2 : α) ^ r.lmax = a at *
        generalize (2 : α) ^ r'.lmax = b at *
        field_simp
        linear_combination -(dtMax * c7'), fun i => by rw [c3]; exact h0.levels i, by
        have := h0.small
        omega⟩
      refine ⟨s', by rw [e, h1], h2, ?_⟩
      rw [h3, c4, List.countP_cons_of_neg (by simp)]

example : ∃ s', runAll [.step, .change 3, .step, .step, .change 1] (reset (8 : ℚ) ⟨5, fun _ => 0, 0, 2, 0⟩) = some s' ∧
    Counts 5 8 s' ∧ s'.tot = 3 := by
  obtain ⟨s', h1, h2, h3⟩ := C103_clock (8 : ℚ) ⟨5, fun _ => 0, 0, 2, 0⟩ (by norm_num)
    [.step, .change 3, .step, .step, .change 1] (by simp)
  exact ⟨s', h1, h2, h3⟩

/-- **C103, activity.** A level is active exactly when the time since the reset is a whole number of its steps. -/
theorem C103_active {α : Type} [Field α] [LinearOrder α] [IsStrictOrderedRing α] (t0 dtMax : α)
    (hd : 0 < dtMax) (s : Ctl α) (h : Counts t0 dtMax s) (l : ℕ) (hl : l ≤ s.lmax) :
    isActive s l = some true ↔ ∃ k : ℕ, s.t = t0 + k * s.dt l := by
  rw [active_iff s h.small l hl, Option.some_inj, decide_eq_true_eq, h.time, h.levels]
  have e : (2 : α) ^ s.lmax = 2 ^ (s.lmax - l) * 2 ^ l := by rw [← pow_add, Nat.sub_add_cancel hl]
  have hp : ∀ k : ℕ, (0 : α) < 2 ^ k := fun k => by positivity
  rw [e]
  constructor
  · rintro ⟨c, hc⟩
    refine ⟨c, ?_⟩
    rw [hc]
    push_cast
    have := (hp (s.lmax - l)).ne'
    have := (hp l).ne'
    field_simp
  · rintro ⟨k, hk⟩
    refine ⟨k, ?_⟩
    have h1 := add_left_cancel hk
    have ha := (hp (s.lmax - l)).ne'
    have hb := (hp l).ne'
    have hd' := hd.ne'
    have h2 : (s.n : α) = 2 ^ (s.lmax - l) * k := by
      generalize (2 : α) ^ (s.lmax - l) = a at *
      generalize (2 : α) ^ l = b at *
      field_simp at h1
      linear_combination h1
    exact_mod_cast h2

example : Counts (5 : ℚ) 8 ⟨5 + 4, fun i => 8 / 2 ^ i, 2, 2, 0⟩ := ⟨by norm_num, fun _ => rfl, by norm_num⟩

/-- **C103, levels stay synchronised.** With a level all finer ones are active. -/
theorem C103_finer (s : Ctl α) (hs : s.lmax < 32) (l l' : ℕ) (h : l ≤ l') (hl : l' ≤ s.lmax)
    (ha : isActive s l = some true) : isActive s l' = some true := by
  rw [active_iff s hs l (by omega), Option.some_inj, decide_eq_true_eq] at ha
  rw [active_iff s hs l' hl, Option.some_inj, decide_eq_true_eq]
  exact (pow_dvd_pow 2 (by omega)).trans ha

example : isActive (⟨0, fun _ => (1 : ℚ), 4, 3, 0⟩ : Ctl ℚ) 1 = some true := by decide

/-- **C103, change of levels.** At least as many levels as asked for, and as few as possible: every level between the one
asked for and the one given is out of step. -/
theorem C103_change (s : Ctl α) (hs : s.lmax < 32) (level : ℕ) (hl : level < 32) :
    ∃ s', change level s = some s' ∧ level ≤ s'.lmax ∧ s'.lmax ≤ max level s.lmax ∧
      (s.lmax ≤ level → s'.lmax = level) ∧
      ∀ l, level ≤ l → l < s'.lmax → l < s.lmax → isActive s l = some false := by
  obtain ⟨s', h1, -, -, -, h5, h6, -, h8⟩ := change_spec s hs level hl
  refine ⟨s', h1, h5, h6, fun h => by omega, fun l a b c => ?_⟩
  rw [active_iff s hs l c.le, Option.some_inj, decide_eq_false_iff_not]
  exact h8 l a b

example : ∃ s', change 0 (⟨0, fun _ => (1 : ℚ), 4, 4, 0⟩ : Ctl ℚ) = some s' ∧ s'.lmax = 2 ∧ s'.n = 1 :=
  ⟨_, rfl, by decide, by decide⟩

/-- **C103, coarsest level in step.** Away from points where all levels meet, it is found. -/
theorem C103_min_sync (s : Ctl α) (hs : s.lmax < 32) (hn : isActive s 0 = some false) :
    minSync s ≤ s.lmax ∧ isActive s (minSync s) = some true ∧
    ∀ l < minSync s, isActive s l = some false := by
  rw [active_iff s hs 0 (Nat.zero_le _), Option.some_inj, decide_eq_false_iff_not] at hn
  obtain ⟨h1, h2, h3⟩ := minLoop_spec s hs s.lmax le_rfl
  have hlt : minLoop s s.lmax < s.lmax := by
    rcases Nat.lt_or_ge (minLoop s s.lmax) s.lmax with h | h
    · exact h
    · exfalso
      have e : minLoop s s.lmax = s.lmax := by omega
      by_cases h0 : s.lmax = 0
      · rw [h0] at hn
        simp at hn
      · have := h3 (by omega)
        rw [e] at this
        simp at this
  have hnot : ¬2 ^ (s.lmax - minLoop s s.lmax) ∣ s.n := by
    by_cases h0 : minLoop s s.lmax = 0
    · rw [h0]
      exact hn
    · exact h3 h0
  refine ⟨hlt, ?_, fun l hl => ?_⟩
  · unfold minSync
    rw [active_iff s hs _ hlt, Option.some_inj, decide_eq_true_eq]
    exact h2 _ (Nat.lt_succ_self _) hlt
  · unfold minSync at hl
    rw [active_iff s hs l (by omega), Option.some_inj, decide_eq_false_iff_not]
    exact fun hd => hnot ((pow_dvd_pow 2 (by omega)).trans hd)

example : isActive (⟨0, fun _ => (1 : ℚ), 6, 3, 0⟩ : Ctl ℚ) 0 = some false ∧
    minSync (⟨0, fun _ => (1 : ℚ), 6, 3, 0⟩ : Ctl ℚ) = 2 := by decide

/-- **C103, coarsest level fails.** Where all levels meet, level 1 is given in place of 0, even if level 0 is the only one. -/
theorem C103_min_sync_fails (s : Ctl α) (hs : s.lmax < 32) (hn : isActive s 0 = some true) : minSync s = 1 := by
  rw [active_iff s hs 0 (Nat.zero_le _), Option.some_inj, decide_eq_true_eq] at hn
  obtain ⟨h1, -, h3⟩ := minLoop_spec s hs s.lmax le_rfl
  unfold minSync
  by_contra h
  exact h3 (by omega) ((pow_dvd_pow 2 (by omega)).trans hn)

example : isActive (⟨0, fun _ => (1 : ℚ), 0, 0, 0⟩ : Ctl ℚ) 0 = some true := by decide

/-- **C103, last step.** `nlast` is the last count at which level `lmax - level` was active: levels are run through
in the wrong direction. -/
theorem C103_nlast (s : Ctl α) (hs : s.lmax < 32) (l : ℕ) (hl : l ≤ s.lmax) :
    ∃ k, nlast s l = some k ∧ k ≤ s.n ∧
      isActive { s with n := k } (s.lmax - l) = some true ∧
      ∀ k', k < k' → k' ≤ s.n → isActive { s with n := k' } (s.lmax - l) = some false := by
  have hl32 : l < 32 := by omega
  refine ⟨s.n / 2 ^ l * 2 ^ l, ?_, Nat.div_mul_le_self _ _, ?_, fun k' h1 h2 => ?_⟩
  · unfold nlast factor
    rw [if_pos hl32]
    rfl
  · rw [active_iff { s with n := s.n / 2 ^ l * 2 ^ l } hs (s.lmax - l) (Nat.sub_le _ _), Option.some_inj,
      decide_eq_true_eq]
    show 2 ^ (s.lmax - (s.lmax - l)) ∣ s.n / 2 ^ l * 2 ^ l
    rw [Nat.sub_sub_self hl]
    exact Dvd.intro_left _ rfl
  · rw [active_iff { s with n := k' } hs (s.lmax - l) (Nat.sub_le _ _), Option.some_inj,
      decide_eq_false_iff_not]
    show ¬2 ^ (s.lmax - (s.lmax - l)) ∣ k'
    rw [Nat.sub_sub_self hl]
    rintro ⟨c, rfl⟩
    have hp : 0 < 2 ^ l := by positivity
    have : c ≤ s.n / 2 ^ l := (Nat.le_div_iff_mul_le hp).mpr (by rw [mul_comm]; exact h2)
    have h3 : 2 ^ l * c ≤ s.n / 2 ^ l * 2 ^ l := by
      rw [mul_comm (2 ^ l) c]
      exact Nat.mul_le_mul_right _ this
    omega

/-- **C103, last step fails.** For the longest steps the present count is given, though they began earlier. -/
theorem C103_nlast_fails (s : Ctl α) : nlast s 0 = some s.n := by
  unfold nlast factor
  simp

/-- six fine steps after a meeting of all levels: the longest step began at count 0 -/
example : nlast (⟨0, fun _ => (1 : ℚ), 6, 3, 0⟩ : Ctl ℚ) 0 = some 6 ∧
    isActive (⟨0, fun _ => (1 : ℚ), 6, 3, 0⟩ : Ctl ℚ) 0 = some false ∧
    isActive (⟨0, fun _ => (1 : ℚ), 0, 3, 0⟩ : Ctl ℚ) 0 = some true := by decide

/-- **C103, new controllers fail.** Without an argument the constructor sets 32 levels: the first test of level 0 and the
first step read past the ends of arrays of 32. -/
theorem C103_default_fails (junk : ℕ → α) : isActive (init junk) 0 = none ∧ step (init junk) = none :=
  ⟨rfl, rfl⟩

/-- **C103, level of a step.** The level found has a step below the one asked for, and a coarser level would not do, as
long as the step asked for is at most the longest one. -/
theorem C103_level (dt0 dt : ℝ) (h0 : 0 < dt0) (hd : 0 < dt) :
    0 ≤ levelOf dt0 dt ∧ dt0 / 2 ^ levelOf dt0 dt < dt ∧
    (dt ≤ dt0 → dt ≤ dt0 / 2 ^ (levelOf dt0 dt - 1)) := by
  have hx : 0 < dt0 / dt := div_pos h0 hd
  have hlog : Real.log (dt0 / dt) / Real.log 2 = Real.logb 2 (dt0 / dt) := rfl
  unfold levelOf trunc
  rw [hlog]
  refine ⟨le_max_right _ _, ?_, fun hle => ?_⟩
  · rw [div_lt_iff₀ (by positivity), ← div_lt_iff₀' hd]
    by_cases h : 0 ≤ Real.logb 2 (dt0 / dt)
    · rw [if_pos h]
      have hf : 0 ≤ ⌊Real.logb 2 (dt0 / dt)⌋ := Int.floor_nonneg.mpr h
      rw [max_eq_left (by omega)]
      have h1 := Int.lt_floor_add_one (Real.logb 2 (dt0 / dt))
      rw [Real.logb_lt_iff_lt_rpow (by norm_num) hx] at h1
      have h2 : ((⌊Real.logb 2 (dt0 / dt)⌋ : ℝ) + 1) = ((⌊Real.logb 2 (dt0 / dt)⌋ + 1 : ℤ) : ℝ) := by push_cast; rfl
      rw [h2, Real.rpow_intCast] at h1
      exact h1
    · have hlt : dt0 / dt < 1 := by
        by_contra hge
        exact h (Real.logb_nonneg (by norm_num) (not_lt.mp hge))
      exact hlt.trans_le (one_le_zpow₀ (by norm_num) (le_max_right _ _))
  · have h1 : 1 ≤ dt0 / dt := (one_le_div hd).mpr hle
    have h : 0 ≤ Real.logb 2 (dt0 / dt) := Real.logb_nonneg (by norm_num) h1
    rw [if_pos h]
    have hf : 0 ≤ ⌊Real.logb 2 (dt0 / dt)⌋ := Int.floor_nonneg.mpr h
    rw [max_eq_left (by omega), add_sub_cancel_right, le_div_iff₀ (by positivity), ← le_div_iff₀' hd]
    have h2 := Int.floor_le (Real.logb 2 (dt0 / dt))
    rw [Real.le_logb_iff_rpow_le (by norm_num) hx, Real.rpow_intCast] at h2
    exact h2

example : (0 : ℝ) < 8 ∧ (0 : ℝ) < 3 ∧ (3 : ℝ) ≤ 8 := by norm_num

/-- **C103, level of a very long step.** From twice the longest step on, level 0 is given. -/
theorem C103_level_zero (dt0 dt : ℝ) (h0 : 0 < dt0) (h2 : 2 * dt0 ≤ dt) : levelOf dt0 dt = 0 := by
  have hd : 0 < dt := by linarith
  have hx : 0 < dt0 / dt := div_pos h0 hd
  have hlog : Real.log (dt0 / dt) / Real.log 2 = Real.logb 2 (dt0 / dt) := rfl
  have hle : Real.logb 2 (dt0 / dt) ≤ -1 := by
    rw [Real.logb_le_iff_le_rpow (by norm_num) hx, Real.rpow_neg (by norm_num), Real.rpow_one,
      div_le_iff₀ hd]
    linarith
  have hc : ⌈Real.logb 2 (dt0 / dt)⌉ ≤ -1 := by
    rw [Int.ceil_le]
    push_cast
    exact hle
  unfold levelOf trunc
  rw [hlog, if_neg (by linarith)]
  exact max_eq_right (by omega)

example : levelOf 2 4 = 0 := C103_level_zero 2 4 (by norm_num) (by norm_num)

/-- **C103, level of a long step fails.** Between once and twice the longest step, level 1 is given though level 0 would
do. -/
theorem C103_level_long_fails (dt0 dt : ℝ) (h0 : 0 < dt0) (h1 : dt0 < dt) (h2 : dt < 2 * dt0) :
    levelOf dt0 dt = 1 := by
  have hd : 0 < dt := h0.trans h1
  have hx : 0 < dt0 / dt := div_pos h0 hd
  have hlog : Real.log (dt0 / dt) / Real.log 2 = Real.logb 2 (dt0 / dt) := rfl
  have hneg : Real.logb 2 (dt0 / dt) < 0 :=
    Real.logb_neg (by norm_num) hx ((div_lt_one hd).mpr h1)
  have hgt : -1 < Real.logb 2 (dt0 / dt) := by
    rw [Real.lt_logb_iff_rpow_lt (by norm_num) hx, Real.rpow_neg (by norm_num), Real.rpow_one,
      lt_div_iff₀ hd]
    linarith
  have hc : ⌈Real.logb 2 (dt0 / dt)⌉ = 0 := by
    rw [Int.ceil_eq_iff]
    push_cast
    constructor <;> linarith
  unfold levelOf trunc
  rw [hlog, if_neg (not_le.mpr hneg), hc]
  rfl

example : levelOf 2 3 = 1 := C103_level_long_fails 2 3 (by norm_num) (by norm_num) (by norm_num)

end Gandalf
