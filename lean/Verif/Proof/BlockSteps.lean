import Verif.Spec.BlockSteps

set_option autoImplicit false
set_option linter.unusedSectionVars false

namespace Gandalf.Block

/-! ### small facts -/

theorem pow2_of_le {a b : ℕ} (h : b ≤ a) : pow2 a b = 2 ^ (a - b) := if_pos h

theorem le_foldl_max {f : Part → ℕ} (l : List Part) (m : ℕ) :
    m ≤ l.foldl (fun m p => max m (f p)) m ∧ ∀ p ∈ l, f p ≤ l.foldl (fun m p => max m (f p)) m := by
  induction l generalizing m with
  | nil => exact ⟨le_rfl, fun p hp => absurd hp (List.not_mem_nil)⟩
  | cons a l ih =>
    obtain ⟨h1, h2⟩ := ih (max m (f a))
    refine ⟨(le_max_left _ _).trans h1, fun p hp => ?_⟩
    rcases List.mem_cons.mp hp with rfl | hp
    · exact (le_max_right _ _).trans h1
    · exact h2 p hp

theorem le_maxLevel {l : List Part} {p : Part} (h : p ∈ l) : p.level ≤ maxLevel l :=
  (le_foldl_max (f := Part.level) l 0).2 p h

theorem mem_live {l : List Part} {p : Part} : p ∈ live l ↔ p ∈ l ∧ p.dead = false := by
  simp [live]

theorem mapM_some_mem {α β : Type*} {f : α → Option β} {l : List α} {l' : List β}
    (h : l.mapM f = some l') : ∀ b ∈ l', ∃ a ∈ l, f a = some b := by
  induction l generalizing l' with
  | nil => simp at h; subst h; simp
  | cons a l ih =>
    rw [List.mapM_cons] at h
    cases ha : f a with
    | none => simp [ha] at h
    | some b =>
      cases hl : l.mapM f with
      | none => simp [ha, hl] at h
      | some l2 =>
        simp [ha, hl] at h
        subst h
        intro c hc
        rcases List.mem_cons.mp hc with rfl | hc
        · exact ⟨a, List.mem_cons_self, ha⟩
        · obtain ⟨a', h1, h2⟩ := ih hl c hc
          exact ⟨a', List.mem_cons_of_mem _ h1, h2⟩

theorem mapM_isSome {α β : Type*} {f : α → Option β} {l : List α} (h : ∀ a ∈ l, ∃ b, f a = some b) :
    ∃ l', l.mapM f = some l' := by
  induction l with
  | nil => exact ⟨[], rfl⟩
  | cons a l ih =>
    obtain ⟨b, hb⟩ := h a List.mem_cons_self
    obtain ⟨l', hl⟩ := ih fun x hx => h x (List.mem_cons_of_mem _ hx)
    exact ⟨b :: l', by simp [List.mapM_cons, hb, hl]⟩

/-! ### the middle of `adapt`: levels are set, times not yet rescaled -/

/-- A particle starts a new step now. -/
structure Started (s : State) (p : Part) : Prop where
  nlast : p.nlast = s.n
  aligned : p.level ≤ s.level_step → 2 ^ (s.level_step - p.level) ∣ s.n
  ends : p.endStep = true

theorem newLevel_spec {n nstep last level e : ℕ} {up : Bool} (hpos : 0 < nstep)
    (hn : 2 ^ (e - last) ∣ n) (hst : 2 ^ (e - last) ∣ nstep) (hle : last ≤ e)
    (hup : up = true → level < last ∧ 1 < last) :
    ∃ l, newLevel n nstep last level up = some l ∧ level ≤ l ∧ (l ≤ e → 2 ^ (e - l) ∣ n) := by
  have stay : ∃ l, (if last < level then some level else some last) = some l ∧ level ≤ l ∧
      (l ≤ e → 2 ^ (e - l) ∣ n) := by
    by_cases h : last < level
    · refine ⟨level, by rw [if_pos h], le_rfl, fun _ => ?_⟩
      exact (pow_dvd_pow 2 (by omega)).trans hn
    · exact ⟨last, by rw [if_neg h], by omega, fun _ => hn⟩
  unfold newLevel
  cases hu : up with
  | false => simpa using stay
  | true =>
    obtain ⟨h1, h2⟩ := hup hu
    rw [if_pos rfl, if_neg (by omega)]
    by_cases h : n % (2 * nstep) = 0
    · rw [if_pos h]
      refine ⟨last - 1, rfl, by omega, fun _ => ?_⟩
      have : e - (last - 1) = (e - last) + 1 := by omega
      rw [this, pow_succ, mul_comm]
      exact (mul_dvd_mul_left 2 hst).trans (Nat.dvd_of_mod_eq_zero h)
    · rw [if_neg h]; exact stay

variable {cfg : Cfg} {s : State} {p : Part}

/-- A live particle within a pass. -/
def InPass (s : State) (p : Part) : Prop := Ending s p ∨ Running s p

theorem InPass.level (h : InPass s p) : p.level ≤ s.level_max := by
  rcases h with h | h <;> exact h.level

theorem InPass.before (h : InPass s p) : p.nlast < s.n := by
  rcases h with h | h <;> exact h.before

theorem Ending.nstep_pos (h : Ending s p) : 0 < p.nstep := by have := h.now; have := h.before; omega

theorem Running.not_now (h : Running s p) : s.n ≠ p.nlast + p.nstep := by
  have := h.notOver; omega

/-- What `adaptHydro` does. -/
theorem adaptHydro_spec (hls : s.level_max ≤ s.level_step) (hd : p.dead = false) (h : InPass s p) :
    ∃ q, adaptHydro cfg s p = some q ∧ q.dead = false ∧
      ((Ending s p ∧ Started s q ∧ q.levelneib ≤ q.level) ∨ (Running s p ∧ q = p)) := by
  rcases h with h | h
  · have hlev : p.level ≤ s.level_step := h.level.trans hls
    simp only [adaptHydro, hd, Bool.false_eq_true, if_false, if_pos h.now]
    by_cases hs : p.nstep ≠ pow2 s.level_step p.level
    · rw [if_pos hs]
      refine ⟨_, rfl, rfl, Or.inl ⟨h, ⟨rfl, fun hl => ?_, rfl⟩, le_rfl⟩⟩
      exact (pow_dvd_pow 2 (Nat.sub_le_sub_left (le_max_left _ _) _)).trans h.alignedNow
    · rw [if_neg hs]
      obtain ⟨l, e1, e2, e3⟩ := newLevel_spec (n := s.n) (nstep := p.nstep) (last := p.level)
        (level := max (timestepLevel p.req s.dt_max) (p.levelneib - cfg.level_diff_max))
        (up := decide (max (timestepLevel p.req s.dt_max) (p.levelneib - cfg.level_diff_max) < p.level)
          && decide (1 < p.level)) h.nstep_pos h.alignedNow h.alignedStep hlev (by
          simp only [Bool.and_eq_true, decide_eq_true_eq]; exact id)
      rw [e1]
      exact ⟨_, rfl, rfl, Or.inl ⟨h, ⟨rfl, e3, rfl⟩, e2⟩⟩
  · simp only [adaptHydro, hd, Bool.false_eq_true, if_false, if_neg h.not_now]
    exact ⟨p, rfl, hd, Or.inr ⟨h, rfl⟩⟩

theorem adaptHydro_dead (hd : p.dead = true) : adaptHydro cfg s p = some p := by
  simp [adaptHydro, hd]

theorem adaptStar_spec {lmh : ℕ} (hls : s.level_max ≤ s.level_step) (hd : p.dead = false)
    (h : InPass s p) : ∃ q, adaptStar s lmh p = some q ∧ q.dead = false ∧
      ((Ending s p ∧ Started s q) ∨ (Running s p ∧ q = p)) := by
  rcases h with h | h
  · have hlev : p.level ≤ s.level_step := h.level.trans hls
    simp only [adaptStar, if_pos h.now]
    obtain ⟨l, e1, e2, e3⟩ := newLevel_spec (n := s.n) (nstep := p.nstep) (last := p.level)
      (level := max (timestepLevel p.req s.dt_max) lmh)
      (up := decide (max (timestepLevel p.req s.dt_max) lmh < p.level)
        && decide (lmh < max (timestepLevel p.req s.dt_max) lmh)
        && decide (1 < p.level)) h.nstep_pos h.alignedNow h.alignedStep hlev (by
        simp only [Bool.and_eq_true, decide_eq_true_eq]; exact fun h => ⟨h.1.1, h.2⟩)
    rw [e1]
    exact ⟨_, rfl, hd, Or.inl ⟨h, ⟨rfl, e3, rfl⟩⟩⟩
  · simp only [adaptStar, if_neg h.not_now]
    exact ⟨p, rfl, hd, Or.inr ⟨h, rfl⟩⟩

/-! ### rescaling -/

/-- A live particle when levels are set: it starts a step, or is in one. -/
def Mid (s : State) (p : Part) : Prop := p.dead = false ∧ (Started s p ∨ Running s p)

/-- After rescaling, before `EndTimestep`. -/
structure New (s : State) (p : Part) : Prop where
  level : p.level ≤ s.level_max
  nstep : p.nstep = 2 ^ (s.level_step - p.level)
  aligned : p.nstep ∣ p.nlast
  begun : p.nlast ≤ s.n
  notOver : s.n < p.nlast + p.nstep
  started : p.endStep = true → p.nlast = s.n
  clock : p.endStep = false → s.t - p.tlast = ((s.n : ℝ) - p.nlast) * s.timestep

theorem single_mid {lmh : ℕ} (h : Mid s p) (hl : p.level ≤ lmh) : Mid s (single cfg s.n lmh p) := by
  obtain ⟨hd, h⟩ := h
  unfold single
  by_cases hc : (cfg.single && !p.dead && decide (p.nlast = s.n)) = true
  · rw [if_pos hc]
    refine ⟨hd, Or.inl ?_⟩
    rcases h with h | h
    · refine ⟨h.nlast, fun hle => ?_, h.ends⟩
      have hle' : lmh ≤ s.level_step := hle
      exact (pow_dvd_pow 2 (Nat.sub_le_sub_left hl _)).trans (h.aligned (hl.trans hle'))
    · have := h.before
      simp only [Bool.and_eq_true, decide_eq_true_eq] at hc
      omega
  · rw [if_neg hc]; exact ⟨hd, h⟩

theorem single_level {lmh lm : ℕ} (hl : p.level ≤ lm) (h : lmh ≤ lm) :
    (single cfg s.n lmh p).level ≤ lm := by
  unfold single; split_ifs
  · exact h
  · exact hl

theorem finish_started {n ls : ℕ} (hd : p.dead = false) (h : p.nlast = n) :
    finish n ls p = { p with nstep := pow2 ls p.level } := by
  simp [finish, hd, h]

theorem finish_running {n ls : ℕ} (h : p.nlast ≠ n) : finish n ls p = p := by
  simp [finish, h]

/-- one particle when levels are added -/
theorem up_new {k : ℕ} {s' : State} (h : Mid s p) (hl : p.level ≤ s.level_max + k)
    (hls : s.level_max ≤ s.level_step)
    (e1 : s'.level_max = s.level_max + k) (e2 : s'.level_step = s.level_step + k)
    (e3 : s'.n = s.n * 2 ^ k) (e4 : s'.t = s.t) (hts : s.timestep = s.dt_max / 2 ^ s.level_step)
    (e5 : s'.timestep = s.dt_max / 2 ^ s'.level_step) :
    New s' (finish s'.n s'.level_step (scaleUp (2 ^ k) p)) ∧
      (finish s'.n s'.level_step (scaleUp (2 ^ k) p)).dead = false := by
  obtain ⟨hd, h⟩ := h
  have hk : 0 < 2 ^ k := Nat.two_pow_pos k
  have hup : scaleUp (2 ^ k) p = { p with
      nstep := p.nstep * 2 ^ k
      nlast := p.nlast * 2 ^ k } := by simp [scaleUp, hd]
  have hle : p.level ≤ s'.level_step := by omega
  rcases h with h | h
  · rw [hup, finish_started (by exact hd) (by simp [h.nlast, e3]), pow2_of_le hle]
    refine ⟨⟨by simp only; omega, rfl, ?_, ?_, ?_, fun _ => ?_, fun hh => ?_⟩, hd⟩
    · simp only [h.nlast]
      by_cases hc : p.level ≤ s.level_step
      · have : s'.level_step - p.level = (s.level_step - p.level) + k := by omega
        rw [this, pow_add]
        exact Nat.mul_dvd_mul_right (h.aligned hc) _
      · exact (pow_dvd_pow 2 (by omega)).trans (Dvd.intro_left _ rfl)
    · simp [h.nlast, e3]
    · simp only [h.nlast, e3]
      have := Nat.two_pow_pos (s'.level_step - p.level)
      omega
    · simp [h.nlast, e3]
    · exact absurd (h.ends) (by simpa using hh)
  · have hb := h.before
    have hne : p.nlast * 2 ^ k ≠ s'.n := by
      rw [e3]; intro hc
      exact absurd (Nat.eq_of_mul_eq_mul_right hk hc) (by omega)
    rw [hup, finish_running (by exact hne)]
    have hsub : s'.level_step - p.level = (s.level_step - p.level) + k := by
      have := h.level; omega
    refine ⟨⟨?_, ?_, ?_, ?_, ?_, fun hh => ?_, fun _ => ?_⟩, hd⟩
    · have := h.level; simp only; omega
    · simp only [h.nstep]; rw [hsub, pow_add]
    · exact Nat.mul_dvd_mul_right h.aligned _
    · simp only [e3]; exact Nat.mul_le_mul_right _ hb.le
    · simp only [e3]; rw [← add_mul]; exact Nat.mul_lt_mul_of_pos_right h.notOver hk
    · exact absurd h.noEnd (by simp at hh; simp [hh])
    · simp only [e4, h.clock, e3, hts, e5, e2, pow_add]
      push_cast
      field_simp

/-- one particle when a level is removed -/
theorem down_new {s' : State} (h : Mid s p) (hl : p.level + 1 ≤ s.level_max)
    (hls : s.level_max ≤ s.level_step) (he : 2 ∣ s.n)
    (e1 : s'.level_max + 1 = s.level_max) (e2 : s'.level_step + 1 = s.level_step)
    (e3 : s'.n = s.n / 2) (e4 : s'.t = s.t) (hts : s.timestep = s.dt_max / 2 ^ s.level_step)
    (e5 : s'.timestep = s.dt_max / 2 ^ s'.level_step) :
    New s' (finish s'.n s'.level_step (scaleDown 2 p)) ∧
      (finish s'.n s'.level_step (scaleDown 2 p)).dead = false := by
  obtain ⟨hd, h⟩ := h
  have hdn : scaleDown 2 p = { p with
      nlast := p.nlast / 2
      nstep := p.nstep / 2 } := by simp [scaleDown, hd]
  have hle : p.level ≤ s'.level_step := by omega
  have hsub : s.level_step - p.level = (s'.level_step - p.level) + 1 := by omega
  obtain ⟨m, hm⟩ := he
  have hn' : s'.n = m := by omega
  rcases h with h | h
  · rw [hdn, finish_started (by exact hd) (by simp [h.nlast, e3]), pow2_of_le hle]
    refine ⟨⟨by simp only; omega, rfl, ?_, ?_, ?_, fun _ => ?_, fun hh => ?_⟩, hd⟩
    · simp only [h.nlast]
      have ha := h.aligned (by omega)
      rw [hsub, pow_succ, hm, mul_comm] at ha
      have hnm : s.n / 2 = m := by omega
      rw [hnm]
      exact Nat.dvd_of_mul_dvd_mul_left (by norm_num) ha
    · simp [h.nlast, e3]
    · simp only [h.nlast, e3]
      have := Nat.two_pow_pos (s'.level_step - p.level)
      omega
    · simp [h.nlast, e3]
    · exact absurd (h.ends) (by simpa using hh)
  · have hb := h.before
    have hst : p.nstep = 2 * 2 ^ (s'.level_step - p.level) := by
      rw [h.nstep, hsub, pow_succ, mul_comm]
    obtain ⟨c, hc⟩ := h.aligned
    have hnl : p.nlast = 2 * (2 ^ (s'.level_step - p.level) * c) := by rw [hc, hst]; ring
    set K := 2 ^ (s'.level_step - p.level) with hK
    have hno := h.notOver
    have hne : p.nlast / 2 ≠ s'.n := by
      rw [hn']; intro hcc; omega
    rw [hdn, finish_running (by exact hne)]
    have hnl2 : p.nlast / 2 = K * c := by omega
    have hst2 : p.nstep / 2 = K := by omega
    refine ⟨⟨?_, ?_, ?_, ?_, ?_, fun hh => ?_, fun _ => ?_⟩, hd⟩
    · simp only; omega
    · exact hst2
    · simp only [hnl2, hst2]; exact Dvd.intro _ rfl
    · simp only; omega
    · simp only; omega
    · exact absurd h.noEnd (by simp at hh; simp [hh])
    · have hr1 : (s.n : ℝ) = 2 * (m : ℝ) := by rw [hm]; push_cast; ring
      have hr2 : (p.nlast : ℝ) = 2 * ((K * c : ℕ) : ℝ) := by rw [hnl]; push_cast; ring
      have hr3 : (2 : ℝ) ^ s.level_step = 2 * 2 ^ s'.level_step := by rw [← e2, pow_succ]; ring
      simp only [e4, h.clock, hn', hts, e5, hnl2, hr1, hr2, hr3]
      field_simp

/-- one particle when the levels stay -/
theorem same_new {s' : State} (h : Mid s p) (hl : p.level ≤ s.level_max)
    (hls : s.level_max ≤ s.level_step)
    (e1 : s'.level_max = s.level_max) (e2 : s'.level_step = s.level_step)
    (e3 : s'.n = s.n) (e4 : s'.t = s.t) (hts : s.timestep = s.dt_max / 2 ^ s.level_step)
    (e5 : s'.timestep = s.dt_max / 2 ^ s'.level_step) :
    New s' (finish s'.n s'.level_step p) ∧ (finish s'.n s'.level_step p).dead = false := by
  have hsc : scaleUp (2 ^ 0) p = p := by
    unfold scaleUp; split_ifs <;> simp
  have := up_new (k := 0) (s' := s') h (by simpa using hl) hls (by simpa using e1) (by simpa using e2)
    (by simpa using e3) e4 hts e5
  rwa [hsc] at this

theorem endPart_nested {b : Bool} (h : New s p) (hd : p.dead = false) :
    Nested s (endPart b s.n s.t p) := by
  have hno : s.n ≠ p.nlast + p.nstep := by have := h.notOver; omega
  simp only [endPart, hd, Bool.false_eq_true, if_false, decide_eq_false hno, Bool.and_false,
    Bool.or_false]
  cases he : p.endStep with
  | true =>
    rw [if_pos rfl]
    have hs := h.started he
    refine ⟨h.level, h.nstep, ?_, le_rfl, ?_, by simp, rfl⟩
    · have := h.aligned; rw [hs] at this; exact this
    · have := h.notOver; rw [hs] at this; exact this
  | false =>
    rw [if_neg (by simp)]
    exact ⟨h.level, h.nstep, h.aligned, h.begun, h.notOver, h.clock he, he⟩

end Gandalf.Block
