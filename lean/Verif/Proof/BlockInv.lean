import Verif.Proof.BlockSteps

set_option autoImplicit false
set_option linter.unusedSectionVars false

namespace Gandalf.Block

variable {cfg : Cfg} {s : State} {p : Part}

/-- The limiter did not end the step of this particle and has no reason to. -/
def Settled (cfg : Cfg) (s : State) (p : Part) : Prop :=
  p.levelneib ≤ p.level + cfg.level_diff_max ∨
    ¬ pow2 s.level_step (p.levelneib - cfg.level_diff_max) ∣ s.n - p.nlast

/-- Invariant of the main loop. -/
structure Inv (cfg : Cfg) (s : State) : Prop where
  clock : Clockwork cfg s
  idle : s.phase = .idle → s.n < s.nresync ∧ (∀ p ∈ s.hydro, p.dead = false → Nested s p) ∧
    ∀ p ∈ s.stars, Nested s p
  work : s.phase ≠ .idle → 1 ≤ s.n ∧ s.n ≤ s.nresync ∧ (∀ p ∈ s.hydro, p.dead = false → InPass s p) ∧
    ∀ p ∈ s.stars, InPass s p
  neib : cfg.limiter = true → ∀ p ∈ s.hydro, p.dead = false →
    p.levelneib ≤ s.level_max + cfg.level_diff_max
  checked : cfg.limiter = true → s.phase = .checked → ∀ p ∈ s.hydro, p.dead = false → Running s p →
    Settled cfg s p
  live : ∀ p ∈ s.stars, p.dead = false
  req : (∀ p ∈ s.hydro, 0 < p.req) ∧ ∀ p ∈ s.stars, 0 < p.req
  pos : 0 < s.dt_max

/-- The parameters for which the scheme works: at least one level and, for the drift-kick-drift
integrator, no limiter. -/
structure Cfg.OK (cfg : Cfg) : Prop where
  levels : 1 ≤ cfg.Nlevels
  step : 1 ≤ cfg.integration_step
  dkd : cfg.scheme = .dkd → cfg.limiter = false
  big : 0 < cfg.big

theorem Clockwork.le (h : Clockwork cfg s) (hc : cfg.OK) : s.level_max ≤ s.level_step := by
  have := h.step; have := hc.step; omega

theorem InPass.at_resync (h : InPass s p) (hls : s.level_max ≤ s.level_step) (hn : s.n = 2 ^ s.level_step) :
    Ending s p := by
  rcases h with h | h
  · exact h
  · exfalso
    have h1 : p.nstep ∣ s.n := by rw [hn, h.nstep]; exact pow_dvd_pow 2 (Nat.sub_le _ _)
    obtain ⟨a, ha⟩ := h1
    obtain ⟨b, hb⟩ := h.aligned
    have h2 := h.before
    have h3 := h.notOver
    rw [ha, hb] at h2 h3
    have h4 : b < a := Nat.lt_of_mul_lt_mul_left h2
    have h5 : p.nstep * (b + 1) ≤ p.nstep * a := Nat.mul_le_mul_left _ h4
    rw [mul_add, mul_one] at h5
    omega

/-! ### tick -/

theorem tick_inPass (h : Nested s p) : InPass { s with
    phase := .dirty
    n := s.n + 1
    t := s.t + s.timestep } p := by
  have h1 := h.notOver
  have h2 := h.begun
  by_cases he : s.n + 1 = p.nlast + p.nstep
  · refine Or.inl ⟨h.level, by simp only; omega, he, ?_, ?_, h.noEnd⟩
    · simp only; rw [he, ← h.nstep]; exact dvd_add h.aligned dvd_rfl
    · simp only; rw [← h.nstep]
  · refine Or.inr ⟨h.level, by simp only; omega, h.nstep, h.aligned, by simp only; omega, ?_, h.noEnd⟩
    have := h.clock
    simp only
    push_cast
    linarith

/-! ### the limiter -/

theorem checkPart_spec (hc : cfg.OK) (hlim : cfg.limiter = true) (hls : s.level_max ≤ s.level_step)
    (hd : p.dead = false) (h : InPass s p) (hn : p.levelneib ≤ s.level_max + cfg.level_diff_max) :
    ∃ q, checkPart cfg s p = some q ∧ q.dead = false ∧ q.levelneib = p.levelneib ∧ q.req = p.req ∧
      ((InPass s p ∧ q = p ∧ (Running s p → Settled cfg s p)) ∨
        (Running s p ∧ Ending s q ∧ p.level < q.level)) := by
  rcases h with h | h
  · have e : checkPart cfg s p = some p := by simp [checkPart, hd, h.now]
    exact ⟨p, e, hd, rfl, rfl, Or.inl ⟨Or.inl h, rfl, fun hr => absurd h.now hr.not_now⟩⟩
  · by_cases hneib : p.level + cfg.level_diff_max < p.levelneib
    · have hle : p.levelneib - cfg.level_diff_max ≤ s.level_max := by omega
      have hp : pow2 s.level_step (p.levelneib - cfg.level_diff_max) =
          2 ^ (s.level_step - (p.levelneib - cfg.level_diff_max)) := pow2_of_le (by omega)
      have hpos := Nat.two_pow_pos (s.level_step - (p.levelneib - cfg.level_diff_max))
      have hb := h.before
      have hdn : 0 < s.n - p.nlast := by omega
      have hlt : p.level < p.levelneib - cfg.level_diff_max := by omega
      have hdvd : (2 : ℕ) ^ (s.level_step - (p.levelneib - cfg.level_diff_max)) ∣ p.nlast := by
        refine (pow_dvd_pow 2 ?_).trans (h.nstep ▸ h.aligned)
        omega
      have hend : ∀ q : Part, (s.n - p.nlast) % 2 ^ (s.level_step - (p.levelneib - cfg.level_diff_max)) = 0 →
          q.nlast = p.nlast → q.nstep = s.n - p.nlast → q.level = p.levelneib - cfg.level_diff_max →
          q.endStep = p.endStep → Ending s q := by
        intro q hm q1 q2 q3 q4
        have hm' := Nat.dvd_of_mod_eq_zero hm
        refine ⟨by omega, by omega, by omega, ?_, ?_, by rw [q4, h.noEnd]⟩
        · rw [q3]
          have : s.n = p.nlast + (s.n - p.nlast) := by omega
          rw [this]
          exact dvd_add hdvd hm'
        · rw [q3, q2]; exact hm'
      by_cases hm : (s.n - p.nlast) % 2 ^ (s.level_step - (p.levelneib - cfg.level_diff_max)) = 0
      · cases hs : cfg.scheme with
        | kdk =>
          refine ⟨{ p with
              dead := false
              nstep := s.n - p.nlast
              level := p.levelneib - cfg.level_diff_max }, by
            simp only [checkPart, hd, Bool.false_eq_true, if_false, if_neg h.not_now, if_pos hneib, hs, hp,
              if_neg hpos.ne', if_pos hm, if_pos hdn], rfl, rfl, rfl,
            Or.inr ⟨h, hend _ hm rfl rfl rfl rfl, hlt⟩⟩
        | mfv =>
          refine ⟨{ p with
              dead := false
              nstep := s.n - p.nlast
              level := p.levelneib - cfg.level_diff_max
              dt := ((s.n - p.nlast : ℕ) : ℝ) * s.timestep }, by
            simp only [checkPart, hd, Bool.false_eq_true, if_false, if_neg h.not_now, if_pos hneib, hs, hp,
              if_neg hpos.ne', if_pos hm], rfl, rfl, rfl,
            Or.inr ⟨h, hend _ hm rfl rfl rfl rfl, hlt⟩⟩
        | dkd => exact absurd (hc.dkd hs) (by simp [hlim])
      · have hset : Settled cfg s p := Or.inr (by rw [hp]; exact fun hh => hm (Nat.mod_eq_zero_of_dvd hh))
        refine ⟨p, ?_, hd, rfl, rfl, Or.inl ⟨Or.inr h, rfl, fun _ => hset⟩⟩
        cases hs : cfg.scheme with
        | dkd => exact absurd (hc.dkd hs) (by simp [hlim])
        | kdk =>
          simp only [checkPart, hd, Bool.false_eq_true, if_false, if_neg h.not_now, if_pos hneib, hs, hp,
              if_neg hpos.ne', if_neg hm]
        | mfv =>
          simp only [checkPart, hd, Bool.false_eq_true, if_false, if_neg h.not_now, if_pos hneib, hs, hp,
              if_neg hpos.ne', if_neg hm]
    · refine ⟨p, ?_, hd, rfl, rfl, Or.inl ⟨Or.inr h, rfl, fun _ => Or.inl (by omega)⟩⟩
      simp [checkPart, hd, h.not_now, hneib]

/-! ### resynchronisation -/

theorem foldl_min_le (l : List Part) (m : ℝ) :
    l.foldl (fun m p => min m p.req) m ≤ m ∧ ∀ p ∈ l, l.foldl (fun m p => min m p.req) m ≤ p.req := by
  induction l generalizing m with
  | nil => exact ⟨le_rfl, fun p hp => absurd hp (List.not_mem_nil)⟩
  | cons a l ih =>
    obtain ⟨h1, h2⟩ := ih (min m a.req)
    refine ⟨h1.trans (min_le_left _ _), fun p hp => ?_⟩
    rcases List.mem_cons.mp hp with rfl | hp
    · exact h1.trans (min_le_right _ _)
    · exact h2 p hp

theorem foldl_min_pos (l : List Part) (m : ℝ) (hm : 0 < m) (h : ∀ p ∈ l, 0 < p.req) :
    0 < l.foldl (fun m p => min m p.req) m := by
  induction l generalizing m with
  | nil => exact hm
  | cons a l ih =>
    exact ih _ (lt_min hm (h a List.mem_cons_self)) fun p hp => h p (List.mem_cons_of_mem _ hp)

theorem baseStep_pos (hb : 0 < cfg.big) (h1 : ∀ p ∈ s.hydro, 0 < p.req) (h2 : ∀ p ∈ s.stars, 0 < p.req) :
    0 < baseStep cfg s :=
  lt_min (lt_min hb (foldl_min_pos _ _ hb fun p hp => h1 p (List.mem_filter.mp hp).1))
    (foldl_min_pos _ _ hb h2)

theorem sinkNeighbour_le {stars : List Part} {lm : ℕ} (hst : ∀ p ∈ stars, p.level ≤ lm)
    (l : List Part) (m : ℕ) (hm : m ≤ lm) : l.foldl (sinkNeighbour cfg stars) m ≤ lm := by
  induction l generalizing m with
  | nil => exact hm
  | cons a l ih =>
    apply ih
    unfold sinkNeighbour
    cases a.sinkid with
    | none => exact hm
    | some id =>
      simp only
      cases h : stars[cfg.sinkStar id]? with
      | none => exact hm
      | some st =>
        simp only
        have := hst st (List.mem_of_getElem? h)
        split_ifs
        · exact max_le hm (by omega)
        · exact hm

theorem resync_new (hc : cfg.OK) (hpos : 0 < baseStep cfg s) (hlive : ∀ p ∈ s.stars, p.dead = false) :
    Clockwork cfg (resync cfg s) ∧ (resync cfg s).n = 0 ∧ (resync cfg s).t = s.t ∧
    0 < (resync cfg s).dt_max ∧
    (∀ q ∈ (resync cfg s).hydro, q.dead = false → New (resync cfg s) q ∧
      q.levelneib ≤ (resync cfg s).level_max) ∧
    (∀ q ∈ (resync cfg s).stars, New (resync cfg s) q ∧ q.dead = false) := by
  set R := resync cfg s with hR
  have hlm : R.level_max = cfg.Nlevels - 1 := rfl
  have hls : R.level_step = cfg.Nlevels - 1 + cfg.integration_step - 1 := rfl
  have hle : cfg.Nlevels - 1 ≤ cfg.Nlevels - 1 + cfg.integration_step - 1 := by have := hc.step; omega
  have hn : R.n = 0 := rfl
  have mk : ∀ q : Part, q.level ≤ R.level_max → q.nlast = 0 → q.endStep = true →
      q.nstep = pow2 R.level_step q.level → New R q := by
    intro q h1 h2 h3 h4
    rw [pow2_of_le (by omega)] at h4
    refine ⟨h1, h4, by rw [h2]; exact dvd_zero _, by omega, ?_, fun _ => by omega, fun h => ?_⟩
    · rw [h4, hn, h2]; simpa using Nat.two_pow_pos _
    · rw [h3] at h; cases h
  have hstars : ∀ q ∈ R.stars, q.level ≤ R.level_max ∧ New R q ∧ q.dead = false := by
    intro q hq
    obtain ⟨p, hp, rfl⟩ := List.mem_map.mp (show q ∈ s.stars.map _ from hq)
    have hl : (resyncStar (cfg.Nlevels - 1) (cfg.Nlevels - 1 + cfg.integration_step - 1)
        (min (timestepLevel (dtMinHydro cfg s.hydro) (baseStep cfg s * 2 ^ (cfg.Nlevels - 1)))
          (cfg.Nlevels - 1)) s.t (baseStep cfg s) (baseStep cfg s * 2 ^ (cfg.Nlevels - 1)) p).level ≤
          R.level_max := by
      simp only [resyncStar, hlm]
      exact max_le (min_le_right _ _) (min_le_right _ _)
    exact ⟨hl, mk _ hl rfl rfl rfl, hlive p hp⟩
  refine ⟨⟨rfl, rfl, rfl⟩, hn, rfl, by
    show 0 < baseStep cfg s * 2 ^ (cfg.Nlevels - 1); positivity, fun q hq hd => ?_,
    fun q hq => (hstars q hq).2⟩
  obtain ⟨p, hp, rfl⟩ := List.mem_map.mp (show q ∈ s.hydro.map _ from hq)
  have hpd : p.dead = false := by
    unfold resyncHydro at hd
    cases h : p.dead with
    | false => rfl
    | true => simp [h] at hd
  have hl := sinkNeighbour_le (cfg := cfg) (stars := R.stars) (lm := R.level_max)
    (fun p hp => (hstars p hp).1) s.hydro
    (min (timestepLevel (dtMinHydro cfg s.hydro) (baseStep cfg s * 2 ^ (cfg.Nlevels - 1)))
      (cfg.Nlevels - 1)) (min_le_right _ _)
  simp only [resyncHydro, hpd, Bool.false_eq_true, if_false]
  refine ⟨mk _ ?_ rfl rfl rfl, ?_⟩ <;> (try simp only) <;> split_ifs
  · exact hl
  · exact min_le_right _ _
  · exact hl
  · exact min_le_right _ _

/-! ### between resynchronisations -/

theorem two_pow_pred {k : ℕ} (h : 1 ≤ k) : 2 ^ (k - (k - 1)) = 2 := by
  have : k - (k - 1) = 1 := by omega
  rw [this, pow_one]

/-- Everything about `rescale`. -/
theorem rescale_new (hc : cfg.OK) (h : Clockwork cfg s) (hlt : s.n < s.nresync) {lm : ℕ}
    (hh : ∀ p ∈ s.hydro, p.dead = false → Mid s p ∧ p.level ≤ lm)
    (hst : ∀ p ∈ s.stars, Mid s p ∧ p.level ≤ lm) :
    Clockwork cfg (rescale cfg s lm) ∧ (rescale cfg s lm).n < (rescale cfg s lm).nresync ∧
    (rescale cfg s lm).t = s.t ∧ (rescale cfg s lm).dt_max = s.dt_max ∧
    (rescale cfg s lm).phase = s.phase ∧
    (s.level_max ≤ (rescale cfg s lm).level_max ∨ ((rescale cfg s lm).level_max + 1 = s.level_max ∧
      lm + 1 ≤ s.level_max ∧ 2 ^ cfg.integration_step ∣ s.n)) ∧
    (∀ q ∈ (rescale cfg s lm).hydro, ∃ p ∈ s.hydro, q.dead = p.dead ∧ q.levelneib = p.levelneib ∧
      q.level = p.level ∧ q.req = p.req ∧ (p.dead = false → New (rescale cfg s lm) q)) ∧
    (∀ q ∈ (rescale cfg s lm).stars, ∃ p ∈ s.stars, q.req = p.req ∧ New (rescale cfg s lm) q ∧
      q.dead = false) := by
  have hls := h.le hc
  have hstep := h.step
  have hcs := hc.step
  set R := rescale cfg s lm with hR
  have hlevels : ∀ f n (p : Part), (finish n R.level_step (scaleUp f p)).level = p.level ∧
      (finish n R.level_step (scaleUp f p)).dead = p.dead ∧
      (finish n R.level_step (scaleUp f p)).levelneib = p.levelneib ∧
      (finish n R.level_step (scaleUp f p)).req = p.req := by
    intro f n p
    unfold finish scaleUp
    split_ifs <;> simp
  have hlevels' : ∀ f n (p : Part), (finish n R.level_step (scaleDown f p)).level = p.level ∧
      (finish n R.level_step (scaleDown f p)).dead = p.dead ∧
      (finish n R.level_step (scaleDown f p)).levelneib = p.levelneib ∧
      (finish n R.level_step (scaleDown f p)).req = p.req := by
    intro f n p
    unfold finish scaleDown
    split_ifs <;> simp
  have hlevels0 : ∀ n (p : Part), (finish n R.level_step p).level = p.level ∧
      (finish n R.level_step p).dead = p.dead ∧
      (finish n R.level_step p).levelneib = p.levelneib ∧
      (finish n R.level_step p).req = p.req := by
    intro n p
    unfold finish
    split_ifs <;> simp
  have hRstep : R.level_step = R.level_max + cfg.integration_step - 1 := by
    rw [hR]; rfl
  have hRres : R.nresync = 2 ^ R.level_step := by rw [hR]; rfl
  have hRdt : R.timestep = s.dt_max / 2 ^ R.level_step := by rw [hR]; rfl
  have hRmax : R.dt_max = s.dt_max := by
    rw [hR]; simp only [rescale]; split_ifs <;> rfl
  have hRt : R.t = s.t := by
    rw [hR]; simp only [rescale]; split_ifs <;> rfl
  have hRph : R.phase = s.phase := by
    rw [hR]; simp only [rescale]; split_ifs <;> rfl
  have hclk : Clockwork cfg R := ⟨hRstep, hRres, by rw [hRdt, hRmax]⟩
  by_cases hup : s.level_max < lm
  · have a1 : R.level_max = s.level_max + (lm - s.level_max) := by
      rw [hR]; simp only [rescale, if_pos hup]; omega
    have a2 : R.n = s.n * 2 ^ (lm - s.level_max) := by
      rw [hR]; simp only [rescale, if_pos hup]
    have a3 : R.hydro = (s.hydro.map (scaleUp (2 ^ (lm - s.level_max)))).map (finish R.n R.level_step) := by
      rw [hR]; simp only [rescale, if_pos hup]
    have a4 : R.stars = (s.stars.map (scaleUp (2 ^ (lm - s.level_max)))).map (finish R.n R.level_step) := by
      rw [hR]; simp only [rescale, if_pos hup]
    have a5 : R.level_step = s.level_step + (lm - s.level_max) := by rw [hRstep, a1]; omega
    refine ⟨hclk, ?_, hRt, hRmax, hRph, Or.inl (by omega), ?_, ?_⟩
    · rw [hRres, a2, a5, pow_add, ← h.resync]
      exact Nat.mul_lt_mul_of_pos_right hlt (Nat.two_pow_pos _)
    · intro q hq
      rw [a3, List.map_map] at hq
      obtain ⟨p, hp, rfl⟩ := List.mem_map.mp hq
      have hl := hlevels (2 ^ (lm - s.level_max)) R.n p
      refine ⟨p, hp, hl.2.1, hl.2.2.1, hl.1, hl.2.2.2, fun hd => ?_⟩
      have hm := hh p hp hd
      exact (up_new hm.1 (by omega) hls a1 a5 a2 hRt h.tick hRdt).1
    · intro q hq
      rw [a4, List.map_map] at hq
      obtain ⟨p, hp, rfl⟩ := List.mem_map.mp hq
      have hl := hlevels (2 ^ (lm - s.level_max)) R.n p
      have hm := hst p hp
      have := up_new hm.1 (by omega) hls a1 a5 a2 hRt h.tick hRdt
      exact ⟨p, hp, hl.2.2.2, this⟩
  · by_cases hdn : lm + 1 ≤ s.level_max ∧ 1 < s.level_max ∧ s.n % pow2 (s.level_step + 1) s.level_max = 0
    · have hf : 2 ^ (s.level_max - (s.level_max - 1)) = 2 := two_pow_pred (by omega)
      have a1 : R.level_max + 1 = s.level_max := by
        rw [hR]; simp only [rescale, if_neg hup, if_pos hdn]; omega
      have a2 : R.n = s.n / 2 := by
        rw [hR]; simp only [rescale, if_neg hup, if_pos hdn, hf]
      have a3 : R.hydro = (s.hydro.map (scaleDown 2)).map (finish R.n R.level_step) := by
        rw [hR]; simp only [rescale, if_neg hup, if_pos hdn, hf]
      have a4 : R.stars = (s.stars.map (scaleDown 2)).map (finish R.n R.level_step) := by
        rw [hR]; simp only [rescale, if_neg hup, if_pos hdn, hf]
      have a5 : R.level_step + 1 = s.level_step := by rw [hRstep]; omega
      have hist : pow2 (s.level_step + 1) s.level_max = 2 ^ cfg.integration_step := by
        rw [pow2_of_le (by omega)]; congr 1; omega
      have hdv : 2 ^ cfg.integration_step ∣ s.n := by
        have := hdn.2.2; rw [hist] at this; exact Nat.dvd_of_mod_eq_zero this
      have he : 2 ∣ s.n := (dvd_pow_self 2 (by omega)).trans hdv
      refine ⟨hclk, ?_, hRt, hRmax, hRph, Or.inr ⟨a1, hdn.1, hdv⟩, ?_, ?_⟩
      · rw [hRres, a2]
        have : s.nresync = 2 * 2 ^ R.level_step := by rw [h.resync, ← a5, pow_succ, mul_comm]
        omega
      · intro q hq
        rw [a3, List.map_map] at hq
        obtain ⟨p, hp, rfl⟩ := List.mem_map.mp hq
        have hl := hlevels' 2 R.n p
        refine ⟨p, hp, hl.2.1, hl.2.2.1, hl.1, hl.2.2.2, fun hd => ?_⟩
        have hm := hh p hp hd
        exact (down_new hm.1 (by omega) hls he a1 a5 a2 hRt h.tick hRdt).1
      · intro q hq
        rw [a4, List.map_map] at hq
        obtain ⟨p, hp, rfl⟩ := List.mem_map.mp hq
        have hl := hlevels' 2 R.n p
        have hm := hst p hp
        have := down_new hm.1 (by omega) hls he a1 a5 a2 hRt h.tick hRdt
        exact ⟨p, hp, hl.2.2.2, this⟩
    · have a1 : R.level_max = s.level_max := by
        rw [hR]; simp only [rescale, if_neg hup, if_neg hdn]
      have a2 : R.n = s.n := by
        rw [hR]; simp only [rescale, if_neg hup, if_neg hdn]
      have a3 : R.hydro = s.hydro.map (finish R.n R.level_step) := by
        rw [hR]; simp only [rescale, if_neg hup, if_neg hdn]
      have a4 : R.stars = s.stars.map (finish R.n R.level_step) := by
        rw [hR]; simp only [rescale, if_neg hup, if_neg hdn]
      have a5 : R.level_step = s.level_step := by rw [hRstep]; omega
      refine ⟨hclk, ?_, hRt, hRmax, hRph, Or.inl (by omega), ?_, ?_⟩
      · rw [hRres, a2, a5, ← h.resync]; exact hlt
      · intro q hq
        rw [a3] at hq
        obtain ⟨p, hp, rfl⟩ := List.mem_map.mp hq
        have hl := hlevels0 R.n p
        refine ⟨p, hp, hl.2.1, hl.2.2.1, hl.1, hl.2.2.2, fun hd => ?_⟩
        have hm := hh p hp hd
        exact (same_new hm.1 (by omega) hls a1 a5 a2 hRt h.tick hRdt).1
      · intro q hq
        rw [a4] at hq
        obtain ⟨p, hp, rfl⟩ := List.mem_map.mp hq
        have hl := hlevels0 R.n p
        have hm := hst p hp
        have := same_new hm.1 (by omega) hls a1 a5 a2 hRt h.tick hRdt
        exact ⟨p, hp, hl.2.2.2, this⟩

end Gandalf.Block
