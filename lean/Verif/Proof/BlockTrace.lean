import Verif.Proof.BlockReach

set_option autoImplicit false
set_option linter.unusedSectionVars false

namespace Gandalf.Block

variable {cfg : Cfg} {s : State} {p q : Part}

/-! ### levels and requested steps -/

theorem timestepLevel_eq {dt dtMax : ℝ} {L : ℕ} (h1 : (2 : ℝ) ^ L ≤ dtMax / dt)
    (h2 : dtMax / dt < 2 ^ (L + 1)) : timestepLevel dt dtMax = L + 1 := by
  have hx : 0 < dtMax / dt := lt_of_lt_of_le (by positivity) h1
  have a1 : (L : ℝ) ≤ Real.logb 2 (dtMax / dt) := by
    rw [Real.le_logb_iff_rpow_le (by norm_num) hx]; simpa using h1
  have a2 : Real.logb 2 (dtMax / dt) < (L : ℝ) + 1 := by
    rw [Real.logb_lt_iff_lt_rpow (by norm_num) hx]
    have : (2 : ℝ) ^ ((L : ℝ) + 1) = 2 ^ (L + 1) := by rw [← Real.rpow_natCast]; norm_num
    rw [this]; exact h2
  have a3 : ⌊Real.logb 2 (dtMax / dt)⌋ = (L : ℤ) := by
    rw [Int.floor_eq_iff]; push_cast; exact ⟨a1, a2⟩
  have a4 : (0 : ℝ) ≤ Real.logb 2 (dtMax / dt) := le_trans (Nat.cast_nonneg L) a1
  unfold timestepLevel truncate
  rw [if_pos a4, a3, max_eq_left (by positivity)]
  simp

theorem timestepLevel_small {dt dtMax : ℝ} (h0 : 0 < dtMax / dt) (h : dtMax / dt < 1) :
    timestepLevel dt dtMax = if dtMax / dt ≤ 1 / 2 then 0 else 1 := by
  have a1 : Real.logb 2 (dtMax / dt) < 0 := Real.logb_neg (by norm_num) h0 h
  unfold timestepLevel truncate
  rw [if_neg (not_le.mpr a1)]
  by_cases hh : dtMax / dt ≤ 1 / 2
  · rw [if_pos hh]
    have : Real.logb 2 (dtMax / dt) ≤ -1 := by
      rw [Real.logb_le_iff_le_rpow (by norm_num) h0, Real.rpow_neg_one]; linarith
    have h2 : ⌈Real.logb 2 (dtMax / dt)⌉ ≤ -1 := by
      rw [Int.ceil_le]; push_cast; exact this
    have h3 : max (⌈Real.logb 2 (dtMax / dt)⌉ + 1) 0 = 0 := max_eq_right (by omega)
    rw [h3]; rfl
  · rw [if_neg hh]
    have : -1 < Real.logb 2 (dtMax / dt) := by
      rw [Real.lt_logb_iff_rpow_lt (by norm_num) h0, Real.rpow_neg_one]; linarith
    have h2 : ⌈Real.logb 2 (dtMax / dt)⌉ = 0 := by
      rw [Int.ceil_eq_iff]; push_cast; constructor <;> linarith
    rw [h2]; rfl

/-- The position of a ratio of at least one between two powers of two. -/
theorem exists_pow_bounds {x : ℝ} (h : 1 ≤ x) : ∃ L : ℕ, (2 : ℝ) ^ L ≤ x ∧ x < 2 ^ (L + 1) :=
  exists_nat_pow_near h (by norm_num)

theorem ratio_le_pow {dt dtMax : ℝ} (h1 : 0 < dt) (h2 : 0 < dtMax) :
    dtMax / dt ≤ 2 ^ timestepLevel dt dtMax := by
  by_cases hx : 1 ≤ dtMax / dt
  · obtain ⟨L, a1, a2⟩ := exists_pow_bounds hx
    rw [timestepLevel_eq a1 a2]; exact a2.le
  · rw [timestepLevel_small (by positivity) (not_le.mp hx)]
    split_ifs with hh
    · simp; linarith
    · simp; linarith

theorem step_le_req {dt dtMax : ℝ} {l : ℕ} (h1 : 0 < dt) (h2 : 0 < dtMax) (h : timestepLevel dt dtMax ≤ l) :
    dtMax / 2 ^ l ≤ dt := by
  have a := ratio_le_pow h1 h2
  have b : (2 : ℝ) ^ timestepLevel dt dtMax ≤ 2 ^ l := pow_le_pow_right₀ (by norm_num) h
  rw [div_le_iff₀ (by positivity), mul_comm]
  rw [div_le_iff₀ h1] at a
  exact a.trans (mul_le_mul_of_nonneg_right b h1.le)

theorem half_le_step {dt dtMax : ℝ} (h1 : 0 < dt) (h : dt ≤ dtMax) :
    dt ≤ 2 * (dtMax / 2 ^ timestepLevel dt dtMax) := by
  obtain ⟨L, a1, a2⟩ := exists_pow_bounds (x := dtMax / dt) (by rw [le_div_iff₀ h1]; linarith)
  rw [timestepLevel_eq a1 a2, pow_succ]
  rw [le_div_iff₀ h1] at a1
  have : 2 * (dtMax / (2 ^ L * 2)) = dtMax / 2 ^ L := by field_simp
  rw [this, le_div_iff₀ (by positivity)]
  linarith

/-- length of a step of `2^(level_step-l)` ticks -/
theorem step_length {dtMax : ℝ} {ls l : ℕ} (h : l ≤ ls) :
    (((2 ^ (ls - l) : ℕ) : ℝ)) * (dtMax / 2 ^ ls) = dtMax / 2 ^ l := by
  have : (2 : ℝ) ^ ls = 2 ^ (ls - l) * 2 ^ l := by rw [← pow_add]; congr 1; omega
  rw [this]; push_cast; field_simp

/-! ### one particle through `adapt` -/

theorem newLevel_ge {n nstep last level l : ℕ} {up : Bool} (hup : up = true → level < last)
    (h : newLevel n nstep last level up = some l) : level ≤ l := by
  unfold newLevel at h
  by_cases hu : up = true
  · have := hup hu
    rw [if_pos hu] at h
    split_ifs at h <;> first | (injection h with h; omega) | cases h
  · rw [if_neg hu] at h
    split_ifs at h <;> (injection h with h; omega)

theorem adaptHydro_more (hd : p.dead = false) (hn : s.n = p.nlast + p.nstep)
    (h : adaptHydro cfg s p = some q) :
    timestepLevel p.req s.dt_max ≤ q.level ∧ p.levelneib - cfg.level_diff_max ≤ q.level ∧
      q.dtNext = pow2 s.level_step q.level * s.timestep ∧ q.endStep = true ∧ q.nlast = s.n := by
  simp only [adaptHydro, hd, Bool.false_eq_true, if_false, if_pos hn] at h
  by_cases hs : p.nstep ≠ pow2 s.level_step p.level
  · rw [if_pos hs] at h
    injection h with h
    rw [← h]
    exact ⟨(le_max_left _ _).trans (le_max_right _ _), (le_max_right _ _).trans (le_max_right _ _), rfl, rfl,
      rfl⟩
  · rw [if_neg hs] at h
    obtain ⟨l, h1, rfl⟩ := Option.map_eq_some_iff.mp h
    have := newLevel_ge (by simp only [Bool.and_eq_true, decide_eq_true_eq]; exact fun h => h.1) h1
    exact ⟨(le_max_left _ _).trans this, (le_max_right _ _).trans this, rfl, rfl, rfl⟩

theorem adaptStar_more {lmh : ℕ} (hn : s.n = p.nlast + p.nstep)
    (h : adaptStar s lmh p = some q) :
    timestepLevel p.req s.dt_max ≤ q.level ∧ lmh ≤ q.level ∧
      q.dtNext = pow2 s.level_step q.level * s.timestep ∧ q.endStep = true ∧ q.nlast = s.n := by
  simp only [adaptStar, if_pos hn] at h
  obtain ⟨l, h1, rfl⟩ := Option.map_eq_some_iff.mp h
  have := newLevel_ge (by simp only [Bool.and_eq_true, decide_eq_true_eq]; exact fun h => h.1.1) h1
  exact ⟨(le_max_left _ _).trans this, (le_max_right _ _).trans this, rfl, rfl, rfl⟩

theorem mapM_getElem? {α β : Type*} {f : α → Option β} {l : List α} {l' : List β}
    (h : l.mapM f = some l') (i : ℕ) (a : α) (ha : l[i]? = some a) :
    ∃ b, f a = some b ∧ l'[i]? = some b := by
  induction l generalizing l' i with
  | nil => simp at ha
  | cons x l ih =>
    rw [List.mapM_cons] at h
    cases hx : f x with
    | none => simp [hx] at h
    | some b =>
      cases hl : l.mapM f with
      | none => simp [hx, hl] at h
      | some l2 =>
        simp [hx, hl] at h
        subst h
        cases i with
        | zero => simp at ha; subst ha; exact ⟨b, hx, by simp⟩
        | succ i => simpa using ih hl i (by simpa using ha)

/-- What rescaling leaves alone. -/
structure Kept (p q : Part) : Prop where
  dead : q.dead = p.dead
  level : q.level = p.level
  req : q.req = p.req
  endStep : q.endStep = p.endStep
  dtNext : q.dtNext = p.dtNext
  dt : q.dt = p.dt
  levelneib : q.levelneib = p.levelneib

theorem Kept.rfl' (p : Part) : Kept p p := ⟨rfl, rfl, rfl, rfl, rfl, rfl, rfl⟩

theorem Kept.trans {r : Part} (h1 : Kept p q) (h2 : Kept q r) : Kept p r :=
  ⟨h2.dead.trans h1.dead, h2.level.trans h1.level, h2.req.trans h1.req, h2.endStep.trans h1.endStep,
    h2.dtNext.trans h1.dtNext, h2.dt.trans h1.dt, h2.levelneib.trans h1.levelneib⟩

theorem kept_up (f : ℕ) (p : Part) : Kept p (scaleUp f p) := by
  unfold scaleUp; split_ifs <;> exact ⟨rfl, rfl, rfl, rfl, rfl, rfl, rfl⟩

theorem kept_down (f : ℕ) (p : Part) : Kept p (scaleDown f p) := by
  unfold scaleDown; split_ifs <;> exact ⟨rfl, rfl, rfl, rfl, rfl, rfl, rfl⟩

theorem kept_finish (n ls : ℕ) (p : Part) : Kept p (finish n ls p) := by
  unfold finish; split_ifs <;> exact ⟨rfl, rfl, rfl, rfl, rfl, rfl, rfl⟩

theorem rescale_map (s : State) (lm : ℕ) : ∃ g : Part → Part, (∀ p, Kept p (g p)) ∧
    (rescale cfg s lm).hydro = s.hydro.map g ∧ (rescale cfg s lm).stars = s.stars.map g := by
  by_cases h1 : s.level_max < lm
  · refine ⟨fun p => finish (rescale cfg s lm).n (rescale cfg s lm).level_step
      (scaleUp (2 ^ (lm - s.level_max)) p), fun p => (kept_up _ _).trans (kept_finish _ _ _), ?_, ?_⟩ <;>
    · simp only [rescale, if_pos h1, List.map_map]; rfl
  · by_cases h2 : lm + 1 ≤ s.level_max ∧ 1 < s.level_max ∧ s.n % pow2 (s.level_step + 1) s.level_max = 0
    · refine ⟨fun p => finish (rescale cfg s lm).n (rescale cfg s lm).level_step
        (scaleDown (2 ^ (s.level_max - (s.level_max - 1))) p),
        fun p => (kept_down _ _).trans (kept_finish _ _ _), ?_, ?_⟩ <;>
      · simp only [rescale, if_neg h1, if_pos h2, List.map_map]; rfl
    · refine ⟨fun p => finish (rescale cfg s lm).n (rescale cfg s lm).level_step p,
        fun p => (kept_finish _ _ _), ?_, ?_⟩ <;>
      · simp only [rescale, if_neg h1, if_neg h2]

/-- A new step. -/
structure NewStep (s s' : State) (p q : Part) : Prop where
  live : q.dead = false
  nlast : q.nlast = s'.n
  level : q.level ≤ s'.level_max
  nstep : q.nstep = 2 ^ (s'.level_step - q.level)
  req : q.req = p.req
  dtMax : s'.dt_max = s.dt_max
  t : s'.t = s.t
  enough : timestepLevel p.req s.dt_max ≤ q.level

/-- A particle whose step ends at this call of `ComputeBlockTimesteps`, between resynchronisations. -/
theorem adapt_trace (hc : cfg.OK) (h : Inv cfg s) (hph : s.phase ≠ .idle) (hn : s.n ≠ s.nresync)
    (hchk : cfg.limiter = true → s.phase = .checked) {R : State} (hR : adapt cfg s = some R) :
    Clockwork cfg R ∧
    (∀ (i : ℕ) (p : Part), s.hydro[i]? = some p → p.dead = false → s.n = p.nlast + p.nstep →
      ∃ q, (endTimestep cfg { R with phase := .idle }).hydro[i]? = some q ∧
        NewStep s (endTimestep cfg { R with phase := .idle }) p q ∧
        p.levelneib - cfg.level_diff_max ≤ q.level ∧
        (cfg.single = false → q.dt = pow2 s.level_step q.level * s.timestep)) ∧
    (∀ (i : ℕ) (p : Part), s.stars[i]? = some p → s.n = p.nlast + p.nstep →
      ∃ q, (endTimestep cfg { R with phase := .idle }).stars[i]? = some q ∧
        NewStep s (endTimestep cfg { R with phase := .idle }) p q ∧
        q.dt = pow2 s.level_step q.level * s.timestep) := by
  obtain ⟨w1, w2, w3, w4⟩ := h.work hph
  have hls := h.clock.le hc
  obtain ⟨R', hR', hinv⟩ := adapt_inv hc h hph hn hchk
  rw [hR] at hR'; injection hR' with hR'; subst hR'
  set E := endTimestep cfg { R with phase := .idle } with hE
  have hidle := hinv.idle rfl
  -- unfold `adapt`
  unfold adapt at hR
  obtain ⟨hydro, hhy, hR⟩ := Option.bind_eq_some_iff.mp hR
  obtain ⟨stars, hst, hR⟩ := Option.map_eq_some_iff.mp hR
  set lmh := maxLevel (live hydro) with hlmh
  set lm := max lmh (maxLevel stars) with hlm
  set M : State := { s with
    hydro := hydro.map (single cfg s.n lmh)
    stars := stars } with hM
  obtain ⟨g, g1, g2, g3⟩ := rescale_map (cfg := cfg) M lm
  have hRdt : R.dt_max = s.dt_max := by
    rw [← hR]; simp only [rescale]; split_ifs <;> rfl
  have hRt : R.t = s.t := by
    rw [← hR]; simp only [rescale]; split_ifs <;> rfl
  have hclk : Clockwork cfg R := hinv.clock.move (s := E) ⟨rfl, rfl, rfl, rfl, rfl, rfl, rfl⟩
  refine ⟨hclk, fun i p hip hd hnow => ?_, fun i p hip hnow => ?_⟩
  · obtain ⟨q0, a1, a2⟩ := mapM_getElem? hhy i p hip
    obtain ⟨b1, b2, b3, b4, b5⟩ := adaptHydro_more hd hnow a1
    have hq0d : q0.dead = false := by
      obtain ⟨q', c1, c2, -⟩ := adaptHydro_spec (cfg := cfg) hls hd (w3 p (List.mem_of_getElem? hip) hd)
      rw [c1] at a1; injection a1 with a1; rw [← a1]; exact c2
    set q1 := single cfg s.n lmh q0 with hq1
    set q2 := g q1 with hq2
    set q3 := endPart (decide (cfg.scheme = .mfv)) R.n R.t q2 with hq3
    have k := g1 q1
    have hq1f := single_fields (cfg := cfg) s.n lmh q0
    have hq1e : q1.endStep = true ∧ q1.dtNext = q0.dtNext ∧ q0.level ≤ q1.level ∧
        (cfg.single = false → q1.level = q0.level) := by
      have hl : q0.level ≤ lmh := le_maxLevel (mem_live.mpr ⟨List.mem_of_getElem? a2, hq0d⟩)
      rw [hq1]; unfold single
      by_cases hcs : (cfg.single && !q0.dead && decide (q0.nlast = s.n)) = true
      · rw [if_pos hcs]; refine ⟨b4, rfl, hl, fun hs => ?_⟩
        rw [hs] at hcs; simp at hcs
      · rw [if_neg hcs]; exact ⟨b4, rfl, le_rfl, fun _ => rfl⟩
    have hq3e : q3 = { q2 with
        nlast := R.n
        tlast := R.t
        dt := q2.dtNext
        dtNext := 0
        endStep := false } := by
      rw [hq3]; unfold endPart
      rw [if_neg (by rw [k.dead, hq1f.1, hq0d]; simp), if_pos (by rw [k.endStep, hq1e.1]; simp)]
    have hmem : E.hydro[i]? = some q3 := by
      show (R.hydro.map _)[i]? = some q3
      rw [← hR, g2, show M.hydro = hydro.map (single cfg s.n lmh) from rfl]
      simp only [List.getElem?_map, a2, Option.map_some, hR]
      rfl
    have hq3d : q3.dead = false := by rw [hq3e]; show q2.dead = false; rw [k.dead, hq1f.1, hq0d]
    have hne := hidle.2.1 q3 (List.mem_of_getElem? hmem) hq3d
    have hq3l : q3.level = q1.level := by rw [hq3e]; exact k.level
    refine ⟨q3, hmem, ⟨hq3d, by rw [hq3e]; rfl, hne.level, hne.nstep, ?_, hRdt, hRt, ?_⟩, ?_, ?_⟩
    · rw [hq3e]; show q2.req = p.req; rw [k.req, hq1f.2.2.1, adaptHydro_req a1]
    · rw [hq3l]; exact b1.trans hq1e.2.2.1
    · rw [hq3l]; exact b2.trans hq1e.2.2.1
    · intro hs
      rw [hq3l, hq1e.2.2.2 hs, hq3e]; show q2.dtNext = _
      rw [k.dtNext, hq1e.2.1, b3]
  · obtain ⟨q0, a1, a2⟩ := mapM_getElem? hst i p hip
    obtain ⟨b1, b2, b3, b4, b5⟩ := adaptStar_more hnow a1
    have hpm := List.mem_of_getElem? hip
    have hq0d : q0.dead = false := by
      obtain ⟨q', c1, c2, -⟩ := adaptStar_spec (lmh := lmh) hls (h.live p hpm) (w4 p hpm)
      rw [c1] at a1; injection a1 with a1; rw [← a1]; exact c2
    set q2 := g q0 with hq2
    set q3 := endPart false R.n R.t q2 with hq3
    have k := g1 q0
    have hq3e : q3 = { q2 with
        nlast := R.n
        tlast := R.t
        dt := q2.dtNext
        dtNext := 0
        endStep := false } := by
      rw [hq3]; unfold endPart
      rw [if_neg (by rw [k.dead, hq0d]; simp), if_pos (by rw [k.endStep, b4]; simp)]
    have hmem : E.stars[i]? = some q3 := by
      show (R.stars.map _)[i]? = some q3
      rw [← hR, g3, show M.stars = stars from rfl]
      simp only [List.getElem?_map, a2, Option.map_some, hR]
      rfl
    have hne := hidle.2.2 q3 (List.mem_of_getElem? hmem)
    have hq3l : q3.level = q0.level := by rw [hq3e]; exact k.level
    refine ⟨q3, hmem, ⟨?_, by rw [hq3e]; rfl, hne.level, hne.nstep, ?_, hRdt, hRt, ?_⟩, ?_⟩
    · rw [hq3e]; show q2.dead = false; rw [k.dead, hq0d]
    · rw [hq3e]; show q2.req = p.req; rw [k.req, adaptStar_req a1]
    · rw [hq3l]; exact b1
    · rw [hq3l, hq3e]; show q2.dtNext = _
      rw [k.dtNext, b3]

end Gandalf.Block

namespace Gandalf.Block

variable {cfg : Cfg} {s : State} {p q : Part}

theorem baseStep_le (hp : p ∈ s.hydro) (hd : p.dead = false) : baseStep cfg s ≤ p.req := by
  refine (min_le_left _ _).trans ((min_le_right _ _).trans ?_)
  exact (foldl_min_le _ _).2 p (List.mem_filter.mpr ⟨hp, by simp [hd]⟩)

theorem baseStep_le_star (hp : p ∈ s.stars) : baseStep cfg s ≤ p.req :=
  (min_le_right _ _).trans ((foldl_min_le _ _).2 p hp)

theorem le_sinkNeighbour {stars : List Part} (l : List Part) (m : ℕ) :
    m ≤ l.foldl (sinkNeighbour cfg stars) m := by
  induction l generalizing m with
  | nil => exact le_rfl
  | cons a l ih =>
    refine le_trans ?_ (ih _)
    unfold sinkNeighbour
    split
    · exact le_rfl
    · split
      · exact le_rfl
      · split_ifs
        · exact le_max_left _ _
        · exact le_rfl

/-- Every particle at a resynchronisation: its step, the step it asked for, the step recorded. -/
theorem resync_trace (hc : cfg.OK) (h1 : ∀ p ∈ s.hydro, 0 < p.req)
    (h2 : ∀ p ∈ s.stars, 0 < p.req ∧ p.dead = false) {E : State}
    (hE : E = endTimestep cfg { resync cfg s with phase := .idle }) :
    E.dt_max = baseStep cfg s * 2 ^ E.level_max ∧
    (∀ (i : ℕ) (p : Part), s.hydro[i]? = some p → p.dead = false →
      ∃ q, E.hydro[i]? = some q ∧ q.dead = false ∧ q.nlast = E.n ∧ q.level ≤ E.level_max ∧
        q.nstep = 2 ^ (E.level_step - q.level) ∧ q.req = p.req ∧
        q.dt = q.nstep * baseStep cfg s ∧ E.dt_max / 2 ^ q.level ≤ p.req ∧
        (cfg.single = false → q.level = min (timestepLevel p.req E.dt_max) E.level_max)) ∧
    (∀ (i : ℕ) (p : Part), s.stars[i]? = some p →
      ∃ q, E.stars[i]? = some q ∧ q.dead = false ∧ q.nlast = E.n ∧ q.level ≤ E.level_max ∧
        q.nstep = 2 ^ (E.level_step - q.level) ∧ q.req = p.req ∧
        q.dt = q.nstep * baseStep cfg s ∧ E.dt_max / 2 ^ q.level ≤ p.req) := by
  have hinv : Inv cfg E := hE ▸ resync_inv hc h1 h2
  have hidle := hinv.idle (by rw [hE]; rfl)
  have hpos := baseStep_pos (s := s) hc.big h1 fun p hp => (h2 p hp).1
  have hlmE : E.level_max = cfg.Nlevels - 1 := by rw [hE]; rfl
  have hlsE : E.level_step = cfg.Nlevels - 1 + cfg.integration_step - 1 := by rw [hE]; rfl
  have hdtE : E.dt_max = baseStep cfg s * 2 ^ E.level_max := by rw [hE]; rfl
  have hle := hinv.clock.le hc
  have hdpos := hinv.pos
  -- a level at least the limited one gives a short enough step
  have key : ∀ (r : ℝ) (l : ℕ), 0 < r → baseStep cfg s ≤ r →
      min (timestepLevel r E.dt_max) E.level_max ≤ l → E.dt_max / 2 ^ l ≤ r := by
    intro r l hr hb hl
    rcases min_le_iff.mp hl with hl | hl
    · exact step_le_req hr hdpos hl
    · refine le_trans ?_ hb
      rw [div_le_iff₀ (by positivity), hdtE]
      exact mul_le_mul_of_nonneg_left (pow_le_pow_right₀ (by norm_num) hl) hpos.le
  refine ⟨hdtE, fun i p hip hd => ?_, fun i p hip => ?_⟩
  · have hpm := List.mem_of_getElem? hip
    set dtMax := baseStep cfg s * 2 ^ (cfg.Nlevels - 1) with hdm
    have hdm' : dtMax = E.dt_max := by rw [hdtE, hlmE]
    set lmh := s.hydro.foldl (sinkNeighbour cfg (resync cfg s).stars)
      (min (timestepLevel (dtMinHydro cfg s.hydro) dtMax) (cfg.Nlevels - 1)) with hlmh
    set level := if cfg.single then lmh else min (timestepLevel p.req dtMax) (cfg.Nlevels - 1) with hlev
    set q1 := resyncHydro cfg (cfg.Nlevels - 1) (cfg.Nlevels - 1 + cfg.integration_step - 1) lmh
      (baseStep cfg s) dtMax p with hq1
    set q3 := endPart (decide (cfg.scheme = .mfv)) 0 s.t q1 with hq3
    have hmem : E.hydro[i]? = some q3 := by
      rw [hE]
      show ((s.hydro.map _).map _)[i]? = some q3
      simp only [List.getElem?_map, hip, Option.map_some]
      rfl
    have e3 : q3.dead = false ∧ q3.nlast = 0 ∧ q3.level = level ∧ q3.req = p.req ∧
        q3.dt = pow2 (cfg.Nlevels - 1 + cfg.integration_step - 1) level * baseStep cfg s := by
      rw [hq3, hq1]
      simp [endPart, resyncHydro, hd, hlev]
    have hne := hidle.2.1 q3 (List.mem_of_getElem? hmem) e3.1
    have hlevel : level ≤ E.level_max := e3.2.2.1 ▸ hne.level
    refine ⟨q3, hmem, e3.1, by rw [e3.2.1, hE]; rfl, hne.level, hne.nstep, e3.2.2.2.1, ?_, ?_, ?_⟩
    · rw [e3.2.2.2.2, hne.nstep, e3.2.2.1, hlsE, pow2_of_le (by omega)]
    · rw [e3.2.2.1]
      by_cases hs : cfg.single = true
      · have hl : level = lmh := by rw [hlev, if_pos hs]
        have hmin : dtMinHydro cfg s.hydro ≤ p.req :=
          (foldl_min_le _ _).2 p (List.mem_filter.mpr ⟨hpm, by simp [hd]⟩)
        have hmpos : 0 < dtMinHydro cfg s.hydro :=
          foldl_min_pos _ _ hc.big fun p hp => h1 p (List.mem_filter.mp hp).1
        refine le_trans (key (dtMinHydro cfg s.hydro) level hmpos
          ((min_le_left _ _).trans (min_le_right _ _)) ?_) hmin
        rw [hl, ← hdm', hlmE]
        exact le_sinkNeighbour _ _
      · apply key p.req level (h1 p hpm) (baseStep_le hpm hd)
        rw [hlev, if_neg hs, hdm', hlmE]
    · intro hs
      rw [e3.2.2.1, hlev, if_neg (by simp [hs]), hdm', hlmE]
  · have hpm := List.mem_of_getElem? hip
    set dtMax := baseStep cfg s * 2 ^ (cfg.Nlevels - 1) with hdm
    have hdm' : dtMax = E.dt_max := by rw [hdtE, hlmE]
    set lmh := min (timestepLevel (dtMinHydro cfg s.hydro) dtMax) (cfg.Nlevels - 1) with hlmh
    set level := max (min (timestepLevel p.req dtMax) (cfg.Nlevels - 1)) lmh with hlev
    set q1 := resyncStar (cfg.Nlevels - 1) (cfg.Nlevels - 1 + cfg.integration_step - 1) lmh s.t
      (baseStep cfg s) dtMax p with hq1
    set q3 := endPart false 0 s.t q1 with hq3
    have hmem : E.stars[i]? = some q3 := by
      rw [hE]
      show ((s.stars.map _).map _)[i]? = some q3
      simp only [List.getElem?_map, hip, Option.map_some]
      rfl
    have e3 : q3.dead = false ∧ q3.nlast = 0 ∧ q3.level = level ∧ q3.req = p.req ∧
        q3.dt = pow2 (cfg.Nlevels - 1 + cfg.integration_step - 1) level * baseStep cfg s := by
      rw [hq3, hq1]
      simp [endPart, resyncStar, (h2 p hpm).2, hlev]
    have hne := hidle.2.2 q3 (List.mem_of_getElem? hmem)
    have hlevel : level ≤ E.level_max := e3.2.2.1 ▸ hne.level
    refine ⟨q3, hmem, e3.1, by rw [e3.2.1, hE]; rfl, hne.level, hne.nstep, e3.2.2.2.1, ?_, ?_⟩
    · rw [e3.2.2.2.2, hne.nstep, e3.2.2.1, hlsE, pow2_of_le (by omega)]
    · rw [e3.2.2.1]
      apply key p.req level (h2 p hpm).1 (baseStep_le_star hpm)
      rw [hlev, hdm', hlmE]
      exact le_max_left _ _

end Gandalf.Block
