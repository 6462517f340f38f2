import Verif.Prop.C17

/-!
# C18 Assigned and requested timesteps

The upper bound holds at every resynchronisation and at every later start of a step. "More than half"
fails in the code in two ways (`C18_exactly_half`, `C18_less_than_half`); what holds is
`C18_at_least_half_partial`. With global timesteps the bound itself fails for the drift-kick-drift
scheme (`C18_global`).
-/

set_option autoImplicit false

namespace Gandalf

open Block

/-- `∃ q` at place `i` of the new list that begins a step now, of length at most what was requested. -/
def ShortEnough (s' : State) (l : List Part) (i : ℕ) (req : ℝ) : Prop :=
  ∃ q, l[i]? = some q ∧ q.nlast = s'.n ∧ q.nstep * s'.timestep ≤ req

/-- **C18.** At a resynchronisation (the first one included) every live hydro particle and every star
begins a step at most as long as it requested. -/
theorem C18_resync {cfg : Cfg} (hc : cfg.OK) {s s' : State} (hn : s.n = s.nresync)
    (h1 : ∀ p ∈ s.hydro, 0 < p.req) (h2 : ∀ p ∈ s.stars, 0 < p.req ∧ p.dead = false)
    (ha : apply cfg s .block = some s') :
    (∀ (i : ℕ) (p : Part), s.hydro[i]? = some p → p.dead = false → ShortEnough s' s'.hydro i p.req) ∧
    ∀ (i : ℕ) (p : Part), s.stars[i]? = some p → ShortEnough s' s'.stars i p.req := by
  rw [apply_block, computeBlock, if_pos hn] at ha
  injection ha with ha
  have hi : Block.Inv cfg s' := ha ▸ resync_inv hc h1 h2
  have hle := hi.clock.le hc
  obtain ⟨-, a1, a2⟩ := resync_trace hc h1 h2 ha.symm
  refine ⟨fun i p hip hd => ?_, fun i p hip => ?_⟩
  · obtain ⟨q, b1, -, b3, b4, b5, -, -, b8, -⟩ := a1 i p hip hd
    refine ⟨q, b1, b3, ?_⟩
    rw [b5, hi.clock.tick, step_length (by omega)]; exact b8
  · obtain ⟨q, b1, -, b3, b4, b5, -, -, b8⟩ := a2 i p hip
    refine ⟨q, b1, b3, ?_⟩
    rw [b5, hi.clock.tick, step_length (by omega)]; exact b8

/-- **C18.** The same for every later call of `ComputeBlockTimesteps`: a particle or star whose step
ends now begins one at most as long as it requests. -/
theorem C18_every_step {cfg : Cfg} (hc : cfg.OK) {s s' : State} (h : Reach cfg s)
    (ho : Op.Allowed cfg s .block) (ha : apply cfg s .block = some s') :
    (∀ (i : ℕ) (p : Part), s.hydro[i]? = some p → p.dead = false → s.n = p.nlast + p.nstep →
      ShortEnough s' s'.hydro i p.req) ∧
    ∀ (i : ℕ) (p : Part), s.stars[i]? = some p → s.n = p.nlast + p.nstep →
      ShortEnough s' s'.stars i p.req := by
  have hi := reach_inv hc h
  have hph : s.phase ≠ .idle := by
    rcases ho with ho | ⟨ho, -⟩ <;> rw [ho] <;> decide
  have hchk : cfg.limiter = true → s.phase = .checked := by
    intro hl
    rcases ho with ho | ⟨-, ho⟩
    · exact ho
    · rw [hl] at ho; cases ho
  by_cases hn : s.n = s.nresync
  · obtain ⟨a1, a2⟩ := C18_resync hc hn hi.req.1 (fun p hp => ⟨hi.req.2 p hp, hi.live p hp⟩) ha
    exact ⟨fun i p hip hd _ => a1 i p hip hd, fun i p hip _ => a2 i p hip⟩
  · obtain ⟨s2, e1, e2⟩ := step_inv hc hi .block ho
    rw [ha] at e1; injection e1 with e1; subst e1
    have hle := e2.clock.le hc
    rw [apply_block, computeBlock, if_neg hn] at ha
    obtain ⟨R, hR, hs'⟩ := Option.map_eq_some_iff.mp ha
    obtain ⟨-, a1, a2⟩ := adapt_trace hc hi hph hn hchk hR
    rw [hs'] at a1 a2
    have key : ∀ {p q : Part}, 0 < p.req → NewStep s s' p q → q.nstep * s'.timestep ≤ p.req := by
      intro p q hp hq
      have := hq.level
      rw [hq.nstep, e2.clock.tick, step_length (by omega), hq.dtMax]
      exact step_le_req hp hi.pos hq.enough
    refine ⟨fun i p hip hd hnow => ?_, fun i p hip hnow => ?_⟩
    · obtain ⟨q, b1, b2, -⟩ := a1 i p hip hd hnow
      exact ⟨q, b1, b2.nlast, key (hi.req.1 p (List.mem_of_getElem? hip)) b2⟩
    · obtain ⟨q, b1, b2, -⟩ := a2 i p hip hnow
      exact ⟨q, b1, b2.nlast, key (hi.req.2 p (List.mem_of_getElem? hip)) b2⟩

/-- **C18, second half, in part.** At a resynchronisation a hydro particle that asked for at most
`dt_max` gets at least half of what it asked for. Missing from the claim: "more than half", and
particles that asked for more than `dt_max`; both fail, see below. -/
theorem C18_at_least_half_partial {cfg : Cfg} (hc : cfg.OK) (hs : cfg.single = false) {s s' : State}
    (hn : s.n = s.nresync) (h1 : ∀ p ∈ s.hydro, 0 < p.req)
    (h2 : ∀ p ∈ s.stars, 0 < p.req ∧ p.dead = false) (ha : apply cfg s .block = some s')
    {i : ℕ} {p : Part} (hip : s.hydro[i]? = some p) (hd : p.dead = false) (hle : p.req ≤ s'.dt_max) :
    ∃ q, s'.hydro[i]? = some q ∧ q.nlast = s'.n ∧ p.req ≤ 2 * (q.nstep * s'.timestep) := by
  rw [apply_block, computeBlock, if_pos hn] at ha
  injection ha with ha
  have hi : Block.Inv cfg s' := ha ▸ resync_inv hc h1 h2
  have hls := hi.clock.le hc
  obtain ⟨-, a1, -⟩ := resync_trace hc h1 h2 ha.symm
  obtain ⟨q, b1, -, b3, b4, b5, -, -, -, b9⟩ := a1 i p hip hd
  refine ⟨q, b1, b3, ?_⟩
  have hp := h1 p (List.mem_of_getElem? hip)
  rw [b5, hi.clock.tick, step_length (by omega)]
  refine (half_le_step hp hle).trans (mul_le_mul_of_nonneg_left ?_ (by norm_num))
  have : q.level ≤ timestepLevel p.req s'.dt_max := by rw [b9 hs]; exact min_le_left _ _
  exact div_le_div_of_nonneg_left hi.pos.le (by positivity) (pow_le_pow_right₀ (by norm_num) this)

/-- The step of a particle on a level. -/
theorem C18_exactly_half : ∃ dt dtMax : ℝ, 0 < dt ∧ dt < dtMax ∧
    2 * (dtMax / 2 ^ timestepLevel dt dtMax) = dt :=
  ⟨1, 4, by norm_num, by norm_num, by rw [c17_level_a]; norm_num⟩

/-! ### less than half -/

noncomputable def c18start : State where
  phase := .checked
  n := 0
  nresync := 0
  level_max := 0
  level_step := 0
  t := 0
  timestep := 0
  dt_max := 0
  hydro := [c17part 0 0 0 0 0 1, c17part 0 0 0 0 0 7]
  stars := []

theorem c18_level : timestepLevel 7 4 = 1 := by
  rw [timestepLevel_small (by norm_num) (by norm_num), if_neg (by norm_num)]

theorem c18_run : apply (c17cfg .kdk) c18start .block =
    some (c17state .idle 0 0 [c17part 2 2 0 2 2 1, c17part 1 1 0 4 4 7]) := by
  have hb : baseStep (c17cfg .kdk) c18start = 1 := by
    simp [baseStep, dtMinHydro, dtMinNbody, c18start, c17part, c17cfg]
  have hr : resync (c17cfg .kdk) c18start = c17state .checked 0 0
      [{ c17part 2 2 0 2 0 1 with
          endStep := true
          dtNext := 2 },
        { c17part 1 1 0 4 0 7 with
          endStep := true
          dtNext := 4 }] := by
    unfold resync
    rw [hb]
    simp only [c17state, State.mk.injEq, c17cfg]
    norm_num [c18start, resyncHydro, c17part, c17_level_a, c18_level, pow2]
  rw [apply_block, computeBlock, if_pos (show c18start.n = c18start.nresync from rfl), hr]
  simp [endTimestep, c17state, endPart, c17part]

/-- **C18 fails.** A particle that asks for more than `dt_max` and less than twice as much is put on level
one, not zero: the logarithm between -1 and 0 is cut towards zero. Its step, 2 = 4 × 1/2, is less than a
third of the 7 it asked for, while steps twice as long exist. -/
theorem C18_less_than_half : ∃ s s', apply (c17cfg .kdk) s .block = some s' ∧ Start s ∧
    ∃ p q : Part, s.hydro[1]? = some p ∧ s'.hydro[1]? = some q ∧ 0 < q.level ∧ q.level < s'.level_max ∧
      3 * (q.nstep * s'.timestep) < p.req := by
  refine ⟨c18start, _, c18_run, ⟨rfl, rfl, rfl, ?_, ?_⟩, c17part 0 0 0 0 0 7, c17part 1 1 0 4 4 7, rfl, rfl,
    by decide, by decide, ?_⟩
  · intro p hp
    simp [c18start] at hp
    rcases hp with rfl | rfl <;> simp [c17part]
  · intro p hp; simp [c18start] at hp
  · norm_num [c17part, c17state]

/-- The premises of `C18_resync` and `C18_at_least_half_partial`, with steps that differ. -/
example : ∃ s' p, apply (c17cfg .kdk) c18start .block = some s' ∧ c18start.n = c18start.nresync ∧
    c18start.hydro[0]? = some p ∧ p.req ≤ s'.dt_max :=
  ⟨_, c17part 0 0 0 0 0 1, c18_run, rfl, rfl, by norm_num [c17part, c17state]⟩

/-- The premises of `C18_every_step`: a reachable state with a particle at the end of its step. -/
example : ∃ s, Reach (c17cfg .kdk) s ∧ Op.Allowed (c17cfg .kdk) s .block ∧ s.n ≠ s.nresync ∧
    ∃ p : Part, s.hydro[0]? = some p ∧ p.dead = false ∧ s.n = p.nlast + p.nstep := by
  have h6 : Reach (c17cfg .kdk)
      (c17state .checked 2 1 [c17part 2 2 0 2 2 (3 / 2), c17part 0 2 0 8 8 16]) :=
    .next .check (c17_run5 .kdk) ⟨by simp [c17state], rfl⟩
      (by simp [apply, checkPart, c17cfg, c17state, c17part, pow2])
  exact ⟨_, h6, Or.inl rfl, by simp [c17state], c17part 2 2 0 2 2 (3 / 2), rfl, rfl, rfl⟩

/-! ### global timesteps -/

/-- **C18 with global timesteps.** The common step is `2^(integration_step-1)` ticks of the smallest
request: at most every request if `integration_step` is one. -/
theorem C18_global {cfg : Cfg} {s : State} (hn : s.n = s.nresync) (h1 : cfg.integration_step = 1) :
    ∀ p ∈ (computeGlobal cfg s).hydro ++ (computeGlobal cfg s).stars,
      p.nstep * (computeGlobal cfg s).timestep ≤ p.req := by
  have hreq : ∀ p ∈ s.hydro ++ s.stars,
      min ((s.hydro ++ s.stars).foldl (fun m p => min m p.req) cfg.big) cfg.big ≤ p.req := fun p hp =>
    (min_le_left _ _).trans ((foldl_min_le _ _).2 p hp)
  simp only [computeGlobal, if_pos hn, h1]
  intro q hq
  rw [← List.map_append] at hq
  obtain ⟨p, hp, rfl⟩ := List.mem_map.mp hq
  simpa [globalPart, pow2] using hreq p hp

/-- **C18 fails for drift-kick-drift with global timesteps**: the step is twice the smallest request. -/
theorem C18_global_dkd_fails : ∃ (cfg : Cfg) (s : State), cfg.integration_step = 2 ∧ s.n = s.nresync ∧
    ∃ p ∈ (computeGlobal cfg s).hydro, p.nstep * (computeGlobal cfg s).timestep = 2 * p.req ∧ 0 < p.req := by
  refine ⟨c17cfg .dkd, { c17start with hydro := [c17part 0 0 0 0 0 1] }, rfl, rfl, ?_⟩
  simp [computeGlobal, c17start, c17cfg, globalPart, c17part, pow2]

end Gandalf
