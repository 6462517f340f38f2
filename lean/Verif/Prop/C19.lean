import Verif.Prop.C17

/-!
# C19 The timestep limiter

`C19_limiter` covers the kick-drift-kick and meshless schemes in every reachable state.
`C19_no_longer` holds for all schemes; the alignment claim fails for drift-kick-drift:
`C19_dkd_unaligned`.
-/

set_option autoImplicit false

namespace Gandalf

open Block

theorem checkPart_cases {cfg : Cfg} {s : State} {p q : Part} (h : checkPart cfg s p = some q) :
    q = p ∨ (q.nlast = p.nlast ∧ q.level = p.levelneib - cfg.level_diff_max ∧
      p.level + cfg.level_diff_max < p.levelneib ∧
      (0 < s.n - p.nlast → q.nstep = s.n - p.nlast)) := by
  simp only [checkPart] at h
  cases hs : cfg.scheme <;> simp only [hs] at h <;> split_ifs at h <;> injection h with h <;> subst h <;>
    first
    | exact Or.inl rfl
    | (refine Or.inr ⟨rfl, rfl, by assumption, fun h0 => ?_⟩; first | rfl | omega)

/-- **C19.** `CheckTimesteps` in a reachable state: no step gets longer, no step end lies in the past,
and if anything about the particle changes then its step ends now, at a time that is a multiple of the
new, shorter step. -/
theorem C19_limiter {cfg : Cfg} (hc : cfg.OK) (hl : cfg.limiter = true) {s : State} (h : Reach cfg s)
    (hp : s.phase ≠ .idle) {p : Part} (hm : p ∈ s.hydro) (hd : p.dead = false) :
    ∃ q, checkPart cfg s p = some q ∧ q.nlast = p.nlast ∧ q.nstep ≤ p.nstep ∧ s.n ≤ q.nlast + q.nstep ∧
      (q ≠ p → q.nlast + q.nstep = s.n ∧ p.level < q.level ∧ q.level ≤ s.level_max ∧
        q.level = p.levelneib - cfg.level_diff_max ∧ q.nstep < p.nstep ∧
        2 ^ (s.level_step - q.level) ∣ s.n ∧ 2 ^ (s.level_step - q.level) ∣ q.nstep) := by
  have hi := reach_inv hc h
  have hls := hi.clock.le hc
  have hin := (hi.work hp).2.2.1 p hm hd
  obtain ⟨q, h1, h2, h3, h4, h5⟩ := checkPart_spec hc hl hls hd hin (hi.neib hl p hm hd)
  have hcs := checkPart_cases h1
  rcases h5 with ⟨-, rfl, -⟩ | ⟨hr, he, hlt⟩
  · refine ⟨q, h1, rfl, le_rfl, ?_, fun hne => absurd rfl hne⟩
    rcases hin with hin | hin
    · exact hin.now.le
    · exact hin.notOver.le
  · have hnow := he.now
    have hno := hr.notOver
    rcases hcs with rfl | ⟨hnl, hlv, -, -⟩
    · omega
    exact ⟨q, h1, hnl, by omega, by omega, fun _ => ⟨by omega, hlt, he.level, hlv, by omega, he.alignedNow,
      he.alignedStep⟩⟩

/-- **C19.** The limiter acts: after it, a running particle either has all its neighbours within the
allowed difference of levels or is not at a possible end of the shorter step. -/
theorem C19_limiter_acts {cfg : Cfg} (hc : cfg.OK) (hl : cfg.limiter = true) {s : State} (h : Reach cfg s)
    (hp : s.phase = .checked) {p : Part} (hm : p ∈ s.hydro) (hd : p.dead = false)
    (hrun : s.n ≠ p.nlast + p.nstep) :
    p.levelneib ≤ p.level + cfg.level_diff_max ∨
      ¬ 2 ^ (s.level_step - (p.levelneib - cfg.level_diff_max)) ∣ s.n := by
  have hi := reach_inv hc h
  have hls := hi.clock.le hc
  have hw := hi.work (by rw [hp]; decide)
  have hr : Running s p := by
    rcases hw.2.2.1 p hm hd with hr | hr
    · exact absurd hr.now hrun
    · exact hr
  have hJ := hi.neib hl p hm hd
  rcases hi.checked hl hp p hm hd hr with h1 | h1
  · exact Or.inl h1
  · by_cases hle : p.levelneib ≤ p.level + cfg.level_diff_max
    · exact Or.inl hle
    · refine Or.inr fun hdv => h1 ?_
      rw [pow2_of_le (by omega)]
      exact Nat.dvd_sub hdv ((pow_dvd_pow 2 (by omega)).trans (hr.nstep ▸ hr.aligned))

/-- **C19.** The next step of a particle is short enough for its neighbours: when its step ends its new
level is at least that of the neighbours less the allowed difference. -/
theorem C19_next_step {cfg : Cfg} (hc : cfg.OK) {s s' : State} (h : Reach cfg s)
    (ho : Op.Allowed cfg s .block) (ha : apply cfg s .block = some s') (hn : s.n ≠ s.nresync)
    {i : ℕ} {p : Part} (hip : s.hydro[i]? = some p) (hd : p.dead = false) (hnow : s.n = p.nlast + p.nstep) :
    ∃ q, s'.hydro[i]? = some q ∧ q.nlast = s'.n ∧ p.levelneib ≤ q.level + cfg.level_diff_max := by
  have hi := reach_inv hc h
  have hph : s.phase ≠ .idle := by
    rcases ho with ho | ⟨ho, -⟩ <;> rw [ho] <;> decide
  have hchk : cfg.limiter = true → s.phase = .checked := by
    intro hl
    rcases ho with ho | ⟨-, ho⟩
    · exact ho
    · rw [hl] at ho; cases ho
  rw [apply_block, computeBlock, if_neg hn] at ha
  obtain ⟨R, hR, rfl⟩ := Option.map_eq_some_iff.mp ha
  obtain ⟨-, h1, -⟩ := adapt_trace hc hi hph hn hchk hR
  obtain ⟨q, a1, a2, a3, -⟩ := h1 i p hip hd hnow
  exact ⟨q, a1, a2.nlast, by omega⟩

/-- **C19, all schemes.** For a particle inside its step the limiter never lengthens the step and never
moves its end into the past. -/
theorem C19_no_longer {cfg : Cfg} {s : State} {p q : Part} (h1 : p.nlast < s.n)
    (h2 : s.n ≤ p.nlast + p.nstep) (h : checkPart cfg s p = some q) :
    q.nlast = p.nlast ∧ q.nstep ≤ p.nstep ∧ s.n ≤ q.nlast + q.nstep ∧ p.level ≤ q.level := by
  rcases checkPart_cases h with rfl | ⟨a, b, c, d⟩
  · exact ⟨rfl, le_rfl, h2, le_rfl⟩
  · have := d (by omega)
    exact ⟨a, by omega, by omega, by omega⟩

/-- A case in which the limiter cuts a step. -/
example : ∃ q, checkPart (c17cfg .kdk)
    (c17state .dirty 4 2 [c17part 2 2 2 2 1 (3 / 2), c17part 0 2 0 8 8 16]) (c17part 0 2 0 8 8 16) = some q ∧
    q ≠ c17part 0 2 0 8 8 16 ∧ q.nstep = 4 ∧ q.level = 1 := by
  refine ⟨c17part 1 2 0 4 8 16, ?_, ?_, rfl, rfl⟩
  · simp [checkPart, c17cfg, c17state, c17part, pow2]
  · simp [c17part]

/-- The state of `C19_limiter` is reachable with a particle that the limiter must watch. -/
example : ∃ s, Reach (c17cfg .kdk) s ∧ s.phase ≠ .idle ∧ ∃ p ∈ s.hydro, p.dead = false ∧
    p.level + (c17cfg .kdk).level_diff_max < p.levelneib :=
  ⟨_, c17_run5 .kdk, by simp [c17state], c17part 0 2 0 8 8 16, by simp [c17state], rfl, by decide⟩

/-- **C19 fails for drift-kick-drift.** The limiter ends a step at a time that is not a multiple of the
new step. -/
theorem C19_dkd_unaligned : ∃ s, Reach (c17cfg .dkd) s ∧ ∃ p ∈ s.hydro, ∃ q,
    checkPart (c17cfg .dkd) s p = some q ∧ q ≠ p ∧ q.nlast + q.nstep = s.n ∧
      ¬ 2 ^ (s.level_step - q.level) ∣ s.n := by
  refine ⟨_, c17_run5 .dkd, c17part 0 2 0 8 8 16, by simp [c17state], c17part 1 2 0 2 8 16, ?_, ?_, ?_, ?_⟩
  · simp [checkPart, c17cfg, c17state, c17part, pow2]
  · simp [c17part]
  · simp [c17state, c17part]
  · simp [c17state, c17part]

end Gandalf
