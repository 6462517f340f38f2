import Verif.Proof.BlockInv

set_option autoImplicit false
set_option linter.unusedSectionVars false

namespace Gandalf.Block

variable {cfg : Cfg} {s : State} {p : Part}

/-! ### the same particle in states that differ elsewhere -/

/-- The parts of a state that the predicates on particles look at. -/
structure SameClock (s s' : State) : Prop where
  n : s'.n = s.n
  nresync : s'.nresync = s.nresync
  level_max : s'.level_max = s.level_max
  level_step : s'.level_step = s.level_step
  t : s'.t = s.t
  timestep : s'.timestep = s.timestep
  dt_max : s'.dt_max = s.dt_max

variable {s' : State}

theorem Nested.move (e : SameClock s s') (h : Nested s p) : Nested s' p :=
  ⟨e.level_max ▸ h.level, e.level_step ▸ h.nstep, h.aligned, e.n ▸ h.begun, e.n ▸ h.notOver,
    by rw [e.t, e.n, e.timestep]; exact h.clock, h.noEnd⟩

theorem Ending.move (e : SameClock s s') (h : Ending s p) : Ending s' p :=
  ⟨e.level_max ▸ h.level, e.n ▸ h.before, e.n ▸ h.now, by rw [e.level_step, e.n]; exact h.alignedNow,
    e.level_step ▸ h.alignedStep, h.noEnd⟩

theorem Running.move (e : SameClock s s') (h : Running s p) : Running s' p :=
  ⟨e.level_max ▸ h.level, e.n ▸ h.before, e.level_step ▸ h.nstep, h.aligned, e.n ▸ h.notOver,
    by rw [e.t, e.n, e.timestep]; exact h.clock, h.noEnd⟩

theorem InPass.move (e : SameClock s s') (h : InPass s p) : InPass s' p := by
  rcases h with h | h
  · exact Or.inl (h.move e)
  · exact Or.inr (h.move e)

theorem Mid.move (e : SameClock s s') (h : Mid s p) : Mid s' p := by
  obtain ⟨hd, h | h⟩ := h
  · exact ⟨hd, Or.inl ⟨e.n ▸ h.nlast, by rw [e.level_step, e.n]; exact h.aligned, h.ends⟩⟩
  · exact ⟨hd, Or.inr (h.move e)⟩

theorem SameClock.symm (e : SameClock s s') : SameClock s' s :=
  ⟨e.n.symm, e.nresync.symm, e.level_max.symm, e.level_step.symm, e.t.symm, e.timestep.symm, e.dt_max.symm⟩

theorem Settled.move (e : SameClock s s') (h : Settled cfg s p) : Settled cfg s' p := by
  unfold Settled at *; rw [e.level_step, e.n]; exact h

theorem Clockwork.move (e : SameClock s s') (h : Clockwork cfg s) : Clockwork cfg s' :=
  ⟨by rw [e.level_step, e.level_max]; exact h.step, by rw [e.nresync, e.level_step]; exact h.resync,
    by rw [e.timestep, e.dt_max, e.level_step]; exact h.tick⟩

/-- The same step seen with other requests and neighbour levels. -/
structure SameStep (p q : Part) : Prop where
  level : q.level = p.level
  nlast : q.nlast = p.nlast
  nstep : q.nstep = p.nstep
  endStep : q.endStep = p.endStep
  tlast : q.tlast = p.tlast

variable {q : Part}

theorem Nested.same (e : SameStep p q) (h : Nested s p) : Nested s q :=
  ⟨e.level ▸ h.level, by rw [e.nstep, e.level]; exact h.nstep, by rw [e.nstep, e.nlast]; exact h.aligned,
    e.nlast ▸ h.begun, by rw [e.nstep, e.nlast]; exact h.notOver,
    by rw [e.tlast, e.nlast]; exact h.clock, e.endStep ▸ h.noEnd⟩

theorem Ending.same (e : SameStep p q) (h : Ending s p) : Ending s q :=
  ⟨e.level ▸ h.level, e.nlast ▸ h.before, by rw [e.nstep, e.nlast]; exact h.now,
    e.level ▸ h.alignedNow, by rw [e.nstep, e.level]; exact h.alignedStep, e.endStep ▸ h.noEnd⟩

theorem Running.same (e : SameStep p q) (h : Running s p) : Running s q :=
  ⟨e.level ▸ h.level, e.nlast ▸ h.before, by rw [e.nstep, e.level]; exact h.nstep,
    by rw [e.nstep, e.nlast]; exact h.aligned, by rw [e.nstep, e.nlast]; exact h.notOver,
    by rw [e.tlast, e.nlast]; exact h.clock, e.endStep ▸ h.noEnd⟩

theorem InPass.same (e : SameStep p q) (h : InPass s p) : InPass s q := by
  rcases h with h | h
  · exact Or.inl (h.same e)
  · exact Or.inr (h.same e)

/-! ### the end of a pass -/

theorem endPart_fields (b : Bool) (n : ℕ) (t : ℝ) (p : Part) :
    (endPart b n t p).dead = p.dead ∧ (endPart b n t p).levelneib = p.levelneib ∧
      (endPart b n t p).req = p.req ∧ (endPart b n t p).level = p.level ∧
      (endPart b n t p).nstep = p.nstep := by
  unfold endPart; split_ifs <;> simp

theorem inv_of_new {R : State} (hclk : Clockwork cfg R) (hn : R.n < R.nresync) (hpos : 0 < R.dt_max)
    (hh : ∀ q ∈ R.hydro, q.dead = false → New R q) (hst : ∀ q ∈ R.stars, New R q ∧ q.dead = false)
    (hneib : cfg.limiter = true → ∀ q ∈ R.hydro, q.dead = false →
      q.levelneib ≤ R.level_max + cfg.level_diff_max)
    (hr : (∀ q ∈ R.hydro, 0 < q.req) ∧ ∀ q ∈ R.stars, 0 < q.req) :
    Inv cfg (endTimestep cfg { R with phase := .idle }) := by
  have e : SameClock R (endTimestep cfg { R with phase := .idle }) := ⟨rfl, rfl, rfl, rfl, rfl, rfl, rfl⟩
  have mh : ∀ p ∈ (endTimestep cfg { R with phase := .idle }).hydro,
      ∃ q ∈ R.hydro, p = endPart (decide (cfg.scheme = .mfv)) R.n R.t q := by
    intro p hp
    obtain ⟨q, hq, rfl⟩ := List.mem_map.mp (show p ∈ R.hydro.map _ from hp)
    exact ⟨q, hq, rfl⟩
  have ms : ∀ p ∈ (endTimestep cfg { R with phase := .idle }).stars,
      ∃ q ∈ R.stars, p = endPart false R.n R.t q := by
    intro p hp
    obtain ⟨q, hq, rfl⟩ := List.mem_map.mp (show p ∈ R.stars.map _ from hp)
    exact ⟨q, hq, rfl⟩
  refine ⟨hclk.move e, fun _ => ⟨hn, ?_, ?_⟩, fun h => absurd rfl h, ?_, ?_, ?_, ⟨?_, ?_⟩, hpos⟩
  · intro p hp hd
    obtain ⟨q, hq, rfl⟩ := mh p hp
    rw [(endPart_fields _ _ _ _).1] at hd
    exact (endPart_nested (hh q hq hd) hd).move e
  · intro p hp
    obtain ⟨q, hq, rfl⟩ := ms p hp
    exact (endPart_nested (hst q hq).1 (hst q hq).2).move e
  · intro hl p hp hd
    obtain ⟨q, hq, rfl⟩ := mh p hp
    rw [(endPart_fields _ _ _ _).1] at hd
    rw [(endPart_fields _ _ _ _).2.1]
    exact hneib hl q hq hd
  · intro _ hph
    exact absurd (show Phase.idle = Phase.checked from hph) (by decide)
  · intro p hp
    obtain ⟨q, hq, rfl⟩ := ms p hp
    rw [(endPart_fields _ _ _ _).1]
    exact (hst q hq).2
  · intro p hp
    obtain ⟨q, hq, rfl⟩ := mh p hp
    rw [(endPart_fields _ _ _ _).2.2.1]
    exact hr.1 q hq
  · intro p hp
    obtain ⟨q, hq, rfl⟩ := ms p hp
    rw [(endPart_fields _ _ _ _).2.2.1]
    exact hr.2 q hq

/-- A resynchronisation leads to a good state, whatever the particles were. -/
theorem resync_inv (hc : cfg.OK) (h1 : ∀ p ∈ s.hydro, 0 < p.req)
    (h2 : ∀ p ∈ s.stars, 0 < p.req ∧ p.dead = false) :
    Inv cfg (endTimestep cfg { resync cfg s with phase := .idle }) := by
  have hpos := baseStep_pos (s := s) hc.big h1 fun p hp => (h2 p hp).1
  obtain ⟨a1, a2, _, a4, a5, a6⟩ := resync_new hc hpos fun p hp => (h2 p hp).2
  refine inv_of_new a1 ?_ a4 (fun q hq hd => (a5 q hq hd).1) a6 (fun _ q hq hd => ?_) ⟨?_, ?_⟩
  · rw [a2, a1.resync]; exact Nat.two_pow_pos _
  · have := (a5 q hq hd).2; omega
  · intro q hq
    obtain ⟨p, hp, rfl⟩ := List.mem_map.mp (show q ∈ s.hydro.map _ from hq)
    unfold resyncHydro
    split_ifs
    · exact h1 p hp
    · exact h1 p hp
    · exact h1 p hp
  · intro q hq
    obtain ⟨p, hp, rfl⟩ := List.mem_map.mp (show q ∈ s.stars.map _ from hq)
    exact (h2 p hp).1

theorem single_fields (n lmh : ℕ) (p : Part) : (single cfg n lmh p).dead = p.dead ∧
    (single cfg n lmh p).levelneib = p.levelneib ∧ (single cfg n lmh p).req = p.req ∧
    (single cfg n lmh p).nlast = p.nlast := by
  unfold single; split_ifs <;> simp

theorem adaptHydro_req (h : adaptHydro cfg s p = some q) : q.req = p.req := by
  unfold adaptHydro at h
  split_ifs at h
  · injection h with h; rw [← h]
  · injection h with h; rw [← h]
  · obtain ⟨l, -, rfl⟩ := Option.map_eq_some_iff.mp h; rfl
  · injection h with h; rw [← h]

theorem adaptStar_req {lmh : ℕ} (h : adaptStar s lmh p = some q) : q.req = p.req := by
  unfold adaptStar at h
  split_ifs at h
  · obtain ⟨l, -, rfl⟩ := Option.map_eq_some_iff.mp h; rfl
  · injection h with h; rw [← h]

theorem adapt_inv (hc : cfg.OK) (h : Inv cfg s) (hph : s.phase ≠ .idle) (hn : s.n ≠ s.nresync)
    (hchk : cfg.limiter = true → s.phase = .checked) :
    ∃ R, adapt cfg s = some R ∧ Inv cfg (endTimestep cfg { R with phase := .idle }) := by
  obtain ⟨w1, w2, w3, w4⟩ := h.work hph
  have hls := h.clock.le hc
  obtain ⟨hydro, hhy⟩ := mapM_isSome (f := adaptHydro cfg s) (l := s.hydro) fun p hp => by
    cases hd : p.dead with
    | true => exact ⟨p, adaptHydro_dead hd⟩
    | false =>
      obtain ⟨q, hq, -⟩ := adaptHydro_spec (cfg := cfg) hls hd (w3 p hp hd)
      exact ⟨q, hq⟩
  obtain ⟨stars, hstars⟩ := mapM_isSome (f := adaptStar s (maxLevel (live hydro))) (l := s.stars)
    fun p hp => by
      obtain ⟨q, hq, -⟩ := adaptStar_spec (lmh := maxLevel (live hydro)) hls (h.live p hp) (w4 p hp)
      exact ⟨q, hq⟩
  set lmh := maxLevel (live hydro) with hlmh
  set lm := max lmh (maxLevel stars) with hlm
  set M : State := { s with
    hydro := hydro.map (single cfg s.n lmh)
    stars := stars } with hM
  have e : SameClock s M := ⟨rfl, rfl, rfl, rfl, rfl, rfl, rfl⟩
  have hR : adapt cfg s = some (rescale cfg M lm) := by
    simp only [adapt, hhy, Option.bind_some, ← hlmh, hstars, Option.map_some, ← hlm, ← hM]
  have hhyd : ∀ q ∈ hydro, q.dead = false → ∃ p ∈ s.hydro, p.dead = false ∧
      ((Ending s p ∧ Started s q ∧ q.levelneib ≤ q.level) ∨ (Running s p ∧ q = p)) := by
    intro q hq hd
    obtain ⟨p, hp, hpq⟩ := mapM_some_mem hhy q hq
    cases hpd : p.dead with
    | true => rw [adaptHydro_dead hpd] at hpq; injection hpq with hpq; rw [← hpq, hpd] at hd; cases hd
    | false =>
      obtain ⟨q', h1, -, h3⟩ := adaptHydro_spec (cfg := cfg) hls hpd (w3 p hp hpd)
      rw [h1] at hpq; injection hpq with hpq; subst hpq
      exact ⟨p, hp, hpd, h3⟩
  have hlev : ∀ q ∈ hydro, q.dead = false → q.level ≤ lmh := fun q hq hd =>
    le_maxLevel (mem_live.mpr ⟨hq, hd⟩)
  have midh : ∀ q ∈ hydro, q.dead = false → Mid s q := by
    intro q hq hd
    obtain ⟨p, -, -, h3⟩ := hhyd q hq hd
    rcases h3 with ⟨-, h3, -⟩ | ⟨h3, rfl⟩
    · exact ⟨hd, Or.inl h3⟩
    · exact ⟨hd, Or.inr h3⟩
  have mids : ∀ q ∈ stars, Mid s q := by
    intro q hq
    obtain ⟨p, hp, hpq⟩ := mapM_some_mem hstars q hq
    obtain ⟨q', h1, h2, h3⟩ := adaptStar_spec (lmh := lmh) hls (h.live p hp) (w4 p hp)
    rw [h1] at hpq; injection hpq with hpq; subst hpq
    rcases h3 with ⟨-, h3⟩ | ⟨h3, rfl⟩
    · exact ⟨h2, Or.inl h3⟩
    · exact ⟨h2, Or.inr h3⟩
  obtain ⟨r1, r2, r3, r4, r5, r6, r7, r8⟩ := rescale_new (cfg := cfg) (s := M) (lm := lm) hc
    (h.clock.move e) (show s.n < s.nresync by omega)
    (fun p hp hd => by
      obtain ⟨q, hq, rfl⟩ := List.mem_map.mp (show p ∈ hydro.map _ from hp)
      rw [(single_fields _ _ _).1] at hd
      exact ⟨(single_mid (midh q hq hd) (hlev q hq hd)).move e,
        single_level (s := s) ((hlev q hq hd).trans (le_max_left _ _)) (le_max_left _ _)⟩)
    (fun p hp => ⟨(mids p hp).move e, (le_maxLevel hp).trans (le_max_right _ _)⟩)
  refine ⟨_, hR, inv_of_new r1 r2 (by rw [r4]; exact h.pos) ?_ ?_ ?_ ⟨?_, ?_⟩⟩
  · intro q hq hd
    obtain ⟨p, hp, b1, -, -, -, b5⟩ := r7 q hq
    exact b5 (b1 ▸ hd)
  · intro q hq
    obtain ⟨p, hp, -, b5⟩ := r8 q hq
    exact b5
  · intro hl q hq hd
    obtain ⟨p, hp, b1, b2, b3, -, b5⟩ := r7 q hq
    have hnew := b5 (b1 ▸ hd)
    have hql := hnew.level
    obtain ⟨p0, hp0, rfl⟩ := List.mem_map.mp (show p ∈ hydro.map _ from hp)
    have hd0 : p0.dead = false := by rw [b1, (single_fields _ _ _).1] at hd; exact hd
    rw [(single_fields _ _ _).2.1] at b2
    obtain ⟨p1, hp1, hd1, h3⟩ := hhyd p0 hp0 hd0
    rw [b2]
    rcases h3 with ⟨-, -, h3⟩ | ⟨h3, rfl⟩
    · have : p0.level ≤ (single cfg s.n lmh p0).level := by
        have := hlev p0 hp0 hd0
        unfold single; split_ifs
        · exact this
        · exact le_rfl
      omega
    · have hJ := h.neib hl p0 hp1 hd1
      rcases r6 with r6 | ⟨r6, r6', r6''⟩
      · have : s.level_max ≤ (rescale cfg M lm).level_max := r6
        omega
      · have hlm' : (rescale cfg M lm).level_max + 1 = s.level_max := r6
        have hlmlm : lm + 1 ≤ s.level_max := r6'
        have hdv : 2 ^ cfg.integration_step ∣ s.n := r6''
        have hlv := (hlev p0 hp0 hd0).trans (show lmh ≤ lm from le_max_left _ _)
        rcases h.checked hl (hchk hl) p0 hp1 hd1 h3 with hset | hset
        · omega
        · by_contra hcon
          apply hset
          have heq : p0.levelneib - cfg.level_diff_max = s.level_max := by omega
          have hstep := h.clock.step
          have hcs := hc.step
          rw [heq, pow2_of_le hls]
          have h4 : 2 ^ (s.level_step - s.level_max) ∣ s.n := (pow_dvd_pow 2 (by omega)).trans hdv
          have h5 : 2 ^ (s.level_step - s.level_max) ∣ p0.nlast :=
            (pow_dvd_pow 2 (by have := h3.level; omega)).trans (h3.nstep ▸ h3.aligned)
          exact Nat.dvd_sub h4 h5
  · intro q hq
    obtain ⟨p, hp, -, -, -, b4, -⟩ := r7 q hq
    obtain ⟨p0, hp0, rfl⟩ := List.mem_map.mp (show p ∈ hydro.map _ from hp)
    obtain ⟨p1, hp1, h1⟩ := mapM_some_mem hhy p0 hp0
    rw [b4, (single_fields _ _ _).2.2.1, adaptHydro_req h1]
    exact h.req.1 p1 hp1
  · intro q hq
    obtain ⟨p, hp, b4, -⟩ := r8 q hq
    obtain ⟨p1, hp1, h1⟩ := mapM_some_mem hstars p hp
    rw [b4, adaptStar_req h1]
    exact h.req.2 p1 hp1

/-! ### every action -/

theorem apply_block (s : State) : apply cfg s .block =
    (computeBlock cfg s).map fun s => endTimestep cfg { s with phase := .idle } := rfl

theorem start_inv (hc : cfg.OK) (h : Start s) :
    ∃ s', apply cfg s .block = some s' ∧ Inv cfg s' := by
  rw [apply_block, computeBlock, if_pos (by rw [h.n, h.nresync])]
  exact ⟨_, rfl, resync_inv hc h.hydro h.stars⟩

theorem getElem?_mapIdx_mem {f : ℕ → Part → Part} {l : List Part} {q : Part} (h : q ∈ l.mapIdx f) :
    ∃ i p, l[i]? = some p ∧ q = f i p := by
  obtain ⟨i, hi, rfl⟩ := List.mem_mapIdx.mp h
  exact ⟨i, l[i], List.getElem?_eq_getElem hi, rfl⟩

theorem step_inv (hc : cfg.OK) (h : Inv cfg s) (o : Op) (ho : o.Allowed cfg s) :
    ∃ s', apply cfg s o = some s' ∧ Inv cfg s' := by
  have hls := h.clock.le hc
  cases o with
  | tick =>
    have hph : s.phase = .idle := ho
    obtain ⟨i1, i2, i3⟩ := h.idle hph
    refine ⟨_, rfl, ⟨⟨h.clock.step, h.clock.resync, h.clock.tick⟩, fun hp => by (cases hp),
      fun _ => ⟨by simp only; omega, by simp only; omega, fun p hp hd => tick_inPass (i2 p hp hd),
        fun p hp => tick_inPass (i3 p hp)⟩, h.neib, fun _ hp => by (cases hp), h.live, h.req, h.pos⟩⟩
  | env ev =>
    obtain ⟨o1, o2, o3⟩ := ho
    have e : SameClock s (ev.apply s) := ⟨rfl, rfl, rfl, rfl, rfl, rfl, rfl⟩
    have hph : (ev.apply s).phase = .idle ↔ s.phase = .idle := by
      simp only [Env.apply]; cases s.phase <;> simp
    have hnc : (ev.apply s).phase ≠ .checked := by
      simp only [Env.apply]; cases s.phase <;> simp
    have mh : ∀ q ∈ (ev.apply s).hydro, ∃ i p, s.hydro[i]? = some p ∧ p ∈ s.hydro ∧ SameStep p q ∧
        (q.dead = false → p.dead = false) ∧ q.levelneib = ev.levelneib i ∧ q.req = ev.req i := by
      intro q hq
      obtain ⟨i, p, hip, rfl⟩ := getElem?_mapIdx_mem hq
      refine ⟨i, p, hip, List.mem_of_getElem? hip, ⟨rfl, rfl, rfl, rfl, rfl⟩, fun hd => ?_, rfl, rfl⟩
      simp only [Bool.or_eq_false_iff] at hd; exact hd.1
    have ms : ∀ q ∈ (ev.apply s).stars, ∃ i, ∃ p ∈ s.stars, SameStep p q ∧ q.dead = p.dead ∧
        q.req = ev.starReq i := by
      intro q hq
      obtain ⟨i, p, hip, rfl⟩ := getElem?_mapIdx_mem hq
      exact ⟨i, p, List.mem_of_getElem? hip, ⟨rfl, rfl, rfl, rfl, rfl⟩, rfl, rfl⟩
    refine ⟨_, rfl, ⟨h.clock.move e, fun hp => ?_, fun hp => ?_, fun hl q hq hd => ?_,
      fun _ hp => absurd hp hnc, fun q hq => ?_, ⟨fun q hq => ?_, fun q hq => ?_⟩, h.pos⟩⟩
    · obtain ⟨i1, i2, i3⟩ := h.idle (hph.mp hp)
      refine ⟨i1, fun q hq hd => ?_, fun q hq => ?_⟩
      · obtain ⟨i, p, -, hp, hs, hdd, -⟩ := mh q hq
        exact ((i2 p hp (hdd hd)).same hs).move e
      · obtain ⟨i, p, hp, hs, -⟩ := ms q hq
        exact ((i3 p hp).same hs).move e
    · obtain ⟨i1, i2, i3, i4⟩ := h.work (fun hh => hp (hph.mpr hh))
      refine ⟨i1, i2, fun q hq hd => ?_, fun q hq => ?_⟩
      · obtain ⟨i, p, -, hp, hs, hdd, -⟩ := mh q hq
        exact ((i3 p hp (hdd hd)).same hs).move e
      · obtain ⟨i, p, hp, hs, -⟩ := ms q hq
        exact ((i4 p hp).same hs).move e
    · obtain ⟨i, p, hip, hp, hs, hdd, hn, -⟩ := mh q hq
      have h1 := h.neib hl p hp (hdd hd)
      have h2 := o3 i p hip
      rw [hn]
      show ev.levelneib i ≤ s.level_max + cfg.level_diff_max
      exact h2.trans (max_le h1 (Nat.le_add_right _ _))
    · obtain ⟨i, p, hp, -, hd, -⟩ := ms q hq
      rw [hd]; exact h.live p hp
    · obtain ⟨i, p, -, -, -, -, -, hr⟩ := mh q hq
      rw [hr]; exact o1 i
    · obtain ⟨i, p, -, -, -, hr⟩ := ms q hq
      rw [hr]; exact o2 i
  | check =>
    obtain ⟨o1, hl⟩ := ho
    obtain ⟨w1, w2, w3, w4⟩ := h.work o1
    obtain ⟨hydro, hhy⟩ := mapM_isSome (f := checkPart cfg s) (l := s.hydro) fun p hp => by
      cases hd : p.dead with
      | true => exact ⟨p, by simp [checkPart, hd]⟩
      | false =>
        obtain ⟨q, hq, -⟩ := checkPart_spec hc hl hls hd (w3 p hp hd) (h.neib hl p hp hd)
        exact ⟨q, hq⟩
    have e : SameClock s { s with
      phase := .checked
      hydro := hydro } := ⟨rfl, rfl, rfl, rfl, rfl, rfl, rfl⟩
    have hmem : ∀ q ∈ hydro, q.dead = false → q.levelneib ≤ s.level_max + cfg.level_diff_max ∧
        InPass s q ∧ (Running s q → Settled cfg s q) := by
      intro q hq hd
      obtain ⟨p, hp, hpq⟩ := mapM_some_mem hhy q hq
      cases hpd : p.dead with
      | true =>
        rw [show checkPart cfg s p = some p by simp [checkPart, hpd]] at hpq
        injection hpq with hpq; rw [← hpq, hpd] at hd; cases hd
      | false =>
        obtain ⟨q', h1, h2, h3, h4, h5⟩ := checkPart_spec hc hl hls hpd (w3 p hp hpd) (h.neib hl p hp hpd)
        rw [h1] at hpq; injection hpq with hpq; subst hpq
        refine ⟨by rw [h3]; exact h.neib hl p hp hpd, ?_⟩
        rcases h5 with ⟨h5, rfl, h6⟩ | ⟨-, h5, -⟩
        · exact ⟨h5, h6⟩
        · exact ⟨Or.inl h5, fun hr => absurd h5.now hr.not_now⟩
    have hreq : ∀ q ∈ hydro, 0 < q.req := by
      intro q hq
      obtain ⟨p, hp, hpq⟩ := mapM_some_mem hhy q hq
      have : q.req = p.req := by
        cases hpd : p.dead with
        | true =>
          rw [show checkPart cfg s p = some p by simp [checkPart, hpd]] at hpq
          injection hpq with hpq; rw [← hpq]
        | false =>
          obtain ⟨q', h1, h2, h3, h4, h5⟩ :=
            checkPart_spec hc hl hls hpd (w3 p hp hpd) (h.neib hl p hp hpd)
          rw [h1] at hpq; injection hpq with hpq; subst hpq; exact h4
      rw [this]; exact h.req.1 p hp
    refine ⟨{ s with
      phase := .checked
      hydro := hydro }, by simp only [apply, hhy, Option.map_some], ⟨h.clock.move e, fun hp => by (cases hp),
      fun _ => ⟨w1, w2, fun q hq hd => (hmem q hq hd).2.1.move e, fun q hq => (w4 q hq).move e⟩,
      fun _ q hq hd => (hmem q hq hd).1,
      fun _ _ q hq hd hr => ((hmem q hq hd).2.2 (hr.move e.symm)).move e, h.live, ⟨hreq, h.req.2⟩, h.pos⟩⟩
  | birth req =>
    obtain ⟨o1, o2, o3⟩ := ho
    obtain ⟨w1, w2, w3, w4⟩ := h.work o1
    have e : SameClock s { s with hydro := s.hydro ++ [newborn s req] } := ⟨rfl, rfl, rfl, rfl, rfl, rfl, rfl⟩
    rw [pow2_of_le hls] at o3
    have hk := Nat.two_pow_pos (s.level_step - s.level_max)
    have hdv := Nat.dvd_of_mod_eq_zero o3
    have hle := Nat.le_of_dvd (by omega) hdv
    have hb : Ending s (newborn s req) := by
      refine ⟨le_rfl, ?_, ?_, hdv, ?_, rfl⟩
      · simp only [newborn, pow2_of_le hls]; omega
      · simp only [newborn, pow2_of_le hls]; omega
      · simp only [newborn, pow2_of_le hls]; exact dvd_rfl
    have mem : ∀ q ∈ s.hydro ++ [newborn s req], q ∈ s.hydro ∨ q = newborn s req := by
      intro q hq; simpa using hq
    refine ⟨_, rfl, ⟨h.clock.move e, fun hp => absurd hp o1, fun _ => ⟨w1, w2, fun q hq hd => ?_,
      fun q hq => (w4 q hq).move e⟩, fun hl q hq hd => ?_, fun hl hp q hq hd hr => ?_, h.live,
      ⟨fun q hq => ?_, h.req.2⟩, h.pos⟩⟩
    · rcases mem q hq with hq | rfl
      · exact (w3 q hq hd).move e
      · exact Or.inl (hb.move e)
    · rcases mem q hq with hq | rfl
      · exact h.neib hl q hq hd
      · exact Nat.le_add_right _ _
    · rcases mem q hq with hq | rfl
      · exact (h.checked hl hp q hq hd (hr.move e.symm)).move e
      · exact absurd (hb.move e).now hr.not_now
    · rcases mem q hq with hq | rfl
      · exact h.req.1 q hq
      · exact o2
  | delete l =>
    have hperm : l.Perm (live s.hydro) := ho
    have e : SameClock s { s with hydro := l } := ⟨rfl, rfl, rfl, rfl, rfl, rfl, rfl⟩
    have mem : ∀ q ∈ l, q ∈ s.hydro := fun q hq => (mem_live.mp (hperm.mem_iff.mp hq)).1
    refine ⟨_, rfl, ⟨h.clock.move e, fun hp => ?_, fun hp => ?_, fun hl q hq hd => h.neib hl q (mem q hq) hd,
      fun hl hp q hq hd hr => (h.checked hl hp q (mem q hq) hd (hr.move e.symm)).move e, h.live,
      ⟨fun q hq => h.req.1 q (mem q hq), h.req.2⟩, h.pos⟩⟩
    · obtain ⟨i1, i2, i3⟩ := h.idle hp
      exact ⟨i1, fun q hq hd => (i2 q (mem q hq) hd).move e, fun q hq => (i3 q hq).move e⟩
    · obtain ⟨i1, i2, i3, i4⟩ := h.work hp
      exact ⟨i1, i2, fun q hq hd => (i3 q (mem q hq) hd).move e, fun q hq => (i4 q hq).move e⟩
  | sink i req =>
    obtain ⟨o1, o2, p, hip, hpd, hpn⟩ := ho
    obtain ⟨w1, w2, w3, w4⟩ := h.work o1
    have hpm : p ∈ s.hydro := List.mem_of_getElem? hip
    have hend : Ending s p := by
      rcases w3 p hpm hpd with hh | hh
      · exact hh
      · exfalso
        obtain ⟨a, ha⟩ := Nat.dvd_of_mod_eq_zero hpn
        obtain ⟨b, hb⟩ := hh.aligned
        have h2 := hh.before
        have h3 := hh.notOver
        rw [ha, hb] at h2 h3
        have h4 : b < a := Nat.lt_of_mul_lt_mul_left h2
        have h5 : p.nstep * (b + 1) ≤ p.nstep * a := Nat.mul_le_mul_left _ h4
        rw [mul_add, mul_one] at h5
        omega
    set st : Part := { p with
          tlast := s.t
          req := req
          endStep := false } with hst
    have e : SameClock s { s with
        hydro := s.hydro.set i { p with dead := true }
        stars := s.stars ++ [st] } := ⟨rfl, rfl, rfl, rfl, rfl, rfl, rfl⟩
    have memh : ∀ q ∈ s.hydro.set i { p with dead := true }, q ∈ s.hydro ∨ q = { p with dead := true } :=
      fun q hq => List.mem_or_eq_of_mem_set hq
    have memd : ∀ q ∈ s.hydro.set i { p with dead := true }, q.dead = false → q ∈ s.hydro := by
      intro q hq hd
      rcases memh q hq with hq | rfl
      · exact hq
      · exact absurd hd (by simp)
    have mems : ∀ q ∈ s.stars ++ [st], q ∈ s.stars ∨ q = st := by
      intro q hq; simpa using hq
    refine ⟨{ s with
        hydro := s.hydro.set i { p with dead := true }
        stars := s.stars ++ [st] }, by simp only [apply, hip, hst],
      ⟨h.clock.move e, fun hp => absurd hp o1, fun _ => ⟨w1, w2,
        fun q hq hd => (w3 q (memd q hq hd) hd).move e, fun q hq => ?_⟩,
        fun hl q hq hd => h.neib hl q (memd q hq hd) hd,
        fun hl hp q hq hd hr => (h.checked hl hp q (memd q hq hd) hd (hr.move e.symm)).move e,
        fun q hq => ?_, ⟨fun q hq => ?_, fun q hq => ?_⟩, h.pos⟩⟩
    · rcases mems q hq with hq | rfl
      · exact (w4 q hq).move e
      · refine Or.inl (Ending.move e ⟨hend.level, hend.before, hend.now, hend.alignedNow,
          hend.alignedStep, rfl⟩)
    · rcases mems q hq with hq | rfl
      · exact h.live q hq
      · exact hpd
    · rcases memh q hq with hq | rfl
      · exact h.req.1 q hq
      · exact h.req.1 p hpm
    · rcases mems q hq with hq | rfl
      · exact h.req.2 q hq
      · exact o2
  | block =>
    have hph : s.phase ≠ .idle := by
      rcases ho with ho | ⟨ho, -⟩ <;> rw [ho] <;> decide
    have hchk : cfg.limiter = true → s.phase = .checked := by
      intro hl
      rcases ho with ho | ⟨-, ho⟩
      · exact ho
      · rw [hl] at ho; cases ho
    rw [apply_block, computeBlock]
    by_cases hn : s.n = s.nresync
    · rw [if_pos hn]
      exact ⟨_, rfl, resync_inv hc h.req.1 fun p hp => ⟨h.req.2 p hp, h.live p hp⟩⟩
    · rw [if_neg hn]
      obtain ⟨R, hR, hinv⟩ := adapt_inv hc h hph hn hchk
      exact ⟨_, by rw [hR]; rfl, hinv⟩

theorem reach_inv (hc : cfg.OK) (h : Reach cfg s) : Inv cfg s := by
  induction h with
  | start hs ha =>
    obtain ⟨s2, h1, h2⟩ := start_inv hc hs
    rw [h1] at ha; injection ha with ha; subst ha; exact h2
  | next o _ ho ha ih =>
    obtain ⟨s2, h1, h2⟩ := step_inv hc ih o ho
    rw [h1] at ha; injection ha with ha; subst ha; exact h2

end Gandalf.Block
