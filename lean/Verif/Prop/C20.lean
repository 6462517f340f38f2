import Verif.Proof.Marking

/-!
# C20 – sink accretion conserves

`accrete` is the whole of `AccreteMassToSinks`. `prm` are the accretion parameters (`mleft` stands for
`smooth_accrete_frac*mmean`), `gather s` and `gather' s` the neighbour lists of sink `s` in the two loops,
`decay s` the factor `exp(-dt/taccrete)`, `trot s` the rotation period, all arbitrary.
-/

set_option autoImplicit false

namespace Gandalf

open Sinks

variable {n : ℕ} {α : Type*} [Field α] [LinearOrder α] [IsStrictOrderedRing α]

section

variable {prm : Prm α} {N Ntot M : ℕ} {gather gather' : ℕ → List ℕ} {trot decay : ℕ → α} {g : ℕ → Gas n α}
  {sinks : List (Sink n α)}

/-- **C20.** In one, two or three dimensions, in both modes, whatever is accreted wholly or in part: total
mass, mass-weighted position, momentum, `Σ m a`, thermal energy and angular momentum (orbital plus spin) of
stars and gas are those of before. -/
theorem C20_conserved (hn : n ≤ 3) (hsm : 0 ≤ prm.small) (hl : ∀ s, (gather' s).Nodup)
    (hN : ∀ s, ∀ i ∈ gather' s, i < M) (hg : ∀ i < M, 0 ≤ (g i).m) (hs : ∀ sk ∈ sinks, 0 < sk.star.m) :
    SameTotals M g sinks (accrete prm N Ntot gather gather' trot decay g sinks).1
      (accrete prm N Ntot gather gather' trot decay g sinks).2 := by
  rw [accrete_eq]
  have h1 := markAll_totals gather sinks 0 (cleared Ntot g) M
  have h0 : SameTotals M g sinks (cleared Ntot g) sinks :=
    SameTotals.of_gas sinks fun i => ⟨(cleared_same Ntot g i).m, (cleared_same Ntot g i).kept⟩
  refine (h0.trans h1).trans (accreteAll_totals hn hsm hl hN _ 0 _ (fun i hi => ?_) fun sk hsk => ?_)
  · rw [(marked_same Ntot gather g sinks i).m]
    exact hg i hi
  · have hm := markAll_map (fun s => s.star.m) (fun _ _ => rfl) gather sinks 0 (cleared Ntot g)
    have : sk.star.m ∈ sinks.map fun s => s.star.m := by
      rw [← hm]
      exact List.mem_map.mpr ⟨sk, hsk, rfl⟩
    obtain ⟨sk', h', e⟩ := List.mem_map.mp this
    rw [← e]
    exact hs sk' h'

/-- **C20, any marking.** The same when the marks of the particles are whatever the threads of the first
loop left. -/
theorem C20_any_marking (hn : n ≤ 3) (hsm : 0 ≤ prm.small) (hl : ∀ s, (gather' s).Nodup)
    (hN : ∀ s, ∀ i ∈ gather' s, i < M) (hg : ∀ i < M, 0 ≤ (g i).m) (hs : ∀ sk ∈ sinks, 0 < sk.star.m) :
    SameTotals M g sinks (accreteAll prm N gather' trot decay 0 sinks g).1
      (accreteAll prm N gather' trot decay 0 sinks g).2 :=
  accreteAll_totals hn hsm hl hN sinks 0 g hg hs

/-- **C20, order.** Every sink ends as after its own turn alone, every particle as after the turn of the
sink it is marked with: the order of the sinks (or threads) does not matter. -/
theorem C20_order (j : ℕ) (sk : Sink n α) (h : sinks[j]? = some sk) :
    (accreteAll prm N gather' trot decay 0 sinks g).2[j]? =
      some (accreteOne prm N gather' trot decay j sk g).2 ∧
    ∀ i, (g i).sinkid = some j → (accreteAll prm N gather' trot decay 0 sinks g).1 i =
      (accreteOne prm N gather' trot decay j sk g).1 i := by
  have := (accreteAll_alone (prm := prm) (N := N) (gather := gather') (trot := trot) (decay := decay)
    sinks 0 g).1 j sk h
  rw [Nat.zero_add] at this
  exact this

/-- **C20, particles.** No particle moves; its mass stays between zero and the old one; the dead stay as
they are; who dies has no mass left and is inactive; who lives on keeps its mass or at least `mleft`, and
the conserved variables of a meshless particle lose what the mass and momentum lose. -/
theorem C20_particles (hsm : 0 ≤ prm.small) (hN : ∀ s, ∀ i ∈ gather' s, i < M) (hg : ∀ i < M, 0 ≤ (g i).m)
    (i : ℕ) :
    let p := g i
    let p' := (accrete prm N Ntot gather gather' trot decay g sinks).1 i
    p'.r = p.r ∧ p'.v = p.v ∧ p'.a = p.a ∧ p'.u = p.u ∧
    (0 ≤ p.m → 0 ≤ p'.m ∧ p'.m ≤ p.m) ∧
    (p.dead = true → p'.dead = true ∧ p'.m = p.m) ∧
    (p.dead = false → p'.dead = true → p'.m = 0 ∧ p'.active = false) ∧
    (p'.dead = false → p'.m = p.m ∨ prm.mleft ≤ p'.m) ∧
    (p'.dead = false → prm.mfv = true →
      p.dQrho - p'.dQrho = p.m - p'.m ∧ ∀ k, p.dQv k - p'.dQv k = (p.m - p'.m) * p.v k) := by
  intro p p'
  have hs := marked_same Ntot gather g sinks i
  have ha : After prm ((markAll gather 0 sinks (cleared Ntot g)).1 i) p' :=
    accreteAll_after hsm hN i _ 0 _ fun j hj => by
      rw [(marked_same Ntot gather g sinks j).m]
      exact hg j hj
  have e1 := hs.m
  have e2 := hs.dead
  have hk := hs.kept.trans ha.kept
  refine ⟨hk.r, hk.v, hk.a, hk.u, fun h => ?_, fun h => ?_, fun h h' => ?_, fun h => ?_, fun h h' => ?_⟩
  · have h2 : 0 ≤ ((markAll gather 0 sinks (cleared Ntot g)).1 i).m := by rw [e1]; exact h
    exact ⟨ha.nonneg h2, (ha.le h2).trans e1.le⟩
  · obtain ⟨h1, h2⟩ := ha.stays (by rw [e2]; exact h)
    exact ⟨h1, h2.trans e1⟩
  · exact ha.dies (by rw [e2]; exact h) h'
  · rcases ha.lives h with h1 | h1
    · exact Or.inl (h1.trans e1)
    · exact Or.inr h1
  · obtain ⟨h1, h2⟩ := ha.dQ h h'
    rw [e1, hs.dQ.1] at h1
    refine ⟨by linear_combination -h1, fun k => ?_⟩
    have h3 := h2 k
    rw [e1, hs.dQ.2, hs.kept.v] at h3
    linear_combination -h3

/-- **C20, final check.** If a surviving particle has to keep some mass (`mleft > 0`), the check at the end
of the routine never raises its error. -/
theorem C20_check_passes (hsm : 0 ≤ prm.small) (hN : ∀ s, ∀ i ∈ gather' s, i < M)
    (hg : ∀ i < M, 0 ≤ (g i).m) (hml : 0 < prm.mleft) {Nhydro : ℕ}
    (h0 : ∀ i < Nhydro, (g i).dead = false → 0 < (g i).m) :
    sanity Nhydro (accrete prm N Ntot gather gather' trot decay g sinks).1 = true := by
  unfold sanity
  rw [List.all_eq_true]
  intro i hi
  have h := C20_particles (N := N) (Ntot := Ntot) (gather := gather) (trot := trot) (decay := decay)
    (sinks := sinks) hsm hN hg i
  obtain ⟨-, -, -, -, -, h6, -, h8, -⟩ := h
  rw [Bool.or_eq_true]
  cases hd : ((accrete prm N Ntot gather gather' trot decay g sinks).1 i).dead with
  | true => exact Or.inl rfl
  | false =>
    right
    rw [decide_eq_true_eq]
    have hd0 : (g i).dead = false := by
      cases e : (g i).dead with
      | false => rfl
      | true =>
        have := (h6 e).1
        rw [hd] at this
        cases this
    rcases h8 hd with e | e
    · rw [e]
      exact h0 i (List.mem_range.mp hi) hd0
    · exact lt_of_lt_of_le hml e

theorem ownMass_members (j : ℕ) (sk : Sink n α) (g : ℕ → Gas n α) (l : List ℕ) :
    ownMass j sk g l = massOf g (members j sk g l) := by
  unfold ownMass massOf
  induction l with
  | nil => rfl
  | cons i l ih =>
    rw [List.map_cons, List.sum_cons, ih]
    by_cases h : Inside (g i) sk ∧ (g i).sinkid = some j
    · have e : members j sk g (i :: l) = i :: members j sk g l := by
        unfold members
        rw [List.filter_cons_of_pos]
        simp only [Bool.and_eq_true, Bool.not_eq_true', decide_eq_true_eq]
        exact ⟨⟨h.1.1, h.2⟩, h.1.2⟩
      rw [if_pos h, e, List.map_cons, List.sum_cons]
    · have e : members j sk g (i :: l) = members j sk g l := by
        unfold members
        rw [List.filter_cons_of_neg]
        simp only [Bool.and_eq_true, Bool.not_eq_true', decide_eq_true_eq]
        rintro ⟨⟨h1, h2⟩, h3⟩
        exact h ⟨⟨h1, h3⟩, h2⟩
      rw [if_neg h, e, zero_add]

/-- **C20, how much.** The turn of a sink that is not skipped: with `menc` the mass of its own gas, its
mass grows by the intended amount (`menc`, or `menc*max(1-decay,0)` in the smooth mode) up to `small` below
and up to `mleft` above; the latter unless a particle with a very short timestep is swallowed. Position,
velocity and acceleration for the next step are the new ones. -/
theorem C20_how_much {j : ℕ} {sk : Sink n α} (hdue : sk.Ngas ≠ 0) (hstep : N % sk.star.nstep = 0)
    (hsm : 0 < prm.small) (hg : ∀ i ∈ gather' j, 0 ≤ (g i).m) (hdec : 0 ≤ decay j) :
    let menc := ownMass j sk g (gather' j)
    let want := if prm.smooth then menc * max (1 - decay j) 0 else menc
    let sk' := (accreteOne prm N gather' trot decay j sk g).2
    want - prm.small < sk'.star.m - sk.star.m ∧
    (prm.smooth = true → 0 ≤ prm.mleft →
      (∀ i ∈ gather' j, Inside (g i) sk → prm.dtfrac * trot j ≤ (g i).dt) →
      sk'.star.m - sk.star.m ≤ want + prm.mleft) ∧
    sk'.star.r0 = sk'.star.r ∧ sk'.star.v0 = sk'.star.v ∧ sk'.star.a0 = sk'.star.a := by
  intro menc want sk'
  have hne : ¬(sk.Ngas = 0 ∨ N % sk.star.nstep ≠ 0) := by
    rintro (h | h)
    · exact hdue h
    · exact h hstep
  have hgain : sk'.star.m = _ := accreteOne_gain (prm := prm) (N := N) (gather := gather') (trot := trot)
    (decay := decay) (s := j) (sk := sk) hne g
  have hw : want = target prm (decay j) (massOf g (members j sk g (gather' j))) := by
    rw [← ownMass_members]
    rfl
  have hm0 : 0 ≤ massOf g (members j sk g (gather' j)) :=
    massOf_nonneg fun i hi => hg i (mem_members.mp hi).1
  have hlive : ∀ i ∈ turnList gather' j sk g,
      (raiseLevels sk.star.level (members j sk g (gather' j)) g i).dead = false := fun i hi => by
    rw [(raise_dead ..).1]
    exact (mem_turnList.mp hi).2.1
  have hlm : liveMass (raiseLevels sk.star.level (members j sk g (gather' j)) g) (turnList gather' j sk g) =
      massOf g (members j sk g (gather' j)) := by
    rw [liveMass_eq hlive, massOf_raise, massOf_perm (turnList_perm ..)]
  refine ⟨?_, fun hs hml hdt => ?_, ?_⟩
  · rw [hgain, hw, add_sub_cancel_left]
    apply gain_gt hsm
    · rw [hlm]
      exact target_le hm0 hdec
    · intro i hi _
      rw [(raise_dead ..).2.1]
      exact hg i (mem_turnList.mp hi).1
  · rw [hgain, hw, add_sub_cancel_left]
    apply gain_le hsm.le hml hs (target_nonneg hm0)
    intro i hi _
    rw [(raise_dead ..).2.2, if_pos hs]
    have h := mem_turnList.mp hi
    exact hdt i h.1 ⟨h.2.1, h.2.2.2⟩
  · have e : sk' = _ := congrArg Prod.snd (accreteOne_eq (prm := prm) (N := N) (gather := gather')
      (trot := trot) (decay := decay) (s := j) (sk := sk) hne g)
    rw [e]
    exact ⟨rfl, rfl, rfl⟩

/-- **C20, nothing left behind.** Without smooth accretion, when every sink is at the end of its step, the
second search finds what the first found and no particle is lighter than `small`: every live particle
found inside a sink is dead afterwards. -/
theorem C20_swallows (hs : prm.smooth = false) (hsm : 0 < prm.small) (hl : ∀ s, (gather s).Nodup)
    (hN : ∀ s, ∀ i ∈ gather s, i < M) (hg : ∀ i < M, prm.small ≤ (g i).m ∨ ((g i).dead = true ∧ (g i).m = 0))
    (hdue : ∀ sk ∈ sinks, N % sk.star.nstep = 0) {j : ℕ} {sk : Sink n α} (hj : sinks[j]? = some sk) {i : ℕ}
    (hi : i ∈ gather j) (hin : Inside (g i) sk) :
    ((accrete prm N Ntot gather gather trot decay g sinks).1 i).dead = true := by
  obtain ⟨h1, h2, h3, h4, h5⟩ := markAll_spec gather sinks 0 (cleared Ntot g)
  have hin' := ((cleared_same Ntot g i).inside sk).mpr hin
  obtain ⟨t, sk', ht, hit, hint, hid⟩ := h5 j sk hj i (by rw [Nat.zero_add]; exact hi) hin'
  obtain ⟨k, hk, hk0⟩ := h3 t sk' ht
  rw [Nat.zero_add] at hit hid hk0
  have hord := (C20_order (prm := prm) (N := N) (gather' := gather) (trot := trot) (decay := decay)
    (g := (markAll gather 0 sinks (cleared Ntot g)).1) t _ hk).2 i hid
  rw [accrete_eq, hord]
  have hne : ¬(({ sk' with Ngas := k } : Sink n α).Ngas = 0 ∨
      N % ({ sk' with Ngas := k } : Sink n α).star.nstep ≠ 0) := by
    rintro (h | h)
    · exact hk0 i hit hint h
    · exact h (hdue sk' (List.mem_of_getElem? ht))
  rw [accreteOne_eq hne]
  set q := (markAll gather 0 sinks (cleared Ntot g)).1 with hq
  set x : Sink n α := { sk' with Ngas := k } with hx
  have hmem : i ∈ turnList gather t x q := by
    rw [mem_turnList]
    have := ((h1 i).inside sk').mpr hint
    exact ⟨hit, this.1, hid, this.2⟩
  have hnd : (turnList gather t x q).Nodup := (turnList_perm ..).nodup_iff.mpr ((hl t).filter _)
  have hlive : ∀ i ∈ turnList gather t x q,
      (raiseLevels x.star.level (members t x q (gather t)) q i).dead = false := fun i hi => by
    rw [(raise_dead ..).1]
    exact (mem_turnList.mp hi).2.1
  refine loop2_all hs hsm hnd _ _ (fun i hi hd => ?_) ?_ hmem
  · rw [(raise_dead ..).2.1, (marked_same Ntot gather g sinks i).m]
    rcases hg i (hN t i (mem_turnList.mp hi).1) with h | ⟨h, -⟩
    · exact h
    · rw [(raise_dead ..).1, (marked_same Ntot gather g sinks i).dead, h] at hd
      cases hd
  · unfold target
    rw [hs]
    simp only [Bool.false_eq_true, if_false]
    rw [liveMass_eq hlive, massOf_raise, massOf_perm (turnList_perm ..)]

end

/-! ### a concrete case -/

/-- two particles -/
def c20Gas (m x y vx vy : ℚ) : Gas 2 ℚ where
  dead := false
  active := true
  potmin := false
  m := m
  u := 3
  rho := 1
  h := 1
  dt := 1
  gpot := 0
  r := ![x, y]
  v := ![vx, vy]
  a := ![0, 1]
  r0 := ![x, y]
  v0 := ![vx, vy]
  a0 := ![0, 1]
  nstep := 1
  nlast := 0
  level := 0
  levelneib := 0
  sinkid := none
  dQrho := 0
  dQv := ![0, 0]

def c20Sink : Sink 2 ℚ where
  star :=
    { active := true
      m := 2
      h := 1
      radius := 2
      gpot := 0
      dt := 1
      tlast := 0
      r := ![0, 0]
      v := ![0, 0]
      a := ![0, 0]
      r0 := ![0, 0]
      v0 := ![0, 0]
      a0 := ![0, 0]
      nstep := 1
      nlast := 0
      level := 3 }
  radius := 2
  mmax := 0
  utot := 0
  trot := 0
  Ngas := 0
  angmom := 0

def c20Parts : ℕ → Gas 2 ℚ := fun i => if i = 0 then c20Gas 1 1 0 0 1 else c20Gas 4 0 (3/2) 1 0

/-- smooth accretion, half of the gas due -/
def c20Prm (frac : ℚ) : Prm ℚ where
  smooth := true
  mleft := frac
  dtfrac := 0
  small := 1 / 1000
  mfv := true

def c20Out (frac : ℚ) : (ℕ → Gas 2 ℚ) × List (Sink 2 ℚ) :=
  accrete (c20Prm frac) 0 2 (fun _ => [1, 0]) (fun _ => [1, 0]) (fun _ => 0) (fun _ => 1 / 2) c20Parts [c20Sink]

/-- hypotheses of `C20_conserved`, … hold here -/
example : (∀ s : ℕ, ([1, 0] : List ℕ).Nodup) ∧ (∀ s : ℕ, ∀ i ∈ ([1, 0] : List ℕ), i < 2) ∧
    (∀ i < 2, 0 ≤ (c20Parts i).m) ∧ (∀ sk ∈ [c20Sink], 0 < sk.star.m) := by
  refine ⟨by simp, by simp, fun i _ => ?_, by simp [c20Sink]⟩
  unfold c20Parts
  split_ifs <;> simp [c20Gas]

/-- the nearer particle is swallowed, the other one loses 3/2; star, spin and meshless variables follow -/
example : ((c20Out (1 / 10)).1 0).dead = true ∧ ((c20Out (1 / 10)).1 0).m = 0 ∧
    ((c20Out (1 / 10)).1 1).dead = false ∧ ((c20Out (1 / 10)).1 1).m = 5 / 2 ∧
    ((c20Out (1 / 10)).1 1).dQrho = -3 / 2 ∧ ((c20Out (1 / 10)).1 1).levelneib = 3 ∧
    ((c20Out (1 / 10)).2.map fun s => (s.star.m, s.star.r 0, s.angmom 2)) = [(9 / 2, 2 / 9, -13 / 18)] := by
  decide +kernel

/-- **C20, the check can fail.** With `smooth_accrete_frac = 0` a particle whose whole mass is taken is not
marked dead, and the routine ends with its error. -/
theorem C20_zero_fraction_fails : sanity 2 c20Parts = true ∧ sanity 2 (c20Out 0).1 = false := by
  decide +kernel

end Gandalf
