import Verif.Proof.Leapfrog

/-!
# C23 – leapfrog steps are time reversible and exact for constant acceleration
-/

set_option autoImplicit false
set_option linter.unusedSectionVars false

namespace Gandalf

open Leap

variable {n N : ℕ} {α : Type*} [Field α] [CharZero α]

/-- the velocities of the particles reversed -/
def Leap.reverse (s : Fin N → Body n α) : Fin N → Body n α :=
  fun i => { s i with
    v := fun k => -(s i).v k
    v0 := fun k => -(s i).v0 k }

/-- **C23 (kick-drift-kick, gas).** When all particles take the same step, then whatever the number of
turns of the main loop the step is cut into and whatever force depends on the positions, the particles
end up where kick-drift-kick puts them — if the recorded length of the step is the true one (see C52),
the velocity correction being computed from the recorded length. -/
theorem C23_kdk_sph (F : (Fin N → Vec n α) → Fin N → Vec n α) (s : Fin N → Body n α) {m M : ℤ} {t h : α}
    (hs : Together s m t M) (ha : ∀ i, (s i).a0 = F (start s).r i) (hdt : ∀ i, (s i).dt = h)
    (cs : List (Tick N α)) (c : Tick N α) (hcs : ∀ c ∈ cs, c.m ≠ m + M) (hc : c.m = m + M) (ht : c.t = t + h) :
    start ((cs ++ [c]).foldl (sphKdkTick F) s) = (start s).kdk F h ∧
    (∀ i, ((cs ++ [c]).foldl (sphKdkTick F) s i).a0 = F ((start s).kdk F h).r i) ∧
    (∀ i, ((cs ++ [c]).foldl (sphKdkTick F) s i).dt = c.d i ∧
      ((cs ++ [c]).foldl (sphKdkTick F) s i).nlast = c.m ∧ ((cs ++ [c]).foldl (sphKdkTick F) s i).tlast = c.t ∧
      ((cs ++ [c]).foldl (sphKdkTick F) s i).nstep = c.ns i ∧
      ((cs ++ [c]).foldl (sphKdkTick F) s i).endts = false) := by
  obtain ⟨g1, g2⟩ := fold_mid (sphKdk_mid F) cs hcs s hs
  rw [List.foldl_append]
  have e : start (cs.foldl (sphKdkTick F) s) = start s := by
    simp only [start]; congr 1
    · funext i; exact (g1 i).1
    · funext i; exact (g1 i).2.1
  have d := sphKdk_end F (cs.foldl (sphKdkTick F) s) c g2 hc
    (by intro i; obtain ⟨-, -, -, -, -, -, -, b8⟩ := g1 i; rw [b8, hdt, ht]; ring)
  have k := d.kdk (by
    intro i
    obtain ⟨-, -, b3, -⟩ := g1 i
    rw [b3, ha]
    exact congrFun (congrArg F (congrArg Phase.r e.symm)) i)
  have hh : c.t - t = h := by rw [ht]; ring
  rw [e, hh] at k
  refine ⟨k, ?_, fun i => ⟨d.2.2.2.2.1 i, d.2.2.2.2.2 i⟩⟩
  intro i
  rw [← k]
  exact d.2.2.1 i

/-- **C23 (kick-drift-kick, stars).** The same for the stars, with one round of force and correction
per turn (`Npec = 1`, the default). -/
theorem C23_kdk_nbody (F : (Fin N → Vec n α) → Fin N → Vec n α) (s : Fin N → Body n α) {m M : ℤ} {t h : α}
    (hs : Together s m t M) (ha : ∀ i, (s i).a0 = F (start s).r i)
    (cs : List (Tick N α)) (c : Tick N α) (hcs : ∀ c ∈ cs, c.m ≠ m + M) (hc : c.m = m + M) (ht : c.t = t + h) :
    start ((cs ++ [c]).foldl (nbodyKdkTick 1 F) s) = (start s).kdk F h ∧
    (∀ i, ((cs ++ [c]).foldl (nbodyKdkTick 1 F) s i).a0 = F ((start s).kdk F h).r i) ∧
    (∀ i, ((cs ++ [c]).foldl (nbodyKdkTick 1 F) s i).dt = c.d i ∧
      ((cs ++ [c]).foldl (nbodyKdkTick 1 F) s i).nlast = c.m ∧
      ((cs ++ [c]).foldl (nbodyKdkTick 1 F) s i).tlast = c.t ∧
      ((cs ++ [c]).foldl (nbodyKdkTick 1 F) s i).nstep = c.ns i ∧
      ((cs ++ [c]).foldl (nbodyKdkTick 1 F) s i).endts = false) := by
  obtain ⟨g1, g2⟩ := fold_mid (nbodyKdk_mid 1 F) cs hcs s hs
  rw [List.foldl_append]
  have e : start (cs.foldl (nbodyKdkTick 1 F) s) = start s := by
    simp only [start]; congr 1
    · funext i; exact (g1 i).1
    · funext i; exact (g1 i).2.1
  have d := nbodyKdk_end F (cs.foldl (nbodyKdkTick 1 F) s) c g2 hc
  have k := d.kdk (by
    intro i
    obtain ⟨-, -, b3, -⟩ := g1 i
    rw [b3, ha]
    exact congrFun (congrArg F (congrArg Phase.r e.symm)) i)
  have hh : c.t - t = h := by rw [ht]; ring
  rw [e, hh] at k
  refine ⟨k, ?_, fun i => ⟨d.2.2.2.2.1 i, d.2.2.2.2.2 i⟩⟩
  intro i
  rw [← k]
  exact d.2.2.1 i

/-- **C23 (drift-kick-drift).** When all particles take the same step of even integer length and one
turn of the main loop falls on its middle, they end up where drift-kick-drift puts them. -/
theorem C23_dkd (F : (Fin N → Vec n α) → Fin N → Vec n α) (s : Fin N → Body n α) {m M : ℤ} {t h : α}
    (hM : 0 < M) (hs : Together s m t M) (cs cs' : List (Tick N α)) (c c' : Tick N α)
    (hcs : ∀ c ∈ cs, c.m ≠ m + M ∧ c.m ≠ m + M / 2) (hc : c.m = m + M / 2) (ht : c.t = t + h / 2)
    (hcs' : ∀ c ∈ cs', c.m ≠ m + M ∧ c.m ≠ m + M / 2) (hc' : c'.m = m + M) (ht' : c'.t = t + h) :
    start ((cs ++ c :: cs' ++ [c']).foldl (dkdTick F) s) = (start s).dkd F h ∧
    ∀ i, ((cs ++ c :: cs' ++ [c']).foldl (dkdTick F) s i).nlast = c'.m ∧
      ((cs ++ c :: cs' ++ [c']).foldl (dkdTick F) s i).tlast = c'.t ∧
      ((cs ++ c :: cs' ++ [c']).foldl (dkdTick F) s i).nstep = c'.ns i ∧
      ((cs ++ c :: cs' ++ [c']).foldl (dkdTick F) s i).endts = false := by
  simp only [List.foldl_append, List.foldl_cons, List.foldl_nil]
  generalize hs1 : cs.foldl (dkdTick F) s = s1
  generalize hs2 : dkdTick F s1 c = s2
  generalize hs3 : cs'.foldl (dkdTick F) s2 = s3
  obtain ⟨g1, G1⟩ := fold_mid (dkd_mid F) cs (fun c hc => (hcs c hc).1) s hs
  rw [hs1] at g1 G1
  obtain ⟨g2, G2⟩ := fold_mid (dkd_mid F) [c] (fun c' h' => by
    simp at h'; rw [h', hc]; omega) s1 G1
  simp only [List.foldl_cons, List.foldl_nil, hs2] at g2 G2
  obtain ⟨g3, G3⟩ := fold_mid (dkd_mid F) cs' (fun c hc => (hcs' c hc).1) s2 G2
  have K := fold_keep F cs' (fun c hc => (hcs' c hc).1) (fun c hc => (hcs' c hc).2) s2 G2
  rw [hs3] at g3 G3 K
  have e1 : start s1 = start s := by
    simp only [start]; congr 1
    · funext i; exact (g1 i).1
    · funext i; exact (g1 i).2.1
  have A : ∀ i, (s3 i).a = F ((start s).drift (h / 2)).r i := by
    intro i
    rw [K, ← hs2, dkd_half F s1 c hM G1 hc ht, e1]
  have S : ∀ i, SameStart (s i) (s3 i) := fun i => ((g1 i).trans (g2 i)).trans (g3 i)
  have E := fun i => dkd_end F s3 c' hM G3 hc' i
  have hh : c'.t - t = h := by rw [ht']; ring
  refine ⟨Phase.ext' ?_ ?_, ?_⟩
  · intro i k
    rw [show (start (dkdTick F s3 c')).r i k = (dkdTick F s3 c' i).r0 k from rfl,
      (E i).2.1, A, hh, (S i).1, (S i).2.1]
    simp only [Phase.dkd, Phase.kick, Phase.drift, start]
    ring
  · intro i k
    rw [show (start (dkdTick F s3 c')).v i k = (dkdTick F s3 c' i).v0 k from rfl,
      (E i).1, A, hh, (S i).2.1]
    simp only [Phase.dkd, Phase.kick, Phase.drift, start]
    ring
  · intro i
    exact (E i).2.2

theorem Leap.start_reverse (s : Fin N → Body n α) : start (reverse s) = (start s).flip := rfl

/-- **C23 (reversal, gas).** Take a step, reverse all velocities, take a step of the same length: the
particles are back where they were with all velocities reversed, and so are the accelerations. -/
theorem C23_reversible_sph (F : (Fin N → Vec n α) → Fin N → Vec n α) (s : Fin N → Body n α) {m M M' : ℤ} {t h : α}
    (hs : Together s m t M) (ha : ∀ i, (s i).a0 = F (start s).r i) (hdt : ∀ i, (s i).dt = h)
    (cs cs' : List (Tick N α)) (c c' : Tick N α)
    (hcs : ∀ c ∈ cs, c.m ≠ m + M) (hc : c.m = m + M) (ht : c.t = t + h) (hns : ∀ i, c.ns i = M') (hd : ∀ i, c.d i = h)
    (hcs' : ∀ c ∈ cs', c.m ≠ m + M + M') (hc' : c'.m = m + M + M') (ht' : c'.t = t + h + h) :
    let s1 := (cs ++ [c]).foldl (sphKdkTick F) s
    let s2 := (cs' ++ [c']).foldl (sphKdkTick F) (reverse s1)
    ∀ i, (reverse s2 i).r0 = (s i).r0 ∧ (reverse s2 i).v0 = (s i).v0 ∧ (reverse s2 i).a0 = (s i).a0 := by
  intro s1 s2
  obtain ⟨k1, k2, k3⟩ := C23_kdk_sph F s hs ha hdt cs c hcs hc ht
  change start s1 = _ at k1
  have T : Together (reverse s1) (m + M) (t + h) M' := by
    intro i
    obtain ⟨-, b1, b2, b3, b4⟩ := k3 i
    exact ⟨b1.trans hc, b2.trans ht, b3.trans (hns i), b4⟩
  obtain ⟨l1, l2, -⟩ := C23_kdk_sph F (reverse s1) T
    (by intro i; rw [start_reverse, k1]; exact k2 i)
    (by intro i; exact ((k3 i).1).trans (hd i)) cs' c' hcs' hc' ht'
  change start s2 = _ at l1
  rw [start_reverse, k1, kdk_flip] at l1
  rw [start_reverse, k1, kdk_flip] at l2
  intro i
  refine ⟨?_, ?_, ?_⟩
  · exact congrFun (congrArg Phase.r l1) i
  · have := congrFun (congrArg Phase.v l1) i
    funext k
    change -(start s2).v i k = _
    rw [l1]
    simp [Phase.flip, start]
  · exact (l2 i).trans (ha i).symm

/-- **C23 (reversal, stars).** -/
theorem C23_reversible_nbody (F : (Fin N → Vec n α) → Fin N → Vec n α) (s : Fin N → Body n α) {m M M' : ℤ} {t h : α}
    (hs : Together s m t M) (ha : ∀ i, (s i).a0 = F (start s).r i)
    (cs cs' : List (Tick N α)) (c c' : Tick N α)
    (hcs : ∀ c ∈ cs, c.m ≠ m + M) (hc : c.m = m + M) (ht : c.t = t + h) (hns : ∀ i, c.ns i = M')
    (hcs' : ∀ c ∈ cs', c.m ≠ m + M + M') (hc' : c'.m = m + M + M') (ht' : c'.t = t + h + h) :
    let s1 := (cs ++ [c]).foldl (nbodyKdkTick 1 F) s
    let s2 := (cs' ++ [c']).foldl (nbodyKdkTick 1 F) (reverse s1)
    ∀ i, (reverse s2 i).r0 = (s i).r0 ∧ (reverse s2 i).v0 = (s i).v0 ∧ (reverse s2 i).a0 = (s i).a0 := by
  intro s1 s2
  obtain ⟨k1, k2, k3⟩ := C23_kdk_nbody F s hs ha cs c hcs hc ht
  change start s1 = _ at k1
  have T : Together (reverse s1) (m + M) (t + h) M' := by
    intro i
    obtain ⟨-, b1, b2, b3, b4⟩ := k3 i
    exact ⟨b1.trans hc, b2.trans ht, b3.trans (hns i), b4⟩
  obtain ⟨l1, l2, -⟩ := C23_kdk_nbody F (reverse s1) T
    (by intro i; rw [start_reverse, k1]; exact k2 i) cs' c' hcs' hc' ht'
  change start s2 = _ at l1
  rw [start_reverse, k1, kdk_flip] at l1
  rw [start_reverse, k1, kdk_flip] at l2
  intro i
  refine ⟨?_, ?_, ?_⟩
  · exact congrFun (congrArg Phase.r l1) i
  · funext k
    change -(start s2).v i k = _
    rw [l1]
    simp [Phase.flip, start]
  · exact (l2 i).trans (ha i).symm

/-- **C23 (reversal, drift-kick-drift).** -/
theorem C23_reversible_dkd (F : (Fin N → Vec n α) → Fin N → Vec n α) (s : Fin N → Body n α) {m M M' : ℤ} {t h : α}
    (hM : 0 < M) (hM' : 0 < M') (hs : Together s m t M) (a b a' b' : List (Tick N α)) (c d c' d' : Tick N α)
    (ha : ∀ c ∈ a, c.m ≠ m + M ∧ c.m ≠ m + M / 2) (hc : c.m = m + M / 2) (ht : c.t = t + h / 2)
    (hb : ∀ c ∈ b, c.m ≠ m + M ∧ c.m ≠ m + M / 2) (hd : d.m = m + M) (htd : d.t = t + h) (hns : ∀ i, d.ns i = M')
    (ha' : ∀ c ∈ a', c.m ≠ m + M + M' ∧ c.m ≠ m + M + M' / 2) (hc' : c'.m = m + M + M' / 2)
    (ht' : c'.t = t + h + h / 2) (hb' : ∀ c ∈ b', c.m ≠ m + M + M' ∧ c.m ≠ m + M + M' / 2)
    (hd' : d'.m = m + M + M') (htd' : d'.t = t + h + h) :
    let s1 := (a ++ c :: b ++ [d]).foldl (dkdTick F) s
    let s2 := (a' ++ c' :: b' ++ [d']).foldl (dkdTick F) (reverse s1)
    ∀ i, (reverse s2 i).r0 = (s i).r0 ∧ (reverse s2 i).v0 = (s i).v0 := by
  intro s1 s2
  obtain ⟨k1, k3⟩ := C23_dkd F s hM hs a b c d ha hc ht hb hd htd
  change start s1 = _ at k1
  have T : Together (reverse s1) (m + M) (t + h) M' := by
    intro i
    obtain ⟨b1, b2, b3, b4⟩ := k3 i
    exact ⟨b1.trans hd, b2.trans htd, b3.trans (hns i), b4⟩
  obtain ⟨l1, -⟩ := C23_dkd F (reverse s1) hM' T a' b' c' d' ha' hc' ht' hb' hd' htd'
  change start s2 = _ at l1
  rw [start_reverse, k1, dkd_flip] at l1
  intro i
  refine ⟨congrFun (congrArg Phase.r l1) i, ?_⟩
  funext k
  change -(start s2).v i k = _
  rw [l1]
  simp [Phase.flip, start]

/-- **C23 (momentum).** Both maps keep the total momentum when the forces add up to nothing, and the
total angular momentum when the torques do (C24, C45). -/
theorem C23_conserves (m : Fin N → α) (F : (Fin N → Vec n α) → Fin N → Vec n α) (h : α) (x : Phase N n α) :
    (NoForce m F → ∀ k, (x.kdk F h).momentum m k = x.momentum m k ∧ (x.dkd F h).momentum m k = x.momentum m k) ∧
    (NoTorque m F → ∀ k l, (x.kdk F h).angMom m k l = x.angMom m k l ∧
      (x.dkd F h).angMom m k l = x.angMom m k l) :=
  ⟨fun hF k => ⟨kdk_momentum hF h x k, dkd_momentum hF h x k⟩,
    fun hF k l => ⟨kdk_angMom hF h x k l, dkd_angMom hF h x k l⟩⟩

/-! ### Constant acceleration -/

/-- recorded values that agree with uniformly accelerated motion through `x` at time `T` -/
def Leap.OnFall (T : α) (x w g : Vec n α) (p : Body n α) : Prop :=
  p.endts = false ∧ (∀ k, p.r0 k = fallPos T (x k) (w k) (g k) p.tlast) ∧
    (∀ k, p.v0 k = fallVel T (w k) (g k) p.tlast) ∧ p.a0 = g ∧ p.a = g

/-- the present values agree with it at time `t` -/
def Leap.AtTime (T : α) (x w g : Vec n α) (t : α) (p : Body n α) : Prop :=
  (∀ k, p.r k = fallPos T (x k) (w k) (g k) t) ∧ ∀ k, p.v k = fallVel T (w k) (g k) t

theorem Leap.sphKdk_fall (T : α) (x w g : Fin N → Vec n α) (s : Fin N → Body n α) (c : Tick N α) (i : Fin N)
    (hs : OnFall T (x i) (w i) (g i) (s i)) :
    OnFall T (x i) (w i) (g i) (sphKdkTick (fun _ => g) s c i) ∧
      AtTime T (x i) (w i) (g i) c.t (sphKdkTick (fun _ => g) s c i) := by
  obtain ⟨h1, h2, h3, h4, h5⟩ := hs
  by_cases hc : c.m - (s i).nlast = (s i).nstep
  · simp [OnFall, AtTime, sphKdkTick, force, kdkAdvance, assign, sphKdkEnd, record, hc, h2, h3, h4, fallPos, fallVel]
    exact ⟨fun k => by ring, fun k => by ring⟩
  · simp [OnFall, AtTime, sphKdkTick, force, kdkAdvance, assign, sphKdkEnd, hc, h1, h2, h3, h4, h5, fallPos, fallVel]
    exact ⟨fun k => by ring, fun k => by ring⟩

theorem Leap.pec_fall (g : Fin N → Vec n α) (m : ℤ) (t : α) (j : ℕ) (s : Fin N → Body n α) (i : Fin N)
    (h4 : (s i).a0 = g i) (h5 : (s i).a = g i) : pec (fun _ => g) m t j s i = s i := by
  induction j generalizing s with
  | zero => rfl
  | succ j ih =>
    have e : kdkCorrect m t (force (fun _ => g) s i) = s i := by
      have e0 : force (fun _ => g) s i = s i := by
        unfold force
        by_cases h : (s i).active = true
        · rw [if_pos h]; exact (by rw [← h5] : { s i with a := g i } = s i)
        · rw [if_neg h]
      rw [e0]
      unfold kdkCorrect
      by_cases h : m - (s i).nlast = (s i).nstep
      · rw [if_pos h]
        have : (fun k => (s i).v k + 1 / 2 * ((s i).a k - (s i).a0 k) * (t - (s i).tlast)) = (s i).v := by
          funext k; rw [h4, h5]; ring
        rw [this]
      · rw [if_neg h]
    rw [pec, ih _ (by rw [e]; exact h4) (by rw [e]; exact h5), e]

theorem Leap.nbodyKdk_fall (npec : ℕ) (T : α) (x w g : Fin N → Vec n α) (s : Fin N → Body n α) (c : Tick N α)
    (i : Fin N) (hs : OnFall T (x i) (w i) (g i) (s i)) :
    OnFall T (x i) (w i) (g i) (nbodyKdkTick npec (fun _ => g) s c i) ∧
      AtTime T (x i) (w i) (g i) c.t (nbodyKdkTick npec (fun _ => g) s c i) := by
  obtain ⟨h1, h2, h3, h4, h5⟩ := hs
  have e := pec_fall g c.m c.t npec (fun i => kdkAdvance c.m c.t (s i)) i (by simpa [kdkAdvance] using h4)
    (by simpa [kdkAdvance] using h5)
  simp only [nbodyKdkTick, e]
  by_cases hc : c.m - (s i).nlast = (s i).nstep
  · simp [OnFall, AtTime, kdkAdvance, assign, plainEnd, record, hc, h2, h3, h4, h5, fallPos, fallVel]
    exact ⟨fun k => by ring, fun k => by ring⟩
  · simp [OnFall, AtTime, kdkAdvance, assign, plainEnd, hc, h1, h2, h3, h4, h5, fallPos, fallVel]
    exact ⟨fun k => by ring, fun k => by ring⟩

theorem Leap.dkd_fall (T : α) (x w g : Fin N → Vec n α) (s : Fin N → Body n α) (c : Tick N α) (i : Fin N)
    (hs : OnFall T (x i) (w i) (g i) (s i)) :
    OnFall T (x i) (w i) (g i) (dkdTick (fun _ => g) s c i) := by
  obtain ⟨h1, h2, h3, h4, h5⟩ := hs
  have e0 : force (fun _ => g) (fun i => dkdAdvance c.m c.t (s i)) i = dkdAdvance c.m c.t (s i) := by
    have ea := (dkdAdvance_keep c.m c.t (s i)).2.1
    unfold force
    by_cases h : (dkdAdvance c.m c.t (s i)).active = true
    · rw [if_pos h]
      exact (by rw [← h5, ← ea] : { dkdAdvance c.m c.t (s i) with a := g i } = dkdAdvance c.m c.t (s i))
    · rw [if_neg h]
  simp only [dkdTick, e0]
  by_cases hc : c.m - (s i).nlast = (s i).nstep
  · have hl : ¬c.m - (s i).nlast < (s i).nstep := by omega
    simp [OnFall, dkdAdvance, hl, assign, plainEnd, record, hc, h2, h3, h5, fallPos, fallVel]
    exact ⟨fun k => by ring, fun k => by ring⟩
  · have k := (dkdAdvance_keep c.m c.t (s i)).1
    obtain ⟨k1, k2, k3, k4, k5, k6, k7, -⟩ := k
    rw [assign_keep _ _ _ _ (by rw [k5, k6]; exact hc), plainEnd_keep _ _ _ (by rw [k7, h1])]
    exact ⟨k7.trans h1, by rw [k1, k4]; exact h2, by rw [k2, k4]; exact h3, by rw [k3, h4],
      by rw [(dkdAdvance_keep c.m c.t (s i)).2.1, h5]⟩

/-- **C23 (constant acceleration, kick-drift-kick).** With individual steps of any lengths — all
sequences of turns of the main loop — every particle under its own constant acceleration is on its
exact parabola after every turn, not only at the ends of its steps. -/
theorem C23_free_fall (T : α) (x w g : Fin N → Vec n α) (s : Fin N → Body n α)
    (hs : ∀ i, OnFall T (x i) (w i) (g i) (s i)) (npec : ℕ) (cs : List (Tick N α)) (c : Tick N α) (i : Fin N) :
    (OnFall T (x i) (w i) (g i) ((cs ++ [c]).foldl (sphKdkTick (fun _ => g)) s i) ∧
      AtTime T (x i) (w i) (g i) c.t ((cs ++ [c]).foldl (sphKdkTick (fun _ => g)) s i)) ∧
    (OnFall T (x i) (w i) (g i) ((cs ++ [c]).foldl (nbodyKdkTick npec (fun _ => g)) s i) ∧
      AtTime T (x i) (w i) (g i) c.t ((cs ++ [c]).foldl (nbodyKdkTick npec (fun _ => g)) s i)) := by
  rw [List.foldl_append, List.foldl_append]
  have a : ∀ cs : List (Tick N α), ∀ i, OnFall T (x i) (w i) (g i) (cs.foldl (sphKdkTick (fun _ => g)) s i) := by
    intro cs
    induction cs using List.reverseRecOn with
    | nil => exact hs
    | append_singleton cs c ih =>
      intro i; rw [List.foldl_append]; exact (sphKdk_fall T x w g _ c i (ih i)).1
  have b : ∀ cs : List (Tick N α), ∀ i,
      OnFall T (x i) (w i) (g i) (cs.foldl (nbodyKdkTick npec (fun _ => g)) s i) := by
    intro cs
    induction cs using List.reverseRecOn with
    | nil => exact hs
    | append_singleton cs c ih =>
      intro i; rw [List.foldl_append]; exact (nbodyKdk_fall npec T x w g _ c i (ih i)).1
  exact ⟨sphKdk_fall T x w g _ c i (a cs i), nbodyKdk_fall npec T x w g _ c i (b cs i)⟩

/-- **C23 (constant acceleration, drift-kick-drift).** There the recorded values, those at the ends of
the steps, are exact. -/
theorem C23_free_fall_dkd (T : α) (x w g : Fin N → Vec n α) (s : Fin N → Body n α)
    (hs : ∀ i, OnFall T (x i) (w i) (g i) (s i)) (cs : List (Tick N α)) (i : Fin N) :
    OnFall T (x i) (w i) (g i) (cs.foldl (dkdTick (fun _ => g)) s i) := by
  induction cs using List.reverseRecOn generalizing i with
  | nil => exact hs i
  | append_singleton cs c ih =>
    rw [List.foldl_append]; exact dkd_fall T x w g _ c i (ih i)

/-! ### Concrete cases -/

/-- two particles on a line, attracted to each other like by a spring -/
def Leap.exF : (Fin 2 → Vec 1 ℚ) → Fin 2 → Vec 1 ℚ := fun r i _ => r (1 - i) 0 - r i 0

/-- particle at `x` with velocity `w`, at the beginning of a step of integer length 2 and length 1/2 -/
def Leap.exB (x w a dt : ℚ) : Body 1 ℚ where
  r := fun _ => x
  v := fun _ => w
  a := fun _ => a
  r0 := fun _ => x
  v0 := fun _ => w
  a0 := fun _ => a
  tlast := 0
  dt := dt
  dtNext := 0
  nlast := 0
  nstep := 2
  active := false
  endts := false

/-- the two particles -/
def Leap.exS (dt : ℚ) : Fin 2 → Body 1 ℚ := fun i => if i = 0 then exB 0 1 4 dt else exB 4 0 (-4) dt

/-- turns of the main loop -/
def Leap.exT (m : ℤ) (t : ℚ) : Tick 2 ℚ := ⟨m, t, fun _ => 2, fun _ => 1 / 2⟩

example : Together (exS (1 / 2)) 0 0 2 ∧ (∀ i, (exS (1 / 2) i).a0 = exF (start (exS (1 / 2))).r i) ∧
    (∀ i, (exS (1 / 2) i).dt = 1 / 2) := by
  refine ⟨?_, ?_, ?_⟩ <;> intro i <;> fin_cases i <;> simp [exS, exB, start] <;>
    (funext k; simp [exF])

example : ([exT 1 (1 / 4), exT 2 (1 / 2)].foldl (sphKdkTick exF) (exS (1 / 2)) 0).r0 0 = 1 ∧
    ([exT 1 (1 / 4), exT 2 (1 / 2)].foldl (sphKdkTick exF) (exS (1 / 2)) 0).v0 0 = 21 / 8 ∧
    ([exT 1 (1 / 4), exT 2 (1 / 2)].foldl (dkdTick exF) (exS (1 / 2)) 0).r0 0 = 31 / 32 ∧
    ([exT 1 (1 / 4), exT 2 (1 / 2)].foldl (nbodyKdkTick 1 exF) (exS (1 / 2)) 0).r0 0 = 1 := by
  decide +kernel

/-- **C23 (recorded length).** The condition on the recorded step length is needed: when it is not the
true length (C52 shows how that happens), a step, a reversal and a step do not lead back. -/
theorem C23_stale_length_fails :
    let s1 := [exT 2 (1 / 2)].foldl (sphKdkTick exF) (exS 1)
    let s2 := [exT 4 1].foldl (sphKdkTick exF) (reverse s1)
    Together (exS 1) 0 0 2 ∧ (reverse s2 0).r0 0 ≠ (exS 1 0).r0 0 := by
  refine ⟨?_, by decide +kernel⟩
  intro i; fin_cases i <;> simp [exS, exB]

/-- **C23 (Npec).** With two rounds of force and correction (`Npec = 2`) the star integrator applies the
velocity correction twice and the step is no longer reversible. -/
theorem C23_npec_two_fails :
    let s1 := [exT 2 (1 / 2)].foldl (nbodyKdkTick 2 exF) (exS (1 / 2))
    let s2 := [exT 4 1].foldl (nbodyKdkTick 2 exF) (reverse s1)
    Together (exS (1 / 2)) 0 0 2 ∧ (reverse s2 0).r0 0 ≠ (exS (1 / 2) 0).r0 0 := by
  refine ⟨?_, by decide +kernel⟩
  intro i; fin_cases i <;> simp [exS, exB]

example : OnFall (0 : ℚ) (fun _ : Fin 1 => 0) (fun _ => 1) (fun _ => 4) (exB 0 1 4 1) := by
  simp [OnFall, exB, fallPos, fallVel]

example : NoForce (fun _ => 1) exF ∧ NoTorque (fun _ => 1) exF := by
  refine ⟨?_, ?_⟩
  · intro r k; simp [Fin.sum_univ_two, exF]; ring
  · intro r k l
    have hk : k = 0 := Subsingleton.elim _ _
    have hl : l = 0 := Subsingleton.elim _ _
    subst hk; subst hl
    simp [Fin.sum_univ_two]

end Gandalf
