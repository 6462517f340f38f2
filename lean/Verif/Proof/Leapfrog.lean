import Verif.Model.Leapfrog
import Verif.Spec.Leapfrog
import Verif.Common

/-! Helper lemmas for C23. -/

set_option autoImplicit false
set_option linter.unusedSectionVars false

namespace Gandalf.Leap

variable {n N : ℕ} {α : Type*} [Field α] [CharZero α]

/-! ### The leapfrog maps -/

theorem Phase.ext' {x y : Phase N n α} (h : ∀ i k, x.r i k = y.r i k) (g : ∀ i k, x.v i k = y.v i k) :
    x = y := by
  obtain ⟨xr, xv⟩ := x
  obtain ⟨yr, yv⟩ := y
  have : xr = yr := funext fun i => funext fun k => h i k
  have : xv = yv := funext fun i => funext fun k => g i k
  simp_all

theorem kick_flip (F : (Fin N → Vec n α) → Fin N → Vec n α) (h : α) (x : Phase N n α) :
    ((x.kick F h).flip.kick F h).flip = x :=
  Phase.ext' (fun _ _ => rfl) fun i k => by simp only [Phase.flip, Phase.kick]; ring

theorem drift_flip (h : α) (x : Phase N n α) : ((x.drift h).flip.drift h).flip = x :=
  Phase.ext' (fun i k => by simp only [Phase.flip, Phase.drift]; ring)
    fun i k => by simp only [Phase.flip, Phase.drift]; ring

theorem flip_flip (x : Phase N n α) : x.flip.flip = x :=
  Phase.ext' (fun _ _ => rfl) fun i k => by simp only [Phase.flip]; ring

theorem kick_flip' (F : (Fin N → Vec n α) → Fin N → Vec n α) (h : α) (x : Phase N n α) :
    (x.kick F h).flip.kick F h = x.flip := by
  have := congrArg Phase.flip (kick_flip F h x)
  rwa [flip_flip] at this

theorem drift_flip' (h : α) (x : Phase N n α) : (x.drift h).flip.drift h = x.flip := by
  have := congrArg Phase.flip (drift_flip h x)
  rwa [flip_flip] at this

theorem kdk_flip (F : (Fin N → Vec n α) → Fin N → Vec n α) (h : α) (x : Phase N n α) :
    (x.kdk F h).flip.kdk F h = x.flip := by
  unfold Phase.kdk
  rw [kick_flip', drift_flip', kick_flip']

theorem dkd_flip (F : (Fin N → Vec n α) → Fin N → Vec n α) (h : α) (x : Phase N n α) :
    (x.dkd F h).flip.dkd F h = x.flip := by
  unfold Phase.dkd
  rw [drift_flip', kick_flip', drift_flip']

theorem kick_momentum {m : Fin N → α} {F : (Fin N → Vec n α) → Fin N → Vec n α} (hF : NoForce m F)
    (h : α) (x : Phase N n α) (k : Fin n) : (x.kick F h).momentum m k = x.momentum m k := by
  have : ∀ i, m i * (x.v i k + h * F x.r i k) = m i * x.v i k + h * (m i * F x.r i k) := fun i => by ring
  simp only [Phase.momentum, Phase.kick, this, Finset.sum_add_distrib, ← Finset.mul_sum, hF x.r k]
  ring

theorem kick_angMom {m : Fin N → α} {F : (Fin N → Vec n α) → Fin N → Vec n α} (hF : NoTorque m F)
    (h : α) (x : Phase N n α) (k l : Fin n) : (x.kick F h).angMom m k l = x.angMom m k l := by
  have : ∀ i, m i * (x.r i k * (x.v i l + h * F x.r i l) - x.r i l * (x.v i k + h * F x.r i k)) =
      m i * (x.r i k * x.v i l - x.r i l * x.v i k) +
        h * (m i * (x.r i k * F x.r i l - x.r i l * F x.r i k)) := fun i => by ring
  simp only [Phase.angMom, Phase.kick, this, Finset.sum_add_distrib, ← Finset.mul_sum, hF x.r k l]
  ring

theorem drift_angMom (m : Fin N → α) (h : α) (x : Phase N n α) (k l : Fin n) :
    (x.drift h).angMom m k l = x.angMom m k l := by
  simp only [Phase.angMom, Phase.drift]
  refine Finset.sum_congr rfl fun i _ => ?_
  ring

theorem kdk_momentum {m : Fin N → α} {F : (Fin N → Vec n α) → Fin N → Vec n α} (hF : NoForce m F)
    (h : α) (x : Phase N n α) (k : Fin n) : (x.kdk F h).momentum m k = x.momentum m k := by
  unfold Phase.kdk
  rw [kick_momentum hF]
  exact kick_momentum hF _ _ _

theorem dkd_momentum {m : Fin N → α} {F : (Fin N → Vec n α) → Fin N → Vec n α} (hF : NoForce m F)
    (h : α) (x : Phase N n α) (k : Fin n) : (x.dkd F h).momentum m k = x.momentum m k := by
  have : (x.dkd F h).momentum m k = ((x.drift (h / 2)).kick F h).momentum m k := rfl
  rw [this, kick_momentum hF]
  rfl

theorem kdk_angMom {m : Fin N → α} {F : (Fin N → Vec n α) → Fin N → Vec n α} (hF : NoTorque m F)
    (h : α) (x : Phase N n α) (k l : Fin n) : (x.kdk F h).angMom m k l = x.angMom m k l := by
  unfold Phase.kdk
  rw [kick_angMom hF, drift_angMom, kick_angMom hF]

theorem dkd_angMom {m : Fin N → α} {F : (Fin N → Vec n α) → Fin N → Vec n α} (hF : NoTorque m F)
    (h : α) (x : Phase N n α) (k l : Fin n) : (x.dkd F h).angMom m k l = x.angMom m k l := by
  unfold Phase.dkd
  rw [drift_angMom, kick_angMom hF, drift_angMom]

/-! ### The code -/

/-- all particles begin the same step of integer length `M` -/
def Together (s : Fin N → Body n α) (m : ℤ) (t : α) (M : ℤ) : Prop :=
  ∀ i, (s i).nlast = m ∧ (s i).tlast = t ∧ (s i).nstep = M ∧ (s i).endts = false

/-- the recorded start of the step -/
def start (s : Fin N → Body n α) : Phase N n α := ⟨fun i => (s i).r0, fun i => (s i).v0⟩

/-- what does not change before the end of the step -/
def SameStart (p q : Body n α) : Prop :=
  q.r0 = p.r0 ∧ q.v0 = p.v0 ∧ q.a0 = p.a0 ∧ q.tlast = p.tlast ∧ q.nlast = p.nlast ∧ q.nstep = p.nstep ∧
    q.endts = p.endts ∧ q.dt = p.dt

theorem SameStart.rfl' (p : Body n α) : SameStart p p := ⟨rfl, rfl, rfl, rfl, rfl, rfl, rfl, rfl⟩

theorem SameStart.trans {p q s : Body n α} (h : SameStart p q) (g : SameStart q s) : SameStart p s := by
  obtain ⟨a1, a2, a3, a4, a5, a6, a7, a8⟩ := h
  obtain ⟨b1, b2, b3, b4, b5, b6, b7, b8⟩ := g
  exact ⟨b1.trans a1, b2.trans a2, b3.trans a3, b4.trans a4, b5.trans a5, b6.trans a6, b7.trans a7, b8.trans a8⟩

theorem sphKdk_mid (F : (Fin N → Vec n α) → Fin N → Vec n α) (s : Fin N → Body n α) (c : Tick N α) (i : Fin N)
    (h : c.m - (s i).nlast ≠ (s i).nstep) (he : (s i).endts = false) :
    SameStart (s i) (sphKdkTick F s c i) := by
  simp [sphKdkTick, force, kdkAdvance, assign, sphKdkEnd, h, he, SameStart]

theorem pec_mid (F : (Fin N → Vec n α) → Fin N → Vec n α) (m : ℤ) (t : α) (k : ℕ) (s : Fin N → Body n α) (i : Fin N)
    (h : m - (s i).nlast ≠ (s i).nstep) (ha : (s i).active = false) :
    pec F m t k s i = s i := by
  induction k generalizing s with
  | zero => rfl
  | succ k ih =>
    have e : kdkCorrect m t (force F s i) = s i := by simp [force, kdkCorrect, h, ha]
    rw [pec, ih _ (by simpa only [e] using h) (by simpa only [e] using ha), e]

theorem nbodyKdk_mid (npec : ℕ) (F : (Fin N → Vec n α) → Fin N → Vec n α) (s : Fin N → Body n α) (c : Tick N α)
    (i : Fin N) (h : c.m - (s i).nlast ≠ (s i).nstep) (he : (s i).endts = false) :
    SameStart (s i) (nbodyKdkTick npec F s c i) := by
  have e := pec_mid F c.m c.t npec (fun i => kdkAdvance c.m c.t (s i)) i (by simpa [kdkAdvance] using h)
    (by simpa [kdkAdvance] using h)
  simp only [nbodyKdkTick, e]
  simp [kdkAdvance, assign, plainEnd, h, he, SameStart]

theorem dkdAdvance_keep (m : ℤ) (t : α) (p : Body n α) :
    SameStart p (dkdAdvance m t p) ∧ (dkdAdvance m t p).a = p.a ∧
      (dkdAdvance m t p).active = decide (m - p.nlast = p.nstep / 2) := by
  unfold dkdAdvance
  by_cases h : m - p.nlast < p.nstep
  · rw [if_pos h]; simp [SameStart]
  · rw [if_neg h]; simp [SameStart]

theorem force_keep (F : (Fin N → Vec n α) → Fin N → Vec n α) (s : Fin N → Body n α) (i : Fin N) :
    SameStart (s i) (force F s i) ∧ ((s i).active = false → (force F s i).a = (s i).a) := by
  unfold force
  by_cases h : (s i).active = true
  · rw [if_pos h]; simp [SameStart, h]
  · rw [if_neg h]; simp [SameStart]

theorem assign_keep (m ns : ℤ) (d : α) (p : Body n α) (h : m - p.nlast ≠ p.nstep) : assign m ns d p = p :=
  if_neg h

theorem plainEnd_keep (m : ℤ) (t : α) (p : Body n α) (h : p.endts = false) : plainEnd m t p = p := by
  simp [plainEnd, h]

theorem dkd_mid (F : (Fin N → Vec n α) → Fin N → Vec n α) (s : Fin N → Body n α) (c : Tick N α) (i : Fin N)
    (h : c.m - (s i).nlast ≠ (s i).nstep) (he : (s i).endts = false) :
    SameStart (s i) (dkdTick F s c i) := by
  have k : SameStart (s i) (force F (fun i => dkdAdvance c.m c.t (s i)) i) :=
    (dkdAdvance_keep c.m c.t (s i)).1.trans (force_keep F (fun i => dkdAdvance c.m c.t (s i)) i).1
  have k' := k
  obtain ⟨-, -, -, -, k5, k6, k7, -⟩ := k'
  simp only [dkdTick]
  rw [assign_keep _ _ _ _ (by rw [k5, k6]; exact h), plainEnd_keep _ _ _ (by rw [k7, he])]
  exact k

theorem fold_mid {T : (Fin N → Body n α) → Tick N α → Fin N → Body n α}
    (hT : ∀ s c i, c.m - (s i).nlast ≠ (s i).nstep → (s i).endts = false → SameStart (s i) (T s c i))
    {m M : ℤ} {t : α} (cs : List (Tick N α)) (hcs : ∀ c ∈ cs, c.m ≠ m + M) (s : Fin N → Body n α)
    (hs : Together s m t M) :
    (∀ i, SameStart (s i) (cs.foldl T s i)) ∧ Together (cs.foldl T s) m t M := by
  induction cs generalizing s with
  | nil => exact ⟨fun i => SameStart.rfl' _, hs⟩
  | cons c cs ih =>
    have h1 : ∀ i, SameStart (s i) (T s c i) := by
      intro i
      obtain ⟨a1, a2, a3, a4⟩ := hs i
      refine hT s c i ?_ a4
      rw [a1, a3]
      have := hcs c (List.mem_cons_self ..)
      omega
    have h2 : Together (T s c) m t M := by
      intro i
      obtain ⟨-, -, -, b4, b5, b6, b7, -⟩ := h1 i
      obtain ⟨a1, a2, a3, a4⟩ := hs i
      exact ⟨b5.trans a1, b4.trans a2, b6.trans a3, b7.trans a4⟩
    obtain ⟨g1, g2⟩ := ih (fun c' hc' => hcs c' (List.mem_cons_of_mem _ hc')) (T s c) h2
    exact ⟨fun i => (h1 i).trans (g1 i), g2⟩

/-- the state at the end of a kick-drift-kick step -/
def KdkDone (F : (Fin N → Vec n α) → Fin N → Vec n α) (s : Fin N → Body n α) (h : α) (c : Tick N α)
    (s' : Fin N → Body n α) : Prop :=
  (∀ i k, (s' i).r0 k = (s i).r0 k + (s i).v0 k * h + 1 / 2 * (s i).a0 k * h * h) ∧
  (∀ i k, (s' i).v0 k = (s i).v0 k + 1 / 2 * ((s i).a0 k + F (fun j => (s' j).r0) i k) * h) ∧
  (∀ i, (s' i).a0 = F (fun j => (s' j).r0) i) ∧ (∀ i, (s' i).r = (s' i).r0 ∧ (s' i).v = (s' i).v0) ∧
  (∀ i, (s' i).dt = c.d i) ∧
  ∀ i, (s' i).nlast = c.m ∧ (s' i).tlast = c.t ∧ (s' i).nstep = c.ns i ∧ (s' i).endts = false

theorem sphKdk_end (F : (Fin N → Vec n α) → Fin N → Vec n α) (s : Fin N → Body n α) (c : Tick N α)
    {m M : ℤ} {t : α} (hs : Together s m t M) (hc : c.m = m + M) (hdt : ∀ i, (s i).dt = c.t - t) :
    KdkDone F s (c.t - t) c (sphKdkTick F s c) := by
  have h1 : ∀ i, c.m - (s i).nlast = (s i).nstep := by
    intro i; obtain ⟨a1, -, a3, -⟩ := hs i; rw [a1, a3, hc]; ring
  have ht : ∀ i, (s i).tlast = t := fun i => (hs i).2.1
  refine ⟨?_, ?_, ?_, ?_, ?_, ?_⟩
  · intro i k; simp [sphKdkTick, force, kdkAdvance, assign, sphKdkEnd, record, h1, ht]
  · intro i k; simp [sphKdkTick, force, kdkAdvance, assign, sphKdkEnd, record, h1, ht, hdt]; ring
  · intro i; simp [sphKdkTick, force, kdkAdvance, assign, sphKdkEnd, record, h1, ht]
  · intro i; simp [sphKdkTick, force, kdkAdvance, assign, sphKdkEnd, record, h1, ht]
  · intro i; simp [sphKdkTick, force, kdkAdvance, assign, sphKdkEnd, record, h1, ht]
  · intro i; simp [sphKdkTick, force, kdkAdvance, assign, sphKdkEnd, record, h1, ht]

theorem nbodyKdk_end (F : (Fin N → Vec n α) → Fin N → Vec n α) (s : Fin N → Body n α) (c : Tick N α)
    {m M : ℤ} {t : α} (hs : Together s m t M) (hc : c.m = m + M) :
    KdkDone F s (c.t - t) c (nbodyKdkTick 1 F s c) := by
  have h1 : ∀ i, c.m - (s i).nlast = (s i).nstep := by
    intro i; obtain ⟨a1, -, a3, -⟩ := hs i; rw [a1, a3, hc]; ring
  have ht : ∀ i, (s i).tlast = t := fun i => (hs i).2.1
  refine ⟨?_, ?_, ?_, ?_, ?_, ?_⟩
  · intro i k; simp [nbodyKdkTick, pec, force, kdkAdvance, kdkCorrect, assign, plainEnd, record, h1, ht]
  · intro i k; simp [nbodyKdkTick, pec, force, kdkAdvance, kdkCorrect, assign, plainEnd, record, h1, ht]; ring
  · intro i; simp [nbodyKdkTick, pec, force, kdkAdvance, kdkCorrect, assign, plainEnd, record, h1, ht]
  · intro i; simp [nbodyKdkTick, pec, force, kdkAdvance, kdkCorrect, assign, plainEnd, record, h1, ht]
  · intro i; simp [nbodyKdkTick, pec, force, kdkAdvance, kdkCorrect, assign, plainEnd, record, h1, ht]
  · intro i; simp [nbodyKdkTick, pec, force, kdkAdvance, kdkCorrect, assign, plainEnd, record, h1, ht]

theorem KdkDone.kdk {F : (Fin N → Vec n α) → Fin N → Vec n α} {s s' : Fin N → Body n α} {h : α} {c : Tick N α}
    (hd : KdkDone F s h c s') (ha : ∀ i, (s i).a0 = F (fun j => (s j).r0) i) :
    start s' = (start s).kdk F h := by
  obtain ⟨h1, h2, -⟩ := hd
  have e : (start s').r = ((start s).kdk F h).r := by
    funext i k
    simp only [start, Phase.kdk, Phase.kick, Phase.drift]
    rw [h1, ha]; ring
  refine Phase.ext' (fun i k => by rw [e]) ?_
  intro i k
  have e' : (fun j => (s' j).r0) = ((start s).kdk F h).r := e
  simp only [start, h2, e', ha]
  simp only [Phase.kdk, Phase.kick, Phase.drift, start]
  ring

/-- after the half step the acceleration is that of the half-way positions -/
theorem dkd_half (F : (Fin N → Vec n α) → Fin N → Vec n α) (s : Fin N → Body n α) (c : Tick N α)
    {m M : ℤ} {t h : α} (hM : 0 < M) (hs : Together s m t M) (hc : c.m = m + M / 2) (ht : c.t = t + h / 2) (i : Fin N) :
    (dkdTick F s c i).a = F ((start s).drift (h / 2)).r i := by
  have h1 : ∀ i, c.m - (s i).nlast = (s i).nstep / 2 := by
    intro i; obtain ⟨a1, -, a3, -⟩ := hs i; rw [a1, a3, hc]; ring
  have h2 : ∀ i, (s i).nstep / 2 < (s i).nstep := by
    intro i; obtain ⟨-, -, a3, -⟩ := hs i; rw [a3]; omega
  have h3 : ∀ i, (s i).nstep / 2 ≠ (s i).nstep := fun i => (h2 i).ne
  have h4 : ∀ i, (s i).tlast = t := fun i => (hs i).2.1
  have h5 : ∀ i, (s i).endts = false := fun i => (hs i).2.2.2
  have e : (fun j k => (s j).r0 k + (s j).v0 k * (h / 2)) = ((start s).drift (h / 2)).r := by
    funext j k; simp only [Phase.drift, start]; ring
  simp [dkdTick, force, dkdAdvance, assign, plainEnd, h1, h2, h3, h4, h5, ht, e]

theorem assign_a (m ns : ℤ) (d : α) (p : Body n α) : (assign m ns d p).a = p.a := by
  unfold assign; by_cases h : m - p.nlast = p.nstep
  · rw [if_pos h]
  · rw [if_neg h]

theorem plainEnd_a (m : ℤ) (t : α) (p : Body n α) : (plainEnd m t p).a = p.a := by
  unfold plainEnd; by_cases h : p.endts = true
  · rw [if_pos h]; rfl
  · rw [if_neg h]

/-- neither before nor after the half step does the acceleration change -/
theorem dkd_keep (F : (Fin N → Vec n α) → Fin N → Vec n α) (s : Fin N → Body n α) (c : Tick N α)
    {m M : ℤ} {t : α} (hs : Together s m t M) (hc : c.m ≠ m + M / 2) (i : Fin N) :
    (dkdTick F s c i).a = (s i).a := by
  have h1 : c.m - (s i).nlast ≠ (s i).nstep / 2 := by
    obtain ⟨a1, -, a3, -⟩ := hs i; rw [a1, a3]; omega
  simp only [dkdTick, plainEnd_a, assign_a]
  rw [(force_keep F (fun i => dkdAdvance c.m c.t (s i)) i).2
    (by rw [(dkdAdvance_keep c.m c.t (s i)).2.2]; simpa using h1)]
  exact (dkdAdvance_keep c.m c.t (s i)).2.1

theorem dkd_end (F : (Fin N → Vec n α) → Fin N → Vec n α) (s : Fin N → Body n α) (c : Tick N α)
    {m M : ℤ} {t : α} (hM : 0 < M) (hs : Together s m t M) (hc : c.m = m + M) (i : Fin N) :
    (∀ k, (dkdTick F s c i).v0 k = (s i).v0 k + (s i).a k * (c.t - t)) ∧
    (∀ k, (dkdTick F s c i).r0 k =
      (s i).r0 k + 1 / 2 * ((s i).v0 k + ((s i).v0 k + (s i).a k * (c.t - t))) * (c.t - t)) ∧
    (dkdTick F s c i).nlast = c.m ∧ (dkdTick F s c i).tlast = c.t ∧ (dkdTick F s c i).nstep = c.ns i ∧
    (dkdTick F s c i).endts = false := by
  obtain ⟨a1, a2, a3, a4⟩ := hs i
  have h1 : c.m - (s i).nlast = (s i).nstep := by rw [a1, a3, hc]; ring
  have h3 : (s i).nstep ≠ (s i).nstep / 2 := by rw [a3]; omega
  refine ⟨?_, ?_, ?_⟩
  · intro k; simp [dkdTick, force, dkdAdvance, assign, plainEnd, record, h1, h3, a2]
  · intro k; simp [dkdTick, force, dkdAdvance, assign, plainEnd, record, h1, h3, a2]
  · simp [dkdTick, force, dkdAdvance, assign, plainEnd, record, h1, h3]

theorem fold_keep (F : (Fin N → Vec n α) → Fin N → Vec n α) {m M : ℤ} {t : α} (cs : List (Tick N α))
    (h1 : ∀ c ∈ cs, c.m ≠ m + M) (h2 : ∀ c ∈ cs, c.m ≠ m + M / 2) (s : Fin N → Body n α)
    (hs : Together s m t M) (i : Fin N) : (cs.foldl (dkdTick F) s i).a = (s i).a := by
  induction cs generalizing s with
  | nil => rfl
  | cons c cs ih =>
    have g := fold_mid (dkd_mid F) [c] (fun c' hc' => h1 c' (by simp at hc'; simp [hc'])) s hs
    simp only [List.foldl_cons, List.foldl_nil] at g
    rw [List.foldl_cons, ih (fun c' hc' => h1 c' (List.mem_cons_of_mem _ hc'))
      (fun c' hc' => h2 c' (List.mem_cons_of_mem _ hc')) _ g.2]
    exact dkd_keep F s c hs (h2 c (List.mem_cons_self ..)) i

end Gandalf.Leap
