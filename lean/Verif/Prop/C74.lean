import Verif.Proof.FvStep
import Verif.Prop.C23
import Mathlib.Algebra.Order.BigOperators.Ring.Finset

/-!
# C74 – a step of the meshless finite-volume schemes
-/

set_option autoImplicit false
set_option linter.unusedSectionVars false

namespace Gandalf

open FvStep

variable {n N : ℕ} {α : Type*} [Field α] [CharZero α]

/-! ### mass and momentum -/

theorem FvStep.moved_a (st : Bool) (F : (Fin N → Vec n α) → (Fin N → α) → Fin N → Vec n α) (s : Fin N → Part n α)
    (c : Tick N n α) (h : ∀ i, c.m - (s i).nlast = (s i).nstep) (hd : ∀ i, (s i).dead = false) (i : Fin N) :
    (moved st F s c i).a = F (fun j => (moved st F s c j).r)
      (fun j => (s j).Q0.mass + ((s j).dQ.mass + (c.gain j).dQ.mass)) i := by
  have hact : ∀ j, (advance st c.m c.ts (gain (c.gain j) (s j))).active = true := by
    intro j
    rw [advance, if_neg (by simp [gain, hd])]
    simp [gain, h]
  have hm : ∀ j, (advance st c.m c.ts (gain (c.gain j) (s j))).m =
      (s j).Q0.mass + ((s j).dQ.mass + (c.gain j).dQ.mass) := by
    intro j
    rw [advance, if_neg (by simp [gain, hd])]
    simp [gain, h, arrayVars, advancedGrav, advancedFlux, Cons.add]
  have e : (moved st F s c i).a = F (fun j => (advance st c.m c.ts (gain (c.gain j) (s j))).r)
      (fun j => (advance st c.m c.ts (gain (c.gain j) (s j))).m) i := by
    rw [moved, force, if_pos (hact i)]
  rw [e]
  simp only [hm]
  have : (fun j => (advance st c.m c.ts (gain (c.gain j) (s j))).r) = fun j => (moved st F s c j).r :=
    funext fun j => (moved_keeps st F s c j).2.2.2.symm
  rw [this]

/-- what the flux loop adds has no sum over the particles (C26: no walls) -/
def FvStep.Tick.Balanced (c : Tick N n α) : Prop :=
  ∑ i, (c.gain i).dQ.mass = 0 ∧ ∀ k, ∑ i, (c.gain i).dQ.mom k = 0

theorem FvStep.gains_balanced (cs : List (Tick N n α)) (h : ∀ c ∈ cs, c.Balanced) :
    ∑ i, (gains cs i).mass = 0 ∧ ∀ k, ∑ i, (gains cs i).mom k = 0 := by
  induction cs using List.reverseRecOn with
  | nil => simp [gains, Cons.zero]
  | append_singleton cs c ih =>
    obtain ⟨h1, h2⟩ := ih fun c hc => h c (by simp [hc])
    obtain ⟨g1, g2⟩ := h c (by simp)
    simp only [gains_append, Cons.add, Finset.sum_add_distrib, h1, g1, h2, g2]
    simp

/-- **C74, mass and momentum.** Particles on a common step, gravity without net force, fluxes that leave one particle for
another (C26): however many turns of the main loop the step takes and whatever the fluxes, total mass and momentum are the
same at its end; and what was assumed holds again for the next step. -/
theorem C74_conserves (st : Bool) (F : (Fin N → Vec n α) → (Fin N → α) → Fin N → Vec n α) (hF : FvStep.NoForce F)
    (s : Fin N → Part n α) {m M : ℤ} {h : α} (hs : Together s m M h)
    (ha : ∃ r, ∀ i, (s i).a0 = F r (fun j => (s j).Q0.mass) i) (cs : List (Tick N n α)) (c : Tick N n α)
    (hcs : ∀ c ∈ cs, c.m ≠ m + M) (hc : c.m = m + M) (hg : ∀ c' ∈ cs ++ [c], c'.Balanced) :
    let s' := (cs ++ [c]).foldl (tick st F) s
    ∑ i, (s' i).Q0.mass = ∑ i, ((s i).Q0.mass + (s i).dQ.mass) ∧
    (∀ k, ∑ i, (s' i).Q0.mom k = ∑ i, ((s i).Q0.mom k + (s i).dQ.mom k)) ∧
    (∃ r, ∀ i, (s' i).a0 = F r (fun j => (s' j).Q0.mass) i) ∧ (∀ i, (s' i).dQ = Cons.zero) ∧
    ∀ M' h', (∀ i, c.ns i = M') → (∀ i, c.d i = h') → Together s' c.m M' h' := by
  intro s'
  obtain ⟨g1, g2⟩ := run_mid st F cs hcs s hs
  have e : s' = tick st F (cs.foldl (tick st F) s) c := by simp [s', List.foldl_append]
  rw [e]
  set q := cs.foldl (tick st F) s with hq
  have hn : ∀ i, c.m - (q i).nlast = (q i).nstep := fun i => by rw [g2.nlast, g2.nstep, hc]; ring
  have te := fun i => tick_end st F q c i (hn i) (g2.dead i)
  have mk := fun i => moved_keeps st F q c i
  have am := moved_a st F q c hn g2.dead
  have hmass : ∀ i, (endCons (moved st F q c i)).mass = (q i).Q0.mass + ((q i).dQ.mass + (c.gain i).dQ.mass) := by
    intro i
    simp [endCons, Cons.add, (mk i).1.Q0, (mk i).2.1]
  have hmom : ∀ i k, (endCons (moved st F q c i)).mom k = (q i).Q0.mom k + ((q i).dQ.mom k + (c.gain i).dQ.mom k) +
      1 / 2 * h * ((q i).Q0.mass * (q i).a0 k +
        ((q i).Q0.mass + ((q i).dQ.mass + (c.gain i).dQ.mass)) * (moved st F q c i).a k) := by
    intro i k
    simp [endCons, Cons.add, (mk i).1.Q0, (mk i).2.1, (mk i).1.a0, (mk i).1.dt, g2.dt]
  have hG := gains_balanced _ hg
  simp only [gains_append, Cons.add, Finset.sum_add_distrib] at hG
  obtain ⟨r, ha⟩ := ha
  refine ⟨?_, ?_, ⟨fun j => (moved st F q c j).r, ?_⟩, ?_, ?_⟩
  · simp only [te, record, hmass, (g1 _).2.1, (g1 _).1.Q0, Cons.add, Finset.sum_add_distrib]
    linear_combination hG.1
  · intro k
    simp only [te, record]
    simp only [hmom, Finset.sum_add_distrib, ← Finset.mul_sum, am]
    rw [hF (fun j => (moved st F q c j).r) (fun j => (q j).Q0.mass + ((q j).dQ.mass + (c.gain j).dQ.mass)) k]
    have : ∑ i, (q i).Q0.mass * (q i).a0 k = 0 := by
      simp only [(g1 _).1.Q0, (g1 _).1.a0, ha]
      exact hF r _ k
    rw [this]
    simp only [(g1 _).2.1, (g1 _).1.Q0, Cons.add, Finset.sum_add_distrib]
    linear_combination hG.2 k
  · intro i
    simp only [te, record, hmass]
    exact am i
  · intro i
    simp only [te, record]
  · intro M' h' hM hh
    constructor
    all_goals intro i; rw [te]; simp [record, arrayVars, hM, hh, (mk i).1.dead, g2.dead]

/-- a run of whole steps: `b.1` are the turns within a step, `b.2` the last -/
def FvStep.Steps : ℤ → ℤ → List (List (Tick N n α) × Tick N n α) → Prop
  | _, _, [] => True
  | m, M, b :: bs => (∀ c ∈ b.1, c.m ≠ m + M) ∧ b.2.m = m + M ∧ (∀ c ∈ b.1 ++ [b.2], c.Balanced) ∧
      (∃ h', ∀ i, b.2.d i = h') ∧ ∃ M', (∀ i, b.2.ns i = M') ∧ FvStep.Steps b.2.m M' bs

/-- **C74, mass and momentum over any number of steps.** -/
theorem C74_run (st : Bool) (F : (Fin N → Vec n α) → (Fin N → α) → Fin N → Vec n α) (hF : FvStep.NoForce F) :
    ∀ (bs : List (List (Tick N n α) × Tick N n α)) (s : Fin N → Part n α) (m M : ℤ) (h : α), Together s m M h →
    (∃ r, ∀ i, (s i).a0 = F r (fun j => (s j).Q0.mass) i) → (∀ i, (s i).dQ = Cons.zero) → Steps m M bs →
    let s' := (bs.flatMap fun b => b.1 ++ [b.2]).foldl (tick st F) s
    ∑ i, (s' i).Q0.mass = ∑ i, (s i).Q0.mass ∧ ∀ k, ∑ i, (s' i).Q0.mom k = ∑ i, (s i).Q0.mom k := by
  intro bs
  induction bs with
  | nil => intro s m M h _ _ _ _; exact ⟨rfl, fun k => rfl⟩
  | cons b bs ih =>
    intro s m M h hs ha hz hb
    obtain ⟨h1, h2, h3, ⟨h', h4⟩, M', h5, h6⟩ := hb
    obtain ⟨c1, c2, c3, c4, c5⟩ := C74_conserves st F hF s hs ha b.1 b.2 h1 h2 h3
    have := ih ((b.1 ++ [b.2]).foldl (tick st F) s) b.2.m M' h' (c5 M' h' h5 h4) c3 c4 h6
    simp only [List.flatMap_cons, List.foldl_append (l := b.1 ++ [b.2])]
    refine ⟨this.1.trans (c1.trans ?_), fun k => (this.2 k).trans ((c2 k).trans ?_)⟩
    · simp [hz, Cons.zero]
    · simp [hz, Cons.zero]

/-! ### without fluxes: leapfrog -/

/-- the flux loop adds nothing -/
def FvStep.Tick.Free (c : Tick N n α) : Prop := ∀ i, c.gain i = ⟨Cons.zero, Cons.zero, fun _ => 0⟩

theorem FvStep.gains_free (cs : List (Tick N n α)) (h : ∀ c ∈ cs, c.Free) (i : Fin N) : gains cs i = Cons.zero := by
  induction cs using List.reverseRecOn with
  | nil => rfl
  | append_singleton cs c ih =>
    rw [gains_append, ih fun c hc => h c (by simp [hc]), h c (by simp) i]
    simp [Cons.add, Cons.zero]

/-- start of the step -/
def FvStep.start (s : Fin N → Part n α) : Leap.Phase N n α := ⟨fun i => (s i).r0, fun i => (s i).v0⟩

/-- nothing is on its way, and the recorded velocity is that of the recorded momentum -/
structure FvStep.Quiet (p : Part n α) : Prop where
  dQ : p.dQ = Cons.zero
  rdmdt : p.rdmdt = fun _ => 0
  mass : p.Q0.mass ≠ 0
  v0 : p.v0 = p.Q0.vel

/-- the last turn of a step without fluxes -/
theorem FvStep.end_free (F : (Fin N → Vec n α) → (Fin N → α) → Fin N → Vec n α) (s : Fin N → Part n α) {m M : ℤ} {h : α}
    (hs : Together s m M h) (hq : ∀ i, Quiet (s i)) (cs : List (Tick N n α)) (c : Tick N n α)
    (hcs : ∀ c ∈ cs, c.m ≠ m + M) (hc : c.m = m + M) (hts : c.ts * M = h) (hg : ∀ c' ∈ cs ++ [c], c'.Free) (i : Fin N) :
    let s' := (cs ++ [c]).foldl (tick false F) s
    let x : Fin N → Vec n α := fun j k => (s j).r0 k + (s j).v0 k * h + 1 / 2 * (s j).a0 k * h * h
    (s' i).r0 = x i ∧ (s' i).a0 = F x (fun j => (s j).Q0.mass) i ∧ (s' i).Q0.mass = (s i).Q0.mass ∧
    (∀ k, (s' i).v0 k = (s i).v0 k + 1 / 2 * h * ((s i).a0 k + (s' i).a0 k)) ∧
    (s' i).Q0.internal = (s i).Q0.internal +
      (h ^ 2 / 8 * ∑ k, ((s' i).a0 k - (s i).a0 k) ^ 2 - (s i).cooling * h / (s i).Q0.mass) ∧
    ((s i).hydro = true → (s' i).u = (s' i).Q0.internal) ∧ Quiet (s' i) ∧ (s' i).cooling = 0 ∧
    (s' i).hydro = (s i).hydro ∧ (∀ M' h', (∀ i, c.ns i = M') → (∀ i, c.d i = h') → Together s' c.m M' h') := by
  intro s' x
  obtain ⟨g1, g2⟩ := run_mid false F cs hcs s hs
  have e : s' = tick false F (cs.foldl (tick false F) s) c := by simp [s', List.foldl_append]
  rw [e]
  set q := cs.foldl (tick false F) s
  have hn : ∀ i, c.m - (q i).nlast = (q i).nstep := fun i => by rw [g2.nlast, g2.nstep, hc]; ring
  have te := fun i => tick_end false F q c i (hn i) (g2.dead i)
  have mk := fun i => moved_keeps false F q c i
  have am := moved_a false F q c hn g2.dead
  have hQ : ∀ j, (q j).dQ = Cons.zero := by
    intro j
    rw [(g1 j).2.1, (hq j).dQ, gains_free cs (fun c hc => hg c (by simp [hc]))]
    simp [Cons.add, Cons.zero]
  have hr : ∀ j, (q j).rdmdt = fun _ => 0 := by
    intro j
    rw [(g1 j).2.2 (fun c hc => by rw [hg c (by simp [hc]) j]), (hq j).rdmdt]
  have hgc : ∀ j, c.gain j = ⟨Cons.zero, Cons.zero, fun _ => 0⟩ := hg c (by simp)
  have mdQ : ∀ j, (moved false F q c j).dQ = Cons.zero := by
    intro j; rw [(mk j).2.1, hQ, hgc]; simp [Cons.add, Cons.zero]
  have mr : ∀ j, (moved false F q c j).rdmdt = fun _ => 0 := by
    intro j; rw [(mk j).2.2.1, hr, hgc]; simp
  have mQ0 : ∀ j, (moved false F q c j).Q0 = (s j).Q0 := fun j => (mk j).1.Q0.trans (g1 j).1.Q0
  have hτ : ∀ j, c.ts * ((c.m - (s j).nlast : ℤ) : α) = h := by
    intro j
    rw [hs.nlast, hc, show m + M - m = M by ring, hts]
  have mx : ∀ j, (moved false F q c j).r = x j := by
    intro j
    rw [(mk j).2.2.2, advance, if_neg (by simp [gain, g2.dead])]
    have hm := (hq j).mass
    funext k
    have h1 : (q j).nlast = (s j).nlast := (g1 j).1.nlast
    have hv := congrFun (hq j).v0 k
    have hn' : c.m - (s j).nlast = (q j).nstep := h1 ▸ hn j
    have hτ' : c.ts * (((q j).nstep : ℤ) : α) = h := hn' ▸ hτ j
    simp only [gain, arrayVars, advancedGrav, advancedFlux, hn, hQ, hgc, Cons.add, Cons.zero, (g1 j).1.Q0, (g1 j).1.r0,
      (g1 j).1.v0, (g1 j).1.a0, h1, hn', hτ', x, add_zero, if_true]
    simp only [Bool.false_eq_true, if_false]
    simp only [Cons.vel] at hv
    have e2 : (s j).Q0.mom k = (s j).v0 k * (s j).Q0.mass := by rw [hv]; field_simp
    rw [e2]
    simp
    field_simp
    ring
  have ma : ∀ j, (moved false F q c j).a = F x (fun j => (s j).Q0.mass) j := by
    intro j
    rw [am j]
    simp only [hQ, hgc, Cons.zero, add_zero, (g1 _).1.Q0, mx]
  have hm := (hq i).mass
  have mass' : (endCons (moved false F q c i)).mass = (s i).Q0.mass := by
    simp [endCons, Cons.add, mQ0, mdQ, Cons.zero]
  have hvel : ∀ k, (endCons (moved false F q c i)).mom k / (endCons (moved false F q c i)).mass =
      (s i).v0 k + 1 / 2 * h * ((s i).a0 k + F x (fun j => (s j).Q0.mass) i k) := by
    intro k
    rw [mass']
    have hv := congrFun (hq i).v0 k
    simp only [Cons.vel] at hv
    simp only [endCons, Cons.add, mQ0, mdQ, Cons.zero, add_zero, (mk i).1.a0, (g1 i).1.a0, (mk i).1.dt, g2.dt, ma, hv]
    field_simp
  have a0' : (tick false F q c i).a0 = F x (fun j => (s j).Q0.mass) i := by rw [te]; exact ma i
  have Q0' : (tick false F q c i).Q0 = endCons (moved false F q c i) := by rw [te]; rfl
  have hyd : (moved false F q c i).hydro = (s i).hydro := (mk i).1.hydro.trans (g1 i).1.hydro
  refine ⟨?_, a0', ?_, ?_, ?_, ?_, ⟨?_, ?_, ?_, ?_⟩, ?_, ?_, ?_⟩
  · rw [te]; exact mx i
  · rw [Q0', mass']
  · intro k; rw [a0', ← hvel k, te]; rfl
  · rw [Q0', endCons_internal (by rw [mQ0]; exact hm) (mdQ i) (mr i), a0', mQ0, ma, (mk i).1.a0, (g1 i).1.a0, (mk i).1.dt,
      g2.dt, (mk i).1.cooling, (g1 i).1.cooling]
  · intro hh
    rw [Q0', te]
    exact arrayVars_u (by simp [hyd, hh]) (by rw [mass']; exact hm)
  · rw [te]; rfl
  · rw [te]; rfl
  · rw [Q0', mass']; exact hm
  · rw [Q0', te]; rfl
  · rw [te]; rfl
  · rw [te]; exact hyd
  · intro M' h' hM hh
    constructor
    all_goals intro j; rw [te]; simp [record, arrayVars, hM, hh, (mk j).1.dead, g2.dead]

/-- **C74, gravity alone is kick-drift-kick.** Without fluxes the particles of a common step move as in the leapfrog scheme,
so that C23 applies: reversible, and momentum and angular momentum conserved. -/
theorem C74_kdk (F : (Fin N → Vec n α) → (Fin N → α) → Fin N → Vec n α) (s : Fin N → Part n α) {m M : ℤ} {h : α}
    (hs : Together s m M h) (hq : ∀ i, Quiet (s i)) (mass : Fin N → α) (hmass : ∀ i, (s i).Q0.mass = mass i)
    (ha : ∀ i, (s i).a0 = F (start s).r mass i) (cs : List (Tick N n α)) (c : Tick N n α)
    (hcs : ∀ c ∈ cs, c.m ≠ m + M) (hc : c.m = m + M) (hts : c.ts * M = h) (hg : ∀ c' ∈ cs ++ [c], c'.Free) :
    let s' := (cs ++ [c]).foldl (tick false F) s
    start s' = (start s).kdk (fun r => F r mass) h ∧ (∀ i, (s' i).a0 = F (start s').r mass i) ∧
    (∀ i, (s' i).Q0.mass = mass i) ∧ (∀ i, Quiet (s' i)) ∧
    ∀ M' h', (∀ i, c.ns i = M') → (∀ i, c.d i = h') → Together s' c.m M' h' := by
  intro s'
  have key := fun i => end_free F s hs hq cs c hcs hc hts hg i
  have hx : (fun j => (s' j).r0) = fun j k => (s j).r0 k + (s j).v0 k * h + 1 / 2 * (s j).a0 k * h * h :=
    funext fun j => (key j).1
  have hM : (fun j => (s j).Q0.mass) = mass := funext hmass
  have ha' : ∀ i, (s' i).a0 = F (start s').r mass i := by
    intro i
    have := (key i).2.1
    rw [hM] at this
    rw [this]
    simp only [start]
    rw [hx]
  have hx' : (start s').r = ((start s).kdk (fun r => F r mass) h).r := by
    simp only [start, hx, Leap.Phase.kdk, Leap.Phase.kick, Leap.Phase.drift]
    funext j k
    rw [ha j]
    simp only [start]
    ring
  refine ⟨?_, ha', fun i => ((key i).2.2.1).trans (hmass i), fun i => (key i).2.2.2.2.2.2.1, ?_⟩
  · have : (start s').v = ((start s).kdk (fun r => F r mass) h).v := by
      funext i k
      have hv := (key i).2.2.2.1 k
      have e1 : ((start s).kdk (fun r => F r mass) h).v i k =
          (s i).v0 k + h / 2 * F (start s).r mass i k + h / 2 * F ((start s).kdk (fun r => F r mass) h).r mass i k := rfl
      rw [e1, ← hx', ← ha', ← ha]
      show (s' i).v0 k = _
      rw [hv]
      ring
    cases hs' : start s' with
    | mk r v =>
      cases hk : (start s).kdk (fun r => F r mass) h with
      | mk r1 v1 =>
        rw [hs', hk] at this hx'
        simp only at this hx'
        rw [this, hx']
  · rcases isEmpty_or_nonempty (Fin N) with hE | ⟨⟨i⟩⟩
    · intro M' h' _ _
      exact ⟨fun i => hE.elim i, fun i => hE.elim i, fun i => hE.elim i, fun i => hE.elim i, fun i => hE.elim i⟩
    · exact (key i).2.2.2.2.2.2.2.2.2

/-! ### the internal energy -/

/-- **C74, partial: gravity alone does not heat.** Without fluxes and cooling the internal energy is the same at the end of a
step if the acceleration is, as in a uniform field. Missing: any other field (`C74_heat_fails`), where the energy grows by the
squared change of the velocity over the step. -/
theorem C74_heat_partial (F : (Fin N → Vec n α) → (Fin N → α) → Fin N → Vec n α) (s : Fin N → Part n α) {m M : ℤ} {h : α}
    (hs : Together s m M h) (hq : ∀ i, Quiet (s i)) (cs : List (Tick N n α)) (c : Tick N n α)
    (hcs : ∀ c ∈ cs, c.m ≠ m + M) (hc : c.m = m + M) (hts : c.ts * M = h) (hg : ∀ c' ∈ cs ++ [c], c'.Free) (i : Fin N)
    (hh : (s i).hydro = true) (hcool : (s i).cooling = 0) :
    let s' := (cs ++ [c]).foldl (tick false F) s
    (s' i).u = (s i).Q0.internal + h ^ 2 / 8 * ∑ k, ((s' i).a0 k - (s i).a0 k) ^ 2 ∧
    ((s' i).a0 = (s i).a0 → (s' i).u = (s i).Q0.internal) := by
  intro s'
  obtain ⟨_, _, _, _, h5, h6, _⟩ := end_free F s hs hq cs c hcs hc hts hg i
  have : (s' i).u = (s i).Q0.internal + h ^ 2 / 8 * ∑ k, ((s' i).a0 k - (s i).a0 k) ^ 2 := by
    rw [h6 hh, h5, hcool]; ring
  refine ⟨this, fun e => ?_⟩
  rw [this, e]
  simp

section Ordered

variable [LinearOrder α] [IsStrictOrderedRing α]

/-- **C74, negation: gravity heats.** Whenever the acceleration changes over a step the internal energy grows, whatever
the field and the direction of the motion: the work of gravity is not the gain of kinetic energy (MfvIntegration.cpp:165-169). -/
theorem C74_heat_fails (F : (Fin N → Vec n α) → (Fin N → α) → Fin N → Vec n α) (s : Fin N → Part n α) {m M : ℤ} {h : α}
    (hs : Together s m M h) (hq : ∀ i, Quiet (s i)) (cs : List (Tick N n α)) (c : Tick N n α)
    (hcs : ∀ c ∈ cs, c.m ≠ m + M) (hc : c.m = m + M) (hts : c.ts * M = h) (hg : ∀ c' ∈ cs ++ [c], c'.Free) (i : Fin N)
    (hh : (s i).hydro = true) (hcool : (s i).cooling = 0) (h0 : h ≠ 0)
    (hne : ((cs ++ [c]).foldl (tick false F) s i).a0 ≠ (s i).a0) :
    (s i).Q0.internal < ((cs ++ [c]).foldl (tick false F) s i).u := by
  rw [(C74_heat_partial F s hs hq cs c hcs hc hts hg i hh hcool).1]
  obtain ⟨k, hk⟩ := Function.ne_iff.mp hne
  have h1 : 0 < ∑ k, (((cs ++ [c]).foldl (tick false F) s i).a0 k - (s i).a0 k) ^ 2 :=
    Finset.sum_pos' (fun k _ => sq_nonneg _) ⟨k, Finset.mem_univ k, by have := sub_ne_zero.mpr hk; positivity⟩
  have h2 : 0 < h ^ 2 / 8 := by positivity
  nlinarith [mul_pos h2 h1]

/-- **C74, negation: the energy between.** Within a step the energy is advanced with the length of the whole step in place
of the time since its start (MfvIntegration.cpp:81-83): without fluxes and cooling, in any field and at any moment within the
step, the internal energy a falling particle shows its neighbours is too high by half the squared acceleration times the time
since the start times the time to the end of the step. -/
theorem C74_predict_fails (st : Bool) (F : (Fin N → Vec n α) → (Fin N → α) → Fin N → Vec n α) (s : Fin N → Part n α)
    (c : Tick N n α) (i : Fin N) (hd : (s i).dead = false) (he : (s i).endts = false) (hh : (s i).hydro = true)
    (hm : (s i).Q0.mass ≠ 0) (hr : (s i).dQdt = Cons.zero) (hg : c.Free) (hcool : (s i).cooling = 0)
    (hn : c.m - (s i).nlast ≠ (s i).nstep) :
    let τ := c.ts * ((c.m - (s i).nlast : ℤ) : α)
    (tick st F s c i).u = (s i).Q0.internal + τ * ((s i).dt - τ) / 2 * ∑ k, (s i).a0 k ^ 2 ∧
    (0 < τ → τ < (s i).dt → (s i).a0 ≠ 0 → (s i).Q0.internal < (tick st F s c i).u) := by
  intro τ
  have hu : (tick st F s c i).u = (advance st c.m c.ts (gain (c.gain i) (s i))).u := by
    obtain ⟨k, _⟩ := moved_keeps st F s c i
    have e : tick st F s c i = finish c.m c.t (assign c.m (c.ns i) (c.d i) (moved st F s c i)) := rfl
    rw [e, assign, if_neg (by rw [k.nlast, k.nstep]; exact hn), finish, if_neg (by simp [k.dead, hd]),
      if_neg (by rw [k.nlast, k.nstep, k.endts, he]; simpa using hn)]
    show (moved st F s c i).u = _
    rw [moved, force]
    split <;> rfl
  have h1 : (tick st F s c i).u = (s i).Q0.internal + τ * ((s i).dt - τ) / 2 * ∑ k, (s i).a0 k ^ 2 := by
    have hQ : advancedFlux (c.m - (s i).nlast) τ (gain (c.gain i) (s i)) = (s i).Q0 := by
      rw [advancedFlux, if_neg (by simpa [gain] using hn)]
      rw [hg i]
      simp [gain, hr, Cons.add, Cons.zero, Cons.smul]
    have hu2 : (advance st c.m c.ts (gain (c.gain i) (s i))).u =
        (arrayVars (advancedGrav τ (gain (c.gain i) (s i))
          (advancedFlux (c.m - (s i).nlast) τ (gain (c.gain i) (s i)))) (gain (c.gain i) (s i))).u := by
      rw [advance, if_neg (by simp [gain, hd])]
      rfl
    rw [hu, hu2, hQ, arrayVars_u (by simpa [gain] using hh) (by simpa [advancedGrav] using hm)]
    have := advanced_internal (p := gain (c.gain i) (s i)) τ (by simpa [gain] using hm)
    rw [show (gain (c.gain i) (s i)).Q0 = (s i).Q0 from rfl] at this
    rw [this]
    simp [gain, hcool]
  refine ⟨h1, fun h2 h3 h4 => ?_⟩
  rw [h1]
  obtain ⟨k, hk⟩ := Function.ne_iff.mp h4
  have h5 : 0 < ∑ k, (s i).a0 k ^ 2 :=
    Finset.sum_pos' (fun k _ => sq_nonneg _) ⟨k, Finset.mem_univ k, by
      have : (s i).a0 k ≠ 0 := hk
      positivity⟩
  have h6 : 0 < τ * ((s i).dt - τ) / 2 := by
    have := mul_pos h2 (sub_pos.mpr h3)
    linarith
  nlinarith [mul_pos h6 h5]

end Ordered

/-! ### moving observers -/

/-- a particle as seen by an observer for whom everything moves by `w` faster -/
def FvStep.Part.boost (w : Vec n α) (p : Part n α) : Part n α :=
  { p with
    v := fun k => p.v k + w k
    v0 := fun k => p.v0 k + w k
    Q0 := p.Q0.boost w
    dQ := p.dQ.boost w
    dQdt := p.dQdt.boost w }

theorem FvStep.boost_vel (w : Vec n α) {Q : Cons n α} (hm : Q.mass ≠ 0) (k : Fin n) :
    (Q.boost w).mom k / (Q.boost w).mass = Q.mom k / Q.mass + w k := by
  simp only [Cons.boost]
  field_simp

theorem FvStep.endCons_boost (w : Vec n α) (p : Part n α) : endCons (p.boost w) = (endCons p).boost w := by
  have e : (p.boost w).Q0.add (p.boost w).dQ = (p.Q0.add p.dQ).boost w := (boost_add w p.Q0 p.dQ).symm
  simp only [endCons]
  rw [e]
  generalize p.Q0.add p.dQ = Q
  have h0 : (p.boost w).a0 = p.a0 := rfl
  have h1 : (p.boost w).a = p.a := rfl
  have h2 : (p.boost w).dt = p.dt := rfl
  have h3 : (p.boost w).rdmdt = p.rdmdt := rfl
  have h4 : (p.boost w).cooling = p.cooling := rfl
  rw [h0, h1, h2, h3, h4]
  simp only [Part.boost, Cons.boost]
  ext1
  · funext k; simp only []; ring
  · rfl
  · simp only []
    have key : ∑ k, 1 / 2 * p.dt * (p.a0 k * (p.Q0.mom k + p.Q0.mass * w k + 1 / 2 * p.Q0.mass * p.a0 k * p.dt) +
        p.a k * (Q.mom k + Q.mass * w k + 1 / 2 * Q.mass * p.a k * p.dt)) + ∑ k, (w k * Q.mom k + Q.mass * w k ^ 2 / 2) =
        ∑ k, 1 / 2 * p.dt * (p.a0 k * (p.Q0.mom k + 1 / 2 * p.Q0.mass * p.a0 k * p.dt) +
        p.a k * (Q.mom k + 1 / 2 * Q.mass * p.a k * p.dt)) +
        ∑ k, (w k * (Q.mom k + 1 / 2 * p.dt * (p.Q0.mass * p.a0 k + Q.mass * p.a k)) + Q.mass * w k ^ 2 / 2) := by
      rw [← Finset.sum_add_distrib, ← Finset.sum_add_distrib]
      exact Finset.sum_congr rfl fun k _ => by ring
    linear_combination key

theorem FvStep.advanced_boost (w : Vec n α) (dn : ℤ) (dt : α) (p : Part n α) :
    advancedGrav dt (p.boost w) (advancedFlux dn dt (p.boost w)) = (advancedGrav dt p (advancedFlux dn dt p)).boost w := by
  have e : advancedFlux dn dt (p.boost w) = (advancedFlux dn dt p).boost w := by
    simp only [advancedFlux]
    by_cases h : dn = p.nstep
    · rw [if_pos h, if_pos (show dn = (p.boost w).nstep from h)]
      exact (boost_add w p.Q0 p.dQ).symm
    · rw [if_neg h, if_neg (show ¬dn = (p.boost w).nstep from h)]
      rw [boost_add, boost_smul]
      rfl
  rw [e]
  generalize advancedFlux dn dt p = Q
  simp only [advancedGrav]
  have h0 : (p.boost w).a0 = p.a0 := rfl
  have h2 : (p.boost w).dt = p.dt := rfl
  have h4 : (p.boost w).cooling = p.cooling := rfl
  rw [h0, h2, h4]
  simp only [Part.boost, Cons.boost]
  ext1
  · funext k; simp only []; ring
  · rfl
  · simp only []
    have key : ∑ k, 1 / 2 * dt * (p.a0 k * (p.Q0.mom k + p.Q0.mass * w k + 1 / 2 * p.Q0.mass * p.a0 k * p.dt) +
        p.a0 k * (Q.mom k + Q.mass * w k + 1 / 2 * Q.mass * p.a0 k * p.dt)) + ∑ k, (w k * Q.mom k + Q.mass * w k ^ 2 / 2) =
        ∑ k, 1 / 2 * dt * (p.a0 k * (p.Q0.mom k + 1 / 2 * p.Q0.mass * p.a0 k * p.dt) +
        p.a0 k * (Q.mom k + 1 / 2 * Q.mass * p.a0 k * p.dt)) +
        ∑ k, (w k * (Q.mom k + 1 / 2 * (p.Q0.mass + Q.mass) * p.a0 k * dt) + Q.mass * w k ^ 2 / 2) := by
      rw [← Finset.sum_add_distrib, ← Finset.sum_add_distrib]
      exact Finset.sum_congr rfl fun k _ => by ring
    linear_combination key

/-- **C74, moving observers.** Whatever the fluxes, gravity, cooling and steps: for an observer who sees everything move
faster by `w` a particle is advanced to the place shifted by `w` times the time, its velocity is larger by `w`, mass and
internal energy are the same, both within a step and at its end. -/
theorem C74_galilean (w : Vec n α) (m : ℤ) (t ts : α) (p : Part n α) (hd : p.dead = false) :
    ((advancedFlux (m - p.nlast) (ts * ((m - p.nlast : ℤ) : α)) p).mass ≠ 0 →
      let q := advance false m ts p
      let q' := advance false m ts (p.boost w)
      q'.m = q.m ∧ q'.u = q.u ∧ (∀ k, q'.v k = q.v k + w k) ∧
        ∀ k, q'.r k = q.r k + w k * (ts * ((m - p.nlast : ℤ) : α))) ∧
    (p.Q0.mass + p.dQ.mass ≠ 0 → m - p.nlast = p.nstep ∨ p.endts = true →
      let q := finish m t p
      let q' := finish m t (p.boost w)
      q'.m = q.m ∧ q'.u = q.u ∧ (∀ k, q'.v k = q.v k + w k) ∧ (∀ k, q'.v0 k = q.v0 k + w k) ∧ q'.Q0 = q.Q0.boost w) := by
  have hd' : (p.boost w).dead = false := hd
  constructor
  · intro hm q q'
    have e1 : q = { arrayVars (advancedGrav (ts * ((m - p.nlast : ℤ) : α)) p
        (advancedFlux (m - p.nlast) (ts * ((m - p.nlast : ℤ) : α)) p)) p with
        active := decide (m - p.nlast = p.nstep)
        r := fun k => p.r0 k + 1 / 2 * (p.v0 k + (arrayVars (advancedGrav (ts * ((m - p.nlast : ℤ) : α)) p
          (advancedFlux (m - p.nlast) (ts * ((m - p.nlast : ℤ) : α)) p)) p).v k) * (ts * ((m - p.nlast : ℤ) : α)) } := by
      simp only [q, advance]
      rw [if_neg (by simp [hd])]
      rfl
    have e2 : q' = { arrayVars (advancedGrav (ts * ((m - p.nlast : ℤ) : α)) (p.boost w)
        (advancedFlux (m - p.nlast) (ts * ((m - p.nlast : ℤ) : α)) (p.boost w))) (p.boost w) with
        active := decide (m - p.nlast = p.nstep)
        r := fun k => p.r0 k + 1 / 2 * (p.v0 k + w k + (arrayVars (advancedGrav (ts * ((m - p.nlast : ℤ) : α)) (p.boost w)
          (advancedFlux (m - p.nlast) (ts * ((m - p.nlast : ℤ) : α)) (p.boost w))) (p.boost w)).v k) *
            (ts * ((m - p.nlast : ℤ) : α)) } := by
      simp only [q', advance]
      rw [if_neg (by simp [hd'])]
      rfl
    rw [e1, e2, advanced_boost]
    have hmass : (advancedGrav (ts * ((m - p.nlast : ℤ) : α)) p
      (advancedFlux (m - p.nlast) (ts * ((m - p.nlast : ℤ) : α)) p)).mass ≠ 0 := hm
    generalize advancedGrav (ts * ((m - p.nlast : ℤ) : α)) p
      (advancedFlux (m - p.nlast) (ts * ((m - p.nlast : ℤ) : α)) p) = Q at hmass ⊢
    refine ⟨rfl, ?_, fun k => boost_vel w hmass k, fun k => ?_⟩
    · by_cases hy : p.hydro = true
      · show (arrayVars (Q.boost w) (p.boost w)).u = (arrayVars Q p).u
        rw [arrayVars_u (Q := Q.boost w) (p := p.boost w) hy hmass, arrayVars_u hy hmass, boost_internal w hmass]
      · simp [arrayVars, Part.boost, hy]
    · have := boost_vel w hmass k
      simp only [arrayVars]
      rw [this]
      ring
  · intro hm he q q'
    have he' : m - (p.boost w).nlast = (p.boost w).nstep ∨ (p.boost w).endts = true := he
    have e1 : q = record m t (endCons p) (arrayVars (endCons p) p) := by
      simp only [q, finish]; rw [if_neg (by simp [hd]), if_pos he]
    have e2 : q' = record m t ((endCons p).boost w) (arrayVars ((endCons p).boost w) (p.boost w)) := by
      simp only [q', finish]; rw [if_neg (by simp [hd']), if_pos he', endCons_boost]
    have hmass : (endCons p).mass ≠ 0 := hm
    rw [e1, e2]
    generalize endCons p = Q at hmass ⊢
    refine ⟨rfl, ?_, fun k => boost_vel w hmass k, fun k => boost_vel w hmass k, rfl⟩
    by_cases hy : p.hydro = true
    · show (arrayVars (Q.boost w) (p.boost w)).u = (arrayVars Q p).u
      rw [arrayVars_u (Q := Q.boost w) (p := p.boost w) hy hmass, arrayVars_u hy hmass, boost_internal w hmass]
    · simp [record, arrayVars, Part.boost, hy]

/-! ### steps cut short -/

/-- **C74, a step cut short is a step.** Without fluxes a particle whose step the limiter ends early makes a proper step
of the shorter length with the acceleration `A` computed at the place reached. -/
theorem C74_cut (ld ls m ns : ℤ) (t ts d : α) (p : Part n α) (A : Vec n α) (hq : Quiet p) (hr : p.dQdt = Cons.zero)
    (hd : p.dead = false) (h1 : p.levelneib - p.level > ld)
    (h2 : (m - p.nlast) % 2 ^ (ls - (p.levelneib - ld)).toNat = 0) (h3 : m - p.nlast ≠ p.nstep) :
    let τ := ts * ((m - p.nlast : ℤ) : α)
    let x := check ld ls m ts (advance false m ts p)
    let q := finish m t (assign m ns d { x with a := A })
    x.active = true ∧ (∀ k, q.r0 k = p.r0 k + p.v0 k * τ + 1 / 2 * p.a0 k * τ * τ) ∧
    (∀ k, q.v0 k = p.v0 k + 1 / 2 * τ * (p.a0 k + A k)) ∧ q.a0 = A ∧ q.Q0.mass = p.Q0.mass ∧ q.nlast = m ∧
    q.Q0.internal = p.Q0.internal + (τ ^ 2 / 8 * ∑ k, (A k - p.a0 k) ^ 2 - p.cooling * τ / p.Q0.mass) := by
  intro τ x q
  have k := advance_keeps false m ts p
  obtain ⟨k1, k2, k3⟩ := advance_more false m ts p
  have kl : (advance false m ts p).level = p.level ∧ (advance false m ts p).levelneib = p.levelneib := by
    rw [advance, if_neg (by simp [hd])]
    exact ⟨rfl, rfl⟩
  set y := advance false m ts p with hy
  have ex : x = { y with
      nstep := m - y.nlast
      level := y.levelneib - ld
      dt := ((m - y.nlast : ℤ) : α) * ts
      dQ := Cons.smul (((m - y.nlast : ℤ) : α) * ts) y.dQdt
      active := true } := by
    have ex1 : x = check ld ls m ts y := rfl
    rw [ex1, check, if_neg (by simp [k.dead, hd]), if_pos ⟨by rw [kl.1, kl.2]; exact h1, by rw [k.nlast, kl.2]; exact h2,
      by rw [k.nlast, k.nstep]; exact h3⟩]
  have eq : q = record m t (endCons { x with a := A }) (arrayVars (endCons { x with a := A })
      { x with
        a := A
        endts := true
        nstep := ns
        dtNext := d }) := by
    simp only [q, assign]
    rw [if_pos (by rw [ex]), finish, if_neg (by rw [ex]; simp [k.dead, hd]), if_pos (Or.inr rfl)]
    rfl
  have hm := hq.mass
  have ev : ∀ k, p.Q0.mom k = p.v0 k * p.Q0.mass := by
    intro k
    rw [hq.v0]
    simp only [Cons.vel]
    field_simp
  have xQ0 : x.Q0 = p.Q0 := by rw [ex]; exact k.Q0
  have xdQ : x.dQ = Cons.zero := by rw [ex]; simp [k2, hr, Cons.smul, Cons.zero]
  have xr : x.rdmdt = fun _ => 0 := by rw [ex]; exact k3.trans hq.rdmdt
  have xa0 : x.a0 = p.a0 := by rw [ex]; exact k.a0
  have xdt : x.dt = τ := by rw [ex]; simp only [k.nlast, τ]; ring
  have xc : x.cooling = p.cooling := by rw [ex]; exact k.cooling
  have mass' : (endCons { x with a := A }).mass = p.Q0.mass := by simp [endCons, Cons.add, xQ0, xdQ, Cons.zero]
  refine ⟨by rw [ex], fun j => ?_, fun j => ?_, by rw [eq]; rfl, by rw [eq]; exact mass', by rw [eq]; rfl, ?_⟩
  · have e1 : q.r0 = y.r := by rw [eq, ex]; rfl
    rw [e1, hy, advance, if_neg (by simp [hd])]
    simp only [arrayVars, advancedGrav, advancedFlux, if_neg h3, Cons.add, hr, Cons.smul, Cons.zero, zero_mul, add_zero, ev]
    show _ = p.r0 j + p.v0 j * τ + 1 / 2 * p.a0 j * τ * τ
    have : ts * ((m - p.nlast : ℤ) : α) = τ := rfl
    rw [this]
    simp
    field_simp
    ring
  · have e1 : q.v0 j = (endCons { x with a := A }).mom j / (endCons { x with a := A }).mass := by rw [eq]; rfl
    rw [e1, mass']
    simp only [endCons, Cons.add, xQ0, xdQ, Cons.zero, add_zero, xa0, xdt, ev]
    field_simp
  · have e1 : q.Q0 = endCons { x with a := A } := by rw [eq]; rfl
    rw [e1, endCons_internal (p := { x with a := A }) (by rw [xQ0]; exact hm) xdQ xr]
    simp only [xQ0, xdt, xa0, xc]

/-! ### examples: two particles drawn together by a spring, and a step of two ticks -/

namespace FvStep

/-- a spring between every two particles, as strong as the product of the masses -/
def spring (r : Fin N → Vec n α) (m : Fin N → α) (i : Fin N) : Vec n α := fun k => ∑ j, m j * (r j k - r i k)

theorem spring_noForce : NoForce (spring : (Fin N → Vec n α) → (Fin N → α) → Fin N → Vec n α) := by
  intro r m k
  simp only [spring, Finset.mul_sum]
  have h : ∑ i, ∑ j, m i * (m j * (r j k - r i k)) = ∑ i, ∑ j, -(m i * (m j * (r j k - r i k))) := by
    rw [Finset.sum_comm]
    exact Finset.sum_congr rfl fun i _ => Finset.sum_congr rfl fun j _ => by ring
  simp only [Finset.sum_neg_distrib] at h
  have h2 : (2 : α) * ∑ i, ∑ j, m i * (m j * (r j k - r i k)) = 0 := by linear_combination h
  exact (mul_eq_zero.mp h2).resolve_left (by norm_num)

/-- masses 1 and 2 at rest at 0 and 1, internal energy 3 -/
def twoBodies : Fin 2 → Part 1 ℚ := fun i =>
  { r := fun _ => (i : ℕ), v := fun _ => 0, a := fun _ => if i = 0 then 2 else -1
    r0 := fun _ => (i : ℕ), v0 := fun _ => 0, a0 := fun _ => if i = 0 then 2 else -1
    m := (i : ℕ) + 1, u := 3, Q0 := ⟨fun _ => 0, (i : ℕ) + 1, 3 * ((i : ℕ) + 1)⟩, dQ := Cons.zero, dQdt := Cons.zero
    rdmdt := fun _ => 0, cooling := 0, dt := 1, dtNext := 1, tlast := 0, nlast := 0, nstep := 2, level := 0, levelneib := 0
    hydro := true, active := false, endts := false, dead := false }

theorem twoBodies_together : Together twoBodies 0 2 1 := by
  constructor <;> intro i <;> rfl

theorem twoBodies_quiet (i : Fin 2) : Quiet (twoBodies i) := by
  refine ⟨rfl, rfl, ?_, ?_⟩
  · fin_cases i <;> norm_num [twoBodies]
  · funext k; simp [twoBodies, Cons.vel]

/-- turns of the main loop; in the second mass 1/2 and momentum 1 pass from the second particle to the first -/
def freeTick (m : ℤ) : Tick 2 1 ℚ := ⟨m, m / 2, 1 / 2, fun _ => ⟨Cons.zero, Cons.zero, fun _ => 0⟩, fun _ => 2, fun _ => 1⟩
def fluxTick (m : ℤ) : Tick 2 1 ℚ :=
  ⟨m, m / 2, 1 / 2, fun i => ⟨if i = 0 then ⟨fun _ => 1, 1 / 2, 7⟩ else ⟨fun _ => -1, -1 / 2, -7⟩, Cons.zero, fun _ => 0⟩,
    fun _ => 2, fun _ => 1⟩

theorem fluxTick_balanced (m : ℤ) : (fluxTick m).Balanced := by
  refine ⟨?_, fun k => ?_⟩ <;> simp [fluxTick, Fin.sum_univ_two]
  ring

theorem twoBodies_a0 (i : Fin 2) : (twoBodies i).a0 = spring (fun j => (twoBodies j).r0) (fun j => (twoBodies j).Q0.mass) i := by
  funext k
  fin_cases i <;> norm_num [twoBodies, spring, Fin.sum_univ_two]

end FvStep

example : ∃ r, ∀ i, (twoBodies i).a0 = spring r (fun j => (twoBodies j).Q0.mass) i := ⟨_, twoBodies_a0⟩

/-- mass 3 and no momentum after a step with fluxes, though both particles changed -/
example : let s' := ([fluxTick 1] ++ [fluxTick 2]).foldl (tick false spring) twoBodies
    ∑ i, (s' i).Q0.mass = 3 ∧ ∑ i, (s' i).Q0.mom 0 = 0 := by
  obtain ⟨h1, h2, _⟩ := C74_conserves false spring spring_noForce twoBodies twoBodies_together ⟨_, twoBodies_a0⟩
    [fluxTick 1] (fluxTick 2) (by simp [fluxTick]) (by simp [fluxTick])
    (by simp [fluxTick_balanced])
  refine ⟨h1.trans ?_, (h2 0).trans ?_⟩ <;> norm_num [twoBodies, Cons.zero, Fin.sum_univ_two]

example : Steps 0 2 [([fluxTick 1], fluxTick 2), ([fluxTick 3], fluxTick 4)] := by
  refine ⟨by simp [fluxTick], by simp [fluxTick], by simp [fluxTick_balanced], ⟨1, fun _ => rfl⟩, 2, fun _ => rfl,
    by simp [fluxTick], by simp [fluxTick], by simp [fluxTick_balanced], ⟨1, fun _ => rfl⟩, 2, fun _ => rfl, trivial⟩

/-- the step of `C74_kdk` for two particles on a spring -/
example : start (([freeTick 1] ++ [freeTick 2]).foldl (tick false spring) twoBodies) =
    (start twoBodies).kdk (fun r => spring r fun i => (twoBodies i).Q0.mass) 1 :=
  (C74_kdk spring twoBodies twoBodies_together twoBodies_quiet _ (fun _ => rfl) twoBodies_a0 [freeTick 1] (freeTick 2)
    (by simp [freeTick]) (by simp [freeTick]) (by norm_num [freeTick]) (by simp [freeTick, Tick.Free])).1

/-- `C74_heat_fails`: the first particle, of internal energy 3 and without any neighbour to exchange heat with, warms -/
example : (3 : ℚ) < (([freeTick 1] ++ [freeTick 2]).foldl (tick false spring) twoBodies 0).u := by
  have h3 : (twoBodies 0).Q0.internal = 3 := by norm_num [twoBodies, Cons.internal, Cons.kinetic]
  have key := end_free spring twoBodies twoBodies_together twoBodies_quiet [freeTick 1] (freeTick 2)
    (by simp [freeTick]) (by simp [freeTick]) (by norm_num [freeTick]) (by simp [freeTick, Tick.Free]) 0
  have := C74_heat_fails spring twoBodies twoBodies_together twoBodies_quiet [freeTick 1] (freeTick 2)
    (by simp [freeTick]) (by simp [freeTick]) (by norm_num [freeTick]) (by simp [freeTick, Tick.Free]) 0 rfl rfl one_ne_zero
    (by
      rw [key.2.1]
      intro h
      have := congrFun h 0
      norm_num [spring, twoBodies, Fin.sum_univ_two] at this)
  rwa [h3] at this

/-- `C74_predict_fails`: half way through the step the first particle shows 3 + 1/2 · 2² · 1/4 -/
example : (tick false spring twoBodies (freeTick 1) 0).u = 7 / 2 := by
  have h3 : (twoBodies 0).Q0.internal = 3 := by norm_num [twoBodies, Cons.internal, Cons.kinetic]
  rw [(C74_predict_fails false spring twoBodies (freeTick 1) 0 rfl rfl rfl (by norm_num [twoBodies]) rfl (fun _ => rfl) rfl
    (by simp [freeTick, twoBodies])).1, h3]
  norm_num [freeTick, twoBodies]

/-- `C74_cut`: the first particle's neighbours are three levels deeper, so its step is cut at half -/
example : let p := { twoBodies 0 with levelneib := 3 }
    Quiet p ∧ p.levelneib - p.level > 2 ∧ ((1 : ℤ) - p.nlast) % 2 ^ ((1 : ℤ) - (p.levelneib - 2)).toNat = 0 ∧
      (1 : ℤ) - p.nlast ≠ p.nstep :=
  ⟨⟨rfl, rfl, by norm_num [twoBodies], by funext k; simp [twoBodies, Cons.vel]⟩, by norm_num [twoBodies],
    by norm_num [twoBodies], by norm_num [twoBodies]⟩

example : (twoBodies 0).Q0.mass + (twoBodies 0).dQ.mass ≠ 0 ∧ (2 : ℤ) - (twoBodies 0).nlast = (twoBodies 0).nstep := by
  norm_num [twoBodies, Cons.zero]

end Gandalf
