import Verif.Proof.FvFlux
import Mathlib.Algebra.Order.Ring.Rat

/-!
# C26 – fluxes conserve every conserved variable
-/

set_option autoImplicit false
set_option linter.unusedSectionVars false

namespace Gandalf

open Fv

variable {n nv N : ℕ} {α : Type*} [CommRing α]

/-- A flux loop does exactly the transfers of its pairs, each taken from one particle and given to the other:
any fluxes, any cells, any distribution over threads. -/
theorem C26_transfers (irho : Fin nv) (active : Fin N → Bool) (dt : Fin N → α) (r : Fin N → Vec n α)
    (threads : List (List (Work n nv N α))) (hc : ∀ t ∈ threads, ∀ c ∈ t, c.1.WF) (parts : Fin N → Acc n nv α)
    (i : Fin N) (v : Fin nv) :
    (updateFluxes irho active dt r threads parts i).dQ v =
      (parts i).dQ v + ((allTransfers dt r threads).map fun t => t.gain i v).sum := by
  have h := updateFluxes_get (readQ_ok (n := n) (α := α) irho v) (readQ_lin v) active dt r i threads hc parts
  refine h.trans ?_
  congr 1
  unfold allTransfers
  generalize threads.flatten = cells
  induction cells with
  | nil => rfl
  | cons c cells ih =>
    simp only [List.map_cons, List.sum_cons, List.flatMap_cons, List.map_append, List.sum_append]
    rw [ih, workGain_transfers]

/-- The order of the cells and their distribution over the threads do not matter. -/
theorem C26_order (irho : Fin nv) (active : Fin N → Bool) (dt : Fin N → α) (r : Fin N → Vec n α)
    (threads threads' : List (List (Work n nv N α))) (hp : threads.flatten.Perm threads'.flatten)
    (hc : ∀ t ∈ threads, ∀ c ∈ t, c.1.WF) (parts : Fin N → Acc n nv α) (i : Fin N) (v : Fin nv) :
    (updateFluxes irho active dt r threads parts i).dQ v = (updateFluxes irho active dt r threads' parts i).dQ v := by
  have hc' : ∀ t ∈ threads', ∀ c ∈ t, c.1.WF := by
    intro t ht c hct
    have : c ∈ threads.flatten := hp.mem_iff.mpr (List.mem_flatten.mpr ⟨t, ht, hct⟩)
    obtain ⟨t', ht', h⟩ := List.mem_flatten.mp this
    exact hc t' ht' c h
  rw [C26_transfers irho active dt r threads hc, C26_transfers irho active dt r threads' hc']
  congr 1
  exact ((hp.flatMap_right _).map _).sum_eq

/-- A flux loop leaves the sum over all particles of every conserved variable unchanged, except for what passes to
mirror images behind a reflecting wall. -/
theorem C26_conserves (irho : Fin nv) (active : Fin N → Bool) (dt : Fin N → α) (r : Fin N → Vec n α)
    (threads : List (List (Work n nv N α))) (hc : ∀ t ∈ threads, ∀ c ∈ t, c.1.WF) (parts : Fin N → Acc n nv α)
    (v : Fin nv) :
    ∑ i, (updateFluxes irho active dt r threads parts i).dQ v +
      ((allTransfers dt r threads).map fun t => if t.dst = none then t.amount v else 0).sum =
    ∑ i, (parts i).dQ v := by
  simp only [C26_transfers irho active dt r threads hc, Finset.sum_add_distrib]
  generalize allTransfers dt r threads = T
  have : ∑ i, (T.map fun t => t.gain i v).sum = -(T.map fun t => if t.dst = none then t.amount v else 0).sum := by
    induction T with
    | nil => simp
    | cons t T ih =>
      simp only [List.map_cons, List.sum_cons, Finset.sum_add_distrib]
      rw [ih]
      unfold Transfer.gain
      rw [Finset.sum_sub_distrib]
      cases hd : t.dst with
      | none => simp; ring
      | some j => simp
  rw [this]
  ring

/-! ### the rates -/

namespace Fv

/-- the rates of `p` are the changes of `p'` -/
def Rates (p p' : Acc n nv α) : Prop := ∀ v, p.dQdt v = p'.dQ v

theorem godunov_rates (irho : Fin nv) (flux : ℕ → Option (Fin nv → α)) (dt : α) (ri : Vec n α) (rc : ℕ → Vec n α)
    (nb : List ℕ) : ∀ s s' : Acc n nv α × (ℕ → Acc n nv α), Rates s.1 s'.1 → (∀ j, Rates (s.2 j) (s'.2 j)) →
    Rates (godunov irho flux dt ri rc s nb).1 (godunov irho flux 1 ri rc s' nb).1 ∧
    ∀ j, Rates ((godunov irho flux dt ri rc s nb).2 j) ((godunov irho flux 1 ri rc s' nb).2 j) := by
  induction nb with
  | nil => intro s s' h1 h2; exact ⟨h1, h2⟩
  | cons j nb ih =>
    intro s s' h1 h2
    have step : ∀ (dt : α) (s : Acc n nv α × (ℕ → Acc n nv α)), godunov irho flux dt ri rc s (j :: nb) =
        godunov irho flux dt ri rc (match flux j with
          | none => s
          | some f => (addPart irho dt (fun k => ri k - rc j k) f s.1,
              Function.update s.2 j (addNeib irho dt (fun k => ri k - rc j k) f (s.2 j)))) nb := fun _ _ => rfl
    rw [step, step]
    cases flux j with
    | none => exact ih s s' h1 h2
    | some f =>
      refine ih _ _ (fun v => ?_) (fun j' v => ?_)
      · simp [addPart, h1 v]
      · by_cases hj : j' = j
        · subst hj
          simp only [Function.update_self]
          simp [addNeib, h2 j' v]
        · simp only [Function.update_of_ne hj]
          exact h2 j' v

theorem cellLoop_rates (irho : Fin nv) (flux : FluxFn N nv α) (dt : Fin N → α) (r : Fin N → Vec n α) (c : Cell n N α) :
    List.Forall₂ (fun a b => a.1 = b.1 ∧ Rates a.2 b.2) (cellLoop irho flux dt r c).1
      (cellLoop irho flux (fun _ => 1) r c).1 ∧
    ∀ j, Rates ((cellLoop irho flux dt r c).2 j) ((cellLoop irho flux (fun _ => 1) r c).2 j) := by
  unfold cellLoop
  have key : ∀ (acts : List (Fin N × List ℕ)) (s s' : List (Fin N × Acc n nv α) × (ℕ → Acc n nv α)),
      List.Forall₂ (fun a b => a.1 = b.1 ∧ Rates a.2 b.2) s.1 s'.1 → (∀ j, Rates (s.2 j) (s'.2 j)) →
      List.Forall₂ (fun a b => a.1 = b.1 ∧ Rates a.2 b.2)
        (acts.foldl (fun s a =>
          ((s.1 ++ [(a.1, (godunov irho (flux a.1) (dt a.1) (r a.1) c.r (Acc.zero, s.2) a.2).1)]),
            (godunov irho (flux a.1) (dt a.1) (r a.1) c.r (Acc.zero, s.2) a.2).2)) s).1
        (acts.foldl (fun s a =>
          ((s.1 ++ [(a.1, (godunov irho (flux a.1) 1 (r a.1) c.r (Acc.zero, s.2) a.2).1)]),
            (godunov irho (flux a.1) 1 (r a.1) c.r (Acc.zero, s.2) a.2).2)) s').1 ∧
      ∀ j, Rates ((acts.foldl (fun s a =>
          ((s.1 ++ [(a.1, (godunov irho (flux a.1) (dt a.1) (r a.1) c.r (Acc.zero, s.2) a.2).1)]),
            (godunov irho (flux a.1) (dt a.1) (r a.1) c.r (Acc.zero, s.2) a.2).2)) s).2 j)
        ((acts.foldl (fun s a =>
          ((s.1 ++ [(a.1, (godunov irho (flux a.1) 1 (r a.1) c.r (Acc.zero, s.2) a.2).1)]),
            (godunov irho (flux a.1) 1 (r a.1) c.r (Acc.zero, s.2) a.2).2)) s').2 j) := by
    intro acts
    induction acts with
    | nil => intro s s' h1 h2; exact ⟨h1, h2⟩
    | cons a acts ih =>
      intro s s' h1 h2
      simp only [List.foldl_cons]
      obtain ⟨g1, g2⟩ := godunov_rates irho (flux a.1) (dt a.1) (r a.1) c.r a.2 (Acc.zero, s.2) (Acc.zero, s'.2)
        (fun _ => rfl) h2
      exact ih _ _ (List.rel_append h1 (.cons ⟨rfl, g1⟩ .nil)) g2
  exact key c.acts _ _ .nil fun _ _ => rfl

theorem addBuf_rates {buf buf' : Fin N → Acc n nv α} {i : Fin N} (h : Rates (buf i) (buf' i)) {p p' : Acc n nv α}
    (hp : Rates p p') (j : Fin N) (act : Bool) (ha : j = i → act = true) :
    Rates (addBuf buf j act p i) (addBuf buf' j act p' i) := by
  unfold addBuf
  by_cases hj : j = i
  · subst hj
    intro v
    simp [ha rfl, h v, hp v]
  · simp only [Function.update_of_ne (fun e => hj e.symm)]
    exact h

theorem cellAdd_rates (irho : Fin nv) (flux : FluxFn N nv α) (dt : Fin N → α) (r : Fin N → Vec n α) (c : Cell n N α)
    {buf buf' : Fin N → Acc n nv α} {i : Fin N} (h : Rates (buf i) (buf' i))
    (ha : ∀ j, c.idx j = i → c.active j = true) :
    Rates (cellAdd irho flux dt r buf c i) (cellAdd irho flux (fun _ => 1) r buf' c i) := by
  obtain ⟨h1, h2⟩ := cellLoop_rates irho flux dt r c
  unfold cellAdd
  have hB : ∀ (l : List ℕ) (b b' : Fin N → Acc n nv α), Rates (b i) (b' i) →
      Rates (l.foldl (fun buf jj => if c.mirror jj then buf else
          addBuf buf (c.idx jj) (c.active jj) ((cellLoop irho flux dt r c).2 jj)) b i)
        (l.foldl (fun buf jj => if c.mirror jj then buf else
          addBuf buf (c.idx jj) (c.active jj) ((cellLoop irho flux (fun _ => 1) r c).2 jj)) b' i) := by
    intro l
    induction l with
    | nil => intro b b' hb; exact hb
    | cons j l ih =>
      intro b b' hb
      simp only [List.foldl_cons]
      apply ih
      cases c.mirror j
      · exact addBuf_rates hb (h2 j) _ _ (ha j)
      · exact hb
  have hA : ∀ (l l' : List (Fin N × Acc n nv α)), List.Forall₂ (fun a b => a.1 = b.1 ∧ Rates a.2 b.2) l l' →
      ∀ b b' : Fin N → Acc n nv α, Rates (b i) (b' i) →
      Rates (l.foldl (fun buf a => addBuf buf a.1 true a.2) b i)
        (l'.foldl (fun buf a => addBuf buf a.1 true a.2) b' i) := by
    intro l l' hl
    induction hl with
    | nil => intro b b' hb; exact hb
    | cons hab _ ih =>
      intro b b' hb
      simp only [List.foldl_cons]
      apply ih
      rw [← hab.1]
      exact addBuf_rates hb hab.2 _ _ fun _ => rfl
  exact hA _ _ h1 _ _ (hB _ _ _ h)

end Fv

/-- The rates of change (used for the time derivatives of a particle's state): those of an active particle change by
exactly the fluxes of its faces, what one side loses the other gains, and those of an inactive particle do not change. -/
theorem C26_rates (irho : Fin nv) (active : Fin N → Bool) (dt : Fin N → α) (r : Fin N → Vec n α)
    (threads : List (List (Work n nv N α))) (hc : ∀ t ∈ threads, ∀ c ∈ t, c.1.WF)
    (ha : ∀ t ∈ threads, ∀ c ∈ t, ∀ j, c.1.active j = active (c.1.idx j)) (parts : Fin N → Acc n nv α)
    (i : Fin N) (v : Fin nv) :
    (updateFluxes irho active dt r threads parts i).dQdt v = (parts i).dQdt v +
      if active i then ((allTransfers (fun _ => 1) r threads).map fun t => t.gain i v).sum else 0 := by
  by_cases hi : active i = true
  · rw [if_pos hi]
    have key : ∀ (ths : List (List (Work n nv N α))), (∀ t ∈ ths, t ∈ threads) → ∀ p p' : Fin N → Acc n nv α,
        Rates (p i) (p' i) →
        Rates (updateFluxes irho active dt r ths p i) (updateFluxes irho active (fun _ => 1) r ths p' i) := by
      intro ths
      induction ths with
      | nil => intro _ p p' h; exact h
      | cons t ths ih =>
        intro hm p p' h
        have step : ∀ (dt : Fin N → α) (p : Fin N → Acc n nv α), updateFluxes irho active dt r (t :: ths) p =
            updateFluxes irho active dt r ths (addThread active p (threadLoop irho dt r t)) := fun _ _ => rfl
        rw [step, step]
        apply ih fun t ht => hm t (by simp [ht])
        have hb : ∀ (cells : List (Work n nv N α)), (∀ c ∈ cells, ∀ j, c.1.active j = active (c.1.idx j)) →
            ∀ b b' : Fin N → Acc n nv α, Rates (b i) (b' i) →
            Rates (cells.foldl (fun buf c => cellAdd irho c.2 dt r buf c.1) b i)
              (cells.foldl (fun buf c => cellAdd irho c.2 (fun _ => 1) r buf c.1) b' i) := by
          intro cells
          induction cells with
          | nil => intro _ b b' hb; exact hb
          | cons c cells ihc =>
            intro hcs b b' hb
            simp only [List.foldl_cons]
            exact ihc (fun c hc => hcs c (by simp [hc])) _ _ (cellAdd_rates irho c.2 dt r c.1 hb
              fun j hj => by rw [hcs c (by simp) j, hj, hi])
        intro w
        have hw := hb t (ha t (hm t (by simp))) (fun _ => Acc.zero) (fun _ => Acc.zero) (fun _ => rfl) w
        simp only [addThread, hi, if_true, threadLoop]
        rw [h w, hw]
    let parts' : Fin N → Acc n nv α := fun j => { parts j with dQ := (parts j).dQdt }
    have h1 := key threads (fun _ h => h) parts parts' (fun _ => rfl) v
    rw [h1, C26_transfers irho active (fun _ => 1) r threads hc parts' i v]
  · rw [if_neg hi, add_zero]
    clear hc ha
    induction threads generalizing parts with
    | nil => rfl
    | cons t ths ih =>
      rw [updateFluxes, List.foldl_cons, ← updateFluxes, ih]
      simp [addThread, hi]

/-- no mirror images -/
def Fv.NoMirror (threads : List (List (Work n nv N α))) : Prop := ∀ t ∈ threads, ∀ c ∈ t, ∀ j, c.1.mirror j = false

/-- In a box without reflecting walls the sums are unchanged. -/
theorem C26_conserves_open (irho : Fin nv) (active : Fin N → Bool) (dt : Fin N → α) (r : Fin N → Vec n α)
    (threads : List (List (Work n nv N α))) (hc : ∀ t ∈ threads, ∀ c ∈ t, c.1.WF) (hm : NoMirror threads)
    (parts : Fin N → Acc n nv α) (v : Fin nv) :
    ∑ i, (updateFluxes irho active dt r threads parts i).dQ v = ∑ i, (parts i).dQ v := by
  rw [← C26_conserves irho active dt r threads hc parts v]
  have : ((allTransfers dt r threads).map fun t => if t.dst = none then t.amount v else 0) =
      (allTransfers dt r threads).map fun _ => (0 : α) := by
    refine List.map_congr_left fun t ht => if_neg ?_
    simp only [allTransfers, transfers, List.mem_flatMap, List.mem_filterMap, Option.map_eq_some_iff] at ht
    obtain ⟨c, hc, a, _, j, _, f, _, rfl⟩ := ht
    obtain ⟨tt, htt, hct⟩ := List.mem_flatten.mp hc
    simp [hm tt htt c hct j]
  rw [this]
  simp

/-- operations of a run without reflecting walls in which the limiter never cuts a step -/
def Fv.Op.Plain : Op n nv N α → Prop
  | .fluxes _ _ _ threads => (∀ t ∈ threads, ∀ c ∈ t, c.1.WF) ∧ NoMirror threads
  | .endStep _ => True
  | .cut _ _ => False

/-- Over any run the total of every conserved variable stays the same, steps in progress included. -/
theorem C26_run (irho : Fin nv) (ops : List (Op n nv N α)) (h : ∀ o ∈ ops, o.Plain) (s : State n nv N α) (v : Fin nv) :
    ∑ i, ((run irho s ops).Q0 i v + ((run irho s ops).acc i).dQ v) = ∑ i, (s.Q0 i v + (s.acc i).dQ v) := by
  induction ops generalizing s with
  | nil => rfl
  | cons o ops ih =>
    rw [run, List.foldl_cons, ← run, ih (fun o ho => h o (by simp [ho]))]
    have ho := h o (by simp)
    cases o with
    | fluxes active dt r threads =>
      simp only [step, Finset.sum_add_distrib]
      rw [C26_conserves_open irho active dt r threads ho.1 ho.2]
    | endStep i =>
      refine Finset.sum_congr rfl fun j _ => ?_
      simp only [step]
      by_cases hj : j = i
      · subst hj; simp [Acc.zero]
      · simp [Function.update_of_ne hj]
    | cut i dt => exact ho.elim

/-! ### two particles: mass `f` per unit time flows from particle 0 to particle 1 -/

/-- a cell with particle 0 active, its neighbour list holding a copy of particle 1 at `x = 3` -/
def twoCell : Cell 1 2 ℚ where
  ncopy := 1
  idx := fun _ => 1
  mirror := fun _ => false
  active := fun _ => true
  r := fun _ _ => 3
  acts := [(0, [0])]

/-- three conserved variables: momentum, mass, energy -/
def twoFlux : FluxFn 2 3 ℚ := fun _ _ => some ![5, 1, 7]

/-- a flux loop over a step of length 2 -/
def twoOp : Op 1 3 2 ℚ := .fluxes (fun _ => true) (fun _ => 2) (fun i _ => if i = 0 then 0 else 3) [[(twoCell, twoFlux)]]

def twoStart : State 1 3 2 ℚ where
  Q0 := fun _ _ => 10
  acc := fun _ => Acc.zero

/-- the hypotheses of the theorems hold and something is exchanged -/
example : twoOp.Plain ∧ ((run 1 twoStart [twoOp, .endStep 0, .endStep 1]).Q0 0 1,
    (run 1 twoStart [twoOp, .endStep 0, .endStep 1]).Q0 1 1) = (8, 12) := by
  refine ⟨⟨?_, ?_⟩, ?_⟩
  · intro t ht c hc
    simp only [List.mem_singleton] at ht
    subst ht
    simp only [List.mem_singleton] at hc
    subst hc
    intro a ha j hj
    simp only [twoCell, List.mem_singleton] at ha
    subst ha
    simp only [List.mem_singleton] at hj
    subst hj
    exact one_pos
  · intro t ht c hc j
    simp only [List.mem_singleton] at ht
    subst ht
    simp only [List.mem_singleton] at hc
    subst hc
    rfl
  · decide +kernel

/-- the hypotheses of `C26_rates` hold for the pair above, whose rates change by opposite amounts -/
example : (∀ j, twoCell.active j = (fun _ : Fin 2 => true) (twoCell.idx j)) ∧
    (((run 1 twoStart [twoOp]).acc 0).dQdt 1, ((run 1 twoStart [twoOp]).acc 1).dQdt 1) = (-1, 1) := by
  refine ⟨fun _ => rfl, ?_⟩
  decide +kernel

/-- When the limiter cuts a step it scales the changes of that particle only: the totals change. Particle 0 loses
mass over a step of length 2 to particle 1; its step is then cut to half; particle 1 keeps what it received. -/
theorem C26_cut_fails : (∑ i, (twoStart.Q0 i 1 + (twoStart.acc i).dQ 1) = 20) ∧
    ∑ i, ((run 1 twoStart [twoOp, .cut 0 1, .endStep 0, .endStep 1]).Q0 i 1 +
      ((run 1 twoStart [twoOp, .cut 0 1, .endStep 0, .endStep 1]).acc i).dQ 1) = 21 := by
  constructor
  · decide +kernel
  · decide +kernel

/-- The mass moments `rdmdt` used for the work of gravity cancel over all particles whatever the fluxes are … -/
theorem C26_mass_moment (irho : Fin nv) (active : Fin N → Bool) (dt : Fin N → α) (r : Fin N → Vec n α)
    (threads : List (List (Work n nv N α))) (hc : ∀ t ∈ threads, ∀ c ∈ t, c.1.WF) (hm : NoMirror threads)
    (parts : Fin N → Acc n nv α) (k : Fin n) :
    ∑ i, (updateFluxes irho active dt r threads parts i).rdmdt k = ∑ i, (parts i).rdmdt k := by
  have h := fun i => updateFluxes_get (readR_ok (n := n) (α := α) irho k) (readR_lin irho k) active dt r i threads hc parts
  have : ∀ i, (updateFluxes irho active dt r threads parts i).rdmdt k =
      (parts i).rdmdt k + (threads.flatten.map fun c => workGain (readR irho k) dt r c i).sum := h
  simp only [this, Finset.sum_add_distrib]
  have key : ∀ l : List (Work n nv N α), (∀ c ∈ l, ∀ j, c.1.mirror j = false) →
      ∑ i, (l.map fun c => workGain (readR irho k) dt r c i).sum = 0 := by
    intro l
    induction l with
    | nil => intro _; simp
    | cons c l ih =>
      intro hl
      simp only [List.map_cons, List.sum_cons, Finset.sum_add_distrib]
      rw [ih (fun c hc => hl c (by simp [hc])), sum_workGain _ _ _ _ (hl c (by simp)), add_zero]
  rw [key, add_zero]
  intro c hc j
  obtain ⟨t, ht, hct⟩ := List.mem_flatten.mp hc
  exact hm t ht c hct j

/-- … although the transfers move the centre of mass: in a uniform field the moments add no energy in total, while
the mass that went from `x = 0` to `x = 3` has done work. -/
theorem C26_mass_moment_fails :
    ∑ i : Fin 2, ((run 1 twoStart [twoOp]).acc i).rdmdt 0 = 0 ∧
    ∑ i : Fin 2, (if i = 0 then 0 else 3) * ((run 1 twoStart [twoOp]).acc i).dQ 1 = 6 := by
  constructor
  · decide +kernel
  · decide +kernel

end Gandalf
