import Verif.Spec.FvFlux
import Mathlib.Algebra.BigOperators.Fin
import Mathlib.Tactic.Ring
import Mathlib.Tactic.Linarith

/-! # Flux loops are lists of transfers -/

set_option autoImplicit false
set_option linter.unusedSectionVars false

namespace Gandalf.Fv

variable {n nv N : ℕ} {α : Type*} [CommRing α]

/-- a linear read-out of an accumulator, with its value on `addPart` and `addNeib` -/
structure Readout (n nv : ℕ) (α : Type*) [CommRing α] where
  get : Acc n nv α → α
  amt : α → Vec n α → (Fin nv → α) → α
  zero : get Acc.zero = 0

/-- read-out compatible with the pair update -/
structure Readout.OK (irho : Fin nv) (R : Readout n nv α) : Prop where
  part : ∀ dt dr f p, R.get (addPart irho dt dr f p) = R.get p - R.amt dt dr f
  neib : ∀ dt dr f p, R.get (addNeib irho dt dr f p) = R.get p + R.amt dt dr f

/-- the amounts a particle hands over to its neighbours -/
def amounts (R : Readout n nv α) (flux : ℕ → Option (Fin nv → α)) (dt : α) (ri : Vec n α) (rc : ℕ → Vec n α)
    (nb : List ℕ) : List (ℕ × α) :=
  nb.filterMap fun j => (flux j).map fun f => (j, R.amt dt (fun k => ri k - rc j k) f)

theorem godunov_get {irho : Fin nv} {R : Readout n nv α} (hR : R.OK irho) (flux : ℕ → Option (Fin nv → α)) (dt : α)
    (ri : Vec n α) (rc : ℕ → Vec n α) (nb : List ℕ) : ∀ s : Acc n nv α × (ℕ → Acc n nv α),
    R.get (godunov irho flux dt ri rc s nb).1 = R.get s.1 - ((amounts R flux dt ri rc nb).map (·.2)).sum ∧
    ∀ j, R.get ((godunov irho flux dt ri rc s nb).2 j) =
      R.get (s.2 j) + ((amounts R flux dt ri rc nb).map fun x => if x.1 = j then x.2 else 0).sum := by
  induction nb with
  | nil => intro s; simp [godunov, amounts]
  | cons j nb ih =>
    intro s
    rw [godunov, List.foldl_cons, ← godunov]
    cases hf : flux j with
    | none =>
      have e : amounts R flux dt ri rc (j :: nb) = amounts R flux dt ri rc nb := by simp [amounts, hf]
      rw [e]
      exact ih s
    | some f =>
      have e : amounts R flux dt ri rc (j :: nb) =
          (j, R.amt dt (fun k => ri k - rc j k) f) :: amounts R flux dt ri rc nb := by simp [amounts, hf]
      rw [e]
      obtain ⟨h1, h2⟩ := ih (addPart irho dt (fun k => ri k - rc j k) f s.1,
        Function.update s.2 j (addNeib irho dt (fun k => ri k - rc j k) f (s.2 j)))
      refine ⟨?_, fun j' => ?_⟩
      · simp only [h1, hR.part, List.map_cons, List.sum_cons]
        ring
      · simp only [h2 j', List.map_cons, List.sum_cons]
        by_cases hj : j = j'
        · subst hj
          rw [Function.update_self, hR.neib, if_pos rfl]
          ring
        · rw [Function.update_of_ne (fun h => hj h.symm), if_neg hj]
          ring

/-- all amounts of a cell: source, copy, amount -/
def cellAmounts (R : Readout n nv α) (flux : FluxFn N nv α) (dt : Fin N → α) (r : Fin N → Vec n α) (rc : ℕ → Vec n α)
    (acts : List (Fin N × List ℕ)) : List (Fin N × ℕ × α) :=
  acts.flatMap fun a => (amounts R (flux a.1) (dt a.1) (r a.1) rc a.2).map fun x => (a.1, x.1, x.2)

theorem cellLoop_get {irho : Fin nv} {R : Readout n nv α} (hR : R.OK irho) (flux : FluxFn N nv α) (dt : Fin N → α)
    (r : Fin N → Vec n α) (rc : ℕ → Vec n α) (acts : List (Fin N × List ℕ)) :
    ∀ s : List (Fin N × Acc n nv α) × (ℕ → Acc n nv α),
    let s' := acts.foldl (fun s a =>
      ((s.1 ++ [(a.1, (godunov irho (flux a.1) (dt a.1) (r a.1) rc (Acc.zero, s.2) a.2).1)]),
       (godunov irho (flux a.1) (dt a.1) (r a.1) rc (Acc.zero, s.2) a.2).2)) s
    (∀ i, (s'.1.map fun a => if a.1 = i then R.get a.2 else 0).sum =
      (s.1.map fun a => if a.1 = i then R.get a.2 else 0).sum -
        ((cellAmounts R flux dt r rc acts).map fun x => if x.1 = i then x.2.2 else 0).sum) ∧
    ∀ j, R.get (s'.2 j) = R.get (s.2 j) +
      ((cellAmounts R flux dt r rc acts).map fun x => if x.2.1 = j then x.2.2 else 0).sum := by
  induction acts with
  | nil => intro s; simp [cellAmounts]
  | cons a acts ih =>
    intro s
    simp only [List.foldl_cons]
    obtain ⟨h1, h2⟩ := ih ((s.1 ++ [(a.1, (godunov irho (flux a.1) (dt a.1) (r a.1) rc (Acc.zero, s.2) a.2).1)]),
       (godunov irho (flux a.1) (dt a.1) (r a.1) rc (Acc.zero, s.2) a.2).2)
    obtain ⟨g1, g2⟩ := godunov_get hR (flux a.1) (dt a.1) (r a.1) rc a.2 (Acc.zero, s.2)
    have e : cellAmounts R flux dt r rc (a :: acts) =
        ((amounts R (flux a.1) (dt a.1) (r a.1) rc a.2).map fun x => (a.1, x.1, x.2)) ++
          cellAmounts R flux dt r rc acts := by simp [cellAmounts]
    rw [e]
    refine ⟨fun i => ?_, fun j => ?_⟩
    · rw [h1 i]
      simp only [List.map_append, List.sum_append, List.map_cons, List.map_nil, List.sum_cons, List.sum_nil, g1, R.zero,
        List.map_map]
      by_cases hi : a.1 = i
      · simp only [hi, if_true, Function.comp_def]
        ring
      · simp only [hi, if_false, Function.comp_def, List.map_const', List.sum_replicate, nsmul_zero]
        ring
    · rw [h2 j, g2 j]
      simp only [List.map_append, List.sum_append, List.map_map, Function.comp_def]
      ring

theorem addBuf_get (buf : Fin N → Acc n nv α) (i : Fin N) (act : Bool) (p : Acc n nv α) (v : Fin nv) (j : Fin N) :
    (addBuf buf i act p j).dQ v = (buf j).dQ v + if i = j then p.dQ v else 0 := by
  unfold addBuf
  by_cases h : i = j
  · subst h; simp
  · simp [Function.update_of_ne (fun e => h e.symm), h]

theorem addBuf_get_r (buf : Fin N → Acc n nv α) (i : Fin N) (act : Bool) (p : Acc n nv α) (k : Fin n) (j : Fin N) :
    (addBuf buf i act p j).rdmdt k = (buf j).rdmdt k + if i = j then p.rdmdt k else 0 := by
  unfold addBuf
  by_cases h : i = j
  · subst h; simp
  · simp [Function.update_of_ne (fun e => h e.symm), h]

/-- read-outs that buffers pass on unchanged -/
structure Readout.Lin (R : Readout n nv α) : Prop where
  buf : ∀ {N : ℕ} (buf : Fin N → Acc n nv α) (i : Fin N) (act : Bool) (p : Acc n nv α) (j : Fin N),
    R.get (addBuf buf i act p j) = R.get (buf j) + if i = j then R.get p else 0
  thr : ∀ {N : ℕ} (active : Fin N → Bool) (parts buf : Fin N → Acc n nv α) (i : Fin N),
    R.get (addThread active parts buf i) = R.get (parts i) + R.get (buf i)

theorem sum_range_pick (m j : ℕ) (hj : j < m) (g : ℕ → α) :
    ((List.range m).map fun jj => if j = jj then g jj else 0).sum = g j := by
  induction m with
  | zero => omega
  | succ m ih =>
    rw [List.range_succ, List.map_append, List.sum_append]
    by_cases h : j = m
    · subst h
      have : ((List.range j).map fun jj => if j = jj then g jj else 0) = (List.range j).map fun _ => (0 : α) := by
        refine List.map_congr_left fun jj hjj => ?_
        rw [if_neg]
        have := List.mem_range.mp hjj
        omega
      rw [this]
      simp
    · rw [ih (by omega)]
      simp [h]

theorem sum_map_sub' {ι : Type*} (l : List ι) (f g : ι → α) :
    (l.map fun x => f x - g x).sum = (l.map f).sum - (l.map g).sum := by
  induction l with
  | nil => simp
  | cons a l ih => simp only [List.map_cons, List.sum_cons, ih]; ring

theorem cellAdd_get {irho : Fin nv} {R : Readout n nv α} (hR : R.OK irho) (hL : R.Lin) (flux : FluxFn N nv α)
    (dt : Fin N → α) (r : Fin N → Vec n α) (buf : Fin N → Acc n nv α) (c : Cell n N α) (hc : c.WF) (i : Fin N) :
    R.get (cellAdd irho flux dt r buf c i) = R.get (buf i) +
      ((cellAmounts R flux dt r c.r c.acts).map fun x =>
        (if c.mirror x.2.1 = false ∧ c.idx x.2.1 = i then x.2.2 else 0) - if x.1 = i then x.2.2 else 0).sum := by
  obtain ⟨h1, h2⟩ := cellLoop_get hR flux dt r c.r c.acts ([], fun _ => Acc.zero)
  have hA : ∀ (l : List (Fin N × Acc n nv α)) (b : Fin N → Acc n nv α),
      R.get (l.foldl (fun buf a => addBuf buf a.1 true a.2) b i) =
        R.get (b i) + (l.map fun a => if a.1 = i then R.get a.2 else 0).sum := by
    intro l
    induction l with
    | nil => intro b; simp
    | cons a l ih => intro b; rw [List.foldl_cons, ih, hL.buf]; simp only [List.map_cons, List.sum_cons]; ring
  have hB : ∀ (l : List ℕ) (cp : ℕ → Acc n nv α) (b : Fin N → Acc n nv α),
      R.get (l.foldl (fun buf jj => if c.mirror jj then buf else addBuf buf (c.idx jj) (c.active jj) (cp jj)) b i) =
        R.get (b i) + (l.map fun jj => if c.mirror jj = false ∧ c.idx jj = i then R.get (cp jj) else 0).sum := by
    intro l cp
    induction l with
    | nil => intro b; simp
    | cons j l ih =>
      intro b
      rw [List.foldl_cons, ih]
      simp only [List.map_cons, List.sum_cons]
      cases hm : c.mirror j
      · simp only [Bool.false_eq_true, if_false, hL.buf, true_and]
        ring
      · simp
  change R.get ((cellLoop irho flux dt r c).1.foldl (fun buf a => addBuf buf a.1 true a.2)
    ((List.range c.ncopy).foldl (fun buf jj =>
      if c.mirror jj then buf else addBuf buf (c.idx jj) (c.active jj) ((cellLoop irho flux dt r c).2 jj)) buf) i) = _
  have e1 : ((cellLoop irho flux dt r c).1.map fun a => if a.1 = i then R.get a.2 else 0).sum =
      -((cellAmounts R flux dt r c.r c.acts).map fun x => if x.1 = i then x.2.2 else 0).sum := by
    have := h1 i
    simp only [List.map_nil, List.sum_nil, zero_sub] at this
    exact this
  have e2 : ∀ j, R.get ((cellLoop irho flux dt r c).2 j) =
      ((cellAmounts R flux dt r c.r c.acts).map fun x => if x.2.1 = j then x.2.2 else 0).sum := by
    intro j
    have := h2 j
    simp only [R.zero, zero_add] at this
    exact this
  rw [hA, hB, e1]
  have hin : ∀ x ∈ cellAmounts R flux dt r c.r c.acts, x.2.1 < c.ncopy := by
    intro x hx
    simp only [cellAmounts, amounts, List.mem_flatMap, List.mem_map, List.mem_filterMap] at hx
    obtain ⟨a, ha, y, ⟨j, hj, hf⟩, rfl⟩ := hx
    rw [Option.map_eq_some_iff] at hf
    obtain ⟨f, _, rfl⟩ := hf
    exact hc a ha j hj
  have e3 : ((List.range c.ncopy).map fun jj => if c.mirror jj = false ∧ c.idx jj = i then
      R.get ((cellLoop irho flux dt r c).2 jj) else 0).sum =
      ((cellAmounts R flux dt r c.r c.acts).map fun x =>
        if c.mirror x.2.1 = false ∧ c.idx x.2.1 = i then x.2.2 else 0).sum := by
    simp only [e2]
    generalize cellAmounts R flux dt r c.r c.acts = A at hin
    clear e1 e2 h1 h2
    induction A with
    | nil => simp
    | cons x A ih =>
      simp only [List.map_cons, List.sum_cons]
      rw [← ih fun y hy => hin y (by simp [hy])]
      have hx := sum_range_pick c.ncopy x.2.1 (hin x (by simp))
        (fun jj => if c.mirror jj = false ∧ c.idx jj = i then x.2.2 else 0)
      rw [← hx, ← List.sum_map_add]
      congr 1
      refine List.map_congr_left fun jj _ => ?_
      by_cases hm : c.mirror jj = false ∧ c.idx jj = i <;> by_cases hj : x.2.1 = jj <;> simp [hm, hj]
  rw [e3, sum_map_sub']
  ring

/-- contribution of a work item to particle `i` -/
def workGain (R : Readout n nv α) (dt : Fin N → α) (r : Fin N → Vec n α) (c : Work n nv N α) (i : Fin N) : α :=
  ((cellAmounts R c.2 dt r c.1.r c.1.acts).map fun x =>
    (if c.1.mirror x.2.1 = false ∧ c.1.idx x.2.1 = i then x.2.2 else 0) - if x.1 = i then x.2.2 else 0).sum

theorem threadLoop_get {irho : Fin nv} {R : Readout n nv α} (hR : R.OK irho) (hL : R.Lin) (dt : Fin N → α)
    (r : Fin N → Vec n α) (cells : List (Work n nv N α)) (hc : ∀ c ∈ cells, c.1.WF) (i : Fin N) :
    R.get (threadLoop irho dt r cells i) = (cells.map fun c => workGain R dt r c i).sum := by
  have key : ∀ (l : List (Work n nv N α)) (b : Fin N → Acc n nv α), (∀ c ∈ l, c.1.WF) →
      R.get (l.foldl (fun buf c => cellAdd irho c.2 dt r buf c.1) b i) =
        R.get (b i) + (l.map fun c => workGain R dt r c i).sum := by
    intro l
    induction l with
    | nil => intro b _; simp
    | cons c l ih =>
      intro b hl
      rw [List.foldl_cons, ih _ (fun c hc => hl c (by simp [hc])), cellAdd_get hR hL _ _ _ _ _ (hl c (by simp))]
      simp only [List.map_cons, List.sum_cons, workGain]
      ring
  rw [threadLoop, key cells _ hc, R.zero, zero_add]

theorem updateFluxes_get {irho : Fin nv} {R : Readout n nv α} (hR : R.OK irho) (hL : R.Lin) (active : Fin N → Bool)
    (dt : Fin N → α) (r : Fin N → Vec n α) (i : Fin N) (threads : List (List (Work n nv N α)))
    (hc : ∀ t ∈ threads, ∀ c ∈ t, c.1.WF) : ∀ parts : Fin N → Acc n nv α,
    R.get (updateFluxes irho active dt r threads parts i) =
      R.get (parts i) + (threads.flatten.map fun c => workGain R dt r c i).sum := by
  induction threads with
  | nil => intro parts; simp [updateFluxes]
  | cons t threads ih =>
    intro parts
    rw [updateFluxes, List.foldl_cons, ← updateFluxes, ih (fun t ht => hc t (by simp [ht])), hL.thr,
      threadLoop_get hR hL _ _ _ (hc t (by simp))]
    simp only [List.flatten_cons, List.map_append, List.sum_append]
    ring

/-- the conserved variable `v` -/
def readQ (v : Fin nv) : Readout n nv α where
  get := fun p => p.dQ v
  amt := fun dt _ f => f v * dt
  zero := rfl

theorem readQ_ok (irho v : Fin nv) : (readQ (n := n) (α := α) v).OK irho := ⟨fun _ _ _ _ => rfl, fun _ _ _ _ => rfl⟩

theorem readQ_lin (v : Fin nv) : (readQ (n := n) (α := α) v).Lin where
  buf := fun buf i act p j => addBuf_get buf i act p v j
  thr := fun _ _ _ _ => rfl

/-- the component `k` of the mass moment -/
def readR (irho : Fin nv) (k : Fin n) : Readout n nv α where
  get := fun p => p.rdmdt k
  amt := fun dt dr f => dr k * f irho * dt
  zero := rfl

theorem readR_ok (irho : Fin nv) (k : Fin n) : (readR (α := α) irho k).OK irho :=
  ⟨fun _ _ _ _ => rfl, fun _ _ _ _ => rfl⟩

theorem readR_lin (irho : Fin nv) (k : Fin n) : (readR (α := α) irho k).Lin where
  buf := fun buf i act p j => addBuf_get_r buf i act p k j
  thr := fun _ _ _ _ => rfl

theorem workGain_transfers (dt : Fin N → α) (r : Fin N → Vec n α) (c : Work n nv N α) (i : Fin N) (v : Fin nv) :
    workGain (readQ v) dt r c i = ((transfers dt r c.1 c.2).map fun t => t.gain i v).sum := by
  unfold workGain transfers cellAmounts
  generalize c.1.acts = acts
  induction acts with
  | nil => simp
  | cons a acts ih =>
    simp only [List.flatMap_cons, List.map_append, List.sum_append]
    rw [ih]
    congr 1
    unfold amounts
    generalize a.2 = nb
    induction nb with
    | nil => simp
    | cons j nb ih2 =>
      cases hf : c.2 a.1 j with
      | none => simpa [hf] using ih2
      | some f =>
        simp only [List.filterMap_cons, hf, Option.map_some, List.map_cons, List.sum_cons]
        rw [ih2]
        congr 1
        unfold Transfer.gain
        cases hm : c.1.mirror j <;> simp [readQ, hm]

/-- sum over all particles of the contribution of a work item without mirror copies -/
theorem sum_workGain (R : Readout n nv α) (dt : Fin N → α) (r : Fin N → Vec n α) (c : Work n nv N α)
    (hm : ∀ j, c.1.mirror j = false) : ∑ i, workGain R dt r c i = 0 := by
  unfold workGain
  generalize cellAmounts R c.2 dt r c.1.r c.1.acts = A
  induction A with
  | nil => simp
  | cons x A ih =>
    simp only [List.map_cons, List.sum_cons, Finset.sum_add_distrib]
    rw [ih]
    simp [hm]

end Gandalf.Fv
