import Verif.Proof.AccretionAmount

/-!
# Accretion by all sinks

Every particle belongs to one sink, so the turns of the sinks do not see each other.
-/

set_option autoImplicit false
set_option linter.unusedSectionVars false

namespace Gandalf.Sinks

variable {n : ℕ} {α : Type*} [Field α] [LinearOrder α] [IsStrictOrderedRing α]

/-! ### pieces of one turn -/

theorem raiseLevels_get (lev : ℕ) (l : List ℕ) (g : ℕ → Gas n α) (i : ℕ) :
    ∃ x, raiseLevels lev l g i = { g i with levelneib := x } := by
  unfold raiseLevels
  induction l generalizing g with
  | nil => exact ⟨_, rfl⟩
  | cons j l ih =>
    rw [List.foldl_cons]
    obtain ⟨x, hx⟩ := ih (Function.update g j { g j with levelneib := max (g j).levelneib lev })
    by_cases hij : i = j
    · subst hij
      rw [Function.update_self] at hx
      exact ⟨x, hx⟩
    · rw [Function.update_of_ne hij] at hx
      exact ⟨x, hx⟩

theorem raiseLevels_other {lev : ℕ} {l : List ℕ} {g : ℕ → Gas n α} {i : ℕ} (hi : i ∉ l) :
    raiseLevels lev l g i = g i := by
  unfold raiseLevels
  induction l generalizing g with
  | nil => rfl
  | cons j l ih =>
    simp only [List.mem_cons, not_or] at hi
    rw [List.foldl_cons, ih hi.2, Function.update_of_ne hi.1]

theorem raiseLevels_congr {lev : ℕ} {l : List ℕ} {g g' : ℕ → Gas n α} {i : ℕ} (hi : g' i = g i) :
    raiseLevels lev l g' i = raiseLevels lev l g i := by
  unfold raiseLevels
  induction l generalizing g g' with
  | nil => exact hi
  | cons j l ih =>
    rw [List.foldl_cons, List.foldl_cons]
    apply ih
    by_cases hij : i = j
    · subst hij
      rw [Function.update_self, Function.update_self, hi]
    · rw [Function.update_of_ne hij, Function.update_of_ne hij, hi]

theorem sorted_perm (sk : Sink n α) (g : ℕ → Gas n α) (l : List ℕ) : (sorted sk g l).Perm l := by
  have h := (C35_insertionSortIds l.length (fun j => l.getD j 0)
    (fun j => (l.map fun i => distSq (g i) sk).getD j 0)).2.1
  have h' := h.map Prod.snd
  simp only [firstEntries, List.map_map] at h'
  have e : (List.range l.length).map (fun j => l.getD j 0) = l := by
    apply List.ext_getElem (by simp)
    intro i h1 h2
    simp [List.getD_eq_getElem?_getD, h2]
  have h2 : ((List.range l.length).map (fun j => l.getD j 0)).Perm l := by rw [e]
  exact List.Perm.trans h' h2

theorem sorted_congr {sk : Sink n α} {g g' : ℕ → Gas n α} {l : List ℕ} (h : ∀ i ∈ l, (g' i).r = (g i).r) :
    sorted sk g' l = sorted sk g l := by
  unfold sorted
  have e : (l.map fun i => distSq (g' i) sk) = l.map fun i => distSq (g i) sk :=
    List.map_congr_left fun i hi => by unfold distSq; rw [h i hi]
  rw [e]

theorem mem_members {s : ℕ} {sk : Sink n α} {g : ℕ → Gas n α} {l : List ℕ} {i : ℕ} :
    i ∈ members s sk g l ↔ i ∈ l ∧ (g i).dead = false ∧ (g i).sinkid = some s ∧
      distSq (g i) sk ≤ sk.radius * sk.radius := by
  simp only [members, List.mem_filter, Bool.and_eq_true, Bool.not_eq_true', decide_eq_true_eq]
  constructor
  · rintro ⟨h1, ⟨h2, h3⟩, h4⟩
    exact ⟨h1, h2, h3, h4⟩
  · rintro ⟨h1, h2, h3, h4⟩
    exact ⟨h1, ⟨h2, h3⟩, h4⟩

theorem loop1_congr {prm : Prm α} {trot : α} {g g' : ℕ → Gas n α} {l : List ℕ} (h : ∀ i ∈ l, g' i = g i)
    (macc : α) (s : Acc n α) : loop1 prm trot g' l macc s = loop1 prm trot g l macc s := by
  induction l generalizing macc s with
  | nil => rfl
  | cons i l ih =>
    have h1 := h i (by simp)
    have h2 : ∀ j ∈ l, g' j = g j := fun j hj => h j (by simp [hj])
    simp only [loop1, h1, ih h2]

theorem loop2_congr {prm : Prm α} {trot : α} {R V : Vec n α} {l : List ℕ} {g g' : ℕ → Gas n α} {L : Vec 3 α}
    (h : ∀ i ∈ l, g' i = g i) (macc : α) {i : ℕ} (hi : g' i = g i) :
    (loop2 prm trot R V l macc (g', L)).1 i = (loop2 prm trot R V l macc (g, L)).1 i ∧
    (loop2 prm trot R V l macc (g', L)).2 = (loop2 prm trot R V l macc (g, L)).2 := by
  induction l generalizing macc g g' L with
  | nil => exact ⟨hi, rfl⟩
  | cons j l ih =>
    have h1 := h j (by simp)
    have h2 : ∀ k ∈ l, g' k = g k := fun k hk => h k (by simp [hk])
    have h3 : ∀ k, g' k = g k → Function.update g' j (takeFrom prm trot (g j) macc) k =
        Function.update g j (takeFrom prm trot (g j) macc) k := by
      intro k hk
      by_cases e : k = j
      · subst e
        rw [Function.update_self, Function.update_self]
      · rw [Function.update_of_ne e, Function.update_of_ne e, hk]
    simp only [loop2, h1]
    by_cases hd : (g j).dead = true
    · rw [if_pos hd, if_pos hd]
      exact ih h2 macc hi
    · rw [if_neg hd, if_neg hd]
      split_ifs with hb
      · exact ⟨h3 i hi, rfl⟩
      · exact ih (fun k hk => h3 k (h2 k hk)) _ (h3 i hi)

theorem accreteList_congr {prm : Prm α} {g g' : ℕ → Gas n α} {l : List ℕ} {macc : α} {sk : Sink n α}
    (h : ∀ i ∈ l, g' i = g i) :
    (∀ i, g' i = g i → (accreteList prm g' l macc sk).1 i = (accreteList prm g l macc sk).1 i) ∧
    (accreteList prm g' l macc sk).2 = (accreteList prm g l macc sk).2 := by
  have e : absorb prm g' l macc sk = absorb prm g l macc sk := by
    simp only [absorb, loop1_congr h]
  unfold accreteList
  rw [e]
  refine ⟨fun i hi => (loop2_congr h macc hi).1, ?_⟩
  by_cases hl : l = []
  · subst hl
    rfl
  · obtain ⟨j, hj⟩ := List.exists_mem_of_ne_nil l hl
    simp only
    rw [(loop2_congr h macc (h j hj)).2]

/-! ### one turn -/

section one

variable {prm : Prm α} {N : ℕ} {gather : ℕ → List ℕ} {trot decay : ℕ → α} {s : ℕ} {sk : Sink n α}

/-- list of the turn of a sink -/
def turnList (gather : ℕ → List ℕ) (s : ℕ) (sk : Sink n α) (g : ℕ → Gas n α) : List ℕ :=
  sorted sk g (members s sk g (gather s))

/-- mass of a list -/
def massOf (g : ℕ → Gas n α) (l : List ℕ) : α := (l.map fun i => (g i).m).sum

theorem massOf_perm {g : ℕ → Gas n α} {l l' : List ℕ} (h : l.Perm l') : massOf g l = massOf g l' :=
  (h.map _).sum_eq

theorem sorted_raise (sk : Sink n α) (g : ℕ → Gas n α) (lev : ℕ) (l l' : List ℕ) :
    sorted sk (raiseLevels lev l' g) l = sorted sk g l := by
  apply sorted_congr
  intro i _
  obtain ⟨x, hx⟩ := raiseLevels_get lev l' g i
  rw [hx]

theorem massOf_raise (g : ℕ → Gas n α) (lev : ℕ) (l l' : List ℕ) :
    massOf (raiseLevels lev l' g) l = massOf g l := by
  unfold massOf
  refine congrArg List.sum (List.map_congr_left fun i _ => ?_)
  obtain ⟨x, hx⟩ := raiseLevels_get lev l' g i
  rw [hx]

/-- a turn that is not skipped -/
theorem accreteOne_eq (h : ¬(sk.Ngas = 0 ∨ N % sk.star.nstep ≠ 0)) (g : ℕ → Gas n α) :
    accreteOne prm N gather trot decay s sk g =
      accreteList prm (raiseLevels sk.star.level (members s sk g (gather s)) g) (turnList gather s sk g)
        (target prm (decay s) (massOf g (members s sk g (gather s))))
        { sk with trot := if prm.smooth then trot s else sk.trot } := by
  unfold accreteOne
  rw [if_neg h]
  simp only [sorted_raise]
  change accreteList _ _ _ (target prm (decay s) (massOf (raiseLevels _ _ g) (sorted sk g _))) _ = _
  rw [massOf_raise, massOf_perm (sorted_perm _ _ _)]
  rfl

theorem turnList_perm (gather : ℕ → List ℕ) (s : ℕ) (sk : Sink n α) (g : ℕ → Gas n α) :
    (turnList gather s sk g).Perm (members s sk g (gather s)) := sorted_perm _ _ _

theorem mem_turnList {g : ℕ → Gas n α} {i : ℕ} :
    i ∈ turnList gather s sk g ↔ i ∈ gather s ∧ (g i).dead = false ∧ (g i).sinkid = some s ∧
      distSq (g i) sk ≤ sk.radius * sk.radius := by
  rw [(turnList_perm gather s sk g).mem_iff, mem_members]

/-- a turn leaves alone the particles of other sinks -/
theorem accreteOne_other {g : ℕ → Gas n α} {i : ℕ} (hi : (g i).sinkid ≠ some s) :
    (accreteOne prm N gather trot decay s sk g).1 i = g i := by
  by_cases h : sk.Ngas = 0 ∨ N % sk.star.nstep ≠ 0
  · unfold accreteOne
    rw [if_pos h]
  · rw [accreteOne_eq h]
    have h1 : i ∉ members s sk g (gather s) := fun hm => hi (mem_members.mp hm).2.2.1
    have h2 : i ∉ turnList gather s sk g := fun hm => h1 ((turnList_perm ..).mem_iff.mp hm)
    unfold accreteList
    simp only
    rw [loop2_other h2]
    exact raiseLevels_other h1

/-- and does not look at them -/
theorem accreteOne_congr {g g' : ℕ → Gas n α} (hid : ∀ i, (g' i).sinkid = (g i).sinkid)
    (hg : ∀ i, (g i).sinkid = some s → g' i = g i) :
    (∀ i, g' i = g i → (accreteOne prm N gather trot decay s sk g').1 i =
      (accreteOne prm N gather trot decay s sk g).1 i) ∧
    (accreteOne prm N gather trot decay s sk g').2 = (accreteOne prm N gather trot decay s sk g).2 := by
  have hm : members s sk g' (gather s) = members s sk g (gather s) := by
    unfold members
    apply List.filter_congr
    intro i _
    by_cases h : (g i).sinkid = some s
    · rw [hg i h]
    · have h' : (g' i).sinkid ≠ some s := by rw [hid]; exact h
      simp [h, h']
  by_cases h : sk.Ngas = 0 ∨ N % sk.star.nstep ≠ 0
  · unfold accreteOne
    rw [if_pos h, if_pos h]
    exact ⟨fun i hi => hi, rfl⟩
  · rw [accreteOne_eq h, accreteOne_eq h, hm]
    have hmem : ∀ i ∈ members s sk g (gather s), g' i = g i := fun i hi => hg i (mem_members.mp hi).2.2.1
    have ht : turnList gather s sk g' = turnList gather s sk g := by
      unfold turnList
      rw [hm]
      exact sorted_congr fun i hi => by rw [hmem i hi]
    have hmass : massOf g' (members s sk g (gather s)) = massOf g (members s sk g (gather s)) := by
      unfold massOf
      exact congrArg List.sum (List.map_congr_left fun i hi => by rw [hmem i hi])
    rw [ht, hmass]
    obtain ⟨h1, h2⟩ := accreteList_congr (prm := prm)
      (g := raiseLevels sk.star.level (members s sk g (gather s)) g)
      (g' := raiseLevels sk.star.level (members s sk g (gather s)) g')
      (l := turnList gather s sk g) (macc := target prm (decay s) (massOf g (members s sk g (gather s))))
      (sk := { sk with trot := if prm.smooth then trot s else sk.trot })
      (fun i hi => raiseLevels_congr (hmem i ((turnList_perm ..).mem_iff.mp hi)))
    exact ⟨fun i hi => h1 i (raiseLevels_congr hi), h2⟩

theorem After.raise (prm : Prm α) (lev : ℕ) (l : List ℕ) (g : ℕ → Gas n α) (i : ℕ) :
    After prm (g i) (raiseLevels lev l g i) := by
  obtain ⟨x, hx⟩ := raiseLevels_get lev l g i
  rw [hx]
  exact
    { kept := ⟨rfl, rfl, rfl, rfl⟩
      sinkid := rfl
      nonneg := id
      le := fun _ => le_rfl
      stays := fun h => ⟨h, rfl⟩
      dies := fun h h' => by
        simp only at h'
        rw [h] at h'
        cases h'
      lives := fun _ => Or.inl rfl
      dQ := fun _ _ => ⟨rfl, fun _ => rfl⟩
      noQ := fun _ _ => ⟨rfl, rfl⟩
      active := id }

theorem massOf_nonneg {g : ℕ → Gas n α} {l : List ℕ} (h : ∀ i ∈ l, 0 ≤ (g i).m) : 0 ≤ massOf g l := by
  apply List.sum_nonneg
  intro x hx
  obtain ⟨i, hi, rfl⟩ := List.mem_map.mp hx
  exact h i hi

theorem target_nonneg {d m : α} (h : 0 ≤ m) : 0 ≤ target prm d m := by
  unfold target
  split_ifs
  · exact mul_nonneg h (le_max_right _ _)
  · exact h

theorem target_le {d m : α} (h : 0 ≤ m) (hd : 0 ≤ d) : target prm d m ≤ m := by
  unfold target
  split_ifs
  · exact mul_le_of_le_one_right h (max_le (by linarith) zero_le_one)
  · exact le_rfl

theorem accreteOne_after (hsm : 0 ≤ prm.small) {g : ℕ → Gas n α} (hg : ∀ i ∈ gather s, 0 ≤ (g i).m) (i : ℕ) :
    After prm (g i) ((accreteOne prm N gather trot decay s sk g).1 i) := by
  by_cases h : sk.Ngas = 0 ∨ N % sk.star.nstep ≠ 0
  · unfold accreteOne
    rw [if_pos h]
    exact After.refl _ _
  · rw [accreteOne_eq h]
    have h1 := After.raise prm sk.star.level (members s sk g (gather s)) g i
    have h2 := loop2_after hsm (trot := if prm.smooth then trot s else sk.trot)
      (R := (absorb prm (raiseLevels sk.star.level (members s sk g (gather s)) g) (turnList gather s sk g)
        (target prm (decay s) (massOf g (members s sk g (gather s))))
        { sk with trot := if prm.smooth then trot s else sk.trot }).star.r)
      (V := (absorb prm (raiseLevels sk.star.level (members s sk g (gather s)) g) (turnList gather s sk g)
        (target prm (decay s) (massOf g (members s sk g (gather s))))
        { sk with trot := if prm.smooth then trot s else sk.trot }).star.v)
      (l := turnList gather s sk g)
      (target_nonneg (prm := prm) (d := decay s) (massOf_nonneg (g := g)
        (l := members s sk g (gather s)) fun i hi => hg i (mem_members.mp hi).1))
      (raiseLevels sk.star.level (members s sk g (gather s)) g,
        (absorb prm (raiseLevels sk.star.level (members s sk g (gather s)) g) (turnList gather s sk g)
        (target prm (decay s) (massOf g (members s sk g (gather s))))
        { sk with trot := if prm.smooth then trot s else sk.trot }).angmom) i
    exact h1.trans h2

theorem liveMass_eq {g : ℕ → Gas n α} {l : List ℕ} (h : ∀ i ∈ l, (g i).dead = false) :
    liveMass g l = massOf g l := by
  unfold liveMass massOf
  exact congrArg List.sum (List.map_congr_left fun i hi => by rw [h i hi]; rfl)

theorem raise_dead (lev : ℕ) (l : List ℕ) (g : ℕ → Gas n α) (i : ℕ) :
    (raiseLevels lev l g i).dead = (g i).dead ∧ (raiseLevels lev l g i).m = (g i).m ∧
    (raiseLevels lev l g i).dt = (g i).dt := by
  obtain ⟨x, hx⟩ := raiseLevels_get lev l g i
  rw [hx]
  exact ⟨rfl, rfl, rfl⟩

/-- mass gained in a turn -/
theorem accreteOne_gain (h : ¬(sk.Ngas = 0 ∨ N % sk.star.nstep ≠ 0)) (g : ℕ → Gas n α) :
    (accreteOne prm N gather trot decay s sk g).2.star.m = sk.star.m +
      gain prm (if prm.smooth then trot s else sk.trot)
        (raiseLevels sk.star.level (members s sk g (gather s)) g) (turnList gather s sk g)
        (target prm (decay s) (massOf g (members s sk g (gather s)))) := by
  rw [accreteOne_eq h, accreteList_m]
  rfl

theorem accreteOne_mass (hsm : 0 ≤ prm.small) {g : ℕ → Gas n α} (hg : ∀ i ∈ gather s, 0 ≤ (g i).m) :
    sk.star.m ≤ (accreteOne prm N gather trot decay s sk g).2.star.m := by
  by_cases h : sk.Ngas = 0 ∨ N % sk.star.nstep ≠ 0
  · unfold accreteOne
    rw [if_pos h]
  · rw [accreteOne_gain h]
    have := gain_nonneg hsm (trot := if prm.smooth then trot s else sk.trot)
      (g := raiseLevels sk.star.level (members s sk g (gather s)) g) (l := turnList gather s sk g)
      (macc := target prm (decay s) (massOf g (members s sk g (gather s))))
      (target_nonneg (massOf_nonneg fun i hi => hg i (mem_members.mp hi).1))
      (fun i hi _ => by
        rw [(raise_dead ..).2.1]
        exact hg i (mem_turnList.mp hi).1)
    linarith

theorem SameTotals.refl (N : ℕ) (g : ℕ → Gas n α) (l : List (Sink n α)) : SameTotals N g l g l :=
  ⟨rfl, rfl, rfl, rfl, rfl, rfl⟩

theorem SameTotals.trans {M : ℕ} {g g' g'' : ℕ → Gas n α} {l l' l'' : List (Sink n α)}
    (h : SameTotals M g l g' l') (h' : SameTotals M g' l' g'' l'') : SameTotals M g l g'' l'' :=
  ⟨h'.mass.trans h.mass, h'.moment.trans h.moment, h'.momentum.trans h.momentum, h'.force.trans h.force,
    h'.thermal.trans h.thermal, h'.angMom.trans h.angMom⟩

/-- totals only see mass, position, velocity, acceleration and energy -/
theorem SameTotals.of_gas {M : ℕ} {g g' : ℕ → Gas n α} (l : List (Sink n α))
    (h : ∀ i, (g' i).m = (g i).m ∧ Kept (g i) (g' i)) : SameTotals M g l g' l := by
  have hm := fun i => (h i).1
  have hr := fun i => (h i).2.r
  have hv := fun i => (h i).2.v
  have ha := fun i => (h i).2.a
  have hu := fun i => (h i).2.u
  refine ⟨?_, ?_, ?_, ?_, ?_, ?_⟩
  · simp only [totalMass, hm]
  · funext k; simp only [totalMoment, hm, hr]
  · funext k; simp only [totalMomentum, hm, hv]
  · funext k; simp only [totalForce, hm, ha]
  · simp only [totalThermal, hm, hu]
  · simp only [totalAngMom, hm, hr, hv]

theorem SameTotals.cons {M : ℕ} {g g' g'' : ℕ → Gas n α} {x x' : Sink n α} {l l' : List (Sink n α)}
    (h : SameTotals M g [x] g' [x']) (h' : SameTotals M g' l g'' l') :
    SameTotals M g (x :: l) g'' (x' :: l') := by
  have key : ∀ {β : Type _} [AddCommGroup β] {a b a' b' c c' d d' : β}, a' + (b' + 0) = a + (b + 0) →
      c + d' = a' + d → c + (b' + d') = a + (b + d) := by
    intro β _ a b a' b' c c' d d' h1 h2
    rw [add_zero, add_zero] at h1
    have e : a = a' + b' - b := by rw [h1]; abel
    have e2 : c = a' + d - d' := by rw [← h2]; abel
    rw [e, e2]
    abel
  refine ⟨?_, ?_, ?_, ?_, ?_, ?_⟩
  · have h1 := h.mass
    have h2 := h'.mass
    simp only [totalMass, List.map_cons, List.map_nil, List.sum_cons, List.sum_nil] at *
    exact key (c' := 0) h1 h2
  · funext k
    have h1 := congrFun h.moment k
    have h2 := congrFun h'.moment k
    simp only [totalMoment, List.map_cons, List.map_nil, List.sum_cons, List.sum_nil] at *
    exact key (c' := 0) h1 h2
  · funext k
    have h1 := congrFun h.momentum k
    have h2 := congrFun h'.momentum k
    simp only [totalMomentum, List.map_cons, List.map_nil, List.sum_cons, List.sum_nil] at *
    exact key (c' := 0) h1 h2
  · funext k
    have h1 := congrFun h.force k
    have h2 := congrFun h'.force k
    simp only [totalForce, List.map_cons, List.map_nil, List.sum_cons, List.sum_nil] at *
    exact key (c' := 0) h1 h2
  · have h1 := h.thermal
    have h2 := h'.thermal
    simp only [totalThermal, List.map_cons, List.map_nil, List.sum_cons, List.sum_nil] at *
    exact key (c' := 0) h1 h2
  · have h1 := h.angMom
    have h2 := h'.angMom
    simp only [totalAngMom, List.map_cons, List.map_nil, List.sum_cons, List.sum_nil] at *
    exact key (c' := 0) h1 h2

theorem accreteOne_totals (hn : n ≤ 3) (hsm : 0 ≤ prm.small) {M : ℕ} {g : ℕ → Gas n α}
    (hl : (gather s).Nodup) (hN : ∀ i ∈ gather s, i < M) (hg : ∀ i ∈ gather s, 0 ≤ (g i).m)
    (hst : 0 < sk.star.m) :
    SameTotals M g [sk] (accreteOne prm N gather trot decay s sk g).1
      [(accreteOne prm N gather trot decay s sk g).2] := by
  have hpos := lt_of_lt_of_le hst (accreteOne_mass (prm := prm) (N := N) (gather := gather) (trot := trot)
    (decay := decay) (s := s) (sk := sk) hsm hg)
  by_cases h : sk.Ngas = 0 ∨ N % sk.star.nstep ≠ 0
  · unfold accreteOne
    rw [if_pos h]
    exact SameTotals.refl _ _ _
  · rw [accreteOne_eq h] at hpos ⊢
    have hnd : (members s sk g (gather s)).Nodup := hl.filter _
    have h1 := accreteList_totals (N := M) hn ((turnList_perm ..).nodup_iff.mpr hnd)
      (fun i hi => hN i (mem_turnList.mp hi).1) hpos.ne'
    refine SameTotals.trans (SameTotals.trans ?_ (SameTotals.of_gas (g' :=
      raiseLevels sk.star.level (members s sk g (gather s)) g) _ fun i =>
      ⟨(raise_dead ..).2.1, (After.raise prm _ _ g i).kept⟩)) h1
    exact ⟨rfl, rfl, rfl, rfl, rfl, rfl⟩

end one

/-! ### all turns -/

section all

variable {prm : Prm α} {N : ℕ} {gather : ℕ → List ℕ} {trot decay : ℕ → α}

theorem accreteAll_totals (hn : n ≤ 3) (hsm : 0 ≤ prm.small) {M : ℕ} (hl : ∀ s, (gather s).Nodup)
    (hN : ∀ s, ∀ i ∈ gather s, i < M) :
    ∀ (sinks : List (Sink n α)) (s : ℕ) (g : ℕ → Gas n α), (∀ i < M, 0 ≤ (g i).m) →
    (∀ sk ∈ sinks, 0 < sk.star.m) →
    SameTotals M g sinks (accreteAll prm N gather trot decay s sinks g).1
      (accreteAll prm N gather trot decay s sinks g).2 := by
  intro sinks
  induction sinks with
  | nil => intro s g _ _; exact SameTotals.refl _ _ _
  | cons sk l ih =>
    intro s g hg hs
    have h1 := accreteOne_totals (prm := prm) (N := N) (trot := trot) (decay := decay) hn hsm (hl s) (hN s)
      (fun i hi => hg i (hN s i hi)) (hs sk (by simp))
    refine SameTotals.cons h1 (ih (s + 1) _ (fun i hi => ?_) fun x hx => hs x (by simp [hx]))
    exact (accreteOne_after hsm (fun i hi => hg i (hN s i hi)) i).nonneg (hg i hi)

theorem accreteAll_after (hsm : 0 ≤ prm.small) {M : ℕ} (hN : ∀ s, ∀ i ∈ gather s, i < M) (i : ℕ) :
    ∀ (sinks : List (Sink n α)) (s : ℕ) (g : ℕ → Gas n α), (∀ i < M, 0 ≤ (g i).m) →
    After prm (g i) ((accreteAll prm N gather trot decay s sinks g).1 i) := by
  intro sinks
  induction sinks with
  | nil => intro s g _; exact After.refl _ _
  | cons sk l ih =>
    intro s g hg
    have h1 : ∀ j, After prm (g j) ((accreteOne prm N gather trot decay s sk g).1 j) := fun j =>
      accreteOne_after (trot := trot) (decay := decay) (N := N) (sk := sk) hsm (fun i hi => hg i (hN s i hi)) j
    exact (h1 i).trans (ih (s + 1) _ fun j hj => (h1 j).nonneg (hg j hj))

theorem accreteOne_sinkid (s : ℕ) (sk : Sink n α) (g : ℕ → Gas n α) (i : ℕ) :
    ((accreteOne prm N gather trot decay s sk g).1 i).sinkid = (g i).sinkid := by
  have take : ∀ (t : α) (p : Gas n α) (m : α), (takeFrom prm t p m).sinkid = p.sinkid := by
    intro t p m
    unfold takeFrom
    split_ifs <;> rfl
  have loop : ∀ (t : α) (R V : Vec n α) (l : List ℕ) (m : α) (x : (ℕ → Gas n α) × Vec 3 α),
      ((loop2 prm t R V l m x).1 i).sinkid = (x.1 i).sinkid := by
    intro t R V l
    induction l with
    | nil => intro m x; rfl
    | cons j l ih =>
      intro m x
      have h : ∀ m, (Function.update x.1 j (takeFrom prm t (x.1 j) m) i).sinkid = (x.1 i).sinkid := by
        intro m
        by_cases hij : i = j
        · subst hij
          rw [Function.update_self]
          exact take ..
        · rw [Function.update_of_ne hij]
      simp only [loop2]
      split_ifs
      · exact ih m x
      · exact h m
      · rw [ih]
        exact h m
  by_cases h : sk.Ngas = 0 ∨ N % sk.star.nstep ≠ 0
  · unfold accreteOne
    rw [if_pos h]
  · rw [accreteOne_eq h]
    unfold accreteList
    rw [loop]
    obtain ⟨x, hx⟩ := raiseLevels_get sk.star.level (members s sk g (gather s)) g i
    simp only
    rw [hx]

/-- every sink ends as if it were alone, and every particle as if only its own sink existed -/
theorem accreteAll_alone :
    ∀ (sinks : List (Sink n α)) (s : ℕ) (g : ℕ → Gas n α),
    (∀ (j : ℕ) (sk : Sink n α), sinks[j]? = some sk →
      (accreteAll prm N gather trot decay s sinks g).2[j]? =
        some (accreteOne prm N gather trot decay (s + j) sk g).2 ∧
      ∀ i, (g i).sinkid = some (s + j) → (accreteAll prm N gather trot decay s sinks g).1 i =
        (accreteOne prm N gather trot decay (s + j) sk g).1 i) ∧
    ∀ i, (∀ j < sinks.length, (g i).sinkid ≠ some (s + j)) →
      (accreteAll prm N gather trot decay s sinks g).1 i = g i := by
  intro sinks
  induction sinks with
  | nil =>
    intro s g
    refine ⟨fun j sk h => ?_, fun i _ => rfl⟩
    simp at h
  | cons x l ih =>
    intro s g
    obtain ⟨h1, h2⟩ := ih (s + 1) (accreteOne prm N gather trot decay s x g).1
    refine ⟨fun j sk h => ?_, fun i hi => ?_⟩
    · cases j with
      | zero =>
        simp only [List.getElem?_cons_zero, Option.some.injEq] at h
        subst h
        refine ⟨rfl, fun i hi => ?_⟩
        simp only [accreteAll]
        rw [h2 i (fun j _ => by rw [accreteOne_sinkid, hi]; simp; omega)]
        rfl
      | succ j =>
        rw [List.getElem?_cons_succ] at h
        obtain ⟨h3, h4⟩ := h1 j sk h
        have e : s + 1 + j = s + (j + 1) := by omega
        rw [e] at h3 h4
        have hc := accreteOne_congr (prm := prm) (N := N) (gather := gather) (trot := trot) (decay := decay)
          (s := s + (j + 1)) (sk := sk) (g := g) (g' := (accreteOne prm N gather trot decay s x g).1)
          (fun i => accreteOne_sinkid s x g i) (fun i hi => accreteOne_other (by rw [hi]; simp))
        refine ⟨?_, fun i hi => ?_⟩
        · simp only [accreteAll]
          rw [List.getElem?_cons_succ, h3, hc.2]
        · simp only [accreteAll]
          rw [h4 i (by rw [accreteOne_sinkid]; exact hi)]
          exact hc.1 i (accreteOne_other (by rw [hi]; simp))
    · simp only [accreteAll]
      rw [h2 i (fun j hj => by
        rw [accreteOne_sinkid]
        have := hi (j + 1) (by simp only [List.length_cons]; omega)
        have e : s + 1 + j = s + (j + 1) := by omega
        rw [e]
        exact this)]
      exact accreteOne_other (by simpa using hi 0 (by simp))

theorem accreteAll_length (sinks : List (Sink n α)) (s : ℕ) (g : ℕ → Gas n α) :
    (accreteAll prm N gather trot decay s sinks g).2.length = sinks.length := by
  induction sinks generalizing s g with
  | nil => rfl
  | cons x l ih => simp only [accreteAll, List.length_cons, ih]

end all

end Gandalf.Sinks
