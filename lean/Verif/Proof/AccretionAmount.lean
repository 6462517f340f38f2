import Verif.Proof.AccretionSum

/-!
# Accretion: how much is taken
-/

set_option autoImplicit false
set_option linter.unusedSectionVars false

namespace Gandalf.Sinks

variable {n : ℕ} {α : Type*} [Field α] [LinearOrder α] [IsStrictOrderedRing α]

theorem amount_nonneg {prm : Prm α} {trot : α} {p : Gas n α} {macc : α} (hm : 0 ≤ p.m) (h : 0 ≤ macc) :
    0 ≤ amount prm trot p macc := by
  unfold amount
  split_ifs
  · exact hm
  · exact le_min hm h

theorem amount_le {prm : Prm α} {trot : α} {p : Gas n α} {macc : α} : amount prm trot p macc ≤ p.m := by
  unfold amount
  split_ifs
  · exact le_rfl
  · exact min_le_left _ _

theorem min_le_amount {prm : Prm α} {trot : α} {p : Gas n α} {macc : α} :
    min p.m macc ≤ amount prm trot p macc := by
  unfold amount
  split_ifs
  · exact min_le_left _ _
  · exact le_rfl

/-- what accretion may do to a particle -/
structure After (prm : Prm α) (p p' : Gas n α) : Prop where
  kept : Kept p p'
  sinkid : p'.sinkid = p.sinkid
  nonneg : 0 ≤ p.m → 0 ≤ p'.m
  le : 0 ≤ p.m → p'.m ≤ p.m
  stays : p.dead = true → p'.dead = true ∧ p'.m = p.m
  dies : p.dead = false → p'.dead = true → p'.m = 0 ∧ p'.active = false
  lives : p'.dead = false → p'.m = p.m ∨ prm.mleft ≤ p'.m
  dQ : p'.dead = false → prm.mfv = true →
    p'.dQrho - p'.m = p.dQrho - p.m ∧ ∀ k, p'.dQv k - p'.m * p.v k = p.dQv k - p.m * p.v k
  noQ : p'.dead = false → prm.mfv = false → p'.dQrho = p.dQrho ∧ p'.dQv = p.dQv
  active : p'.active = true → p.active = true

theorem After.refl (prm : Prm α) (p : Gas n α) : After prm p p where
  kept := Kept.refl p
  sinkid := rfl
  nonneg := id
  le := fun _ => le_rfl
  stays := fun h => ⟨h, rfl⟩
  dies := fun h h' => by rw [h] at h'; cases h'
  lives := fun _ => Or.inl rfl
  dQ := fun _ _ => ⟨rfl, fun _ => rfl⟩
  noQ := fun _ _ => ⟨rfl, rfl⟩
  active := id

theorem After.trans {prm : Prm α} {p q s : Gas n α} (h : After prm p q) (h' : After prm q s) :
    After prm p s := by
  have live : s.dead = false → q.dead = false := by
    intro e
    cases hq : q.dead with
    | false => rfl
    | true =>
      have := (h'.stays hq).1
      rw [e] at this
      cases this
  refine
    { kept := h.kept.trans h'.kept
      sinkid := h'.sinkid.trans h.sinkid
      nonneg := fun hp => h'.nonneg (h.nonneg hp)
      le := fun hp => (h'.le (h.nonneg hp)).trans (h.le hp)
      stays := fun hp => ?_
      dies := fun hp hsd => ?_
      lives := fun hsd => ?_
      dQ := fun hsd hm => ?_
      noQ := fun hsd hm => ?_
      active := fun ha => h.active (h'.active ha) }
  · obtain ⟨h1, h2⟩ := h.stays hp
    obtain ⟨h3, h4⟩ := h'.stays h1
    exact ⟨h3, h4.trans h2⟩
  · cases hq : q.dead with
    | false => exact h'.dies hq hsd
    | true =>
      obtain ⟨h1, h2⟩ := h.dies hp hq
      refine ⟨(h'.stays hq).2.trans h1, ?_⟩
      cases e : s.active with
      | false => rfl
      | true =>
        have := h'.active e
        rw [h2] at this
        cases this
  · rcases h'.lives hsd with e | e
    · rw [e]
      exact h.lives (live hsd)
    · exact Or.inr e
  · obtain ⟨h1, h2⟩ := h.dQ (live hsd) hm
    obtain ⟨h3, h4⟩ := h'.dQ hsd hm
    refine ⟨h3.trans h1, fun k => ?_⟩
    have := h4 k
    rw [h.kept.v] at this
    exact this.trans (h2 k)
  · obtain ⟨h1, h2⟩ := h.noQ (live hsd) hm
    obtain ⟨h3, h4⟩ := h'.noQ hsd hm
    exact ⟨h3.trans h1, h4.trans h2⟩

theorem takeFrom_after {prm : Prm α} {trot : α} {p : Gas n α} {macc : α} (hd : p.dead = false)
    (hm : 0 ≤ macc) : After prm p (takeFrom prm trot p macc) := by
  have e := takeFrom_m prm trot p macc
  have k := takeFrom_kept prm trot p macc
  have hle := amount_le (prm := prm) (trot := trot) (p := p) (macc := macc)
  have hnn : 0 ≤ p.m → 0 ≤ amount prm trot p macc := fun h => amount_nonneg h hm
  have hs : p.dead = true → False := fun h => by rw [hd] at h; cases h
  unfold takeFrom at *
  split_ifs at * with h1 h2
  · exact
      { kept := k
        sinkid := rfl
        nonneg := fun _ => le_rfl
        le := fun h => h
        stays := fun h => (hs h).elim
        dies := fun _ _ => ⟨rfl, rfl⟩
        lives := fun h => by cases h
        dQ := fun h => by cases h
        noQ := fun h => by cases h
        active := fun h => by cases h }
  · push Not at h1
    refine
      { kept := k
        sinkid := rfl
        nonneg := fun _ => ?_
        le := fun h => ?_
        stays := fun h => (hs h).elim
        dies := fun _ h => (hs h).elim
        lives := fun _ => Or.inr h1.2.1
        dQ := fun _ _ => ⟨by simp only; ring, fun k => by simp only; ring⟩
        noQ := fun _ h => by rw [h2] at h; cases h
        active := id }
    · rw [e]; linarith
    · rw [e]; linarith [hnn h]
  · push Not at h1
    refine
      { kept := k
        sinkid := rfl
        nonneg := fun _ => ?_
        le := fun h => ?_
        stays := fun h => (hs h).elim
        dies := fun _ h => (hs h).elim
        lives := fun _ => Or.inr h1.2.1
        dQ := fun _ h => (h2 h).elim
        noQ := fun _ _ => ⟨rfl, rfl⟩
        active := id }
    · rw [e]; linarith
    · rw [e]; linarith [hnn h]

theorem loop2_after {prm : Prm α} (hsm : 0 ≤ prm.small) {trot : α} {R V : Vec n α} {l : List ℕ}
    {macc : α} (hm : 0 ≤ macc) (s : (ℕ → Gas n α) × Vec 3 α) (i : ℕ) :
    After prm (s.1 i) ((loop2 prm trot R V l macc s).1 i) := by
  induction l generalizing macc s with
  | nil => exact After.refl _ _
  | cons j l ih =>
    simp only [loop2]
    by_cases hd : (s.1 j).dead = true
    · rw [if_pos hd]
      exact ih hm s
    · rw [if_neg hd]
      have key : After prm (s.1 i) (Function.update s.1 j (takeFrom prm trot (s.1 j) macc) i) := by
        by_cases hij : i = j
        · subst hij
          rw [Function.update_self]
          exact takeFrom_after (by simpa using hd) hm
        · rw [Function.update_of_ne hij]
          exact After.refl _ _
      split_ifs with hb
      · exact key
      · have := ih (macc := macc - amount prm trot (s.1 j) macc) (le_trans hsm (not_lt.mp hb))
          (Function.update s.1 j (takeFrom prm trot (s.1 j) macc),
            s.2 + amount prm trot (s.1 j) macc • spin (fun k => (s.1 j).r k - R k) (fun k => (s.1 j).v k - V k))
        exact key.trans this

/-- mass of the live particles of a list -/
def liveMass (g : ℕ → Gas n α) (l : List ℕ) : α :=
  (l.map fun i => if (g i).dead then 0 else (g i).m).sum

theorem liveMass_nonneg {g : ℕ → Gas n α} {l : List ℕ} (h : ∀ i ∈ l, (g i).dead = false → 0 ≤ (g i).m) :
    0 ≤ liveMass g l := by
  apply List.sum_nonneg
  intro x hx
  obtain ⟨i, hi, rfl⟩ := List.mem_map.mp hx
  split_ifs with hd
  · exact le_rfl
  · exact h i hi (by simpa using hd)

theorem liveMass_cons (g : ℕ → Gas n α) (i : ℕ) (l : List ℕ) :
    liveMass g (i :: l) = (if (g i).dead then 0 else (g i).m) + liveMass g l := by
  simp [liveMass]

theorem le_liveMass {g : ℕ → Gas n α} {l : List ℕ} (h : ∀ i ∈ l, (g i).dead = false → 0 ≤ (g i).m) {i : ℕ}
    (hi : i ∈ l) (hd : (g i).dead = false) : (g i).m ≤ liveMass g l := by
  have := List.single_le_sum (l := l.map fun i => if (g i).dead then 0 else (g i).m) (by
    intro x hx
    obtain ⟨j, hj, rfl⟩ := List.mem_map.mp hx
    split_ifs with hdj
    · exact le_rfl
    · exact h j hj (by simpa using hdj)) (g i).m (List.mem_map.mpr ⟨i, hi, by rw [hd]; rfl⟩)
  exact this

/-- mass taken -/
def gain (prm : Prm α) (trot : α) (g : ℕ → Gas n α) (l : List ℕ) (macc : α) : α :=
  ((takes prm trot g l macc).map fun x => x.2).sum

theorem gain_cons_dead {prm : Prm α} {trot : α} {g : ℕ → Gas n α} {i : ℕ} {l : List ℕ} {macc : α}
    (hd : (g i).dead = true) : gain prm trot g (i :: l) macc = gain prm trot g l macc := by
  simp only [gain, takes]
  rw [if_pos hd]

theorem gain_cons_break {prm : Prm α} {trot : α} {g : ℕ → Gas n α} {i : ℕ} {l : List ℕ} {macc : α}
    (hd : ¬(g i).dead = true) (hb : macc - amount prm trot (g i) macc < prm.small) :
    gain prm trot g (i :: l) macc = amount prm trot (g i) macc := by
  simp only [gain, takes]
  rw [if_neg hd, if_pos hb]
  simp

theorem gain_cons_go {prm : Prm α} {trot : α} {g : ℕ → Gas n α} {i : ℕ} {l : List ℕ} {macc : α}
    (hd : ¬(g i).dead = true) (hb : ¬macc - amount prm trot (g i) macc < prm.small) :
    gain prm trot g (i :: l) macc = amount prm trot (g i) macc +
      gain prm trot g l (macc - amount prm trot (g i) macc) := by
  simp only [gain, takes]
  rw [if_neg hd, if_neg hb]
  simp

theorem gain_nonneg {prm : Prm α} (hsm : 0 ≤ prm.small) {trot : α} {g : ℕ → Gas n α} {l : List ℕ} {macc : α}
    (hm : 0 ≤ macc) (h : ∀ i ∈ l, (g i).dead = false → 0 ≤ (g i).m) : 0 ≤ gain prm trot g l macc := by
  induction l generalizing macc with
  | nil => simp [gain, takes]
  | cons i l ih =>
    have h' : ∀ j ∈ l, (g j).dead = false → 0 ≤ (g j).m := fun j hj => h j (by simp [hj])
    by_cases hd : (g i).dead = true
    · rw [gain_cons_dead hd]
      exact ih hm h'
    · have hi := amount_nonneg (prm := prm) (trot := trot) (h i (by simp) (by simpa using hd)) hm
      by_cases hb : macc - amount prm trot (g i) macc < prm.small
      · rw [gain_cons_break hd hb]
        exact hi
      · rw [gain_cons_go hd hb]
        exact add_nonneg hi (ih (le_trans hsm (not_lt.mp hb)) h')

/-- the sink gets its due up to `small` -/
theorem gain_gt {prm : Prm α} (hsm : 0 < prm.small) {trot : α} {g : ℕ → Gas n α} {l : List ℕ} {macc : α}
    (hm : macc ≤ liveMass g l) (h : ∀ i ∈ l, (g i).dead = false → 0 ≤ (g i).m) :
    macc - prm.small < gain prm trot g l macc := by
  induction l generalizing macc with
  | nil =>
    simp only [liveMass, List.map_nil, List.sum_nil] at hm
    simp only [gain, takes, List.map_nil, List.sum_nil]
    linarith
  | cons i l ih =>
    have h' : ∀ j ∈ l, (g j).dead = false → 0 ≤ (g j).m := fun j hj => h j (by simp [hj])
    rw [liveMass_cons] at hm
    by_cases hd : (g i).dead = true
    · rw [gain_cons_dead hd]
      rw [if_pos hd, zero_add] at hm
      exact ih hm h'
    · rw [if_neg hd] at hm
      by_cases hb : macc - amount prm trot (g i) macc < prm.small
      · rw [gain_cons_break hd hb]
        linarith
      · rw [gain_cons_go hd hb]
        have h1 := min_le_amount (prm := prm) (trot := trot) (p := g i) (macc := macc)
        have h2 : macc - amount prm trot (g i) macc ≤ liveMass g l := by
          rcases min_le_iff.mp h1 with h3 | h3
          · linarith
          · exfalso
            apply hb
            linarith
        linarith [ih h2 h']

/-- and not more than `mleft` too much, unless a particle with a short timestep is swallowed -/
theorem gain_le {prm : Prm α} (hsm : 0 ≤ prm.small) (hml : 0 ≤ prm.mleft) (hs : prm.smooth = true) {trot : α}
    {g : ℕ → Gas n α} {l : List ℕ} {macc : α} (hm : 0 ≤ macc)
    (hdt : ∀ i ∈ l, (g i).dead = false → prm.dtfrac * trot ≤ (g i).dt) :
    gain prm trot g l macc ≤ macc + prm.mleft := by
  induction l generalizing macc with
  | nil =>
    simp only [gain, takes, List.map_nil, List.sum_nil]
    linarith
  | cons i l ih =>
    have h' : ∀ j ∈ l, (g j).dead = false → prm.dtfrac * trot ≤ (g j).dt := fun j hj => hdt j (by simp [hj])
    by_cases hd : (g i).dead = true
    · rw [gain_cons_dead hd]
      exact ih hm h'
    · have hi := hdt i (by simp) (by simpa using hd)
      by_cases hb : macc - amount prm trot (g i) macc < prm.small
      · rw [gain_cons_break hd hb]
        unfold amount
        split_ifs with hc
        · rcases hc with hc | hc | hc
          · rw [hs] at hc; cases hc
          · linarith [min_le_right (g i).m macc]
          · exact absurd hc (not_lt.mpr hi)
        · linarith [min_le_right (g i).m macc]
      · rw [gain_cons_go hd hb]
        linarith [ih (le_trans hsm (not_lt.mp hb)) h']

theorem loop2_dead {prm : Prm α} {trot : α} {R V : Vec n α} {l : List ℕ} {macc : α}
    {s : (ℕ → Gas n α) × Vec 3 α} {i : ℕ} (hi : (s.1 i).dead = true) :
    ((loop2 prm trot R V l macc s).1 i).dead = true := by
  induction l generalizing macc s with
  | nil => exact hi
  | cons j l ih =>
    simp only [loop2]
    by_cases hd : (s.1 j).dead = true
    · rw [if_pos hd]
      exact ih hi
    · rw [if_neg hd]
      have hij : i ≠ j := by
        intro e
        rw [e] at hi
        exact hd hi
      split_ifs
      · simp only
        rw [Function.update_of_ne hij]
        exact hi
      · apply ih
        simp only
        rw [Function.update_of_ne hij]
        exact hi

/-- without smooth accretion everything is swallowed -/
theorem loop2_all {prm : Prm α} (hs : prm.smooth = false) (hsm : 0 < prm.small) {trot : α} {R V : Vec n α}
    {l : List ℕ} (hl : l.Nodup) (g : ℕ → Gas n α) (L : Vec 3 α)
    (h : ∀ i ∈ l, (g i).dead = false → prm.small ≤ (g i).m) {macc : α} (hm : macc = liveMass g l) {i : ℕ}
    (hi : i ∈ l) : ((loop2 prm trot R V l macc (g, L)).1 i).dead = true := by
  induction l generalizing macc g L with
  | nil => cases hi
  | cons j l ih =>
    rw [List.nodup_cons] at hl
    have h' : ∀ j ∈ l, (g j).dead = false → prm.small ≤ (g j).m := fun j hj => h j (by simp [hj])
    have h0 : ∀ j ∈ l, (g j).dead = false → 0 ≤ (g j).m := fun j hj e => hsm.le.trans (h' j hj e)
    rw [liveMass_cons] at hm
    by_cases hij : i ∈ l
    · simp only [loop2]
      by_cases hd : (g j).dead = true
      · rw [if_pos hd] at hm ⊢
        rw [zero_add] at hm
        exact ih hl.2 g L h' hm hij
      · rw [if_neg hd] at hm ⊢
        have hne : ∀ k ∈ l, k ≠ j := fun k hk e => hl.1 (e ▸ hk)
        have ha : amount prm trot (g j) macc = (g j).m := by
          unfold amount
          rw [if_pos (Or.inl hs)]
        split_ifs with hb
        · simp only
          rw [Function.update_of_ne (hne i hij)]
          by_contra hdi
          have hdi' : (g i).dead = false := by simpa using hdi
          have h1 := le_liveMass h0 hij hdi'
          have h2 := h' i hij hdi'
          rw [ha, hm] at hb
          linarith
        · refine ih hl.2 _ _ ?_ ?_ hij
          · intro k hk
            rw [Function.update_of_ne (hne k hk)]
            exact h' k hk
          · rw [ha, hm, add_sub_cancel_left]
            unfold liveMass
            refine congrArg List.sum (List.map_congr_left fun k hk => ?_)
            rw [Function.update_of_ne (hne k hk)]
    · have e : i = j := by simpa [hij] using hi
      subst e
      simp only [loop2]
      by_cases hd : (g i).dead = true
      · rw [if_pos hd]
        exact loop2_dead hd
      · rw [if_neg hd]
        have hk : (takeFrom prm trot (g i) macc).dead = true := by
          unfold takeFrom
          rw [if_pos (Or.inl hs)]
        split_ifs with hb
        · simp only
          rw [Function.update_self]
          exact hk
        · apply loop2_dead
          simp only
          rw [Function.update_self]
          exact hk

end Gandalf.Sinks
