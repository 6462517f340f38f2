import Verif.Proof.AccretionAll

/-!
# Accretion: which sink a particle belongs to
-/

set_option autoImplicit false
set_option linter.unusedSectionVars false

namespace Gandalf.Sinks

variable {n : ℕ} {α : Type*} [Field α] [LinearOrder α] [IsStrictOrderedRing α]

/-- same but for the mark -/
structure SameBut (p p' : Gas n α) : Prop where
  kept : Kept p p'
  dead : p'.dead = p.dead
  m : p'.m = p.m
  dt : p'.dt = p.dt
  active : p'.active = p.active
  dQ : p'.dQrho = p.dQrho ∧ p'.dQv = p.dQv

theorem SameBut.refl (p : Gas n α) : SameBut p p := ⟨Kept.refl p, rfl, rfl, rfl, rfl, rfl, rfl⟩

theorem SameBut.trans {p q s : Gas n α} (h : SameBut p q) (h' : SameBut q s) : SameBut p s :=
  ⟨h.kept.trans h'.kept, h'.dead.trans h.dead, h'.m.trans h.m, h'.dt.trans h.dt, h'.active.trans h.active,
    h'.dQ.1.trans h.dQ.1, h'.dQ.2.trans h.dQ.2⟩

theorem SameBut.mark (p : Gas n α) (x : Option ℕ) : SameBut p { p with sinkid := x } :=
  ⟨⟨rfl, rfl, rfl, rfl⟩, rfl, rfl, rfl, rfl, rfl, rfl⟩

theorem SameBut.inside {p q : Gas n α} (h : SameBut p q) (sk : Sink n α) : Inside q sk ↔ Inside p sk := by
  unfold Inside
  rw [h.dead, h.kept.r]

theorem markOne_fold (s : ℕ) (sk : Sink n α) (l : List ℕ) (x : (ℕ → Gas n α) × ℕ) :
    let y := l.foldl (fun x i =>
      if (x.1 i).dead then x
      else if distSq (x.1 i) sk ≤ sk.radius * sk.radius then
        (Function.update x.1 i { x.1 i with sinkid := some s }, x.2 + 1)
      else x) x
    (∀ i, SameBut (x.1 i) (y.1 i)) ∧ x.2 ≤ y.2 ∧
    (∀ i ∈ l, Inside (x.1 i) sk → (y.1 i).sinkid = some s ∧ x.2 < y.2) ∧
    ∀ i, (y.1 i).sinkid = (x.1 i).sinkid ∨
      (i ∈ l ∧ Inside (x.1 i) sk ∧ (y.1 i).sinkid = some s) := by
  induction l generalizing x with
  | nil =>
    refine ⟨fun i => SameBut.refl _, le_rfl, fun i hi => ?_, fun i => Or.inl rfl⟩
    cases hi
  | cons j l ih =>
    rw [List.foldl_cons]
    by_cases hd : (x.1 j).dead = true
    · simp only [hd, if_true]
      obtain ⟨h1, h2, h3, h4⟩ := ih x
      refine ⟨h1, h2, fun i hi hin => ?_, fun i => ?_⟩
      · rcases List.mem_cons.mp hi with e | e
        · subst e
          have := hin.1
          rw [hd] at this
          cases this
        · exact h3 i e hin
      · rcases h4 i with h | ⟨a, b, c⟩
        · exact Or.inl h
        · exact Or.inr ⟨by simp [a], b, c⟩
    · by_cases hr : distSq (x.1 j) sk ≤ sk.radius * sk.radius
      · have e : (if (x.1 j).dead = true then x
            else if distSq (x.1 j) sk ≤ sk.radius * sk.radius then
              (Function.update x.1 j { x.1 j with sinkid := some s }, x.2 + 1)
            else x) = (Function.update x.1 j { x.1 j with sinkid := some s }, x.2 + 1) := by
          rw [if_neg hd, if_pos hr]
        rw [e]
        obtain ⟨h1, h2, h3, h4⟩ := ih (Function.update x.1 j { x.1 j with sinkid := some s }, x.2 + 1)
        have hs : ∀ i, SameBut (x.1 i) (Function.update x.1 j { x.1 j with sinkid := some s } i) := by
          intro i
          by_cases hij : i = j
          · subst hij
            rw [Function.update_self]
            exact SameBut.mark _ _
          · rw [Function.update_of_ne hij]
            exact SameBut.refl _
        simp only at h1 h2 h3 h4
        refine ⟨fun i => (hs i).trans (h1 i), le_trans (Nat.le_succ _) h2, fun i hi hin => ?_, fun i => ?_⟩
        · refine ⟨?_, lt_of_lt_of_le (Nat.lt_succ_self _) h2⟩
          rcases h4 i with h | ⟨a, b, c⟩
          · by_cases hij : i = j
            · rw [h, hij, Function.update_self]
            · have hil : i ∈ l := by simpa [hij] using hi
              exact (h3 i hil (((hs i).inside sk).mpr hin)).1
          · exact c
        · rcases h4 i with h | ⟨a, b, c⟩
          · by_cases hij : i = j
            · right
              subst hij
              refine ⟨by simp, ⟨by simpa using hd, hr⟩, ?_⟩
              rw [h, Function.update_self]
            · left
              rw [h, Function.update_of_ne hij]
          · exact Or.inr ⟨by simp [a], ((hs i).inside sk).mp b, c⟩
      · have e : (if (x.1 j).dead = true then x
            else if distSq (x.1 j) sk ≤ sk.radius * sk.radius then
              (Function.update x.1 j { x.1 j with sinkid := some s }, x.2 + 1)
            else x) = x := by
          rw [if_neg hd, if_neg hr]
        rw [e]
        obtain ⟨h1, h2, h3, h4⟩ := ih x
        refine ⟨h1, h2, fun i hi hin => ?_, fun i => ?_⟩
        · rcases List.mem_cons.mp hi with e | e
          · subst e
            exact absurd hin.2 hr
          · exact h3 i e hin
        · rcases h4 i with h | ⟨a, b, c⟩
          · exact Or.inl h
          · exact Or.inr ⟨by simp [a], b, c⟩

theorem markOne_spec (s : ℕ) (sk : Sink n α) (g : ℕ → Gas n α) (l : List ℕ) :
    (∀ i, SameBut (g i) ((markOne s sk g l).1 i)) ∧
    (∀ i ∈ l, Inside (g i) sk → ((markOne s sk g l).1 i).sinkid = some s ∧ (markOne s sk g l).2 ≠ 0) ∧
    ∀ i, ((markOne s sk g l).1 i).sinkid = (g i).sinkid ∨
      (i ∈ l ∧ Inside (g i) sk ∧ ((markOne s sk g l).1 i).sinkid = some s) := by
  obtain ⟨h1, h2, h3, h4⟩ := markOne_fold s sk l (g, 0)
  refine ⟨h1, fun i hi hin => ⟨(h3 i hi hin).1, ?_⟩, h4⟩
  have := (h3 i hi hin).2
  exact Nat.ne_of_gt this

theorem markAll_spec (gather : ℕ → List ℕ) :
    ∀ (sinks : List (Sink n α)) (s : ℕ) (g : ℕ → Gas n α),
    let y := markAll gather s sinks g
    (∀ i, SameBut (g i) (y.1 i)) ∧
    y.2.length = sinks.length ∧
    (∀ (j : ℕ) (sk : Sink n α), sinks[j]? = some sk → ∃ k, y.2[j]? = some { sk with Ngas := k } ∧
      ∀ i ∈ gather (s + j), Inside (g i) sk → k ≠ 0) ∧
    (∀ i, (y.1 i).sinkid = (g i).sinkid ∨ ∃ (j : ℕ) (sk : Sink n α), sinks[j]? = some sk ∧
      i ∈ gather (s + j) ∧ Inside (g i) sk ∧ (y.1 i).sinkid = some (s + j)) ∧
    ∀ (j : ℕ) (sk : Sink n α), sinks[j]? = some sk → ∀ i ∈ gather (s + j), Inside (g i) sk →
      ∃ (j' : ℕ) (sk' : Sink n α), sinks[j']? = some sk' ∧
      i ∈ gather (s + j') ∧ Inside (g i) sk' ∧ (y.1 i).sinkid = some (s + j') := by
  intro sinks
  induction sinks with
  | nil =>
    intro s g
    refine ⟨fun i => SameBut.refl _, rfl, fun j sk h => ?_, fun i => Or.inl rfl, fun j sk h => ?_⟩ <;>
      simp at h
  | cons x l ih =>
    intro s g
    obtain ⟨a1, a2, a3⟩ := markOne_spec s x g (gather s)
    obtain ⟨b1, b2, b3, b4, b5⟩ := ih (s + 1) (markOne s x g (gather s)).1
    have es : ∀ j, s + 1 + j = s + (j + 1) := fun j => by omega
    have up : ∀ i, (∃ (j : ℕ) (sk : Sink n α), l[j]? = some sk ∧ i ∈ gather (s + 1 + j) ∧
        Inside ((markOne s x g (gather s)).1 i) sk ∧
        ((markAll gather (s + 1) l (markOne s x g (gather s)).1).1 i).sinkid = some (s + 1 + j)) →
        ∃ (j' : ℕ) (sk' : Sink n α), (x :: l)[j']? = some sk' ∧ i ∈ gather (s + j') ∧ Inside (g i) sk' ∧
        ((markAll gather s (x :: l) g).1 i).sinkid = some (s + j') := by
      rintro i ⟨j, sk, h1, h2, h3, h4⟩
      refine ⟨j + 1, sk, by rw [List.getElem?_cons_succ]; exact h1, es j ▸ h2, ((a1 i).inside sk).mp h3, ?_⟩
      rw [← es j]
      exact h4
    refine ⟨fun i => (a1 i).trans (b1 i), ?_, fun j sk h => ?_, fun i => ?_, fun j sk h i hi hin => ?_⟩
    · simp only [markAll, List.length_cons, b2]
    · cases j with
      | zero =>
        simp only [List.getElem?_cons_zero, Option.some.injEq] at h
        subst h
        exact ⟨_, rfl, fun i hi hin => (a2 i hi hin).2⟩
      | succ j =>
        rw [List.getElem?_cons_succ] at h
        obtain ⟨k, h1, h2⟩ := b3 j sk h
        refine ⟨k, ?_, fun i hi hin => h2 i (by rw [es j]; exact hi) (((a1 i).inside sk).mpr hin)⟩
        simp only [markAll]
        rw [List.getElem?_cons_succ]
        exact h1
    · rcases b4 i with h | h
      · rcases a3 i with h' | ⟨h1, h2, h3⟩
        · left
          simp only [markAll]
          rw [h, h']
        · right
          refine ⟨0, x, rfl, h1, h2, ?_⟩
          simp only [markAll]
          rw [h, h3]
          rfl
      · exact Or.inr (up i h)
    · cases j with
      | zero =>
        simp only [List.getElem?_cons_zero, Option.some.injEq] at h
        subst h
        rcases b4 i with h | h
        · refine ⟨0, x, rfl, hi, hin, ?_⟩
          simp only [markAll]
          rw [h, (a2 i hi hin).1]
          rfl
        · exact up i h
      | succ j =>
        rw [List.getElem?_cons_succ] at h
        exact up i (b5 j sk h i (by rw [es j]; exact hi) (((a1 i).inside sk).mpr hin))

theorem markAll_map {β : Type*} (f : Sink n α → β) (hf : ∀ sk k, f { sk with Ngas := k } = f sk)
    (gather : ℕ → List ℕ) (sinks : List (Sink n α)) (s : ℕ) (g : ℕ → Gas n α) :
    (markAll gather s sinks g).2.map f = sinks.map f := by
  induction sinks generalizing s g with
  | nil => rfl
  | cons x l ih => simp only [markAll, List.map_cons, ih, hf]

theorem markAll_totals (gather : ℕ → List ℕ) (sinks : List (Sink n α)) (s : ℕ) (g : ℕ → Gas n α) (M : ℕ) :
    SameTotals M g sinks (markAll gather s sinks g).1 (markAll gather s sinks g).2 := by
  have h := (markAll_spec gather sinks s g).1
  refine SameTotals.trans (SameTotals.of_gas sinks fun i => ⟨(h i).m, (h i).kept⟩) ?_
  refine ⟨?_, ?_, ?_, ?_, ?_, ?_⟩
  · simp only [totalMass]
    rw [markAll_map (fun s => s.star.m) (fun _ _ => rfl)]
  · funext k
    simp only [totalMoment]
    rw [markAll_map (fun s => s.star.m * s.star.r k) (fun _ _ => rfl)]
  · funext k
    simp only [totalMomentum]
    rw [markAll_map (fun s => s.star.m * s.star.v k) (fun _ _ => rfl)]
  · funext k
    simp only [totalForce]
    rw [markAll_map (fun s => s.star.m * s.star.a k) (fun _ _ => rfl)]
  · simp only [totalThermal]
    rw [markAll_map (fun s => s.utot) (fun _ _ => rfl)]
  · simp only [totalAngMom]
    rw [markAll_map (fun s => s.star.m • crossProduct (embed s.star.r) (embed s.star.v) + s.angmom)
      (fun _ _ => rfl)]

/-- the particles unmarked -/
def cleared (Ntot : ℕ) (g : ℕ → Gas n α) : ℕ → Gas n α :=
  fun i => if i < Ntot then { g i with sinkid := none } else g i

theorem cleared_same (Ntot : ℕ) (g : ℕ → Gas n α) (i : ℕ) : SameBut (g i) (cleared Ntot g i) := by
  unfold cleared
  split_ifs
  · exact SameBut.mark _ _
  · exact SameBut.refl _

theorem accrete_eq (prm : Prm α) (N Ntot : ℕ) (gather gather' : ℕ → List ℕ) (trot decay : ℕ → α)
    (g : ℕ → Gas n α) (sinks : List (Sink n α)) :
    accrete prm N Ntot gather gather' trot decay g sinks =
      accreteAll prm N gather' trot decay 0 (markAll gather 0 sinks (cleared Ntot g)).2
        (markAll gather 0 sinks (cleared Ntot g)).1 := rfl

theorem marked_same (Ntot : ℕ) (gather : ℕ → List ℕ) (g : ℕ → Gas n α) (sinks : List (Sink n α)) (i : ℕ) :
    SameBut (g i) ((markAll gather 0 sinks (cleared Ntot g)).1 i) :=
  (cleared_same Ntot g i).trans ((markAll_spec gather sinks 0 (cleared Ntot g)).1 i)

end Gandalf.Sinks
