import Verif.Spec.Sinks
import Verif.Prop.C35

/-!
# Accretion: both loops take the same masses, and the sums close
-/

set_option autoImplicit false
set_option linter.unusedSectionVars false

namespace Gandalf.Sinks

variable {n : ℕ} {α : Type*} [Field α] [LinearOrder α] [IsStrictOrderedRing α]

/-- what is taken, and from whom -/
def takes (prm : Prm α) (trot : α) (g : ℕ → Gas n α) : List ℕ → α → List (ℕ × α)
  | [], _ => []
  | i :: l, macc =>
    if (g i).dead then takes prm trot g l macc
    else
      (i, amount prm trot (g i) macc) ::
        (if macc - amount prm trot (g i) macc < prm.small then []
        else takes prm trot g l (macc - amount prm trot (g i) macc))

theorem takes_congr {prm : Prm α} {trot : α} {g g' : ℕ → Gas n α} {l : List ℕ}
    (h : ∀ i ∈ l, g' i = g i) (macc : α) : takes prm trot g' l macc = takes prm trot g l macc := by
  induction l generalizing macc with
  | nil => rfl
  | cons i l ih =>
    have h1 := h i (by simp)
    have h2 : ∀ j ∈ l, g' j = g j := fun j hj => h j (by simp [hj])
    simp only [takes, h1, ih h2]

theorem loop1_eq (prm : Prm α) (trot : α) (g : ℕ → Gas n α) (l : List ℕ) (macc : α) (s : Acc n α) :
    (loop1 prm trot g l macc s).m = s.m + ((takes prm trot g l macc).map fun x => x.2).sum ∧
    (∀ k, (loop1 prm trot g l macc s).r k =
      s.r k + ((takes prm trot g l macc).map fun x => x.2 * (g x.1).r k).sum) ∧
    (∀ k, (loop1 prm trot g l macc s).v k =
      s.v k + ((takes prm trot g l macc).map fun x => x.2 * (g x.1).v k).sum) ∧
    (∀ k, (loop1 prm trot g l macc s).a k =
      s.a k + ((takes prm trot g l macc).map fun x => x.2 * (g x.1).a k).sum) ∧
    (loop1 prm trot g l macc s).utot =
      s.utot + ((takes prm trot g l macc).map fun x => x.2 * (g x.1).u).sum := by
  induction l generalizing macc s with
  | nil => simp [loop1, takes]
  | cons i l ih =>
    simp only [loop1, takes]
    by_cases hd : (g i).dead = true
    · rw [if_pos hd, if_pos hd]
      exact ih macc s
    · rw [if_neg hd, if_neg hd]
      by_cases hb : macc - amount prm trot (g i) macc < prm.small
      · rw [if_pos hb, if_pos hb]
        simp
      · rw [if_neg hb, if_neg hb]
        obtain ⟨h1, h2, h3, h4, h5⟩ := ih (macc - amount prm trot (g i) macc)
          { m := s.m + amount prm trot (g i) macc
            r := fun k => s.r k + amount prm trot (g i) macc * (g i).r k
            v := fun k => s.v k + amount prm trot (g i) macc * (g i).v k
            a := fun k => s.a k + amount prm trot (g i) macc * (g i).a k
            utot := s.utot + amount prm trot (g i) macc * (g i).u }
        refine ⟨?_, fun k => ?_, fun k => ?_, fun k => ?_, ?_⟩
        · rw [h1]; simp only [List.map_cons, List.sum_cons]; ring
        · rw [h2]; simp only [List.map_cons, List.sum_cons]; ring
        · rw [h3]; simp only [List.map_cons, List.sum_cons]; ring
        · rw [h4]; simp only [List.map_cons, List.sum_cons]; ring
        · rw [h5]; simp only [List.map_cons, List.sum_cons]; ring

/-- members accretion leaves alone -/
structure Kept (p p' : Gas n α) : Prop where
  r : p'.r = p.r
  v : p'.v = p.v
  a : p'.a = p.a
  u : p'.u = p.u

theorem Kept.refl (p : Gas n α) : Kept p p := ⟨rfl, rfl, rfl, rfl⟩

theorem Kept.trans {p q s : Gas n α} (h : Kept p q) (h' : Kept q s) : Kept p s :=
  ⟨h'.r.trans h.r, h'.v.trans h.v, h'.a.trans h.a, h'.u.trans h.u⟩

theorem takeFrom_kept (prm : Prm α) (trot : α) (p : Gas n α) (macc : α) :
    Kept p (takeFrom prm trot p macc) := by
  unfold takeFrom
  split_ifs <;> exact ⟨rfl, rfl, rfl, rfl⟩

theorem takeFrom_m (prm : Prm α) (trot : α) (p : Gas n α) (macc : α) :
    (takeFrom prm trot p macc).m = p.m - amount prm trot p macc := by
  unfold takeFrom amount
  split_ifs <;> simp

theorem loop2_kept (prm : Prm α) (trot : α) (R V : Vec n α) (l : List ℕ) (macc : α)
    (s : (ℕ → Gas n α) × Vec 3 α) (i : ℕ) : Kept (s.1 i) ((loop2 prm trot R V l macc s).1 i) := by
  induction l generalizing macc s with
  | nil => exact Kept.refl _
  | cons j l ih =>
    simp only [loop2]
    have key : Kept (s.1 i) (Function.update s.1 j (takeFrom prm trot (s.1 j) macc) i) := by
      by_cases hij : i = j
      · subst hij
        rw [Function.update_self]
        exact takeFrom_kept ..
      · rw [Function.update_of_ne hij]
        exact Kept.refl _
    by_cases hd : (s.1 j).dead = true
    · rw [if_pos hd]
      exact ih macc s
    · rw [if_neg hd]
      split_ifs
      · exact key
      · exact key.trans (ih _ (Function.update s.1 j (takeFrom prm trot (s.1 j) macc), _))

/-- a particle not in the list stays as it is -/
theorem loop2_other {prm : Prm α} {trot : α} {R V : Vec n α} {l : List ℕ} {macc : α}
    {s : (ℕ → Gas n α) × Vec 3 α} {i : ℕ} (hi : i ∉ l) : (loop2 prm trot R V l macc s).1 i = s.1 i := by
  induction l generalizing macc s with
  | nil => rfl
  | cons j l ih =>
    simp only [List.mem_cons, not_or] at hi
    simp only [loop2]
    by_cases hd : (s.1 j).dead = true
    · rw [if_pos hd]
      exact ih hi.2
    · rw [if_neg hd]
      split_ifs
      · exact Function.update_of_ne hi.1 _ _
      · rw [ih hi.2]
        exact Function.update_of_ne hi.1 _ _

theorem loop2_spin {prm : Prm α} {trot : α} {R V : Vec n α} {l : List ℕ} (hl : l.Nodup) (macc : α)
    (g : ℕ → Gas n α) (L : Vec 3 α) :
    (loop2 prm trot R V l macc (g, L)).2 = L + ((takes prm trot g l macc).map fun x =>
      x.2 • spin (fun k => (g x.1).r k - R k) (fun k => (g x.1).v k - V k)).sum := by
  induction l generalizing macc g L with
  | nil => simp [loop2, takes]
  | cons i l ih =>
    rw [List.nodup_cons] at hl
    simp only [loop2, takes]
    by_cases hd : (g i).dead = true
    · rw [if_pos hd, if_pos hd]
      exact ih hl.2 macc g L
    · rw [if_neg hd, if_neg hd]
      by_cases hb : macc - amount prm trot (g i) macc < prm.small
      · rw [if_pos hb, if_pos hb]
        simp
      · rw [if_neg hb, if_neg hb, ih hl.2]
        have hc : ∀ j ∈ l, Function.update g i (takeFrom prm trot (g i) macc) j = g j := fun j hj =>
          Function.update_of_ne (fun e : j = i => hl.1 (e ▸ hj)) _ _
        rw [takes_congr hc, List.map_cons, List.sum_cons, add_assoc]
        congr 2
        refine congrArg List.sum (List.map_congr_left fun x hx => ?_)
        have hk : Kept (g x.1) (Function.update g i (takeFrom prm trot (g i) macc) x.1) := by
          by_cases e : x.1 = i
          · rw [e, Function.update_self]
            exact takeFrom_kept ..
          · rw [Function.update_of_ne e]
            exact Kept.refl _
        rw [hk.r, hk.v]

theorem sum_update {M : Type*} [AddCommGroup M] [Module α M] {N i : ℕ} (hi : i < N) (g : ℕ → Gas n α)
    (p : Gas n α) (f : ℕ → M) :
    ∑ j ∈ Finset.range N, (Function.update g i p j).m • f j =
      ∑ j ∈ Finset.range N, (g j).m • f j + (p.m - (g i).m) • f i := by
  have e : ∀ j ∈ Finset.range N, (Function.update g i p j).m • f j =
      (g j).m • f j + (if j = i then (p.m - (g i).m) • f i else 0) := by
    intro j _
    by_cases h : j = i
    · subst h
      rw [Function.update_self, if_pos rfl, ← add_smul]
      congr 1
      ring
    · rw [Function.update_of_ne h, if_neg h, add_zero]
  rw [Finset.sum_congr rfl e, Finset.sum_add_distrib, Finset.sum_ite_eq', if_pos (Finset.mem_range.mpr hi)]

theorem loop2_sum {M : Type*} [AddCommGroup M] [Module α M] {prm : Prm α} {trot : α} {R V : Vec n α}
    {l : List ℕ} (hl : l.Nodup) {N : ℕ} (hN : ∀ i ∈ l, i < N) (macc : α) (g : ℕ → Gas n α) (L : Vec 3 α)
    (f : ℕ → M) :
    ∑ i ∈ Finset.range N, ((loop2 prm trot R V l macc (g, L)).1 i).m • f i +
      ((takes prm trot g l macc).map fun x => x.2 • f x.1).sum =
    ∑ i ∈ Finset.range N, (g i).m • f i := by
  induction l generalizing macc g L with
  | nil => simp [loop2, takes]
  | cons i l ih =>
    rw [List.nodup_cons] at hl
    have hN' : ∀ j ∈ l, j < N := fun j hj => hN j (by simp [hj])
    have hi : i < N := hN i (by simp)
    simp only [loop2, takes]
    by_cases hd : (g i).dead = true
    · rw [if_pos hd, if_pos hd]
      exact ih hl.2 hN' macc g L
    · rw [if_neg hd, if_neg hd]
      have e : (takeFrom prm trot (g i) macc).m - (g i).m = -amount prm trot (g i) macc := by
        rw [takeFrom_m]; ring
      by_cases hb : macc - amount prm trot (g i) macc < prm.small
      · rw [if_pos hb, if_pos hb]
        simp only [List.map_cons, List.map_nil, List.sum_cons, List.sum_nil, add_zero]
        rw [sum_update hi, e, neg_smul, neg_add_cancel_right]
      · rw [if_neg hb, if_neg hb]
        have hc : ∀ j ∈ l, Function.update g i (takeFrom prm trot (g i) macc) j = g j := fun j hj =>
          Function.update_of_ne (fun e : j = i => hl.1 (e ▸ hj)) _ _
        have := ih hl.2 hN' (macc - amount prm trot (g i) macc)
          (Function.update g i (takeFrom prm trot (g i) macc))
          (L + amount prm trot (g i) macc • spin (fun k => (g i).r k - R k) (fun k => (g i).v k - V k))
        rw [takes_congr hc, sum_update hi, e, neg_smul] at this
        rw [List.map_cons, List.sum_cons, add_left_comm, this]
        abel

end Gandalf.Sinks
