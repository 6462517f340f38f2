import Verif.Proof.PeriodicBox

/-! Lemmas about the gravity walks. -/

set_option autoImplicit false

namespace Gandalf
open Walk

variable {n : ℕ}

/-- What one turn of a gravity walk may do with a cell `c` holding `l1`. `far c` = the cell is out of
kernel range; `acc c` = its multipole moment may be used. -/
def GravStep (far acc : ℕ → Prop) (isLeaf : Bool) (c : ℕ) (l1 : List ℕ) (s : Tree.GravLists)
    (act : Act Tree.GravLists) : Prop :=
  act = .abort ∨ (act = .open_ s ∧ isLeaf = false) ∨ (act = .next s ∧ l1 = []) ∨
  (act = .next { s with neib := s.neib ++ l1 }) ∨
  (act = .next { s with direct := s.direct ++ l1 } ∧ far c) ∨
  (act = .next { s with cells := s.cells ++ [c] } ∧ far c ∧ acc c)

/-- three lists split the particles `l` -/
def GravSplit (Q : ℕ → List ℕ → Prop) (far acc : ℕ → Prop) (f : List ℕ) (l nb dr cs : List ℕ) : Prop :=
  ∃ parts : List (List ℕ), (nb ++ dr ++ parts.flatten).Perm l ∧
    List.Forall₂ (fun c lc => Q c lc ∧ far c ∧ acc c ∧ c ∈ f) cs parts ∧
    ∀ j ∈ dr, ∃ c lc, Q c lc ∧ j ∈ lc ∧ far c

theorem GravSplit.append {Q : ℕ → List ℕ → Prop} {far acc : ℕ → Prop} {f l nb dr cs f' l' nb' dr' cs' : List ℕ}
    (h : GravSplit Q far acc f l nb dr cs) (h' : GravSplit Q far acc f' l' nb' dr' cs') {g : List ℕ}
    (hf : ∀ x ∈ f, x ∈ g) (hf' : ∀ x ∈ f', x ∈ g) :
    GravSplit Q far acc g (l ++ l') (nb ++ nb') (dr ++ dr') (cs ++ cs') := by
  obtain ⟨p, a1, a2, a3⟩ := h
  obtain ⟨p', b1, b2, b3⟩ := h'
  refine ⟨p ++ p', ?_, ?_, ?_⟩
  · rw [List.flatten_append]
    have : (nb ++ nb' ++ (dr ++ dr') ++ (p.flatten ++ p'.flatten)).Perm
        ((nb ++ dr ++ p.flatten) ++ (nb' ++ dr' ++ p'.flatten)) := by
      rw [← Multiset.coe_eq_coe]
      simp only [← Multiset.coe_add]
      abel
    exact this.trans (a1.append b1)
  · exact List.rel_append
      (a2.imp fun c lc h => ⟨h.1, h.2.1, h.2.2.1, hf _ h.2.2.2⟩)
      (b2.imp fun c lc h => ⟨h.1, h.2.1, h.2.2.1, hf' _ h.2.2.2⟩)
  · intro j hj
    rcases List.mem_append.mp hj with hj | hj
    · exact a3 j hj
    · exact b3 j hj

theorem grav_fold (L : Links) (leaf : ℕ → Option (List ℕ)) (Q : ℕ → List ℕ → Prop)
    (far acc : ℕ → Prop) (body : ℕ → Tree.GravLists → Act Tree.GravLists)
    (hbody : ∀ c l1 s, Q c l1 → (L.copen c = none → leaf c = some l1) →
      GravStep far acc (decide (L.copen c = none)) c l1 s (body c s)) :
    ∀ (f : Forest) (next : ℕ) (l : List ℕ) (s : Tree.GravLists), f.Linked L next →
    f.Covers leaf Q l → f.fold body s = none ∨
    ∃ nb dr cs, f.fold body s = some ⟨s.neib ++ nb, s.direct ++ dr, s.cells ++ cs⟩ ∧
      GravSplit Q far acc f.cells l nb dr cs := by
  intro f
  induction f with
  | nil =>
    intro next l s _ hl
    refine Or.inr ⟨[], [], [], by simp [Forest.fold], [], ?_, .nil, by simp⟩
    rw [show l = [] from hl]; exact List.Perm.refl _
  | cons c ch rest h1 h2 =>
    rintro next l s ⟨k1, k2, k3, k4⟩ ⟨l1, l2, rfl, q, a, b, d⟩
    have hcl : L.copen c = none → ch = .nil := by
      intro h; rw [k2] at h
      cases ch with
      | nil => rfl
      | cons _ _ _ => simp at h
    have hst := hbody c l1 s q (fun h => a (hcl h))
    have cont : ∀ (s1 : Tree.GravLists) (nb1 dr1 cs1 : List ℕ),
        s1 = ⟨s.neib ++ nb1, s.direct ++ dr1, s.cells ++ cs1⟩ →
        GravSplit Q far acc (c :: ch.cells) l1 nb1 dr1 cs1 →
        rest.fold body s1 = none ∨
        ∃ nb dr cs, rest.fold body s1 = some ⟨s.neib ++ nb, s.direct ++ dr, s.cells ++ cs⟩ ∧
          GravSplit Q far acc (Forest.cons c ch rest).cells (l1 ++ l2) nb dr cs := by
      rintro s1 nb1 dr1 cs1 rfl hsp
      rcases h2 next l2 ⟨s.neib ++ nb1, s.direct ++ dr1, s.cells ++ cs1⟩ k4 d with e | ⟨nb, dr, cs, e, g⟩
      · exact Or.inl e
      · refine Or.inr ⟨nb1 ++ nb, dr1 ++ dr, cs1 ++ cs, ?_, hsp.append g ?_ ?_⟩
        · rw [e]; simp only [List.append_assoc]
        · intro x hx
          simp only [Forest.cells, List.mem_cons, List.mem_append] at hx ⊢
          tauto
        · intro x hx
          simp only [Forest.cells, List.mem_cons, List.mem_append]
          tauto
    rcases hst with e | ⟨e, he⟩ | ⟨e, hl⟩ | e | ⟨e, hfar⟩ | ⟨e, hfar, hacc⟩
    · simp only [Forest.fold, e]; exact Or.inl trivial
    · have hc : ch ≠ .nil := by
        rintro rfl
        rw [decide_eq_false_iff_not] at he
        exact he k2
      simp only [Forest.fold, e]
      rcases h1 _ l1 s k3 (b hc) with e1 | ⟨nb1, dr1, cs1, e1, g1⟩
      · rw [e1]; exact Or.inl rfl
      · rw [e1, Option.bind_some]
        refine cont _ nb1 dr1 cs1 rfl ?_
        obtain ⟨p, a1, a2, a3⟩ := g1
        exact ⟨p, a1, a2.imp fun c lc h => ⟨h.1, h.2.1, h.2.2.1, List.mem_cons_of_mem _ h.2.2.2⟩, a3⟩
    · simp only [Forest.fold, e]
      refine cont _ [] [] [] (by simp) ⟨[], by simp [hl], .nil, by simp⟩
    · simp only [Forest.fold, e]
      refine cont _ l1 [] [] (by simp) ⟨[], by simp, .nil, by simp⟩
    · simp only [Forest.fold, e]
      refine cont _ [] l1 [] (by simp) ⟨[], by simp, .nil, fun j hj => ⟨c, l1, q, hj, hfar⟩⟩
    · simp only [Forest.fold, e]
      refine cont _ [] [] [c] (by simp) ⟨[l1], by simp, ?_, by simp⟩
      exact .cons ⟨q, hfar, hacc, by simp⟩ .nil

theorem fold_ne_none {σ : Type*} {body : ℕ → σ → Act σ} (h : ∀ c s, body c s ≠ .abort) :
    ∀ (f : Forest) (s : σ), f.fold body s ≠ none := by
  intro f
  induction f with
  | nil => intro s; simp [Forest.fold]
  | cons c ch rest h1 h2 =>
    intro s
    simp only [Forest.fold]
    cases e : body c s with
    | abort => exact absurd e (h c s)
    | next s' => exact h2 s'
    | open_ s' =>
      simp only []
      cases e1 : ch.fold body s' with
      | none => exact absurd e1 (h1 s')
      | some t => exact h2 t

theorem forall2_right {α β : Type*} {R : α → β → Prop} : ∀ {l : List α} {l' : List β},
    List.Forall₂ R l l' → ∀ b ∈ l', ∃ a, R a b := by
  intro l l' h
  induction h with
  | nil => simp
  | cons h1 _ ih =>
    intro b hb
    rcases List.mem_cons.mp hb with rfl | hb
    · exact ⟨_, h1⟩
    · exact ih b hb

theorem fold_invariant {σ : Type*} (L : Links) (leaf : ℕ → Option (List ℕ)) (Q : ℕ → List ℕ → Prop)
    (I : σ → Prop) (body : ℕ → σ → Act σ)
    (hn : ∀ c l1 s s', Q c l1 → (L.copen c = none → leaf c = some l1) → I s → body c s = .next s' →
      I s')
    (ho : ∀ c l1 s s', Q c l1 → (L.copen c = none → leaf c = some l1) → I s → body c s = .open_ s' →
      I s') :
    ∀ (f : Forest) (next : ℕ) (l : List ℕ) (s s' : σ), f.Linked L next → f.Covers leaf Q l → I s →
      f.fold body s = some s' → I s' := by
  intro f
  induction f with
  | nil => intro next l s s' _ _ hi e; simp only [Forest.fold, Option.some.injEq] at e; rwa [← e]
  | cons c ch rest h1 h2 =>
    rintro next l s s' ⟨k1, k2, k3, k4⟩ ⟨l1, l2, rfl, q, a, b, d⟩ hi e
    have hcl : L.copen c = none → leaf c = some l1 := by
      intro h; rw [k2] at h
      cases ch with
      | nil => exact a rfl
      | cons _ _ _ => simp at h
    simp only [Forest.fold] at e
    cases eb : body c s with
    | abort => rw [eb] at e; simp at e
    | next t => rw [eb] at e; exact h2 next l2 t s' k4 d (hn c l1 s t q hcl hi eb) e
    | open_ t =>
      rw [eb] at e
      simp only [] at e
      have it := ho c l1 s t q hcl hi eb
      cases e1 : ch.fold body t with
      | none => rw [e1] at e; simp at e
      | some u =>
        rw [e1, Option.bind_some] at e
        by_cases hc : ch = .nil
        · subst hc
          simp only [Forest.fold, Option.some.injEq] at e1
          exact h2 next l2 u s' k4 d (e1 ▸ it) e
        · exact h2 next l2 u s' k4 d (h1 _ l1 t u k3 (b hc) it e1) e

/-- a one-particle leaf list starts at its particle -/
theorem leafList_singleton {T : Tree n} {pfuel c i : ℕ} (h : T.leafList pfuel c = some [i]) :
    T.ifirst c = some i := by
  unfold Tree.leafList at h
  cases hi : T.ifirst c with
  | none => rw [hi] at h; cases pfuel <;> simp [LeafList.traverse] at h
  | some j =>
    rw [hi] at h
    cases pfuel with
    | zero => simp [LeafList.traverse] at h
    | succ p =>
      simp only [LeafList.traverse] at h
      split_ifs at h with h1
      · simp at h; rw [h]
      · simp only [Option.map_eq_some_iff] at h
        obtain ⟨a, _, h3⟩ := h
        simp only [List.cons.injEq] at h3
        rw [h3.1]

end Gandalf
