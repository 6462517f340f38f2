import Verif.Spec.Cover
import Verif.Proof.TreeWalk
import Verif.Proof.KDStructure
import Verif.Proof.KDStockTree
import Mathlib.Algebra.Order.Chebyshev

/-! Lemmas about tree searches. -/

set_option autoImplicit false

namespace Gandalf
open Walk

theorem Forest.Covers.imp {leaf : ℕ → Option (List ℕ)} {Q Q' : ℕ → List ℕ → Prop}
    (h : ∀ c l, Q c l → Q' c l) : ∀ {f : Forest} {l : List ℕ}, f.Covers leaf Q l →
    f.Covers leaf Q' l := by
  intro f
  induction f with
  | nil => intro l hl; exact hl
  | cons c ch rest h1 h2 =>
    rintro l ⟨l1, l2, e, q, a, b, d⟩
    exact ⟨l1, l2, e, h _ _ q, a, fun hc => h1 (b hc), h2 d⟩

theorem Forest.Covers.sub {leaf : ℕ → Option (List ℕ)} {Q : ℕ → List ℕ → Prop} {f : Forest}
    {l : List ℕ} (h : f.Covers leaf Q l) : f.Covers leaf (fun c l' => Q c l' ∧ ∀ j ∈ l', j ∈ l) l := by
  suffices ∀ (L : List ℕ) (f : Forest) (l : List ℕ), (∀ j ∈ l, j ∈ L) → f.Covers leaf Q l →
      f.Covers leaf (fun c l' => Q c l' ∧ ∀ j ∈ l', j ∈ L) l from this l f l (fun _ h => h) h
  intro L f
  induction f with
  | nil => intro l _ hl; exact hl
  | cons c ch rest h1 h2 =>
    rintro l hs ⟨l1, l2, rfl, q, a, b, d⟩
    have s1 : ∀ j ∈ l1, j ∈ L := fun j hj => hs j (List.mem_append_left _ hj)
    have s2 : ∀ j ∈ l2, j ∈ L := fun j hj => hs j (List.mem_append_right _ hj)
    exact ⟨l1, l2, rfl, ⟨q, s1⟩, a, fun hc => h1 _ s1 (b hc), h2 _ s2 d⟩

/-- leaves of a covered, linked forest have lists -/
theorem Forest.Covers.allLeaves {leaf : ℕ → Option (List ℕ)} {Q : ℕ → List ℕ → Prop} :
    ∀ {f : Forest} {l : List ℕ}, f.Covers leaf Q l → f.AllLeaves (fun c => ∃ l', leaf c = some l') := by
  intro f
  induction f with
  | nil => intro _ _; trivial
  | cons c ch rest h1 h2 =>
    rintro l ⟨l1, l2, e, q, a, b, d⟩
    refine ⟨fun hc => ⟨l1, a hc⟩, ?_, h2 d⟩
    by_cases hc : ch = .nil
    · subst hc; trivial
    · exact h1 (b hc)

theorem Forest.Linked.allLeaves {L : Links} : ∀ {f : Forest} {next : ℕ}, f.Linked L next →
    f.AllLeaves (fun c => L.copen c = none) := by
  intro f
  induction f with
  | nil => intro _ _; trivial
  | cons c ch rest h1 h2 =>
    rintro next ⟨a, b, d, e⟩
    exact ⟨fun hc => by subst hc; exact b, h1 d, h2 e⟩

theorem Forest.AllLeaves.and {P Q : ℕ → Prop} : ∀ {f : Forest}, f.AllLeaves P → f.AllLeaves Q →
    f.AllLeaves (fun c => P c ∧ Q c) := by
  intro f
  induction f with
  | nil => intro _ _; trivial
  | cons c ch rest h1 h2 =>
    rintro ⟨a, b, d⟩ ⟨a', b', d'⟩
    exact ⟨fun hc => ⟨a hc, a' hc⟩, h1 b b', h2 d d'⟩

/-- body of a search which collects particles of the leaves in reach -/
def collectBody (L : Links) (N : ℕ → ℕ) (leaf : ℕ → Option (List ℕ)) (near : ℕ → Bool)
    (sel : ℕ → Bool) (room : List ℕ → Bool) (c : ℕ) (s : List ℕ) : Act (List ℕ) :=
  if near c = true then
    if L.copen c ≠ none then .open_ s
    else if N c = 0 then .next s
    else if room s = true then
      match leaf c with
      | none => .open_ s
      | some l => .next (s ++ l.filter sel)
    else .abort
  else .next s

/-- What a collecting search finds: `r` are the particles of the leaves reached. -/
theorem collect_fold (L : Links) (N : ℕ → ℕ) (leaf : ℕ → Option (List ℕ)) (near sel : ℕ → Bool)
    (room : List ℕ → Bool) (need : ℕ → Bool) (Q : ℕ → List ℕ → Prop)
    (hQN : ∀ c l, Q c l → N c = l.length)
    (hnear : ∀ c l, Q c l → near c = false → l.filter need = []) :
    ∀ (f : Forest) (next : ℕ) (l s : List ℕ), f.Linked L next → f.Covers leaf Q l →
    (∃ r : List ℕ, f.fold (collectBody L N leaf near sel room) s = some (s ++ r.filter sel) ∧ r.Sublist l ∧
      r.filter need = l.filter need) ∨
    (f.fold (collectBody L N leaf near sel room) s = none ∧
      ∃ r : List ℕ, r.Sublist l ∧ room (s ++ r.filter sel) = false) := by
  intro f
  induction f with
  | nil =>
    intro next l s _ hl
    rw [show l = [] from hl]
    exact Or.inl ⟨[], by simp [Forest.fold], List.Sublist.refl _, rfl⟩
  | cons c ch rest h1 h2 =>
    rintro next l s ⟨k1, k2, k3, k4⟩ ⟨l1, l2, rfl, q, a, b, d⟩
    have skip : l1.filter need = [] → (∃ r : List ℕ, rest.fold (collectBody L N leaf near sel room) s =
        some (s ++ r.filter sel) ∧ r.Sublist (l1 ++ l2) ∧
          r.filter need = (l1 ++ l2).filter need) ∨
        (rest.fold (collectBody L N leaf near sel room) s = none ∧
          ∃ r : List ℕ, r.Sublist (l1 ++ l2) ∧ room (s ++ r.filter sel) = false) := by
      intro he
      rcases h2 next l2 s k4 d with ⟨r, e, g1, g2⟩ | ⟨e, r, g1, g2⟩
      · exact Or.inl ⟨r, e, g1.trans (List.sublist_append_right _ _), by
          rw [g2, List.filter_append, he, List.nil_append]⟩
      · exact Or.inr ⟨e, r, g1.trans (List.sublist_append_right _ _), g2⟩
    by_cases hn : near c = true
    · by_cases hc : ch = .nil
      · subst hc
        have ho : L.copen c = none := by rw [k2]
        have hlf := a rfl
        by_cases hN : N c = 0
        · have hl1 : l1 = [] := List.length_eq_zero_iff.mp (by rw [← hQN c l1 q, hN])
          have e : collectBody L N leaf near sel room c s = .next s := by
            simp [collectBody, hn, ho, hN]
          simp only [Forest.fold, e]
          exact skip (by rw [hl1]; rfl)
        · by_cases hr : room s = true
          · have e : collectBody L N leaf near sel room c s = .next (s ++ l1.filter sel) := by
              simp [collectBody, hn, ho, hN, hr, hlf]
            simp only [Forest.fold, e]
            rcases h2 next l2 (s ++ l1.filter sel) k4 d with ⟨r, e, g1, g2⟩ | ⟨e, r, g1, g2⟩
            · refine Or.inl ⟨l1 ++ r, ?_, List.Sublist.append (List.Sublist.refl _) g1, ?_⟩
              · rw [e, List.filter_append, List.append_assoc]
              · rw [List.filter_append, List.filter_append, g2]
            · refine Or.inr ⟨e, l1 ++ r, List.Sublist.append (List.Sublist.refl _) g1, ?_⟩
              rw [List.filter_append, ← List.append_assoc]; exact g2
          · have e : collectBody L N leaf near sel room c s = .abort := by
              simp [collectBody, hn, ho, hN, hr]
            simp only [Forest.fold, e]
            exact Or.inr ⟨trivial, [], by simp, by simpa using hr⟩
      · have ho : L.copen c ≠ none := by
          rw [k2]
          cases ch with
          | nil => exact absurd rfl hc
          | cons _ _ _ => simp
        have e : collectBody L N leaf near sel room c s = .open_ s := by
          simp [collectBody, hn, ho]
        simp only [Forest.fold, e]
        rcases h1 _ l1 s k3 (b hc) with ⟨r1, e1, g1, g2⟩ | ⟨e1, r1, g1, g2⟩
        · rw [e1, Option.bind_some]
          rcases h2 next l2 (s ++ r1.filter sel) k4 d with ⟨r, e, g3, g4⟩ | ⟨e, r, g3, g4⟩
          · refine Or.inl ⟨r1 ++ r, ?_, List.Sublist.append g1 g3, ?_⟩
            · rw [e, List.filter_append, List.append_assoc]
            · rw [List.filter_append, List.filter_append, g2, g4]
          · refine Or.inr ⟨e, r1 ++ r, List.Sublist.append g1 g3, ?_⟩
            rw [List.filter_append, ← List.append_assoc]; exact g4
        · rw [e1]
          exact Or.inr ⟨rfl, r1, g1.trans (List.sublist_append_left _ _), g2⟩
    · have e : collectBody L N leaf near sel room c s = .next s := by
        simp [collectBody, hn]
      simp only [Forest.fold, e]
      exact skip (hnear c l1 q (by simpa using hn))

/-- the found list never exceeds the buffer -/
theorem collect_bound (L : Links) (N : ℕ → ℕ) (leaf : ℕ → Option (List ℕ)) (near sel : ℕ → Bool)
    (M K : ℕ) (Q : ℕ → List ℕ → Prop) (hQ : ∀ c l, Q c l → L.copen c = none → l.length ≤ M) :
    ∀ (f : Forest) (next : ℕ) (l s s' : List ℕ), f.Linked L next → f.Covers leaf Q l →
    f.fold (collectBody L N leaf near sel fun s => decide (s.length + M < K)) s = some s' →
    s.length ≤ K → s'.length ≤ K := by
  intro f
  induction f with
  | nil =>
    intro next l s s' _ _ h hs
    simp only [Forest.fold, Option.some.injEq] at h
    rw [← h]; exact hs
  | cons c ch rest h1 h2 =>
    rintro next l s s' ⟨k1, k2, k3, k4⟩ ⟨l1, l2, rfl, q, a, b, d⟩ h hs
    simp only [Forest.fold] at h
    by_cases hn : near c = true
    · by_cases hc : ch = .nil
      · subst hc
        have ho : L.copen c = none := by rw [k2]
        have hlf := a rfl
        by_cases hN : N c = 0
        · simp only [collectBody, hn, ho, hN, if_true, ne_eq, not_true_eq_false, if_false] at h
          exact h2 next l2 s s' k4 d h hs
        · by_cases hr : s.length + M < K
          · simp only [collectBody, hn, ho, hN, hr, hlf, if_true, ne_eq, not_true_eq_false, if_false,
              decide_true] at h
            refine h2 next l2 _ s' k4 d h ?_
            rw [List.length_append]
            have := List.length_filter_le sel l1
            have := hQ c l1 q ho
            omega
          · simp only [collectBody, hn, ho, hN, hr, if_true, ne_eq, not_true_eq_false, if_false,
              decide_false, Bool.false_eq_true] at h
            exact absurd h (by simp)
      · have ho : L.copen c ≠ none := by
          rw [k2]
          cases ch with
          | nil => exact absurd rfl hc
          | cons _ _ _ => simp
        simp only [collectBody, hn, ho, if_true, ne_eq, not_false_eq_true] at h
        cases e : ch.fold (collectBody L N leaf near sel fun s => decide (s.length + M < K)) s with
        | none => rw [e] at h; simp at h
        | some t =>
          rw [e, Option.bind_some] at h
          exact h2 next l2 t s' k4 d h (h1 _ l1 s t k3 (b hc) e hs)
    · simp only [collectBody, hn, if_false, Bool.false_eq_true] at h
      exact h2 next l2 s s' k4 d h hs

/-! ### Geometry -/

variable {n : ℕ}

theorem dot_sq_le (x y : Vec n ℝ) : dot x y ^ 2 ≤ dot x x * dot y y := by
  have := Finset.sum_mul_sq_le_sq_mul_sq Finset.univ x y
  simp only [dot]
  simpa [sq] using this

/-- triangle inequality in terms of squared lengths -/
theorem dot_add_le {x y : Vec n ℝ} {a b : ℝ} (ha : 0 ≤ a) (hb : 0 ≤ b) (hx : dot x x ≤ a ^ 2)
    (hy : dot y y ≤ b ^ 2) : dot (fun k => x k + y k) (fun k => x k + y k) ≤ (a + b) ^ 2 := by
  have e : dot (fun k => x k + y k) (fun k => x k + y k) = dot x x + 2 * dot x y + dot y y := by
    simp only [dot, Finset.mul_sum, ← Finset.sum_add_distrib]
    congr 1; ext k; ring
  have h := dot_sq_le x y
  have h2 : dot x y ^ 2 ≤ (a * b) ^ 2 := by
    rw [mul_pow]
    exact h.trans (mul_le_mul hx hy (KD.dot_self_nonneg y) (sq_nonneg a))
  have h3 : dot x y ≤ a * b := (abs_le_of_sq_le_sq' h2 (mul_nonneg ha hb)).2
  rw [e]; nlinarith

theorem dot_add_lt {x y : Vec n ℝ} {a b : ℝ} (ha : 0 ≤ a) (hb : 0 ≤ b) (hx : dot x x < a ^ 2)
    (hy : dot y y ≤ b ^ 2) : dot (fun k => x k + y k) (fun k => x k + y k) < (a + b) ^ 2 := by
  have e : dot (fun k => x k + y k) (fun k => x k + y k) = dot x x + 2 * dot x y + dot y y := by
    simp only [dot, Finset.mul_sum, ← Finset.sum_add_distrib]
    congr 1; ext k; ring
  have h := dot_sq_le x y
  have h2 : dot x y ^ 2 ≤ (a * b) ^ 2 := by
    rw [mul_pow]
    exact h.trans (mul_le_mul hx.le hy (KD.dot_self_nonneg y) (sq_nonneg a))
  have h3 : dot x y ≤ a * b := (abs_le_of_sq_le_sq' h2 (mul_nonneg ha hb)).2
  rw [e]; nlinarith

theorem distsqd_comm (x y : Vec n ℝ) : Tree.distsqd x y = Tree.distsqd y x := by
  simp only [Tree.distsqd, dot]
  congr 1; ext k; ring

theorem distsqd_lt_add {x y z : Vec n ℝ} {a b : ℝ} (ha : 0 ≤ a) (hb : 0 ≤ b)
    (hx : Tree.distsqd x y < a ^ 2) (hy : Tree.distsqd y z ≤ b ^ 2) :
    Tree.distsqd x z < (a + b) ^ 2 := by
  have := dot_add_lt ha hb hx hy
  have e : (fun k => x k - z k) = fun k => (x k - y k) + (y k - z k) := by funext k; ring
  rw [Tree.distsqd, e]; exact this

theorem abs_lt_of_dot_lt {x : Vec n ℝ} {a : ℝ} (ha : 0 ≤ a) (h : dot x x < a ^ 2) (k : Fin n) :
    |x k| < a := by
  have h1 : x k * x k ≤ dot x x :=
    Finset.single_le_sum (f := fun k => x k * x k) (fun i _ => mul_self_nonneg (x i))
      (Finset.mem_univ k)
  have : x k ^ 2 < a ^ 2 := by nlinarith
  exact abs_lt_of_sq_lt_sq this ha

theorem boxOverlap_eq_true {α : Type*} [Field α] [LinearOrder α] (a b : Box n α) :
    boxOverlap a b = true ↔ ∀ k, a.min k ≤ b.max k ∧ b.min k ≤ a.max k := by
  simp only [boxOverlap, List.all_eq_true, List.mem_finRange, true_implies]
  refine forall_congr' fun k => ?_
  split_ifs with h1 h2
  · simp [h1]
  · simp [h2]
  · simp only [true_iff]; exact ⟨not_lt.mp h1, not_lt.mp h2⟩

/-! ### In-place trimming -/

theorem trimLoop_spec (keep : ℕ → Bool) : ∀ (m j nn : ℕ) (a : ℕ → ℕ), nn ≤ j →
    (Tree.trimLoop keep m j nn a).2 = nn + (((List.range' j m).map a).filter keep).length ∧
    (∀ i, i < nn → (Tree.trimLoop keep m j nn a).1 i = a i) ∧
    (List.range' nn (((List.range' j m).map a).filter keep).length).map
      (Tree.trimLoop keep m j nn a).1 = ((List.range' j m).map a).filter keep := by
  intro m
  induction m with
  | zero => intro j nn a _; simp [Tree.trimLoop]
  | succ m ih =>
    intro j nn a hj
    have hr : List.range' j (m+1) = j :: List.range' (j+1) m := rfl
    by_cases hk : keep (a j) = true
    · obtain ⟨i1, i2, i3⟩ := ih (j+1) (nn+1) (Function.update a nn (a j)) (by omega)
      have ecg : (List.range' (j+1) m).map (Function.update a nn (a j)) =
          (List.range' (j+1) m).map a := by
        apply List.map_congr_left
        intro x hx
        rw [List.mem_range'_1] at hx
        exact Function.update_of_ne (by omega) _ _
      rw [ecg] at i1 i3
      have e1 : Tree.trimLoop keep (m+1) j nn a =
          Tree.trimLoop keep m (j+1) (nn+1) (Function.update a nn (a j)) := by
        simp [Tree.trimLoop, hk]
      rw [e1, hr, List.map_cons, List.filter_cons_of_pos hk]
      refine ⟨by rw [i1, List.length_cons]; omega, ?_, ?_⟩
      · intro i hi
        rw [i2 i (by omega)]
        exact Function.update_of_ne (by omega) _ _
      · rw [List.length_cons]
        rw [show List.range' nn (((List.range' (j+1) m).map a).filter keep).length.succ =
          nn :: List.range' (nn+1) (((List.range' (j+1) m).map a).filter keep).length from rfl,
          List.map_cons, i3, i2 nn (by omega), Function.update_self]
    · obtain ⟨i1, i2, i3⟩ := ih (j+1) nn a (by omega)
      have e1 : Tree.trimLoop keep (m+1) j nn a = Tree.trimLoop keep m (j+1) nn a := by
        simp [Tree.trimLoop, hk]
      rw [e1, hr, List.map_cons, List.filter_cons_of_neg hk]
      exact ⟨i1, i2, i3⟩

/-- trimming = filtering what was appended, keeping what was there -/
theorem trimList_eq (keep : ℕ → Bool) (s r : List ℕ) :
    Tree.trimList keep s.length (s ++ r) = s ++ r.filter keep := by
  have hlen : (s ++ r).length - s.length = r.length := by simp
  have hr : (List.range' s.length r.length).map (Tree.arrayOf (s ++ r) fun _ => 0) = r := by
    apply List.ext_getElem
    · simp
    · intro i h1 h2
      simp only [List.getElem_map, List.getElem_range', Tree.arrayOf]
      rw [List.getElem?_append_right (by omega)]
      simp [h2]
  obtain ⟨i1, i2, i3⟩ := trimLoop_spec keep r.length s.length s.length
    (Tree.arrayOf (s ++ r) fun _ => 0) le_rfl
  rw [hr] at i1 i3
  simp only [Tree.trimList, hlen, i1]
  rw [List.range_eq_range', List.range'_eq_append_iff.mpr ⟨s.length, by simp, rfl, rfl⟩]
  rw [List.map_append]
  congr 1
  · apply List.ext_getElem
    · simp
    · intro i h1 h2
      simp only [List.getElem_map, List.getElem_range']
      rw [i2 _ (by simpa using h2)]
      simp only [Tree.arrayOf]
      rw [List.getElem?_append_left (by simpa using h2)]
      simp [h2]
  · simpa using i3

end Gandalf

namespace Gandalf
open Walk
variable {n : ℕ}

theorem collectBody_leaf {L : Links} {N : ℕ → ℕ} {leaf : ℕ → Option (List ℕ)} {near sel : ℕ → Bool}
    {room : List ℕ → Bool} {c : ℕ} (ho : L.copen c = none) (hl : ∃ l, leaf c = some l) :
    ∀ s s', collectBody L N leaf near sel room c s ≠ .open_ s' := by
  obtain ⟨l, hl⟩ := hl
  intro s s'
  unfold collectBody
  rw [hl, if_neg (show ¬ L.copen c ≠ none from fun h => h ho)]
  split_ifs <;> simp

/-- A collecting search over a correct tree: it terminates, and either gives up with the buffer
(nearly) full, or returns the selected particles of leaves containing all those needed. -/
theorem collect_walk_sub {T : Tree n} {cfg : KD.Cfg} {P : KD.Parts n} {pfuel : ℕ} {f : Forest}
    {l : List ℕ} (h : T.OK cfg P pfuel f l) (near sel need : ℕ → Bool) (room : List ℕ → Bool)
    (hnear : ∀ c l', KD.Summary cfg P l' (T.cell c) → (∀ j ∈ l', j ∈ l) → near c = false →
      l'.filter need = [])
    (s : List ℕ) (fuel : ℕ) (hfuel : f.cells.length ≤ fuel) :
    (∃ r : List ℕ, walk T.links T.Ncell
        (collectBody T.links (fun c => (T.cell c).N) (T.leafList pfuel) near sel room) fuel 0 s =
          .done (s ++ r.filter sel) ∧ r.Sublist l ∧ r.filter need = l.filter need) ∨
    (walk T.links T.Ncell
        (collectBody T.links (fun c => (T.cell c).N) (T.leafList pfuel) near sel room) fuel 0 s =
          .fail ∧ ∃ r : List ℕ, r.Sublist l ∧ room (s ++ r.filter sel) = false) := by
  have hw := walk_eq_fold_end T.links T.Ncell T.Nend h.ends
    (collectBody T.links (fun c => (T.cell c).N) (T.leafList pfuel) near sel room) f h.linked h.cells
    ((h.linked.allLeaves.and h.covers.allLeaves).imp fun c hc => collectBody_leaf hc.1 hc.2)
    s fuel (by rw [f.size_eq_length]; exact hfuel)
  rw [h.root] at hw
  rcases collect_fold T.links (fun c => (T.cell c).N) (T.leafList pfuel) near sel room need _
    (fun c l hq => hq.1.1.N) (fun c l' hq => hnear c l' hq.1.1 hq.2) f T.Nend l s h.linked
    h.covers.sub with
    ⟨r, e, g1, g2⟩ | ⟨e, r, g1, g2⟩
  · exact Or.inl ⟨r, by rw [hw, e], g1, g2⟩
  · exact Or.inr ⟨by rw [hw, e], r, g1, g2⟩

/-- A collecting search over a correct tree: it terminates, and either gives up with the buffer
(nearly) full, or returns the selected particles of leaves containing all those needed. -/
theorem collect_walk {T : Tree n} {cfg : KD.Cfg} {P : KD.Parts n} {pfuel : ℕ} {f : Forest}
    {l : List ℕ} (h : T.OK cfg P pfuel f l) (near sel need : ℕ → Bool) (room : List ℕ → Bool)
    (hnear : ∀ c l, KD.Summary cfg P l (T.cell c) → near c = false → l.filter need = [])
    (s : List ℕ) (fuel : ℕ) (hfuel : f.cells.length ≤ fuel) :
    (∃ r : List ℕ, walk T.links T.Ncell
        (collectBody T.links (fun c => (T.cell c).N) (T.leafList pfuel) near sel room) fuel 0 s =
          .done (s ++ r.filter sel) ∧ r.Sublist l ∧ r.filter need = l.filter need) ∨
    (walk T.links T.Ncell
        (collectBody T.links (fun c => (T.cell c).N) (T.leafList pfuel) near sel room) fuel 0 s =
          .fail ∧ ∃ r : List ℕ, r.Sublist l ∧ room (s ++ r.filter sel) = false) :=
  collect_walk_sub h near sel need room (fun c l' hS _ => hnear c l' hS) s fuel hfuel

theorem collect_walk_bound {T : Tree n} {cfg : KD.Cfg} {P : KD.Parts n} {pfuel : ℕ} {f : Forest}
    {l : List ℕ} (h : T.OK cfg P pfuel f l) (near sel : ℕ → Bool) (K : ℕ)
    (s s' : List ℕ) (fuel : ℕ) (hfuel : f.cells.length ≤ fuel) (hs : s.length ≤ K)
    (hd : walk T.links T.Ncell
        (collectBody T.links (fun c => (T.cell c).N) (T.leafList pfuel) near sel
          fun s => decide (s.length + T.Nleafmax < K)) fuel 0 s = .done s') : s'.length ≤ K := by
  have hw := walk_eq_fold_end T.links T.Ncell T.Nend h.ends
    (collectBody T.links (fun c => (T.cell c).N) (T.leafList pfuel) near sel
      fun s => decide (s.length + T.Nleafmax < K)) f h.linked h.cells
    ((h.linked.allLeaves.and h.covers.allLeaves).imp fun c hc => collectBody_leaf hc.1 hc.2)
    s fuel (by rw [f.size_eq_length]; exact hfuel)
  rw [h.root, hd] at hw
  cases e : f.fold (collectBody T.links (fun c => (T.cell c).N) (T.leafList pfuel) near sel
      fun s => decide (s.length + T.Nleafmax < K)) s with
  | none => rw [e] at hw; simp at hw
  | some t =>
    rw [e] at hw
    obtain rfl : s' = t := by simpa using hw
    exact collect_bound T.links _ _ near sel T.Nleafmax K _ (fun c l hq => hq.2) f T.Nend l s s'
      h.linked h.covers e hs

/-! ### The KD-tree as a `Tree` -/

/-- the tree seen by the searches after building and stocking -/
def KD.toTree (t : KD.Links) (ltot Nleafmax : ℕ) (s : KD.TState n) (mac : ℕ → ℝ) : Tree n where
  links := t.walkLinks
  Ncell := KD.ncellOf ltot
  Nend := KD.ncellOf ltot
  Nleafmax := Nleafmax
  cell := s.cell
  mac := mac
  ifirst := s.ifirst
  ilast := s.ilast
  inext := s.inext

theorem KD.stocked_covers {cfg : Cfg} {P : Parts n} {t : KD.Links} {s : TState n} {M L : ℕ}
    {ltot : ℕ} {mac : ℕ → ℝ} (pfuel : ℕ) : ∀ (d c g : ℕ) (l l2 : List ℕ) (rest : Forest),
    LaidOut t L d c g → Stocked cfg P t s M d c l → l.length ≤ pfuel → l.Nodup →
    rest.Covers ((toTree t ltot M s mac).leafList pfuel) (fun c l' => Summary cfg P l' (s.cell c) ∧
      (t.copen c = none → l'.length ≤ M)) l2 →
    (fullTree d c rest).Covers ((toTree t ltot M s mac).leafList pfuel)
      (fun c l' => Summary cfg P l' (s.cell c) ∧ (t.copen c = none → l'.length ≤ M)) (l ++ l2) := by
  intro d
  induction d with
  | zero =>
    intro c g l l2 rest hlo hs hf hn hr
    obtain ⟨h1, h2, h3, h4, h5⟩ := hs
    refine ⟨l, l2, rfl, ⟨h1, fun _ => h2⟩, fun _ => ?_, fun h => absurd rfl h, hr⟩
    simp only [Tree.leafList, toTree, h3, h4]
    exact LeafList.traverse_chained l pfuel h5 hn hf
  | succ d ih =>
    intro c g l l2 rest hlo hs hf hn hr
    obtain ⟨h1, c1, c2, l1, l1', e1, e2, rfl, h2, h3⟩ := hs
    obtain ⟨_, k2, k3, k4, _, k6, k7⟩ := hlo
    rw [k3] at e1; rw [k4] at e2
    obtain rfl := Option.some.inj e1
    obtain rfl := Option.some.inj e2
    have hn' := List.nodup_append.mp hn
    rw [List.length_append] at hf
    refine ⟨l1 ++ l1', l2, rfl, ⟨h1, fun h => by rw [k2] at h; simp at h⟩, ?_, fun _ => ?_, hr⟩
    · intro h; cases d <;> simp [fullTree] at h
    · refine ih _ _ _ _ _ k6 h2 (by omega) hn'.1 ?_
      have := ih _ _ l1' [] .nil k7 h3 (by omega) hn'.2.1 rfl
      rwa [List.append_nil] at this

theorem KD.toTree_ok {cfg : Cfg} {P : Parts n} {t : KD.Links} {s : TState n} {M ltot : ℕ}
    {mac : ℕ → ℝ} {pfuel : ℕ} {l : List ℕ} (hlo : LaidOut t ltot ltot 0 0)
    (hs : Stocked cfg P t s M ltot 0 l) (hf : l.length ≤ pfuel) (hn : l.Nodup) :
    (toTree t ltot M s mac).OK cfg P pfuel (fullTree ltot 0 .nil) l where
  linked := fullTree_linked ltot 0 0 .nil _ hlo (by simp [toTree, Forest.entry, ncellOf_eq]) trivial
  root := fullTree_entry _ _ _ _
  ends := le_rfl
  cells := by
    intro c hc
    rw [fullTree_cells] at hc
    simp only [Forest.cells, List.append_nil, List.mem_range'_1] at hc
    simp only [toTree, ncellOf_eq]; omega
  covers := by
    have := stocked_covers (ltot := ltot) (mac := mac) pfuel ltot 0 0 l [] .nil hlo hs hf hn rfl
    rwa [List.append_nil] at this
  nodup := hn

end Gandalf
