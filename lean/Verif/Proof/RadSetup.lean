import Verif.Proof.RadFly

/-! From the particles to a tree ready for photons; the sums of the radiation field. -/

set_option autoImplicit false
set_option linter.unusedSectionVars false

namespace Gandalf.RadTree
open KD

variable {n : ℕ} {α : Type} [NeZero n] [Field α] [LinearOrder α] [IsStrictOrderedRing α]

theorem foldl_up (f : ℕ → α) : ∀ (l : List ℕ) (a : α),
    a ≤ l.foldl (fun (b : α) (i : ℕ) => if b < f i then f i else b) a ∧
    ∀ i ∈ l, f i ≤ l.foldl (fun (b : α) (i : ℕ) => if b < f i then f i else b) a := by
  intro l
  induction l with
  | nil => intro a; exact ⟨le_rfl, by simp⟩
  | cons x l ih =>
    intro a
    obtain ⟨h1, h2⟩ := ih (if a < f x then f x else a)
    have e : a ≤ (if a < f x then f x else a) ∧ f x ≤ (if a < f x then f x else a) := by
      split_ifs with h
      · exact ⟨h.le, le_rfl⟩
      · exact ⟨le_rfl, not_lt.mp h⟩
    refine ⟨e.1.trans h1, ?_⟩
    intro i hi
    rcases List.mem_cons.mp hi with rfl | hi
    · exact e.2.trans h1
    · exact h2 i hi

theorem foldl_down (f : ℕ → α) (lo : α) : ∀ (l : List ℕ) (a : α), lo ≤ a → (∀ i ∈ l, lo ≤ f i) →
    lo ≤ l.foldl (fun (b : α) (i : ℕ) => if f i < b then f i else b) a ∧
    l.foldl (fun (b : α) (i : ℕ) => if f i < b then f i else b) a ≤ a ∧
    ∀ i ∈ l, l.foldl (fun (b : α) (i : ℕ) => if f i < b then f i else b) a ≤ f i := by
  intro l
  induction l with
  | nil => intro a h _; exact ⟨h, le_rfl, by simp⟩
  | cons x l ih =>
    intro a ha hl
    have e : lo ≤ (if f x < a then f x else a) ∧ (if f x < a then f x else a) ≤ a ∧
        (if f x < a then f x else a) ≤ f x := by
      split_ifs with h
      · exact ⟨hl x (by simp), h.le, le_rfl⟩
      · exact ⟨ha, le_rfl, not_lt.mp h⟩
    obtain ⟨h1, h2, h3⟩ := ih (if f x < a then f x else a) e.1 (fun i hi => hl i (by simp [hi]))
    refine ⟨h1, h2.trans e.2.1, ?_⟩
    intro i hi
    rcases List.mem_cons.mp hi with rfl | hi
    · exact h2.trans e.2.2
    · exact h3 i hi

theorem build_ready {t : KD.Links} {ltot : ℕ} {big : α} {r : ℕ → Vec n α} {h : ℕ → α}
    {dead : ℕ → Bool} {Ntot : ℕ} {ids0 : ℕ → ℕ} (H : Setup t ltot big r h dead Ntot ids0)
    (old : ℕ → Cell n α) :
    ∃ s, build t ltot big r dead h Ntot old ids0 = some s ∧
      Ready t ltot big (optimise t s.cell ltot (ncellOf ltot)) ∧
      (∀ i, i < Ntot → ∀ k, (s.cell 0).bbmin k ≤ r i k - 2 * h i ∧ r i k + 2 * h i ≤ (s.cell 0).bbmax k) ∧
      (∀ j, j < Ntot → s.ids j < Ntot) ∧ (s.cell 0).N = Ntot := by
  obtain ⟨hlo, hpos, hcount, hids, hlive, hhn, hlow, hbig⟩ := H
  have hup : ∀ i, i < Ntot → ∀ k, r i k + 2 * h i ≤ boxMax big r h Ntot k := by
    intro i hi k
    exact (foldl_up (fun i => r i k + 2 * h i) (List.range Ntot) (-big)).2 i (by simpa using hi)
  have hdn : ∀ k, -big ≤ boxMin big r h Ntot k ∧ ∀ i, i < Ntot → boxMin big r h Ntot k ≤ r i k - 2 * h i := by
    intro k
    obtain ⟨h1, _, h3⟩ := foldl_down (fun i => r i k - 2 * h i) (-big) (List.range Ntot) big
      (by linarith) (fun i hi => hlow i (by simpa using hi) k)
    exact ⟨h1, fun i hi => h3 i (by simpa using hi)⟩
  set s0 : State n α :=
    { cell := Function.update old 0
        { old 0 with
          N := Ntot, bbmin := boxMin big r h Ntot, bbmax := boxMax big r h Ntot
          exit := fun _ _ => none }
      ids := ids0 } with hs0
  have hc0 : s0.cell 0 = { old 0 with
          N := Ntot, bbmin := boxMin big r h Ntot, bbmax := boxMax big r h Ntot
          exit := fun _ _ => none } := by rw [hs0]; simp only [Function.update_self]
  obtain ⟨s, e, hg, _, hsg, _, hperm⟩ := divide_good t ltot big r dead ltot 0 0 0 Ntot s0 hlo
    (by rw [hc0]; simp) (by omega) (by simpa using hcount) (by
      intro j _ hj
      have hi := hids j hj
      refine ⟨hlive _ hi, ?_, ?_⟩
      · intro k
        have h1 := hlow _ hi k
        have h2 := hhn _ hi
        show -big ≤ r (ids0 j) k
        linarith
      · intro k
        rw [hc0]
        have h1 := (hdn k).2 _ hi
        have h2 := hup _ hi k
        have h3 := hhn _ hi
        show boxMin big r h Ntot k ≤ r (ids0 j) k ∧ r (ids0 j) k ≤ boxMax big r h Ntot k
        constructor <;> linarith)
  obtain ⟨g1, g2, g3, g4⟩ := hsg
  rw [hc0] at g1 g2 g3 g4
  simp only at g1 g2 g3 g4
  refine ⟨s, e, ready_of_good hlo hg (by rw [g1]; exact hpos) (fun k => by rw [g2]; exact (hdn k).1) ?_ ?_,
    ?_, ?_, g1⟩
  · intro k
    rw [g2, g3]
    have h1 := (hdn k).2 0 hpos
    have h2 := hup 0 hpos k
    have h3 := hhn 0 hpos
    linarith
  · intro s k; rw [g4]
  · intro i hi k
    rw [g2, g3]
    exact ⟨(hdn k).2 i hi, hup i hi k⟩
  · intro j hj
    obtain ⟨j', _, a2, a3⟩ := hperm j (by omega) hj
    rw [a3]
    exact hids j' a2

/-- cells of a given level are the nodes of the corresponding height -/
theorem node_of_level {t : KD.Links} {L g : ℕ} (hlo : LaidOut t L L 0 g) {c level j : ℕ}
    (hj : level + j = L) (hc : c < ncellOf L) (hl : t.level c = level) : Node L 0 j c := by
  obtain ⟨d, hd⟩ := exists_node L 0 c (by omega) (by rw [ncellOf_eq] at hc; simpa [fullSize] using hc)
  obtain ⟨g', hg'⟩ := hd.laid _ hlo
  have := laid_level hg'
  obtain rfl : d = j := by omega
  exact hd

theorem level_of_node {t : KD.Links} {L g : ℕ} (hlo : LaidOut t L L 0 g) {c level j : ℕ}
    (hj : level + j = L) (hc : Node L 0 j c) : c < ncellOf L ∧ t.level c = level := by
  obtain ⟨g', hg'⟩ := hc.laid _ hlo
  have := laid_level hg'
  have h1 := hc.range
  have h2 := fs_pos j
  refine ⟨?_, by omega⟩
  rw [ncellOf_eq]; show c < fullSize L; omega

/-- `SumRadiationField` leaves in each cell it visits the sum over its cells of the level. -/
theorem sumField_spec {t : KD.Links} {L : ℕ} (level j : ℕ) (hj : level + j = L) :
    ∀ (d c g fuel : ℕ) (f : ℕ → α), LaidOut t L d c g → j ≤ d → d - j < fuel →
      ∃ f', sumField t (level : ℤ) fuel c f = some f' ∧
        f' c = levelSum t level f c (fullSize d) ∧
        (∀ i, i < c ∨ c + fullSize d ≤ i → f' i = f i) ∧
        (∀ i, level ≤ t.level i → f' i = f i) := by
  intro d
  induction d with
  | zero =>
    intro c g fuel f hlo hjd hf
    obtain ⟨fuel, rfl⟩ : ∃ q, fuel = q + 1 := ⟨fuel - 1, by omega⟩
    have hl := laid_level hlo
    rw [sumField, if_neg (by omega)]
    refine ⟨f, rfl, ?_, fun _ _ => rfl, fun _ _ => rfl⟩
    have : t.level c = level := by omega
    unfold levelSum
    rw [fullSize_zero]
    simp [this]
  | succ d ih =>
    intro c g fuel f hlo hjd hf
    obtain ⟨fuel, rfl⟩ : ∃ q, fuel = q + 1 := ⟨fuel - 1, by omega⟩
    have hl := laid_level hlo
    have hs := fullSize_succ d
    have hsplit : levelSum t level f c (fullSize (d + 1)) =
        (if t.level c = level then f c else 0) + levelSum t level f (c+1) (fullSize d) +
          levelSum t level f (c+1+fullSize d) (fullSize d) := by
      unfold levelSum
      rw [hs, show 1 + fullSize d + fullSize d = (fullSize d + fullSize d) + 1 by omega, List.range'_succ,
        ← List.range'_append_1]
      by_cases h : t.level c = level
      · simp only [List.filter_cons, h, decide_true, if_true, List.filter_append, List.map_append,
          List.sum_append, List.map_cons, List.sum_cons]
        ring
      · simp only [List.filter_cons, h, decide_false, Bool.false_eq_true, if_false, List.filter_append,
          List.map_append, List.sum_append]
        ring
    obtain ⟨_, _, hc1, hc2, _, lo1, lo2⟩ := hlo
    have hdeep : ∀ (d' a g' : ℕ), LaidOut t L d' a g' → d' < j → levelSum t level f a (fullSize d') = 0 := by
      intro d'
      induction d' with
      | zero =>
        intro a g' hlo' hlt
        have := laid_level hlo'
        unfold levelSum
        rw [fullSize_zero]
        have h : ¬ t.level a = level := by omega
        simp [h]
      | succ d' ih' =>
        intro a g' hlo' hlt
        have h1 := laid_level hlo'
        obtain ⟨_, _, _, _, _, lo1', lo2'⟩ := hlo'
        have a1 := ih' (a+1) _ lo1' (by omega)
        have a2 := ih' (a+1+fullSize d') _ lo2' (by omega)
        unfold levelSum at a1 a2 ⊢
        rw [fullSize_succ, show 1 + fullSize d' + fullSize d' = (fullSize d' + fullSize d') + 1 by omega,
          List.range'_succ, ← List.range'_append_1]
        have h : ¬ t.level a = level := by omega
        simp only [List.filter_cons, h, decide_false, Bool.false_eq_true, if_false, List.filter_append,
          List.map_append, List.sum_append]
        rw [a1, a2, add_zero]
    rw [sumField]
    rcases Nat.eq_or_lt_of_le hjd with e | e
    · rw [if_neg (by omega)]
      refine ⟨f, rfl, ?_, fun _ _ => rfl, fun _ _ => rfl⟩
      rw [hsplit, if_pos (by omega), hdeep d _ _ lo1 (by omega), hdeep d _ _ lo2 (by omega)]
      ring
    · rw [if_pos (by omega), hc1, hc2]
      obtain ⟨f1, e1, s1, o1, v1⟩ := ih (c+1) _ fuel f lo1 (by omega) (by omega)
      obtain ⟨f2, e2, s2, o2, v2⟩ := ih (c+1+fullSize d) _ fuel f1 lo2 (by omega) (by omega)
      simp only [e1, e2, Option.bind_eq_bind, Option.bind_some]
      have hp := fs_pos d
      refine ⟨_, rfl, ?_, ?_, ?_⟩
      · rw [Function.update_self, o2 (c+1) (by omega), s1, s2, hsplit, if_neg (by omega)]
        have hcongr : levelSum t level f1 (c+1+fullSize d) (fullSize d) =
            levelSum t level f (c+1+fullSize d) (fullSize d) := by
          unfold levelSum
          congr 1
          apply List.map_congr_left
          intro i hi
          rw [List.mem_filter] at hi
          exact v1 i (by have := hi.2; simp only [decide_eq_true_eq] at this; omega)
        rw [hcongr]; ring
      · intro i hi
        rw [Function.update_of_ne (by omega), o2 i (by omega), o1 i (by omega)]
      · intro i hi
        rw [Function.update_of_ne (by rintro rfl; omega), v2 i hi, v1 i hi]

/-- a negative level runs off the tree -/
theorem sumField_negative {t : KD.Links} {L : ℕ} (level : ℤ) (hneg : level < 0) :
    ∀ (d c g fuel : ℕ) (f : ℕ → α), LaidOut t L d c g → sumField t level fuel c f = none := by
  intro d
  induction d with
  | zero =>
    intro c g fuel f hlo
    cases fuel with
    | zero => rfl
    | succ fuel =>
      obtain ⟨_, _, hc1, _⟩ := hlo
      rw [sumField, if_pos (by omega), hc1]
  | succ d ih =>
    intro c g fuel f hlo
    cases fuel with
    | zero => rfl
    | succ fuel =>
      obtain ⟨_, _, hc1, hc2, _, lo1, _⟩ := hlo
      rw [sumField, if_pos (by omega), hc1, hc2]
      simp only [ih (c+1) _ fuel f lo1, Option.bind_eq_bind, Option.bind_none]

end Gandalf.RadTree
