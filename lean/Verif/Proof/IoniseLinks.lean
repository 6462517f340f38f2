import Verif.Proof.Ionise

set_option autoImplicit false
set_option linter.unusedSectionVars false

namespace Gandalf.Ion

variable {α : Type} [Field α] [LinearOrder α]

section
variable (near : ℕ) (sink : ℕ → Bool) (dist : ℕ → α) (angle : ℕ → Option α) (big low : α) (i dummy : ℕ)

/-- the number compared -/
def key (j : ℕ) : Option α := if j = near then some low else if sink j then some big else angle j

theorem linkTest_eq (cur : α × ℕ) (j : ℕ) : linkTest near sink dist angle big low i cur j =
    if dist j < dist i ∧ i ≠ j then match key near sink angle big low j with
      | none => cur
      | some a => if a < cur.1 then (a, j) else cur
    else cur := rfl

theorem fold_link (L : List ℕ) :
    let r := L.foldl (linkTest near sink dist angle big low i) (big, dummy)
    (r = (big, dummy) ∨ (r.2 ∈ L ∧ (dist r.2 < dist i ∧ i ≠ r.2) ∧ key near sink angle big low r.2 = some r.1 ∧ r.1 < big)) ∧
      ∀ j ∈ L, dist j < dist i → i ≠ j → ∀ a, key near sink angle big low j = some a → r.1 ≤ a ∨ big ≤ a := by
  induction L using List.reverseRecOn with
  | nil => exact ⟨Or.inl rfl, by simp⟩
  | append_singleton L j ih =>
    simp only [List.foldl_append, List.foldl_cons, List.foldl_nil]
    set r := L.foldl (linkTest near sink dist angle big low i) (big, dummy) with hr
    simp only at ih
    obtain ⟨h1, h2⟩ := ih
    have hle : r.1 ≤ big := by
      rcases h1 with h | h
      · rw [h]
      · exact h.2.2.2.le
    have same : (r = (big, dummy) ∨ (r.2 ∈ L ++ [j] ∧ (dist r.2 < dist i ∧ i ≠ r.2) ∧ key near sink angle big low r.2 = some r.1 ∧ r.1 < big)) :=
      h1.imp_right fun ⟨a, b⟩ => ⟨List.mem_append_left _ a, b⟩
    rw [linkTest_eq]
    by_cases he : dist j < dist i ∧ i ≠ j
    · rw [if_pos he]
      cases hk : key near sink angle big low j with
      | none =>
        simp only
        refine ⟨same, fun k hk' => ?_⟩
        rcases List.mem_append.1 hk' with h | h
        · exact h2 k h
        · rw [List.mem_singleton] at h
          subst h
          intro _ _ a ha
          rw [hk] at ha
          cases ha
      | some b =>
        simp only
        by_cases hb : b < r.1
        · rw [if_pos hb]
          refine ⟨Or.inr ⟨by simp, he, hk, lt_of_lt_of_le hb hle⟩, fun k hk' hd hne a ha => ?_⟩
          rcases List.mem_append.1 hk' with h | h
          · exact (h2 k h hd hne a ha).imp_left fun h => hb.le.trans h
          · rw [List.mem_singleton] at h
            subst h
            rw [hk] at ha
            cases ha
            exact Or.inl le_rfl
        · rw [if_neg hb]
          refine ⟨same, fun k hk' hd hne a ha => ?_⟩
          rcases List.mem_append.1 hk' with h | h
          · exact h2 k h hd hne a ha
          · rw [List.mem_singleton] at h
            subst h
            rw [hk] at ha
            cases ha
            exact Or.inl (not_lt.1 hb)
    · rw [if_neg he]
      refine ⟨same, fun k hk' hd hne => ?_⟩
      rcases List.mem_append.1 hk' with h | h
      · exact h2 k h hd hne
      · rw [List.mem_singleton] at h
        subst h
        exact absurd ⟨hd, hne⟩ he

theorem link_eq (l l' : List ℕ) : link near sink dist angle big low i dummy l l' =
    (l ++ l').foldl (linkTest near sink dist angle big low i) (big, dummy) := by
  rw [link, List.foldl_append]

end

/-! ### temperatures -/

section
variable (fion : ℕ → Bool) (sep : ℕ → ℕ → α) (h : ℕ → α) (ti : α) (nb : ℕ → List ℕ)

/-- what an ionised particle gives to a neutral one -/
def glow (i j : ℕ) : α := ti * w (sep j i / (h i * (3 / 2)))

theorem heat_fold (i : ℕ) (l : List ℕ) (t : ℕ → α) (j : ℕ) (hj : fion j = false) :
    let r := l.foldl (heat fion sep h ti i) t j
    t j ≤ r ∧ (j ∈ l → glow sep h ti i j ≤ r) ∧ (r = t j ∨ (j ∈ l ∧ r = glow sep h ti i j)) := by
  induction l generalizing t with
  | nil => simp
  | cons k l ih =>
    simp only [List.foldl_cons]
    have ih := ih (heat fion sep h ti i t k)
    simp only at ih
    have hk : heat fion sep h ti i t k j = if k = j ∧ t j < glow sep h ti i j then glow sep h ti i j else t j := by
      unfold heat
      by_cases hkj : k = j
      · subst hkj
        simp only [hj, Bool.false_eq_true, if_false, true_and]
        by_cases hlt : t k < ti * w (sep k i / (h i * (3 / 2)))
        · rw [if_pos hlt, if_pos (by exact hlt)]
          simp [glow]
        · rw [if_neg hlt, if_neg (by exact hlt)]
      · have hne : j ≠ k := fun h => hkj h.symm
        rw [if_neg (show ¬(k = j ∧ t j < glow sep h ti i j) from fun h => hkj h.1)]
        by_cases hf : fion k = true
        · rw [if_pos hf, Function.update_of_ne hne]
        · rw [if_neg hf]
          by_cases hlt : t k < ti * w (sep k i / (h i * (3 / 2)))
          · rw [if_pos hlt, Function.update_of_ne hne]
          · rw [if_neg hlt]
    obtain ⟨h1, h2, h3⟩ := ih
    rw [hk] at h1 h3
    by_cases hc : k = j ∧ t j < glow sep h ti i j
    · rw [if_pos hc] at h1 h3
      refine ⟨hc.2.le.trans h1, fun _ => h1, ?_⟩
      rcases h3 with h3 | h3
      · exact Or.inr ⟨by simp [hc.1], h3⟩
      · exact Or.inr ⟨List.mem_cons_of_mem _ h3.1, h3.2⟩
    · rw [if_neg hc] at h1 h3
      refine ⟨h1, fun hm => ?_, h3.imp_right fun h => ⟨List.mem_cons_of_mem _ h.1, h.2⟩⟩
      rcases List.mem_cons.1 hm with hm | hm
      · have : ¬t j < glow sep h ti i j := fun hlt => hc ⟨hm.symm, hlt⟩
        exact (not_lt.1 this).trans h1
      · exact h2 hm

theorem smooth_fold (is : List ℕ) (t : ℕ → α) (j : ℕ) (hj : fion j = false) :
    let r := smooth fion sep h ti nb is t j
    t j ≤ r ∧ (∀ i ∈ is, fion i = true → j ∈ nb i → glow sep h ti i j ≤ r) ∧
      (r = t j ∨ ∃ i ∈ is, fion i = true ∧ j ∈ nb i ∧ r = glow sep h ti i j) := by
  induction is generalizing t with
  | nil => simp [smooth]
  | cons k is ih =>
    have e : smooth fion sep h ti nb (k :: is) t
        = smooth fion sep h ti nb is (if fion k then (nb k).foldl (heat fion sep h ti k) t else t) := rfl
    rw [e]
    by_cases hf : fion k = true
    · rw [if_pos hf]
      obtain ⟨a1, a2, a3⟩ := heat_fold fion sep h ti k (nb k) t j hj
      obtain ⟨b1, b2, b3⟩ := ih ((nb k).foldl (heat fion sep h ti k) t)
      refine ⟨a1.trans b1, ?_, ?_⟩
      · intro i hi hfi hji
        rcases List.mem_cons.1 hi with rfl | hi
        · exact (a2 hji).trans b1
        · exact b2 i hi hfi hji
      · rcases b3 with b3 | ⟨i, h1, h2⟩
        · rcases a3 with a3 | a3
          · exact Or.inl (b3.trans a3)
          · exact Or.inr ⟨k, List.mem_cons_self, hf, a3.1, b3.trans a3.2⟩
        · exact Or.inr ⟨i, List.mem_cons_of_mem _ h1, h2⟩
    · rw [if_neg hf]
      obtain ⟨b1, b2, b3⟩ := ih t
      refine ⟨b1, ?_, ?_⟩
      · intro i hi hfi hji
        rcases List.mem_cons.1 hi with rfl | hi
        · exact absurd hfi hf
        · exact b2 i hi hfi hji
      · exact b3.imp_right fun ⟨i, h1, h2⟩ => ⟨i, List.mem_cons_of_mem _ h1, h2⟩

end

theorem w_range [IsStrictOrderedRing α] (s : α) (hs : 0 ≤ s) : 0 ≤ w s ∧ w s ≤ 1 := by
  unfold w
  by_cases h1 : s < 1
  · rw [if_pos h1]
    have h2 := mul_nonneg hs hs
    constructor
    · nlinarith [mul_nonneg h2 hs]
    · nlinarith [mul_nonneg h2 hs, mul_nonneg h2 (sub_nonneg.2 h1.le)]
  · rw [if_neg h1]
    push Not at h1
    by_cases h2 : s < 2
    · rw [if_pos h2]
      have h3 : 0 ≤ 2 - s := by linarith
      have h4 : 2 - s ≤ 1 := by linarith
      have h5 : (2 - s) ^ 3 ≤ 1 := pow_le_one₀ h3 h4
      have h6 : 0 ≤ (2 - s) ^ 3 := pow_nonneg h3 3
      constructor <;> linarith
    · rw [if_neg h2]
      constructor <;> norm_num

end Gandalf.Ion
