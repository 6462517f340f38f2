import Verif.Proof.KDStock

/-! The recursion over the tree. -/

set_option autoImplicit false

namespace Gandalf.KD
open LeafList

variable {n : ℕ} {cfg : Cfg} {P : Parts n}

theorem Stocked.summary {t : Links} {s : TState n} {M d c : ℕ} {l : List ℕ}
    (h : Stocked cfg P t s M d c l) : Summary cfg P l (s.cell c) := by
  cases d with
  | zero => exact h.1
  | succ d => exact h.1

theorem LeafLists.congr {t : Links} {L M : ℕ} : ∀ (d c g : ℕ) (l : List ℕ) {s s' : TState n},
    LaidOut t L d c g → LeafLists t s M d c l →
    (∀ i, c ≤ i → i < c + fullSize d → s'.ifirst i = s.ifirst i ∧ s'.ilast i = s.ilast i) →
    (∀ x ∈ l, s'.inext x = s.inext x) → LeafLists t s' M d c l := by
  intro d
  induction d with
  | zero =>
    intro c g l s s' _ h hc hx
    obtain ⟨am, a1, a2, a3⟩ := h
    obtain ⟨e1, e2⟩ := hc c le_rfl (by simp [fullSize_zero])
    exact ⟨am, e1 ▸ a1, e2 ▸ a2, Chained.congr a3 fun x h => hx x (List.mem_of_mem_dropLast h)⟩
  | succ d ih =>
    intro c g l s s' hlo h hc hx
    have hfs := fullSize_succ d
    obtain ⟨c1, c2, l1, l2, q1, q2, rfl, q7, q8⟩ := h
    obtain ⟨b1, b2, b3, b4, b5, b6, b7⟩ := hlo
    rw [q1] at b3; rw [q2] at b4
    obtain rfl := Option.some.inj b3
    obtain rfl := Option.some.inj b4
    refine ⟨_, _, l1, l2, q1, q2, rfl, ih _ _ l1 b6 q7 ?_ ?_, ih _ _ l2 b7 q8 ?_ ?_⟩
    · intro i h1 h2; exact hc i (by omega) (by omega)
    · intro x h; exact hx x (List.mem_append_left _ h)
    · intro i h1 h2; exact hc i (by omega) (by omega)
    · intro x h; exact hx x (List.mem_append_right _ h)

theorem Stocked.congr {t : Links} {L M : ℕ} : ∀ (d c g : ℕ) (l : List ℕ) {s s' : TState n},
    LaidOut t L d c g → Stocked cfg P t s M d c l →
    (∀ i, c ≤ i → i < c + fullSize d → s'.ifirst i = s.ifirst i ∧ s'.ilast i = s.ilast i ∧
      s'.cell i = s.cell i) →
    (∀ x ∈ l, s'.inext x = s.inext x) → Stocked cfg P t s' M d c l := by
  intro d
  induction d with
  | zero =>
    intro c g l s s' _ h hc hx
    obtain ⟨a0, am, a1, a2, a3⟩ := h
    obtain ⟨e1, e2, e3⟩ := hc c le_rfl (by simp [fullSize_zero])
    exact ⟨e3 ▸ a0, am, e1 ▸ a1, e2 ▸ a2, Chained.congr a3 fun x h => hx x (List.mem_of_mem_dropLast h)⟩
  | succ d ih =>
    intro c g l s s' hlo h hc hx
    have hfs := fullSize_succ d
    obtain ⟨a0, c1, c2, l1, l2, q1, q2, rfl, q7, q8⟩ := h
    obtain ⟨b1, b2, b3, b4, b5, b6, b7⟩ := hlo
    rw [q1] at b3; rw [q2] at b4
    obtain rfl := Option.some.inj b3
    obtain rfl := Option.some.inj b4
    obtain ⟨e1, e2, e3⟩ := hc c le_rfl (by omega)
    refine ⟨e3 ▸ a0, _, _, l1, l2, q1, q2, rfl, ih _ _ l1 b6 q7 ?_ ?_, ih _ _ l2 b7 q8 ?_ ?_⟩
    · intro i h1 h2; exact hc i (by omega) (by omega)
    · intro x h; exact hx x (List.mem_append_left _ h)
    · intro i h1 h2; exact hc i (by omega) (by omega)
    · intro x h; exact hx x (List.mem_append_right _ h)

/-- what a stocking pass below `c` may change -/
structure StockFrame (s s' : TState n) (c m : ℕ) (l : List ℕ) : Prop where
  ifirst : ∀ i, i < c ∨ c + m ≤ i → s'.ifirst i = s.ifirst i
  ilast : ∀ i, i < c ∨ c + m ≤ i → s'.ilast i = s.ilast i
  cell : ∀ i, i < c ∨ c + m ≤ i → s'.cell i = s.cell i
  inext : ∀ x, x ∉ l → s'.inext x = s.inext x

theorem stockTree_spec (t : Links) (L M : ℕ) (pfuel : ℕ) (hm : ∀ i, P.dead i = false → 0 ≤ P.m i) :
    ∀ (d c g : ℕ) (l : List ℕ) (s : TState n), LaidOut t L d c g → LeafLists t s M d c l →
    l.Nodup → l.length ≤ pfuel →
    ∃ s', (∀ fuel, d + 1 ≤ fuel → stockTree cfg P t L true pfuel fuel c s = some s') ∧
      Stocked cfg P t s' M d c (l.filter fun i => !P.dead i) ∧ StockFrame s s' c (fullSize d) l := by
  intro d
  induction d with
  | zero =>
    intro c g l s hlo hl hnd hf
    obtain ⟨am, a1, a2, a3⟩ := hl
    obtain ⟨b1, b2, b3⟩ := hlo
    obtain ⟨r, hr, r1, r2, r3, r4⟩ := compact_chained P.dead s.inext l pfuel hf hnd a3
    have hlen : (l.filter fun i => !P.dead i).length ≤ pfuel := (List.length_filter_le _ _).trans hf
    have htr := traverse_chained _ pfuel r1 (hnd.filter _) hlen
    rw [r2, r3] at htr
    refine ⟨{ inext := r.inext
              ifirst := Function.update s.ifirst c r.ifirst
              ilast := Function.update s.ilast c r.iaux
              cell := Function.update s.cell c (stockLeafProps cfg P
                (l.filter fun i => !P.dead i) (s.cell c)) }, ?_, ?_, ?_⟩
    · intro fuel hfu
      obtain ⟨fuel, rfl⟩ : ∃ k, fuel = k + 1 := ⟨fuel - 1, by omega⟩
      simp only [stockTree, b2, stockCell, b1, and_self, if_true, a1, a2, hr, htr, bind,
        Option.bind]
    · refine ⟨?_, (List.length_filter_le _ _).trans am, ?_, ?_, r1⟩
      · simp only [Function.update_self]
        apply stockLeaf_summary
        intro i hi
        simpa using (List.mem_filter.mp hi).2
      · simp only [Function.update_self]; exact r2.symm
      · simp only [Function.update_self]; exact r3.symm
    · constructor
      · intro i hi
        rw [fullSize_zero] at hi
        exact Function.update_of_ne (by omega) _ _
      · intro i hi
        rw [fullSize_zero] at hi
        exact Function.update_of_ne (by omega) _ _
      · intro i hi
        rw [fullSize_zero] at hi
        exact Function.update_of_ne (by omega) _ _
      · exact r4
  | succ d ih =>
    intro c g l s hlo hl hnd hf
    have hfs := fullSize_succ d
    have hfs1 := fullSize_add_one d
    have hpos : 0 < fullSize d := by have := Nat.one_lt_two_pow (n := d+1) (by omega); omega
    obtain ⟨c1, c2, l1, l2, q1, q2, rfl, q7, q8⟩ := hl
    obtain ⟨b1, b2, b3, b4, b5, b6, b7⟩ := hlo
    rw [q1] at b3; rw [q2] at b4
    obtain rfl := Option.some.inj b3
    obtain rfl := Option.some.inj b4
    have hcn : t.cnext (c + 1) = some (c + 1 + fullSize d) := by
      cases d with
      | zero => have := b6.2.2.2.2.1; rw [this, fullSize_zero]
      | succ d => exact b6.2.2.2.2.1
    have hnd1 : l1.Nodup := (List.nodup_append.mp hnd).1
    have hnd2 : l2.Nodup := (List.nodup_append.mp hnd).2.1
    have hdj : ∀ x ∈ l1, x ∉ l2 := fun x h1 h2 => (List.nodup_append.mp hnd).2.2 x h1 x h2 rfl
    rw [List.length_append] at hf
    obtain ⟨s1, e1, k1, f1⟩ := ih (c+1) g l1 s b6 q7 hnd1 (by omega)
    have q8' : LeafLists t s1 M d (c + 1 + fullSize d) l2 := by
      refine LeafLists.congr d _ _ l2 b7 q8 ?_ ?_
      · intro i h1 _
        exact ⟨f1.ifirst i (by omega), f1.ilast i (by omega)⟩
      · intro x hx
        exact f1.inext x fun h => hdj x h hx
    obtain ⟨s2, e2, k2, f2⟩ := ih (c + 1 + fullSize d) (g + 2 ^ d) l2 s1 b7 q8' hnd2 (by omega)
    have k1' : Stocked cfg P t s2 M d (c + 1) (l1.filter fun i => !P.dead i) := by
      refine Stocked.congr d _ _ _ b6 k1 ?_ ?_
      · intro i h1 h2
        exact ⟨f2.ifirst i (by omega), f2.ilast i (by omega), f2.cell i (by omega)⟩
      · intro x hx
        exact f2.inext x (hdj x (List.mem_filter.mp hx).1)
    refine ⟨{ inext := s2.inext
              ifirst := s2.ifirst
              ilast := s2.ilast
              cell := Function.update s2.cell c (stockInternalProps cfg (s2.cell (c+1))
                (s2.cell (c + 1 + fullSize d)) (s2.cell c)) }, ?_, ?_, ?_⟩
    · intro fuel hfu
      obtain ⟨fuel, rfl⟩ : ∃ k, fuel = k + 1 := ⟨fuel - 1, by omega⟩
      simp only [stockTree, b2, hcn, e1 fuel (by omega), e2 fuel (by omega), bind, Option.bind,
        stockCell]
      rw [if_neg (by intro h; omega)]
    · refine ⟨?_, _, _, l1.filter fun i => !P.dead i, l2.filter fun i => !P.dead i, q1, q2,
        by rw [List.filter_append], ?_, ?_⟩
      · simp only [Function.update_self, List.filter_append]
        refine stockInternal_summary cfg P _ _ _ _ _ ?_ k1'.summary k2.summary
        intro i hi
        apply hm
        rw [← List.filter_append] at hi
        simpa using (List.mem_filter.mp hi).2
      · refine Stocked.congr d _ _ _ b6 k1' ?_ (fun _ _ => rfl)
        intro i h1 h2
        exact ⟨rfl, rfl, Function.update_of_ne (by omega) _ _⟩
      · refine Stocked.congr d _ _ _ b7 k2 ?_ (fun _ _ => rfl)
        intro i h1 h2
        exact ⟨rfl, rfl, Function.update_of_ne (by omega) _ _⟩
    · constructor
      · intro i hi
        show s2.ifirst i = _
        rw [f2.ifirst i (by omega), f1.ifirst i (by omega)]
      · intro i hi
        show s2.ilast i = _
        rw [f2.ilast i (by omega), f1.ilast i (by omega)]
      · intro i hi
        show Function.update s2.cell c _ i = _
        rw [Function.update_of_ne (by omega), f2.cell i (by omega), f1.cell i (by omega)]
      · intro x hx
        show s2.inext x = _
        rw [List.mem_append, not_or] at hx
        rw [f2.inext x hx.2, f1.inext x hx.1]

end Gandalf.KD
