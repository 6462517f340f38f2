import Verif.Model.BruteTree
import Verif.Proof.KDStock
import Verif.Proof.LeafList
import Verif.Proof.TreeRefresh
import Verif.Spec.Cover

/-! Helper lemmas for C85. -/

set_option autoImplicit false
set_option linter.unusedSectionVars false

namespace Gandalf.Brute
open KD LeafList

variable {n : ℕ} {cfg : Cfg} {P : Parts n}

/-- the terms used agree with those of the KD-tree -/
theorem props_eq (h : n = 2 ∨ n = 3 ∨ cfg.needQuad = false) (l : List ℕ) (c : Props n) :
    props cfg P l c = stockLeafProps cfg P l c := by
  unfold props stockLeafProps quad
  by_cases hq : cfg.needQuad = true
  · have h3 : n = 3 ∨ n = 2 := by
      rcases h with h | h | h
      · exact Or.inr h
      · exact Or.inl h
      · rw [h] at hq; cases hq
    simp only [if_pos hq, if_pos h3]
  · simp only [if_neg hq]

theorem props_summary (h : n = 2 ∨ n = 3 ∨ cfg.needQuad = false) (l : List ℕ) (c : Props n)
    (hl : ∀ i ∈ l, P.dead i = false) : Summary cfg P l (props cfg P l c) := by
  rw [props_eq h]; exact stockLeaf_summary cfg P l c hl

abbrev live (P : Parts n) (l : List ℕ) : List ℕ := l.filter fun i => !P.dead i

theorem live_live (P : Parts n) (l : List ℕ) : ∀ i ∈ live P l, P.dead i = false := by
  intro i hi
  simpa using (List.mem_filter.mp hi).2

/-- stocking one cell with list `l` -/
theorem stockCell_spec {s : TState n} {c pfuel : ℕ} {l : List ℕ} (h1 : s.ifirst c = l.head?)
    (h2 : s.ilast c = l.getLast?) (hn : l.Nodup) (hc : Chained s.inext l) (hf : l.length ≤ pfuel) :
    ∃ nx, stockCell cfg P pfuel c s = some ⟨nx, Function.update s.ifirst c (live P l).head?,
        Function.update s.ilast c (live P l).getLast?,
        Function.update s.cell c (props cfg P (live P l) (s.cell c))⟩ ∧
      Chained nx (live P l) ∧ ∀ x, x ∉ l → nx x = s.inext x := by
  obtain ⟨r, e, c1, c2, c3, c4⟩ := compact_chained P.dead s.inext l pfuel hf hn hc
  have ht := traverse_chained (live P l) pfuel c1 (hn.filter _) ((List.length_filter_le _ _).trans hf)
  refine ⟨r.inext, ?_, c1, c4⟩
  rw [show live P l = l.filter fun i => !P.dead i from rfl] at *
  rw [c2, c3] at ht
  rw [c2, c3]
  simp only [stockCell, h1, h2, e, bind, Option.bind, ht]

/-- stocking one leaf: its list is a particle or empty, no link changes -/
theorem stockCell_leaf {s : TState n} {c pfuel : ℕ} (h2 : s.ilast c = s.ifirst c) (hf : 0 < pfuel) :
    stockCell cfg P pfuel c s = some ⟨s.inext, Function.update s.ifirst c ((s.ifirst c).filter fun i => !P.dead i),
        Function.update s.ilast c ((s.ifirst c).filter fun i => !P.dead i),
        Function.update s.cell c (props cfg P (live P (s.ifirst c).toList) (s.cell c))⟩ := by
  obtain ⟨pfuel, rfl⟩ : ∃ k, pfuel = k + 1 := ⟨pfuel - 1, by omega⟩
  rcases e : s.ifirst c with _ | i
  · simp [stockCell, h2, e, compact, compactLoop, LeafList.traverse, live]
  · by_cases hd : P.dead i = true
    · simp [stockCell, h2, e, compact, compactLoop, LeafList.traverse, live, compactBody, hd, Option.filter]
    · simp [stockCell, h2, e, compact, compactLoop, LeafList.traverse, live, compactBody, hd, Option.filter]

/-- what stocking makes of the leaves `c0 … c0+m-1` -/
theorem stockCells_leaves {pfuel : ℕ} (hf : 0 < pfuel) : ∀ (m c0 : ℕ) (s : TState n),
    (∀ c, c0 ≤ c → c < c0 + m → s.ilast c = s.ifirst c) →
    stockCells cfg P pfuel (List.range' c0 m) s = some ⟨s.inext,
      fun c => if c0 ≤ c ∧ c < c0 + m then (s.ifirst c).filter fun i => !P.dead i else s.ifirst c,
      fun c => if c0 ≤ c ∧ c < c0 + m then (s.ifirst c).filter fun i => !P.dead i else s.ilast c,
      fun c => if c0 ≤ c ∧ c < c0 + m then props cfg P (live P (s.ifirst c).toList) (s.cell c) else s.cell c⟩ := by
  intro m
  induction m with
  | zero =>
    intro c0 s _
    have : ∀ c, ¬(c0 ≤ c ∧ c < c0 + 0) := fun c => by omega
    simp only [List.range'_zero, stockCells, if_neg (this _)]
  | succ m ih =>
    intro c0 s h
    rw [List.range'_succ]
    simp only [stockCells, stockCell_leaf (h c0 le_rfl (by omega)) hf, bind, Option.bind]
    rw [ih (c0 + 1)]
    · have key : ∀ (β : Type) (f g : ℕ → β) (x : β), x = g c0 →
          (fun c => if c0 + 1 ≤ c ∧ c < c0 + 1 + m then g c else Function.update f c0 x c) =
          fun c => if c0 ≤ c ∧ c < c0 + (m + 1) then g c else f c := by
        intro β f g x hx
        funext c
        by_cases h0 : c = c0
        · subst h0
          rw [if_neg (by omega), if_pos (by omega), Function.update_self, hx]
        · rw [Function.update_of_ne h0]
          by_cases h1 : c0 + 1 ≤ c ∧ c < c0 + 1 + m
          · rw [if_pos h1, if_pos (by omega)]
          · rw [if_neg h1, if_neg (by omega)]
      have k1 : ∀ (c : ℕ), c0 + 1 ≤ c ∧ c < c0 + 1 + m → ∀ (β : Type) (f : ℕ → β) x, Function.update f c0 x c = f c :=
        fun c hc β f x => Function.update_of_ne (by omega) _ _
      congr 2
      · rw [← key _ s.ifirst (fun c => (s.ifirst c).filter fun i => !P.dead i) _ rfl]
        funext c
        by_cases h1 : c0 + 1 ≤ c ∧ c < c0 + 1 + m
        · simp only [if_pos h1, k1 c h1]
        · simp only [if_neg h1]
      · rw [← key _ s.ilast (fun c => (s.ifirst c).filter fun i => !P.dead i) _ rfl]
        funext c
        by_cases h1 : c0 + 1 ≤ c ∧ c < c0 + 1 + m
        · simp only [if_pos h1, k1 c h1]
        · simp only [if_neg h1]
      · rw [← key _ s.cell (fun c => props cfg P (live P (s.ifirst c).toList) (s.cell c)) _ rfl]
        funext c
        by_cases h1 : c0 + 1 ≤ c ∧ c < c0 + 1 + m
        · simp only [if_pos h1, k1 c h1]
        · simp only [if_neg h1]
    · intro c a b
      simp only [Function.update_of_ne (show c ≠ c0 by omega)]
      exact h c (by omega) (by omega)

/-- The lists of the tree over the range `first … first+N-1` when the particles `l` of it are left. -/
structure Holds (first N : ℕ) (s : TState n) (l : List ℕ) : Prop where
  sub : l.Sublist (List.range' first N)
  chain : Chained s.inext l
  rootFirst : s.ifirst 0 = l.head?
  rootLast : s.ilast 0 = l.getLast?
  leafFirst : ∀ j < N, s.ifirst (j + 1) = if first + j ∈ l then some (first + j) else none
  leafLast : ∀ j < N, s.ilast (j + 1) = if first + j ∈ l then some (first + j) else none

/-- the particle beneath leaf `j + 1` -/
def leafOf (first : ℕ) (l : List ℕ) (j : ℕ) : List ℕ := if first + j ∈ l then [first + j] else []

/-- … and the cells are stocked. -/
structure Stocked (cfg : Cfg) (P : Parts n) (first N : ℕ) (s : TState n) (l : List ℕ) : Prop extends
    Holds first N s l where
  rootSum : Summary cfg P l (s.cell 0)
  leafSum : ∀ j < N, Summary cfg P (leafOf first l j) (s.cell (j + 1))

theorem firstCell_root {N : ℕ} (hN : 0 < N) : firstCell (links N) (N + 1) 0 = 1 := by
  simp [firstCell, links, hN]

theorem stock_props {first N pfuel : ℕ} {s : TState n} {l : List ℕ} (hN : 0 < N) (hf : N ≤ pfuel)
    (h : Holds first N s l) : ∃ s', stockTree cfg P (links N) (N + 1) true pfuel 0 s = some s' ∧
      Holds first N s' (live P l) ∧
      s'.cell 0 = props cfg P (live P l) (s.cell 0) ∧
      ∀ j < N, s'.cell (j + 1) = props cfg P (leafOf first (live P l) j) (s.cell (j + 1)) := by
  have hnd : l.Nodup := List.Nodup.sublist h.sub List.nodup_range'
  have hlen : l.length ≤ pfuel := by
    have := h.sub.length_le; simp at this; omega
  obtain ⟨nx, e, c1, c2⟩ := stockCell_spec (cfg := cfg) (P := P) h.rootFirst h.rootLast hnd h.chain hlen
  have hl := stockCells_leaves (cfg := cfg) (P := P) (pfuel := pfuel) (by omega) N 1
    ⟨nx, Function.update s.ifirst 0 (live P l).head?,
        Function.update s.ilast 0 (live P l).getLast?,
        Function.update s.cell 0 (props cfg P (live P l) (s.cell 0))⟩ (by
      intro c a b
      obtain ⟨j, rfl⟩ : ∃ j, c = j + 1 := ⟨c - 1, by omega⟩
      simp only [Function.update_of_ne (show j + 1 ≠ 0 by omega)]
      rw [h.leafFirst j (by omega), h.leafLast j (by omega)])
  have key : ∀ j < N, ((s.ifirst (j + 1)).filter fun i => !P.dead i) =
      if first + j ∈ live P l then some (first + j) else none := by
    intro j hj
    rw [h.leafFirst j hj]
    by_cases h1 : first + j ∈ l
    · rw [if_pos h1]
      by_cases h2 : P.dead (first + j) = true
      · rw [if_neg (by simp [live, h2])]; simp [h2]
      · rw [if_pos (by simp [live, h1, h2])]; simp [h2]
    · rw [if_neg h1, if_neg (fun q => h1 (List.mem_filter.mp q).1)]; rfl
  have key2 : ∀ j < N, live P (s.ifirst (j + 1)).toList = leafOf first (live P l) j := by
    intro j hj
    rw [leafOf, h.leafFirst j hj]
    by_cases h1 : first + j ∈ l
    · rw [if_pos h1]
      by_cases h2 : P.dead (first + j) = true
      · rw [if_neg (by simp [live, h2])]; simp [live, h2]
      · rw [if_pos (by simp [live, h1, h2])]; simp [live, h2]
    · rw [if_neg h1, if_neg (fun q => h1 (List.mem_filter.mp q).1)]; rfl
  have hst : stockTree cfg P (links N) (N + 1) true pfuel 0 s = stockCells cfg P pfuel (List.range' 1 N)
      ⟨nx, Function.update s.ifirst 0 (live P l).head?, Function.update s.ilast 0 (live P l).getLast?,
        Function.update s.cell 0 (props cfg P (live P l) (s.cell 0))⟩ := by
    rw [stockTree, if_pos rfl, firstCell_root hN, Nat.add_sub_cancel, e]
    rfl
  refine ⟨_, hst.trans hl, ⟨?_, ?_, ?_, ?_, ?_, ?_⟩, ?_, ?_⟩
  · exact (List.filter_sublist).trans h.sub
  · exact c1
  · simp
  · simp
  · intro j hj
    simp only [if_pos (show 1 ≤ j + 1 ∧ j + 1 < 1 + N by omega), Function.update_of_ne (show j + 1 ≠ 0 by omega)]
    exact key j hj
  · intro j hj
    simp only [if_pos (show 1 ≤ j + 1 ∧ j + 1 < 1 + N by omega), Function.update_of_ne (show j + 1 ≠ 0 by omega)]
    exact key j hj
  · simp
  · intro j hj
    simp only [if_pos (show 1 ≤ j + 1 ∧ j + 1 < 1 + N by omega), Function.update_of_ne (show j + 1 ≠ 0 by omega)]
    rw [key2 j hj]

theorem leafOf_live (P : Parts n) (first : ℕ) (l : List ℕ) (hl : ∀ i ∈ l, P.dead i = false) (j : ℕ) :
    ∀ i ∈ leafOf first l j, P.dead i = false := by
  intro i hi
  unfold leafOf at hi
  split_ifs at hi with h
  · rw [List.mem_singleton] at hi; rw [hi]; exact hl _ h
  · simp at hi

/-- stocking and restocking -/
theorem stock_spec (hq : n = 2 ∨ n = 3 ∨ cfg.needQuad = false) {first N pfuel : ℕ} {s : TState n} {l : List ℕ}
    (hN : 0 < N) (hf : N ≤ pfuel) (h : Holds first N s l) :
    ∃ s', stockTree cfg P (links N) (N + 1) true pfuel 0 s = some s' ∧ Stocked cfg P first N s' (live P l) := by
  obtain ⟨s', e, h1, h2, h3⟩ := stock_props (cfg := cfg) (P := P) hN hf h
  refine ⟨s', e, h1, ?_, ?_⟩
  · rw [h2]; exact props_summary hq _ _ (live_live P l)
  · intro j hj
    rw [h3 j hj]; exact props_summary hq _ _ (leafOf_live P first _ (live_live P l) j)

theorem leafLoop (first : ℕ) : ∀ (m : ℕ) (s : Lists), s.i = first →
    (List.range' 1 m).foldl leafStep s = ⟨fun i => if first ≤ i ∧ i < first + m then some (i + 1) else s.inext i,
      fun c => if 1 ≤ c ∧ c < 1 + m then some (first + (c - 1)) else s.ifirst c,
      fun c => if 1 ≤ c ∧ c < 1 + m then some (first + (c - 1)) else s.ilast c, first + m⟩ := by
  intro m
  induction m with
  | zero =>
    intro s hs
    have h1 : ∀ i, ¬(first ≤ i ∧ i < first + 0) := fun i => by omega
    have h2 : ∀ i, ¬(1 ≤ i ∧ i < 1 + 0) := fun i => by omega
    have e1 : (fun i => if first ≤ i ∧ i < first + 0 then some (i + 1) else s.inext i) = s.inext := by
      funext i; exact if_neg (h1 i)
    rw [e1]
    simp only [List.range'_zero, List.foldl_nil, if_neg (h2 _), Nat.add_zero]
    rw [← hs]
  | succ m ih =>
    intro s hs
    rw [List.range'_concat, List.foldl_append, ih s hs]
    simp only [List.foldl_cons, List.foldl_nil, leafStep, one_mul]
    have up : ∀ (β : Type) (f g : ℕ → β) (a k b : ℕ) (x : β), b = a + k → x = g b →
        Function.update (fun i => if a ≤ i ∧ i < a + k then g i else f i) b x =
          fun i => if a ≤ i ∧ i < a + (k + 1) then g i else f i := by
      intro β f g a k b x hb hx
      funext i
      by_cases h0 : i = b
      · subst h0; rw [Function.update_self, if_pos (by omega), hx]
      · rw [Function.update_of_ne h0]
        by_cases h1 : a ≤ i ∧ i < a + k
        · rw [if_pos h1, if_pos (by omega)]
        · rw [if_neg h1, if_neg (by omega)]
    rw [up _ s.inext (fun i => some (i + 1)) first m _ _ rfl rfl,
      up _ s.ifirst (fun c => some (first + (c - 1))) 1 m _ _ rfl (by congr 1; omega),
      up _ s.ilast (fun c => some (first + (c - 1))) 1 m _ _ rfl (by congr 1; omega)]
    rfl

theorem holds_build (first N : ℕ) (hN : 0 < N) (s0 : TState n) (cell : ℕ → Props n) :
    Holds first N ⟨(lists first N s0).inext, (lists first N s0).ifirst, (lists first N s0).ilast, cell⟩
      (List.range' first N) := by
  have e := leafLoop first N ⟨s0.inext, Function.update s0.ifirst 0 (some first),
    Function.update s0.ilast 0 (some (first + N - 1)), first⟩ rfl
  have eL : lists first N s0 = { (List.range' 1 N).foldl leafStep ⟨s0.inext, Function.update s0.ifirst 0 (some first),
      Function.update s0.ilast 0 (some (first + N - 1)), first⟩ with
      inext := Function.update ((List.range' 1 N).foldl leafStep ⟨s0.inext, Function.update s0.ifirst 0 (some first),
        Function.update s0.ilast 0 (some (first + N - 1)), first⟩).inext (first + N - 1) none } := by
    rw [lists, if_pos hN]
  rw [e] at eL
  rw [eL]
  constructor
  · exact List.Sublist.refl _
  · unfold Chained
    rw [List.isChain_iff_getElem]
    intro i hi
    simp only [List.getElem_range', Nat.mul_one, one_mul]
    simp only [List.length_range'] at hi
    rw [Function.update_of_ne (by omega), if_pos (by omega)]
    rfl
  · obtain ⟨N, rfl⟩ : ∃ k, N = k + 1 := ⟨N - 1, by omega⟩
    simp [List.range'_succ]
  · obtain ⟨N, rfl⟩ : ∃ k, N = k + 1 := ⟨N - 1, by omega⟩
    simp [List.range'_concat]
  · intro j hj
    rw [if_pos (by simp; omega)]
    exact (if_pos (show 1 ≤ j + 1 ∧ j + 1 < 1 + N by omega)).trans rfl
  · intro j hj
    rw [if_pos (by simp; omega)]
    exact (if_pos (show 1 ≤ j + 1 ∧ j + 1 < 1 + N by omega)).trans rfl

/-! ### The tree -/

/-- the leaves `c … c+m-1` side by side -/
def leavesFrom : (c m : ℕ) → Forest
  | _, 0 => .nil
  | c, m + 1 => .cons c .nil (leavesFrom (c + 1) m)

/-- the whole tree -/
def forest (N : ℕ) : Forest := .cons 0 (leavesFrom 1 N) .nil

theorem leavesFrom_cells : ∀ m c, (leavesFrom c m).cells = List.range' c m := by
  intro m
  induction m with
  | zero => intro c; rfl
  | succ m ih => intro c; simp [leavesFrom, Forest.cells, ih, List.range'_succ]

theorem forest_cells (N : ℕ) : (forest N).cells = List.range (N + 1) := by
  rw [forest, Forest.cells, leavesFrom_cells, List.range_eq_range', List.range'_succ]
  simp [Forest.cells]

theorem leavesFrom_entry (m c : ℕ) : (leavesFrom c m).entry (c + m) = c := by
  cases m <;> simp [leavesFrom, Forest.entry]

theorem leavesFrom_linked (N : ℕ) : ∀ m c, 0 < c → (leavesFrom c m).Linked (links N) (c + m) := by
  intro m
  induction m with
  | zero => intro c _; trivial
  | succ m ih =>
    intro c hc
    have h1 := leavesFrom_entry m (c + 1)
    have h2 := ih (c + 1) (by omega)
    rw [show c + 1 + m = c + (m + 1) by omega] at h1 h2
    refine ⟨?_, ?_, trivial, h2⟩
    · rw [h1]; simp [links, show c ≠ 0 by omega]
    · simp [links, show c ≠ 0 by omega]

theorem forest_linked {N : ℕ} (hN : 0 < N) : (forest N).Linked (links N) (N + 1) := by
  refine ⟨by simp [links, Forest.entry], ?_, ?_, trivial⟩
  · obtain ⟨k, rfl⟩ : ∃ k, N = k + 1 := ⟨N - 1, by omega⟩
    simp [links, leavesFrom]
  · have := leavesFrom_linked N N 1 (by omega)
    rwa [add_comm] at this

theorem leafOf_flat {first : ℕ} {l : List ℕ} : ∀ (m a : ℕ), l.Sublist (List.range' (first + a) m) →
    ∀ lall : List ℕ, (∀ j, a ≤ j → j < a + m → (first + j ∈ lall ↔ first + j ∈ l)) →
    ((List.range' a m).flatMap (leafOf first lall)) = l := by
  intro m
  induction m generalizing l with
  | zero => intro a h lall _; simp at h; simp [h]
  | succ m ih =>
    intro a h lall hl
    rw [List.range'_succ] at h
    rw [List.range'_succ, List.flatMap_cons]
    by_cases h0 : first + a ∈ l
    · rcases l with _ | ⟨b, l⟩
      · simp at h0
      · have hb : b = first + a ∧ l.Sublist (List.range' (first + a + 1) m) := by
          cases h with
          | cons _ h =>
            have := h.subset h0
            simp at this
          | cons_cons _ h => exact ⟨rfl, h⟩
        obtain ⟨rfl, hs⟩ := hb
        have : leafOf first lall a = [first + a] := by
          rw [leafOf, if_pos ((hl a le_rfl (by omega)).mpr h0)]
        rw [this, List.singleton_append]
        congr 1
        refine ih (a + 1) (by rwa [← add_assoc]) lall fun j h1 h2 => ?_
        rw [hl j (by omega) (by omega)]
        simp [show j ≠ a by omega]
    · have : leafOf first lall a = [] := by
        rw [leafOf, if_neg (fun q => h0 ((hl a le_rfl (by omega)).mp q))]
      rw [this, List.nil_append]
      refine ih (a + 1) ?_ lall fun j h1 h2 => hl j (by omega) (by omega)
      cases h with
      | cons _ h => rwa [← add_assoc]
      | cons_cons _ h => exact absurd List.mem_cons_self h0

theorem covers_leaves {leaf : ℕ → Option (List ℕ)} {Q : ℕ → List ℕ → Prop} {first : ℕ} {lall : List ℕ} :
    ∀ (m a : ℕ), (∀ j, a ≤ j → j < a + m → leaf (j + 1) = some (leafOf first lall j)) →
    (∀ j, a ≤ j → j < a + m → Q (j + 1) (leafOf first lall j)) →
    (leavesFrom (a + 1) m).Covers leaf Q ((List.range' a m).flatMap (leafOf first lall)) := by
  intro m
  induction m with
  | zero => intro a _ _; rfl
  | succ m ih =>
    intro a h1 h2
    rw [List.range'_succ, List.flatMap_cons]
    exact ⟨_, _, rfl, h2 a le_rfl (by omega), fun _ => h1 a le_rfl (by omega), fun q => absurd rfl q,
      ih (a + 1) (fun j p q => h1 j (by omega) (by omega)) fun j p q => h2 j (by omega) (by omega)⟩

theorem leafOf_length (first : ℕ) (l : List ℕ) (j : ℕ) : (leafOf first l j).length ≤ 1 := by
  unfold leafOf; split_ifs <;> simp

theorem leaf_list {first N pfuel M : ℕ} {s : TState n} {l : List ℕ} {mac : ℕ → ℝ} (h : Holds first N s l)
    (hf : N ≤ pfuel) {j : ℕ} (hj : j < N) :
    (toTree N M s mac).leafList pfuel (j + 1) = some (leafOf first l j) := by
  obtain ⟨p, rfl⟩ : ∃ k, pfuel = k + 1 := ⟨pfuel - 1, by omega⟩
  simp only [Tree.leafList, toTree, h.leafFirst j hj, h.leafLast j hj, leafOf]
  split_ifs <;> simp [LeafList.traverse]

theorem toTree_ok {first N pfuel M : ℕ} {s : TState n} {l : List ℕ} {mac : ℕ → ℝ} (hN : 0 < N) (hM : 1 ≤ M)
    (hf : N ≤ pfuel) (h : Stocked cfg P first N s l) : (toTree N M s mac).OK cfg P pfuel (forest N) l where
  linked := forest_linked hN
  root := rfl
  ends := le_rfl
  cells := by
    intro c hc
    rw [forest_cells] at hc
    exact List.mem_range.mp hc
  covers := by
    have e := leafOf_flat (first := first) N 0 (by simpa using h.sub) l fun j _ _ => Iff.rfl
    refine ⟨l, [], by simp, ⟨h.rootSum, fun q => ?_⟩, fun q => ?_, fun _ => ?_, rfl⟩
    · simp [toTree, links, hN] at q
    · obtain ⟨k, rfl⟩ : ∃ k, N = k + 1 := ⟨N - 1, by omega⟩
      simp [leavesFrom] at q
    · have := covers_leaves (leaf := (toTree N M s mac).leafList pfuel)
        (Q := fun c l' => KD.Summary cfg P l' ((toTree N M s mac).cell c) ∧
          ((toTree N M s mac).links.copen c = none → l'.length ≤ (toTree N M s mac).Nleafmax))
        (first := first) (lall := l) N 0
        (fun j _ hj => leaf_list h.toHolds hf (by omega))
        fun j _ hj => ⟨h.leafSum j (by omega), fun _ => (leafOf_length _ _ _).trans hM⟩
      rwa [e] at this
  nodup := List.Nodup.sublist h.sub List.nodup_range'

/-! ### New smoothing lengths -/

theorem hmaxCells_spec {pfuel : ℕ} {lst : ℕ → List ℕ} : ∀ (cs : List ℕ) (s : TState n), cs.Nodup →
    (∀ c ∈ cs, LeafList.traverse s.inext (s.ilast c) pfuel (s.ifirst c) = some (lst c)) →
    hmaxCells cfg P pfuel cs s = some { s with
      cell := fun c => if c ∈ cs then hLeaf cfg P (lst c) (s.cell c) else s.cell c } := by
  intro cs
  induction cs with
  | nil => intro s _ _; simp [hmaxCells]
  | cons a cs ih =>
    intro s hn h
    rw [List.nodup_cons] at hn
    have h1 : hmaxCell cfg P pfuel a s = some { s with
        cell := Function.update s.cell a (hLeaf cfg P (lst a) (s.cell a)) } := by
      simp [hmaxCell, h a List.mem_cons_self]
    simp only [hmaxCells, h1, bind, Option.bind]
    refine (ih ⟨s.inext, s.ifirst, s.ilast, Function.update s.cell a (hLeaf cfg P (lst a) (s.cell a))⟩ hn.2
      (fun c hc => h c (List.mem_cons_of_mem _ hc))).trans ?_
    congr 2
    funext c
    by_cases h0 : c = a
    · subst h0; simp [hn.1]
    · simp only [Function.update_of_ne h0, List.mem_cons, h0, false_or]

/-- the particles beneath a cell -/
def lstOf (first : ℕ) (l : List ℕ) (c : ℕ) : List ℕ := if c = 0 then l else leafOf first l (c - 1)

theorem lst_traverse {first N pfuel : ℕ} {s : TState n} {l : List ℕ} (h : Holds first N s l) (hf : N ≤ pfuel) {c : ℕ}
    (hc : c < N + 1) : LeafList.traverse s.inext (s.ilast c) pfuel (s.ifirst c) = some (lstOf first l c) := by
  rcases Nat.eq_zero_or_pos c with rfl | h0
  · rw [h.rootFirst, h.rootLast, lstOf, if_pos rfl]
    have := h.sub.length_le
    simp at this
    exact traverse_chained l pfuel h.chain (List.Nodup.sublist h.sub List.nodup_range') (by omega)
  · obtain ⟨j, rfl⟩ : ∃ j, c = j + 1 := ⟨c - 1, by omega⟩
    exact leaf_list (M := 0) (mac := fun _ => 0) h hf (by omega)

theorem updHmax_eq {first N pfuel : ℕ} {s : TState n} {l : List ℕ} (hN : 0 < N) (h : Holds first N s l)
    (hf : N ≤ pfuel) : updHmax cfg P (links N) (N + 1) pfuel 0 s = some { s with
      cell := fun c => if c < N + 1 then hLeaf cfg P (lstOf first l c) (s.cell c) else s.cell c } := by
  have e : (0 :: List.range' (firstCell (links N) (N + 1) 0) (N + 1 - firstCell (links N) (N + 1) 0)) =
      List.range (N + 1) := by
    rw [firstCell_root hN, Nat.add_sub_cancel, List.range_eq_range', List.range'_succ]
  rw [updHmax, e, hmaxCells_spec (lst := lstOf first l) _ _ List.nodup_range
    (fun c hc => lst_traverse h hf (List.mem_range.mp hc))]
  simp only [List.mem_range]

/-! ### Gravity -/

open Walk in
/-- a property of the state which no turn of the loop destroys holds at the end -/
theorem walk_inv {σ : Type*} {L : Walk.Links} {Ncell : ℕ} {body : ℕ → σ → Act σ} (I : σ → Prop)
    (hb : ∀ c < Ncell, ∀ s, I s → ∀ s', (body c s = .open_ s' ∨ body c s = .next s') → I s') :
    ∀ (fuel cc : ℕ) (s s' : σ), I s → walk L Ncell body fuel cc s = .done s' → I s' := by
  intro fuel
  induction fuel with
  | zero =>
    intro cc s s' hs h
    unfold walk at h
    by_cases hc : cc < Ncell
    · rw [if_pos hc] at h; cases h
    · rw [if_neg hc] at h
      rwa [← Res.done.inj h]
  | succ fuel ih =>
    intro cc s s' hs h
    unfold walk at h
    by_cases hc : cc < Ncell
    · rw [if_pos hc] at h
      simp only at h
      rcases e : body cc s with _ | s1 | s1
      · rw [e] at h; cases h
      · rw [e] at h
        rcases e2 : L.copen cc with _ | c'
        · rw [e2] at h; cases h
        · rw [e2] at h
          exact ih _ _ _ (hb cc hc s hs s1 (Or.inl e)) h
      · rw [e] at h
        rcases e2 : L.cnext cc with _ | c'
        · rw [e2] at h; cases h
        · rw [e2] at h
          exact ih _ _ _ (hb cc hc s hs s1 (Or.inr e)) h
    · rw [if_neg hc] at h
      rwa [← Res.done.inj h]

end Gandalf.Brute
