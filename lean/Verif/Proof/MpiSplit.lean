import Verif.Model.MpiSplit
import Verif.Proof.MpiDomains
import Verif.Proof.KDBuild

/-! Correctness of the first distribution of the particles among the processes. -/

set_option autoImplicit false
set_option linter.unusedSectionVars false

namespace Gandalf.Mpi

open KD QuickSelect LeafList

variable {n : ℕ} {α : Type*}

section
variable [LinearOrder α]

theorem belowLoop_spec (key : ℕ → α) (rp : α) (l r : ℕ) :
    ∀ (m : ℕ) (a : ℕ → ℕ) (j g : ℕ), j + m = r → l ≤ g → g ≤ j →
    (∀ i, l ≤ i → i < g → key (a i) < rp) → (∀ i, g ≤ i → i < j → rp ≤ key (a i)) →
    PermOn a (belowLoop key rp m a j g).1 l r ∧ l ≤ (belowLoop key rp m a j g).2 ∧
    (belowLoop key rp m a j g).2 ≤ r ∧
    (∀ i, l ≤ i → i < (belowLoop key rp m a j g).2 → key ((belowLoop key rp m a j g).1 i) < rp) ∧
    (∀ i, (belowLoop key rp m a j g).2 ≤ i → i < r → rp ≤ key ((belowLoop key rp m a j g).1 i)) := by
  intro m
  induction m with
  | zero =>
    intro a j g hj hl hg h1 h2
    simp only [belowLoop]
    exact ⟨PermOn.refl _ _ _, hl, by omega, h1, by intro i hi hr; exact h2 i hi (by omega)⟩
  | succ m ih =>
    intro a j g hj hl hg h1 h2
    simp only [belowLoop]
    split_ifs with hk
    · have := ih (swap a j g) (j+1) (g+1) (by omega) (by omega) (by omega) ?_ ?_
      · exact ⟨(permOn_swap a (by omega) (by omega)).trans this.1, this.2⟩
      · intro i hi hig
        rw [swap_apply]
        by_cases e : i = g
        · simpa [e] using hk
        · rw [if_neg e]
          by_cases e2 : i = j
          · omega
          · rw [if_neg e2]; exact h1 i hi (by omega)
      · intro i hi hig
        rw [swap_apply, if_neg (by omega)]
        split_ifs with e2
        · exact h2 g le_rfl (by omega)
        · exact h2 i (by omega) (by omega)
    · exact ih a (j+1) g (by omega) hl (by omega) h1 (by
        intro i hi hij
        by_cases e : i = j
        · subst e; exact not_lt.mp hk
        · exact h2 i hi (by omega))

theorem selectPass_spec (key : ℕ → α) (a : ℕ → ℕ) {l r : ℕ} (hlr : l ≤ r) :
    PermOn a (selectPass key a l r).1 l (r+1) ∧ l ≤ (selectPass key a l r).2.1 ∧ (selectPass key a l r).2.1 ≤ r ∧
    key ((selectPass key a l r).1 (selectPass key a l r).2.1) = (selectPass key a l r).2.2 ∧
    (∀ i, l ≤ i → i < (selectPass key a l r).2.1 → key ((selectPass key a l r).1 i) < (selectPass key a l r).2.2) ∧
    (∀ i, (selectPass key a l r).2.1 < i → i ≤ r →
      (selectPass key a l r).2.2 ≤ key ((selectPass key a l r).1 i)) := by
  have hs := belowLoop_spec key (key (a ((l+r)/2))) l r (r-l) (swap a ((l+r)/2) r) l l (by omega)
    le_rfl le_rfl (by intros; omega) (by intros; omega)
  simp only [selectPass]
  generalize hg : belowLoop key (key (a ((l+r)/2))) (r-l) (swap a ((l+r)/2) r) l l = q at hs ⊢
  obtain ⟨b, g⟩ := q
  simp only at hs ⊢
  obtain ⟨hp, h1, h2, h3, h4⟩ := hs
  have hbr : b r = a ((l+r)/2) := by
    rw [hp.outside (by omega), swap_apply]; simp
  refine ⟨?_, h1, h2, ?_, ?_, ?_⟩
  · refine ((permOn_swap a (l := l) (r := r+1) (by omega) (by omega)).trans
      (hp.mono le_rfl (by omega))).trans (permOn_swap b (by omega) (by omega))
  · rw [swap_apply]; simp [hbr]
  · intro i hi hig
    rw [swap_apply, if_neg (by omega), if_neg (by omega)]
    exact h3 i hi hig
  · intro i hi hir
    rw [swap_apply, if_neg (by omega)]
    split_ifs with e
    · exact h4 g le_rfl (by omega)
    · exact h4 i (by omega) (by omega)

theorem select_spec (key : ℕ → α) :
    ∀ (fuel : ℕ) (a : ℕ → ℕ) (l r p : ℕ), l ≤ p → p ≤ r → r - l < fuel →
    ∃ b v, select key fuel a l r p = some (b, v) ∧ PermOn a b l (r+1) ∧ key (b p) = v ∧
      (∀ i, l ≤ i → i < p → key (b i) ≤ v) ∧ (∀ i, p < i → i ≤ r → v ≤ key (b i)) := by
  intro fuel
  induction fuel with
  | zero => intro a l r p _ _ h; omega
  | succ n ih =>
    intro a l r p h1 h2 hf
    have hs := selectPass_spec key a (l := l) (r := r) (by omega)
    simp only [select]
    rw [if_pos ⟨h1, h2⟩]
    generalize selectPass key a l r = q at hs ⊢
    obtain ⟨b, g, v⟩ := q
    simp only at hs ⊢
    obtain ⟨hp, hl, hr, hk, hlo, hhi⟩ := hs
    rcases lt_trichotomy g p with hgp | hgp | hgp
    · rw [if_pos hgp]
      obtain ⟨c, w, hc, hpc, hkc, hc1, hc2⟩ := ih b (g+1) r p (by omega) h2 (by omega)
      refine ⟨c, w, hc, hp.trans (hpc.mono (by omega) le_rfl), hkc, ?_, hc2⟩
      intro i hi hip
      by_cases e : g + 1 ≤ i
      · exact hc1 i e hip
      · have hw : v ≤ w := by
          rw [← hkc]
          exact hpc.inside (P := fun x => v ≤ key x) (fun i hi hir => hhi i (by omega) (by omega))
            (by omega) (by omega)
        rw [hpc.outside (by omega)]
        refine le_trans ?_ hw
        by_cases e2 : i = g
        · subst e2; exact hk.le
        · exact (hlo i hi (by omega)).le
    · subst hgp
      rw [if_neg (by omega), if_neg (by omega)]
      exact ⟨b, v, rfl, hp, hk, fun i hi hir => (hlo i hi hir).le, hhi⟩
    · rw [if_neg (by omega), if_pos hgp]
      obtain ⟨c, w, hc, hpc, hkc, hc1, hc2⟩ := ih b l (g-1) p h1 (by omega) (by omega)
      have hg1 : g - 1 + 1 = g := by omega
      rw [hg1] at hpc
      refine ⟨c, w, hc, hp.trans (hpc.mono le_rfl (by omega)), hkc, hc1, ?_⟩
      intro i hi hir
      by_cases e : i ≤ g - 1
      · exact hc2 i hi e
      · have hw : w < v := by
          rw [← hkc]
          exact hpc.inside (P := fun x => key x < v) (fun i hi hir => hlo i hi hir)
            (by omega) (by omega)
        rw [hpc.outside (by omega)]
        refine hw.le.trans ?_
        by_cases e2 : i = g
        · subst e2; exact hk.ge
        · exact hhi i (by omega) hir
end

variable [Field α] [LinearOrder α] [IsStrictOrderedRing α]

/-- `x` is in the box, all faces included -/
def _root_.Gandalf.Box.HoldsClosed (b : Box n α) (x : Vec n α) : Prop := ∀ k, b.min k ≤ x k ∧ x k ≤ b.max k

/-- Leaf `j` of the tree owns the particles `l`. -/
structure LeafOwns (t : Links) (s : Split n α) (r : ℕ → Vec n α) (c m j : ℕ) (l : List ℕ) : Prop where
  cell : c ≤ t.g2c j ∧ t.g2c j < c + m
  chain : Chained s.inext l
  first : s.ifirst (t.g2c j) = l.head?
  last : s.ilast (t.g2c j) = l.getLast?
  count : s.N (t.g2c j) = l.length
  box : ∀ i ∈ l, (s.D.box (t.g2c j)).HoldsClosed (r i)

/-- What a call of `DivideTreeCell` for a cell with `m` particles from position `a` on has done. -/
structure Divided [NeZero n] (t : Links) (r : ℕ → Vec n α) (s s' : Split n α) (d c g a m : ℕ) (lst : ℕ → List ℕ) : Prop where
  perm : PermOn s.ids s'.ids a (a + m)
  inext : ∀ x, x ∉ slice s.ids a m → s'.inext x = s.inext x
  outN : ∀ i, i < c ∨ c + fullSize d ≤ i → s'.N i = s.N i
  outFirst : ∀ i, i < c ∨ c + fullSize d ≤ i → s'.ifirst i = s.ifirst i
  outLast : ∀ i, i < c ∨ c + fullSize d ≤ i → s'.ilast i = s.ilast i
  outBox : ∀ i, i < c ∨ c + fullSize d ≤ i → s'.D.box i = s.D.box i
  outK : ∀ i, i < c ∨ c + fullSize d ≤ i → s'.D.k i = s.D.k i
  outR : ∀ i, i < c ∨ c + fullSize d ≤ i → s'.D.r i = s.D.r i
  outNodes : ∀ i, i < c ∨ c + fullSize d ≤ i → s'.nodes i = s.nodes i
  ownN : s'.N c = s.N c
  ownBox : s'.D.box c = s.D.box c
  consistent : Nodes d c (ConsistentAt s'.D)
  within : Nodes d c (fun c _ => WithinAt s'.D c)
  long : Nodes d c (fun c _ => s'.D.k c = longSide (s'.D.box c))
  nodes : s'.nodes c = List.range' g (2 ^ d)
  own : ∀ j, g ≤ j → j < g + 2 ^ d → LeafOwns t s' r c (fullSize d) j (lst j)
  parts : (List.range' g (2 ^ d)).flatMap lst = slice s'.ids a m
  counts : (List.range' g (2 ^ d)).map (fun j => (lst j).length) = leafCounts d m
  halfOpen : (∀ k, Set.InjOn (fun i => r i k) {i | i ∈ slice s.ids a m}) →
    (∀ i ∈ slice s.ids a m, (s.D.box c).Holds (r i)) →
    ∀ j, g ≤ j → j < g + 2 ^ d → ∀ i ∈ lst j, (s'.D.box (t.g2c j)).Holds (r i)

theorem Nodes.congrD [NeZero n] {D D' : Division n α} : ∀ (d c : ℕ),
    (∀ i, c ≤ i → i < c + fullSize d → D'.box i = D.box i ∧ D'.k i = D.k i ∧ D'.r i = D.r i) →
    (Nodes d c (ConsistentAt D) → Nodes d c (ConsistentAt D')) ∧
    (Nodes d c (fun c _ => WithinAt D c) → Nodes d c (fun c _ => WithinAt D' c)) ∧
    (Nodes d c (fun c _ => D.k c = longSide (D.box c)) → Nodes d c (fun c _ => D'.k c = longSide (D'.box c))) := by
  intro d c h
  have key : ∀ c' e, c ≤ c' → c' + fullSize (e + 1) ≤ c + fullSize d →
      (D'.box c' = D.box c' ∧ D'.k c' = D.k c' ∧ D'.r c' = D.r c') ∧ D'.box (c' + 1) = D.box (c' + 1) ∧
      D'.box (c' + 1 + fullSize e) = D.box (c' + 1 + fullSize e) := by
    intro c' e h1 h2
    have := fullSize_succ e
    have := Mpi.fullSize_pos e
    exact ⟨h c' (by omega) (by omega), (h _ (by omega) (by omega)).1, (h _ (by omega) (by omega)).1⟩
  refine ⟨Nodes.map d c fun c' e h1 h2 _ hq => ?_, Nodes.map d c fun c' e h1 h2 _ hq => ?_,
    Nodes.map d c fun c' e h1 h2 _ hq => ?_⟩
  · obtain ⟨⟨e1, e2, e3⟩, e4, e5⟩ := key c' e h1 h2
    unfold ConsistentAt at hq ⊢
    rw [e1, e2, e3, e4, e5]
    exact hq
  · obtain ⟨⟨e1, e2, e3⟩, -, -⟩ := key c' e h1 h2
    unfold WithinAt at hq ⊢
    rw [e1, e2, e3]
    exact hq
  · obtain ⟨⟨e1, e2, -⟩, -, -⟩ := key c' e h1 h2
    rw [e1, e2]
    exact hq

theorem splitLeaf_spec [NeZero n] (t : Links) (L : ℕ) (r : ℕ → Vec n α) (s : Split n α) (c g a m : ℕ) (hlo : LaidOut t L 0 c g)
    (hm : 1 ≤ m) (hN : s.N c = m) (hf : s.ifirst c = some a) (hl : s.ilast c = some (a + m - 1))
    (hnd : (slice s.ids a m).Nodup) (hbox : ∀ i ∈ slice s.ids a m, (s.D.box c).HoldsClosed (r i)) :
    ∃ s', splitLeaf t s c = some s' ∧ Divided t r s s' 0 c g a m fun _ => slice s.ids a m := by
  obtain ⟨m, rfl⟩ : ∃ k, m = k + 1 := ⟨m - 1, by omega⟩
  obtain ⟨h1, -, -, -, -, h6, h7⟩ := hlo
  obtain ⟨k1, k2⟩ := linkLoop_spec s.ids m a s.inext hnd
  have hlast : slice s.ids a (m + 1) = slice s.ids a m ++ [s.ids (a + m)] := by
    rw [slice_append]; simp [slice]
  have hnot : s.ids (a + m) ∉ slice s.ids a m := by
    rw [hlast, List.nodup_append] at hnd
    intro h
    exact hnd.2.2 _ h _ (by simp) rfl
  refine ⟨{ s with
        inext := Function.update (KD.linkLoop s.ids m a s.inext) (s.ids (a + m)) none
        ifirst := Function.update s.ifirst c (some (s.ids a))
        ilast := Function.update s.ilast c (some (s.ids (a + m)))
        nodes := Function.update s.nodes c [t.c2g c] }, ?_, ?_⟩
  · unfold splitLeaf
    rw [if_pos (by omega), hf, hl]
    have : a + (m + 1) - 1 = a + m := by omega
    simp only [this, Nat.add_sub_cancel_left]
  · have out : ∀ i, i < c ∨ c + fullSize 0 ≤ i → i ≠ c := by
      intro i hi; rw [fullSize_zero] at hi; omega
    refine
      { perm := PermOn.refl _ _ _
        inext := fun x hx => ?_
        outN := fun _ _ => rfl
        outFirst := fun i hi => Function.update_of_ne (out i hi) _ _
        outLast := fun i hi => Function.update_of_ne (out i hi) _ _
        outBox := fun _ _ => rfl
        outK := fun _ _ => rfl
        outR := fun _ _ => rfl
        outNodes := fun i hi => Function.update_of_ne (out i hi) _ _
        ownN := rfl
        ownBox := rfl
        consistent := trivial
        within := trivial
        long := trivial
        nodes := ?_
        own := fun j hj1 hj2 => ?_
        parts := ?_
        counts := ?_
        halfOpen := fun _ h j hj1 hj2 i hi => ?_ }
    · show Function.update _ _ _ x = _
      rw [Function.update_of_ne, k2 x hx]
      rintro rfl
      exact hx (by rw [hlast]; simp)
    · show Function.update s.nodes c [t.c2g c] c = _
      rw [Function.update_self, h6]
      rfl
    · have hj : j = g := by simp at hj2; omega
      subst hj
      refine ⟨?_, ?_, ?_, ?_, ?_, ?_⟩
      · rw [h7, fullSize_zero]; omega
      · refine Chained.congr k1 fun x hx => ?_
        rw [hlast, List.dropLast_concat] at hx
        exact Function.update_of_ne (fun h : x = s.ids (a + m) => hnot (h ▸ hx)) _ _
      · rw [h7, slice_head _ _ _ (by omega)]
        exact Function.update_self _ _ _
      · rw [h7, slice_last _ _ _ (by omega)]
        have : a + (m + 1) - 1 = a + m := by omega
        rw [this]
        exact Function.update_self _ _ _
      · rw [h7, slice_length]
        exact hN
      · rw [h7]; exact hbox
    · simp
    · simp [leafCounts, slice_length]
    · have hj : j = g := by simp at hj2; omega
      subst hj
      rw [h7]
      exact h i hi

/-- fields after the division of a cell in two non-empty halves -/
theorem splitCell_fields (big : α) (s : Split n α) (a m c e : ℕ) (k : Fin n) (q : (ℕ → ℕ) × α) (hN : s.N c = m) (hm : 2 ≤ m) :
    let s1 := splitCell big s a (a + m) c (c + 1) (c + 1 + fullSize e) k q
    s1.ids = q.1 ∧ s1.inext = s.inext ∧ s1.nodes = s.nodes ∧
    s1.D.k = Function.update s.D.k c k ∧ s1.D.r = Function.update s.D.r c q.2 ∧
    (∀ i, i ≠ c + 1 → i ≠ c + 1 + fullSize e → s1.N i = s.N i ∧ s1.ifirst i = s.ifirst i ∧ s1.ilast i = s.ilast i ∧
      s1.D.box i = s.D.box i) ∧
    (s1.N (c + 1) = m / 2 ∧ s1.ifirst (c + 1) = some a ∧ s1.ilast (c + 1) = some (a + m / 2 - 1) ∧
      s1.D.box (c + 1) = leftBox (s.D.box c) k q.2) ∧
    (s1.N (c + 1 + fullSize e) = m - m / 2 ∧ s1.ifirst (c + 1 + fullSize e) = some (a + m / 2) ∧
      s1.ilast (c + 1 + fullSize e) = some (a + m - 1) ∧
      s1.D.box (c + 1 + fullSize e) = rightBox (s.D.box c) k q.2) := by
  have hfs := Mpi.fullSize_pos e
  have d1 : c + 1 ≠ c + 1 + fullSize e := by omega
  have d2 : c ≠ c + 1 := by omega
  have d3 : c ≠ c + 1 + fullSize e := by omega
  have hh : 0 < m / 2 := by omega
  have hh2 : 0 < m - m / 2 := by omega
  subst hN
  generalize c + 1 + fullSize e = c2 at *
  generalize c + 1 = c1 at *
  simp only [splitCell, setSide, setFaces, Function.update_self, Function.update_of_ne d1, Function.update_of_ne d1.symm,
    Function.update_of_ne d2, hh, hh2, and_self, if_true, hh.ne', hh2.ne', ne_eq, not_false_eq_true]
  refine ⟨trivial, trivial, trivial, trivial, trivial, fun i h1 h2 => ?_, ?_, ?_⟩
  · simp only [Function.update_of_ne h1, Function.update_of_ne h2, and_self]
  · exact ⟨trivial, trivial, trivial, rfl⟩
  · exact ⟨trivial, trivial, trivial, rfl⟩

theorem divideTree_spec [NeZero n] (t : Links) (L : ℕ) (r : ℕ → Vec n α) (big : α) :
    ∀ (d c g : ℕ), LaidOut t L d c g → ∀ (fuel : ℕ), d < fuel → ∀ (s : Split n α) (a m : ℕ), 2 ^ d ≤ m →
    s.N c = m → s.ifirst c = some a → s.ilast c = some (a + m - 1) → (slice s.ids a m).Nodup →
    (∀ i ∈ slice s.ids a m, (s.D.box c).HoldsClosed (r i)) →
    ∃ s' lst, divideTree t L r big fuel a (a + m) c s = some s' ∧ Divided t r s s' d c g a m lst := by
  intro d
  induction d with
  | zero =>
    intro c g hlo fuel hfuel s a m hm hN hf hl hnd hbox
    obtain ⟨fuel, rfl⟩ : ∃ k, fuel = k + 1 := ⟨fuel - 1, by omega⟩
    obtain ⟨s', e, h⟩ := splitLeaf_spec t L r s c g a m hlo (by simpa using hm) hN hf hl hnd hbox
    refine ⟨s', _, ?_, h⟩
    unfold divideTree
    rw [if_pos (by have := hlo.1; omega)]
    exact e
  | succ d ih =>
    intro c g hlo fuel hfuel s a m hm hN hf hl hnd hbox
    obtain ⟨fuel, rfl⟩ : ∃ k, fuel = k + 1 := ⟨fuel - 1, by omega⟩
    obtain ⟨h1, h2, h3, h4, h5, h6, h7⟩ := hlo
    have hpow : 2 ^ (d + 1) = 2 ^ d + 2 ^ d := by ring
    have hpos : 1 ≤ 2 ^ d := Nat.one_le_two_pow
    have hfs := fullSize_succ d
    have hfp := Mpi.fullSize_pos d
    have hm2 : 2 ≤ m := by omega
    -- the median
    set k := longSide (s.D.box c) with hk
    obtain ⟨b, v, hq, hperm, hv, hlow, hhigh⟩ := select_spec (fun i => r i k) (a + m - 1 - a + 1) s.ids a (a + m - 1)
      (a + m / 2) (by omega) (by omega) (by omega)
    have ham : a + m - 1 + 1 = a + m := by omega
    rw [ham] at hperm
    have hsl : (slice b a m).Perm (slice s.ids a m) := by
      have := hperm.slice_perm
      rwa [Nat.add_sub_cancel_left] at this
    have hcut : slice b a m = slice b a (m / 2) ++ slice b (a + m / 2) (m - m / 2) := by
      rw [← slice_append]; congr 1; omega
    have hndb : (slice b a m).Nodup := hsl.nodup_iff.mpr hnd
    have hnd1 : (slice b a (m / 2)).Nodup := by rw [hcut] at hndb; exact (List.nodup_append.mp hndb).1
    have hnd2 : (slice b (a + m / 2) (m - m / 2)).Nodup := by rw [hcut] at hndb; exact (List.nodup_append.mp hndb).2.1
    have hdis : ∀ x, x ∈ slice b a (m / 2) → x ∉ slice b (a + m / 2) (m - m / 2) := by
      intro x hx hy
      rw [hcut] at hndb
      exact (List.nodup_append.mp hndb).2.2 x hx x hy rfl
    have hbb : ∀ i ∈ slice b a m, (s.D.box c).HoldsClosed (r i) := fun i hi => hbox i (hsl.mem_iff.mp hi)
    have hpm : b (a + m / 2) ∈ slice b a m := mem_slice.mpr ⟨_, by omega, by omega, rfl⟩
    have hlow' : ∀ i ∈ slice b a (m / 2), r i k ≤ v := by
      intro i hi
      obtain ⟨p, p1, p2, rfl⟩ := mem_slice.mp hi
      exact hlow p p1 (by omega)
    have hhigh' : ∀ i ∈ slice b (a + m / 2) (m - m / 2), v ≤ r i k := by
      intro i hi
      obtain ⟨p, p1, p2, rfl⟩ := mem_slice.mp hi
      rcases Nat.eq_or_lt_of_le p1 with rfl | hlt
      · exact hv.ge
      · exact hhigh p hlt (by omega)
    -- the cell
    obtain ⟨f1, f2, f3, f4, f5, f6, ⟨f7, f8, f9, f10⟩, f11, f12, f13, f14⟩ := splitCell_fields big s a m c d k (b, v) hN hm2
    set s1 := splitCell big s a (a + m) c (c + 1) (c + 1 + fullSize d) k (b, v) with hs1
    simp only at f1 f5 f10 f14
    have hc1 := f6 c (by omega) (by omega)
    -- first child
    obtain ⟨s2, l1, e1, D1⟩ := ih (c + 1) g h6 fuel (by omega) s1 a (m / 2) (by omega) f7 f8 f9 (by rw [f1]; exact hnd1)
      (by
        rw [f1, f10]
        intro i hi j
        have hb := hbb i (by rw [hcut]; exact List.mem_append_left _ hi) j
        refine ⟨hb.1, ?_⟩
        show r i j ≤ Function.update (s.D.box c).max k v j
        by_cases hj : j = k
        · subst hj; rw [Function.update_self]; exact hlow' i hi
        · rw [Function.update_of_ne hj]; exact hb.2)
    -- second child
    have g1 : slice s2.ids (a + m / 2) (m - m / 2) = slice b (a + m / 2) (m - m / 2) :=
      slice_congr fun i i1 i2 => by rw [D1.perm.outside (by omega), f1]
    obtain ⟨s3, l2, e2, D2⟩ := ih (c + 1 + fullSize d) (g + 2 ^ d) h7 fuel (by omega) s2 (a + m / 2) (m - m / 2) (by omega)
      (by rw [D1.outN _ (by omega), f11]) (by rw [D1.outFirst _ (by omega), f12])
      (by rw [D1.outLast _ (by omega), f13]; congr 1; omega) (by rw [g1]; exact hnd2)
      (by
        rw [g1, D1.outBox _ (by omega), f14]
        intro i hi j
        have hb := hbb i (by rw [hcut]; exact List.mem_append_right _ hi) j
        refine ⟨?_, hb.2⟩
        show Function.update (s.D.box c).min k v j ≤ r i j
        by_cases hj : j = k
        · subst hj; rw [Function.update_self]; exact hhigh' i hi
        · rw [Function.update_of_ne hj]; exact hb.1)
    have hN2 : s2.N c = m := by rw [D1.outN c (by omega), hc1.1, hN]
    have hN1 : s1.N c = m := by rw [hc1.1, hN]
    have hsum : a + m / 2 + (m - m / 2) = a + m := by omega
    rw [hsum] at e2
    have p2 : PermOn s2.ids s3.ids (a + m / 2) (a + m) := by have := D2.perm; rwa [hsum] at this
    -- the array at the end
    have q1 : slice s3.ids a (m / 2) = slice s2.ids a (m / 2) :=
      slice_congr fun i i1 i2 => p2.outside (by omega)
    have q2 : slice s3.ids a m = slice s2.ids a (m / 2) ++ slice s3.ids (a + m / 2) (m - m / 2) := by
      rw [← q1, ← slice_append]; congr 1; omega
    have m1 : ∀ x, x ∈ slice s2.ids a (m / 2) ↔ x ∈ slice b a (m / 2) := by
      intro x
      have := D1.perm.slice_perm
      rw [Nat.add_sub_cancel_left, f1] at this
      exact this.mem_iff
    have m2 : ∀ x, x ∈ slice s3.ids (a + m / 2) (m - m / 2) ↔ x ∈ slice b (a + m / 2) (m - m / 2) := by
      intro x
      have := D2.perm.slice_perm
      rw [Nat.add_sub_cancel_left, g1] at this
      exact this.mem_iff
    -- members of the lists
    have mem1 : ∀ j, g ≤ j → j < g + 2 ^ d → ∀ x ∈ l1 j, x ∈ slice b a (m / 2) := by
      intro j j1 j2 x hx
      rw [← m1, ← D1.parts]
      exact List.mem_flatMap.mpr ⟨j, List.mem_range'_1.mpr ⟨j1, j2⟩, hx⟩
    have mem2 : ∀ j, g + 2 ^ d ≤ j → j < g + 2 ^ d + 2 ^ d → ∀ x ∈ l2 j, x ∈ slice b (a + m / 2) (m - m / 2) := by
      intro j j1 j2 x hx
      rw [← m2, ← D2.parts]
      exact List.mem_flatMap.mpr ⟨j, List.mem_range'_1.mpr ⟨j1, j2⟩, hx⟩
    set lst : ℕ → List ℕ := fun j => if j < g + 2 ^ d then l1 j else l2 j with hlst
    have hrange : List.range' g (2 ^ (d + 1)) = List.range' g (2 ^ d) ++ List.range' (g + 2 ^ d) (2 ^ d) := by
      rw [hpow, List.range'_append_1]
    refine ⟨{ s3 with nodes := Function.update s3.nodes c (s3.nodes (c + 1) ++ s3.nodes (c + 1 + fullSize d)) }, lst, ?_, ?_⟩
    · unfold divideTree
      rw [if_neg (by omega), hf, hl, h3, h4]
      simp only
      rw [← hk, hN, hq]
      simp only [Option.bind_some]
      rw [← hs1, hN1, e1]
      simp only [Option.bind_some]
      rw [hN2, e2]
      rfl
    · have out1 : ∀ i, i < c ∨ c + fullSize (d + 1) ≤ i → (i < c + 1 ∨ c + 1 + fullSize d ≤ i) ∧
          (i < c + 1 + fullSize d ∨ c + 1 + fullSize d + fullSize d ≤ i) ∧ i ≠ c + 1 ∧ i ≠ c + 1 + fullSize d ∧ i ≠ c := by
        intro i hi; omega
      have boxc : s3.D.box c = s.D.box c := by
        rw [D2.outBox c (by omega), D1.outBox c (by omega), hc1.2.2.2]
      have kc : s3.D.k c = k := by
        rw [D2.outK c (by omega), D1.outK c (by omega), f4, Function.update_self]
      have rc : s3.D.r c = v := by
        rw [D2.outR c (by omega), D1.outR c (by omega), f5, Function.update_self]
      have box1 : s3.D.box (c + 1) = leftBox (s.D.box c) k v := by
        rw [D2.outBox _ (by omega), D1.ownBox, f10]
      have box2 : s3.D.box (c + 1 + fullSize d) = rightBox (s.D.box c) k v := by
        rw [D2.ownBox, D1.outBox _ (by omega), f14]
      have agree : ∀ i, c + 1 ≤ i → i < c + 1 + fullSize d →
          s3.D.box i = s2.D.box i ∧ s3.D.k i = s2.D.k i ∧ s3.D.r i = s2.D.r i := fun i i1 i2 =>
        ⟨D2.outBox i (by omega), D2.outK i (by omega), D2.outR i (by omega)⟩
      obtain ⟨tr1, tr2, tr3⟩ := Nodes.congrD d (c + 1) agree
      refine
        { perm := ?_
          inext := fun x hx => ?_
          outN := fun i hi => ?_
          outFirst := fun i hi => ?_
          outLast := fun i hi => ?_
          outBox := fun i hi => ?_
          outK := fun i hi => ?_
          outR := fun i hi => ?_
          outNodes := fun i hi => ?_
          ownN := ?_
          ownBox := boxc
          consistent := ⟨?_, tr1 D1.consistent, D2.consistent⟩
          within := ⟨?_, tr2 D1.within, D2.within⟩
          long := ⟨show s3.D.k c = longSide (s3.D.box c) by rw [kc, boxc], tr3 D1.long, D2.long⟩
          nodes := ?_
          own := fun j j1 j2 => ?_
          parts := ?_
          counts := ?_
          halfOpen := fun hinj hh j j1 j2 i hi => ?_ }
      · refine (hperm.trans ?_).trans (p2.mono (by omega) le_rfl)
        have := D1.perm
        rw [f1] at this
        exact this.mono le_rfl (by omega)
      · have hx' : x ∉ slice b a m := fun h => hx (hsl.mem_iff.mp h)
        rw [hcut, List.mem_append, not_or] at hx'
        show s3.inext x = _
        rw [D2.inext x (by rw [g1]; exact hx'.2), D1.inext x (by rw [f1]; exact hx'.1), f2]
      · obtain ⟨o1, o2, o3, o4, -⟩ := out1 i hi
        show s3.N i = _
        rw [D2.outN i o2, D1.outN i o1, (f6 i o3 o4).1]
      · obtain ⟨o1, o2, o3, o4, -⟩ := out1 i hi
        show s3.ifirst i = _
        rw [D2.outFirst i o2, D1.outFirst i o1, (f6 i o3 o4).2.1]
      · obtain ⟨o1, o2, o3, o4, -⟩ := out1 i hi
        show s3.ilast i = _
        rw [D2.outLast i o2, D1.outLast i o1, (f6 i o3 o4).2.2.1]
      · obtain ⟨o1, o2, o3, o4, -⟩ := out1 i hi
        show s3.D.box i = _
        rw [D2.outBox i o2, D1.outBox i o1, (f6 i o3 o4).2.2.2]
      · obtain ⟨o1, o2, -, -, o5⟩ := out1 i hi
        show s3.D.k i = _
        rw [D2.outK i o2, D1.outK i o1, f4, Function.update_of_ne o5]
      · obtain ⟨o1, o2, -, -, o5⟩ := out1 i hi
        show s3.D.r i = _
        rw [D2.outR i o2, D1.outR i o1, f5, Function.update_of_ne o5]
      · obtain ⟨o1, o2, -, -, o5⟩ := out1 i hi
        show Function.update _ c _ i = _
        rw [Function.update_of_ne o5, D2.outNodes i o2, D1.outNodes i o1, f3]
      · show s3.N c = _
        rw [D2.outN c (by omega), hN2, hN]
      · show ConsistentAt s3.D c d
        exact ⟨by rw [box1, boxc, kc, rc], by rw [box2, boxc, kc, rc]⟩
      · show WithinAt s3.D c
        unfold WithinAt
        rw [boxc, kc, rc, ← hv]
        exact hbb _ hpm k
      · show Function.update _ c _ c = _
        rw [Function.update_self, D2.nodes, D2.outNodes (c + 1) (by omega), D1.nodes, hrange]
      · by_cases hj : j < g + 2 ^ d
        · have O := D1.own j j1 hj
          have hcell := O.cell
          have hl : lst j = l1 j := if_pos hj
          rw [hl]
          refine ⟨by omega, ?_, ?_, ?_, ?_, ?_⟩
          · refine Chained.congr O.chain fun x hx => ?_
            show s3.inext x = _
            refine D2.inext x ?_
            rw [g1]
            exact hdis x (mem1 j j1 hj x (List.mem_of_mem_dropLast hx))
          · show s3.ifirst _ = _
            rw [D2.outFirst _ (by omega), O.first]
          · show s3.ilast _ = _
            rw [D2.outLast _ (by omega), O.last]
          · show s3.N _ = _
            rw [D2.outN _ (by omega), O.count]
          · show ∀ i ∈ l1 j, (s3.D.box _).HoldsClosed (r i)
            rw [D2.outBox _ (by omega)]
            exact O.box
        · have O := D2.own j (by omega) (by omega)
          have hcell := O.cell
          have hl : lst j = l2 j := if_neg hj
          rw [hl]
          exact ⟨by omega, O.chain, O.first, O.last, O.count, O.box⟩
      · show _ = slice s3.ids a m
        rw [hrange, List.flatMap_append, q2, ← D1.parts, ← D2.parts]
        congr 1
        · refine List.flatMap_congr fun j hj => ?_
          rw [List.mem_range'_1] at hj
          exact if_pos hj.2
        · refine List.flatMap_congr fun j hj => ?_
          rw [List.mem_range'_1] at hj
          exact if_neg (by omega)
      · rw [hrange, List.map_append]
        show _ = leafCounts d (m / 2) ++ leafCounts d (m - m / 2)
        rw [← D1.counts, ← D2.counts]
        congr 1
        · refine List.map_congr_left fun j hj => ?_
          rw [List.mem_range'_1] at hj
          rw [hlst]
          simp only [if_pos hj.2]
        · refine List.map_congr_left fun j hj => ?_
          rw [List.mem_range'_1] at hj
          rw [hlst]
          simp only [if_neg (show ¬ j < g + 2 ^ d by omega)]
      · have sub1 : ∀ x ∈ slice b a (m / 2), x ∈ slice s.ids a m := fun x hx =>
          hsl.mem_iff.mp (by rw [hcut]; exact List.mem_append_left _ hx)
        have sub2 : ∀ x ∈ slice b (a + m / 2) (m - m / 2), x ∈ slice s.ids a m := fun x hx =>
          hsl.mem_iff.mp (by rw [hcut]; exact List.mem_append_right _ hx)
        have hpm2 : b (a + m / 2) ∈ slice b (a + m / 2) (m - m / 2) := mem_slice.mpr ⟨_, le_rfl, by omega, rfl⟩
        by_cases hj : j < g + 2 ^ d
        · have hl : lst j = l1 j := if_pos hj
          rw [hl] at hi
          have hcell := (D1.own j j1 hj).cell
          have := D1.halfOpen (fun k' x hx y hy h => hinj k' (sub1 x (by rw [f1] at hx; exact hx))
              (sub1 y (by rw [f1] at hy; exact hy)) h)
            (fun x hx => by
              rw [f1] at hx
              rw [f10]
              refine left_holds (hh x (sub1 x hx)) (lt_of_le_of_ne (hlow' x hx) fun he => ?_)
              have : x = b (a + m / 2) := hinj k (sub1 x hx) (sub2 _ hpm2) (by rw [← hv] at he; exact he)
              exact hdis x hx (this ▸ hpm2)) j j1 hj i hi
          show (s3.D.box _).Holds (r i)
          rw [D2.outBox _ (by omega)]
          exact this
        · have hl : lst j = l2 j := if_neg hj
          rw [hl] at hi
          exact D2.halfOpen (fun k' x hx y hy h => hinj k' (sub2 x (by rw [g1] at hx; exact hx))
              (sub2 y (by rw [g1] at hy; exact hy)) h)
            (fun x hx => by
              rw [g1] at hx
              rw [D1.outBox _ (by omega), f14]
              exact right_holds (hh x (sub2 x hx)) (hhigh' x hx)) j (by omega) (by omega) i hi

theorem longSide_spec [NeZero n] (b : Box n α) (hv : ∀ k, b.min k ≤ b.max k) (j : Fin n) :
    b.max j - b.min j ≤ b.max (longSide b) - b.min (longSide b) := by
  have key : ∀ (l : List (Fin n)) (p : α × Fin n), (p.1 ≤ b.max p.2 - b.min p.2) →
      let q := l.foldl (fun (s : α × Fin n) k => if b.max k - b.min k > s.1 then (b.max k - b.min k, k) else s) p
      p.1 ≤ q.1 ∧ q.1 ≤ b.max q.2 - b.min q.2 ∧ ∀ k ∈ l, b.max k - b.min k ≤ q.1 := by
    intro l
    induction l with
    | nil => intro p hp; exact ⟨le_rfl, hp, by simp⟩
    | cons x l ih =>
      intro p hp
      simp only [List.foldl_cons]
      by_cases h : b.max x - b.min x > p.1
      · rw [if_pos h]
        obtain ⟨i1, i2, i3⟩ := ih (b.max x - b.min x, x) le_rfl
        refine ⟨h.le.trans i1, i2, fun k hk => ?_⟩
        rcases List.mem_cons.mp hk with rfl | hk
        · exact i1
        · exact i3 k hk
      · rw [if_neg h]
        obtain ⟨i1, i2, i3⟩ := ih p hp
        refine ⟨i1, i2, fun k hk => ?_⟩
        rcases List.mem_cons.mp hk with rfl | hk
        · exact (not_lt.mp h).trans i1
        · exact i3 k hk
  obtain ⟨-, h2, h3⟩ := key (List.finRange n) (0, 0) (by have := hv 0; linarith)
  exact (h3 j (List.mem_finRange j)).trans h2

/-- A cell deeper than its particles go: an index -1 is used. -/
theorem divideTree_few [NeZero n] (t : Links) (L : ℕ) (r : ℕ → Vec n α) (big : α) :
    ∀ (d c g : ℕ), LaidOut t L (d + 1) c g → ∀ (fuel : ℕ) (s : Split n α) (a m : ℕ), m < 2 ^ d →
    s.N c = m → (s.ifirst c = if m = 0 then none else some a) → (∀ i, c < i → i < c + fullSize (d + 1) → s.ifirst i = none) →
    divideTree t L r big fuel a (a + m) c s = none := by
  intro d
  induction d with
  | zero =>
    intro c g hlo fuel s a m hm hN hf _
    obtain rfl : m = 0 := by simpa using hm
    cases fuel with
    | zero => rfl
    | succ fuel =>
      unfold divideTree
      rw [if_neg (by have := hlo.1; omega), hf]
      rfl
  | succ d ih =>
    intro c g hlo fuel s a m hm hN hf hout
    cases fuel with
    | zero => rfl
    | succ fuel =>
    obtain ⟨h1, h2, h3, h4, h5, h6, h7⟩ := hlo
    have hfs := fullSize_succ (d + 1)
    have hfp := Mpi.fullSize_pos (d + 1)
    unfold divideTree
    rw [if_neg (by omega), hf, h3, h4]
    by_cases hm0 : m = 0
    · rw [if_pos hm0]
    rw [if_neg hm0]
    cases hil : s.ilast c with
    | none => rfl
    | some b =>
    simp only
    cases hq : select (fun i => r i (longSide (s.D.box c))) (b - a + 1) s.ids a b (a + s.N c / 2) with
    | none => rfl
    | some q =>
    simp only [Option.bind_some]
    have hpow : 2 ^ (d + 1) = 2 ^ d + 2 ^ d := by ring
    have hN1 : (splitCell big s a (a + m) c (c + 1) (c + 1 + fullSize (d + 1)) (longSide (s.D.box c)) q).N c = m := by
      simp only [splitCell, setSide, setFaces]
      split_ifs <;> simp only [Function.update_of_ne (show c ≠ c + 1 + fullSize (d + 1) by omega),
        Function.update_of_ne (show c ≠ c + 1 by omega), hN]
    have hNc : (splitCell big s a (a + m) c (c + 1) (c + 1 + fullSize (d + 1)) (longSide (s.D.box c)) q).N (c + 1) = m / 2 := by
      simp only [splitCell, setSide, setFaces]
      split_ifs <;> simp only [Function.update_of_ne (show c + 1 ≠ c + 1 + fullSize (d + 1) by omega),
        Function.update_self, hN]
    have hfi : ∀ i, i ≠ c + 1 + fullSize (d + 1) →
        (splitCell big s a (a + m) c (c + 1) (c + 1 + fullSize (d + 1)) (longSide (s.D.box c)) q).ifirst i =
          if i = c + 1 then (if m / 2 = 0 then s.ifirst (c + 1) else some a) else s.ifirst i := by
      intro i hi
      have e : (splitCell big s a (a + m) c (c + 1) (c + 1 + fullSize (d + 1)) (longSide (s.D.box c)) q).ifirst i =
          (if m / 2 ≠ 0 then Function.update s.ifirst (c + 1) (some a) else s.ifirst) i := by
        simp only [splitCell, setSide, setFaces, hN]
        split_ifs <;> simp only [Function.update_of_ne hi]
      rw [e]
      by_cases hi1 : i = c + 1
      · subst hi1
        rw [if_pos rfl]
        by_cases hz : m / 2 = 0
        · rw [if_neg (not_not.mpr hz), if_pos hz]
        · rw [if_pos hz, if_neg hz, Function.update_self]
      · rw [if_neg hi1]
        by_cases hz : m / 2 = 0
        · rw [if_neg (not_not.mpr hz)]
        · rw [if_pos hz, Function.update_of_ne hi1]
    have := ih (c + 1) g h6 fuel (splitCell big s a (a + m) c (c + 1) (c + 1 + fullSize (d + 1)) (longSide (s.D.box c)) q)
      a (m / 2) (by omega) hNc
      (by
        rw [hfi _ (by omega), if_pos rfl]
        by_cases hz : m / 2 = 0
        · rw [if_pos hz, if_pos hz, hout _ (by omega) (by omega)]
        · rw [if_neg hz, if_neg hz])
      (by
        intro i i1 i2
        rw [hfi i (by omega), if_neg (by omega), hout i (by omega) (by omega)])
    rw [hN1, this]
    rfl

end Gandalf.Mpi
