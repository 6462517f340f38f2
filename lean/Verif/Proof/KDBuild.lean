import Verif.Spec.KDBuild
import Verif.Proof.QuickSelect
import Verif.Proof.KDStructure
import Verif.Proof.LeafList

/-! Correctness of the KD-tree build. -/

set_option autoImplicit false

namespace Gandalf.KD
open QuickSelect LeafList

variable {κ : Type*} {α : Type}

theorem slice_length (a : ℕ → ℕ) (l n : ℕ) : (slice a l n).length = n := by simp [slice]

theorem slice_append (a : ℕ → ℕ) (l n m : ℕ) :
    slice a l (n + m) = slice a l n ++ slice a (l + n) m := by
  simp only [slice, ← List.map_append, List.range'_append_1]

theorem slice_congr {a b : ℕ → ℕ} {l n : ℕ} (h : ∀ i, l ≤ i → i < l + n → a i = b i) :
    slice a l n = slice b l n := by
  apply List.map_congr_left
  intro i hi
  rw [List.mem_range'_1] at hi
  exact h i hi.1 hi.2

theorem slice_head (a : ℕ → ℕ) (l n : ℕ) (hn : 0 < n) : (slice a l n).head? = some (a l) := by
  obtain ⟨n, rfl⟩ : ∃ k, n = k + 1 := ⟨n - 1, by omega⟩
  simp [slice, List.range'_succ]

theorem slice_last (a : ℕ → ℕ) (l n : ℕ) (hn : 0 < n) :
    (slice a l n).getLast? = some (a (l + n - 1)) := by
  obtain ⟨n, rfl⟩ : ∃ k, n = k + 1 := ⟨n - 1, by omega⟩
  rw [slice_append]
  simp [slice]

theorem mem_slice {a : ℕ → ℕ} {l n x : ℕ} : x ∈ slice a l n ↔ ∃ i, l ≤ i ∧ i < l + n ∧ a i = x := by
  simp only [slice, List.mem_map, List.mem_range'_1]
  constructor
  · rintro ⟨i, h, e⟩; exact ⟨i, h.1, h.2, e⟩
  · rintro ⟨i, h1, h2, e⟩; exact ⟨i, ⟨h1, h2⟩, e⟩

theorem linkLoop_spec (ids : ℕ → ℕ) : ∀ (m j : ℕ) (inext : ℕ → Option ℕ),
    (slice ids j (m+1)).Nodup →
    Chained (linkLoop ids m j inext) (slice ids j (m+1)) ∧
    ∀ x, x ∉ slice ids j (m+1) → linkLoop ids m j inext x = inext x := by
  intro m
  induction m with
  | zero =>
    intro j inext _
    exact ⟨by simp [slice, Chained], fun _ _ => rfl⟩
  | succ m ih =>
    intro j inext hn
    have e : slice ids j (m+1+1) = ids j :: slice ids (j+1) (m+1) := by
      simp [slice, List.range'_succ]
    rw [e] at hn ⊢
    obtain ⟨hj, hn'⟩ := List.nodup_cons.mp hn
    obtain ⟨h1, h2⟩ := ih (j+1) (Function.update inext (ids j) (some (ids (j+1)))) hn'
    constructor
    · rw [Chained, List.isChain_cons]
      refine ⟨?_, h1⟩
      intro y hy
      rw [slice_head _ _ _ (by omega)] at hy
      simp only [Option.mem_def, Option.some.injEq] at hy
      simp only [linkLoop]
      rw [h2 _ hj]; simp [hy]
    · intro x hx
      simp only [List.mem_cons, not_or] at hx
      simp only [linkLoop]
      rw [h2 x hx.2, Function.update_of_ne hx.1]

theorem filter_all_live {dead : ℕ → Bool} {l : List ℕ} (h : ∀ x ∈ l, dead x = false) :
    (l.filter fun i => !dead i) = l := by
  rw [List.filter_eq_self]; intro x hx; simp [h x hx]

/-- Frame: outside cells `[c,c+n)`, positions `[a,a+m)` and particles in `l`, nothing changed. -/
structure Frame (s t : Build) (c n a m : ℕ) (l : List ℕ) : Prop where
  N : ∀ i, i < c ∨ c + n ≤ i → t.N i = s.N i
  ifirst : ∀ i, i < c ∨ c + n ≤ i → t.ifirst i = s.ifirst i
  ilast : ∀ i, i < c ∨ c + n ≤ i → t.ilast i = s.ilast i
  ids : ∀ i, i < a ∨ a + m ≤ i → t.ids i = s.ids i
  inext : ∀ x, x ∉ l → t.inext x = s.inext x

theorem stockLeafLists_spec (dead : ℕ → Bool) (s : Build) (c fuel : ℕ) (l : List ℕ)
    (hf : l.length ≤ fuel) (hn : l.Nodup) (hc : Chained s.inext l) (h1 : s.ifirst c = l.head?)
    (h2 : s.ilast c = l.getLast?) :
    ∃ t, stockLeafLists dead s c fuel = some t ∧ t.ids = s.ids ∧
      t.N c = (l.filter fun i => !dead i).length ∧
      t.ifirst c = (l.filter fun i => !dead i).head? ∧
      t.ilast c = (l.filter fun i => !dead i).getLast? ∧
      Chained t.inext (l.filter fun i => !dead i) ∧
      (∀ x, x ∉ l → t.inext x = s.inext x) ∧
      (∀ i, i ≠ c → t.N i = s.N i ∧ t.ifirst i = s.ifirst i ∧ t.ilast i = s.ilast i) := by
  obtain ⟨r, e, k1, k2, k3, k4⟩ := compact_chained dead s.inext l fuel hf hn hc
  have htr := traverse_chained (l.filter fun i => !dead i) fuel k1 (hn.filter _)
    ((List.length_filter_le _ _).trans hf)
  rw [k2, k3] at htr
  refine ⟨{ s with
    inext := r.inext
    ifirst := Function.update s.ifirst c r.ifirst
    ilast := Function.update s.ilast c r.iaux
    N := Function.update s.N c
      ((l.filter fun i => !dead i).filter fun i => !dead i).length }, by
    simp only [stockLeafLists, h1, h2, e, Option.bind_eq_bind, Option.bind_some, htr],
    rfl, ?_, ?_, ?_, k1, k4, ?_⟩
  · simp [List.filter_filter]
  · simp [k2]
  · simp [k3]
  · intro i hi
    simp [Function.update_of_ne hi]

theorem divideLeaf_spec [LinearOrder α] (t : Links) (coord : κ → ℕ → α) (kdiv : ℕ → κ)
    (dead : ℕ → Bool) (s : Build) (c a n : ℕ)
    (hN : s.N c = n) (hfl : 0 < n → s.ifirst c = some a ∧ s.ilast c = some (a + n - 1))
    (hnd : (slice s.ids a n).Nodup) (hlive : ∀ x ∈ slice s.ids a n, dead x = false) :
    ∃ s', divideLeaf dead s c = some s' ∧ s'.ids = s.ids ∧
      Owns t coord kdiv s' 0 c (slice s.ids a n) ∧
      Frame s s' c 1 a n (slice s.ids a n) := by
  by_cases hn : 0 < n
  · obtain ⟨f1, f2⟩ := hfl hn
    have hb : a + n - 1 - a + 1 = n := by omega
    have hlk := linkLoop_spec s.ids (a + n - 1 - a) a s.inext (by rw [hb]; exact hnd)
    rw [hb] at hlk
    have hst := stockLeafLists_spec dead { s with
        inext := linkLoop s.ids (a + n - 1 - a) a s.inext
        ifirst := Function.update s.ifirst c (some (s.ids a))
        ilast := Function.update s.ilast c (some (s.ids (a + n - 1))) } c n (slice s.ids a n)
      (by simp [slice_length]) hnd hlk.1 (by simp [slice_head _ _ _ hn])
      (by simp [slice_last _ _ _ hn])
    rw [filter_all_live hlive] at hst
    obtain ⟨s', e, hi, g1, g2, g3, g4, g5, g6⟩ := hst
    refine ⟨s', ?_, hi, ⟨g1, g2, g3, g4⟩, ?_⟩
    · simp only [divideLeaf, hN, if_pos hn, f1, f2]
      exact e
    · constructor
      · intro i hi'; exact (g6 i (by omega)).1
      · intro i hi'
        rw [(g6 i (by omega)).2.1]
        simp only []
        rw [Function.update_of_ne (by omega)]
      · intro i hi'
        rw [(g6 i (by omega)).2.2]
        simp only []
        rw [Function.update_of_ne (by omega)]
      · intro i _; rw [hi]
      · intro x hx; rw [g5 x hx]; exact hlk.2 x hx
  · obtain rfl : n = 0 := by omega
    have hst := stockLeafLists_spec dead { s with
        ifirst := Function.update s.ifirst c none
        ilast := Function.update s.ilast c none } c 0 [] (by simp) (by simp) List.isChain_nil
        (by simp) (by simp)
    obtain ⟨s', e, hi, g1, g2, g3, g4, g5, g6⟩ := hst
    refine ⟨s', ?_, hi, ⟨by simpa [slice] using g1, by simpa [slice] using g2,
      by simpa [slice] using g3, by simp [slice]⟩, ?_⟩
    · simp only [divideLeaf, hN, lt_irrefl, if_false]
      exact e
    · constructor
      · intro i hi'; exact (g6 i (by omega)).1
      · intro i hi'
        rw [(g6 i (by omega)).2.1]
        simp only []
        rw [Function.update_of_ne (by omega)]
      · intro i hi'
        rw [(g6 i (by omega)).2.2]
        simp only []
        rw [Function.update_of_ne (by omega)]
      · intro i _; rw [hi]
      · intro x hx; rw [g5 x (by simp)]

theorem dropLast_append_mem_left {l1 l2 : List ℕ} {x : ℕ} (h : x ∈ l1.dropLast) :
    x ∈ (l1 ++ l2).dropLast := by
  by_cases h2 : l2 = []
  · simpa [h2] using h
  · rw [List.dropLast_append_of_ne_nil h2]
    exact List.mem_append_left _ (List.dropLast_subset _ h)

theorem dropLast_append_mem_right {l1 l2 : List ℕ} {x : ℕ} (h : x ∈ l2.dropLast) :
    x ∈ (l1 ++ l2).dropLast := by
  by_cases h2 : l2 = []
  · simp [h2] at h
  · rw [List.dropLast_append_of_ne_nil h2]
    exact List.mem_append_right _ h

theorem Owns.congr [LE α] {t : Links} {L : ℕ} {coord : κ → ℕ → α} {kdiv : ℕ → κ} :
    ∀ (d c g : ℕ) (l : List ℕ) {s s' : Build}, LaidOut t L d c g → Owns t coord kdiv s d c l →
    (∀ i, c ≤ i → i < c + fullSize d → s'.N i = s.N i ∧ s'.ifirst i = s.ifirst i ∧
      s'.ilast i = s.ilast i) →
    (∀ x ∈ l.dropLast, s'.inext x = s.inext x) → Owns t coord kdiv s' d c l := by
  intro d
  induction d with
  | zero =>
    intro c g l s s' _ ho hc hx
    obtain ⟨a1, a2, a3, a4⟩ := ho
    obtain ⟨e1, e2, e3⟩ := hc c le_rfl (by simp [fullSize_zero])
    exact ⟨e1 ▸ a1, e2 ▸ a2, e3 ▸ a3, Chained.congr a4 hx⟩
  | succ d ih =>
    intro c g l s s' hlo ho hc hx
    have hfs := fullSize_succ d
    obtain ⟨a1, a2, a3, a4, c1, c2, l1, l2, q1, q2, rfl, q4, q5, q6, q7, q8⟩ := ho
    obtain ⟨b1, b2, b3, b4, b5, b6, b7⟩ := hlo
    obtain ⟨e1, e2, e3⟩ := hc c le_rfl (by omega)
    rw [q1] at b3; rw [q2] at b4
    obtain rfl := Option.some.inj b3
    obtain rfl := Option.some.inj b4
    refine ⟨e1 ▸ a1, e2 ▸ a2, e3 ▸ a3, Chained.congr a4 hx, _, _, l1, l2, q1, q2, rfl, q4, q5, q6,
      ih _ _ l1 b6 q7 ?_ ?_, ih _ _ l2 b7 q8 ?_ ?_⟩
    · intro i h1 h2; exact hc i (by omega) (by omega)
    · intro x h; exact hx x (dropLast_append_mem_left h)
    · intro i h1 h2; exact hc i (by omega) (by omega)
    · intro x h; exact hx x (dropLast_append_mem_right h)

theorem Owns.basic [LE α] {t : Links} {coord : κ → ℕ → α} {kdiv : ℕ → κ} {s : Build} {d c : ℕ}
    {l : List ℕ} (h : Owns t coord kdiv s d c l) : s.N c = l.length ∧ s.ifirst c = l.head? ∧
      s.ilast c = l.getLast? ∧ Chained s.inext l := by
  cases d with
  | zero => exact h
  | succ d => exact ⟨h.1, h.2.1, h.2.2.1, h.2.2.2.1⟩

theorem divide_spec [LinearOrder α] (t : Links) (L : ℕ) (coord : κ → ℕ → α) (kdiv : ℕ → κ)
    (dead : ℕ → Bool) : ∀ (d : ℕ) (c g a n : ℕ) (s : Build), LaidOut t L d c g →
    s.N c = n → (0 < n → s.ifirst c = some a ∧ s.ilast c = some (a + n - 1)) →
    (0 < d → 2 ^ (d - 1) ≤ n) → (slice s.ids a n).Nodup →
    (∀ x ∈ slice s.ids a n, dead x = false) →
    ∃ s', (∀ fuel, d + 1 ≤ fuel → divide t L coord kdiv dead fuel a (a + n) c s = some s') ∧
      Owns t coord kdiv s' d c (slice s'.ids a n) ∧
      (slice s'.ids a n).Perm (slice s.ids a n) ∧
      Frame s s' c (fullSize d) a n (slice s.ids a n) := by
  intro d
  induction d with
  | zero =>
    intro c g a n s hlo hN hfl _ hnd hlive
    obtain ⟨s', e, hi, ho, hfr⟩ := divideLeaf_spec t coord kdiv dead s c a n hN hfl hnd hlive
    refine ⟨s', ?_, by rw [hi]; exact ho, by rw [hi], hfr⟩
    intro fuel hf
    obtain ⟨fuel, rfl⟩ : ∃ k, fuel = k + 1 := ⟨fuel - 1, by omega⟩
    simp only [divide, hlo.1, if_true]
    exact e
  | succ d ih =>
    intro c g a n s hlo hN hfl hmin hnd hlive
    have hfs := fullSize_succ d
    have hfpos : 0 < fullSize d := by
      have := fullSize_add_one d
      have h2 : 2 ≤ 2 ^ (d + 1) := by
        calc 2 = 2 ^ 1 := rfl
          _ ≤ 2 ^ (d+1) := Nat.pow_le_pow_right (by omega) (by omega)
      omega
    obtain ⟨b1, b2, b3, b4, b5, b6, b7⟩ := hlo
    have hn1 : 2 ^ d ≤ n := by simpa using hmin (by omega)
    have hnpos : 0 < n := lt_of_lt_of_le (Nat.two_pow_pos d) hn1
    obtain ⟨f1, f2⟩ := hfl hnpos
    -- QuickSelect
    obtain ⟨ids', v, hq, hperm, hkv, hlow, hhigh⟩ := quickSelect_spec (coord (kdiv c))
      (a + n - 1 - a + 1) s.ids a (a + n - 1) (a + n / 2) (by omega) (by omega) (by omega)
    rw [show a + n - 1 + 1 = a + n by omega] at hperm
    have hsp : (slice ids' a n).Perm (slice s.ids a n) := by
      have := hperm.slice_perm; rwa [show a + n - a = n by omega] at this
    have hnd' : (slice ids' a n).Nodup := hsp.nodup_iff.mpr hnd
    have hsplit : ∀ f : ℕ → ℕ, slice f a n = slice f a (n/2) ++ slice f (a + n/2) (n - n/2) := by
      intro f; rw [← slice_append]; congr 1; omega
    set c1 := c + 1 with hc1
    set c2 := c + 1 + fullSize d with hc2
    -- states
    let s1 : Build := { s with ids := ids' }
    let s2 := setChild s1 c1 (n / 2) a (a + n / 2 - 1)
    let s3 := setChild s2 c2 (n - n / 2) (a + n / 2) (a + n - 1)
    have s2c : s2.N c = n ∧ s2.N c1 = n / 2 ∧ s2.ids = ids' ∧ s2.inext = s.inext ∧
        (∀ i, i ≠ c1 → s2.N i = s.N i ∧ s2.ifirst i = s.ifirst i ∧ s2.ilast i = s.ilast i) ∧
        (0 < n / 2 → s2.ifirst c1 = some a ∧ s2.ilast c1 = some (a + n/2 - 1)) := by
      simp only [s2, setChild]
      split_ifs with h0
      · refine ⟨?_, by simp, rfl, rfl, ?_, by simp⟩
        · simp only [s1]; rw [Function.update_of_ne (by omega)]; exact hN
        · intro i hi; simp only [s1]; simp [Function.update_of_ne hi]
      · refine ⟨?_, by simp, rfl, rfl, ?_, by intro h; omega⟩
        · simp only [s1]; rw [Function.update_of_ne (by omega)]; exact hN
        · intro i hi; simp only [s1]; simp [Function.update_of_ne hi]
    obtain ⟨p1, p2, p3, p4, p5, p6⟩ := s2c
    have hc2ne : n - n/2 ≠ 0 := by omega
    have s3c : s3.N c = n ∧ s3.N c1 = n / 2 ∧ s3.N c2 = n - n / 2 ∧ s3.ids = ids' ∧
        s3.inext = s.inext ∧
        (∀ i, i ≠ c1 → i ≠ c2 → s3.N i = s.N i ∧ s3.ifirst i = s.ifirst i ∧
          s3.ilast i = s.ilast i) ∧
        (0 < n / 2 → s3.ifirst c1 = some a ∧ s3.ilast c1 = some (a + n/2 - 1)) ∧
        s3.ifirst c2 = some (a + n/2) ∧ s3.ilast c2 = some (a + n - 1) := by
      simp only [s3, setChild, if_pos hc2ne]
      refine ⟨?_, ?_, by simp, p3, p4, ?_, ?_, by simp, by simp⟩
      · rw [Function.update_of_ne (by omega)]; exact p1
      · rw [Function.update_of_ne (by omega)]; exact p2
      · intro i h1 h2
        rw [Function.update_of_ne h2, Function.update_of_ne h2, Function.update_of_ne h2]
        exact p5 i h1
      · intro h
        rw [Function.update_of_ne (by omega), Function.update_of_ne (by omega)]
        exact p6 h
    obtain ⟨r1, r2, r3, r4, r5, r6, r7, r8, r9⟩ := s3c
    have hndapp := hnd'
    rw [hsplit ids'] at hndapp
    obtain ⟨nd1, nd2, nd12⟩ := List.nodup_append.mp hndapp
    have live' : ∀ x ∈ slice ids' a n, dead x = false := fun x hx =>
      hlive x (hsp.mem_iff.mp hx)
    -- first child
    obtain ⟨s4, h4, o4, per4, fr4⟩ := ih c1 g a (n/2) s3 b6 r2 r7
      (by
        intro hd
        obtain ⟨e, rfl⟩ : ∃ e, d = e + 1 := ⟨d - 1, by omega⟩
        have : 2 ^ (e+1) = 2 * 2 ^ e := by ring
        simp only [Nat.add_sub_cancel]; omega)
      (by rw [r4]; exact nd1)
      (by rw [r4]; intro x hx; exact live' x (by rw [hsplit]; exact List.mem_append_left _ hx))
    rw [r4] at per4 fr4
    have ids4 : ∀ i, a + n/2 ≤ i → s4.ids i = ids' i := by
      intro i hi; rw [fr4.ids i (by omega), r4]
    have sl4 : slice s4.ids (a + n/2) (n - n/2) = slice ids' (a + n/2) (n - n/2) :=
      slice_congr (fun i h1 _ => ids4 i h1)
    have N4c2 : s4.N c2 = n - n/2 := by rw [fr4.N _ (by omega), r3]
    -- second child
    obtain ⟨s5, h5, o5, per5, fr5⟩ := ih c2 (g + 2 ^ d) (a + n/2) (n - n/2) s4 b7 N4c2
      (by
        intro _
        rw [fr4.ifirst _ (by omega), fr4.ilast _ (by omega), r8, r9]
        exact ⟨rfl, by congr 1; omega⟩)
      (by
        intro hd
        obtain ⟨e, rfl⟩ : ∃ e, d = e + 1 := ⟨d - 1, by omega⟩
        have : 2 ^ (e+1) = 2 * 2 ^ e := by ring
        simp only [Nat.add_sub_cancel]; omega)
      (by rw [sl4]; exact nd2)
      (by rw [sl4]; intro x hx; exact live' x (by rw [hsplit]; exact List.mem_append_right _ hx))
    rw [sl4] at per5 fr5
    rw [show a + n / 2 + (n - n / 2) = a + n by omega] at h5
    set l1 := slice s4.ids a (n/2) with hl1
    set l2 := slice s5.ids (a + n/2) (n - n/2) with hl2
    have disj : ∀ x ∈ l1, x ∉ slice ids' (a + n/2) (n - n/2) := by
      intro x hx hx2
      exact nd12 x (per4.mem_iff.mp hx) x hx2 rfl
    have o4' : Owns t coord kdiv s5 d c1 l1 := by
      refine Owns.congr d c1 g l1 b6 o4 ?_ ?_
      · intro i h1 h2
        exact ⟨fr5.N i (by omega), fr5.ifirst i (by omega), fr5.ilast i (by omega)⟩
      · intro x hx; exact fr5.inext x (disj x (List.dropLast_subset _ hx))
    obtain ⟨u1, u2, u3, u4⟩ := o4'.basic
    obtain ⟨w1, w2, w3, w4⟩ := o5.basic
    have len1 : l1.length = n/2 := by rw [hl1]; exact slice_length _ _ _
    have len2 : l2.length = n - n/2 := by rw [hl2]; exact slice_length _ _ _
    have l2ne : l2 ≠ [] := by intro h; rw [h] at len2; simp at len2; omega
    -- final ids slice
    have final : slice s5.ids a n = l1 ++ l2 := by
      rw [hsplit]
      congr 1
      exact slice_congr (fun i h1 h2 => fr5.ids i (by omega))
    have finalPerm : (slice s5.ids a n).Perm (slice s.ids a n) := by
      rw [final]
      refine List.Perm.trans (List.Perm.append per4 per5) ?_
      rw [← hsplit]; exact hsp
    have finalNd : (l1 ++ l2).Nodup := by rw [← final]; exact finalPerm.nodup_iff.mpr hnd
    have inx : ∀ x, x ∉ slice s.ids a n → s5.inext x = s.inext x := by
      intro x hx
      have hx' : x ∉ slice ids' a n := fun h => hx (hsp.mem_iff.mp h)
      rw [hsplit, List.mem_append, not_or] at hx'
      rw [fr5.inext x hx'.2, fr4.inext x hx'.1, r5]
    have order : ∀ x ∈ l1, ∀ y ∈ l2, coord (kdiv c) x ≤ coord (kdiv c) y := by
      intro x hx y hy
      obtain ⟨i, i1, i2, rfl⟩ := mem_slice.mp (per4.mem_iff.mp hx)
      obtain ⟨j, j1, j2, rfl⟩ := mem_slice.mp (per5.mem_iff.mp hy)
      refine (hlow i (by omega) (by omega)).trans ?_
      by_cases e : j = a + n/2
      · rw [e]; exact hkv.ge
      · exact hhigh j (by omega) (by omega)
    -- the joined state
    have hjoin : ∃ s6 : Build,
        joinChildren s5 c c1 c2 = some s6 ∧
        s6.N = s5.N ∧ s6.ilast = s5.ilast ∧ s6.ids = s5.ids ∧
        s6.ifirst = Function.update s5.ifirst c (l1 ++ l2).head? ∧
        Chained s6.inext (l1 ++ l2) ∧
        (∀ x, (x ∉ l1 ∨ x ∈ l1.dropLast) → s6.inext x = s5.inext x) := by
      unfold joinChildren
      by_cases h0 : 0 < n/2
      · have l1ne : l1 ≠ [] := by intro h; rw [h] at len1; simp at len1; omega
        obtain ⟨x, hx⟩ : ∃ x, l1.getLast? = some x := ⟨_, List.getLast?_eq_getLast_of_ne_nil l1ne⟩
        have hxmem : x ∈ l1 := List.mem_of_getLast? hx
        have nd1' : l1.Nodup := (List.nodup_append.mp finalNd).1
        have hxd : x ∉ l1.dropLast := by
          have hz : l1 = l1.dropLast ++ [x] := by
            have := (List.dropLast_append_getLast l1ne).symm
            have hg : l1.getLast l1ne = x := by
              rw [List.getLast?_eq_getLast_of_ne_nil l1ne] at hx; exact Option.some.inj hx
            rwa [hg] at this
          intro hm
          rw [hz] at nd1'
          exact (List.nodup_append.mp nd1').2.2 x hm x (by simp) rfl
        rw [u1, len1, if_pos h0, u3, hx]
        refine ⟨_, rfl, rfl, rfl, rfl, ?_, ?_, ?_⟩
        · simp only [u2]
          congr 1
          rw [List.head?_append]
          cases hh : l1.head? with
          | none => exact absurd (List.head?_eq_none_iff.mp hh) l1ne
          | some z => rfl
        · rw [Chained, List.isChain_append]
          refine ⟨Chained.congr u4 ?_, Chained.congr w4 ?_, ?_⟩
          · intro y hy
            show Function.update s5.inext x (s5.ifirst c2) y = _
            rw [Function.update_of_ne]; rintro rfl; exact hxd hy
          · intro y hy
            show Function.update s5.inext x (s5.ifirst c2) y = _
            rw [Function.update_of_ne]; rintro rfl
            exact (List.nodup_append.mp finalNd).2.2 y hxmem y (List.dropLast_subset _ hy) rfl
          · intro y hy z hz
            rw [hx] at hy
            simp only [Option.mem_def, Option.some.injEq] at hy
            subst hy
            show Function.update s5.inext x (s5.ifirst c2) x = _
            rw [Function.update_self, w2]; exact hz
        · intro y hy
          show Function.update s5.inext x (s5.ifirst c2) y = _
          rw [Function.update_of_ne]; rintro rfl
          rcases hy with h | h
          · exact h hxmem
          · exact hxd h
      · have l1e : l1 = [] := by
          rw [← List.length_eq_zero_iff, len1]; omega
        rw [u1, len1, if_neg h0]
        refine ⟨_, rfl, rfl, rfl, rfl, ?_, ?_, fun _ _ => rfl⟩
        · simp only [w2]; rw [l1e]; rfl
        · rw [l1e]; exact w4
    obtain ⟨s6, e6, N6, il6, id6, if6, ch6, in6⟩ := hjoin
    let s8 : Build := { s6 with
      ilast := Function.update s6.ilast c (s6.ilast c2)
      N := Function.update s6.N c (s6.N c1 + s6.N c2) }
    have s8N : s8.N c = n := by
      simp only [s8, Function.update_self, N6, u1, w1, len1, len2]; omega
    have lastapp : (l1 ++ l2).getLast? = l2.getLast? := by
      rw [List.getLast?_append]
      cases hh : l2.getLast? with
      | none => exact absurd (List.getLast?_eq_none_iff.mp hh) l2ne
      | some z => rfl
    have ownsub : ∀ (l : List ℕ) (c' g' : ℕ), c < c' → LaidOut t L d c' g' →
        Owns t coord kdiv s5 d c' l → (∀ x ∈ l.dropLast, x ∉ l1 ∨ x ∈ l1.dropLast) →
        Owns t coord kdiv s8 d c' l := by
      intro l c' g' hcc hlo' ho hd
      refine Owns.congr d c' g' l hlo' ho ?_ ?_
      · intro i h1 h2
        have hic : i ≠ c := by omega
        refine ⟨?_, ?_, ?_⟩
        · simp only [s8]; rw [Function.update_of_ne hic, N6]
        · simp only [s8]; rw [if6, Function.update_of_ne hic]
        · simp only [s8]; rw [Function.update_of_ne hic, il6]
      · intro x hx; exact in6 x (hd x hx)
    refine ⟨s8, ?_, ?_, ?_, ?_⟩
    · intro fuel hf
      obtain ⟨fuel, rfl⟩ : ∃ k, fuel = k + 1 := ⟨fuel - 1, by omega⟩
      have hlev : ¬ t.level c = L := by omega
      simp only [divide, if_neg hlev, f1, f2, b3, b4, hN, Option.bind_eq_bind]
      rw [hq, Option.bind_some]
      have E2 : setChild { s with ids := ids' } c1 (n / 2) a (a + n / 2 - 1) = s2 := rfl
      simp only [E2, p1, p2]
      have E3 : setChild s2 c2 (n - n / 2) (a + n / 2) (a + n - 1) = s3 := rfl
      simp only [E3, r1]
      rw [h4 fuel (by omega), Option.bind_some]
      have N4c : s4.N c = n := by rw [fr4.N _ (by omega), r1]
      simp only [N4c]
      rw [h5 fuel (by omega), Option.bind_some, e6, Option.bind_some]
      rw [if_neg]
      rintro ⟨_, hlast⟩
      simp only [Function.update_self, il6, w3] at hlast
      exact l2ne (List.getLast?_eq_none_iff.mp hlast)
    · have ids8 : s8.ids = s5.ids := id6
      rw [ids8, final]
      refine ⟨by rw [s8N]; simp [len1, len2]; omega, ?_, ?_, ?_, c1, c2, l1, l2, b3, b4, rfl, ?_,
        l2ne, order, ?_, ?_⟩
      · simp only [s8]; rw [if6]; simp
      · simp only [s8, Function.update_self, il6, w3, lastapp]
      · exact ch6
      · rw [List.length_append, len1, len2]; congr 1; omega
      · refine ownsub l1 c1 g (by omega) b6 o4' ?_
        intro x hx; exact Or.inr hx
      · refine ownsub l2 c2 (g + 2^d) (by omega) b7 o5 ?_
        intro x hx
        left
        intro hx1
        exact (List.nodup_append.mp finalNd).2.2 x hx1 x (List.dropLast_subset _ hx) rfl
    · have ids8 : s8.ids = s5.ids := id6
      rw [ids8]; exact finalPerm
    · constructor
      · intro i hi
        simp only [s8]
        rw [Function.update_of_ne (by omega), N6, fr5.N i (by omega), fr4.N i (by omega)]
        exact (r6 i (by omega) (by omega)).1
      · intro i hi
        simp only [s8]
        rw [if6, Function.update_of_ne (by omega), fr5.ifirst i (by omega), fr4.ifirst i (by omega)]
        exact (r6 i (by omega) (by omega)).2.1
      · intro i hi
        simp only [s8]
        rw [Function.update_of_ne (by omega), il6, fr5.ilast i (by omega), fr4.ilast i (by omega)]
        exact (r6 i (by omega) (by omega)).2.2
      · intro i hi
        simp only [s8]
        rw [id6, fr5.ids i (by omega), fr4.ids i (by omega), r4]
        exact hperm.outside (by omega)
      · intro x hx
        simp only [s8]
        have hxf : x ∉ slice s5.ids a n := fun h => hx (finalPerm.mem_iff.mp h)
        rw [in6 x, inx x hx]
        left
        intro h; rw [final] at hxf; exact hxf (List.mem_append_left _ h)

/-! ### From the recursive description to leaves -/

theorem leaves_cons_ne {c : ℕ} {f rest : Forest} (hf : f ≠ .nil) :
    (Forest.cons c f rest).leaves = f.leaves ++ rest.leaves := by
  cases f with
  | nil => exact absurd rfl hf
  | cons => rfl

theorem fullTree_ne_nil (d c : ℕ) (rest : Forest) : fullTree d c rest ≠ .nil := by
  cases d <;> simp [fullTree]

theorem fullTree_leaves_rest : ∀ (d c : ℕ) (rest : Forest),
    (fullTree d c rest).leaves = (fullTree d c .nil).leaves ++ rest.leaves := by
  intro d c rest
  cases d with
  | zero => simp [fullTree, Forest.leaves]
  | succ d =>
    simp only [fullTree]
    rw [leaves_cons_ne (fullTree_ne_nil _ _ _), leaves_cons_ne (fullTree_ne_nil _ _ _)]
    simp [Forest.leaves]

theorem fullTree_leaves_succ (d c : ℕ) : (fullTree (d+1) c .nil).leaves =
    (fullTree d (c+1) .nil).leaves ++ (fullTree d (c + 1 + fullSize d) .nil).leaves := by
  simp only [fullTree]
  rw [leaves_cons_ne (fullTree_ne_nil _ _ _), fullTree_leaves_rest]
  simp [Forest.leaves]

/-- the particles found by walking the list of cell `c` (at most `N c` steps) -/
def cellList (s : Build) (c : ℕ) : Option (List ℕ) :=
  traverse s.inext (s.ilast c) (s.N c) (s.ifirst c)

theorem Owns.cellList_eq [LE α] {t : Links} {coord : κ → ℕ → α} {kdiv : ℕ → κ} {s : Build}
    {d c : ℕ} {l : List ℕ} (h : Owns t coord kdiv s d c l) (hn : l.Nodup) :
    cellList s c = some l := by
  obtain ⟨h1, h2, h3, h4⟩ := h.basic
  rw [cellList, h1, h2, h3]
  exact traverse_chained l _ h4 hn le_rfl

theorem Owns.leaves [LE α] {t : Links} {L : ℕ} {coord : κ → ℕ → α} {kdiv : ℕ → κ} {s : Build}
    {M : ℕ} : ∀ (d c g : ℕ) (l : List ℕ), LaidOut t L d c g → Owns t coord kdiv s d c l → l.Nodup →
    l.length ≤ M * 2 ^ d →
    (fullTree d c .nil).leaves.flatMap (fun i => (cellList s i).getD []) = l ∧
    ∀ i ∈ (fullTree d c .nil).leaves, s.N i ≤ M ∧ ∃ li, cellList s i = some li ∧
      s.N i = li.length := by
  intro d
  induction d with
  | zero =>
    intro c g l hlo ho hn hM
    have := ho.cellList_eq hn
    have hb := ho.basic
    simp only [fullTree, Forest.leaves, List.flatMap_cons, List.flatMap_nil, List.append_nil, this,
      Option.getD_some, List.mem_singleton, forall_eq, true_and]
    exact ⟨by rw [hb.1]; simpa using hM, l, rfl, hb.1⟩
  | succ d ih =>
    intro c g l hlo ho hn hM
    obtain ⟨a1, a2, a3, a4, c1, c2, l1, l2, q1, q2, rfl, q4, q5, q6, q7, q8⟩ := ho
    obtain ⟨b1, b2, b3, b4, b5, b6, b7⟩ := hlo
    rw [q1] at b3; rw [q2] at b4
    obtain rfl := Option.some.inj b3
    obtain rfl := Option.some.inj b4
    have hp : M * 2 ^ (d+1) = M * 2 ^ d + M * 2 ^ d := by ring
    rw [List.length_append] at hM q4
    obtain ⟨n1, n2, _⟩ := List.nodup_append.mp hn
    obtain ⟨e1, e2⟩ := ih _ _ l1 b6 q7 n1 (by omega)
    obtain ⟨e3, e4⟩ := ih _ _ l2 b7 q8 n2 (by omega)
    rw [fullTree_leaves_succ, List.flatMap_append, e1, e3]
    refine ⟨rfl, ?_⟩
    intro i hi
    rcases List.mem_append.mp hi with h | h
    · exact e2 i h
    · exact e4 i h

theorem Owns.internal [LE α] {t : Links} {L : ℕ} {coord : κ → ℕ → α} {kdiv : ℕ → κ} {s : Build} :
    ∀ (d c g : ℕ) (l : List ℕ), LaidOut t L d c g → Owns t coord kdiv s d c l → l.Nodup →
    ∀ i, c ≤ i → i < c + fullSize d → t.level i ≠ L →
      ∃ c1 c2 l1 l2, t.c1 i = some c1 ∧ t.c2 i = some c2 ∧ cellList s i = some (l1 ++ l2) ∧
        cellList s c1 = some l1 ∧ cellList s c2 = some l2 ∧ s.N i = s.N c1 + s.N c2 ∧
        s.N c1 = s.N i / 2 ∧ 1 ≤ s.N i ∧
        (∀ x ∈ l1, ∀ y ∈ l2, coord (kdiv i) x ≤ coord (kdiv i) y) := by
  intro d
  induction d with
  | zero =>
    intro c g l hlo ho hn i h1 h2 h3
    rw [fullSize_zero] at h2
    obtain rfl : i = c := by omega
    exact absurd hlo.1 h3
  | succ d ih =>
    intro c g l hlo ho hn i h1 h2 h3
    have hfs := fullSize_succ d
    have hown := ho
    obtain ⟨a1, a2, a3, a4, c1, c2, l1, l2, q1, q2, rfl, q4, q5, q6, q7, q8⟩ := ho
    obtain ⟨b1, b2, b3, b4, b5, b6, b7⟩ := hlo
    have b3' := b3; have b4' := b4
    rw [q1] at b3; rw [q2] at b4
    obtain rfl := Option.some.inj b3
    obtain rfl := Option.some.inj b4
    obtain ⟨n1, n2, _⟩ := List.nodup_append.mp hn
    by_cases e : i = c
    · subst e
      have hl2 : 0 < l2.length := List.length_pos_iff.mpr q5
      refine ⟨_, _, l1, l2, q1, q2, hown.cellList_eq hn, q7.cellList_eq n1, q8.cellList_eq n2, ?_,
        ?_, ?_, q6⟩
      · rw [a1, q7.basic.1, q8.basic.1, List.length_append]
      · rw [a1, q7.basic.1, q4]
      · rw [a1, List.length_append]; omega
    · by_cases e2 : i < c + 1 + fullSize d
      · exact ih _ _ l1 b6 q7 n1 i (by omega) e2 h3
      · exact ih _ _ l2 b7 q8 n2 i (by omega) (by omega) h3

theorem buildTree_spec [LinearOrder α] (t : Links) (L : ℕ) (coord : κ → ℕ → α) (kdiv : ℕ → κ)
    (dead : ℕ → Bool) (first n : ℕ) (ids : ℕ → ℕ) (inext : ℕ → Option ℕ) (hlo : LaidOut t L L 0 0)
    (hn : 0 < n) (hmin : 0 < L → 2 ^ (L - 1) ≤ n)
    (hlive : ∀ i, first ≤ i → i < first + n → dead i = false) :
    ∃ s l, buildTree t L coord kdiv dead first n ids inext = some s ∧
      Owns t coord kdiv s L 0 l ∧ l.Perm (List.range' first n) ∧
      l = (List.range' first n).map s.ids ∧
      (∀ i, i < first ∨ first + n ≤ i → s.ids i = ids i ∧ s.inext i = inext i) := by
  have hsl : slice (fun i => if first ≤ i ∧ i < first + n then i else ids i) first n =
      List.range' first n := by
    conv_rhs => rw [← List.map_id (List.range' first n)]
    apply List.map_congr_left
    intro i hi
    rw [List.mem_range'_1] at hi
    simp [hi]
  obtain ⟨s', h1, h2, h3, h4⟩ := divide_spec t L coord kdiv dead L 0 0 first n
    { N := Function.update (fun _ => 0) 0 n
      ifirst := Function.update (fun _ => none) 0 (some first)
      ilast := Function.update (fun _ => none) 0 (some (first + n - 1))
      ids := fun i => if first ≤ i ∧ i < first + n then i else ids i
      inext := initNext first n inext } hlo (by simp) (by simp) hmin
    (by rw [hsl]; exact List.nodup_range')
    (by rw [hsl]; intro x hx; rw [List.mem_range'_1] at hx; exact hlive x hx.1 hx.2)
  rw [hsl] at h3 h4
  refine ⟨s', _, ?_, h2, h3, rfl, ?_⟩
  · simp only [buildTree, if_pos hn]; exact h1 (L+1) le_rfl
  · intro i hi
    refine ⟨?_, ?_⟩
    · rw [h4.ids i hi]; simp only []; rw [if_neg (by omega)]
    · rw [h4.inext i (by rw [List.mem_range'_1]; omega)]
      simp only [initNext]
      rw [if_neg (by omega), if_neg (by omega)]

end Gandalf.KD
