import Verif.Model.OctStock
import Verif.Proof.KDStock
import Verif.Proof.OctNodes

/-! Stocking of the oct-tree. -/

set_option autoImplicit false
set_option linter.unusedSectionVars false

namespace Gandalf.Oct
open KD

variable {n : ℕ}

theorem partial_octZero (cfg : Cfg) (P : Parts n) (c : Props n) : Partial cfg P [] (zero cfg c) := by
  constructor <;> simp [zero, zeroProps, gsum_nil]

theorem setExtent_pos (cfg : Cfg) (c : Props n) (h : c.N > 0) : setExtent cfg c = extent cfg c := by
  simp only [setExtent, extent]; rw [if_pos h]

theorem normalise_N (c : Props n) : (normalise c).N = c.N := by
  unfold normalise; split_ifs <;> rfl

theorem leafProps_summary (cfg : Cfg) (P : Parts n) (l : List ℕ) (c : Props n) (hl : ∀ i ∈ l, P.dead i = false)
    (hm : l ≠ [] → 0 < gsum P l P.m) : Summary cfg P l (leafProps cfg P l c) := by
  have hp := partial_foldl cfg P l [] (zero cfg c) hl (partial_octZero cfg P c)
  rw [List.nil_append] at hp
  have := leafFinish_summary cfg P l _ hl hp
  unfold leafProps
  set c1 := l.foldl (leafBody cfg P) (zero cfg c) with hc1
  have e : (if c1.m > 0 then extent cfg (normalise c1) else c1) = setExtent cfg (normalise c1) := by
    by_cases h : l = []
    · have h1 : ¬ c1.m > 0 := by rw [hp.m, h, gsum_nil]; exact lt_irrefl _
      have h2 : ¬ (c1.N > 0) := by rw [hp.N, h]; simp
      rw [if_neg h1]
      unfold normalise setExtent
      rw [if_neg h1, if_neg h2]
    · have h1 : c1.m > 0 := by rw [hp.m]; exact hm h
      have h2 : c1.N > 0 := by rw [hp.N]; exact List.length_pos_iff.mpr h
      rw [if_pos h1, setExtent_pos]
      rw [normalise_N]; exact h2
  simp only [e]
  exact this

/-- the leaves do count their active particles -/
theorem leafProps_Nactive (cfg : Cfg) (P : Parts n) (l : List ℕ) (c : Props n) (hl : ∀ i ∈ l, P.dead i = false) :
    (leafProps cfg P l c).Nactive = (l.filter P.active).length := by
  have hp := (partial_foldl { cfg with oct := false } P l [] (zero cfg c) hl
    (partial_octZero { cfg with oct := false } P c)).Nactive rfl
  rw [List.nil_append] at hp
  have e : ∀ (l : List ℕ) (c : Props n), l.foldl (leafBody { cfg with oct := false } P) c = l.foldl (leafBody cfg P) c :=
    fun l c => rfl
  rw [e] at hp
  unfold leafProps
  set c1 := l.foldl (leafBody cfg P) (zero cfg c) with hc1
  have h2 : (if c1.m > 0 then extent cfg (normalise c1) else c1).Nactive = c1.Nactive := by
    split_ifs with h
    · simp only [extent, normalise, if_pos h]
    · rfl
  simp only []
  generalize (if c1.m > 0 then extent cfg (normalise c1) else c1) = c2 at h2
  by_cases hq : cfg.needQuad = true
  · rw [if_pos hq, quadBody_foldl P l _ hl]
    exact h2.trans hp
  · rw [if_neg hq]
    exact h2.trans hp

theorem add_partial (cfg : Cfg) (ho : cfg.oct = true) (P : Parts n) (l l' : List ℕ) (c ch : Props n)
    (hm : ∀ i ∈ l', 0 ≤ P.m i) (h : Partial cfg P l c) (hs : Summary cfg P l' ch) :
    Partial cfg P (l ++ l') (add cfg c ch) := by
  unfold add
  by_cases hN : ch.N > 0
  · rw [if_pos hN]
    have hb : Boxes cfg P l c := ⟨h.bb, h.bbminTight, h.bbmaxTight, h.hbox, h.hminTight, h.hmxTight, h.vbox, h.hmax,
      h.hmaxTight, h.hmaxNonneg, h.maxsound, h.amin, h.macfactor⟩
    have hB := addChild_boxes cfg P l l' ch c hb hs
    have hr : ∀ (a : Vec n ℝ) (x : ℕ → Vec n ℝ), (0 < ch.m → ∀ k, ch.m * a k = gsum P l' fun i => P.m i * x i k) →
        ∀ k, ch.m * a k = gsum P l' fun i => P.m i * x i k := by
      intro a x hax k
      rcases lt_or_ge 0 ch.m with hp | hp
      · exact hax hp k
      · have h0 : ch.m = 0 := le_antisymm hp (by rw [hs.m]; exact gsum_nonneg P hm)
        rw [h0, zero_mul, gsum_zero_of_mass_zero P hm (by rw [← hs.m]; exact h0)]
        intro i hi; rw [hi, zero_mul]
    constructor
    · rw [List.length_append, ← h.N, ← hs.N]
    · intro h'; rw [ho] at h'; exact absurd h' (by simp)
    · simp only [gsum_append, ← h.m, ← hs.m]
    · intro k; simp only [gsum_append, ← h.r, hr ch.r P.r hs.com k]
    · intro k; simp only [gsum_append, ← h.v, hr ch.v P.v hs.mom k]
    · exact hB.bb
    · exact hB.bbminTight
    · exact hB.bbmaxTight
    · exact hB.hbox
    · exact hB.hminTight
    · exact hB.hmxTight
    · exact hB.vbox
    · exact hB.hmax
    · exact hB.hmaxTight
    · exact hB.hmaxNonneg
    · exact hB.maxsound
    · exact hB.amin
    · exact hB.macfactor
    · simp only [addChild, if_pos hN]; exact h.rmax
    · simp only [addChild, if_pos hN]; exact h.q
  · rw [if_neg hN]
    have hl0 : l' = [] := by
      have := hs.N
      simp only [gt_iff_lt, not_lt, Nat.le_zero] at hN
      rw [hN] at this
      exact List.length_eq_zero_iff.mp this.symm
    rw [hl0, List.append_nil]
    exact h

theorem addQuad_eq (cfg : Cfg) (P : Parts n) (l : List ℕ) (c ch : Props n)
    (hq : cfg.needQuad = true) (hm : ∀ i ∈ l, 0 ≤ P.m i) (h : Summary cfg P l ch) :
    addQuad c ch = { c with
      q := fun k => c.q k + gsum P l fun i => quadTerm (P.m i) (fun k => P.r i k - c.r k) k } := by
  rcases lt_or_ge 0 ch.m with hp | hp
  · have hN : ch.N > 0 := by
      by_contra hno
      have : l = [] := List.length_eq_zero_iff.mp (by rw [← h.N]; omega)
      rw [h.m, this, gsum_nil] at hp
      exact lt_irrefl _ hp
    rw [← addChildQuad_eq cfg P l ch c hq hm h]
    unfold addQuad addChildQuad
    rw [if_pos hN, if_pos hp]
  · have h0 : ch.m = 0 := le_antisymm hp (by rw [h.m]; exact gsum_nonneg P hm)
    have hz : ∀ (R : Vec n ℝ) k, gsum P l (fun i => quadTerm (P.m i) (fun k => P.r i k - R k) k) = 0 := by
      intro R k
      refine gsum_zero_of_mass_zero P hm (by rw [← h.m]; exact h0) ?_
      intro i hi; rw [hi, quadTerm_zero_mass]
    simp only [hz, add_zero]
    unfold addQuad
    split_ifs with hN
    · congr 1
      funext k
      rw [h0, quadTerm_zero_mass, add_zero, h.quad hq k, hz]
      simp
    · rfl

/-- the children of a node, one after the other -/
theorem fold_add (cfg : Cfg) (ho : cfg.oct = true) (P : Parts n) (cell : ℕ → Props n) (liv : ℕ → List ℕ) :
    ∀ (g : Forest), (∀ d h, g.Root d h → Summary cfg P ((Forest.cons d h .nil).leaves.flatMap liv) (cell d)) →
    (∀ c ∈ g.leaves, ∀ i ∈ liv c, 0 ≤ P.m i) → ∀ (p : List ℕ) (a : Props n), Partial cfg P p a →
    Partial cfg P (p ++ g.leaves.flatMap liv) ((g.tops.map cell).foldl (add cfg) a) := by
  intro g
  induction g with
  | nil => intro _ _ p a h; simpa [Forest.leaves, Forest.tops] using h
  | cons c ch rest _ ih =>
    intro H hm p a h
    rw [Forest.leaves_cons] at hm ⊢
    rw [List.flatMap_append, ← List.append_assoc]
    have := ih (fun d h hd => H d h (Or.inr hd)) (fun d hd => hm d (List.mem_append_right _ hd)) _ _
      (add_partial cfg ho P p _ a (cell c) (fun i hi => by
        obtain ⟨d, hd, hi⟩ := List.mem_flatMap.mp hi
        exact hm d (List.mem_append_left _ hd) i hi) h (H c ch (Or.inl ⟨rfl, rfl⟩)))
    exact this

theorem fold_quad (cfg : Cfg) (P : Parts n) (hq : cfg.needQuad = true) (cell : ℕ → Props n) (liv : ℕ → List ℕ) :
    ∀ (g : Forest), (∀ d h, g.Root d h → Summary cfg P ((Forest.cons d h .nil).leaves.flatMap liv) (cell d)) →
    (∀ c ∈ g.leaves, ∀ i ∈ liv c, 0 ≤ P.m i) → ∀ (a : Props n),
    (g.tops.map cell).foldl addQuad a = { a with
      q := fun k => a.q k + gsum P (g.leaves.flatMap liv) fun i => quadTerm (P.m i) (fun k => P.r i k - a.r k) k } := by
  intro g
  induction g with
  | nil => intro _ _ a; simp [Forest.leaves, Forest.tops, gsum_nil]
  | cons c ch rest _ ih =>
    intro H hm a
    rw [Forest.leaves_cons] at hm ⊢
    rw [List.flatMap_append]
    have e : ((Forest.cons c ch rest).tops.map cell).foldl addQuad a =
      (rest.tops.map cell).foldl addQuad (addQuad a (cell c)) := rfl
    rw [e, ih (fun d h hd => H d h (Or.inr hd)) (fun d hd => hm d (List.mem_append_right _ hd)),
      addQuad_eq cfg P _ a (cell c) hq (fun i hi => by
        obtain ⟨d, hd, hi⟩ := List.mem_flatMap.mp hi
        exact hm d (List.mem_append_left _ hd) i hi) (H c ch (Or.inl ⟨rfl, rfl⟩))]
    simp only [gsum_append, add_assoc]

theorem extent_summary (cfg : Cfg) (P : Parts n) (l : List ℕ) (a : Props n) (hl : ∀ i ∈ l, P.dead i = false)
    (h : Partial cfg P l a) : Summary { cfg with needQuad := false } P l (extent cfg (normalise a)) := by
  have h' : Partial { cfg with needQuad := false } P l a := ⟨h.N, h.Nactive, h.m, h.r, h.v, h.bb, h.bbminTight,
    h.bbmaxTight, h.hbox, h.hminTight, h.hmxTight, h.vbox, h.hmax, h.hmaxTight, h.hmaxNonneg, h.maxsound, h.amin,
    h.macfactor, h.rmax, h.q⟩
  by_cases h0 : l = []
  · subst h0
    have hm : ¬ a.m > 0 := by rw [h.m, gsum_nil]; exact lt_irrefl _
    have e : normalise a = a := by unfold normalise; rw [if_neg hm]
    rw [e]
    have hN : a.N = 0 := by rw [h.N]; rfl
    constructor
    · exact h.N
    · exact h.Nactive
    · exact h.m
    · intro h1; exact absurd h1 hm
    · intro h1; exact absurd h1 hm
    · exact h.bb
    · exact h.bbminTight
    · exact h.bbmaxTight
    · exact h.hbox
    · exact h.hminTight
    · exact h.hmxTight
    · exact h.vbox
    · exact h.hmax
    · exact h.hmaxTight
    · exact h.hmaxNonneg
    · exact h.maxsound
    · exact h.amin
    · exact h.macfactor
    · intro h1; exact absurd hN h1
    · exact Real.sqrt_nonneg _
    · simp
    · intro h1; exact absurd hN h1
    · intro h1; exact absurd hN h1
    · simp
  · have hf := leafFinish_summary { cfg with needQuad := false } P l a hl h'
    have hN : (normalise a).N > 0 := by rw [normalise_N, h.N]; exact List.length_pos_iff.mpr h0
    simp only [Bool.false_eq_true, if_false] at hf
    rw [setExtent_pos _ _ hN] at hf
    exact hf

theorem innerProps_summary (cfg : Cfg) (ho : cfg.oct = true) (P : Parts n) (cell : ℕ → Props n) (liv : ℕ → List ℕ)
    (c : Props n) (g : Forest)
    (H : ∀ d h, g.Root d h → Summary cfg P ((Forest.cons d h .nil).leaves.flatMap liv) (cell d))
    (hm : ∀ c ∈ g.leaves, ∀ i ∈ liv c, 0 ≤ P.m i) (hl : ∀ c ∈ g.leaves, ∀ i ∈ liv c, P.dead i = false) :
    Summary cfg P (g.leaves.flatMap liv) (innerProps cfg (g.tops.map cell) c) := by
  have hp := fold_add cfg ho P cell liv g H hm [] _ (partial_octZero cfg P c)
  rw [List.nil_append] at hp
  unfold innerProps
  set a := (g.tops.map cell).foldl (add cfg) (zero cfg c) with ha
  have b := extent_summary cfg P _ a (fun i hi => by
    obtain ⟨d, hd, hi⟩ := List.mem_flatMap.mp hi
    exact hl d hd i hi) hp
  have bq : (extent cfg (normalise a)).q = a.q := by
    unfold extent normalise; split_ifs <;> rfl
  simp only []
  by_cases hq : cfg.needQuad = true
  · rw [if_pos hq, fold_quad cfg P hq cell liv g H hm]
    exact ⟨b.N, b.Nactive, b.m, b.com, b.mom, b.bb, b.bbminTight, b.bbmaxTight, b.hbox,
      b.hminTight, b.hmxTight, b.vbox,
      b.hmax, b.hmaxTight, b.hmaxNonneg, b.maxsound, b.amin, b.macfactor, b.centre, b.rmaxNonneg, b.extent, b.size,
      b.cdist, fun _ k => by simp only [bq, hp.q k, zero_add]⟩
  · rw [if_neg hq]
    exact ⟨b.N, b.Nactive, b.m, b.com, b.mom, b.bb, b.bbminTight, b.bbmaxTight, b.hbox,
      b.hminTight, b.hmxTight, b.vbox,
      b.hmax, b.hmaxTight, b.hmaxNonneg, b.maxsound, b.amin, b.macfactor, b.centre, b.rmaxNonneg, b.extent, b.size,
      b.cdist, fun h => absurd h hq⟩

theorem kids_eq {L : Walk.Links} {nx : ℕ} : ∀ (g : Forest) (fuel : ℕ), g.Linked L nx → nx ∉ g.cells →
    g.tops.length ≤ fuel → kids L nx fuel (g.entry nx) = some g.tops := by
  intro g
  induction g with
  | nil => intro fuel _ _ _; cases fuel <;> simp [kids, Forest.entry, Forest.tops]
  | cons c ch rest _ ih =>
    intro fuel hL hn hf
    simp only [Forest.tops, List.length_cons] at hf
    obtain ⟨m, rfl⟩ : ∃ m, fuel = m + 1 := ⟨fuel - 1, by omega⟩
    simp only [Forest.cells, List.mem_cons, List.mem_append, not_or] at hn
    obtain ⟨l1, _, _, l4⟩ := hL
    have := ih m l4 hn.2.2 (by omega)
    have e : (Forest.cons c ch rest).entry nx = c := rfl
    rw [e, kids, if_neg (fun h => hn.1 h.symm), l1]
    simp only [this]
    rfl

/-- state of the stocking when the cells in `D` are done; `lst` are the lists before -/
structure StockInv (cfg : Cfg) (P : Parts n) (f : Forest) (lst : ℕ → List ℕ) (D : List ℕ) (s : TState n) : Prop where
  done : ∀ c g, f.Node c g → c ∈ D →
    Summary cfg P ((Forest.cons c g .nil).leaves.flatMap fun c => (lst c).filter fun i => !P.dead i) (s.cell c)
  leafDone : ∀ c ∈ f.leaves, c ∈ D → s.ifirst c = ((lst c).filter fun i => !P.dead i).head? ∧
    s.ilast c = ((lst c).filter fun i => !P.dead i).getLast? ∧
    LeafList.Chained s.inext ((lst c).filter fun i => !P.dead i) ∧
    (s.cell c).Nactive = (((lst c).filter fun i => !P.dead i).filter P.active).length
  leafTodo : ∀ c ∈ f.leaves, c ∉ D → s.ifirst c = (lst c).head? ∧ s.ilast c = (lst c).getLast? ∧
    LeafList.Chained s.inext (lst c)

theorem stockCell_inv {cfg : Cfg} (ho : cfg.oct = true) {P : Parts n} {L : Walk.Links} {f : Forest}
    {lst : ℕ → List ℕ} {Nend : ℕ} (hL : f.Linked L Nend) (hn : f.cells.Nodup) (hend : Nend ∉ f.cells)
    (hnl : (f.leaves.flatMap lst).Nodup) (hm : ∀ c ∈ f.leaves, ∀ i ∈ lst c, 0 ≤ P.m i)
    (hmass : ∀ c ∈ f.leaves, (∃ i ∈ lst c, P.dead i = false) → ∃ i ∈ lst c, P.dead i = false ∧ P.grav i = true ∧ 0 < P.m i)
    {pfuel kfuel : ℕ} (hpf : ∀ c ∈ f.leaves, (lst c).length ≤ pfuel) (hkf : f.cells.length ≤ kfuel)
    {D : List ℕ} {s : TState n} (h : StockInv cfg P f lst D s) {c : ℕ} {g : Forest} (hc : f.Node c g) (hcD : c ∉ D)
    (hkids : ∀ d ∈ g.tops, d ∈ D) :
    ∃ s', stockCell cfg P L true pfuel kfuel s c = some s' ∧ StockInv cfg P f lst (D ++ [c]) s' := by
  obtain ⟨nx, l1, l2, l3, l4⟩ := Forest.Node.linked hL hn hend hc
  cases g with
  | nil =>
    have hcl : c ∈ f.leaves := Forest.mem_leaves.mpr hc
    obtain ⟨t1, t2, t3⟩ := h.leafTodo c hcl hcD
    have hnd : (lst c).Nodup := by
      rw [List.nodup_flatMap] at hnl
      exact hnl.1 c hcl
    obtain ⟨r, r1, r2, r3, r4, r5⟩ := LeafList.compact_chained P.dead s.inext (lst c) pfuel (hpf c hcl) hnd t3
    have hdis : ∀ d ∈ f.leaves, d ≠ c → ∀ x ∈ lst d, x ∉ lst c := by
      intro d hd hne x hx1 hx2
      rw [List.nodup_flatMap] at hnl
      have hp := List.pairwise_iff_getElem.mp hnl.2
      obtain ⟨i, hi, rfl⟩ := List.mem_iff_getElem.mp hd
      obtain ⟨j, hj, rfl⟩ := List.mem_iff_getElem.mp hcl
      rcases lt_trichotomy i j with hij | hij | hij
      · exact hp i j hi hj hij hx1 hx2
      · subst hij; exact hne rfl
      · exact hp j i hj hi hij hx2 hx1
    set l := (lst c).filter fun i => !P.dead i with hl
    have htr : LeafList.traverse r.inext r.iaux pfuel r.ifirst = some l := by
      rw [← r3, ← r4]
      exact LeafList.traverse_chained l pfuel r2 (hnd.filter _) ((List.length_filter_le _ _).trans (hpf c hcl))
    have hdead : ∀ i ∈ l, P.dead i = false := by
      intro i hi
      rw [hl, List.mem_filter] at hi
      simpa using hi.2
    have hst : stockCell cfg P L true pfuel kfuel s c = some
        { inext := r.inext
          ifirst := Function.update s.ifirst c r.ifirst
          ilast := Function.update s.ilast c r.iaux
          cell := Function.update s.cell c (leafProps cfg P l (s.cell c)) } := by
      unfold stockCell
      rw [l4]
      simp only [if_true, t1, t2, r1, htr]
    refine ⟨_, hst, ?_⟩
    constructor
    · intro d g' hd hdD
      by_cases e : d = c
      · subst e
        obtain rfl := Forest.Node.unique hn hd hc
        simp only [Function.update_self, Forest.leaves, List.flatMap_cons, List.flatMap_nil, List.append_nil]
        refine leafProps_summary cfg P l _ hdead fun hne => ?_
        obtain ⟨i, hi⟩ := List.exists_mem_of_ne_nil l hne
        obtain ⟨j, j1, j2, j3, j4⟩ := hmass d hcl ⟨i, (List.mem_filter.mp hi).1, hdead i hi⟩
        have hj : j ∈ l := by rw [hl, List.mem_filter]; exact ⟨j1, by simp [j2]⟩
        unfold gsum
        have hmem : P.m j ∈ (l.filter P.grav).map P.m := List.mem_map.mpr ⟨j, List.mem_filter.mpr ⟨hj, j3⟩, rfl⟩
        refine lt_of_lt_of_le j4 (List.single_le_sum (fun x hx => ?_) _ hmem)
        obtain ⟨y, hy, rfl⟩ := List.mem_map.mp hx
        exact hm d hcl y (List.mem_filter.mp (List.mem_filter.mp hy).1).1
      · simp only [Function.update_of_ne e]
        refine h.done d g' hd ?_
        simpa [e] using hdD
    · intro d hd hdD
      by_cases e : d = c
      · subst e
        simp only [Function.update_self]
        exact ⟨r3.symm, r4.symm, r2, leafProps_Nactive cfg P l _ hdead⟩
      · simp only [Function.update_of_ne e]
        obtain ⟨a1, a2, a3, a4⟩ := h.leafDone d hd (by simpa [e] using hdD)
        refine ⟨a1, a2, LeafList.Chained.congr a3 fun x hx => r5 x ?_, a4⟩
        exact hdis d hd e x (List.mem_filter.mp (List.mem_of_mem_dropLast hx)).1
    · intro d hd hdD
      simp only [List.mem_append, List.mem_singleton, not_or] at hdD
      simp only [Function.update_of_ne hdD.2]
      obtain ⟨a1, a2, a3⟩ := h.leafTodo d hd hdD.1
      exact ⟨a1, a2, LeafList.Chained.congr a3 fun x hx => r5 x (hdis d hd hdD.2 x (List.mem_of_mem_dropLast hx))⟩
  | cons c1 ch1 rest1 =>
    have hk := kids_eq (Forest.cons c1 ch1 rest1) kfuel l2 l3
      ((Forest.tops_length _).trans ((Forest.Node.cells_le hc).trans hkf))
    have hst : stockCell cfg P L true pfuel kfuel s c = some { s with
        cell := Function.update s.cell c
          (innerProps cfg ((Forest.cons c1 ch1 rest1).tops.map s.cell) (s.cell c)) } := by
      unfold stockCell
      rw [l4]
      have e : (Forest.cons c1 ch1 rest1).entry nx = c1 := rfl
      rw [e] at hk
      simp only [l1, hk]
    have hcl : c ∉ f.leaves := by
      rw [Forest.mem_leaves]
      intro h'
      have := Forest.Node.unique hn hc h'
      simp at this
    have hsub : ∀ d ∈ (Forest.cons c1 ch1 rest1).leaves, d ∈ f.leaves := by
      intro d hd
      rw [Forest.mem_leaves] at hd ⊢
      exact hc.trans hd
    refine ⟨_, hst, ?_⟩
    constructor
    · intro d g' hd hdD
      by_cases e : d = c
      · subst e
        obtain rfl := Forest.Node.unique hn hd hc
        simp only [Function.update_self]
        rw [Forest.leaves_inner d (by simp)]
        refine innerProps_summary cfg ho P s.cell _ _ _ (fun x y hxy => ?_) (fun x hx i hi => ?_) (fun x hx i hi => ?_)
        · exact h.done x y (hc.trans hxy.node) (hkids x (Forest.mem_tops.mpr ⟨y, hxy⟩))
        · exact hm x (hsub x hx) i (List.mem_filter.mp hi).1
        · simpa using (List.mem_filter.mp hi).2
      · simp only [Function.update_of_ne e]
        refine h.done d g' hd ?_
        simpa [e] using hdD
    · intro d hd hdD
      have e : d ≠ c := fun e => hcl (e ▸ hd)
      simp only [Function.update_of_ne e]
      exact h.leafDone d hd (by simpa [e] using hdD)
    · intro d hd hdD
      simp only [List.mem_append, List.mem_singleton, not_or] at hdD
      exact h.leafTodo d hd hdD.1

theorem stock_inv {cfg : Cfg} (ho : cfg.oct = true) {P : Parts n} {L : Walk.Links} {f : Forest}
    {lst : ℕ → List ℕ} {Nend : ℕ} (hL : f.Linked L Nend) (hn : f.cells.Nodup) (hend : Nend ∉ f.cells)
    (hnl : (f.leaves.flatMap lst).Nodup) (hm : ∀ c ∈ f.leaves, ∀ i ∈ lst c, 0 ≤ P.m i)
    (hmass : ∀ c ∈ f.leaves, (∃ i ∈ lst c, P.dead i = false) → ∃ i ∈ lst c, P.dead i = false ∧ P.grav i = true ∧ 0 < P.m i)
    {pfuel kfuel : ℕ} (hpf : ∀ c ∈ f.leaves, (lst c).length ≤ pfuel) (hkf : f.cells.length ≤ kfuel)
    {level : ℕ → ℕ} {l0 : ℕ} (hlev : f.Levels level l0) (O : List ℕ) (hO : O.Nodup)
    (hOm : ∀ c, c ∈ O ↔ c ∈ f.cells) (hOl : O.Pairwise fun a b => level b ≤ level a) :
    ∀ (cs D : List ℕ) (s : TState n), D ++ cs = O → StockInv cfg P f lst D s →
    ∃ s', stock cfg P L true pfuel kfuel cs s = some s' ∧ StockInv cfg P f lst O s' := by
  intro cs
  induction cs with
  | nil => intro D s hD h; rw [List.append_nil] at hD; subst hD; exact ⟨s, rfl, h⟩
  | cons c cs ih =>
    intro D s hD h
    have hcO : c ∈ f.cells := (hOm c).mp (by rw [← hD]; simp)
    obtain ⟨g, hg⟩ := Forest.mem_cells_iff.mp hcO
    rw [← hD] at hO hOl
    have hcD : c ∉ D := fun hm => (List.nodup_append.mp hO).2.2 c hm c (by simp) rfl
    obtain ⟨s1, e1, h1⟩ := stockCell_inv ho hL hn hend hnl hm hmass hpf hkf h hg hcD (by
      intro d hd
      obtain ⟨g', hg'⟩ := Forest.mem_tops.mp hd
      obtain ⟨l', hl1, hl2⟩ := Forest.Node.level hlev hg
      have hld := hg'.level hl2
      have hdO : d ∈ D ++ c :: cs := by rw [hD]; exact (hOm d).mpr (hg.trans hg'.node).mem
      rcases List.mem_append.mp hdO with hd' | hd'
      · exact hd'
      · exfalso
        rcases List.mem_cons.mp hd' with rfl | hd'
        · omega
        · have := (List.pairwise_append.mp hOl).2.1
          have := (List.pairwise_cons.mp this).1 d hd'
          omega)
    obtain ⟨s2, e2, h2⟩ := ih (D ++ [c]) s1 (by rw [← hD]; simp) h1
    refine ⟨s2, ?_, h2⟩
    rw [stock, e1]
    exact e2

theorem order_spec {ltot Ncell : ℕ} {firstCell lastCell level : ℕ → ℕ} (hlev : ∀ c < Ncell, level c ≤ ltot)
    (hr : ∀ L ≤ ltot, ∀ c, (firstCell L ≤ c ∧ c ≤ lastCell L ↔ c < Ncell ∧ level c = L)) :
    (order ltot firstCell lastCell).Nodup ∧ (∀ c, c ∈ order ltot firstCell lastCell ↔ c < Ncell) ∧
    (order ltot firstCell lastCell).Pairwise fun a b => level b ≤ level a := by
  have hmem : ∀ L ≤ ltot, ∀ c, c ∈ List.range' (firstCell L) (lastCell L + 1 - firstCell L) ↔
      c < Ncell ∧ level c = L := by
    intro L hL c
    rw [List.mem_range'_1, ← hr L hL c]
    omega
  have hrev : ∀ L, L ∈ (List.range (ltot + 1)).reverse ↔ L ≤ ltot := by
    intro L; rw [List.mem_reverse, List.mem_range]; omega
  have hpw : (List.range (ltot + 1)).reverse.Pairwise fun a b => b < a := by
    rw [List.pairwise_reverse]
    exact List.pairwise_lt_range
  refine ⟨?_, ?_, ?_⟩
  · unfold order
    rw [List.nodup_flatMap]
    refine ⟨fun L _ => List.nodup_range', ?_⟩
    refine List.Pairwise.imp_of_mem ?_ hpw
    intro a b ha hb hab x hx1 hx2
    have h1 := (hmem a ((hrev a).mp ha) x).mp hx1
    have h2 := (hmem b ((hrev b).mp hb) x).mp hx2
    omega
  · intro c
    unfold order
    rw [List.mem_flatMap]
    constructor
    · rintro ⟨L, hL, hc⟩
      exact ((hmem L ((hrev L).mp hL) c).mp hc).1
    · intro hc
      exact ⟨level c, (hrev _).mpr (hlev c hc), (hmem _ (hlev c hc) c).mpr ⟨hc, rfl⟩⟩
  · unfold order
    rw [List.pairwise_flatMap]
    refine ⟨fun L hL => ?_, ?_⟩
    · refine List.Pairwise.imp_of_mem (R := fun _ _ => True) ?_ (List.pairwise_of_forall (by simp))
      intro a b ha hb _
      rw [((hmem L ((hrev L).mp hL) a).mp ha).2, ((hmem L ((hrev L).mp hL) b).mp hb).2]
    · refine List.Pairwise.imp_of_mem ?_ hpw
      intro a b ha hb hab x hx y hy
      rw [((hmem a ((hrev a).mp ha) x).mp hx).2, ((hmem b ((hrev b).mp hb) y).mp hy).2]
      exact hab.le

end Gandalf.Oct
