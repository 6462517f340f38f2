import Verif.Proof.OctStock
import Verif.Prop.C59
import Verif.Prop.C07

/-! # C60: stocking the oct-tree, and the searches on it -/

set_option autoImplicit false
set_option linter.unusedSectionVars false

namespace Gandalf
open Oct KD

section
variable {n : ℕ}

/-- Stocking a finished oct-tree ends, takes the dead particles out of the lists, and leaves in every cell a correct
summary of the live particles beneath it: the tree then meets `Tree.OK`, on which the searches and walks
(C07, C08, C09, C15, C44, C58) rest. The leaves count their active particles. It needs a gravitating live particle
with mass in every leaf that has a live particle. -/
theorem C60_stock_partial {α : Type*} [Field α] [LinearOrder α] (cfg : Cfg) (ho : cfg.oct = true) (P : Parts n)
    (b : State n α) (f : Forest) (lst : ℕ → List ℕ) (l : List ℕ) (Nleafmax Ncellmax : ℕ) (hl : l.Nodup)
    (hb : Built Nleafmax Ncellmax l b f lst) (hm : ∀ i ∈ l, 0 ≤ P.m i)
    (hmass : ∀ c ∈ f.leaves, (∃ i ∈ lst c, P.dead i = false) →
      ∃ i ∈ lst c, P.dead i = false ∧ P.grav i = true ∧ 0 < P.m i)
    (pfuel kfuel : ℕ) (hpf : l.length ≤ pfuel) (hkf : b.Ncell ≤ kfuel) (cell : ℕ → Props n) (mac : ℕ → ℝ) :
    ∃ s', stock cfg P b.links true pfuel kfuel (order b.ltot b.firstCell b.lastCell)
        ⟨b.lists.inext, b.lists.ifirst, b.lists.ilast, cell⟩ = some s' ∧
      ∃ l', l'.Perm (l.filter fun i => !P.dead i) ∧
        (Oct.toTree b Ncellmax Nleafmax s' mac).OK cfg P pfuel f l' ∧
        ∀ c ∈ f.leaves, (s'.cell c).Nactive = (((lst c).filter fun i => !P.dead i).filter P.active).length := by
  have hn : f.cells.Nodup := hb.cells.nodup_iff.mpr List.nodup_range
  have hlen : f.cells.length = b.Ncell := by rw [hb.cells.length_eq, List.length_range]
  have hmemc : ∀ c, c ∈ f.cells ↔ c < b.Ncell := fun c => by rw [hb.cells.mem_iff, List.mem_range]
  have hend : Ncellmax ∉ f.cells := by
    rw [hmemc]; exact not_lt.mpr hb.fits
  have hnl : (f.leaves.flatMap lst).Nodup := hb.perm.nodup_iff.mpr hl
  have hsub : ∀ c ∈ f.leaves, ∀ i ∈ lst c, i ∈ l := fun c hc i hi =>
    hb.perm.mem_iff.mp (List.mem_flatMap.mpr ⟨c, hc, hi⟩)
  have hlc : ∀ c ∈ f.leaves, (lst c).length ≤ pfuel := by
    intro c hc
    refine le_trans (List.Nodup.subperm ?_ (hsub c hc)).length_le hpf
    exact (List.nodup_flatMap.mp hnl).1 c hc
  obtain ⟨o1, o2, o3⟩ := order_spec hb.deepest hb.ranges
  obtain ⟨s', e, h⟩ := stock_inv ho (L := b.links) (kfuel := kfuel) hb.linked hn hend hnl
    (fun c hc i hi => hm i (hsub c hc i hi)) hmass hlc (by omega) hb.levels _ o1
    (fun c => by rw [o2, hmemc]) o3 _ [] ⟨b.lists.inext, b.lists.ifirst, b.lists.ilast, cell⟩ rfl
    ⟨fun c g _ h => by simp at h, fun c _ h => by simp at h,
      fun c hc _ => ⟨(hb.lists c hc).1, (hb.lists c hc).2.1, (hb.lists c hc).2.2.1⟩⟩
  have hin : ∀ c ∈ f.cells, c ∈ order b.ltot b.firstCell b.lastCell := fun c hc => (o2 c).mpr ((hmemc c).mp hc)
  have hleafc : ∀ c ∈ f.leaves, c ∈ f.cells := fun c hc => (Forest.mem_leaves.mp hc).mem
  refine ⟨s', e, f.leaves.flatMap fun c => (lst c).filter fun i => !P.dead i, ?_, ?_, ?_⟩
  · have e1 : (f.leaves.flatMap fun c => (lst c).filter fun i => !P.dead i) =
        (f.leaves.flatMap lst).filter fun i => !P.dead i := by rw [List.filter_flatMap]
    rw [e1]
    exact hb.perm.filter _
  · constructor
    · exact hb.linked
    · exact hb.root
    · exact hb.fits
    · exact fun c hc => (hmemc c).mp hc
    · refine Forest.covers_of_nodes _ _ _ f (fun c g hc => ⟨h.done c g hc (hin c hc.mem), fun hcop => ?_⟩) fun c hc => ?_
      · obtain ⟨nx, _, _, _, l4⟩ := Forest.Node.linked hb.linked hn hend hc
        have hg : g = .nil := by
          cases g with
          | nil => rfl
          | cons d _ _ =>
            have hcop' : b.copen c = none := hcop
            have l4' : b.copen c = some d := l4
            rw [l4'] at hcop'
            simp at hcop'
        subst hg
        simp only [Forest.leaves, List.flatMap_cons, List.flatMap_nil, List.append_nil]
        exact (List.length_filter_le _ _).trans (hb.lists c (Forest.mem_leaves.mpr hc)).2.2.2.2
      · obtain ⟨a1, a2, a3, _⟩ := h.leafDone c hc (hin c (hleafc c hc))
        simp only [Tree.leafList, Oct.toTree, a1, a2]
        refine LeafList.traverse_chained _ pfuel a3 ?_ ((List.length_filter_le _ _).trans (hlc c hc))
        exact ((List.nodup_flatMap.mp hnl).1 c hc).filter _
    · have e1 : (f.leaves.flatMap fun c => (lst c).filter fun i => !P.dead i) =
        (f.leaves.flatMap lst).filter fun i => !P.dead i := by rw [List.filter_flatMap]
      rw [e1]
      exact hnl.filter _
  · intro c hc
    exact (h.leafDone c hc (hin c (hleafc c hc))).2.2.2

/-- Build, stock, search: with live gravitating particles of positive mass a finished build followed by the
stocking lets the gather search around any point find exactly the live particles within the radius. -/
theorem C60_gather_partial (r : ℕ → Vec n ℝ) (i0 N Nleafmax Ncellmax lmax : ℕ) (hN : 0 < N) (hM : 1 ≤ Ncellmax)
    (hlm : 1 ≤ lmax) (bbmin bbmax : Vec n ℝ) (junk b : State n ℝ)
    (hb : build r i0 N Nleafmax Ncellmax lmax bbmin bbmax junk = .done b)
    (cfg : Cfg) (ho : cfg.oct = true) (P : Parts n) (hm : ∀ i, i0 ≤ i → i < i0 + N → P.grav i = true ∧ 0 < P.m i)
    (cell : ℕ → Props n) (mac : ℕ → ℝ) (rp : Vec n ℝ) (R : ℝ) (hR : 0 ≤ R) (Nneibmax : ℕ)
    (hbuf : N + Nleafmax < Nneibmax) :
    ∃ s', ∃ found : List ℕ, stock cfg P b.links true N b.Ncell (order b.ltot b.firstCell b.lastCell)
        ⟨b.lists.inext, b.lists.ifirst, b.lists.ilast, cell⟩ = some s' ∧
      (Oct.toTree b Ncellmax Nleafmax s' mac).gatherPoint P rp R Nneibmax N [] b.Ncell = .done found ∧
      found.Nodup ∧ ∀ i, i ∈ found ↔ i0 ≤ i ∧ i < i0 + N ∧ P.dead i = false ∧ Tree.distsqd (P.r i) rp < R ^ 2 := by
  rcases build_spec r i0 N Nleafmax Ncellmax lmax hN hM hlm bbmin bbmax junk with h | h | ⟨b', f, lst, h, hH, hf, hl⟩
  · rw [h] at hb; simp at hb
  · rw [h] at hb; simp at hb
  · rw [h] at hb
    obtain rfl : b' = b := by simpa using hb
    have hB := hH.built hf
    have hsub : ∀ c ∈ f.leaves, ∀ i ∈ lst c, i0 ≤ i ∧ i < i0 + N := fun c hc i hi =>
      List.mem_range'_1.mp (hB.perm.mem_iff.mp (List.mem_flatMap.mpr ⟨c, hc, hi⟩))
    obtain ⟨s', e, l', hp, hT, _⟩ := C60_stock_partial cfg ho P b' f lst (List.range' i0 N) Nleafmax Ncellmax
      List.nodup_range' hB (fun i hi => (hm i (List.mem_range'_1.mp hi).1 (List.mem_range'_1.mp hi).2).2.le)
      (fun c hc hd => by
        obtain ⟨i, hi, hd⟩ := hd
        have := hm i (hsub c hc i hi).1 (hsub c hc i hi).2
        exact ⟨i, hi, hd, this.1, this.2⟩) N b'.Ncell (by simp) le_rfl cell mac
    have hlen : f.cells.length = b'.Ncell := by rw [hB.cells.length_eq, List.length_range]
    have hl'N : l'.length ≤ N := by
      rw [hp.length_eq]
      exact (List.length_filter_le _ _).trans (by simp)
    refine ⟨s', l'.filter (inSphere P rp R), e, ?_, hT.nodup.filter _, ?_⟩
    · rcases C07_point_gather _ cfg P N f l' hT rp R hR Nneibmax [] (by simp) b'.Ncell (by omega) with
        ⟨h1, _, _⟩ | ⟨_, h2⟩
      · simpa using h1
      · exfalso
        have := List.length_filter_le (inSphere P rp R) l'
        have e : (Oct.toTree b' Ncellmax Nleafmax s' mac).Nleafmax = Nleafmax := rfl
        rw [e, List.length_nil] at h2
        omega
    · intro i
      rw [List.mem_filter, hp.mem_iff, List.mem_filter, List.mem_range'_1]
      simp only [inSphere, Bool.and_eq_true, decide_eq_true_eq, Bool.not_eq_true', ← sq]
      constructor
      · rintro ⟨⟨⟨h1, h2⟩, h3⟩, h4, _⟩
        exact ⟨h1, h2, h3, h4⟩
      · rintro ⟨h1, h2, h3, h4⟩
        exact ⟨⟨⟨h1, h2⟩, h3⟩, h4, h3⟩

/-- Defect: a leaf whose live particles carry no gravitating mass (for instance dust with `dust_gravity` off,
Common/Particle.cpp:67-69) keeps centre 0 and size 0, so the gather search around a point at least the radius away
from the origin passes over it – also if the point is the position of one of its particles. -/
theorem C60_massless_leaf_skipped (cfg : Cfg) (P : Parts n) (l : List ℕ) (c0 : Props n)
    (hl : ∀ i ∈ l, P.dead i = false ∧ P.grav i = false) (T : Tree n) (c : ℕ)
    (hc : T.cell c = leafProps cfg P l c0) (rp : Vec n ℝ) (R : ℝ) (hfar : R ^ 2 ≤ dot rp rp) (Nneibmax pfuel : ℕ)
    (s : List ℕ) :
    (T.cell c).N = l.length ∧ T.gatherPointBody P rp R Nneibmax pfuel c s = .next s := by
  have hp := partial_foldl cfg P l [] (zero cfg c0) (fun i hi => (hl i hi).1) (partial_octZero cfg P c0)
  rw [List.nil_append] at hp
  have hrc : ∀ (l : List ℕ) (a : Props n), (l.foldl (leafBody cfg P) a).rcell = a.rcell := by
    intro l
    induction l with
    | nil => intro a; rfl
    | cons x l ih =>
      intro a
      rw [List.foldl_cons, ih]
      unfold leafBody
      split_ifs <;> rfl
  have hq : ∀ (l : List ℕ) (a : Props n), (l.foldl (quadBody P) a).rcell = a.rcell ∧
      (l.foldl (quadBody P) a).rmax = a.rmax ∧ (l.foldl (quadBody P) a).N = a.N := by
    intro l
    induction l with
    | nil => intro a; exact ⟨rfl, rfl, rfl⟩
    | cons x l ih =>
      intro a
      rw [List.foldl_cons]
      obtain ⟨h1, h2, h3⟩ := ih (quadBody P a x)
      rw [h1, h2, h3]
      unfold quadBody
      split_ifs <;> exact ⟨rfl, rfl, rfl⟩
  have hm0 : ¬ (l.foldl (leafBody cfg P) (zero cfg c0)).m > 0 := by
    rw [hp.m]
    unfold gsum
    rw [List.filter_eq_nil_iff.mpr (fun i hi => by simp [(hl i hi).2])]
    simp
  have hall : (leafProps cfg P l c0).rcell = (fun _ => 0) ∧ (leafProps cfg P l c0).rmax = 0 ∧
      (leafProps cfg P l c0).N = l.length := by
    simp only [leafProps, if_neg hm0]
    by_cases hnq : cfg.needQuad = true
    · rw [if_pos hnq, (hq _ _).1, (hq _ _).2.1, (hq _ _).2.2, hrc]
      exact ⟨rfl, hp.rmax, hp.N⟩
    · rw [if_neg hnq, hrc]
      exact ⟨rfl, hp.rmax, hp.N⟩
  refine ⟨by rw [hc]; exact hall.2.2, ?_⟩
  unfold Tree.gatherPointBody
  rw [hc, hall.1, hall.2.1, if_neg]
  rw [not_lt, add_zero]
  have e : Tree.distsqd (fun _ => (0 : ℝ)) rp = dot rp rp := by
    unfold Tree.distsqd dot
    exact Finset.sum_congr rfl fun k _ => by ring
  rw [e, ← sq]
  exact hfar

/-- Defect: the velocity box is never reset and starts as wide as possible, so while no particle is faster than
`big_number` every leaf keeps the box it was born with, whatever its particles do. -/
theorem C60_vbox_stays (cfg : Cfg) (P : Parts n) (l : List ℕ) (c0 : Props n)
    (h0 : ∀ k, c0.vmin k = -cfg.big ∧ c0.vmax k = cfg.big) (hv : ∀ i ∈ l, ∀ k, |P.v i k| ≤ cfg.big) :
    ∀ k, (leafProps cfg P l c0).vmin k = -cfg.big ∧ (leafProps cfg P l c0).vmax k = cfg.big := by
  have hf : ∀ (l : List ℕ) (a : Props n), (∀ i ∈ l, ∀ k, |P.v i k| ≤ cfg.big) →
      (∀ k, a.vmin k = -cfg.big ∧ a.vmax k = cfg.big) →
      ∀ k, (l.foldl (leafBody cfg P) a).vmin k = -cfg.big ∧ (l.foldl (leafBody cfg P) a).vmax k = cfg.big := by
    intro l
    induction l with
    | nil => intro a _ h; exact h
    | cons x l ih =>
      intro a hv h
      refine ih _ (fun i hi => hv i (List.mem_cons_of_mem _ hi)) fun k => ?_
      have h1 := abs_le.mp (hv x (by simp) k)
      have h2 : ¬ (P.v x k > cfg.big) := not_lt.mpr h1.2
      have h3 : ¬ (P.v x k < -cfg.big) := not_lt.mpr h1.1
      unfold leafBody
      split_ifs <;> simp only [(h k).1, (h k).2, h2, h3, if_false, and_self]
  have hq : ∀ (l : List ℕ) (a : Props n), (l.foldl (quadBody P) a).vmin = a.vmin ∧
      (l.foldl (quadBody P) a).vmax = a.vmax := by
    intro l
    induction l with
    | nil => intro a; exact ⟨rfl, rfl⟩
    | cons x l ih =>
      intro a
      rw [List.foldl_cons]
      obtain ⟨h1, h2⟩ := ih (quadBody P a x)
      rw [h1, h2]
      unfold quadBody
      split_ifs <;> exact ⟨rfl, rfl⟩
  intro k
  have h1 := hf l (zero cfg c0) hv h0 k
  have h2 : (if (l.foldl (leafBody cfg P) (zero cfg c0)).m > 0 then
      extent cfg (normalise (l.foldl (leafBody cfg P) (zero cfg c0))) else
      l.foldl (leafBody cfg P) (zero cfg c0)).vmin k = -cfg.big ∧
      (if (l.foldl (leafBody cfg P) (zero cfg c0)).m > 0 then
      extent cfg (normalise (l.foldl (leafBody cfg P) (zero cfg c0))) else
      l.foldl (leafBody cfg P) (zero cfg c0)).vmax k = cfg.big := by
    by_cases hm : (l.foldl (leafBody cfg P) (zero cfg c0)).m > 0
    · rw [if_pos hm]
      simp only [extent, normalise, if_pos hm]
      exact h1
    · rw [if_neg hm]; exact h1
  unfold leafProps
  simp only []
  by_cases hnq : cfg.needQuad = true
  · rw [if_pos hnq, (hq _ _).1, (hq _ _).2]; exact h2
  · rw [if_neg hnq]; exact h2

/-- Defect: `StockTree(…,false)`, meant to restock the cells above leaves that were received from another process
(HydroTree.cpp:1318, 1341), first wipes those leaves, so the tree ends up without particles and mass. -/
theorem C60_restock_wipes {α : Type*} [Field α] [LinearOrder α] (cfg : Cfg) (P : Parts n) (b : State n α)
    (f : Forest) (lst : ℕ → List ℕ) (l : List ℕ) (Nleafmax Ncellmax : ℕ) (hb : Built Nleafmax Ncellmax l b f lst)
    (pfuel kfuel : ℕ) (hkf : b.Ncell ≤ kfuel) (s : TState n) :
    ∃ s', stock cfg P b.links false pfuel kfuel (order b.ltot b.firstCell b.lastCell) s = some s' ∧
      ∀ c < b.Ncell, (s'.cell c).N = 0 ∧ (s'.cell c).m = 0 := by
  have hn : f.cells.Nodup := hb.cells.nodup_iff.mpr List.nodup_range
  have hlen : f.cells.length = b.Ncell := by rw [hb.cells.length_eq, List.length_range]
  have hmemc : ∀ c, c ∈ f.cells ↔ c < b.Ncell := fun c => by rw [hb.cells.mem_iff, List.mem_range]
  have hend : Ncellmax ∉ f.cells := by rw [hmemc]; exact not_lt.mpr hb.fits
  obtain ⟨o1, o2, o3⟩ := order_spec hb.deepest hb.ranges
  have hadd : ∀ (ks : List (Props n)) (a : Props n), (∀ k ∈ ks, k.N = 0) → ks.foldl (add cfg) a = a := by
    intro ks
    induction ks with
    | nil => intro a _; rfl
    | cons k ks ih =>
      intro a h
      have e : add cfg a k = a := by
        unfold add; rw [if_neg]; rw [h k (by simp)]; exact lt_irrefl _
      rw [List.foldl_cons, e]
      exact ih a fun x hx => h x (List.mem_cons_of_mem _ hx)
  have hqd : ∀ (ks : List (Props n)) (a : Props n), (∀ k ∈ ks, k.N = 0) → ks.foldl addQuad a = a := by
    intro ks
    induction ks with
    | nil => intro a _; rfl
    | cons k ks ih =>
      intro a h
      have e : addQuad a k = a := by
        unfold addQuad; rw [if_neg]; rw [h k (by simp)]; exact lt_irrefl _
      rw [List.foldl_cons, e]
      exact ih a fun x hx => h x (List.mem_cons_of_mem _ hx)
  have key : ∀ (cs D : List ℕ) (s : TState n), D ++ cs = order b.ltot b.firstCell b.lastCell →
      (∀ c ∈ D, (s.cell c).N = 0 ∧ (s.cell c).m = 0) →
      ∃ s', stock cfg P b.links false pfuel kfuel cs s = some s' ∧
        ∀ c ∈ D ++ cs, (s'.cell c).N = 0 ∧ (s'.cell c).m = 0 := by
    intro cs
    induction cs with
    | nil => intro D s _ h; exact ⟨s, rfl, by simpa using h⟩
    | cons c cs ih =>
      intro D s hD h
      have hcO : c ∈ f.cells := by rw [hmemc, ← o2, ← hD]; simp
      obtain ⟨g, hg⟩ := Forest.mem_cells_iff.mp hcO
      obtain ⟨nx, l1, l2, l3, l4⟩ := Forest.Node.linked hb.linked hn hend hg
      have step : ∃ s1, Oct.stockCell cfg P b.links false pfuel kfuel s c = some s1 ∧
          (∀ d, d ≠ c → s1.cell d = s.cell d) ∧ (s1.cell c).N = 0 ∧ (s1.cell c).m = 0 := by
        cases g with
        | nil =>
          have l4' : b.links.copen c = none := l4
          refine ⟨{ s with cell := Function.update s.cell c (zero cfg (s.cell c)) }, ?_, ?_, ?_, ?_⟩
          · unfold Oct.stockCell; rw [l4']; simp
          · intro d hd; exact Function.update_of_ne hd _ _
          · simp [zero, zeroProps]
          · simp [zero, zeroProps]
        | cons c1 ch1 rest1 =>
          have l4' : b.links.copen c = some c1 := l4
          have l1' : b.links.cnext c = some nx := l1
          have hk := kids_eq (Forest.cons c1 ch1 rest1) kfuel l2 l3
            ((Forest.tops_length _).trans ((Forest.Node.cells_le hg).trans (by omega)))
          have e : (Forest.cons c1 ch1 rest1).entry nx = c1 := rfl
          rw [e] at hk
          have hk' : kids b.links nx kfuel c1 = some (Forest.cons c1 ch1 rest1).tops := hk
          have hz : ∀ k ∈ (Forest.cons c1 ch1 rest1).tops.map s.cell, k.N = 0 := by
            intro k hk
            obtain ⟨d, hd, rfl⟩ := List.mem_map.mp hk
            obtain ⟨g', hg'⟩ := Forest.mem_tops.mp hd
            obtain ⟨l', hl1, hl2⟩ := Forest.Node.level hb.levels hg
            have hld := hg'.level hl2
            have hdO : d ∈ D ++ c :: cs := by rw [hD, o2, ← hmemc]; exact (hg.trans hg'.node).mem
            rw [← hD] at o3
            rcases List.mem_append.mp hdO with hd' | hd'
            · exact (h d hd').1
            · exfalso
              rcases List.mem_cons.mp hd' with rfl | hd'
              · omega
              · have := (List.pairwise_append.mp o3).2.1
                have := (List.pairwise_cons.mp this).1 d hd'
                omega
          have hin : (innerProps cfg ((Forest.cons c1 ch1 rest1).tops.map s.cell) (s.cell c)).N = 0 ∧
              (innerProps cfg ((Forest.cons c1 ch1 rest1).tops.map s.cell) (s.cell c)).m = 0 := by
            have hno : normalise (zero cfg (s.cell c)) = zero cfg (s.cell c) := by
              unfold normalise; rw [if_neg]; simp [zero, zeroProps]
            unfold innerProps
            simp only [hadd _ _ hz, hno, hqd _ _ hz, ite_self]
            exact ⟨rfl, rfl⟩
          refine ⟨⟨s.inext, s.ifirst, s.ilast, Function.update s.cell c
            (innerProps cfg ((Forest.cons c1 ch1 rest1).tops.map s.cell) (s.cell c))⟩, ?_, ?_, ?_, ?_⟩
          · unfold Oct.stockCell; rw [l4']; simp only [l1', hk']
          · intro d hd; exact Function.update_of_ne hd _ _
          · simp only [Function.update_self]; exact hin.1
          · simp only [Function.update_self]; exact hin.2
      obtain ⟨s1, e1, e2, e3, e4⟩ := step
      obtain ⟨s2, e5, e6⟩ := ih (D ++ [c]) s1 (by rw [← hD]; simp) (by
        intro d hd
        by_cases hdc : d = c
        · rw [hdc]; exact ⟨e3, e4⟩
        · rw [e2 d hdc]; exact h d (by simpa [hdc] using hd))
      refine ⟨s2, ?_, by simpa using e6⟩
      rw [stock, e1]
      exact e5
  obtain ⟨s', e, h⟩ := key _ [] s rfl (by simp)
  exact ⟨s', e, fun c hc => h c (by rw [List.nil_append]; exact (o2 c).mpr hc)⟩

end

/-! ### The theorems at work -/

section example1

/-- three particles of masses 1, 2, 3 in the plane, the second one dead -/
noncomputable def octParts : Parts 2 where
  r := fun i => if i = 0 then ![1, 1] else if i = 1 then ![3, 3] else ![-1, 2]
  v := fun _ => ![0, 1]
  m := fun i => i + 1
  h := fun _ => 1
  sound := fun _ => 1
  anorm := fun _ => 0
  gfac := fun _ => 0
  dead := fun i => i == 1
  active := fun i => i == 0
  grav := fun _ => true

noncomputable def octCfg : Cfg where
  big := 100
  kernrange := 2
  thetamaxsqd := 1
  gadget2 := false
  eigenmac := false
  needQuad := true
  oct := true

/-- the tree of the five particles of C59 meets the hypotheses of `C60_stock_partial` -/
example (cell : ℕ → Props 2) (mac : ℕ → ℝ) : ∃ b s', build octR 0 5 2 40 6 (fun _ => -4) (fun _ => 4) octJunk = .done b ∧
    stock octCfg octParts b.links true 5 13 (order b.ltot b.firstCell b.lastCell)
      ⟨b.lists.inext, b.lists.ifirst, b.lists.ilast, cell⟩ = some s' ∧
    ∃ f l', l'.Perm [0, 2, 3, 4] ∧ (Oct.toTree b 40 2 s' mac).OK octCfg octParts 5 f l' := by
  have hshow : octShow (build octR 0 5 2 40 6 (fun _ => -4) (fun _ => 4) octJunk) = (
    [some 1, none, none, none, some 5, none, none, none, some 9, none, none, none, none],
    [some 40, some 2, some 3, some 4, some 40, some 6, some 7, some 8, some 40, some 10, some 11, some 12, some 40],
    [13, 3, 5, 0, 0, 1, 4, 1, 0, 0, 3, 1, 1, 0, 1]) := by decide +kernel
  rcases C59_build octR 0 5 2 40 6 (by norm_num) (by norm_num) (by norm_num) (fun _ => -4) (fun _ => 4) octJunk with
    h | h | ⟨b, f, lst, h, hB, _⟩
  · rw [h] at hshow; simp [octShow] at hshow
  · rw [h] at hshow; simp [octShow] at hshow
  · have hN : b.Ncell = 13 := by
      rw [h] at hshow
      have := congrArg (fun x => x.2.2.head?) hshow
      simpa [octShow] using this
    obtain ⟨s', e, l', hp, hT, _⟩ := C60_stock_partial octCfg rfl octParts b f lst (List.range' 0 5) 2 40
      List.nodup_range' hB (fun i _ => by simp only [octParts]; positivity)
      (fun c _ ⟨i, hi, hd⟩ => ⟨i, hi, hd, rfl, by simp only [octParts]; positivity⟩) 5 13 (by simp) hN.le cell mac
    exact ⟨b, s', h, e, f, l', hp, hT⟩

/-- two live particles, one per leaf: the search of radius 3/2 around (0,0) finds the first one only -/
example (junk : State 2 ℝ) (cell : ℕ → Props 2) (mac : ℕ → ℝ) : ∃ b s' found,
    build (fun i => if i = 0 then ![1, 1] else ![3, 3]) 0 2 1 40 6 (fun _ => -4) (fun _ => 4) junk = .done b ∧
    (Oct.toTree b 40 1 s' mac).gatherPoint { octParts with dead := fun _ => false } (fun _ => 0) (3 / 2) 4 2 []
      b.Ncell = .done found ∧ found.Nodup ∧ ∀ i, i ∈ found ↔ i = 0 := by
  have hS : rootSize (fun _ : Fin 2 => (-4 : ℝ)) (fun _ => 4) = 4 := rootSize_const (by norm_num) 4 (by norm_num)
  obtain ⟨b, hb⟩ := C59_build_ends_partial (fun i => if i = 0 then ![1, 1] else ![(3 : ℝ), 3]) 0 2 1 40 6
    (by norm_num) (by norm_num) (fun _ => -4) (fun _ => 4) junk (by
      intro i _ hi k
      rw [hS]
      have : i = 0 ∨ i = 1 := by omega
      rcases this with rfl | rfl <;> fin_cases k <;> norm_num [abs_le]) (by
      intro x
      rw [hS]
      have e : List.range' 0 2 = [0, 1] := rfl
      rw [e]
      refine Nat.lt_succ_iff.mp (lt_of_not_ge fun hlen => ?_)
      have hf : ∀ i ∈ [0, 1], ∀ k, |(if i = 0 then ![1, 1] else ![(3 : ℝ), 3]) k - x k| ≤ 4 / 2 ^ (6 - 1) := by
        have h2 := List.length_filter_eq_length_iff.mp (le_antisymm (List.length_filter_le _ [0, 1]) hlen)
        intro i hi
        exact of_decide_eq_true (h2 i hi)
      have a := hf 0 (by simp) 0
      have c := hf 1 (by simp) 0
      norm_num [abs_le] at a c
      linarith [a.1, a.2, c.1, c.2]) (by norm_num)
  obtain ⟨s', found, _, h2, h3, h4⟩ := C60_gather_partial _ 0 2 1 40 6 (by norm_num) (by norm_num) (by norm_num) _ _
    junk b hb octCfg rfl { octParts with dead := fun _ => false }
    (fun i _ _ => ⟨rfl, by simp only [octParts]; positivity⟩) cell mac (fun _ => 0) (3 / 2) (by norm_num) 4 (by norm_num)
  refine ⟨b, s', found, hb, h2, h3, fun i => ?_⟩
  rw [h4]
  constructor
  · rintro ⟨_, hi, _, hd⟩
    by_contra hne
    have : i = 1 := by omega
    subst this
    norm_num [Tree.distsqd, dot, octParts] at hd
  · rintro rfl
    refine ⟨le_rfl, by norm_num, rfl, ?_⟩
    norm_num [Tree.distsqd, dot, octParts]

/-- two dust particles at (5,5): the search around their own position passes over their leaf -/
example (c0 : Props 2) (T : Tree 2) (hT : T.cell 3 = leafProps octCfg
      { octParts with dead := fun _ => false, grav := fun _ => false, r := fun _ => ![5, 5] } [0, 1] c0) :
    (T.cell 3).N = 2 ∧ T.gatherPointBody
      { octParts with dead := fun _ => false, grav := fun _ => false, r := fun _ => ![5, 5] } ![5, 5] 1 100 10 3 [] =
        .next [] :=
  C60_massless_leaf_skipped octCfg _ [0, 1] c0 (by simp) T 3 hT ![5, 5] 1 (by norm_num [dot]) 100 10 []

/-- particles of velocity (0,1), a cell born with the widest box -/
example (c0 : Props 2) (h0 : ∀ k, c0.vmin k = -100 ∧ c0.vmax k = 100) :
    (leafProps octCfg octParts [0, 2] c0).vmax 0 = 100 :=
  (C60_vbox_stays octCfg octParts [0, 2] c0 h0 (fun i _ k => by
    fin_cases k <;> norm_num [octParts, octCfg]) 0).2

end example1

end Gandalf
