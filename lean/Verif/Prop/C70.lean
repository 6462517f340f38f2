import Verif.Proof.TreeRefresh
import Verif.Prop.C08
import Verif.Prop.C60

/-! # C70: keeping the tree up to date between two builds -/

set_option autoImplicit false
set_option linter.unusedSectionVars false

namespace Gandalf
open KD

variable {n : ℕ}

/-- After new smoothing lengths `h'` have been found `UpdateHmaxValues` of the KD-tree ends and leaves in every cell
the largest smoothing length and the smoothing box of exactly the particles beneath it; nothing else in the cells
and no particle list changes. In particular the opening distance keeps the value of the last stocking: the tree is
correctly stocked once that field is recomputed. -/
theorem C70_hmax_kd (cfg : Cfg) (P : Parts n) (t : KD.Links) (ltot M pfuel : ℕ) (s : TState n) (l : List ℕ)
    (hlo : LaidOut t ltot ltot 0 0) (hs : Stocked cfg P t s M ltot 0 l) (hl : l.Nodup) (hf : l.length ≤ pfuel)
    (h' : ℕ → ℝ) :
    ∃ s', KD.updHmax cfg { P with h := h' } t ltot pfuel (ltot + 1) 0 s = some s' ∧
      s'.ifirst = s.ifirst ∧ s'.ilast = s.ilast ∧ s'.inext = s.inext ∧
      (∀ c, ∃ a b d, s'.cell c = { s.cell c with hmax := a, hmin := b, hmx := d }) ∧
      Stocked cfg { P with h := h' } t { s' with
        cell := fun c => { s'.cell c with
          cdistsqd := max ((s'.cell c).rmax ^ 2) ((s'.cell c).hmax ^ 2) / cfg.thetamaxsqd } } M ltot 0 l := by
  obtain ⟨s', e, _, _, h1, h2, h3, h4, _, h5⟩ := updHmax_spec (cfg := cfg) (P := P) t ltot M pfuel h' ltot 0 0 l s
    hlo hs hl hf
  exact ⟨s', e _ le_rfl, h2, h3, h4, fun c => ⟨_, _, _, h5 c⟩, h1⟩

/-- The scatter-gather search (C08) on the refreshed KD-tree finds every pair that interacts with the new smoothing
lengths: for a cell which summarises the particles `a` with their new smoothing lengths. -/
theorem C70_search_kd (cfg : Cfg) (P : Parts n) (t : KD.Links) (ltot M pfuel : ℕ) (s : TState n) (l : List ℕ)
    (hlo : LaidOut t ltot ltot 0 0) (hs : Stocked cfg P t s M ltot 0 l) (hl : l.Nodup) (hf : l.length ≤ pfuel)
    (h' : ℕ → ℝ) (hK : 0 ≤ cfg.kernrange) (hh : ∀ i, 0 ≤ h' i) (mac : ℕ → ℝ) (a : List ℕ) (cell : Props n)
    (hcell : Summary cfg { P with h := h' } a cell) :
    ∃ s', ∃ found : List ℕ, KD.updHmax cfg { P with h := h' } t ltot pfuel (ltot + 1) 0 s = some s' ∧
      (toTree t ltot M s' mac).neighbourWalk cell pfuel [] (ncellOf ltot) = .done found ∧ found.Sublist l ∧
      ∀ i ∈ a, ∀ j ∈ l, Tree.distsqd (P.r j) (P.r i) < (cfg.kernrange * max (h' i) (h' j)) ^ 2 → j ∈ found := by
  obtain ⟨s', e, _, _, _, _, h1⟩ := C70_hmax_kd cfg P t ltot M pfuel s l hlo hs hl hf h'
  have hok := KD.toTree_ok (mac := mac) hlo h1 hf hl
  obtain ⟨found, f1, f2, f3⟩ := C08_neighbours _ cfg _ pfuel _ l a hok cell hcell hK hh [] (ncellOf ltot) (by
    rw [fullTree_cells]; simp [Forest.cells, ncellOf_eq])
  exact ⟨s', found, e, f1, f2, f3⟩

/-- The same for the oct-tree. -/
theorem C70_hmax_oct {α : Type*} [Field α] [LinearOrder α] (cfg : Cfg) (P : Parts n)
    (b : Oct.State n α) (f : Forest) (lst : ℕ → List ℕ) (l0 l : List ℕ) (Nleafmax Ncellmax : ℕ)
    (hb : Oct.Built Nleafmax Ncellmax l0 b f lst) (pfuel kfuel : ℕ) (hkf : b.Ncell ≤ kfuel) (s : TState n) (mac : ℕ → ℝ)
    (hok : (Oct.toTree b Ncellmax Nleafmax s mac).OK cfg P pfuel f l) (h' : ℕ → ℝ) :
    ∃ s', Oct.updHmax cfg { P with h := h' } b.links pfuel kfuel (Oct.order b.ltot b.firstCell b.lastCell) s = some s' ∧
      s'.ifirst = s.ifirst ∧ s'.ilast = s.ilast ∧ s'.inext = s.inext ∧
      (∀ c, ∃ a b d, s'.cell c = { s.cell c with hmax := a, hmin := b, hmx := d }) ∧
      (Oct.toTree b Ncellmax Nleafmax { s' with
        cell := fun c => { s'.cell c with
          cdistsqd := max ((s'.cell c).rmax ^ 2) ((s'.cell c).hmax ^ 2) / cfg.thetamaxsqd } } mac).OK cfg
          { P with h := h' } pfuel f l := by
  have hn : f.cells.Nodup := hb.cells.nodup_iff.mpr List.nodup_range
  have hlen : f.cells.length = b.Ncell := by rw [hb.cells.length_eq, List.length_range]
  have hmemc : ∀ c, c ∈ f.cells ↔ c < b.Ncell := fun c => by rw [hb.cells.mem_iff, List.mem_range]
  have hend : Ncellmax ∉ f.cells := by
    rw [hmemc]; exact not_lt.mpr hb.fits
  set T := Oct.toTree b Ncellmax Nleafmax s mac with hT
  obtain ⟨c1, c2, c3⟩ := Forest.nodes_of_covers (T.leafList pfuel) _ (fun c => (T.leafList pfuel c).getD [])
    (fun c l e => by simp [e]) f l hok.covers
  obtain ⟨o1, o2, o3⟩ := Oct.order_spec hb.deepest hb.ranges
  obtain ⟨s', e, h⟩ := Oct.updHmax_inv (cfg := cfg) (P := P.withH h') (pfuel := pfuel) (kfuel := kfuel) (s0 := s)
    hb.linked hn hend (by omega) c3 (fun c g hc => (c2 c g hc).1.N) hb.levels _ o1
    (fun c => by rw [o2, hmemc]) o3 _ [] s rfl
    ⟨fun c g _ h => by simp at h, fun _ => rfl, rfl, rfl, rfl, fun _ _ => rfl⟩
  refine ⟨s', e, h.ifirst, h.ilast, h.inext, fun c => ⟨_, _, _, h.only c⟩, ?_⟩
  have hleaf : ∀ c, (Oct.toTree b Ncellmax Nleafmax { s' with
        cell := fun c => { s'.cell c with
          cdistsqd := max ((s'.cell c).rmax ^ 2) ((s'.cell c).hmax ^ 2) / cfg.thetamaxsqd } } mac).leafList pfuel c =
      T.leafList pfuel c := by
    intro c
    simp only [Tree.leafList, hT, Oct.toTree, h.ifirst, h.ilast, h.inext]
  constructor
  · exact hok.linked
  · exact hok.root
  · exact hok.ends
  · exact hok.cells
  · rw [c1]
    refine Forest.covers_of_nodes _ _ _ f (fun c g hc => ?_) fun c hc => ?_
    · obtain ⟨q1, q2⟩ := c2 c g hc
      exact ⟨q1.refresh (h.only c) (h.done c g hc ((o2 c).mpr ((hmemc c).mp hc.mem))), q2⟩
    · rw [hleaf]; exact c3 c hc
  · exact hok.nodup

/-- The leaves handed out to the force loops. Let the tree be correctly stocked over the particles `l`, let the first
loop be told by `leaf` which cells are leaves, and let `test` accept at least the active live particles of the tree
(as it does in both trees). After `UpdateActiveParticleCounters` the lists of active particles of the active cells
contain together each active live particle of the tree exactly once and nothing else, and none of these lists is
longer than `Nleafmax` or than `Nactive` of its cell. -/
theorem C70_active (T : Tree n) (cfg : Cfg) (P : Parts n) (pfuel : ℕ) (f : Forest) (l : List ℕ)
    (hT : T.OK cfg P pfuel f l) (hcells : f.cells.Perm (List.range T.Ncell)) (Ntot : ℕ) (leaf test : ℕ → Bool)
    (hleaf : ∀ c < T.Ncell, (leaf c = true ↔ T.links.copen c = none))
    (htest : ∀ i ∈ l, i < Ntot → P.active i = true → P.dead i = false → test i = true) :
    ∃ T', T.updActive leaf test pfuel T.Ncell = some T' ∧
      (∀ c, ∃ N, T'.cell c = { T.cell c with Nactive := N }) ∧
      (T'.activeCells.flatMap fun c => (T'.activeList P Ntot pfuel c).getD []).Perm
        (l.filter fun i => decide (i < Ntot ∧ P.active i = true ∧ P.dead i = false)) ∧
      ∀ c ∈ T'.activeCells, ∃ a, T'.activeList P Ntot pfuel c = some a ∧ a.length ≤ T.Nleafmax ∧
        a.length ≤ (T'.cell c).Nactive := by
  set lst : ℕ → List ℕ := fun c => (T.leafList pfuel c).getD [] with hlst
  obtain ⟨c1, c2, c3⟩ := Forest.nodes_of_covers (T.leafList pfuel) _ lst (fun c l e => by simp [hlst, e]) f l hT.covers
  have hlv := Forest.leaves_eq_filter f _ hT.linked
  have hmem : ∀ c, c < T.Ncell → T.links.copen c = none → c ∈ f.leaves := by
    intro c hc h0
    rw [hlv, List.mem_filter, hcells.mem_iff, List.mem_range]
    exact ⟨hc, by simpa using h0⟩
  have hT' := Tree.updActive_spec leaf test pfuel T lst T.Ncell
    (fun c hc h0 => c3 c (hmem c hc ((hleaf c hc).mp h0)))
  refine ⟨_, hT', ?_, ?_, ?_⟩
  · intro c
    by_cases hc : c < T.Ncell
    · exact ⟨if leaf c then ((lst c).filter test).length else 0, if_pos hc⟩
    · exact ⟨(T.cell c).Nactive, if_neg hc⟩
  · set T' : Tree n := { T with
      cell := fun c => if c < T.Ncell then { T.cell c with
        Nactive := if leaf c then ((lst c).filter test).length else 0 } else T.cell c } with hTd
    have hco : Tree.counts P Ntot = fun i => decide (i < Ntot ∧ P.active i = true ∧ P.dead i = false) := by
      funext i
      simp only [Tree.counts]
      cases P.active i <;> cases P.dead i <;> simp
    have hal : ∀ c, (T'.activeList P Ntot pfuel c).getD [] = (lst c).filter (Tree.counts P Ntot) := by
      intro c
      simp only [Tree.activeList, hlst]
      have : T'.leafList pfuel c = T.leafList pfuel c := rfl
      rw [this]
      cases T.leafList pfuel c <;> simp
    simp only [hal]
    have e1 : T'.activeCells = ((List.range T.Ncell).filter fun c => decide (T.links.copen c = none)).filter fun c =>
        decide ((T.cell c).N ≤ T.Nleafmax) && decide (0 < ((lst c).filter test).length) := by
      rw [List.filter_filter]
      unfold Tree.activeCells
      refine List.filter_congr fun c hc => ?_
      rw [List.mem_range] at hc
      have hcell : T'.cell c = { T.cell c with
          Nactive := if leaf c then ((lst c).filter test).length else 0 } := if_pos hc
      have hl' : T'.links = T.links := rfl
      have hM' : T'.Nleafmax = T.Nleafmax := rfl
      rw [hcell, hl', hM']
      by_cases h0 : T.links.copen c = none
      · have hlf := (hleaf c hc).mpr h0
        simp [h0, hlf]
      · simp [h0]
    have e2 : ((List.range T.Ncell).filter fun c => decide (T.links.copen c = none)).Perm f.leaves := by
      rw [hlv]; exact (hcells.filter _).symm
    rw [e1, Tree.flatMap_filter_nil, ← hco]
    · refine (e2.flatMap_right _).trans ?_
      rw [← List.filter_flatMap, ← c1]
    · intro c hc hno
      rw [List.mem_filter, List.mem_range] at hc
      have h0 : T.links.copen c = none := by simpa using hc.2
      have hcl := hmem c hc.1 h0
      obtain ⟨q1, q2⟩ := c2 c .nil (Forest.mem_leaves.mp hcl)
      simp only [Forest.leaves, List.flatMap_cons, List.flatMap_nil, List.append_nil] at q1 q2
      have hN : (T.cell c).N ≤ T.Nleafmax := by rw [q1.N]; exact q2 h0
      have hz : ((lst c).filter test).length = 0 := by
        by_contra hne
        have : 0 < ((lst c).filter test).length := Nat.pos_of_ne_zero hne
        simp [hN] at hno
        obtain ⟨x, hx⟩ := List.exists_mem_of_ne_nil _ (List.length_pos_iff.mp this)
        rw [List.mem_filter] at hx
        exact absurd hx.2 (by rw [hno x hx.1]; simp)
      rw [List.filter_eq_nil_iff]
      intro i hi hcnt
      rw [hco] at hcnt
      have hcnt' := of_decide_eq_true hcnt
      have hil : i ∈ l := by rw [c1]; exact List.mem_flatMap.mpr ⟨c, hcl, hi⟩
      have := htest i hil hcnt'.1 hcnt'.2.1 hcnt'.2.2
      have hx : i ∈ (lst c).filter test := List.mem_filter.mpr ⟨hi, this⟩
      rw [List.length_eq_zero_iff.mp hz] at hx
      simp at hx
  · intro c hc
    simp only [Tree.activeCells, List.mem_filter, List.mem_range, Bool.and_eq_true, decide_eq_true_eq] at hc
    obtain ⟨hc1, ⟨_, h0⟩, _⟩ := hc
    have hcl := hmem c hc1 h0
    obtain ⟨q1, q2⟩ := c2 c .nil (Forest.mem_leaves.mp hcl)
    simp only [Forest.leaves, List.flatMap_cons, List.flatMap_nil, List.append_nil] at q1 q2
    refine ⟨(lst c).filter (Tree.counts P Ntot), ?_, (List.length_filter_le _ _).trans (q2 h0), ?_⟩
    · have := c3 c hcl
      simp only [Tree.activeList, Tree.leafList] at this ⊢
      rw [this]; rfl
    · simp only [if_pos hc1, if_pos ((hleaf c hc1).mpr h0)]
      have : (lst c).filter (Tree.counts P Ntot) = ((lst c).filter test).filter (Tree.counts P Ntot) := by
        rw [List.filter_filter]
        refine List.filter_congr fun i hi => ?_
        have hil : i ∈ l := by rw [c1]; exact List.mem_flatMap.mpr ⟨c, hcl, hi⟩
        cases hct : Tree.counts P Ntot i with
        | false => simp
        | true =>
          simp only [Tree.counts, Bool.and_eq_true, decide_eq_true_eq, Bool.not_eq_true'] at hct
          simp [htest i hil hct.1.1 hct.1.2 hct.2]
      rw [this]
      exact List.length_filter_le _ _

/-- With the leaf test and the particle test of the KD-tree the hypotheses of `C70_active` hold for every built and
stocked tree. -/
theorem C70_active_kd (cfg : Cfg) (P : Parts n) (t : KD.Links) (ltot M pfuel : ℕ) (s : TState n) (l : List ℕ)
    (hlo : LaidOut t ltot ltot 0 0) (hs : Stocked cfg P t s M ltot 0 l) (hl : l.Nodup) (hf : l.length ≤ pfuel)
    (mac : ℕ → ℝ) (Ntot : ℕ) :
    ∃ T', (toTree t ltot M s mac).updActive (fun c => decide (t.level c = ltot)) (Tree.counts P Ntot) pfuel
        (ncellOf ltot) = some T' ∧
      (∀ c, ∃ N, T'.cell c = { s.cell c with Nactive := N }) ∧
      (T'.activeCells.flatMap fun c => (T'.activeList P Ntot pfuel c).getD []).Perm
        (l.filter fun i => decide (i < Ntot ∧ P.active i = true ∧ P.dead i = false)) ∧
      ∀ c ∈ T'.activeCells, ∃ a, T'.activeList P Ntot pfuel c = some a ∧ a.length ≤ M ∧
        a.length ≤ (T'.cell c).Nactive := by
  have hok := KD.toTree_ok (mac := mac) hlo hs hf hl
  refine C70_active _ cfg P pfuel _ l hok ?_ Ntot _ _ ?_ ?_
  · rw [fullTree_cells]
    simp only [Forest.cells, List.append_nil]
    rw [← List.range_eq_range']
    simp [toTree, ncellOf_eq]
  · intro c hc
    have hc' : c < ncellOf ltot := hc
    rw [ncellOf_eq] at hc'
    obtain ⟨_, _, h3, _⟩ := hlo.leaf_iff ltot 0 0 c (by omega) (by omega)
    rw [decide_eq_true_eq]
    exact h3.symm
  · intro i _ h1 h2 h3
    simp [Tree.counts, h1, h2, h3]

/-- Extrapolating the tree is right as long as all its particles move with one velocity: then the extrapolated cells
summarise the moved particles. Missing: particles with different velocities, see `C70_extrapolate_fails`. -/
theorem C70_extrapolate_partial (cfg : Cfg) (P : Parts n) (t : KD.Links) (ltot M : ℕ) (s : TState n) (l : List ℕ)
    (hlo : LaidOut t ltot ltot 0 0) (hs : Stocked cfg P t s M ltot 0 l) (dt : ℝ) (u : Vec n ℝ)
    (hv : ∀ i ∈ l, P.v i = u) (hm : ∀ i ∈ l, P.grav i = true ∧ 0 < P.m i)
    (hempty : ∀ c, (s.cell c).N = 0 → (s.cell c).v = fun _ => 0)
    (hbig : ∀ i ∈ l, ∀ k, -cfg.big < P.r i k ∧ P.r i k < cfg.big) (hh : ∀ i ∈ l, 0 ≤ cfg.kernrange * P.h i) :
    Stocked cfg { P with r := fun i k => P.r i k + P.v i k * dt } t (KD.extrapolate dt (ncellOf ltot) s) M ltot 0 l :=
  Stocked.extrapolate dt u ltot 0 0 l s hlo hs (by rw [ncellOf_eq]; omega) hv hm hempty hbig hh

/-- With `ntreestockstep = 1` the tree is built or stocked in every step; the defect below needs `ntreestockstep > 1`
and a step number that neither interval divides. -/
theorem C70_upkeep (rebuild : Bool) (nstep nb ns : ℕ) :
    upkeep rebuild nstep nb ns = .extrapolate ↔ rebuild = false ∧ ¬ nb ∣ nstep ∧ ¬ ns ∣ nstep := by
  unfold upkeep
  rw [Nat.dvd_iff_mod_eq_zero, Nat.dvd_iff_mod_eq_zero]
  cases rebuild
  · by_cases h1 : nstep % nb = 0 <;> by_cases h2 : nstep % ns = 0 <;> simp [h1, h2]
  · simp

example : upkeep false 7 8 1 = .stock ∧ upkeep false 7 8 2 = .extrapolate ∧ upkeep false 8 8 3 = .build := by decide

/-- two particles at -1 and 1 which move apart with velocity 1 -/
def apart : Parts 1 where
  r i _ := if i = 0 then -1 else 1
  v i _ := if i = 0 then -1 else 1
  m _ := 1
  h _ := 1
  sound _ := 1
  anorm _ := 1
  gfac _ := 1
  dead _ := false
  active _ := true
  grav _ := true

/-- Defect: the extrapolated cells know nothing of the motion of the particles within the cell. Two particles move
apart; the box of their cell does not grow, and once they have moved by the search radius the gather search around the
position of one of them does not even find the particle itself. This holds for every stocked state of the tree which
consists of their cell alone. -/
theorem C70_extrapolate_fails (cfg : Cfg) (hbig : 1 < cfg.big) (t : KD.Links) (hlo : LaidOut t 0 0 0 0) (M pfuel : ℕ)
    (s : TState 1) (hs : Stocked cfg apart t s M 0 0 [0, 1]) (mac : ℕ → ℝ) (R dt : ℝ) (hR : 0 < R) (hdt : R ≤ dt)
    (Nneibmax : ℕ) :
    (toTree t 0 M (KD.extrapolate dt (ncellOf 0) s) mac).gatherPoint
        { apart with r := fun i k => apart.r i k + apart.v i k * dt } (fun k => apart.r 1 k + apart.v 1 k * dt)
        R Nneibmax pfuel [] 1 = .done [] := by
  have hS := hs.summary
  have hv : (s.cell 0).v 0 = 0 := by
    have hm : (s.cell 0).m = 2 := by rw [hS.m]; norm_num [gsum, apart]
    have := hS.mom (by rw [hm]; norm_num) 0
    rw [hm] at this
    norm_num [gsum, apart] at this
    exact this
  have hmin : (s.cell 0).bbmin 0 = -1 := by
    have h1 := (hS.bb 0 (by simp) 0).1
    simp only [apart, if_true] at h1
    rcases hS.bbminTight 0 with e | ⟨i, hi, e⟩
    · linarith
    · rw [e] at h1 ⊢
      simp only [apart] at h1 ⊢
      split_ifs at h1 ⊢ with h
      · rfl
      · linarith
  have hmax : (s.cell 0).bbmax 0 = 1 := by
    have h1 := (hS.bb 1 (by simp) 0).2
    simp only [apart] at h1
    norm_num at h1
    rcases hS.bbmaxTight 0 with e | ⟨i, hi, e⟩
    · linarith
    · rw [e] at h1 ⊢
      simp only [apart] at h1 ⊢
      split_ifs at h1 ⊢ with h
      · linarith
      · rfl
  have hN : (s.cell 0).N ≠ 0 := by rw [hS.N]; simp
  have hc : (s.cell 0).rcell 0 = 0 := by rw [hS.centre hN 0, hmin, hmax]; ring
  have hr : (s.cell 0).rmax = 1 := by
    have h1 := hS.size hN
    simp only [Finset.univ_unique, Fin.default_eq_zero, Finset.sum_singleton] at h1
    rw [hmin, hmax] at h1
    nlinarith [hS.rmaxNonneg]
  have hcn : (toTree t 0 M (KD.extrapolate dt (ncellOf 0) s) mac).links.cnext 0 = some 1 := hlo.2.2.2.2.1
  have hne : ¬ Tree.distsqd ((toTree t 0 M (KD.extrapolate dt (ncellOf 0) s) mac).cell 0).rcell
      (fun k => apart.r 1 k + apart.v 1 k * dt) <
      (R + ((toTree t 0 M (KD.extrapolate dt (ncellOf 0) s) mac).cell 0).rmax) *
      (R + ((toTree t 0 M (KD.extrapolate dt (ncellOf 0) s) mac).cell 0).rmax) := by
    have e : (toTree t 0 M (KD.extrapolate dt (ncellOf 0) s) mac).cell 0 = extrapolateCell dt (s.cell 0) := by
      show (if (0 : ℕ) < ncellOf 0 then extrapolateCell dt (s.cell 0) else s.cell 0) = _
      rw [if_pos (by rw [ncellOf_eq, fullSize_zero]; omega)]
    rw [e]
    simp only [Tree.distsqd, dot, extrapolateCell]
    simp [hc, hv, hr, apart]
    nlinarith
  have h0 : (0 : ℕ) < (toTree t 0 M (KD.extrapolate dt (ncellOf 0) s) mac).Ncell := by
    simp [toTree, ncellOf_eq, fullSize_zero]
  have h1 : ¬ (1 : ℕ) < (toTree t 0 M (KD.extrapolate dt (ncellOf 0) s) mac).Ncell := by
    simp [toTree, ncellOf_eq, fullSize_zero]
  simp only [Tree.gatherPoint]
  rw [Walk.walk, if_pos h0]
  simp only [Tree.gatherPointBody, if_neg hne, hcn]
  rw [Walk.walk, if_neg h1]

/-- a table of one cell -/
def oneCell : KD.Links where
  level _ := 0
  copen _ := none
  cnext c := some (c + 1)
  c1 _ := none
  c2 _ := none
  c2g _ := 0
  g2c _ := 0
  g := 1

def apartCfg : Cfg := ⟨10, 2, 1, false, false, false, false⟩

/-- The hypotheses of the theorems of this file are met: a stocked cell with the two particles. -/
theorem apart_stocked : LaidOut oneCell 0 0 0 0 ∧ ∃ s : TState 1, Stocked apartCfg apart oneCell s 2 0 0 [0, 1] := by
  have hlo : LaidOut oneCell 0 0 0 0 := ⟨rfl, rfl, rfl, rfl, rfl, rfl, rfl⟩
  refine ⟨hlo, ?_⟩
  obtain ⟨s', _, h, _⟩ := C06_stock_summarises apartCfg apart oneCell 0 2 2
    ⟨fun i => if i = 0 then some 1 else none, fun _ => some 0, fun _ => some 1,
      fun _ => ⟨0, 0, 0, 0, 0, 0, 0, 0, 0, fun _ => 0, fun _ => 0, fun _ => 0, fun _ => 0, fun _ => 0, fun _ => 0,
        fun _ => 0, fun _ => 0, fun _ => 0, fun _ => 0⟩⟩ [0, 1] hlo
    ⟨by simp, rfl, rfl, by simp⟩ (by simp) (by simp) (fun i _ => by simp [apart])
  exact ⟨s', by simpa [apart] using h⟩

/-- Particle 1 sits at the centre of the search that misses it. -/
example (dt R : ℝ) (hR : 0 < R) (hdt : R ≤ dt) : ∃ s : TState 1, Stocked apartCfg apart oneCell s 2 0 0 [0, 1] ∧
    (toTree oneCell 0 2 (KD.extrapolate dt (ncellOf 0) s) (fun _ => 0)).gatherPoint
        { apart with r := fun i k => apart.r i k + apart.v i k * dt } (fun k => apart.r 1 k + apart.v 1 k * dt)
        R 100 2 [] 1 = .done [] := by
  obtain ⟨hlo, s, hs⟩ := apart_stocked
  exact ⟨s, hs, C70_extrapolate_fails apartCfg (by norm_num [apartCfg]) oneCell hlo 2 2 s hs _ R dt hR hdt 100⟩

/-- New smoothing lengths 5 and 7: the cell has the larger one and the box from -13 to 15. -/
example : ∃ s' : TState 1, (s'.cell 0).hmax = 7 ∧ (s'.cell 0).hmin 0 = -13 ∧ (s'.cell 0).hmx 0 = 15 ∧
    ∃ s, KD.updHmax apartCfg { apart with h := fun i => if i = 0 then 5 else 7 } oneCell 0 2 1 0 s = some s' := by
  obtain ⟨hlo, s, hs⟩ := apart_stocked
  have h1 := hs.2.2.1
  have h2 := hs.2.2.2.1
  have h3 := hs.2.2.2.2
  simp only [List.isChain_cons_cons, List.isChain_singleton, and_true] at h3
  refine ⟨{ s with cell := Function.update s.cell 0 (hLeaf apartCfg
    { apart with h := fun i => if i = 0 then 5 else 7 } [0, 1] (s.cell 0)) }, ?_, ?_, ?_, s, ?_⟩
  · simp [hLeaf, hLeafBody, hZero]; norm_num
  · simp [hLeaf, hLeafBody, hZero, apart, apartCfg]; norm_num
  · simp [hLeaf, hLeafBody, hZero, apart, apartCfg]; norm_num
  · have : LeafList.traverse s.inext (s.ilast 0) 2 (s.ifirst 0) = some [0, 1] := by
      rw [h1, h2]
      exact LeafList.traverse_chained [0, 1] 2 hs.2.2.2.2 (by simp) (by simp)
    simp only [KD.updHmax, KD.updHmaxCell, oneCell, if_true, this]

/-- Both particles are active: the one cell is handed out with both. -/
example : ∃ T' : Tree 1, (T'.activeCells.flatMap fun c => (T'.activeList apart 2 2 c).getD []).Perm [0, 1] := by
  obtain ⟨hlo, s, hs⟩ := apart_stocked
  obtain ⟨T', _, _, h, _⟩ := C70_active_kd apartCfg apart oneCell 0 2 2 s [0, 1] hlo hs (by simp) (by simp) (fun _ => 0) 2
  exact ⟨T', by simpa [apart] using h⟩

end Gandalf
