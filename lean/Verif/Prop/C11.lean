import Verif.Proof.NeighbourManager
import Mathlib.Tactic.FinCases
import Mathlib.Tactic.Abel

/-!
# C11 – the neighbour manager classifies every candidate exactly once
-/

set_option autoImplicit false
set_option linter.unusedSectionVars false

namespace Gandalf

variable {n : ℕ} {α : Type*} [Field α] [LinearOrder α]

/-- **C11, end of the search.** In a box without mirrors, let the search for a cell have collected the
lists `tempper`, `temp`, `tempdirect`. With `keep_direct` the manager stores, each once and in some
order, the live candidates (moved to the image nearest to the cell centre, for those that need it)
which can be hydro neighbours or gravitate, and the live gravitating direct particles; without it the
live candidates passing the distance test. The stored entries are numbered by the hydro list and the
direct list, each number occurring in exactly one of them, and an entry is in the hydro list iff it
passes the distance test (direct particles are never tested). Hypothesis `hjunk`: line 463 of
NeighbourManager.h reads past the end of the vector; the theorem holds if the type found there is as
gravitating as the candidate's. -/
theorem C11_endSearch (d : Domain n α) (hmir : d.anyMirror = false) (kernrange : α)
    (gravmask : ℕ → Bool) (seen : NPart n α → Fin n → Side → α) (junk : NPart n α)
    (cell : TargetCell n α) (part : ℕ → NPart n α) (tempper temp tempdirect : List ℕ)
    (keepDirect : Bool)
    (hjunk : keepDirect = true → ∀ i ∈ temp, gravmask junk.ptype = gravmask (part i).ptype) :
    let s := NM.endSearch d kernrange gravmask seen junk cell part tempper temp tempdirect keepDirect
    let live := fun i => !Flags.is_dead (part i).flags
    let moved := fun i => (part i).nearestGhost d cell.rcell
    let keep := fun q : NPart n α => NM.near kernrange cell q || (keepDirect && gravmask q.ptype)
    (s.neibIdx.zip s.neibdata).Perm
      ((if keepDirect then (tempdirect.filter fun i => live i && gravmask (part i).ptype).map
          fun i => (i, moved i) else []) ++
        ((tempper.filter fun i => live i && keep (moved i)).map fun i => (i, moved i)) ++
        ((temp.filter fun i => live i && keep (part i)).map fun i => (i, part i))) ∧
    s.neibIdx.length = s.neibdata.length ∧
    (s.neiblist ++ s.directlist).Perm (List.range s.neibdata.length) ∧
    s.nCellDirectNeib = s.directlist.length ∧
    (∀ t ∈ s.neiblist, ∃ q, s.neibdata[t]? = some q ∧ NM.near kernrange cell q = true) ∧
    (∀ t ∈ s.directlist, ∃ q, s.neibdata[t]? = some q ∧ gravmask q.ptype = true) := by
  intro s live moved keep
  have hone : ∀ p : NPart n α, constructGhostsScatterGather d cell seen p =
      [p.nearestGhost d cell.rcell] := by
    intro p; simp [constructGhostsScatterGather, hmir]
  obtain ⟨E1, E2, hR, hP, hC, hE1, hE2⟩ := endSearch_spec d kernrange gravmask seen junk cell part
    tempper temp tempdirect keepDirect (fun _ i _ => hone _) hjunk
  have hR : s.Rep (E1 ++ E2) := hR
  have hzip : s.neibIdx.zip s.neibdata = (E1 ++ E2).map fun e => (e.1, e.2.1) := by
    rw [hR.idx, hR.data, List.zip_map']
  -- classification as a filter
  have hcls : ∀ (g : ℕ → NPart n α) (l : List ℕ),
      (l.filterMap fun i => cullClass (NM.near kernrange cell) (fun q => gravmask q.ptype) keepDirect i
        (g i)).map (fun e => (e.1, e.2.1)) =
      (l.filter fun i => keep (g i)).map fun i => (i, g i) := by
    intro g l
    induction l with
    | nil => rfl
    | cons i l ih =>
      by_cases h1 : NM.near kernrange cell (g i) = true
      · rw [List.filterMap_cons_some (b := (i, g i, true)) (by simp [cullClass, h1]),
          List.filter_cons_of_pos (by simp [keep, h1]), List.map_cons, List.map_cons, ih]
      · by_cases h2 : (keepDirect && gravmask (g i).ptype) = true
        · rw [List.filterMap_cons_some (b := (i, g i, false)) (by simp [cullClass, h1, h2]),
            List.filter_cons_of_pos (by simp only [keep, h2, Bool.or_true]), List.map_cons,
            List.map_cons, ih]
        · rw [List.filterMap_cons_none (by simp [cullClass, h1, h2]),
            List.filter_cons_of_neg (by simp only [keep, h1, h2]; decide), ih]
  have hflag : ∀ (g : ℕ → NPart n α) (l : List ℕ), ∀ e ∈ l.filterMap fun i =>
      cullClass (NM.near kernrange cell) (fun q => gravmask q.ptype) keepDirect i (g i),
      (e.2.2 = true → NM.near kernrange cell e.2.1 = true) ∧
      (e.2.2 = false → gravmask e.2.1.ptype = true) := by
    intro g l e he
    obtain ⟨i, _, hi⟩ := List.mem_filterMap.mp he
    unfold cullClass at hi
    split_ifs at hi with h1 h2
    · cases hi; exact ⟨fun _ => h1, fun h => by cases h⟩
    · cases hi
      rw [Bool.and_eq_true] at h2
      exact ⟨fun h => by (cases h), fun _ => h2.2⟩
  have hfm : ∀ (l : List ℕ), (l.flatMap fun i => (constructGhostsScatterGather d cell seen
      (part i)).filterMap (cullClass (NM.near kernrange cell) (fun q => gravmask q.ptype) keepDirect i)) =
      l.filterMap fun i => cullClass (NM.near kernrange cell) (fun q => gravmask q.ptype) keepDirect i
        (moved i) := by
    intro l
    induction l with
    | nil => rfl
    | cons i l ih =>
      rw [List.flatMap_cons, ih, hone]
      rw [List.filterMap_cons, List.filterMap_nil, List.filterMap_cons]
      simp only [moved]
      cases cullClass (NM.near kernrange cell) (fun q => gravmask q.ptype) keepDirect i
        (NPart.nearestGhost d cell.rcell (part i)) <;> rfl
  refine ⟨?_, ?_, ?_, ?_, ?_, ?_⟩
  · rw [hzip, List.map_append]
    refine List.Perm.append ?_ ?_
    · refine (hE1.map _).trans (List.Perm.of_eq ?_)
      unfold searchEntries
      rw [List.map_append, hfm, hcls]
      congr 1
      · cases keepDirect
        · rfl
        · simp only [if_true, List.map_map]
          rfl
      · rw [List.filter_filter]
        congr 2
        funext i
        simp only [live, keep, Bool.and_comm]
    · rw [hE2, hcls part, List.filter_filter]
      refine List.Perm.of_eq ?_
      congr 2
      funext i
      simp only [live, keep, Bool.and_comm]
  · rw [hR.idx, hR.data]; simp
  · have := idxs_perm (E1 ++ E2)
    rw [hR.neib, hR.direct, hR.data, List.length_map]
    exact this
  · rw [hR.direct]; exact hC
  · intro t ht
    rw [hR.neib, mem_idxs] at ht
    obtain ⟨i, q, hq⟩ := ht
    refine ⟨q, by rw [hR.data, List.getElem?_map, hq]; rfl, ?_⟩
    rcases List.mem_append.mp (List.mem_of_getElem? hq) with h | h
    · have h := hE1.mem_iff.mp h
      unfold searchEntries at h
      rcases List.mem_append.mp h with h | h
      · split_ifs at h
        · obtain ⟨i', _, e⟩ := List.mem_map.mp h; cases e
        · cases h
      · rw [hfm] at h; exact (hflag _ _ _ h).1 rfl
    · rw [hE2] at h; exact (hflag _ _ _ h).1 rfl
  · intro t ht
    rw [hR.direct, mem_idxs] at ht
    obtain ⟨i, q, hq⟩ := ht
    refine ⟨q, by rw [hR.data, List.getElem?_map, hq]; rfl, ?_⟩
    rcases List.mem_append.mp (List.mem_of_getElem? hq) with h | h
    · have h := hE1.mem_iff.mp h
      unfold searchEntries at h
      rcases List.mem_append.mp h with h | h
      · split_ifs at h
        · obtain ⟨i', hi', e⟩ := List.mem_map.mp h
          have := (List.mem_filter.mp hi').2
          rw [Bool.and_eq_true] at this
          cases e
          have e2 : ((part i).nearestGhost d cell.rcell).ptype = (part i).ptype := by
            unfold NPart.nearestGhost; split_ifs <;> rfl
          simp only [e2]
          exact this.2
        · cases h
      · rw [hfm] at h; exact (hflag _ _ _ h).2 rfl
    · rw [hE2] at h; exact (hflag _ _ _ h).2 rfl

/-- **C11, defect.** Line 463 of NeighbourManager.h reads the type of `neibdata[Nneib]`, one past the
end of the vector, instead of the type of the candidate. There is a gravitating live candidate outside
the kernel range that is dropped for some content of that memory. -/
theorem C11_demotion_reads_past_end : ∃ (d : Domain 1 ℚ) (cell : TargetCell 1 ℚ)
    (part : ℕ → NPart 1 ℚ) (junk : NPart 1 ℚ) (gravmask : ℕ → Bool),
    d.anyMirror = false ∧ Flags.is_dead (part 0).flags = false ∧ gravmask (part 0).ptype = true ∧
    (NM.endSearch d 2 gravmask (fun q k _ => q.r k) junk cell part [] [0] [] true).neibIdx = [] := by
  refine ⟨⟨fun _ => 0, fun _ => 1, fun _ => .open_, fun _ => .open_, fun _ => 1, fun _ => 1 / 2⟩,
    ⟨fun _ => 0, ⟨fun _ => 0, fun _ => 0⟩, ⟨fun _ => 0, fun _ => 0⟩, 0, 1⟩,
    fun _ => ⟨fun _ => 100, fun _ => 0, fun _ => 0, 1, 1, 4, 0, 0, 0, 0⟩,
    ⟨fun _ => 100, fun _ => 0, fun _ => 0, 1, 1, 4, 3, 0, 0, 0⟩, fun t => t == 0, ?_⟩
  decide +kernel

/-- four exclusive and exhaustive classes split a list -/
theorem perm_four_classes {β : Type*} (p1 p2 p3 p4 : β → Prop) [DecidablePred p1] [DecidablePred p2]
    [DecidablePred p3] [DecidablePred p4] (L : List β)
    (h : ∀ x ∈ L, (p1 x ∧ ¬ p2 x ∧ ¬ p3 x ∧ ¬ p4 x) ∨ (¬ p1 x ∧ p2 x ∧ ¬ p3 x ∧ ¬ p4 x) ∨
      (¬ p1 x ∧ ¬ p2 x ∧ p3 x ∧ ¬ p4 x) ∨ (¬ p1 x ∧ ¬ p2 x ∧ ¬ p3 x ∧ p4 x)) :
    (L.filter p1 ++ L.filter p2 ++ L.filter p3 ++ L.filter p4).Perm L := by
  induction L with
  | nil => simp
  | cons x L ih =>
    have ih := ih fun y hy => h y (List.mem_cons_of_mem _ hy)
    rw [← Multiset.coe_eq_coe] at ih ⊢
    simp only [← Multiset.coe_add, ← Multiset.filter_coe] at ih
    simp only [← Multiset.coe_add, ← Multiset.filter_coe, ← Multiset.cons_coe, Multiset.filter_cons]
    have hx : x ::ₘ (L : Multiset β) = {x} + (Multiset.filter p1 L + Multiset.filter p2 L +
        Multiset.filter p3 L + Multiset.filter p4 L) := by rw [ih, Multiset.singleton_add]
    rw [hx]
    rcases h x List.mem_cons_self with ⟨h1, h2, h3, h4⟩ | ⟨h1, h2, h3, h4⟩ | ⟨h1, h2, h3, h4⟩ |
        ⟨h1, h2, h3, h4⟩ <;>
      simp only [h1, h2, h3, h4, if_true, if_false] <;> abel

/-- squared distance used for a candidate: to the nearest periodic image for candidates that were
moved and can be hydro neighbours, the plain distance otherwise -/
def trimDistSqd (d : Domain n α) (hydromask : ℕ → Bool) (nPer : ℕ) (p q : NPart n α) (j : ℕ) : α :=
  let dr : Vec n α := fun k => q.r k - p.r k
  if j < nPer ∧ hydromask q.ptype = true then
    dot (nearestPeriodicVector d dr).1 (nearestPeriodicVector d dr).1 else dot dr dr

theorem trimSep_dist (d : Domain n α) (hpair : ∀ k, d.lhs k = .periodic ↔ d.rhs k = .periodic)
    (hydromask : ℕ → Bool) (nPer : ℕ) (p q : NPart n α) (j : ℕ) :
    dot (trimSep d hydromask nPer p q j) (trimSep d hydromask nPer p q j) =
      trimDistSqd d hydromask nPer p q j := by
  unfold trimSep trimDistSqd
  split_ifs with h
  · have e : ghostNearest d (fun k => q.r k - p.r k) =
        (nearestPeriodicVector d fun k => q.r k - p.r k).1 := by
      funext k
      simp only [ghostNearest, nearestPeriodicVector]
      by_cases ha : d.anyPeriodic = true
      · rw [if_pos ha]
        by_cases hk : d.lhs k = .periodic
        · have hr := (hpair k).mp hk
          simp only [Domain.periodicBound, hk, hr, and_self, if_true, beq_self_eq_true]
          split_ifs <;> ring
        · have : (d.periodicBound k) = false := by simp [Domain.periodicBound, hk]
          simp [this, hk]
      · rw [if_neg ha]
        have hk : d.lhs k ≠ .periodic := by
          intro hk
          apply ha
          simp only [Domain.anyPeriodic, List.any_eq_true]
          exact ⟨k, List.mem_finRange k, by simp [Domain.periodicBound, hk]⟩
        simp [hk]
    simp only [e]
  · rfl

/-- **C11, trimming for gravity.** For every particle `p` and every manager whose hydro list holds
valid, distinct entry numbers: trimming splits the hydro list into four classes, every entry being in
exactly one: hydro neighbours (`culled`: allowed type and inside either kernel), smoothed-gravity
neighbours (other gravitating types inside either kernel), direct-sum neighbours (gravitating, outside
both kernels) and non-interacting ones (counted). The direct list keeps the cell's direct particles. -/
theorem C11_trim_partition (d : Domain n α) (hpair : ∀ k, d.lhs k = .periodic ↔ d.rhs k = .periodic)
    (hydromask gravmask : ℕ → Bool) (junk p : NPart n α) (s : NM n α)
    (hnd : s.neiblist.Nodup) (hlt : ∀ i ∈ s.neiblist, i < s.neibdata.length) :
    let t := s.trim d hydromask gravmask false true junk p
    ∃ newDirect non : List ℕ, t.direct = s.directlist.take s.nCellDirectNeib ++ newDirect ∧
      non.length = t.nonInteract ∧
      (t.culled ++ t.smooth ++ newDirect ++ non).Perm s.neiblist ∧
      ∀ (j i : ℕ) (q : NPart n α), s.neiblist[j]? = some i → s.neibdata[i]? = some q →
        let inK := trimDistSqd d hydromask s.nPeriodicGhosts p q j < max p.hrangesqd q.hrangesqd
        (i ∈ t.culled ↔ inK ∧ hydromask q.ptype = true) ∧
        (i ∈ t.smooth ↔ inK ∧ hydromask q.ptype = false ∧ gravmask q.ptype = true) ∧
        (i ∈ newDirect ↔ ¬ inK ∧ gravmask q.ptype = true) ∧
        (i ∈ non ↔ gravmask q.ptype = false ∧ (inK → hydromask q.ptype = false)) := by
  classical
  intro t
  set L := (List.range s.neiblist.length).zip s.neiblist with hL
  have hsnd : L.map Prod.snd = s.neiblist := by
    rw [hL]; exact List.map_snd_zip (by simp)
  obtain ⟨c1, c2, c3, c4, -, -, -⟩ := trim_fold d hydromask gravmask false true s.nPeriodicGhosts junk p
    (fun i => s.neibdata.getD i junk) L
    { neibdata := s.neibdata, direct := s.directlist.take s.nCellDirectNeib }
    (by rw [hsnd]; exact hnd)
    (fun ji hji => ⟨hlt _ (by rw [← hsnd]; exact List.mem_map_of_mem hji), rfl⟩)
  change t.culled = _ at c1
  change t.smooth = _ at c2
  change t.direct = _ at c3
  change t.nonInteract = _ at c4
  simp only [List.nil_append, Nat.zero_add, firstAppearance, true_and, Bool.false_eq_true,
    if_false] at c1 c2 c3 c4
  set data : ℕ → NPart n α := fun i => s.neibdata.getD i junk with hdata
  set inK : ℕ × ℕ → Prop := fun ji => InKernel p (data ji.2)
    (trimSep d hydromask s.nPeriodicGhosts p (data ji.2) ji.1) with hinK
  set hy : ℕ × ℕ → Prop := fun ji => hydromask (data ji.2).ptype = true with hhy
  set gr : ℕ × ℕ → Prop := fun ji => gravmask (data ji.2).ptype = true with hgr
  refine ⟨(L.filter fun ji => ¬ inK ji ∧ gr ji).map Prod.snd,
    (L.filter fun ji => ¬ gr ji ∧ (inK ji → ¬ hy ji)).map Prod.snd, c3, ?_, ?_, ?_⟩
  · rw [c4, List.length_map]
  · rw [c1, c2, ← List.map_append, ← List.map_append, ← List.map_append, ← hsnd]
    refine List.Perm.map _ ?_
    refine perm_four_classes (fun x => inK x ∧ hy x) (fun x => inK x ∧ ¬ hy x ∧ gr x)
      (fun x => ¬ inK x ∧ gr x) (fun x => ¬ gr x ∧ (inK x → ¬ hy x)) L fun x _ => ?_
    by_cases h1 : inK x <;> by_cases h2 : hy x <;> by_cases h3 : gr x <;> simp [h1, h2, h3]
  · intro j i q hj hi
    have hji : (j, i) ∈ L := by
      rw [hL]
      obtain ⟨hlt, e⟩ := List.getElem?_eq_some_iff.mp hj
      rw [List.mem_iff_getElem]
      exact ⟨j, by simpa using hlt, by simp [e]⟩
    have huniq : ∀ (c : ℕ × ℕ → Prop) [DecidablePred c],
        i ∈ (L.filter c).map Prod.snd ↔ c (j, i) := by
      intro c _
      constructor
      · intro h
        obtain ⟨x, hx, e⟩ := List.mem_map.mp h
        obtain ⟨hx, hc⟩ := List.mem_filter.mp hx
        have : x = (j, i) := by
          have hn : (L.map Prod.snd).Nodup := by rw [hsnd]; exact hnd
          exact List.inj_on_of_nodup_map hn hx hji e
        rw [← this]; simpa using hc
      · intro h
        exact List.mem_map.mpr ⟨(j, i), List.mem_filter.mpr ⟨hji, by simpa using h⟩, rfl⟩
    have hq : data i = q := by simp [hdata, List.getD_eq_getElem?_getD, hi]
    have hk : inK (j, i) ↔ trimDistSqd d hydromask s.nPeriodicGhosts p q j <
        max p.hrangesqd q.hrangesqd := by
      simp only [hinK, hq, InKernel]
      rw [trimSep_dist d hpair]
      simp [lt_max_iff]
    simp only
    rw [c1, c2, ← hk]
    refine ⟨(huniq fun x => inK x ∧ hy x).trans ?_, (huniq fun x => inK x ∧ ¬ hy x ∧ gr x).trans ?_,
      (huniq fun x => ¬ inK x ∧ gr x).trans ?_,
      (huniq fun x => ¬ gr x ∧ (inK x → ¬ hy x)).trans ?_⟩ <;>
    simp only [hhy, hgr, hq] <;> simp


/-- **C11, the assertion of the code** (NeighbourManager.h:346). In a box without mirrors, after the
search and the trims for any sequence of particles of the cell, the four counts of the trim for the
next particle add up to the number of entries of the search. -/
theorem C11_counts (d : Domain n α) (hmir : d.anyMirror = false)
    (hpair : ∀ k, d.lhs k = .periodic ↔ d.rhs k = .periodic) (kernrange : α)
    (gravmask : ℕ → Bool) (seen : NPart n α → Fin n → Side → α) (junk : NPart n α)
    (cell : TargetCell n α) (part : ℕ → NPart n α) (tempper tempdirect : List ℕ)
    (ps : List ((ℕ → Bool) × NPart n α)) (hydromask : ℕ → Bool) (p : NPart n α) :
    let s := NM.endSearch d kernrange gravmask seen junk cell part tempper [] tempdirect true
    let s' := ps.foldl (fun s x => s.afterTrim (s.trim d x.1 gravmask false true junk x.2)) s
    let t := s'.trim d hydromask gravmask false true junk p
    t.culled.length + t.direct.length + t.smooth.length + t.nonInteract = s.neibIdx.length ∧
    (t.culled ++ t.smooth ++ t.direct).Nodup ∧
    ∀ i ∈ t.culled ++ t.smooth ++ t.direct, i < s.neibdata.length := by
  classical
  intro s s' t
  obtain ⟨-, h2, h3, h4, h5, -⟩ := C11_endSearch d hmir kernrange gravmask seen junk cell part tempper []
    tempdirect true (fun _ i hi => by cases hi)
  have h2 : s.neibIdx.length = s.neibdata.length := h2
  have h3 : (s.neiblist ++ s.directlist).Perm (List.range s.neibdata.length) := h3
  have h4 : s.nCellDirectNeib = s.directlist.length := h4
  -- the trims keep the lists
  have inv : s'.neiblist = s.neiblist ∧ s'.nCellDirectNeib = s.nCellDirectNeib ∧
      s'.neibdata.length = s.neibdata.length ∧ s'.directlist.take s.nCellDirectNeib = s.directlist := by
    have hnd : s.neiblist.Nodup := ((h3.nodup_iff.mpr List.nodup_range).of_append_left)
    have hlt : ∀ i ∈ s.neiblist, i < s.neibdata.length := fun i hi =>
      List.mem_range.mp (h3.mem_iff.mp (List.mem_append_left _ hi))
    have key : ∀ (ps : List ((ℕ → Bool) × NPart n α)) (u : NM n α), (u.neiblist = s.neiblist ∧
        u.nCellDirectNeib = s.nCellDirectNeib ∧ u.neibdata.length = s.neibdata.length ∧
        u.directlist.take s.nCellDirectNeib = s.directlist) →
        let u' := ps.foldl (fun s x => s.afterTrim (s.trim d x.1 gravmask false true junk x.2)) u
        u'.neiblist = s.neiblist ∧ u'.nCellDirectNeib = s.nCellDirectNeib ∧
        u'.neibdata.length = s.neibdata.length ∧
        u'.directlist.take s.nCellDirectNeib = s.directlist := by
      intro ps
      induction ps with
      | nil => intro u hu; exact hu
      | cons x ps ih =>
        intro u ⟨u1, u2, u3, u4⟩
        refine ih _ ⟨u1, u2, ?_, ?_⟩
        · set L := (List.range u.neiblist.length).zip u.neiblist with hL
          have hsnd : L.map Prod.snd = u.neiblist := by rw [hL]; exact List.map_snd_zip (by simp)
          have := (trim_fold d x.1 gravmask false true u.nPeriodicGhosts junk x.2
            (fun i => u.neibdata.getD i junk) L
            { neibdata := u.neibdata, direct := u.directlist.take u.nCellDirectNeib }
            (by rw [hsnd, u1]; exact hnd)
            (fun ji hji => ⟨by rw [u3]; exact hlt _ (by
              rw [← u1, ← hsnd]; exact List.mem_map_of_mem hji), rfl⟩)).2.2.2.2.1
          change (u.trim d x.1 gravmask false true junk x.2).neibdata.length = _ at this
          exact this.trans u3
        · obtain ⟨nd, -, e, -⟩ := C11_trim_partition d hpair x.1 gravmask junk x.2 u (by rw [u1]; exact hnd)
            (by rw [u1, u3]; exact hlt)
          change ((u.trim d x.1 gravmask false true junk x.2).direct).take _ = _
          rw [e, u2, u4, h4, List.take_append_of_le_length (le_refl _), List.take_length]
    exact key ps s ⟨rfl, rfl, rfl, by rw [h4, List.take_length]⟩
  obtain ⟨i1, i2, i3, i4⟩ := inv
  have hnd : s'.neiblist.Nodup := by rw [i1]; exact (h3.nodup_iff.mpr List.nodup_range).of_append_left
  have hlt : ∀ i ∈ s'.neiblist, i < s'.neibdata.length := by
    rw [i1, i3]
    exact fun i hi => List.mem_range.mp (h3.mem_iff.mp (List.mem_append_left _ hi))
  obtain ⟨nd, non, e, en, hp, -⟩ := C11_trim_partition d hpair hydromask gravmask junk p s' hnd hlt
  have e : t.direct = s'.directlist.take s'.nCellDirectNeib ++ nd := e
  have en : non.length = t.nonInteract := en
  have hp : (t.culled ++ t.smooth ++ nd ++ non).Perm s'.neiblist := hp
  rw [i2, i4] at e
  have hall : ((t.culled ++ t.smooth ++ t.direct) ++ non).Perm (List.range s.neibdata.length) := by
    refine List.Perm.trans ?_ h3
    rw [← i1, e]
    refine List.Perm.trans ?_ (hp.append_right s.directlist)
    rw [← Multiset.coe_eq_coe]
    simp only [← Multiset.coe_add]
    abel
  refine ⟨?_, ?_, ?_⟩
  · have := hall.length_eq
    simp only [List.length_append, List.length_range] at this
    omega
  · exact (hall.nodup_iff.mpr List.nodup_range).of_append_left
  · intro i hi
    exact List.mem_range.mp (hall.mem_iff.mp (List.mem_append_left _ hi))

section examples

/-- periodic line of length 10 -/
def exBox11 : Domain 1 ℚ where
  min := fun _ => 0
  max := fun _ => 10
  lhs := fun _ => .periodic
  rhs := fun _ => .periodic
  size := fun _ => 10
  half := fun _ => 5

/-- gas (type 0), dust (type 1, does not gravitate), a far gas particle and a star-like type 2 -/
def exPart11 : ℕ → NPart 1 ℚ
  | 0 => ⟨fun _ => 1 / 2, fun _ => 0, fun _ => 0, 1, 1 / 2, 1, 0, 0, 0, 0⟩
  | 1 => ⟨fun _ => 39 / 4, fun _ => 0, fun _ => 0, 1, 1 / 2, 1, 0, 0, 0, 1⟩
  | 2 => ⟨fun _ => 3 / 4, fun _ => 0, fun _ => 0, 1, 1 / 2, 1, 1, 0, 0, 2⟩
  | 3 => ⟨fun _ => 5, fun _ => 0, fun _ => 0, 1, 1 / 2, 1, 0, 0, 0, 3⟩
  | 4 => ⟨fun _ => 1 / 4, fun _ => 0, fun _ => 0, 1, 1 / 2, 1, 2, 0, 0, 4⟩
  | _ => ⟨fun _ => 2, fun _ => 0, fun _ => 0, 1, 1 / 2, 1, 0, 0, 0, 5⟩

def exCell11 : TargetCell 1 ℚ :=
  ⟨fun _ => 1 / 2, ⟨fun _ => 1 / 2, fun _ => 1 / 2⟩, ⟨fun _ => -1 / 2, fun _ => 3 / 2⟩, 1, 1 / 2⟩

/-- type 1 neither gravitates nor is a hydro type; type 2 only gravitates -/
def exNM11 : NM 1 ℚ := NM.endSearch exBox11 2 (fun t => t != 1) (fun q k _ => q.r k) (exPart11 0) exCell11
  exPart11 [0, 1, 2, 4, 5] [] [3] true

-- hypotheses of the theorems hold, all four classes are inhabited, the image of particle 1 is moved to -1/4
example : exBox11.anyMirror = false := by decide +kernel
example : exNM11.neibIdx = [3, 0, 1, 2, 4, 5] ∧ exNM11.neiblist = [1, 2, 3, 4, 5] ∧
    exNM11.directlist = [0] := by
  decide +kernel
example : let t := exNM11.trim exBox11 (fun t => t == 0) (fun t => t != 1) false true (exPart11 0) (exPart11 0)
    t.culled = [1, 2] ∧ t.smooth = [4] ∧ t.direct = [0, 5] ∧ t.nonInteract = 1 := by decide +kernel
example : (exNM11.neibdata.map fun q => q.r 0) = [5, 1 / 2, -1 / 4, 3 / 4, 1 / 4, 2] := by decide +kernel

end examples

end Gandalf
