import Verif.Model.NeighbourManager
import Verif.Proof.Ghost
import Mathlib.Data.List.Perm.Basic
import Mathlib.Data.List.Range

set_option autoImplicit false
set_option linter.unusedSectionVars false

namespace Gandalf

variable {n : ℕ} {α : Type*} [Field α] [LinearOrder α]

/-- a record of the search: particle number, data, and whether it is a hydro candidate -/
abbrev Entry (n : ℕ) (α : Type*) := ℕ × NPart n α × Bool

/-- positions of the entries of kind `b` -/
def idxs (b : Bool) (E : List (Entry n α)) : List ℕ :=
  (List.range E.length).filter fun t => (E[t]?).map (fun e => e.2.2) == some b

/-- the manager holds the entries `E` -/
structure NM.Rep (s : NM n α) (E : List (Entry n α)) : Prop where
  idx : s.neibIdx = E.map fun e => e.1
  data : s.neibdata = E.map fun e => e.2.1
  neib : s.neiblist = idxs true E
  direct : s.directlist = idxs false E

theorem idxs_snoc (b : Bool) (E : List (Entry n α)) (e : Entry n α) :
    idxs b (E ++ [e]) = idxs b E ++ if e.2.2 = b then [E.length] else [] := by
  unfold idxs
  rw [List.length_append, List.length_singleton, List.range_succ, List.filter_append]
  congr 1
  · refine List.filter_congr ?_
    intro t ht
    rw [List.getElem?_append_left (List.mem_range.mp ht)]
  · have : ((E ++ [e])[E.length]?) = some e := by simp
    by_cases h : e.2.2 = b
    · rw [if_pos h, List.filter_cons, this]; simp [h]
    · rw [if_neg h, List.filter_cons, this]; simp [h]

theorem idxs_append (b : Bool) (E E' : List (Entry n α)) :
    ∃ r, idxs b (E ++ E') = idxs b E ++ r ∧ ∀ t ∈ r, E.length ≤ t := by
  induction E' using List.reverseRecOn with
  | nil => exact ⟨[], by simp, by simp⟩
  | append_singleton E' e ih =>
    obtain ⟨r, h1, h2⟩ := ih
    rw [← List.append_assoc, idxs_snoc, h1, List.append_assoc]
    refine ⟨_, rfl, ?_⟩
    intro t ht
    rcases List.mem_append.mp ht with h | h
    · exact h2 t h
    · split_ifs at h
      · rw [List.mem_singleton] at h; subst h; simp
      · cases h

theorem mem_idxs (b : Bool) (E : List (Entry n α)) (t : ℕ) :
    t ∈ idxs b E ↔ ∃ i q, E[t]? = some (i, q, b) := by
  unfold idxs
  rw [List.mem_filter, List.mem_range]
  constructor
  · rintro ⟨h1, h2⟩
    rw [beq_iff_eq, Option.map_eq_some_iff] at h2
    obtain ⟨⟨i, q, b'⟩, h3, h4⟩ := h2
    exact ⟨i, q, by rw [h3]; simp only at h4; rw [h4]⟩
  · rintro ⟨i, q, h⟩
    refine ⟨?_, by rw [h]; simp⟩
    exact (List.getElem?_eq_some_iff.mp h).1

theorem nodup_idxs (b : Bool) (E : List (Entry n α)) : (idxs b E).Nodup :=
  List.nodup_range.filter _

theorem idxs_perm (E : List (Entry n α)) :
    (idxs true E ++ idxs false E).Perm (List.range E.length) := by
  have h := List.filter_append_perm (fun t => (E[t]?).map (fun e => e.2.2) == some true)
    (List.range E.length)
  refine List.Perm.trans ?_ h
  refine List.Perm.append_left _ ?_
  unfold idxs
  refine List.Perm.of_eq (List.filter_congr ?_)
  intro t ht
  have : t < E.length := List.mem_range.mp ht
  rw [List.getElem?_eq_getElem this]
  cases h : E[t].2.2 <;> simp [h]

theorem NM.Rep.snoc {s : NM n α} {E : List (Entry n α)} (h : s.Rep E) (i : ℕ) (q : NPart n α) (b : Bool)
    (s' : NM n α) (h1 : s'.neibIdx = s.neibIdx ++ [i]) (h2 : s'.neibdata = s.neibdata ++ [q])
    (h3 : s'.neiblist = s.neiblist ++ if b then [E.length] else [])
    (h4 : s'.directlist = s.directlist ++ if b then [] else [E.length]) : s'.Rep (E ++ [(i, q, b)]) := by
  constructor
  · rw [h1, h.idx]; simp
  · rw [h2, h.data]; simp
  · rw [h3, h.neib, idxs_snoc]
  · rw [h4, h.direct, idxs_snoc]; cases b <;> simp

/-- what happens to a ghost -/
def cullClass (near grav : NPart n α → Bool) (keepDirect : Bool) (i : ℕ) (q : NPart n α) :
    Option (Entry n α) :=
  if near q then some (i, q, true) else if keepDirect && grav q then some (i, q, false) else none

/-- The culling loop: entries found so far `E`, ghosts still to be looked at `pend`. -/
theorem cullLoop_spec (near grav : NPart n α → Bool) (keepDirect : Bool) (junk : NPart n α) (i : ℕ) :
    ∀ (fuel : ℕ) (pend : List (NPart n α)) (E : List (Entry n α)) (s : NM n α),
      pend.length ≤ fuel →
      s.neibIdx = E.map (fun e => e.1) → s.neibdata = E.map (fun e => e.2.1) ++ pend →
      s.neiblist = idxs true E → s.directlist = idxs false E →
      ∃ E', (NM.cullLoop near grav keepDirect junk i fuel E.length s).Rep (E ++ E') ∧
        E'.Perm (pend.filterMap (cullClass near grav keepDirect i)) := by
  intro fuel
  induction fuel with
  | zero =>
    intro pend E s hf h1 h2 h3 h4
    have : pend = [] := List.length_eq_zero_iff.mp (Nat.le_zero.mp hf)
    subst this
    refine ⟨[], ?_, by simp⟩
    rw [List.append_nil, NM.cullLoop]
    exact ⟨h1, by simpa using h2, h3, h4⟩
  | succ fuel ih =>
    intro pend E s hf h1 h2 h3 h4
    rw [NM.cullLoop]
    cases pend with
    | nil =>
      have : ¬ E.length < s.neibdata.length := by rw [h2]; simp
      rw [if_neg this]
      exact ⟨[], ⟨by simpa using h1, by simpa using h2, by simpa using h3, by simpa using h4⟩, by simp⟩
    | cons q rest =>
      have hlen : s.neibdata.length = E.length + (rest.length + 1) := by rw [h2]; simp
      have hlt : E.length < s.neibdata.length := by omega
      rw [if_pos hlt]
      have hq : s.neibdata.getD E.length junk = q := by
        rw [h2]; simp [List.getD]
      simp only [hq]
      by_cases hn : near q = true
      · rw [if_pos hn]
        obtain ⟨E', g1, g2⟩ := ih rest (E ++ [(i, q, true)])
          { s with
            neiblist := s.neiblist ++ [E.length]
            neibIdx := s.neibIdx ++ [i] } (by simpa using hf) (by simp [h1])
          (by simp [h2]) (by simp [h3, idxs_snoc]) (by simp [h4, idxs_snoc])
        rw [List.length_append, List.length_singleton] at g1
        refine ⟨(i, q, true) :: E', by simpa using g1, ?_⟩
        rw [List.filterMap_cons_some (b := (i, q, true)) (by simp [cullClass, hn])]
        exact g2.cons _
      · rw [if_neg hn]
        by_cases hg : (keepDirect && grav q) = true
        · rw [if_pos hg]
          obtain ⟨E', g1, g2⟩ := ih rest (E ++ [(i, q, false)])
            { s with
              directlist := s.directlist ++ [E.length]
              neibIdx := s.neibIdx ++ [i] } (by simpa using hf) (by simp [h1])
            (by simp [h2]) (by simp [h3, idxs_snoc]) (by simp [h4, idxs_snoc])
          rw [List.length_append, List.length_singleton] at g1
          refine ⟨(i, q, false) :: E', by simpa using g1, ?_⟩
          rw [List.filterMap_cons_some (b := (i, q, false)) (by simp [cullClass, hn, hg])]
          exact g2.cons _
        · rw [if_neg hg]
          have hc : cullClass near grav keepDirect i q = none := by simp [cullClass, hn, hg]
          rw [List.filterMap_cons_none hc]
          cases rest using List.reverseRecOn with
          | nil =>
            have : ¬ s.neibdata.length - 1 > E.length := by rw [hlen]; simp
            rw [if_neg this]
            obtain ⟨E', g1, g2⟩ := ih [] E { s with neibdata := s.neibdata.dropLast } (by simp) h1
              (by simp [h2]) h3 h4
            exact ⟨E', g1, g2⟩
          | append_singleton rest x _ =>
            have hgt : s.neibdata.length - 1 > E.length := by rw [hlen]; simp
            rw [if_pos hgt]
            have hx : s.neibdata.getD (s.neibdata.length - 1) junk = x := by
              have e : s.neibdata = (E.map (fun e => e.2.1) ++ q :: rest) ++ [x] := by rw [h2]; simp
              rw [e]
              simp [List.getD]
            rw [hx]
            have hset : (s.neibdata.set E.length x).dropLast =
                E.map (fun e => e.2.1) ++ x :: rest := by
              rw [h2, List.set_append_right _ _ (by simp)]
              simp only [List.length_map, Nat.sub_self, List.set_cons_zero]
              rw [List.dropLast_append_of_ne_nil (by simp)]
              congr 1
              rw [← List.cons_append, List.dropLast_concat]
            obtain ⟨E', g1, g2⟩ := ih (x :: rest) E
              { s with neibdata := (s.neibdata.set E.length x).dropLast }
              (by simp at hf ⊢; omega) h1 hset h3 h4
            refine ⟨E', g1, g2.trans ?_⟩
            exact (List.perm_append_singleton x rest).symm.filterMap _

theorem perStep_spec (ghosts : NPart n α → List (NPart n α)) (near grav : NPart n α → Bool)
    (keepDirect : Bool) (junk : NPart n α) (part : ℕ → NPart n α) :
    ∀ (l : List ℕ) (s : NM n α) (E : List (Entry n α)), s.Rep E →
      ∃ E', (l.foldl (NM.perStep ghosts near grav keepDirect junk part) (s, E.length)).1.Rep (E ++ E') ∧
        (l.foldl (NM.perStep ghosts near grav keepDirect junk part) (s, E.length)).2 =
          (E ++ E').length ∧
        E'.Perm ((l.filter fun i => !Flags.is_dead (part i).flags).flatMap fun i =>
          (ghosts (part i)).filterMap (cullClass near grav keepDirect i))
  | [], s, E, h => ⟨[], by simpa using h, by simp, by simp⟩
  | i :: l, s, E, h => by
    rw [List.foldl_cons]
    by_cases hd : Flags.is_dead (part i).flags = true
    · obtain ⟨E', g⟩ := perStep_spec ghosts near grav keepDirect junk part l s E h
      refine ⟨E', ?_⟩
      have : NM.perStep ghosts near grav keepDirect junk part (s, E.length) i = (s, E.length) := by
        simp [NM.perStep, hd]
      rw [this]
      simpa [List.filter_cons, hd] using g
    · obtain ⟨E1, g1, g2⟩ := cullLoop_spec near grav keepDirect junk i
        (s.neibdata.length + (ghosts (part i)).length) (ghosts (part i)) E
        { s with neibdata := s.neibdata ++ ghosts (part i) } (by omega) h.idx (by simp [h.data]) h.neib
        h.direct
      have e : NM.perStep ghosts near grav keepDirect junk part (s, E.length) i =
          (NM.cullLoop near grav keepDirect junk i (s.neibdata.length + (ghosts (part i)).length) E.length
            { s with neibdata := s.neibdata ++ ghosts (part i) }, (E ++ E1).length) := by
        simp only [NM.perStep, hd]
        rw [g1.data]
        simp
      rw [e]
      obtain ⟨E2, k1, k2, k3⟩ := perStep_spec ghosts near grav keepDirect junk part l _ _ g1
      refine ⟨E1 ++ E2, by simpa using k1, by simpa using k2, ?_⟩
      rw [List.filter_cons_of_pos (by simpa using hd), List.flatMap_cons]
      exact g2.append k3

theorem neibStep_spec (near grav : NPart n α → Bool) (keepDirect : Bool) (junk : NPart n α)
    (part : ℕ → NPart n α) : ∀ (l : List ℕ) (s : NM n α) (E : List (Entry n α)), s.Rep E →
      (keepDirect = true → ∀ i ∈ l, grav junk = grav (part i)) →
      ((l.foldl (NM.neibStep near grav keepDirect junk part) (s, E.length)).1.Rep
        (E ++ (l.filter fun i => !Flags.is_dead (part i).flags).filterMap fun i =>
          cullClass near grav keepDirect i (part i))) ∧
      (l.foldl (NM.neibStep near grav keepDirect junk part) (s, E.length)).1.nPeriodicGhosts =
        s.nPeriodicGhosts
  | [], s, E, h, _ => ⟨by simpa using h, rfl⟩
  | i :: l, s, E, h, hg => by
    have hg' : keepDirect = true → ∀ i ∈ l, grav junk = grav (part i) := fun h j hj =>
      hg h j (List.mem_cons_of_mem _ hj)
    rw [List.foldl_cons]
    by_cases hd : Flags.is_dead (part i).flags = true
    · have : NM.neibStep near grav keepDirect junk part (s, E.length) i = (s, E.length) := by
        simp [NM.neibStep, hd]
      rw [this, List.filter_cons_of_neg (by simpa using hd)]
      exact neibStep_spec near grav keepDirect junk part l s E h hg'
    · rw [List.filter_cons_of_pos (by simpa using hd)]
      have hj : s.neibdata.getD E.length junk = junk := by
        rw [h.data]; simp [List.getD]
      by_cases hn : near (part i) = true
      · have e : NM.neibStep near grav keepDirect junk part (s, E.length) i =
          ({ s with
             neibdata := s.neibdata ++ [part i]
             neiblist := s.neiblist ++ [E.length]
             neibIdx := s.neibIdx ++ [i] }, (E ++ [(i, part i, true)]).length) := by
          simp [NM.neibStep, hd, hn]
        rw [e, List.filterMap_cons_some (b := (i, part i, true)) (by simp [cullClass, hn])]
        have := neibStep_spec near grav keepDirect junk part l _ _
          (h.snoc i (part i) true { s with
             neibdata := s.neibdata ++ [part i]
             neiblist := s.neiblist ++ [E.length]
             neibIdx := s.neibIdx ++ [i] } rfl rfl (by simp) (by simp)) hg'
        simpa using this
      · have hgq : (keepDirect && grav junk) = (keepDirect && grav (part i)) := by
          cases keepDirect
          · rfl
          · simp [hg rfl i List.mem_cons_self]
        by_cases hgv : (keepDirect && grav (part i)) = true
        · have e : NM.neibStep near grav keepDirect junk part (s, E.length) i =
            ({ s with
               neibdata := s.neibdata ++ [part i]
               directlist := s.directlist ++ [E.length]
               neibIdx := s.neibIdx ++ [i] }, (E ++ [(i, part i, false)]).length) := by
            simp only [NM.neibStep, hd, hn, hj, hgq, hgv]
            simp
          rw [e, List.filterMap_cons_some (b := (i, part i, false)) (by simp [cullClass, hn, hgv])]
          have := neibStep_spec near grav keepDirect junk part l _ _
            (h.snoc i (part i) false { s with
               neibdata := s.neibdata ++ [part i]
               directlist := s.directlist ++ [E.length]
               neibIdx := s.neibIdx ++ [i] } rfl rfl (by simp) (by simp)) hg'
          simpa using this
        · have e : NM.neibStep near grav keepDirect junk part (s, E.length) i = (s, E.length) := by
            simp only [NM.neibStep, hd, hn, hj, hgq, hgv]
            simp
          rw [e, List.filterMap_cons_none (by simp [cullClass, hn, hgv])]
          exact neibStep_spec near grav keepDirect junk part l s E h hg'

theorem directStep_spec (ghosts : NPart n α → List (NPart n α)) (one : NPart n α → NPart n α)
    (grav : NPart n α → Bool) (part : ℕ → NPart n α) : ∀ (l : List ℕ) (s : NM n α)
      (E : List (Entry n α)), s.Rep E → (∀ i ∈ l, ghosts (part i) = [one (part i)]) →
      (l.foldl (NM.directStep ghosts grav part) s).Rep
        (E ++ (l.filter fun i => !Flags.is_dead (part i).flags && grav (part i)).map fun i =>
          (i, one (part i), false))
  | [], s, E, h, _ => by simpa using h
  | i :: l, s, E, h, hg => by
    have hg' : ∀ i ∈ l, ghosts (part i) = [one (part i)] := fun j hj =>
      hg j (List.mem_cons_of_mem _ hj)
    rw [List.foldl_cons]
    by_cases hd : Flags.is_dead (part i).flags = true
    · have : NM.directStep ghosts grav part s i = s := by simp [NM.directStep, hd]
      rw [this, List.filter_cons_of_neg (by simp [hd])]
      exact directStep_spec ghosts one grav part l s E h hg'
    · by_cases hgv : grav (part i) = true
      · rw [List.filter_cons_of_pos (by simp [hd, hgv]), List.map_cons]
        have hlen : (s.neibdata ++ ghosts (part i)).length - 1 = E.length := by
          rw [hg i List.mem_cons_self, h.data]; simp
        have hR : (NM.directStep ghosts grav part s i).Rep (E ++ [(i, one (part i), false)]) := by
          have e : NM.directStep ghosts grav part s i =
            { s with
              neibdata := s.neibdata ++ ghosts (part i)
              directlist := s.directlist ++ [E.length]
              neibIdx := s.neibIdx ++ [i] } := by
            simp only [NM.directStep, hd, hgv, hlen]
            simp
          rw [e]
          exact h.snoc i _ false _ rfl (by simp [hg i List.mem_cons_self]) (by simp) (by simp)
        have := directStep_spec ghosts one grav part l _ _ hR hg'
        simpa using this
      · have : NM.directStep ghosts grav part s i = s := by simp [NM.directStep, hd, hgv]
        rw [this, List.filter_cons_of_neg (by simp [hgv])]
        exact directStep_spec ghosts one grav part l s E h hg'

/-- entries of a search without mirrors on the direct list -/
def searchEntries (ghosts : NPart n α → List (NPart n α)) (one : NPart n α → NPart n α)
    (near grav : NPart n α → Bool) (keepDirect : Bool) (part : ℕ → NPart n α)
    (tempper tempdirect : List ℕ) : List (Entry n α) :=
  (if keepDirect then
    (tempdirect.filter fun i => !Flags.is_dead (part i).flags && grav (part i)).map fun i =>
      (i, one (part i), false) else []) ++
  (tempper.filter fun i => !Flags.is_dead (part i).flags).flatMap fun i =>
    (ghosts (part i)).filterMap (cullClass near grav keepDirect i)

theorem endSearch_spec (d : Domain n α) (kernrange : α) (gravmask : ℕ → Bool)
    (seen : NPart n α → Fin n → Side → α) (junk : NPart n α) (cell : TargetCell n α)
    (part : ℕ → NPart n α) (tempper temp tempdirect : List ℕ) (keepDirect : Bool)
    (hone : keepDirect = true → ∀ i ∈ tempdirect, constructGhostsScatterGather d cell seen (part i) =
      [(part i).nearestGhost d cell.rcell])
    (hjunk : keepDirect = true → ∀ i ∈ temp, gravmask junk.ptype = gravmask (part i).ptype) :
    ∃ E1 E2 : List (Entry n α),
      (NM.endSearch d kernrange gravmask seen junk cell part tempper temp tempdirect keepDirect).Rep
        (E1 ++ E2) ∧
      (NM.endSearch d kernrange gravmask seen junk cell part tempper temp tempdirect
        keepDirect).nPeriodicGhosts = (idxs true E1).length ∧
      (NM.endSearch d kernrange gravmask seen junk cell part tempper temp tempdirect
        keepDirect).nCellDirectNeib = (idxs false (E1 ++ E2)).length ∧
      E1.Perm (searchEntries (constructGhostsScatterGather d cell seen)
        (fun p => p.nearestGhost d cell.rcell) (NM.near kernrange cell) (fun q => gravmask q.ptype)
        keepDirect part tempper tempdirect) ∧
      E2 = (temp.filter fun i => !Flags.is_dead (part i).flags).filterMap fun i =>
        cullClass (NM.near kernrange cell) (fun q => gravmask q.ptype) keepDirect i (part i) := by
  set ghosts := constructGhostsScatterGather d cell seen with hgh
  set near := NM.near kernrange cell with hnr
  set grav : NPart n α → Bool := fun q => gravmask q.ptype with hgr
  set one : NPart n α → NPart n α := fun p => p.nearestGhost d cell.rcell with hon
  have h0 : ({} : NM n α).Rep [] := ⟨rfl, rfl, rfl, rfl⟩
  set E0 : List (Entry n α) := if keepDirect then
    (tempdirect.filter fun i => !Flags.is_dead (part i).flags && grav (part i)).map fun i =>
      (i, one (part i), false) else [] with hE0
  set s0 : NM n α := if keepDirect then tempdirect.foldl (NM.directStep ghosts grav part) {} else {}
    with hs0
  have hR0 : s0.Rep E0 := by
    rw [hs0, hE0]
    cases keepDirect
    · exact h0
    · have := directStep_spec ghosts one grav part tempdirect {} [] h0 (hone rfl)
      simpa using this
  have hfalse : ∀ e ∈ E0, e.2.2 = false := by
    rw [hE0]
    intro e he
    split_ifs at he
    · obtain ⟨i, _, rfl⟩ := List.mem_map.mp he; rfl
    · cases he
  have hl0 : s0.directlist.length = E0.length := by
    have h := (idxs_perm E0).length_eq
    have ht : idxs true E0 = [] := by
      rw [List.eq_nil_iff_forall_not_mem]
      intro t ht
      obtain ⟨i, q, hq⟩ := (mem_idxs true E0 t).mp ht
      have := hfalse _ (List.mem_of_getElem? hq)
      cases this
    rw [ht] at h
    rw [hR0.direct]; simpa using h
  obtain ⟨E', k1, k2, k3⟩ := perStep_spec ghosts near grav keepDirect junk part tempper s0 E0 hR0
  rw [← hl0] at k1 k2
  set s1 := tempper.foldl (NM.perStep ghosts near grav keepDirect junk part)
    (s0, s0.directlist.length) with hs1
  set s1' : NM n α := { s1.1 with nPeriodicGhosts := s1.1.neiblist.length } with hs1'
  have hR1 : s1'.Rep (E0 ++ E') := ⟨k1.idx, k1.data, k1.neib, k1.direct⟩
  obtain ⟨j1, j2⟩ := neibStep_spec near grav keepDirect junk part temp s1' (E0 ++ E') hR1 hjunk
  rw [← k2] at j1 j2
  refine ⟨E0 ++ E', _, ⟨j1.idx, j1.data, j1.neib, j1.direct⟩, ?_, ?_, ?_, rfl⟩
  · change (temp.foldl (NM.neibStep near grav keepDirect junk part) (s1', s1.2)).1.nPeriodicGhosts = _
    rw [j2, ← k1.neib]
  · change (temp.foldl (NM.neibStep near grav keepDirect junk part) (s1', s1.2)).1.directlist.length = _
    rw [j1.direct]
  · unfold searchEntries
    exact k3.append_left E0

/-- separation used by the trimming for entry `q` at position `j` -/
def trimSep (d : Domain n α) (hydromask : ℕ → Bool) (nPer : ℕ) (p q : NPart n α) (j : ℕ) : Vec n α :=
  if j < nPer ∧ hydromask q.ptype = true then ghostNearest d (fun k => q.r k - p.r k)
  else fun k => q.r k - p.r k

/-- position of the entry after the trimming -/
def trimPos (d : Domain n α) (hydromask : ℕ → Bool) (nPer : ℕ) (p q : NPart n α) (j : ℕ) : Vec n α :=
  if j < nPer ∧ hydromask q.ptype = true then (applyPeriodic d q.r (fun k => q.r k - p.r k)).1 else q.r

/-- inside either kernel -/
def InKernel (p q : NPart n α) (dr : Vec n α) : Prop :=
  dot dr dr < p.hrangesqd ∨ dot dr dr < q.hrangesqd

theorem applyPeriodic_snd (d : Domain n α) (r dr : Vec n α) :
    (applyPeriodic d r dr).2 = ghostNearest d dr := by
  unfold applyPeriodic ghostNearest
  split_ifs
  · funext k; simp only [sub_eq_add_neg]
  · rfl

theorem firstAppearance_r (b : Bool) (p q : NPart n α) (r : Vec n α) :
    firstAppearance b p { q with r := r } = firstAppearance b p q := rfl

open Classical in
/-- The trimming loop as filters of the candidate list. `L` are the remaining (position, index) pairs;
`data` the data at the start. -/
theorem trim_fold (d : Domain n α) (hydromask gravmask : ℕ → Bool) (pairOnce keepGrav : Bool)
    (nPer : ℕ) (junk p : NPart n α) (data : ℕ → NPart n α) :
    ∀ (L : List (ℕ × ℕ)) (s : TrimSt n α), (L.map Prod.snd).Nodup →
      (∀ ji ∈ L, ji.2 < s.neibdata.length ∧ s.neibdata.getD ji.2 junk = data ji.2) →
      let inK : ℕ × ℕ → Prop := fun ji => InKernel p (data ji.2)
        (trimSep d hydromask nPer p (data ji.2) ji.1)
      let fa : ℕ × ℕ → Prop := fun ji => firstAppearance pairOnce p (data ji.2) = true
      let hy : ℕ × ℕ → Prop := fun ji => hydromask (data ji.2).ptype = true
      let gr : ℕ × ℕ → Prop := fun ji => gravmask (data ji.2).ptype = true
      let t := L.foldl (trimStep d hydromask gravmask pairOnce keepGrav nPer junk p) s
      t.culled = s.culled ++ (L.filter fun ji => fa ji ∧ inK ji ∧ hy ji).map Prod.snd ∧
      t.smooth = s.smooth ++
        (L.filter fun ji => keepGrav = true ∧ fa ji ∧ inK ji ∧ ¬ hy ji ∧ gr ji).map Prod.snd ∧
      t.direct = s.direct ++
        (L.filter fun ji => keepGrav = true ∧ fa ji ∧ ¬ inK ji ∧ gr ji).map Prod.snd ∧
      t.nonInteract = s.nonInteract +
        (L.filter fun ji => keepGrav = true ∧ fa ji ∧ ¬ gr ji ∧ (inK ji → ¬ hy ji)).length ∧
      t.neibdata.length = s.neibdata.length ∧
      (∀ i, i ∉ L.map Prod.snd → t.neibdata.getD i junk = s.neibdata.getD i junk) ∧
      (∀ ji ∈ L, t.neibdata.getD ji.2 junk =
        { data ji.2 with
          r := if fa ji then trimPos d hydromask nPer p (data ji.2) ji.1 else (data ji.2).r }) := by
  intro L
  induction L with
  | nil => intro s _ _; simp
  | cons ji L ih =>
    intro s hnd hdat
    intro inK fa hy gr t
    rw [List.map_cons, List.nodup_cons] at hnd
    obtain ⟨hlt, hq⟩ := hdat ji List.mem_cons_self
    set s' := trimStep d hydromask gravmask pairOnce keepGrav nPer junk p s ji with hs'
    -- the data after one turn
    have hdata' : s'.neibdata = if fa ji ∧ ji.1 < nPer ∧ hy ji then
        s.neibdata.set ji.2 { data ji.2 with r := trimPos d hydromask nPer p (data ji.2) ji.1 }
        else s.neibdata := by
      simp only [hs', trimStep, hq]
      by_cases h1 : firstAppearance pairOnce p (data ji.2) = true
      · have h1' : fa ji := h1
        by_cases h2 : ji.1 < nPer ∧ hydromask (data ji.2).ptype = true
        · have h2' : fa ji ∧ ji.1 < nPer ∧ hy ji := ⟨h1, h2⟩
          rw [if_pos h2']
          have hc : (decide (ji.1 < nPer) && hydromask (data ji.2).ptype) = true := by simp [h2]
          have hp : trimPos d hydromask nPer p (data ji.2) ji.1 =
              (applyPeriodic d (data ji.2).r (fun k => (data ji.2).r k - p.r k)).1 := by
            rw [trimPos, if_pos h2]
          simp only [h1, hc, if_true, Bool.not_true, Bool.false_eq_true, if_false, hp]
          split_ifs <;> rfl
        · have h2' : ¬ (fa ji ∧ ji.1 < nPer ∧ hy ji) := fun h => h2 h.2
          rw [if_neg h2']
          have hc : (decide (ji.1 < nPer) && hydromask (data ji.2).ptype) = false := by
            rw [Bool.eq_false_iff]; intro h; exact h2 (by simpa using h)
          simp only [h1, hc, Bool.not_true, Bool.false_eq_true, if_false]
          split_ifs <;> rfl
      · have h2' : ¬ (fa ji ∧ ji.1 < nPer ∧ hy ji) := fun h => h1 h.1
        rw [if_neg h2', if_pos (by simpa using h1)]
    have hlen' : s'.neibdata.length = s.neibdata.length := by
      rw [hdata']; split_ifs <;> simp
    have hother : ∀ i, i ≠ ji.2 → s'.neibdata.getD i junk = s.neibdata.getD i junk := by
      intro i hi
      rw [hdata']
      split_ifs
      · simp only [List.getD]
        rw [List.getElem?_set_ne (Ne.symm hi)]
      · rfl
    have hself : s'.neibdata.getD ji.2 junk = { data ji.2 with
        r := if fa ji then trimPos d hydromask nPer p (data ji.2) ji.1 else (data ji.2).r } := by
      rw [hdata']
      by_cases h : fa ji ∧ ji.1 < nPer ∧ hy ji
      · rw [if_pos h, if_pos h.1]
        simp only [List.getD]
        rw [List.getElem?_set_self hlt]
        rfl
      · rw [if_neg h, hq]
        by_cases hf : fa ji
        · rw [if_pos hf]
          have : ¬ (ji.1 < nPer ∧ hydromask (data ji.2).ptype = true) := fun h' => h ⟨hf, h'⟩
          simp only [trimPos, this, if_false]
        · rw [if_neg hf]
    have hdat' : ∀ ji' ∈ L, ji'.2 < s'.neibdata.length ∧ s'.neibdata.getD ji'.2 junk = data ji'.2 := by
      intro ji' h'
      have hne : ji'.2 ≠ ji.2 := by
        intro e; exact hnd.1 (e ▸ List.mem_map_of_mem h')
      rw [hlen', hother _ hne]
      exact hdat ji' (List.mem_cons_of_mem _ h')
    have hI := ih s' hnd.2 hdat'
    have hsep : ∀ hf : fa ji, (if (decide (ji.1 < nPer) && hydromask (data ji.2).ptype) = true then
        applyPeriodic d (data ji.2).r (fun k => (data ji.2).r k - p.r k)
        else ((data ji.2).r, fun k => (data ji.2).r k - p.r k)).2 =
        trimSep d hydromask nPer p (data ji.2) ji.1 := by
      intro _
      by_cases h2 : ji.1 < nPer ∧ hydromask (data ji.2).ptype = true
      · have hc : (decide (ji.1 < nPer) && hydromask (data ji.2).ptype) = true := by simp [h2]
        rw [if_pos hc, trimSep, if_pos h2, applyPeriodic_snd]
      · have hc : (decide (ji.1 < nPer) && hydromask (data ji.2).ptype) = false := by
          rw [Bool.eq_false_iff]; intro h; exact h2 (by simpa using h)
        simp only [hc, Bool.false_eq_true, if_false, trimSep, h2]
    -- the lists after one turn
    have hlists :
        s'.culled = s.culled ++ (if fa ji ∧ inK ji ∧ hy ji then [ji.2] else []) ∧
        s'.smooth = s.smooth ++
          (if keepGrav = true ∧ fa ji ∧ inK ji ∧ ¬ hy ji ∧ gr ji then [ji.2] else []) ∧
        s'.direct = s.direct ++
          (if keepGrav = true ∧ fa ji ∧ ¬ inK ji ∧ gr ji then [ji.2] else []) ∧
        s'.nonInteract = s.nonInteract +
          (if keepGrav = true ∧ fa ji ∧ ¬ gr ji ∧ (inK ji → ¬ hy ji) then 1 else 0) := by
      by_cases h1 : fa ji
      · have h1b : firstAppearance pairOnce p (data ji.2) = true := h1
        have hin : inK ji ↔ ¬ (dot (trimSep d hydromask nPer p (data ji.2) ji.1)
            (trimSep d hydromask nPer p (data ji.2) ji.1) ≥ p.hrangesqd ∧
            dot (trimSep d hydromask nPer p (data ji.2) ji.1)
            (trimSep d hydromask nPer p (data ji.2) ji.1) ≥ (data ji.2).hrangesqd) := by
          simp only [inK, InKernel, not_and_or, not_le, ge_iff_le]
        have hex : ∃ s1 : TrimSt n α, s1.culled = s.culled ∧ s1.smooth = s.smooth ∧
            s1.direct = s.direct ∧ s1.nonInteract = s.nonInteract ∧
            s' = (if ¬ inK ji then
              if keepGrav then
                if gravmask (data ji.2).ptype then { s1 with direct := s1.direct ++ [ji.2] }
                else { s1 with nonInteract := s1.nonInteract + 1 }
              else s1
            else if hydromask (data ji.2).ptype then { s1 with culled := s1.culled ++ [ji.2] }
            else if keepGrav then
              if gravmask (data ji.2).ptype then { s1 with smooth := s1.smooth ++ [ji.2] }
              else { s1 with nonInteract := s1.nonInteract + 1 }
            else s1) := by
          refine ⟨if (decide (ji.1 < nPer) && hydromask (data ji.2).ptype) = true then
            { s with neibdata := s.neibdata.set ji.2 { data ji.2 with
              r := (applyPeriodic d (data ji.2).r (fun k => (data ji.2).r k - p.r k)).1 } } else s,
            ?_, ?_, ?_, ?_, ?_⟩
          · split_ifs <;> rfl
          · split_ifs <;> rfl
          · split_ifs <;> rfl
          · split_ifs <;> rfl
          · simp only [hs', trimStep, hq, h1b, Bool.not_true, Bool.false_eq_true, if_false]
            rw [hsep h1]
            simp only [hin, not_not]
            by_cases hc : (decide (ji.1 < nPer) && hydromask (data ji.2).ptype) = true
            · simp only [hc, if_true]
            · simp only [hc, if_false, Bool.false_eq_true]
        obtain ⟨s1, e1, e2, e3, e4, e5⟩ := hex
        rw [e5]
        have hyd : hydromask (data ji.2).ptype = true ↔ hy ji := Iff.rfl
        have grd : gravmask (data ji.2).ptype = true ↔ gr ji := Iff.rfl
        by_cases c1 : inK ji
        · by_cases c2 : hy ji
          · simp [c1, c2, h1, hyd, e1, e2, e3, e4]
          · by_cases c3 : keepGrav = true
            · by_cases c4 : gr ji
              · simp [c1, c2, c3, c4, h1, hyd, grd, e1, e2, e3, e4]
              · simp [c1, c2, c3, c4, h1, hyd, grd, e1, e2, e3, e4]
            · simp [c1, c2, c3, h1, hyd, e1, e2, e3, e4]
        · by_cases c3 : keepGrav = true
          · by_cases c4 : gr ji
            · simp [c1, c3, c4, h1, grd, e1, e2, e3, e4]
            · simp [c1, c3, c4, h1, grd, e1, e2, e3, e4]
          · simp [c1, c3, h1, e1, e2, e3, e4]
      · have : s' = s := by
          simp only [hs', trimStep, hq]
          rw [if_pos]
          have : ¬ firstAppearance pairOnce p (data ji.2) = true := h1
          simpa using this
        rw [this]
        simp [h1]
    obtain ⟨l1, l2, l3, l4⟩ := hlists
    obtain ⟨i1, i2, i3, i4, i5, i6, i7⟩ := hI
    have ht : t = L.foldl (trimStep d hydromask gravmask pairOnce keepGrav nPer junk p) s' := rfl
    refine ⟨?_, ?_, ?_, ?_, ?_, ?_, ?_⟩
    · rw [ht, i1, l1, List.append_assoc, List.filter_cons]
      congr 1
      by_cases c : fa ji ∧ inK ji ∧ hy ji
      · simp only [c, and_self, if_true, decide_true, List.map_cons, List.singleton_append]; rfl
      · simp only [c, if_false, decide_false, List.nil_append, Bool.false_eq_true]; rfl
    · rw [ht, i2, l2, List.append_assoc, List.filter_cons]
      congr 1
      by_cases c : keepGrav = true ∧ fa ji ∧ inK ji ∧ ¬ hy ji ∧ gr ji
      · rw [if_pos c, if_pos (decide_eq_true c)]; rfl
      · rw [if_neg c, if_neg (by simpa using c)]; rfl
    · rw [ht, i3, l3, List.append_assoc, List.filter_cons]
      congr 1
      by_cases c : keepGrav = true ∧ fa ji ∧ ¬ inK ji ∧ gr ji
      · rw [if_pos c, if_pos (decide_eq_true c)]; rfl
      · rw [if_neg c, if_neg (by simpa using c)]; rfl
    · rw [ht, i4, l4, List.filter_cons, Nat.add_assoc]
      congr 1
      by_cases c : keepGrav = true ∧ fa ji ∧ ¬ gr ji ∧ (inK ji → ¬ hy ji)
      · rw [if_pos c, if_pos (decide_eq_true c), List.length_cons, Nat.add_comm]
      · rw [if_neg c, if_neg (by simpa using c), Nat.zero_add]
    · rw [ht, i5, hlen']
    · intro i hi
      rw [List.map_cons, List.mem_cons, not_or] at hi
      rw [ht, i6 i hi.2, hother i hi.1]
    · intro ji' h'
      rcases List.mem_cons.mp h' with e | e
      · subst e
        rw [ht, i6 _ hnd.1, hself]
      · exact i7 ji' e

end Gandalf
