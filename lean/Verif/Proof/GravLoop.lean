import Verif.Model.GravLoop
import Verif.Spec.GravLoop
import Verif.Proof.NeighbourManager
import Verif.Proof.HydroPipeline
import Verif.Proof.SphGravity
import Verif.Prop.C58Tree

set_option autoImplicit false
set_option linter.unusedSectionVars false

namespace Gandalf.GravLoop

open Sph Multipole Gravity GravSum KD

variable {n : ℕ}

/-! ### an open domain moves nothing -/

theorem nearestGhost_open {d : Domain n ℝ} (hp : d.anyPeriodic = false) (c : Vec n ℝ) (p : NPart n ℝ) :
    p.nearestGhost d c = p := by
  simp [NPart.nearestGhost, hp]

theorem trimSep_open {d : Domain n ℝ} (hp : d.anyPeriodic = false) (hm : ℕ → Bool) (nPer : ℕ) (p q : NPart n ℝ) (j : ℕ) :
    trimSep d hm nPer p q j = fun k => q.r k - p.r k := by
  unfold trimSep ghostNearest
  simp [hp]

theorem trimPos_open {d : Domain n ℝ} (hp : d.anyPeriodic = false) (hm : ℕ → Bool) (nPer : ℕ) (p q : NPart n ℝ) (j : ℕ) :
    trimPos d hm nPer p q j = q.r := by
  unfold trimPos applyPeriodic
  simp [hp]

/-- the pair is inside one of the kernels, with the members of the neighbour manager -/
def Within (p q : NPart n ℝ) : Prop := InKernel p q fun k => q.r k - p.r k

theorem filter_snd {β γ : Type} (L : List (β × γ)) (p : γ → Bool) :
    (L.filter fun x => p x.2).map Prod.snd = (L.map Prod.snd).filter p := by
  induction L with
  | nil => rfl
  | cons x L ih =>
    by_cases h : p x.2 = true
    · simp [List.filter_cons, h, ih]
    · simp [List.filter_cons, h, ih]

open Classical in
/-- the lists of a particle in an open domain, as filters of the manager's hydro list; the data stay -/
theorem trim_open {d : Domain n ℝ} (hp : d.anyPeriodic = false) (hm gm : ℕ → Bool) (junk p : NPart n ℝ) (u : NM n ℝ)
    (hnd : u.neiblist.Nodup) (hlt : ∀ i ∈ u.neiblist, i < u.neibdata.length) :
    let t := u.trim d hm gm false true junk p
    let dat := fun x => u.neibdata.getD x junk
    t.culled = u.neiblist.filter (fun x => Within p (dat x) ∧ hm (dat x).ptype = true) ∧
    t.smooth = u.neiblist.filter (fun x => Within p (dat x) ∧ hm (dat x).ptype = false ∧ gm (dat x).ptype = true) ∧
    t.direct = u.directlist.take u.nCellDirectNeib ++
      u.neiblist.filter (fun x => ¬ Within p (dat x) ∧ gm (dat x).ptype = true) ∧
    t.neibdata.length = u.neibdata.length ∧
    ∀ x, t.neibdata.getD x junk = dat x := by
  intro t dat
  set L := (List.range u.neiblist.length).zip u.neiblist with hL
  have hsnd : L.map Prod.snd = u.neiblist := by
    rw [hL]; exact List.map_snd_zip (by simp)
  obtain ⟨c1, c2, c3, -, c5, c6, c7⟩ := trim_fold d hm gm false true u.nPeriodicGhosts junk p dat L
    { neibdata := u.neibdata, direct := u.directlist.take u.nCellDirectNeib }
    (by rw [hsnd]; exact hnd)
    (fun ji hji => ⟨hlt _ (by rw [← hsnd]; exact List.mem_map_of_mem hji), rfl⟩)
  change t.culled = _ at c1
  change t.smooth = _ at c2
  change t.direct = _ at c3
  change t.neibdata.length = _ at c5
  change ∀ i, _ → t.neibdata.getD i junk = _ at c6
  change ∀ ji ∈ L, t.neibdata.getD ji.2 junk = _ at c7
  simp only [List.nil_append, firstAppearance, true_and, Bool.false_eq_true, if_false, trimSep_open hp,
    trimPos_open hp, ite_self] at c1 c2 c3 c7
  refine ⟨?_, ?_, ?_, c5, ?_⟩
  · rw [c1, ← hsnd, ← filter_snd]; rfl
  · rw [c2, ← hsnd, ← filter_snd]
    simp only [Bool.not_eq_true]
    rfl
  · rw [c3, ← hsnd, ← filter_snd]; rfl
  · intro x
    by_cases hx : x ∈ L.map Prod.snd
    · obtain ⟨ji, hji, rfl⟩ := List.mem_map.mp hx
      exact c7 ji hji
    · exact c6 x hx

/-! ### the manager after the search of a cell -/

/-- the manager holds the entries `idx` (particle numbers): those in the hydro list may be within a kernel, those in the
direct list are not within one of the cell's particles, unless they come from the direct list `dr` of the walk -/
structure Holds (part : ℕ → NPart n ℝ) (gm : ℕ → Bool) (near : NPart n ℝ → Bool) (junk : NPart n ℝ) (dr : List ℕ)
    (idx hyd dir : List ℕ) (u : NM n ℝ) : Prop where
  nums : u.neibIdx = idx
  len : u.neibdata.length = idx.length
  dat : ∀ x < idx.length, u.neibdata.getD x junk = part (idx.getD x 0)
  neib : u.neiblist = hyd
  direct : u.directlist.take u.nCellDirectNeib = dir
  count : u.nCellDirectNeib = dir.length
  perm : (hyd ++ dir).Perm (List.range idx.length)
  grav : ∀ x ∈ dir, gm (part (idx.getD x 0)).ptype = true
  far : ∀ x ∈ dir, near (part (idx.getD x 0)) = false ∨ idx.getD x 0 ∈ dr

theorem Holds.nodup {part : ℕ → NPart n ℝ} {gm : ℕ → Bool} {near : NPart n ℝ → Bool} {junk : NPart n ℝ} {dr idx hyd dir : List ℕ}
    {u : NM n ℝ} (h : Holds part gm near junk dr idx hyd dir u) : u.neiblist.Nodup := by
  rw [h.neib]
  exact (h.perm.nodup_iff.mpr List.nodup_range).of_append_left

theorem Holds.lt {part : ℕ → NPart n ℝ} {gm : ℕ → Bool} {near : NPart n ℝ → Bool} {junk : NPart n ℝ} {dr idx hyd dir : List ℕ}
    {u : NM n ℝ} (h : Holds part gm near junk dr idx hyd dir u) : ∀ i ∈ u.neiblist, i < u.neibdata.length := by
  intro i hi
  rw [h.neib] at hi
  rw [h.len]
  exact List.mem_range.mp (h.perm.mem_iff.mp (List.mem_append_left _ hi))

theorem Holds.trim {d : Domain n ℝ} (hp : d.anyPeriodic = false) {part : ℕ → NPart n ℝ} {gm : ℕ → Bool}
    {near : NPart n ℝ → Bool} {junk : NPart n ℝ} {dr idx hyd dir : List ℕ} {u : NM n ℝ}
    (h : Holds part gm near junk dr idx hyd dir u) (hm : ℕ → Bool) (p : NPart n ℝ) :
    Holds part gm near junk dr idx hyd dir (u.afterTrim (u.trim d hm gm false true junk p)) := by
  obtain ⟨-, -, c3, c4, c5⟩ := trim_open hp hm gm junk p u h.nodup h.lt
  refine ⟨h.nums, ?_, ?_, h.neib, ?_, h.count, h.perm, h.grav, h.far⟩
  · exact c4.trans h.len
  · intro x hx
    exact (c5 x).trans (h.dat x hx)
  · change List.take u.nCellDirectNeib (u.trim d hm gm false true junk p).direct = dir
    rw [c3, h.direct, h.count, List.take_append_of_le_length le_rfl, List.take_length]

/-- the manager after `EndSearchGravity` in an open domain -/
theorem endSearch_holds {d : Domain n ℝ} (hp : d.anyPeriodic = false) (hmir : d.anyMirror = false) (kernrange : ℝ)
    (gm : ℕ → Bool) (seen : NPart n ℝ → Fin n → Side → ℝ) (junk : NPart n ℝ) (cell : TargetCell n ℝ)
    (part : ℕ → NPart n ℝ) (nb dr : List ℕ) :
    ∃ idx hyd dir : List ℕ, Holds part gm (NM.near kernrange cell) junk dr idx hyd dir
        (NM.endSearch d kernrange gm seen junk cell part nb [] dr true) ∧
      idx.Perm ((dr.filter fun i => !Flags.is_dead (part i).flags && gm (part i).ptype) ++
        nb.filter fun i => !Flags.is_dead (part i).flags && (NM.near kernrange cell (part i) || gm (part i).ptype)) := by
  have hone : ∀ p : NPart n ℝ, constructGhostsScatterGather d cell seen p = [p] := by
    intro p; simp [constructGhostsScatterGather, hmir, nearestGhost_open hp]
  obtain ⟨E1, E2, hR, -, hC, hE1, hE2⟩ := endSearch_spec d kernrange gm seen junk cell part nb [] dr true
    (fun _ i _ => by rw [hone, nearestGhost_open hp]) (fun _ i hi => by cases hi)
  have hE2 : E2 = [] := hE2
  subst hE2
  rw [List.append_nil] at hR hC
  set s := NM.endSearch d kernrange gm seen junk cell part nb [] dr true with hs
  have hent : ∀ e ∈ E1, e.2.1 = part e.1 ∧ (e.2.2 = false → gm (part e.1).ptype = true) ∧
      (e.2.2 = false → NM.near kernrange cell (part e.1) = false ∨ e.1 ∈ dr) := by
    intro e he
    have h := hE1.mem_iff.mp he
    unfold searchEntries at h
    rcases List.mem_append.mp h with h | h
    · rw [if_pos rfl] at h
      obtain ⟨i, hi, rfl⟩ := List.mem_map.mp h
      obtain ⟨hi, hg⟩ := List.mem_filter.mp hi
      rw [Bool.and_eq_true] at hg
      exact ⟨nearestGhost_open hp _ _, fun _ => hg.2, fun _ => Or.inr hi⟩
    · obtain ⟨i, hi, h⟩ := List.mem_flatMap.mp h
      rw [hone] at h
      obtain ⟨q, hq, h⟩ := List.mem_filterMap.mp h
      rw [List.mem_singleton] at hq
      subst hq
      unfold cullClass at h
      split_ifs at h with h1 h2
      · cases h
        exact ⟨rfl, fun h => absurd h (by simp), fun h => absurd h (by simp)⟩
      · cases h
        rw [Bool.and_eq_true] at h2
        exact ⟨rfl, fun _ => h2.2, fun _ => Or.inl (by simpa using h1)⟩
  refine ⟨E1.map fun e => e.1, idxs true E1, idxs false E1, ⟨hR.idx, ?_, ?_, hR.neib, ?_, hC, ?_, ?_, ?_⟩, ?_⟩
  · rw [hR.data]; simp
  · intro x hx
    rw [List.length_map] at hx
    rw [hR.data]
    simp only [List.getD_eq_getElem?_getD, List.getElem?_map, List.getElem?_eq_getElem hx, Option.map_some,
      Option.getD_some]
    exact (hent _ (List.getElem_mem hx)).1
  · rw [hC, hR.direct, List.take_length]
  · rw [List.length_map]; exact idxs_perm E1
  · intro x hx
    obtain ⟨i, q, e⟩ := (mem_idxs _ _ _).mp hx
    have := (hent _ (List.mem_of_getElem? e)).2.1 rfl
    simpa [List.getD_eq_getElem?_getD, e] using this
  · intro x hx
    obtain ⟨i, q, e⟩ := (mem_idxs _ _ _).mp hx
    have := (hent _ (List.mem_of_getElem? e)).2.2 rfl
    simpa [List.getD_eq_getElem?_getD, e] using this
  · refine (hE1.map _).trans (List.Perm.of_eq ?_)
    unfold searchEntries
    rw [List.map_append, if_pos rfl, List.map_map]
    congr 1
    · conv_rhs => rw [← List.map_id (dr.filter _)]
      rfl
    · simp only [hone]
      clear hE1 hR hC hent hs
      clear s
      induction nb with
      | nil => rfl
      | cons i nb ih =>
        by_cases hd : Flags.is_dead (part i).flags = true
        · rw [List.filter_cons_of_neg (by simp [hd]), List.filter_cons_of_neg (by simp [hd])]
          exact ih
        · rw [List.filter_cons_of_pos (by simp [hd]), List.flatMap_cons, List.map_append, ih]
          by_cases h1 : NM.near kernrange cell (part i) = true
          · rw [List.filter_cons_of_pos (by simp [hd, h1])]
            simp [cullClass, h1]
          · by_cases h2 : gm (part i).ptype = true
            · rw [List.filter_cons_of_pos (by simp [hd, h2])]
              simp [cullClass, h1, h2]
            · rw [List.filter_cons_of_neg (by simp [h1, h2])]
              simp [cullClass, h1, h2]

/-! ### sums over the lists -/

theorem sum_range_getD (idx : List ℕ) (F : ℕ → ℝ) :
    ((List.range idx.length).map fun x => F (idx.getD x 0)).sum = (idx.map F).sum := by
  congr 1
  refine List.ext_getElem (by simp) fun x h1 h2 => ?_
  have hx : x < idx.length := by simpa using h1
  simp [List.getD_eq_getElem?_getD, List.getElem?_eq_getElem hx]

theorem sum_filter (l : List ℕ) (p : ℕ → Bool) (F : ℕ → ℝ) :
    ((l.filter p).map F).sum = (l.map fun x => if p x then F x else 0).sum := by
  induction l with
  | nil => rfl
  | cons x l ih =>
    by_cases h : p x = true
    · rw [List.filter_cons_of_pos h]; simp [h, ih]
    · rw [List.filter_cons_of_neg h]; simp [h, ih]

theorem over_append (l m : List ℕ) (ok : ℕ → Bool) (F : ℕ → ℝ) : over (l ++ m) ok F = over l ok F + over m ok F := by
  unfold over; simp

theorem over_perm {l m : List ℕ} (h : l.Perm m) (ok : ℕ → Bool) (F : ℕ → ℝ) : over l ok F = over m ok F :=
  ((h.filter ok).map F).sum_eq

theorem over_congr {l : List ℕ} {ok : ℕ → Bool} {F G : ℕ → ℝ} (h : ∀ i ∈ l, ok i = true → F i = G i) :
    over l ok F = over l ok G := by
  unfold over
  congr 1
  refine List.map_congr_left fun i hi => ?_
  obtain ⟨a, b⟩ := List.mem_filter.mp hi
  exact h i a b

theorem sum_congr_mem {l : List ℕ} {F G : ℕ → ℝ} (h : ∀ i ∈ l, F i = G i) : (l.map F).sum = (l.map G).sum := by
  rw [List.map_congr_left h]

open Classical in
/-- the three lists of a particle together give the gravitating live particles of the walk, once each -/
theorem lists_sum {d : Domain n ℝ} (hp : d.anyPeriodic = false) {part : ℕ → NPart n ℝ} {gm hm : ℕ → Bool}
    {near : NPart n ℝ → Bool} {junk : NPart n ℝ} {nb dr idx hyd dir : List ℕ} {u : NM n ℝ}
    (h : Holds part gm near junk dr idx hyd dir u) (hmg : ∀ t, hm t = true → gm t = true)
    (hidx : idx.Perm ((dr.filter fun i => !Flags.is_dead (part i).flags && gm (part i).ptype) ++
        nb.filter fun i => !Flags.is_dead (part i).flags && (near (part i) || gm (part i).ptype)))
    (p : NPart n ℝ) (F : ℕ → ℝ) :
    let t := u.trim d hm gm false true junk p
    (t.culled.map fun x => F (idx.getD x 0)).sum + (t.smooth.map fun x => F (idx.getD x 0)).sum +
      (t.direct.map fun x => F (idx.getD x 0)).sum =
      over (nb ++ dr) (fun j => !Flags.is_dead (part j).flags && gm (part j).ptype) F := by
  intro t
  obtain ⟨c1, c2, c3, -, -⟩ := trim_open hp hm gm junk p u h.nodup h.lt
  change t.culled = _ at c1
  change t.smooth = _ at c2
  change t.direct = _ at c3
  set G : ℕ → ℝ := fun x => if gm (part (idx.getD x 0)).ptype then F (idx.getD x 0) else 0 with hG
  have hmem : ∀ x ∈ u.neiblist, x < idx.length := fun x hx => by
    have := h.lt x hx; rwa [h.len] at this
  have e1 : (t.culled.map fun x => F (idx.getD x 0)).sum + (t.smooth.map fun x => F (idx.getD x 0)).sum +
      ((u.neiblist.filter fun x => ¬ Within p (u.neibdata.getD x junk) ∧
        gm (u.neibdata.getD x junk).ptype = true).map fun x => F (idx.getD x 0)).sum = (u.neiblist.map G).sum := by
    rw [c1, c2, sum_filter, sum_filter, sum_filter, ← List.sum_map_add, ← List.sum_map_add]
    refine sum_congr_mem fun x hx => ?_
    simp only [hG, decide_eq_true_eq, h.dat x (hmem x hx)]
    have hi := hmg (part (idx.getD x 0)).ptype
    generalize idx.getD x 0 = j at hi ⊢
    clear * - hi
    by_cases w : Within p (part j) <;> cases g : gm (part j).ptype <;>
      cases y : hm (part j).ptype <;> simp_all
  have e2 : ((u.directlist.take u.nCellDirectNeib).map fun x => F (idx.getD x 0)).sum = (dir.map G).sum := by
    rw [h.direct]
    refine sum_congr_mem fun x hx => ?_
    simp only [hG, h.grav x hx, if_true]
  rw [c3, List.map_append, List.sum_append]
  have e3 : (u.neiblist.map G).sum + (dir.map G).sum = (idx.map fun j => if gm (part j).ptype then F j else 0).sum := by
    rw [h.neib, ← List.sum_append, ← List.map_append, (h.perm.map G).sum_eq]
    exact sum_range_getD idx fun j => if gm (part j).ptype then F j else 0
  rw [show ∀ a b c e : ℝ, a + b + (c + e) = a + b + e + c by intros; ring, e1, e2, e3, (hidx.map _).sum_eq,
    List.map_append, List.sum_append, over_append]
  unfold over
  rw [add_comm]
  congr 1
  · rw [sum_filter, sum_filter]
    refine sum_congr_mem fun j _ => ?_
    cases Flags.is_dead (part j).flags <;> cases gm (part j).ptype <;> cases near (part j) <;> simp
  · rw [sum_filter, sum_filter]
    refine sum_congr_mem fun j _ => ?_
    cases Flags.is_dead (part j).flags <;> cases gm (part j).ptype <;> simp

open Classical in
/-- the hydro list gives what is inside a kernel -/
theorem hydro_sum {d : Domain n ℝ} (hp : d.anyPeriodic = false) {part : ℕ → NPart n ℝ} {gm hm : ℕ → Bool}
    {near : NPart n ℝ → Bool} {junk : NPart n ℝ} {nb dr idx hyd dir : List ℕ} {u : NM n ℝ}
    (h : Holds part gm near junk dr idx hyd dir u) (hmg : ∀ t, hm t = true → gm t = true)
    (hidx : idx.Perm ((dr.filter fun i => !Flags.is_dead (part i).flags && gm (part i).ptype) ++
        nb.filter fun i => !Flags.is_dead (part i).flags && (near (part i) || gm (part i).ptype)))
    (p : NPart n ℝ) (F : ℕ → ℝ) (h0 : ∀ j, ¬ Within p (part j) → F j = 0)
    (hfar : ∀ j, near (part j) = false ∨ j ∈ dr → ¬ Within p (part j)) :
    let t := u.trim d hm gm false true junk p
    (t.culled.map fun x => F (idx.getD x 0)).sum =
      over (nb ++ dr) (fun j => !Flags.is_dead (part j).flags && hm (part j).ptype) F := by
  intro t
  obtain ⟨c1, -, -, -, -⟩ := trim_open hp hm gm junk p u h.nodup h.lt
  change t.culled = _ at c1
  set G : ℕ → ℝ := fun x => if hm (part (idx.getD x 0)).ptype then F (idx.getD x 0) else 0 with hG
  have hmem : ∀ x ∈ u.neiblist, x < idx.length := fun x hx => by
    have := h.lt x hx; rwa [h.len] at this
  have e1 : (t.culled.map fun x => F (idx.getD x 0)).sum = (u.neiblist.map G).sum := by
    rw [c1, sum_filter]
    refine sum_congr_mem fun x hx => ?_
    simp only [hG, decide_eq_true_eq, h.dat x (hmem x hx)]
    by_cases w : Within p (part (idx.getD x 0))
    · simp only [w, true_and]
    · simp only [h0 _ w, ite_self]
  have e2 : (dir.map G).sum = 0 := by
    refine List.sum_eq_zero fun y hy => ?_
    obtain ⟨x, hx, rfl⟩ := List.mem_map.mp hy
    simp only [hG]
    rw [h0 _ (hfar _ (h.far x hx)), ite_self]
  have e3 : (u.neiblist.map G).sum + (dir.map G).sum = (idx.map fun j => if hm (part j).ptype then F j else 0).sum := by
    rw [h.neib, ← List.sum_append, ← List.map_append, (h.perm.map G).sum_eq]
    exact sum_range_getD idx fun j => if hm (part j).ptype then F j else 0
  rw [e2, add_zero] at e3
  rw [e1, e3, (hidx.map _).sum_eq, List.map_append, List.sum_append, over_append]
  unfold over
  rw [add_comm]
  congr 1
  · rw [sum_filter, sum_filter]
    refine sum_congr_mem fun j _ => ?_
    have := hmg (part j).ptype
    clear * - this
    cases Flags.is_dead (part j).flags <;> cases y : hm (part j).ptype <;> cases g : gm (part j).ptype <;>
      cases near (part j) <;> simp_all
  · rw [sum_filter, sum_filter]
    refine sum_congr_mem fun j _ => ?_
    have := hmg (part j).ptype
    clear * - this
    cases Flags.is_dead (part j).flags <;> cases y : hm (part j).ptype <;> cases g : gm (part j).ptype <;> simp_all

/-! ### the forces of the particles -/

/-- gravity of the distant cells at `x` -/
noncomputable def cellField (mp : Multi) (sm : ℝ) (rc x : Vec n ℝ) (cells : List (Moment n)) : Field n :=
  match mp with
    | .monopole => cellMonopoleForces sm x cells ⟨0, fun _ => 0⟩
    | .quadrupole => cellQuadrupoleForces sm x cells ⟨0, fun _ => 0⟩
    | .fastMonopole => fastMonopoleForces rc x cells ⟨0, fun _ => 0⟩
    | .fastQuadrupole => fastQuadrupoleForces sm rc x cells ⟨0, fun _ => 0⟩

theorem cellForces_eq (mp : Multi) {sm : ℝ} (hsm : 0 ≤ sm) (rc : Vec n ℝ) (cells : List (Moment n)) (p : Part n) :
    cellForces mp sm rc cells p =
      { p with
        gpot := p.gpot + (cellField mp sm rc p.r cells).gpot
        atree := fun k => p.atree k + (cellField mp sm rc p.r cells).a k } := by
  cases mp
  · simp only [cellForces, cellField, monopole_field hsm, zero_add]
  · simp only [cellForces, cellField, quadrupole_field hsm, zero_add]
  · simp only [cellForces, cellField, fastMonopoleForces, Fast.apply, zero_add]
  · simp only [cellForces, cellField, fastQuadrupoleForces, Fast.apply, zero_add]

/-- the local copy of a particle after its lists `A`, `B`, `C` and the cells -/
theorem forces_lists (par : Par) (K : Kernel) {sm : ℝ} (hsm : 0 ≤ sm) (eosP : ℝ) (sphdata : ℕ → Part n) (mp : Multi)
    (rc : Vec n ℝ) (cells : List (Moment n)) (p : Part n) (A B C : List (Part n)) :
    let x := if A = [] then startGrav K p else hydroGravForces par K sm eosP (startGrav K p) A
    let y := cellForces mp sm rc cells (directGravForces sm (gravForces K sm sphdata x B) C)
    let z := addGrav (zeroAcc p) y
    (∀ k, z.a k = (A.map fun q => q.m * unit sm (fun k => q.r k - p.r k) k *
        (presPaux K sm p q - viscPaux par K sm p q)).sum + z.atree k) ∧
    (∀ k, z.atree k =
      (A.map fun q => q.m * unit sm (fun k => q.r k - p.r k) k * gravPaux K sm p q).sum +
      (B.map fun q => q.m * unit sm (fun k => q.r k - p.r k) k * gravPaux K sm p q).sum +
      (C.map fun q => q.m * (q.r k - p.r k) * (1 / dist sm p q) ^ 3).sum + (cellField mp sm rc p.r cells).a k) ∧
    z.gpot = p.m / p.h * K.wpot 0 + ((A.map fun q => q.m * gravGaux K sm p q).sum +
      (B.map fun q => q.m * gravGaux K sm p q).sum + (C.map fun q => q.m * (1 / dist sm p q)).sum) +
      (cellField mp sm rc p.r cells).gpot := by
  intro x y z
  have hx : x.r = p.r ∧ x.h = p.h ∧ x.hfactor = p.hfactor ∧ x.zeta = p.zeta ∧
      (∀ k, x.a k = (A.map fun q => q.m * unit sm (fun k => q.r k - p.r k) k *
        (presPaux K sm p q - viscPaux par K sm p q)).sum) ∧
      (∀ k, x.atree k = (A.map fun q => q.m * unit sm (fun k => q.r k - p.r k) k * gravPaux K sm p q).sum) ∧
      x.gpot = p.m / p.h * K.wpot 0 + (A.map fun q => q.m * gravGaux K sm p q).sum := by
    by_cases h : A = []
    · simp only [x, if_pos h]
      subst h
      refine ⟨rfl, rfl, rfl, rfl, fun k => rfl, fun k => rfl, ?_⟩
      simp [startGrav]
    · simp only [x, if_neg h, hydroGravForces, setDalphadt_a, setDalphadt_atree, setDalphadt_gpot, foldl_hydroGrav,
        finish]
      refine ⟨?_, ?_, ?_, ?_, fun k => ?_, fun k => ?_, ?_⟩
      · unfold setDalphadt; split_ifs <;> rfl
      · unfold setDalphadt; split_ifs <;> rfl
      · unfold setDalphadt; split_ifs <;> rfl
      · unfold setDalphadt; split_ifs <;> rfl
      · exact zero_add _
      · exact zero_add _
      · rfl
  obtain ⟨x1, x2, x3, x4, xa, xt, xg⟩ := hx
  have e1 : ∀ q : Part n, dist sm x q = dist sm p q := fun q => by unfold Sph.dist; rw [x1]
  have e2 : ∀ q : Part n, gravPaux K sm x q = gravPaux K sm p q := fun q => by
    unfold gravPaux wkern Sph.dist; rw [x1, x2, x3, x4]
  have e3 : ∀ q : Part n, gravGaux K sm x q = gravGaux K sm p q := fun q => by
    unfold gravGaux Sph.dist; rw [x1, x2]
  have ey : y =
      { x with
        atree := fun k => x.atree k + (B.map fun q => q.m * unit sm (fun k => q.r k - p.r k) k * gravPaux K sm p q).sum +
          (C.map fun q => q.m * (q.r k - p.r k) * (1 / dist sm p q) ^ 3).sum + (cellField mp sm rc p.r cells).a k
        gpot := x.gpot + (B.map fun q => q.m * gravGaux K sm p q).sum + (C.map fun q => q.m * (1 / dist sm p q)).sum +
          (cellField mp sm rc p.r cells).gpot
        levelneib := y.levelneib } := by
    simp only [y]
    rw [cellForces_eq mp hsm]
    simp only [gravForces, directGravForces, foldl_grav, foldl_direct]
    change ({ x with
        atree := fun k => x.atree k + (B.map fun q => q.m * unit sm (fun k => q.r k - x.r k) k * gravPaux K sm x q).sum +
          (C.map fun q => q.m * (q.r k - x.r k) * (1 / dist sm x q) ^ 3).sum + (cellField mp sm rc x.r cells).a k
        gpot := x.gpot + (B.map fun q => q.m * gravGaux K sm x q).sum + (C.map fun q => q.m * (1 / dist sm x q)).sum +
          (cellField mp sm rc x.r cells).gpot
        levelneib := _ } : Part n) = _
    simp only [e1, e2, e3, x1]
  have ya : y.a = x.a := by rw [ey]
  have yt : ∀ k, y.atree k = x.atree k +
      (B.map fun q => q.m * unit sm (fun k => q.r k - p.r k) k * gravPaux K sm p q).sum +
      (C.map fun q => q.m * (q.r k - p.r k) * (1 / dist sm p q) ^ 3).sum + (cellField mp sm rc p.r cells).a k := by
    intro k; rw [ey]
  have yg : y.gpot = x.gpot + (B.map fun q => q.m * gravGaux K sm p q).sum +
      (C.map fun q => q.m * (1 / dist sm p q)).sum + (cellField mp sm rc p.r cells).gpot := by rw [ey]
  refine ⟨fun k => ?_, fun k => ?_, ?_⟩
  · change 0 + y.a k + y.atree k = _ + (0 + y.atree k)
    rw [ya, xa]; ring
  · change 0 + y.atree k = _
    rw [yt, xt]; ring
  · change 0 + y.gpot = _
    rw [yg, xg]; ring

/-- what the two views of the particle array and the parameters must have in common; open boundaries -/
structure Setup (E : Env n) (cfg : KD.Cfg) (P : KD.Parts n) : Prop where
  periodic : E.d.anyPeriodic = false
  mirror : E.d.anyMirror = false
  sm : 0 ≤ E.sm
  kernel : ∃ n', E.K.Valid n'
  gravity : E.K.GravityOK
  range : cfg.kernrange = E.K.kernrange
  reg : ∃ hydro dustGrav, E.reg = register hydro dustGrav
  h_pos : ∀ i, 0 < P.h i
  part_r : ∀ i, (E.part i).r = P.r i
  part_h : ∀ i, (E.part i).h = P.h i
  part_range : ∀ i, (E.part i).hrangesqd = (E.K.kernrange * P.h i) ^ 2
  part_dead : ∀ i, Flags.is_dead (E.part i).flags = P.dead i
  part_grav : ∀ i, E.reg.gravmask (E.part i).ptype = P.grav i
  sys_r : ∀ i, (E.sys i).r = P.r i
  sys_h : ∀ i, (E.sys i).h = P.h i
  sys_m : ∀ i, (E.sys i).m = P.m i

theorem hydromask_grav (hydro dustGrav : Bool) (t s : ℕ) (h : ((register hydro dustGrav).types t).hydromask s = true) :
    (register hydro dustGrav).gravmask s = true := by
  simp only [register] at h ⊢
  split_ifs at h
  simp only [Bool.and_eq_true] at h
  simp [h.2]

theorem Setup.mask {E : Env n} {cfg : KD.Cfg} {P : KD.Parts n} (S : Setup E cfg P) (t s : ℕ)
    (h : (E.reg.types t).hydromask s = true) : E.reg.gravmask s = true := by
  obtain ⟨a, b, e⟩ := S.reg
  rw [e] at h ⊢
  exact hydromask_grav a b t s h

theorem Setup.range_pos {E : Env n} {cfg : KD.Cfg} {P : KD.Parts n} (S : Setup E cfg P) : 0 < E.K.kernrange := by
  obtain ⟨m, hm⟩ := S.kernel
  exact hm.range_pos

theorem Setup.within {E : Env n} {cfg : KD.Cfg} {P : KD.Parts n} (S : Setup E cfg P) (i j : ℕ) :
    Within (E.part i) (E.part j) ↔ Interacts E.K (E.sys i) (E.sys j) := by
  unfold Within InKernel Interacts
  simp only [S.part_r, S.part_range, S.sys_r, S.sys_h]
  rw [Real.sqrt_lt' (mul_pos S.range_pos (S.h_pos i)), Real.sqrt_lt' (mul_pos S.range_pos (S.h_pos j))]

theorem dist_gdist (sm : ℝ) (p q : Part n) : dist sm p q = gdist sm p.r q.r := by
  unfold Sph.dist drmag gdist dot
  congr 2
  exact Finset.sum_congr rfl fun k _ => by ring

theorem unit_gdist {sm : ℝ} (hsm : 0 ≤ sm) (p q : Part n) (k : Fin n) :
    unit sm (fun k => q.r k - p.r k) k = (q.r k - p.r k) / gdist sm p.r q.r := by
  rw [← dist_gdist]
  by_cases h : 0 < dist sm p q
  · exact unit_eq h k
  · unfold unit
    have h0 : dist sm p q = 0 := le_antisymm (not_lt.mp h) (Real.sqrt_nonneg _)
    have e : unit sm (fun k => q.r k - p.r k) k = q.r k - p.r k := if_neg h
    have h1 : q.r k - p.r k = 0 := by
      have h2 := (Real.sqrt_eq_zero'.mp h0)
      have h3 : ∑ j, (q.r j - p.r j) * (q.r j - p.r j) ≤ 0 := by
        change dot _ _ + sm ≤ 0 at h2
        unfold dot at h2
        linarith
      have h4 : (q.r k - p.r k) * (q.r k - p.r k) ≤ ∑ j, (q.r j - p.r j) * (q.r j - p.r j) :=
        Finset.single_le_sum (f := fun j => (q.r j - p.r j) * (q.r j - p.r j)) (fun j _ => mul_self_nonneg _)
          (Finset.mem_univ k)
      exact mul_self_eq_zero.mp (le_antisymm (h4.trans h3) (mul_self_nonneg _))
    change unit sm (fun k => q.r k - p.r k) k = _
    rw [e, h1, zero_div]

theorem pull_eq (K : Kernel) {sm : ℝ} (hsm : 0 ≤ sm) (p q : Part n) (k : Fin n) :
    q.m * unit sm (fun k => q.r k - p.r k) k * gravPaux K sm p q = pull K sm p q k := by
  unfold pull gravPaux wkern
  rw [unit_gdist hsm, dist_comm sm p q, dist_gdist]
  simp only [mul_one_div]
  ring

theorem well_eq (K : Kernel) (sm : ℝ) (p q : Part n) : q.m * gravGaux K sm p q = well K sm p q := by
  unfold well gravGaux
  rw [dist_comm sm p q, dist_gdist]
  simp only [mul_one_div]
  ring

theorem push_eq (par : Par) (K : Kernel) {sm : ℝ} (hsm : 0 ≤ sm) (p q : Part n) (k : Fin n) :
    q.m * unit sm (fun k => q.r k - p.r k) k * (presPaux K sm p q - viscPaux par K sm p q) = push par K sm p q k := by
  unfold push
  rw [unit_gdist hsm]

/-- outside both kernels the smoothed law is Newton's -/
theorem pull_far {K : Kernel} {n' : ℕ} (hK : K.Valid n') (hG : K.GravityOK) {sm : ℝ} (hsm : 0 ≤ sm) {p q : Part n}
    (hp : 0 < p.h) (hq : 0 < q.h) (hi : ¬ Interacts K p q) (k : Fin n) :
    q.m * (q.r k - p.r k) * (1 / dist sm p q) ^ 3 = pull K sm p q k ∧
    q.m * (q.r k - p.r k) / gdist sm p.r q.r ^ 3 = pull K sm p q k := by
  obtain ⟨h0, h1, -⟩ := gravPaux_far hK hG hsm hp hq hi
  rw [← pull_eq K hsm, h1, unit_eq h0, ← dist_gdist]
  constructor
  · field_simp
  · field_simp

theorem well_far {K : Kernel} {n' : ℕ} (hK : K.Valid n') (hG : K.GravityOK) {sm : ℝ} (hsm : 0 ≤ sm) {p q : Part n}
    (hp : 0 < p.h) (hq : 0 < q.h) (hi : ¬ Interacts K p q) :
    q.m * (1 / dist sm p q) = well K sm p q ∧ q.m / gdist sm p.r q.r = well K sm p q := by
  obtain ⟨-, -, h1⟩ := gravPaux_far hK hG hsm hp hq hi
  rw [← well_eq K, h1, ← dist_gdist]
  exact ⟨rfl, by rw [mul_one_div]⟩

theorem push_far {K : Kernel} {n' : ℕ} (hK : K.Valid n') (par : Par) {sm : ℝ} (hsm : 0 ≤ sm) {p q : Part n}
    (hp : 0 < p.h) (hq : 0 < q.h) (hi : ¬ Interacts K p q) (k : Fin n) : push par K sm p q k = 0 := by
  rw [← push_eq par K hsm, acc_zero hK par hsm hp hq hi, mul_zero]

/-! ### nothing outside the neighbour list is within a kernel -/

theorem interacts_gdist (K : Kernel) (p q : Part n) :
    Interacts K p q ↔ gdist 0 q.r p.r < K.kernrange * p.h ∨ gdist 0 q.r p.r < K.kernrange * q.h := by
  have e : √(dot (fun k => q.r k - p.r k) (fun k => q.r k - p.r k)) = gdist 0 q.r p.r := by
    unfold gdist dot
    rw [add_zero]
    congr 1
    exact Finset.sum_congr rfl fun k _ => by ring
  unfold Interacts
  rw [e]

theorem far_near {E : Env n} {cfg : KD.Cfg} {P : KD.Parts n} (S : Setup E cfg P) {a : List ℕ} {cell : KD.Props n}
    (hc : Summary cfg P a cell) {i j : ℕ} (hi : i ∈ a)
    (hn : NM.near E.K.kernrange cell.target (E.part j) = false) : ¬ Interacts E.K (E.sys i) (E.sys j) := by
  rw [interacts_gdist]
  simp only [S.sys_r, S.sys_h]
  simp only [NM.near, Bool.or_eq_false_iff, decide_eq_false_iff_not, not_lt, S.part_r, S.part_h] at hn
  obtain ⟨h1, h2⟩ := hn
  have e : dot (fun k => P.r j k - cell.target.rcell k) (fun k => P.r j k - cell.target.rcell k) =
      gdist 0 (P.r j) cell.rcell ^ 2 := by rw [← distsqd_gdist]; rfl
  rw [e] at h1 h2
  rw [← sq] at h2
  have hk := S.range_pos
  have b1 : cell.rmax + E.K.kernrange * cell.hmax ≤ gdist 0 (P.r j) cell.rcell :=
    le_of_abs_le (abs_le_of_sq_le_sq h1 (gdist_nonneg _ _ _))
  have b2 : cell.rmax + E.K.kernrange * P.h j ≤ gdist 0 (P.r j) cell.rcell :=
    le_of_abs_le (abs_le_of_sq_le_sq h2 (gdist_nonneg _ _ _))
  have t := gdist_tri (P.r j) (P.r i) cell.rcell
  have x := gdist_le hc.rmaxNonneg (hc.extent i hi)
  have y := mul_le_mul_of_nonneg_left (hc.hmax i hi) hk.le
  push Not
  constructor <;> linarith

theorem far_out {E : Env n} {cfg : KD.Cfg} {P : KD.Parts n} (S : Setup E cfg P) {a lc : List ℕ} {cell c : KD.Props n}
    (hc : Summary cfg P a cell) (hl : Summary cfg P lc c) {i j : ℕ} (hi : i ∈ a) (hj : j ∈ lc)
    (ho : OutOfRange E.K.kernrange (cellDist E.d c cell) c cell) : ¬ Interacts E.K (E.sys i) (E.sys j) := by
  rw [interacts_gdist]
  simp only [S.sys_r, S.sys_h]
  have e : cellDist E.d c cell = gdist 0 c.rcell cell.rcell ^ 2 := by
    rw [← distsqd_gdist]
    simp only [cellDist, ghostNearest, S.periodic]
    rfl
  obtain ⟨h1, h2⟩ := ho
  rw [e] at h1 h2
  have hk := S.range_pos
  have b1 := le_of_abs_le (abs_le_of_sq_le_sq h1.le (gdist_nonneg _ _ _))
  have b2 := le_of_abs_le (abs_le_of_sq_le_sq h2.le (gdist_nonneg _ _ _))
  have t1 := gdist_tri c.rcell (P.r j) cell.rcell
  have t2 := gdist_tri (P.r j) (P.r i) cell.rcell
  have x1 := gdist_le hc.rmaxNonneg (hc.extent i hi)
  have x2 := gdist_le hl.rmaxNonneg (hl.extent j hj)
  rw [dist_symm] at x2
  have y1 := mul_le_mul_of_nonneg_left (hc.hmax i hi) hk.le
  have y2 := mul_le_mul_of_nonneg_left (hl.hmax j hj) hk.le
  push Not
  constructor <;> linarith

/-! ### a particle of the loop -/

theorem map_entry {E : Env n} {cfg : KD.Cfg} {P : KD.Parts n} (S : Setup E cfg P) {near : NPart n ℝ → Bool}
    {dr idx hyd dir : List ℕ} {u : NM n ℝ} (h : Holds E.part E.reg.gravmask near E.junk dr idx hyd dir u) (i : ℕ) :
    (∀ x < idx.length, E.entry u (E.lists u i) x = E.sys (idx.getD x 0)) ∧
    (∀ x ∈ (E.lists u i).culled, x < idx.length) ∧ (∀ x ∈ (E.lists u i).smooth, x < idx.length) ∧
    (∀ x ∈ (E.lists u i).direct, x < idx.length ∧ (x ∈ dir ∨ ¬ Within (E.part i) (E.part (idx.getD x 0)))) := by
  obtain ⟨c1, c2, c3, -, c5⟩ := trim_open S.periodic (E.reg.types (E.part i).ptype).hydromask E.reg.gravmask E.junk
    (E.part i) u h.nodup h.lt
  change (E.lists u i).culled = _ at c1
  change (E.lists u i).smooth = _ at c2
  change (E.lists u i).direct = _ at c3
  have hlt : ∀ x ∈ u.neiblist, x < idx.length := fun x hx => by have := h.lt x hx; rwa [h.len] at this
  refine ⟨fun x hx => ?_, fun x hx => ?_, fun x hx => ?_, fun x hx => ?_⟩
  · unfold Env.entry
    have e : ((E.lists u i).neibdata.getD x E.junk).r = (E.sys (idx.getD x 0)).r := by
      rw [show (E.lists u i).neibdata.getD x E.junk = _ from c5 x]
      simp only [h.dat x hx, S.part_r, S.sys_r]
    rw [h.nums, e]
  · rw [c1] at hx
    exact hlt x (List.mem_filter.mp hx).1
  · rw [c2] at hx
    exact hlt x (List.mem_filter.mp hx).1
  · rw [c3, h.direct] at hx
    rcases List.mem_append.mp hx with hx | hx
    · exact ⟨List.mem_range.mp (h.perm.mem_iff.mp (List.mem_append_right _ hx)), Or.inl hx⟩
    · obtain ⟨h1, h2⟩ := List.mem_filter.mp hx
      simp only [decide_eq_true_eq] at h2
      have h3 := h2.1
      simp only [h.dat x (hlt x h1)] at h3
      exact ⟨hlt x h1, Or.inr h3⟩

/-- one active particle: its acceleration is the sum over the particles of the walk, plus the distant cells -/
theorem particle {E : Env n} {cfg : KD.Cfg} {P : KD.Parts n} (S : Setup E cfg P) {near : NPart n ℝ → Bool}
    {nb dr idx hyd dir : List ℕ} {u : NM n ℝ} (h : Holds E.part E.reg.gravmask near E.junk dr idx hyd dir u)
    (hidx : idx.Perm ((dr.filter fun i => !Flags.is_dead (E.part i).flags && E.reg.gravmask (E.part i).ptype) ++
        nb.filter fun i => !Flags.is_dead (E.part i).flags && (near (E.part i) || E.reg.gravmask (E.part i).ptype)))
    {i : ℕ} (hfar : ∀ j, near (E.part j) = false ∨ j ∈ dr → ¬ Interacts E.K (E.sys i) (E.sys j))
    (hself : (E.reg.types (E.part i).ptype).self_gravity = true) (rc : Vec n ℝ) (cells : List (Moment n)) :
    let z := addGrav (zeroAcc (E.sys i)) (E.forces rc cells u i)
    let c := cellField E.mp E.sm rc (P.r i) cells
    (∀ k, z.a k = over (nb ++ dr) (fun j => !P.dead j && (E.reg.types (E.part i).ptype).hydromask (E.part j).ptype)
      (fun j => push E.par E.K E.sm (E.sys i) (E.sys j) k) + z.atree k) ∧
    (∀ k, z.atree k = over (nb ++ dr) (fun j => !P.dead j && P.grav j)
      (fun j => pull E.K E.sm (E.sys i) (E.sys j) k) + c.a k) ∧
    z.gpot = P.m i / P.h i * E.K.wpot 0 + over (nb ++ dr) (fun j => !P.dead j && P.grav j)
      (fun j => well E.K E.sm (E.sys i) (E.sys j)) + c.gpot := by
  intro z c
  obtain ⟨m1, m2, m3, m4⟩ := map_entry S h i
  obtain ⟨n', hK⟩ := S.kernel
  have hh : ∀ j, 0 < (E.sys j).h := fun j => by rw [S.sys_h]; exact S.h_pos j
  set t := E.lists u i with ht
  have dfar : ∀ x ∈ t.direct, ¬ Interacts E.K (E.sys i) (E.sys (idx.getD x 0)) := by
    intro x hx
    rcases (m4 x hx).2 with h1 | h1
    · exact hfar _ (h.far x h1)
    · rwa [S.within] at h1
  have ez : z = addGrav (zeroAcc (E.sys i)) (cellForces E.mp E.sm rc cells (directGravForces E.sm (gravForces E.K E.sm E.sys
      (if t.culled.map (E.entry u t) = [] then startGrav E.K (E.sys i)
        else hydroGravForces E.par E.K E.sm (E.eosP i) (startGrav E.K (E.sys i)) (t.culled.map (E.entry u t)))
      (t.smooth.map (E.entry u t))) (t.direct.map (E.entry u t)))) := by
    simp only [z, Env.forces, hself, if_true, List.map_eq_nil_iff]
    rfl
  obtain ⟨f1, f2, f3⟩ := forces_lists E.par E.K S.sm (E.eosP i) E.sys E.mp rc cells (E.sys i)
    (t.culled.map (E.entry u t)) (t.smooth.map (E.entry u t)) (t.direct.map (E.entry u t))
  simp only [← ez] at f1 f2 f3
  have sA : ∀ f : Part n → ℝ, ((t.culled.map (E.entry u t)).map f).sum =
      (t.culled.map fun x => f (E.sys (idx.getD x 0))).sum := fun f => by
    rw [List.map_map]
    exact sum_congr_mem fun x hx => by simp only [Function.comp, m1 x (m2 x hx)]
  have sB : ∀ f : Part n → ℝ, ((t.smooth.map (E.entry u t)).map f).sum =
      (t.smooth.map fun x => f (E.sys (idx.getD x 0))).sum := fun f => by
    rw [List.map_map]
    exact sum_congr_mem fun x hx => by simp only [Function.comp, m1 x (m3 x hx)]
  have sC : ∀ f : Part n → ℝ, ((t.direct.map (E.entry u t)).map f).sum =
      (t.direct.map fun x => f (E.sys (idx.getD x 0))).sum := fun f => by
    rw [List.map_map]
    exact sum_congr_mem fun x hx => by simp only [Function.comp, m1 x (m4 x hx).1]
  have hmask := S.mask (E.part i).ptype
  have hs := fun F => lists_sum S.periodic h hmask hidx (E.part i) F
  have hy := fun F h0 => hydro_sum S.periodic h hmask hidx (E.part i) F h0 fun j hj => by
    rw [S.within]; exact hfar j hj
  simp only [S.part_dead, S.part_grav] at hs hy
  refine ⟨fun k => ?_, fun k => ?_, ?_⟩
  · rw [f1 k, sA]
    simp only [push_eq E.par E.K S.sm]
    congr 1
    exact hy (fun j => push E.par E.K E.sm (E.sys i) (E.sys j) k) fun j hj => by
      rw [S.within] at hj
      exact push_far hK E.par S.sm (hh i) (hh j) hj k
  · rw [f2 k, sA, sB, sC]
    simp only [pull_eq E.K S.sm]
    rw [sum_congr_mem (l := t.direct) (G := fun x => pull E.K E.sm (E.sys i) (E.sys (idx.getD x 0)) k) fun x hx =>
      (pull_far hK S.gravity S.sm (hh i) (hh _) (dfar x hx) k).1, S.sys_r]
    exact congrArg (· + c.a k) (hs fun j => pull E.K E.sm (E.sys i) (E.sys j) k)
  · rw [f3, sA, sB, sC]
    simp only [well_eq E.K]
    rw [sum_congr_mem (l := t.direct) (G := fun x => well E.K E.sm (E.sys i) (E.sys (idx.getD x 0))) fun x hx =>
      (well_far hK S.gravity S.sm (hh i) (hh _) (dfar x hx)).1, S.sys_r, S.sys_m, S.sys_h]
    exact congrArg (fun y => P.m i / P.h i * E.K.wpot 0 + y + c.gpot)
      (hs fun j => well E.K E.sm (E.sys i) (E.sys j))

/-- the loop over the active particles: the manager stays good, so every particle gets its sums -/
theorem loop_spec {E : Env n} (hp : E.d.anyPeriodic = false) {near : NPart n ℝ → Bool} {dr idx hyd dir : List ℕ}
    (rc : Vec n ℝ) (cells : List (Moment n)) (Q : ℕ → Part n → Prop) : ∀ (act : List ℕ) (u : NM n ℝ),
    Holds E.part E.reg.gravmask near E.junk dr idx hyd dir u →
    (∀ i ∈ act, ∀ v, Holds E.part E.reg.gravmask near E.junk dr idx hyd dir v →
      Q i (addGrav (zeroAcc (E.sys i)) (E.forces rc cells v i))) →
    (E.loop rc cells u act).map Prod.fst = act ∧ ∀ x ∈ E.loop rc cells u act, Q x.1 x.2 := by
  intro act
  induction act with
  | nil => intro u _ _; exact ⟨rfl, fun x hx => by cases hx⟩
  | cons i act ih =>
    intro u hu hQ
    obtain ⟨e1, e2⟩ := ih (u.afterTrim (E.lists u i)) (hu.trim hp _ _) fun j hj => hQ j (List.mem_cons_of_mem _ hj)
    refine ⟨?_, fun x hx => ?_⟩
    · change i :: (E.loop rc cells _ act).map Prod.fst = _
      rw [e1]
    · rcases List.mem_cons.mp hx with rfl | hx
      · exact hQ i (by simp) u hu
      · exact e2 x hx

end Gandalf.GravLoop
