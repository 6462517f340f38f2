import Verif.Proof.HydroLabels

/-!
# C08/C10 – the neighbour loop of a particle, end to end

Tree walk, ghost construction, culling, and trimming together give each particle exactly its physical
neighbours, each once.
-/

set_option autoImplicit false
set_option linter.unusedSectionVars false

namespace Gandalf
open Walk KD

variable {n : ℕ} {T : Tree n} {cfg : Cfg} {P : Parts n} {pfuel : ℕ} {f : Forest} {l : List ℕ}
  {d : Domain n ℝ} {junk : Vec n ℝ} {part : ℕ → NPart n ℝ}

/-- `FLAG` reference of the scatter-gather constructor stays valid -/
def SeenFaithful (seen : NPart n ℝ → Fin n → Side → ℝ) : Prop := ∀ q k s, seen q k s = q.r k

/-- the state of the manager after the search, with labels -/
theorem search_labels (H : HydroSetup T cfg P pfuel f l d junk part)
    (cell : Props n) (a : List ℕ) (hcell : Summary cfg P a cell) (hsub : ∀ i ∈ a, i ∈ l) (hne : a ≠ [])
    (seen : NPart n ℝ → Fin n → Side → ℝ) (hseen : SeenFaithful seen)
    (gravmask : ℕ → Bool) (junkp : NPart n ℝ) (found : List ℕ) (hfound : found.Sublist l)
    (hcomp : ∀ i ∈ a, ∀ j ∈ l, ∀ y, d.IsImage (P.r j) y → Interact cfg.kernrange P i y (P.h j) →
        j ∈ found) :
    ∃ labs : List (ℕ × (Fin n → Option Side)), labs.Nodup ∧
      ManagerInv d part labs (NM.endSearch d cfg.kernrange gravmask seen junkp cell.target part found []
        [] false) ∧
      (∀ x ∈ labs, x.1 ∈ l ∧ P.dead x.1 = false ∧ d.MirrorChoice x.2) ∧
      ∀ i ∈ a, ∀ j ∈ l, P.dead j = false → ∀ σ, d.MirrorChoice σ →
        (∃ y, d.IsImage (d.mirrorPos σ (P.r j)) y ∧ Interact cfg.kernrange P i y (P.h j)) →
        (j, σ) ∈ labs := by
  have hK := H.kern
  -- reflections constructed for each particle
  have hC16 := fun j => C16_scatter_gather_complete d cell.target (part j) seen
    (fun k s => hseen _ k s) (cfg.kernrange * P.h j) (mul_pos hK (H.h j)).le (H.phr j)
    (fun k => H.hbox hcell hsub hne k)
  choose cs c1 c2 c3 c4 c5 using hC16
  set live := found.filter fun j => !Flags.is_dead (part j).flags with hlive
  have hlnd : live.Nodup := (hfound.nodup H.tree.nodup).filter _
  obtain ⟨labs, l1, l2, l3, l4⟩ := labels d cfg.kernrange cell.target part seen
    (fun q => gravmask q.ptype) cs live hlnd fun j _ => ⟨c1 j, c2 j, c4 j⟩
  obtain ⟨E1, E2, hR, hP, -, hE1, hE2⟩ := endSearch_spec d cfg.kernrange gravmask seen junkp cell.target
    part found [] [] false (fun h => by cases h) (fun h => by cases h)
  have hE2 : E2 = [] := hE2
  subst hE2
  rw [List.append_nil] at hR
  have hS : searchEntries (constructGhostsScatterGather d cell.target seen)
      (fun p => p.nearestGhost d cell.target.rcell) (NM.near cfg.kernrange cell.target)
      (fun q => gravmask q.ptype) false part found [] =
      live.flatMap fun j => (constructGhostsScatterGather d cell.target seen (part j)).filterMap
          (cullClass (NM.near cfg.kernrange cell.target) (fun q => gravmask q.ptype) false j) := by
    simp [searchEntries, hlive]
  rw [hS] at hE1
  obtain ⟨labs', hF, hPerm⟩ := List.perm_comp_forall₂ hE1 (l2.flip)
  have hlen : E1.length = labs'.length := hF.length_eq
  have htrue : ∀ e ∈ E1, e.2.2 = true := by
    intro e he
    obtain ⟨x, _, hx⟩ := forall2_left hF.flip he
    exact hx.hydro
  have hidx : idxs true E1 = List.range labs'.length := by
    rw [← hlen]
    unfold idxs
    rw [List.filter_eq_self]
    intro t ht
    have := List.mem_range.mp ht
    rw [List.getElem?_eq_getElem this]
    simp [htrue _ (List.getElem_mem this)]
  refine ⟨labs', hPerm.nodup_iff.mpr l1, ⟨?_, ?_, ?_, ?_, ?_⟩, ?_, ?_⟩
  · rw [hR.neib, hidx]
  · rw [hP, hidx, List.length_range]
  · rw [hR.idx]
    clear hR hP hE1 hPerm hlen htrue hidx
    induction hF with
    | nil => rfl
    | cons h _ ih => rw [List.map_cons, List.map_cons, ih, h.idx]
  · rw [hR.data, List.length_map, hlen]
  · intro t x hx junk'
    have ht : t < labs'.length := (List.getElem?_eq_some_iff.mp hx).1
    have ht' : t < E1.length := by rw [hlen]; exact ht
    have hent : EntryOf d cfg.kernrange cell.target part x E1[t] := by
      have := (List.forall₂_iff_get.mp hF).2 t ht' ht
      simp only [List.get_eq_getElem] at this
      rw [(List.getElem?_eq_some_iff.mp hx).2] at this
      exact this
    have hxl := l3 x (hPerm.mem_iff.mp (List.mem_of_getElem? hx))
    obtain ⟨hxf, hσ⟩ := hxl
    have hxl : x.1 ∈ l := hfound.subset (List.mem_filter.mp hxf).1
    have hrf := hent.refl
    set q := E1[t].2.1 with hq
    set g := (part x.1).nearestGhost d cell.target.rcell with hg
    obtain ⟨o1, o2, o3, o4, o5, o6, o7, o8⟩ := nearestGhost_other d cell.target.rcell (part x.1)
    have himg : d.IsImage (part x.1).r g.r := by
      have := nearest_image d H.wf (part x.1).r cell.target.rcell
      have e : g.r = fun k => cell.target.rcell k +
          ghostNearest d (fun k => (part x.1).r k - cell.target.rcell k) k := by
        funext k; exact nearestGhost_r d H.wf _ _ k
      rw [e]; exact this
    refine ⟨q, ?_, ?_, ?_, ?_⟩
    · refine ⟨by rw [hrf.v, o7], by rw [hrf.a, o8], by rw [hrf.m, o1], by rw [hrf.h, o2],
        by rw [hrf.hrangesqd, o3], by rw [hrf.ptype, o4], by rw [hrf.level, o5], by rw [hrf.iorig, o6], ?_⟩
      have hf := hrf.flagged Flags.mirror_boundary
      have hg := (nearestGhost_mirror d cell.target.rcell (part x.1))
      have hno := H.pmir x.1
      simp only [Flags.is_mirror, bne_iff_ne, bne_eq_false_iff_eq] at hno ⊢
      rw [hf, hg]
      constructor
      · rintro (h | ⟨k, s, e, -⟩)
        · exact absurd hno h
        · exact ⟨k, by rw [e]; simp⟩
      · rintro ⟨k, hk⟩
        obtain ⟨s, e⟩ := Option.ne_none_iff_exists'.mp hk
        refine Or.inr ⟨k, s, e, ?_⟩
        generalize dimFlag k = i
        clear e
        revert i s
        decide
    · rw [hR.data]
      simp [List.getD_eq_getElem?_getD, List.getElem?_eq_getElem ht', hq]
    · rw [hrf.r]; exact mirror_image H.wf hσ himg
    · intro k hk y hy1 hy2
      have hk0 := mirror_periodic H.wf hσ hk
      rw [hrf.r, mirrorPos_none hk0, nearestGhost_r d H.wf, ghostNearest_eq d H.wf, if_pos hk]
      have hcen := H.centre hcell hsub hne hk
      have hdom := H.dom hxl hk
      have hs := H.wf.size k
      have hcr : cell.target.rcell k = cell.rcell k := rfl
      rw [hcr, H.pr]
      have := abs_le.mp (wrap1_abs (size := d.size k) (x := P.r x.1 k - cell.rcell k) (by
        rw [abs_le]; constructor <;> linarith))
      rw [abs_le]; constructor <;> linarith [this.1, this.2]
  · intro x hx
    obtain ⟨hxf, hσ⟩ := l3 x (hPerm.mem_iff.mp hx)
    have := List.mem_filter.mp hxf
    refine ⟨hfound.subset this.1, ?_, hσ⟩
    rw [← H.pdead]; simpa using this.2
  · intro i hi j hj hdead σ hσ ⟨y, hy, hint⟩
    rw [hPerm.mem_iff]
    have hyper : ∀ k, σ k ≠ none → y k = d.mirrorPos σ (P.r j) k := by
      intro k hk
      obtain ⟨m, hm⟩ := hy
      have := (H.reflect_far (hsub i hi) hj hσ hk).1
      rw [(hm k).2, (hm k).1 this]; simp
    -- the particle itself has an interacting image
    have hjf : j ∈ found := by
      refine hcomp i hi j hj (fun k => if σ k = none then y k else P.r j k) ?_ ?_
      · obtain ⟨m, hm⟩ := hy
        refine ⟨m, fun k => ⟨(hm k).1, ?_⟩⟩
        simp only
        split_ifs with h0
        · rw [(hm k).2, mirrorPos_none h0]
        · rw [(hm k).1 (H.reflect_far (hsub i hi) hj hσ h0).1]; simp
      · refine lt_of_le_of_lt (dot_le_dot fun k => ?_) hint
        simp only
        split_ifs with h0
        · exact le_refl _
        · rw [hyper k h0]; exact (H.reflect_far (hsub i hi) hj hσ h0).2
    have hjl : j ∈ live := List.mem_filter.mpr ⟨hjf, by rw [H.pdead, hdead]; rfl⟩
    refine l4 j hjl σ ?_ ?_
    · refine c5 j σ hσ (P.r i) (cfg.kernrange * P.h i) (fun k => hcell.bb i hi k)
        (fun k => hcell.hbox i hi k) ?_
      have e : ∀ k, σ k ≠ none → d.mirrorPos σ ((part j).nearestGhost d cell.target.rcell).r k = y k := by
        intro k hk
        rw [hyper k hk]
        have hnp := (H.reflect_far (hsub i hi) hj hσ hk).1
        simp only [Domain.mirrorPos]
        rw [nearestGhost_r d H.wf, ghostNearest_eq d H.wf, if_neg hnp, H.pr]
        simp
      rcases interact_cases hK.le (H.h i).le hint with h | h
      · left; intro k hk; rw [e k hk]; exact h k
      · right; intro k hk; rw [e k hk]; exact h k
    · intro q hq
      have hqr : ∀ k, |q.r k - cell.rcell k| ≤ |y k - cell.rcell k| := by
        intro k
        rw [hq.r]
        by_cases h0 : σ k = none
        · rw [mirrorPos_none h0, nearestGhost_r d H.wf, ghostNearest_eq d H.wf, H.pr]
          have hcr : cell.target.rcell k = cell.rcell k := rfl
          rw [hcr]
          obtain ⟨m, hm⟩ := hy
          have hm2 := (hm k).2
          rw [mirrorPos_none h0] at hm2
          split_ifs with hk
          · have hcen := H.centre hcell hsub hne hk
            have hdom := H.dom hj hk
            have hs := H.wf.size k
            have := wrap1_min (size := d.size k) (x := P.r j k - cell.rcell k) (H.size_pos k).le (by
              rw [abs_le]; constructor <;> linarith) (m k)
            have e1 : cell.rcell k + wrap1 (d.size k) (P.r j k - cell.rcell k) - cell.rcell k =
              wrap1 (d.size k) (P.r j k - cell.rcell k) := by ring
            have e2 : y k - cell.rcell k = P.r j k - cell.rcell k + m k * d.size k := by rw [hm2]; ring
            rw [e1, e2]; exact this
          · have := (hm k).1 hk
            rw [hm2, this]; simp
        · rw [hyper k h0]
          have hnp := (H.reflect_far (hsub i hi) hj hσ h0).1
          have : d.mirrorPos σ ((part j).nearestGhost d cell.target.rcell).r k =
              d.mirrorPos σ (P.r j) k := by
            simp only [Domain.mirrorPos]
            rw [nearestGhost_r d H.wf, ghostNearest_eq d H.wf, if_neg hnp, H.pr]
            simp
          rw [this]
      have h1 : dot (fun k => q.r k - cell.rcell k) (fun k => q.r k - cell.rcell k) <
          (cfg.kernrange * max (P.h i) (P.h j) + cell.rmax) ^ 2 :=
        lt_of_le_of_lt (dot_le_dot hqr) (distsqd_lt_add
          (mul_nonneg hK.le (le_trans (H.h i).le (le_max_left _ _))) hcell.rmaxNonneg hint
          (hcell.extent i hi))
      obtain ⟨-, o2, -⟩ := nearestGhost_other d cell.target.rcell (part j)
      have hqh : q.h = P.h j := by rw [hq.h, o2, H.ph]
      simp only [NM.near, Bool.or_eq_true, decide_eq_true_eq]
      change dot (fun k => q.r k - cell.rcell k) (fun k => q.r k - cell.rcell k) <
        (cell.rmax + cfg.kernrange * cell.hmax) ^ 2 ∨
        dot (fun k => q.r k - cell.rcell k) (fun k => q.r k - cell.rcell k) <
        (cell.rmax + cfg.kernrange * q.h) * (cell.rmax + cfg.kernrange * q.h)
      rcases le_total (P.h i) (P.h j) with h | h
      · right
        rw [max_eq_right h] at h1
        rw [hqh]; nlinarith [h1]
      · left
        rw [max_eq_left h] at h1
        refine lt_of_lt_of_le h1 ?_
        have h2 := mul_le_mul_of_nonneg_left (hcell.hmax i hi) hK.le
        have h3 := mul_pos hK (H.h i)
        have h4 := hcell.rmaxNonneg
        exact pow_le_pow_left₀ (by linarith) (by linarith) 2

/-- **C08, end to end.** In a correctly stocked tree over the particles `l`, for every (active) cell with
particles `a`: the walk, `EndSearch` and, after the trims for any earlier particles `ps` of the loop,
`TrimNeighbourLists` for particle `i` of the cell return entries that correspond one to one to the
hydro neighbours of `i` (particle `j` and reflection `σ`), with the pairs-once filter applied when
requested. Each entry has the number and the (reflected) data of its particle and the position of its
periodic image nearest to `i`. -/
theorem C08_hydro_pipeline (H : HydroSetup T cfg P pfuel f l d junk part)
    (cell : Props n) (a : List ℕ) (hcell : Summary cfg P a cell) (hsub : ∀ i ∈ a, i ∈ l) (hne : a ≠ [])
    (seen : NPart n ℝ → Fin n → Side → ℝ) (hseen : SeenFaithful seen)
    (gravmask : ℕ → Bool) (junkp : NPart n ℝ) (fuel : ℕ) (hfuel : f.cells.length ≤ fuel) :
    ∃ found, T.ghostNeighbourWalk d junk cell pfuel [] fuel = .done found ∧
    ∃ lab : ℕ → ℕ × (Fin n → Option Side), ∀ (ps : List ((ℕ → Bool) × Bool × NPart n ℝ)),
      (∀ x ∈ ps, ∀ k, d.lhs k = .periodic → d.min k ≤ x.2.2.r k ∧ x.2.2.r k ≤ d.max k) →
      let m := NM.endSearch d cfg.kernrange gravmask seen junkp cell.target part found [] [] false
      let u := ps.foldl (fun u x => u.afterTrim (u.trim d x.1 gravmask x.2.1 false junkp x.2.2)) m
      ∀ i ∈ a, ∀ (hydromask : ℕ → Bool) (pairOnce : Bool),
      let t := u.trim d hydromask gravmask pairOnce false junkp (part i)
      t.culled.Nodup ∧
      (∀ x ∈ t.culled, ∀ y ∈ t.culled, lab x = lab y → x = y) ∧
      (∀ j σ, (∃ x ∈ t.culled, lab x = (j, σ)) ↔
        HydroNeighbour cfg.kernrange P l d (fun j => hydromask (part j).ptype) i j σ ∧
        (pairOnce = true → (∃ k, σ k ≠ none) ∨ (part j).level < (part i).level ∨
          ((part i).level = (part j).level ∧ (part i).iorig < (part j).iorig))) ∧
      ∀ x ∈ t.culled, u.neibIdx[x]? = some (lab x).1 ∧
        ∃ q, t.neibdata[x]? = some q ∧ CarriesData (lab x).2 (part (lab x).1) q ∧
          d.IsImage (d.mirrorPos (lab x).2 (P.r (lab x).1)) q.r ∧
          ∀ y, d.IsImage (d.mirrorPos (lab x).2 (P.r (lab x).1)) y →
            Tree.distsqd q.r (P.r i) ≤ Tree.distsqd y (P.r i) := by
  classical
  have hdom : ∀ i ∈ a ++ l, i ∈ l := by
    intro i hi
    rcases List.mem_append.mp hi with h | h
    · exact hsub i h
    · exact h
  obtain ⟨found, hw, hfl, hcomp⟩ := C08_ghostNeighbours T cfg P pfuel f l a H.tree cell hcell H.kern.le
    (fun i => (H.h i).le) d H.wf junk H.junk0 (fun i hi k hk => H.dom (hdom i hi) hk)
    (fun i hi k hk => H.size i (hdom i hi) k hk) H.big [] fuel hfuel
  refine ⟨found, hw, ?_⟩
  obtain ⟨labs, hnd, hinv, hmem, hall⟩ := search_labels H cell a hcell hsub hne seen hseen gravmask
    junkp found hfl hcomp
  refine ⟨fun x => labs.getD x (0, fun _ => none), ?_⟩
  intro ps hps m u i hi hydromask pairOnce t
  have hu : ManagerInv d part labs u := by
    have key : ∀ (ps : List ((ℕ → Bool) × Bool × NPart n ℝ)) (u : NM n ℝ),
        (∀ x ∈ ps, ∀ k, d.lhs k = .periodic → d.min k ≤ x.2.2.r k ∧ x.2.2.r k ≤ d.max k) →
        ManagerInv d part labs u → ManagerInv d part labs
          (ps.foldl (fun u x => u.afterTrim (u.trim d x.1 gravmask x.2.1 false junkp x.2.2)) u) := by
      intro ps
      induction ps with
      | nil => intro u _ h; exact h
      | cons x ps ih =>
        intro u hx h
        exact ih _ (fun y hy => hx y (List.mem_cons_of_mem _ hy))
          (h.trim H.wf x.1 gravmask x.2.1 false junkp x.2.2 (hx x List.mem_cons_self))
    exact key ps m hps hinv
  set L := (List.range u.neiblist.length).zip u.neiblist with hL
  have hLmem : ∀ ji, ji ∈ L ↔ ∃ x, x < labs.length ∧ ji = (x, x) := by
    intro ji
    rw [hL, hu.neib, List.length_range]
    constructor
    · intro h
      obtain ⟨x, hx, e⟩ := List.mem_iff_getElem.mp h
      exact ⟨x, by simpa using hx, by rw [← e]; simp⟩
    · rintro ⟨x, hx, rfl⟩
      rw [List.mem_iff_getElem]
      exact ⟨x, by simpa using hx, by simp⟩
  have hsnd : L.map Prod.snd = u.neiblist := by rw [hL]; exact List.map_snd_zip (by simp)
  obtain ⟨k1, -, -, -, k5, -, k7⟩ := trim_fold d hydromask gravmask pairOnce false
    u.nPeriodicGhosts junkp (part i) (fun i => u.neibdata.getD i junkp) L
    { neibdata := u.neibdata, direct := u.directlist.take u.nCellDirectNeib }
    (by rw [hsnd, hu.neib]; exact List.nodup_range)
    (fun ji hji => ⟨by
      obtain ⟨x, hx, rfl⟩ := (hLmem ji).mp hji
      rw [hu.len]; exact hx, rfl⟩)
  change t.culled = _ at k1
  change t.neibdata.length = _ at k5
  have k7 : ∀ ji ∈ L, t.neibdata.getD ji.2 junkp = _ := k7
  rw [List.nil_append] at k1
  have hcull : ∀ x, x ∈ t.culled ↔ x < labs.length ∧
      firstAppearance pairOnce (part i) (u.neibdata.getD x junkp) = true ∧
      InKernel (part i) (u.neibdata.getD x junkp) (trimSep d hydromask u.nPeriodicGhosts (part i)
        (u.neibdata.getD x junkp) x) ∧ hydromask (u.neibdata.getD x junkp).ptype = true := by
    intro x
    rw [k1, List.mem_map]
    constructor
    · rintro ⟨ji, hji, e⟩
      obtain ⟨h1, h2⟩ := List.mem_filter.mp hji
      obtain ⟨y, hy, rfl⟩ := (hLmem ji).mp h1
      simp only at e
      subst e
      exact ⟨hy, by simpa using h2⟩
    · rintro ⟨h1, h2⟩
      exact ⟨(x, x), List.mem_filter.mpr ⟨(hLmem _).mpr ⟨x, h1, rfl⟩, by simpa using h2⟩, rfl⟩
  have hil := hsub i hi
  have hpi := fun k hk => H.dom (i := i) hil (k := k) hk
  -- the tests in terms of the label
  have htest : ∀ x y, labs[x]? = some y →
      (x ∈ t.culled ↔ HydroNeighbour cfg.kernrange P l d (fun j => hydromask (part j).ptype) i y.1 y.2 ∧
        (pairOnce = true → (∃ k, y.2 k ≠ none) ∨ (part y.1).level < (part i).level ∨
          ((part i).level = (part y.1).level ∧ (part i).iorig < (part y.1).iorig))) := by
    intro x y hxy
    have hx : x < labs.length := (List.getElem?_eq_some_iff.mp hxy).1
    obtain ⟨q, q1, q2, q3, q4⟩ := hu.data x y hxy junkp
    obtain ⟨y1, y2, y3⟩ := hmem y (List.mem_of_getElem? hxy)
    rw [hcull, q2]
    have hfa : firstAppearance pairOnce (part i) q = true ↔ (pairOnce = true → (∃ k, y.2 k ≠ none) ∨
        (part y.1).level < (part i).level ∨
          ((part i).level = (part y.1).level ∧ (part i).iorig < (part y.1).iorig)) := by
      unfold firstAppearance
      cases pairOnce
      · simp
      · simp only [if_true, Bool.or_eq_true, Bool.and_eq_true, decide_eq_true_eq, q1.level, q1.iorig,
          q1.mirror, gt_iff_lt, true_imp_iff, or_assoc]
    have hker : hydromask q.ptype = true → (InKernel (part i) q (trimSep d hydromask u.nPeriodicGhosts
        (part i) q x) ↔ ∃ z, d.IsImage (d.mirrorPos y.2 (P.r y.1)) z ∧
          Interact cfg.kernrange P i z (P.h y.1)) := by
      intro hm
      rw [trimSep, if_pos ⟨by rw [hu.nPer]; exact hx, hm⟩, InKernel, q1.hrangesqd, H.phr, H.phr]
      have hiff : ∀ D : ℝ, (D < (cfg.kernrange * P.h i) ^ 2 ∨ D < (cfg.kernrange * P.h y.1) ^ 2) ↔
          D < (cfg.kernrange * max (P.h i) (P.h y.1)) ^ 2 := by
        intro D
        have hi0 := mul_pos H.kern (H.h i)
        have hj0 := mul_pos H.kern (H.h y.1)
        rcases le_total (P.h i) (P.h y.1) with h | h
        · rw [max_eq_right h]
          have := pow_le_pow_left₀ hi0.le (mul_le_mul_of_nonneg_left h H.kern.le) 2
          constructor
          · rintro (h | h) <;> linarith
          · exact Or.inr
        · rw [max_eq_left h]
          have := pow_le_pow_left₀ hj0.le (mul_le_mul_of_nonneg_left h H.kern.le) 2
          constructor
          · rintro (h | h) <;> linarith
          · exact Or.inl
      rw [hiff, H.pr]
      rw [H.pr] at q3
      constructor
      · intro h
        refine ⟨_, IsImage.trans q3 (nearest_image d H.wf q.r (P.r i)), ?_⟩
        unfold Interact Tree.distsqd
        have e : (fun k => P.r i k + ghostNearest d (fun k => q.r k - P.r i k) k - P.r i k) =
            ghostNearest d (fun k => q.r k - P.r i k) := by funext k; ring
        rw [e]; exact h
      · rintro ⟨z, hz, hI⟩
        refine lt_of_le_of_lt (nearest_min d H.wf (fun k hk => ?_)
          (IsImage.trans (IsImage.symm q3) hz)) hI
        exact q4 k hk _ (hpi k hk).1 (hpi k hk).2
    constructor
    · rintro ⟨-, h2, h3, h4⟩
      refine ⟨⟨y1, y2, by simp only; rw [← q1.ptype]; exact h4, y3, (hker h4).mp h3⟩, hfa.mp h2⟩
    · rintro ⟨⟨-, -, h3, -, h5⟩, h6⟩
      have h3 : hydromask q.ptype = true := by rw [q1.ptype]; exact h3
      exact ⟨hx, hfa.mpr h6, (hker h3).mpr h5, h3⟩
  have hlabget : ∀ x, x < labs.length → labs[x]? = some (labs.getD x (0, fun _ => none)) := by
    intro x hx
    rw [List.getD_eq_getElem?_getD, List.getElem?_eq_getElem hx]; rfl
  refine ⟨?_, ?_, ?_, ?_⟩
  · have hndL : (L.map Prod.snd).Nodup := by rw [hsnd, hu.neib]; exact List.nodup_range
    rw [k1]
    exact (List.Sublist.map Prod.snd (List.filter_sublist (l := L))).nodup hndL
  · intro x hx y hy e
    have hx' := ((hcull x).mp hx).1
    have hy' := ((hcull y).mp hy).1
    simp only [List.getD_eq_getElem?_getD, List.getElem?_eq_getElem hx',
      List.getElem?_eq_getElem hy', Option.getD_some] at e
    exact (List.Nodup.getElem_inj_iff hnd).mp e
  · intro j σ
    constructor
    · rintro ⟨x, hx, e⟩
      have := (htest x _ (hlabget x ((hcull x).mp hx).1)).mp hx
      simp only at e
      rw [e] at this
      exact this
    · intro h
      obtain ⟨⟨h1, h2, h3, h4, h5⟩, h6⟩ := h
      have h : HydroNeighbour cfg.kernrange P l d (fun j => hydromask (part j).ptype) i j σ ∧ _ :=
        ⟨⟨h1, h2, h3, h4, h5⟩, h6⟩
      have hin := hall i hi j h1 h2 σ h4 h5
      obtain ⟨x, hx, e⟩ := List.mem_iff_getElem.mp hin
      have hg : labs[x]? = some (j, σ) := by rw [List.getElem?_eq_getElem hx, e]
      refine ⟨x, (htest x _ hg).mpr h, ?_⟩
      simp only [List.getD_eq_getElem?_getD, hg, Option.getD_some]
  · intro x hx
    have hx' := ((hcull x).mp hx).1
    have hg := hlabget x hx'
    set y := labs.getD x (0, fun _ => none) with hy
    refine ⟨by rw [hu.idx, List.getElem?_map, hg]; rfl, ?_⟩
    obtain ⟨q, q1, q2, q3, q4⟩ := hu.data x y hg junkp
    have hc := (hcull x).mp hx
    rw [q2] at hc
    have h7 := k7 (x, x) ((hLmem _).mpr ⟨x, hx', rfl⟩)
    simp only [q2] at h7
    rw [if_pos hc.2.1, trimPos, if_pos ⟨by rw [hu.nPer]; exact hx', hc.2.2.2⟩] at h7
    have hlt : x < t.neibdata.length := by rw [k5]; rw [hu.len]; exact hx'
    have e : (applyPeriodic d q.r fun k => q.r k - (part i).r k).1 =
        fun k => P.r i k + ghostNearest d (fun k => q.r k - P.r i k) k := by
      funext k
      have := (applyPeriodic_eq d H.wf q.r (fun k => q.r k - (part i).r k) k).2
      rw [H.pr] at this ⊢
      linarith
    rw [H.pr] at q3
    refine ⟨t.neibdata.getD x junkp, ?_, ?_, ?_, ?_⟩
    · rw [List.getD_eq_getElem?_getD, List.getElem?_eq_getElem hlt]; rfl
    · rw [h7]; exact q1.setPos _
    · rw [h7]
      simp only [e]
      exact IsImage.trans q3 (nearest_image d H.wf q.r (P.r i))
    · intro z hz
      rw [h7]
      simp only [e, Tree.distsqd]
      have e2 : (fun k => P.r i k + ghostNearest d (fun k => q.r k - P.r i k) k - P.r i k) =
            ghostNearest d (fun k => q.r k - P.r i k) := by funext k; ring
      rw [e2]
      exact nearest_min d H.wf (fun k hk => q4 k hk _ (hpi k hk).1 (hpi k hk).2)
        (IsImage.trans (IsImage.symm q3) hz)

end Gandalf
