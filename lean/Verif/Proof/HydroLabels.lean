import Verif.Proof.HydroPipeline

set_option autoImplicit false
set_option linter.unusedSectionVars false

namespace Gandalf
open Walk KD

/-- aligned lists stay aligned when the second one is filtered -/
theorem forall2_filter {β γ : Type*} {R : β → γ → Prop} (near : γ → Bool) {bs : List β} {gs : List γ}
    (h : List.Forall₂ R bs gs) : ∃ bs' : List β, bs'.Sublist bs ∧
      List.Forall₂ (fun b g => R b g ∧ near g = true) bs' (gs.filter near) ∧
      ∀ b ∈ bs, (∀ g, R b g → near g = true) → b ∈ bs' := by
  induction h with
  | nil => exact ⟨[], List.Sublist.refl _, .nil, by simp⟩
  | @cons b g bs gs hR _ ih =>
    obtain ⟨bs', h1, h2, h3⟩ := ih
    by_cases hn : near g = true
    · refine ⟨b :: bs', h1.cons_cons b, ?_, ?_⟩
      · rw [List.filter_cons_of_pos hn]; exact .cons ⟨hR, hn⟩ h2
      · intro x hx hall
        rcases List.mem_cons.mp hx with rfl | hx
        · exact List.mem_cons_self
        · exact List.mem_cons_of_mem _ (h3 x hx hall)
    · refine ⟨bs', h1.cons b, ?_, ?_⟩
      · rw [List.filter_cons_of_neg hn]; exact h2
      · intro x hx hall
        rcases List.mem_cons.mp hx with rfl | hx
        · exact absurd (hall g hR) hn
        · exact h3 x hx hall

variable {n : ℕ}

/-- what an entry of the search with label `(j, σ)` is -/
structure EntryOf (d : Domain n ℝ) (K : ℝ) (cell : TargetCell n ℝ) (part : ℕ → NPart n ℝ)
    (lab : ℕ × (Fin n → Option Side)) (e : Entry n ℝ) : Prop where
  idx : e.1 = lab.1
  hydro : e.2.2 = true
  refl : IsReflection d lab.2 ((part lab.1).nearestGhost d cell.rcell) e.2.1
  near : NM.near K cell e.2.1 = true

/-- labels for the entries of a search -/
theorem labels (d : Domain n ℝ) (K : ℝ) (cell : TargetCell n ℝ) (part : ℕ → NPart n ℝ)
    (seen : NPart n ℝ → Fin n → Side → ℝ) (grav : NPart n ℝ → Bool)
    (cs : ℕ → List (Fin n → Option Side)) :
    ∀ (found : List ℕ), found.Nodup → (∀ j ∈ found, (cs j).Nodup ∧
      (∀ σ ∈ cs j, d.MirrorChoice σ) ∧
      List.Forall₂ (fun σ q => IsReflection d σ ((part j).nearestGhost d cell.rcell) q) (cs j)
        (constructGhostsScatterGather d cell seen (part j))) →
    ∃ labs : List (ℕ × (Fin n → Option Side)), labs.Nodup ∧
      List.Forall₂ (EntryOf d K cell part) labs
        (found.flatMap fun j => (constructGhostsScatterGather d cell seen (part j)).filterMap
          (cullClass (NM.near K cell) grav false j)) ∧
      (∀ x ∈ labs, x.1 ∈ found ∧ d.MirrorChoice x.2) ∧
      ∀ j ∈ found, ∀ σ ∈ cs j, (∀ q, IsReflection d σ ((part j).nearestGhost d cell.rcell) q →
        NM.near K cell q = true) → (j, σ) ∈ labs := by
  intro found
  induction found with
  | nil => intro _ _; exact ⟨[], List.nodup_nil, .nil, by simp, by simp⟩
  | cons j found ih =>
    intro hnd hcs
    rw [List.nodup_cons] at hnd
    obtain ⟨labs, l1, l2, l3, l4⟩ := ih hnd.2 fun x hx => hcs x (List.mem_cons_of_mem _ hx)
    obtain ⟨c1, c2, c3⟩ := hcs j List.mem_cons_self
    obtain ⟨bs, b1, b2, b3⟩ := forall2_filter (NM.near K cell) c3
    refine ⟨bs.map (fun σ => (j, σ)) ++ labs, ?_, ?_, ?_, ?_⟩
    · refine List.Nodup.append ((b1.nodup c1).map fun x y h => (Prod.mk.inj h).2) l1 ?_
      intro x hx hy
      obtain ⟨σ, _, rfl⟩ := List.mem_map.mp hx
      exact hnd.1 (l3 _ hy).1
    · rw [List.flatMap_cons]
      have e : ∀ gs : List (NPart n ℝ), gs.filterMap (cullClass (NM.near K cell) grav false j) =
          (gs.filter (NM.near K cell)).map fun q => (j, q, true) := by
        intro gs
        induction gs with
        | nil => rfl
        | cons g gs ih =>
          by_cases hg : NM.near K cell g = true
          · rw [List.filterMap_cons_some (b := (j, g, true)) (by simp [cullClass, hg]),
              List.filter_cons_of_pos hg, List.map_cons, ih]
          · rw [List.filterMap_cons_none (by simp [cullClass, hg]), List.filter_cons_of_neg hg, ih]
      rw [e]
      refine List.rel_append ?_ l2
      rw [List.forall₂_map_left_iff, List.forall₂_map_right_iff]
      exact b2.imp fun σ q h => ⟨rfl, rfl, h.1, h.2⟩
    · intro x hx
      rcases List.mem_append.mp hx with h | h
      · obtain ⟨σ, hσ, rfl⟩ := List.mem_map.mp h
        exact ⟨List.mem_cons_self, c2 σ (b1.subset hσ)⟩
      · exact ⟨List.mem_cons_of_mem _ (l3 x h).1, (l3 x h).2⟩
    · intro x hx σ hσ hall
      rcases List.mem_cons.mp hx with rfl | hx
      · exact List.mem_append_left _ (List.mem_map.mpr ⟨σ, b3 σ hσ hall, rfl⟩)
      · exact List.mem_append_right _ (l4 x hx σ hσ hall)

/-- `q` carries the data of `p` reflected by `σ`; nothing is said about the position. It is flagged as
a mirror image iff `σ` reflects anything. -/
structure CarriesData (σ : Fin n → Option Side) (p q : NPart n ℝ) : Prop where
  v : q.v = mirrorVel σ p.v
  a : q.a = mirrorVel σ p.a
  m : q.m = p.m
  h : q.h = p.h
  hrangesqd : q.hrangesqd = p.hrangesqd
  ptype : q.ptype = p.ptype
  level : q.level = p.level
  iorig : q.iorig = p.iorig
  mirror : Flags.is_mirror q.flags = true ↔ ∃ k, σ k ≠ none

theorem CarriesData.setPos {σ : Fin n → Option Side} {p q : NPart n ℝ} (h : CarriesData σ p q)
    (r : Vec n ℝ) : CarriesData σ p { q with r := r } :=
  ⟨h.v, h.a, h.m, h.h, h.hrangesqd, h.ptype, h.level, h.iorig, h.mirror⟩

/-- The manager after the search and any trims: entry `t` has label `labs[t]` and holds a particle
whose position is some periodic image of the labelled reflection. -/
structure ManagerInv (d : Domain n ℝ) (part : ℕ → NPart n ℝ)
    (labs : List (ℕ × (Fin n → Option Side))) (u : NM n ℝ) : Prop where
  neib : u.neiblist = List.range labs.length
  nPer : u.nPeriodicGhosts = labs.length
  idx : u.neibIdx = labs.map Prod.fst
  len : u.neibdata.length = labs.length
  data : ∀ (t : ℕ) (x : ℕ × (Fin n → Option Side)), labs[t]? = some x → ∀ junk,
    ∃ q, CarriesData x.2 (part x.1) q ∧
      u.neibdata.getD t junk = q ∧ d.IsImage (d.mirrorPos x.2 (part x.1).r) q.r ∧
      ∀ k, d.lhs k = .periodic → ∀ y, d.min k ≤ y → y ≤ d.max k → |q.r k - y| ≤ 3 / 2 * d.size k

theorem ManagerInv.trim {d : Domain n ℝ} (hd : d.WF) {part : ℕ → NPart n ℝ}
    {labs : List (ℕ × (Fin n → Option Side))} {u : NM n ℝ} (h : ManagerInv d part labs u)
    (hydromask gravmask : ℕ → Bool) (pairOnce keepGrav : Bool) (junk p : NPart n ℝ)
    (hp : ∀ k, d.lhs k = .periodic → d.min k ≤ p.r k ∧ p.r k ≤ d.max k) :
    ManagerInv d part labs (u.afterTrim (u.trim d hydromask gravmask pairOnce keepGrav junk p)) := by
  classical
  set L := (List.range u.neiblist.length).zip u.neiblist with hL
  have hsnd : L.map Prod.snd = u.neiblist := by rw [hL]; exact List.map_snd_zip (by simp)
  have htf := fun junk' : NPart n ℝ => trim_fold d hydromask gravmask pairOnce keepGrav
    u.nPeriodicGhosts junk p (fun i => u.neibdata.getD i junk) L
    { neibdata := u.neibdata, direct := u.directlist.take u.nCellDirectNeib }
    (by rw [hsnd, h.neib]; exact List.nodup_range)
    (fun ji hji => ⟨by
      have : ji.2 ∈ u.neiblist := by rw [← hsnd]; exact List.mem_map_of_mem hji
      rw [h.neib, List.mem_range] at this
      rw [h.len]; exact this, rfl⟩)
  obtain ⟨-, -, -, -, k5, -, k7⟩ := htf junk
  change (u.trim d hydromask gravmask pairOnce keepGrav junk p).neibdata.length = _ at k5
  refine ⟨h.neib, h.nPer, h.idx, k5.trans h.len, ?_⟩
  intro t x hx junk'
  have hlt : t < labs.length := (List.getElem?_eq_some_iff.mp hx).1
  have hmem : (t, t) ∈ L := by
    rw [hL, h.neib, List.length_range, List.mem_iff_getElem]
    exact ⟨t, by simpa using hlt, by simp⟩
  have k7 := k7 (t, t) hmem
  change (u.trim d hydromask gravmask pairOnce keepGrav junk p).neibdata.getD t junk = _ at k7
  obtain ⟨q, q1, q2, q3, q4⟩ := h.data t x hx junk
  simp only [q2] at k7
  have hget : (u.afterTrim (u.trim d hydromask gravmask pairOnce keepGrav junk p)).neibdata.getD t
      junk' = (u.trim d hydromask gravmask pairOnce keepGrav junk p).neibdata.getD t junk := by
    have : t < (u.trim d hydromask gravmask pairOnce keepGrav junk p).neibdata.length := by
      rw [k5]; rw [h.len]; exact hlt
    simp only [NM.afterTrim, List.getD_eq_getElem?_getD, List.getElem?_eq_getElem this,
      Option.getD_some]
  refine ⟨_, q1.setPos _, hget.trans k7, ?_, ?_⟩
  · simp only
    split_ifs
    · unfold trimPos
      split_ifs
      · refine IsImage.trans q3 ?_
        have := nearest_image d hd q.r p.r
        have e : (applyPeriodic d q.r fun k => q.r k - p.r k).1 =
            fun k => p.r k + ghostNearest d (fun k => q.r k - p.r k) k := by
          funext k
          have := (applyPeriodic_eq d hd q.r (fun k => q.r k - p.r k) k).2
          linarith
        rw [e]; exact this
      · exact q3
    · exact q3
  · intro k hk y hy1 hy2
    simp only
    split_ifs
    · unfold trimPos
      split_ifs
      · have h1 := (applyPeriodic_eq d hd q.r (fun k => q.r k - p.r k) k).2
        rw [ghostNearest_eq d hd, if_pos hk] at h1
        obtain ⟨p1, p2⟩ := hp k hk
        have h2 := abs_le.mp (wrap1_abs (q4 k hk (p.r k) p1 p2))
        have h3 := hd.size k
        rw [abs_le]
        constructor <;> linarith [h2.1, h2.2]
      · exact q4 k hk y hy1 hy2
    · exact q4 k hk y hy1 hy2

end Gandalf
