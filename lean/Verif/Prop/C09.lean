import Verif.Proof.GravityWalk
import Verif.Prop.C08

/-!
# C09 – gravity walks count every particle exactly once
-/

set_option autoImplicit false

namespace Gandalf
open Walk KD

variable {n : ℕ}

/-- Squared distance of the nearest images of two cell centres. -/
noncomputable def cellDist (d : Domain n ℝ) (x y : Props n) : ℝ :=
  dot (ghostNearest d fun k => x.rcell k - y.rcell k) (ghostNearest d fun k => x.rcell k - y.rcell k)

/-- outside the kernel range of the other cell, in both directions -/
def OutOfRange (K D : ℝ) (x y : Props n) : Prop :=
  (x.rmax + y.rmax + K * y.hmax) ^ 2 < D ∧ (y.rmax + x.rmax + K * x.hmax) ^ 2 < D

/-- **C09, cell walk.** For every correct tree over `l`, every active cell, every opening criterion
(geometric, GADGET-2, eigenvalue) and any periodic or open domain the walk ends, and its three lists
split the particles: neighbour ids, direct-sum ids and the particles under the listed cells are
together a permutation of `l`. Every listed cell summarises its part, is outside kernel range in both
directions and no nearer than its opening distance. -/
theorem C09_gravity_partition (T : Tree n) (cfg : Cfg) (P : Parts n) (pfuel : ℕ) (f : Forest)
    (l : List ℕ) (hT : T.OK cfg P pfuel f l) (d : Domain n ℝ) (K : ℝ) (gmac : Tree.Mac)
    (macerror : ℝ) (cell : Props n) (s : Tree.GravLists) (fuel : ℕ) (hfuel : f.cells.length ≤ fuel) :
    ∃ nb dr cs : List ℕ, ∃ parts : List (List ℕ),
      T.gravityWalk d K gmac macerror cell pfuel s fuel =
        .done ⟨s.neib ++ nb, s.direct ++ dr, s.cells ++ cs⟩ ∧
      (nb ++ dr ++ parts.flatten).Perm l ∧
      List.Forall₂ (fun c lc => Summary cfg P lc (T.cell c) ∧
        OutOfRange K (cellDist d (T.cell c) cell) (T.cell c) cell ∧
        (T.cell c).cdistsqd ≤ cellDist d (T.cell c) cell ∧ c ∈ f.cells) cs parts ∧
      ∀ j ∈ dr, ∃ c lc, Summary cfg P lc (T.cell c) ∧ j ∈ lc ∧ (∀ x ∈ lc, x ∈ l) ∧
        OutOfRange K (cellDist d (T.cell c) cell) (T.cell c) cell := by
  have hnoab : ∀ c s, T.gravityBody d K gmac macerror cell pfuel c s ≠ .abort := by
    intro c s
    simp only [Tree.gravityBody]
    cases T.leafList pfuel c <;> simp only [] <;> split_ifs <;> simp
  have hbody : ∀ c l1 s, (Summary cfg P l1 (T.cell c) ∧
      (T.links.copen c = none → l1.length ≤ T.Nleafmax)) →
      (T.links.copen c = none → T.leafList pfuel c = some l1) →
      GravStep (fun c => OutOfRange K (cellDist d (T.cell c) cell) (T.cell c) cell)
        (fun c => (T.cell c).cdistsqd ≤ cellDist d (T.cell c) cell)
        (decide (T.links.copen c = none)) c l1 s
        (T.gravityBody d K gmac macerror cell pfuel c s) := by
    intro c l1 s hq hl
    have hN := hq.1.N
    have hnil : (T.cell c).N = 0 → l1 = [] := fun h => by
      rw [h] at hN; exact List.length_eq_zero_iff.mp hN.symm
    simp only [Tree.gravityBody]
    by_cases h1 : dot (ghostNearest d fun k => (T.cell c).rcell k - cell.rcell k)
        (ghostNearest d fun k => (T.cell c).rcell k - cell.rcell k) ≤
          ((T.cell c).rmax + cell.rmax + K * cell.hmax) ^ 2 ∨
        dot (ghostNearest d fun k => (T.cell c).rcell k - cell.rcell k)
        (ghostNearest d fun k => (T.cell c).rcell k - cell.rcell k) ≤
          (cell.rmax + (T.cell c).rmax + K * (T.cell c).hmax) ^ 2
    · rw [if_pos h1]
      by_cases h2 : T.links.copen c = none
      · rw [if_neg (not_not.mpr h2), hl h2]
        by_cases h3 : (T.cell c).N = 0
        · rw [if_pos h3]; exact Or.inr (Or.inr (Or.inl ⟨rfl, hnil h3⟩))
        · rw [if_neg h3]; exact Or.inr (Or.inr (Or.inr (Or.inl rfl)))
      · rw [if_pos h2]; exact Or.inr (Or.inl ⟨rfl, by simp [h2]⟩)
    · rw [if_neg h1]
      have hfar : OutOfRange K (cellDist d (T.cell c) cell) (T.cell c) cell := by
        push Not at h1; exact h1
      by_cases h3 : (T.cell c).N = 0
      · rw [if_pos h3]; exact Or.inr (Or.inr (Or.inl ⟨rfl, hnil h3⟩))
      · rw [if_neg h3]
        by_cases h4 : (!T.openCellForGravity gmac macerror c (dot
            (ghostNearest d fun k => (T.cell c).rcell k - cell.rcell k)
            (ghostNearest d fun k => (T.cell c).rcell k - cell.rcell k)) cell.macfactor
            cell.amin) = true
        · rw [if_pos h4]
          by_cases h5 : T.links.copen c = none ∧ (T.cell c).N = 1
          · rw [if_pos h5]
            have hl1 := hl h5.1
            rw [h5.2] at hN
            obtain ⟨i, rfl⟩ := List.length_eq_one_iff.mp hN.symm
            rw [leafList_singleton hl1]
            exact Or.inr (Or.inr (Or.inr (Or.inr (Or.inl ⟨rfl, hfar⟩))))
          · rw [if_neg h5]
            refine Or.inr (Or.inr (Or.inr (Or.inr (Or.inr ⟨rfl, hfar, ?_⟩))))
            unfold Tree.openCellForGravity at h4
            by_contra hc
            rw [not_le] at hc
            unfold cellDist at hc
            rw [if_pos hc] at h4
            simp at h4
        · rw [if_neg h4]
          by_cases h2 : T.links.copen c = none
          · rw [if_neg (not_not.mpr h2), hl h2]
            exact Or.inr (Or.inr (Or.inr (Or.inr (Or.inl ⟨rfl, hfar⟩))))
          · rw [if_pos h2]; exact Or.inr (Or.inl ⟨rfl, by simp [h2]⟩)
  have hleaf : f.AllLeaves (fun c => ∀ s s', T.gravityBody d K gmac macerror cell pfuel c s ≠
      .open_ s') := by
    refine (hT.linked.allLeaves.and hT.covers.allLeaves).imp fun c hc s s' => ?_
    obtain ⟨ho, l', hl'⟩ := hc
    simp only [Tree.gravityBody, hl']
    rw [if_neg (not_not.mpr ho), if_neg (not_not.mpr ho)]
    split_ifs <;> simp
  have hw := walk_eq_fold_end T.links T.Ncell T.Nend hT.ends (T.gravityBody d K gmac macerror cell pfuel) f hT.linked
    hT.cells hleaf s fuel (by rw [f.size_eq_length]; exact hfuel)
  rw [hT.root] at hw
  rcases grav_fold T.links (T.leafList pfuel) _ _ _ _ (fun c l1 s q => hbody c l1 s q.1) f T.Nend l s
    hT.linked hT.covers.sub with
    e | ⟨nb, dr, cs, e, parts, a1, a2, a3⟩
  · exact absurd e (fold_ne_none hnoab f s)
  · refine ⟨nb, dr, cs, parts, by rw [Tree.gravityWalk, hw, e], a1,
      a2.imp fun c lc h => ⟨h.1.1.1, h.2.1, h.2.2.1, h.2.2.2⟩, ?_⟩
    intro j hj
    obtain ⟨c, lc, q, h1, h2⟩ := a3 j hj
    exact ⟨c, lc, q.1.1, h1, q.2, h2⟩

/-- Sum over the listed cells = sum over the particles below them. -/
theorem forall2_gsum {T : Tree n} {cfg : Cfg} {P : Parts n} {R : ℕ → List ℕ → Prop}
    {g : ℕ → ℝ} {w : ℕ → ℝ}
    (hw : ∀ c lc, R c lc → w c = gsum P lc g) : ∀ {cs : List ℕ} {parts : List (List ℕ)},
    List.Forall₂ R cs parts → (cs.map w).sum = gsum P parts.flatten g := by
  intro cs parts h
  induction h with
  | nil => simp [gsum]
  | cons h1 _ ih => rw [List.map_cons, List.sum_cons, ih, List.flatten_cons, gsum_append, hw _ _ h1]

/-- **C09, total mass and first moment.** The gravitating mass reached through the three lists is the
total mass of the tree, and likewise the total mass-weighted position: nothing is counted twice or
left out. -/
theorem C09_gravity_mass (T : Tree n) (cfg : Cfg) (P : Parts n) (pfuel : ℕ) (f : Forest)
    (l : List ℕ) (hT : T.OK cfg P pfuel f l) (d : Domain n ℝ) (K : ℝ) (gmac : Tree.Mac)
    (macerror : ℝ) (cell : Props n) (fuel : ℕ) (hfuel : f.cells.length ≤ fuel) :
    ∃ s : Tree.GravLists,
      T.gravityWalk d K gmac macerror cell pfuel ⟨[], [], []⟩ fuel = .done s ∧
      gsum P s.neib P.m + gsum P s.direct P.m + (s.cells.map fun c => (T.cell c).m).sum =
        gsum P l P.m ∧
      ((∀ c ∈ s.cells, 0 < (T.cell c).m) → ∀ k,
        gsum P s.neib (fun i => P.m i * P.r i k) + gsum P s.direct (fun i => P.m i * P.r i k) +
          (s.cells.map fun c => (T.cell c).m * (T.cell c).r k).sum =
        gsum P l fun i => P.m i * P.r i k) := by
  obtain ⟨nb, dr, cs, parts, e, hp, h2, _⟩ := C09_gravity_partition T cfg P pfuel f l hT d K gmac
    macerror cell ⟨[], [], []⟩ fuel hfuel
  refine ⟨_, e, ?_, ?_⟩
  · simp only [List.nil_append]
    rw [forall2_gsum (T := T) (cfg := cfg) (P := P) (g := P.m) (fun c lc h => h.1.m) h2,
      ← gsum_append, ← gsum_append]
    exact ((hp.filter P.grav).map P.m).sum_eq
  · intro hpos k
    simp only [List.nil_append] at hpos ⊢
    have h3 : List.Forall₂ (fun c lc => Summary cfg P lc (T.cell c) ∧ 0 < (T.cell c).m) cs parts := by
      clear e hp
      induction h2 with
      | nil => exact .nil
      | cons h1 _ ih => exact .cons ⟨h1.1, hpos _ (by simp)⟩ (ih fun c hc => hpos c (by simp [hc]))
    rw [forall2_gsum (T := T) (cfg := cfg) (P := P) (g := fun i => P.m i * P.r i k)
      (fun c lc h => h.1.com h.2 k) h3, ← gsum_append, ← gsum_append]
    exact ((hp.filter P.grav).map fun i => P.m i * P.r i k).sum_eq

/-- the centre of a non-empty stocked cell lies in the (periodic) domain -/
theorem centre_mem {cfg : Cfg} {P : Parts n} {l : List ℕ} {c : Props n} (hS : Summary cfg P l c)
    {d : Domain n ℝ} (hne : l ≠ []) {k : Fin n} (hpos : d.min k < d.max k)
    (hdom : ∀ i ∈ l, d.min k ≤ P.r i k ∧ P.r i k ≤ d.max k)
    (hbig : -cfg.big ≤ d.min k ∧ d.max k ≤ cfg.big) : d.min k ≤ c.rcell k ∧ c.rcell k ≤ d.max k := by
  have hN : c.N ≠ 0 := by rw [hS.N]; exact fun h => hne (List.length_eq_zero_iff.mp h)
  rw [hS.centre hN k]
  obtain ⟨i0, hi0⟩ := List.exists_mem_of_ne_nil _ hne
  have q1 := hdom i0 hi0
  have q2 := hS.bb i0 hi0 k
  have a1 : d.min k ≤ c.bbmin k := by
    rcases hS.bbminTight k with e | ⟨i, hi, e⟩
    · rw [e]; linarith
    · rw [e]; exact (hdom i hi).1
  have a2 : c.bbmax k ≤ d.max k := by
    rcases hS.bbmaxTight k with e | ⟨i, hi, e⟩
    · rw [e]; linarith
    · rw [e]; exact (hdom i hi).2
  constructor <;> linarith

/-- **C09, short range.** Particles that interact hydrodynamically with the cell are never demoted to
the direct-sum or multipole lists: every `j` of which some periodic image lies within the larger kernel
of a particle `i` of the cell is in the neighbour list. -/
theorem C09_hydro_neighbours_kept (T : Tree n) (cfg : Cfg) (P : Parts n) (pfuel : ℕ) (f : Forest)
    (l a : List ℕ) (hT : T.OK cfg P pfuel f l) (d : Domain n ℝ) (hd : d.WF) (gmac : Tree.Mac)
    (macerror : ℝ) (cell : Props n) (hcell : Summary cfg P a cell)
    (hK : 0 ≤ cfg.kernrange) (hh : ∀ i, 0 ≤ P.h i)
    (hdom : ∀ i ∈ a ++ l, ∀ k, d.lhs k = .periodic → d.min k ≤ P.r i k ∧ P.r i k ≤ d.max k)
    (hbig : ∀ k, d.lhs k = .periodic → -cfg.big ≤ d.min k ∧ d.max k ≤ cfg.big)
    (s s' : Tree.GravLists) (fuel : ℕ) (hfuel : f.cells.length ≤ fuel)
    (hw : T.gravityWalk d cfg.kernrange gmac macerror cell pfuel s fuel = .done s') :
    ∀ i ∈ a, ∀ j ∈ l, ∀ y, d.IsImage (P.r j) y → Interact cfg.kernrange P i y (P.h j) →
      j ∈ s'.neib := by
  obtain ⟨nb, dr, cs, parts, e, hp, h2, h3⟩ := C09_gravity_partition T cfg P pfuel f l hT d
    cfg.kernrange gmac macerror cell s fuel hfuel
  rw [e] at hw
  obtain rfl := Res.done.inj hw
  intro i hi j hj y hy hx
  have hjm := hp.mem_iff.mpr hj
  simp only [List.mem_append] at hjm ⊢
  have far : ∀ c lc, Summary cfg P lc (T.cell c) → j ∈ lc → (∀ x ∈ lc, x ∈ l) →
      OutOfRange cfg.kernrange (cellDist d (T.cell c) cell) (T.cell c) cell → False := by
    intro c lc hS hjc hsub hfar
    obtain ⟨m, hm⟩ := hy
    have hmin : cellDist d (T.cell c) cell ≤
        dot (fun k => (T.cell c).rcell k + m k * d.size k - cell.rcell k)
          (fun k => (T.cell c).rcell k + m k * d.size k - cell.rcell k) := by
      refine dot_le_dot fun k => ?_
      rw [ghostNearest_eq d hd]
      split_ifs with hk
      · have c1 := centre_mem hcell (List.ne_nil_of_mem hi) (hd.pos k)
          (fun x hx => hdom x (List.mem_append_left _ hx) k hk) (hbig k hk)
        have c2 := centre_mem hS (List.ne_nil_of_mem hjc) (hd.pos k)
          (fun x hx => hdom x (List.mem_append_right _ (hsub x hx)) k hk) (hbig k hk)
        have hs : 0 < d.size k := by rw [hd.size k]; linarith [hd.pos k]
        have := wrap1_min (size := d.size k) (x := (T.cell c).rcell k - cell.rcell k) hs.le (by
          have := hd.size k
          rw [abs_le]; constructor <;> linarith) (m k)
        rw [show (T.cell c).rcell k + m k * d.size k - cell.rcell k =
          (T.cell c).rcell k - cell.rcell k + m k * d.size k by ring]
        exact this
      · rw [(hm k).1 hk]; simp
    have split : (fun k => (T.cell c).rcell k + m k * d.size k - cell.rcell k) =
        fun k => ((y k - P.r i k) + (P.r i k - cell.rcell k)) + -(P.r j k - (T.cell c).rcell k) := by
      funext k; rw [(hm k).2]; ring
    rw [split] at hmin
    have neg : dot (fun k => -(P.r j k - (T.cell c).rcell k))
        (fun k => -(P.r j k - (T.cell c).rcell k)) ≤ (T.cell c).rmax ^ 2 := by
      have := hS.extent j hjc
      simpa only [dot, neg_mul_neg] using this
    have bound : ∀ R : ℝ, 0 ≤ R → Tree.distsqd y (P.r i) < R ^ 2 →
        cellDist d (T.cell c) cell < (R + cell.rmax + (T.cell c).rmax) ^ 2 := by
      intro R hR hlt
      refine lt_of_le_of_lt hmin ?_
      exact dot_add_lt (x := fun k => (y k - P.r i k) + (P.r i k - cell.rcell k))
        (add_nonneg hR hcell.rmaxNonneg) hS.rmaxNonneg
        (dot_add_lt hR hcell.rmaxNonneg hlt (hcell.extent i hi)) neg
    unfold Interact at hx
    rcases le_total (P.h j) (P.h i) with hle | hle
    · rw [max_eq_left hle] at hx
      have h4 : cfg.kernrange * P.h i ≤ cfg.kernrange * cell.hmax :=
        mul_le_mul_of_nonneg_left (hcell.hmax i hi) hK
      have h5 := bound _ (mul_nonneg hK hcell.hmaxNonneg)
        (lt_of_lt_of_le hx (pow_le_pow_left₀ (mul_nonneg hK (hh i)) h4 2))
      have h6 := hfar.1
      rw [show (T.cell c).rmax + cell.rmax + cfg.kernrange * cell.hmax =
        cfg.kernrange * cell.hmax + cell.rmax + (T.cell c).rmax by ring] at h6
      linarith
    · rw [max_eq_right hle] at hx
      have h4 : cfg.kernrange * P.h j ≤ cfg.kernrange * (T.cell c).hmax :=
        mul_le_mul_of_nonneg_left (hS.hmax j hjc) hK
      have h5 := bound _ (mul_nonneg hK hS.hmaxNonneg)
        (lt_of_lt_of_le hx (pow_le_pow_left₀ (mul_nonneg hK (hh j)) h4 2))
      have h6 := hfar.2
      rw [show cell.rmax + (T.cell c).rmax + cfg.kernrange * (T.cell c).hmax =
        cfg.kernrange * (T.cell c).hmax + cell.rmax + (T.cell c).rmax by ring] at h6
      linarith
  rcases hjm with (h | h) | h
  · exact Or.inr h
  · exfalso
    obtain ⟨c, lc, hS, hjc, hsub, hfar⟩ := h3 j h
    exact far c lc hS hjc hsub hfar
  · exfalso
    obtain ⟨lc, hlc, hjc⟩ := List.mem_flatten.mp h
    have hsub : ∀ x ∈ lc, x ∈ l := fun x hx => hp.mem_iff.mp
      (List.mem_append_right _ (List.mem_flatten.mpr ⟨lc, hlc, hx⟩))
    obtain ⟨c, hc⟩ := forall2_right h2 lc hlc
    exact far c lc hc.1 hjc hsub hc.2.1

/-- **C09, star walk.** The walk for a star (open boundaries) either returns −1 or splits the (live)
particles of the tree into neighbours, direct-sum particles and cells, each particle once, within the
three buffers; and every particle closer than the mean kernel radius `kernrange·(hs+hj)/2` is in the
neighbour list. -/
theorem C09_star_partition (T : Tree n) (cfg : Cfg) (P : Parts n) (pfuel : ℕ) (f : Forest)
    (l : List ℕ) (hT : T.OK cfg P pfuel f l) (hlive : ∀ i ∈ l, P.dead i = false)
    (rs : Vec n ℝ) (hs : ℝ) (hK : 0 ≤ cfg.kernrange) (hhs : 0 ≤ hs) (hh : ∀ i, 0 ≤ P.h i)
    (Nneibmax Ndirectmax Ngravcellmax : ℕ) (fuel : ℕ) (hfuel : f.cells.length ≤ fuel) :
    T.starGravityWalk P cfg.kernrange rs hs Nneibmax Ndirectmax Ngravcellmax pfuel fuel = .fail ∨
    ∃ nb dr cs : List ℕ, ∃ parts : List (List ℕ),
      T.starGravityWalk P cfg.kernrange rs hs Nneibmax Ndirectmax Ngravcellmax pfuel fuel =
        .done ⟨nb, dr, cs⟩ ∧
      nb.length ≤ Nneibmax ∧ dr.length ≤ Ndirectmax ∧ cs.length ≤ Ngravcellmax ∧
      (nb ++ dr ++ parts.flatten).Perm l ∧
      List.Forall₂ (fun c lc => Summary cfg P lc (T.cell c) ∧
        (T.cell c).cdistsqd < Tree.distsqd (T.cell c).rcell rs ∧ c ∈ f.cells) cs parts ∧
      ∀ j ∈ l, Tree.distsqd (P.r j) rs < (cfg.kernrange * (1 / 2 * (hs + P.h j))) ^ 2 → j ∈ nb := by
  set far : ℕ → Prop := fun c => (0.5 * (cfg.kernrange * hs) + (T.cell c).rmax +
    0.5 * cfg.kernrange * (T.cell c).hmax) ^ 2 ≤ Tree.distsqd (T.cell c).rcell rs
  set acc : ℕ → Prop := fun c => (T.cell c).cdistsqd < Tree.distsqd (T.cell c).rcell rs
  set body := T.starGravityBody P cfg.kernrange rs hs Nneibmax Ndirectmax Ngravcellmax pfuel
  have hfl : ∀ l1 : List ℕ, (∀ j ∈ l1, j ∈ l) → (l1.filter fun i => !P.dead i) = l1 := by
    intro l1 hl1
    rw [List.filter_eq_self]
    intro j hj
    rw [hlive j (hl1 j hj)]; rfl
  have hbody : ∀ c l1 s, ((Summary cfg P l1 (T.cell c) ∧
      (T.links.copen c = none → l1.length ≤ T.Nleafmax)) ∧ ∀ j ∈ l1, j ∈ l) →
      (T.links.copen c = none → T.leafList pfuel c = some l1) →
      GravStep far acc (decide (T.links.copen c = none)) c l1 s (body c s) ∧
      ∀ s', body c s = .next s' → s.neib.length ≤ Nneibmax → s.direct.length ≤ Ndirectmax →
        s.cells.length ≤ Ngravcellmax → s'.neib.length ≤ Nneibmax ∧
          s'.direct.length ≤ Ndirectmax ∧ s'.cells.length ≤ Ngravcellmax := by
    intro c l1 s hq hl
    have hN := hq.1.1.N
    have hnil : (T.cell c).N = 0 → l1 = [] := fun h => by
      rw [h] at hN; exact List.length_eq_zero_iff.mp hN.symm
    simp only [body, Tree.starGravityBody]
    by_cases h1 : Tree.distsqd (T.cell c).rcell rs < (0.5 * (cfg.kernrange * hs) +
        (T.cell c).rmax + 0.5 * cfg.kernrange * (T.cell c).hmax) ^ 2
    · rw [if_pos h1]
      by_cases h2 : T.links.copen c = none
      · rw [if_neg (not_not.mpr h2), hl h2]
        by_cases h3 : s.neib.length + T.Nleafmax ≤ Nneibmax
        · rw [if_pos h3]
          simp only [hfl l1 hq.2]
          refine ⟨Or.inr (Or.inr (Or.inr (Or.inl rfl))), ?_⟩
          intro s' e b1 b2 b3
          obtain rfl := Act.next.inj e
          have := hq.1.2 h2
          simp only [List.length_append]
          exact ⟨by omega, b2, b3⟩
        · rw [if_neg h3]; exact ⟨Or.inl rfl, fun s' e => by simp at e⟩
      · rw [if_pos h2]
        exact ⟨Or.inr (Or.inl ⟨rfl, by simp [h2]⟩), fun s' e => by simp at e⟩
    · rw [if_neg h1]
      have hfar : far c := not_lt.mp h1
      by_cases h4 : Tree.distsqd (T.cell c).rcell rs > (T.cell c).cdistsqd ∧ (T.cell c).N > 0
      · rw [if_pos h4]
        by_cases h5 : T.links.copen c = none ∧ (T.cell c).N = 1 ∧
            s.direct.length + s.neib.length < Ndirectmax
        · rw [if_pos h5]
          have hl1 := hl h5.1
          rw [h5.2.1] at hN
          obtain ⟨i, rfl⟩ := List.length_eq_one_iff.mp hN.symm
          rw [leafList_singleton hl1]
          simp only [Option.toList_some, hfl [i] hq.2]
          refine ⟨Or.inr (Or.inr (Or.inr (Or.inr (Or.inl ⟨rfl, hfar⟩)))), ?_⟩
          intro s' e b1 b2 b3
          obtain rfl := Act.next.inj e
          simp only [List.length_append, List.length_singleton]
          exact ⟨b1, by omega, b3⟩
        · rw [if_neg h5]
          by_cases h6 : s.cells.length < Ngravcellmax ∧ (T.cell c).N > 0
          · rw [if_pos h6]
            refine ⟨Or.inr (Or.inr (Or.inr (Or.inr (Or.inr ⟨rfl, hfar, h4.1⟩)))), ?_⟩
            intro s' e b1 b2 b3
            obtain rfl := Act.next.inj e
            simp only [List.length_append, List.length_singleton]
            exact ⟨b1, b2, by omega⟩
          · rw [if_neg h6]; exact ⟨Or.inl rfl, fun s' e => by simp at e⟩
      · rw [if_neg h4]
        by_cases h7 : Tree.distsqd (T.cell c).rcell rs ≤ (T.cell c).cdistsqd ∧ (T.cell c).N > 0
        · rw [if_pos h7]
          by_cases h2 : T.links.copen c = none
          · rw [if_neg (not_not.mpr h2), hl h2]
            by_cases h3 : s.direct.length + T.Nleafmax ≤ Ndirectmax
            · rw [if_pos h3]
              simp only [hfl l1 hq.2]
              refine ⟨Or.inr (Or.inr (Or.inr (Or.inr (Or.inl ⟨rfl, hfar⟩)))), ?_⟩
              intro s' e b1 b2 b3
              obtain rfl := Act.next.inj e
              have := hq.1.2 h2
              simp only [List.length_append]
              exact ⟨b1, by omega, b3⟩
            · rw [if_neg h3]; exact ⟨Or.inl rfl, fun s' e => by simp at e⟩
          · rw [if_pos h2]
            exact ⟨Or.inr (Or.inl ⟨rfl, by simp [h2]⟩), fun s' e => by simp at e⟩
        · rw [if_neg h7]
          have h8 : (T.cell c).N = 0 := by
            by_contra h8
            have h9 : (T.cell c).N > 0 := Nat.pos_of_ne_zero h8
            rcases le_or_gt (Tree.distsqd (T.cell c).rcell rs) (T.cell c).cdistsqd with h | h
            · exact h7 ⟨h, h9⟩
            · exact h4 ⟨h, h9⟩
          refine ⟨Or.inr (Or.inr (Or.inl ⟨rfl, hnil h8⟩)), ?_⟩
          intro s' e b1 b2 b3
          obtain rfl := Act.next.inj e
          exact ⟨b1, b2, b3⟩
  have hleaf : f.AllLeaves (fun c => ∀ s s', body c s ≠ .open_ s') := by
    refine (hT.linked.allLeaves.and hT.covers.allLeaves).imp fun c hc s s' => ?_
    obtain ⟨ho, l', hl'⟩ := hc
    simp only [body, Tree.starGravityBody, hl']
    rw [if_neg (not_not.mpr ho), if_neg (not_not.mpr ho)]
    split_ifs <;> simp
  have hw := walk_eq_fold_end T.links T.Ncell T.Nend hT.ends body f hT.linked
    hT.cells hleaf ⟨[], [], []⟩ fuel (by rw [f.size_eq_length]; exact hfuel)
  rw [hT.root] at hw
  rcases grav_fold T.links (T.leafList pfuel) _ far acc body
    (fun c l1 s q hl => (hbody c l1 s q hl).1) f T.Nend l ⟨[], [], []⟩ hT.linked hT.covers.sub with
    e | ⟨nb, dr, cs, e, parts, a1, a2, a3⟩
  · left; rw [Tree.starGravityWalk, hw, e]
  · right
    simp only [List.nil_append] at e
    have hbd := fold_invariant T.links (T.leafList pfuel) _
      (fun s : Tree.GravLists => s.neib.length ≤ Nneibmax ∧ s.direct.length ≤ Ndirectmax ∧
        s.cells.length ≤ Ngravcellmax) body
      (fun c l1 s s' q hl hi he => (hbody c l1 s q hl).2 s' he hi.1 hi.2.1 hi.2.2)
      (fun c l1 s s' q hl hi he => by
        rcases (hbody c l1 s q hl).1 with h | ⟨h, _⟩ | ⟨h, _⟩ | h | ⟨h, _⟩ | ⟨h, _⟩ <;>
          rw [he] at h <;> simp at h
        rw [h]; exact hi)
      f T.Nend l ⟨[], [], []⟩ _ hT.linked hT.covers.sub (by simp) e
    refine ⟨nb, dr, cs, parts, by rw [Tree.starGravityWalk, hw, e], hbd.1, hbd.2.1, hbd.2.2, a1,
      a2.imp fun c lc h => ⟨h.1.1.1, h.2.2.1, h.2.2.2⟩, ?_⟩
    intro j hj hx
    have near : ∀ c lc, Summary cfg P lc (T.cell c) → j ∈ lc → far c → False := by
      intro c lc hS hjc hfar
      have h1 : 0 ≤ cfg.kernrange * (1 / 2 * (hs + (T.cell c).hmax)) :=
        mul_nonneg hK (by linarith [hS.hmaxNonneg])
      have h2 : Tree.distsqd rs (P.r j) < (cfg.kernrange * (1 / 2 * (hs + (T.cell c).hmax))) ^ 2 := by
        rw [distsqd_comm]
        refine lt_of_lt_of_le hx (pow_le_pow_left₀ (mul_nonneg hK (by linarith [hh j])) ?_ 2)
        exact mul_le_mul_of_nonneg_left (by linarith [hS.hmax j hjc]) hK
      have h3 := distsqd_lt_add h1 hS.rmaxNonneg h2 (hS.extent j hjc)
      rw [distsqd_comm] at h3
      have h4 : (0.5 * (cfg.kernrange * hs) + (T.cell c).rmax +
        0.5 * cfg.kernrange * (T.cell c).hmax) ^ 2 ≤ Tree.distsqd (T.cell c).rcell rs := hfar
      rw [show 0.5 * (cfg.kernrange * hs) + (T.cell c).rmax + 0.5 * cfg.kernrange * (T.cell c).hmax =
        cfg.kernrange * (1 / 2 * (hs + (T.cell c).hmax)) + (T.cell c).rmax by norm_num; ring] at h4
      linarith
    have hjm := a1.mem_iff.mpr hj
    simp only [List.mem_append] at hjm
    rcases hjm with (h | h) | h
    · exact h
    · obtain ⟨c, lc, q, h1, h2⟩ := a3 j h
      exact (near c lc q.1.1 h1 h2).elim
    · obtain ⟨lc, hlc, hjc⟩ := List.mem_flatten.mp h
      obtain ⟨c, hc⟩ := forall2_right a2 lc hlc
      exact (near c lc hc.1.1.1 hjc hc.2.1).elim

/-- Every built and stocked KD-tree meets `Tree.OK` (theorem `KD.toTree_ok` with
`C06_built_tree_stocks`); e.g. for the two-particle tree of C07 the walk of a third, distant cell
accounts for both particles. -/
example : ∃ (T : Tree 1) (cfg : Cfg) (P : Parts 1) (l : List ℕ) (s : Tree.GravLists) (d : Domain 1 ℝ),
    T.OK cfg P 2 (fullTree 0 0 .nil) l ∧ l.length = 2 ∧
    T.gravityWalk d 2 .geometric 0 (T.cell 0) 2 ⟨[], [], []⟩ 1 = .done s ∧
    s.neib.length + s.direct.length ≤ 2 := by
  obtain ⟨T, cfg, P, l, h, hl⟩ := exTree7
  obtain ⟨nb, dr, cs, parts, e, hp, _⟩ := C09_gravity_partition T cfg P 2 _ l h
    ⟨fun _ => 0, fun _ => 4, fun _ => .periodic, fun _ => .periodic, fun _ => 4, fun _ => 2⟩ 2
    .geometric 0 (T.cell 0) ⟨[], [], []⟩ 1 (by simp [fullTree, Forest.cells])
  refine ⟨T, cfg, P, l, _, _, h, hl, e, ?_⟩
  have := hp.length_eq
  simp only [List.length_append, List.nil_append] at this ⊢
  omega

end Gandalf
