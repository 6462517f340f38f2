import Verif.Proof.BruteTree
import Verif.Prop.C07
import Verif.Prop.C09
import Verif.Prop.C70
import Verif.Proof.Periodic

/-! # C85: the brute-force tree -/

set_option autoImplicit false
set_option linter.unusedSectionVars false

namespace Gandalf
open KD Walk

variable {n : ℕ}

/-- Stockings with the particle data of successive steps. -/
noncomputable def Brute.restocks (cfg : Cfg) (N pfuel : ℕ) : List (Parts n) → TState n → Option (TState n)
  | [], s => some s
  | P :: Ps, s => do
    let s1 ← Brute.stockTree cfg P (Brute.links N) (N + 1) true pfuel 0 s
    Brute.restocks cfg N pfuel Ps s1

/-- Let the brute-force tree be built over `N > 0` particles from `first` on, some of them possibly dead, and then
be stocked any number of times while particles move and die. Each time it is a correctly linked and stocked tree
(`Tree.OK`, the hypothesis of the theorems on the searches) over the particles of the range which have been alive at
the build and all stockings, in their order. Multipole moments are right in two and three dimensions. -/
theorem C85_build (cfg : Cfg) (hq : n = 2 ∨ n = 3 ∨ cfg.needQuad = false) (P : Parts n) (Ps : List (Parts n))
    (first N pfuel Nleafmax : ℕ) (hN : 0 < N) (hM : 1 ≤ Nleafmax) (hf : N ≤ pfuel) (s0 : TState n) (mac : ℕ → ℝ) :
    ∃ s s', Brute.build cfg P first N pfuel s0 = some s ∧ Brute.restocks cfg N pfuel Ps s = some s' ∧
      (Brute.toTree N Nleafmax s' mac).OK cfg ((P :: Ps).getLast (by simp)) pfuel (Brute.forest N)
        ((List.range' first N).filter fun i => (P :: Ps).all fun Q => !Q.dead i) := by
  have key : ∀ (Ps : List (Parts n)) (P : Parts n) (s : TState n) (l : List ℕ), Brute.Stocked cfg P first N s l →
      ∃ s', Brute.restocks cfg N pfuel Ps s = some s' ∧ Brute.Stocked cfg ((P :: Ps).getLast (by simp)) first N s'
        (l.filter fun i => Ps.all fun Q => !Q.dead i) := by
    intro Ps
    induction Ps with
    | nil => intro P s l h; exact ⟨s, rfl, by simpa using h⟩
    | cons Q Qs ih =>
      intro P s l h
      obtain ⟨s1, e1, h1⟩ := Brute.stock_spec (cfg := cfg) (P := Q) hq hN hf h.toHolds
      obtain ⟨s2, e2, h2⟩ := ih Q s1 _ h1
      refine ⟨s2, ?_, ?_⟩
      · simp only [Brute.restocks, e1, bind, Option.bind, e2]
      · rw [List.getLast_cons (by simp)]
        rw [Brute.live, List.filter_filter] at h2
        have : (fun i => ((Qs.all fun R => !R.dead i) && !Q.dead i)) = fun i => (Q :: Qs).all fun R => !R.dead i := by
          funext i; rw [List.all_cons, Bool.and_comm]
        rwa [this] at h2
  have hb : Brute.build cfg P first N pfuel s0 = Brute.stockTree cfg P (Brute.links N) (N + 1) true pfuel 0
      ⟨(Brute.lists first N s0).inext, (Brute.lists first N s0).ifirst, (Brute.lists first N s0).ilast,
        Function.update s0.cell 0 (Brute.rootProps N (s0.cell 0))⟩ := by
    rw [Brute.build]; exact if_pos hN
  obtain ⟨s, e, h⟩ := Brute.stock_spec (cfg := cfg) (P := P) hq hN hf (Brute.holds_build first N hN s0
    (Function.update s0.cell 0 (Brute.rootProps N (s0.cell 0))))
  obtain ⟨s', e', h'⟩ := key Ps P s _ h
  refine ⟨s, s', hb.trans e, e', ?_⟩
  rw [Brute.live, List.filter_filter] at h'
  have : (fun i => ((Ps.all fun R => !R.dead i) && !P.dead i)) = fun i => (P :: Ps).all fun R => !R.dead i := by
    funext i; rw [List.all_cons, Bool.and_comm]
  rw [this] at h'
  exact Brute.toTree_ok hN hM hf h'

/-- Searching by brute force and with the KD-tree finds the same particles: for the same range of live particles, the
gather search around any point ends on both trees, and the two lists hold the same particles, each once – those
closer than `R`. -/
theorem C85_same {κ : Type*} {α : Type} [LinearOrder α] {ndim : ℕ} (coord : κ → ℕ → α)
    (kdiv : ℕ → κ) (dead0 : ℕ → Bool) (first m Nleafmax gmax : ℕ) (hM : 1 ≤ Nleafmax) (hn : 1 ≤ m)
    (hlive : ∀ i, first ≤ i → i < first + m → dead0 i = false)
    (cells : KD.Links) (ids : ℕ → ℕ) (inext : ℕ → Option ℕ) (ltot : ℕ)
    (hl : computeLtot Nleafmax m (m + 1) = some ltot) (hg : gtotOf ltot ≤ gmax)
    (cfg : Cfg) (hq : ndim = 2 ∨ ndim = 3 ∨ cfg.needQuad = false)
    (P : Parts ndim) (hm : ∀ i, P.dead i = false → 0 ≤ P.m i) (cell : ℕ → Props ndim) (s0 : TState ndim)
    (mac mac' : ℕ → ℝ) (rp : Vec ndim ℝ) (R : ℝ) (hR : 0 ≤ R) (Nneibmax : ℕ) (hbuf : m + Nleafmax < Nneibmax) :
    ∃ t b s s', ∃ kd bf : List ℕ, createTreeStructure ltot gmax cells = some t ∧
      buildTree t ltot coord kdiv dead0 first m ids inext = some b ∧
      stockTree cfg P t ltot true m (ltot + 1) 0 ⟨b.inext, b.ifirst, b.ilast, cell⟩ = some s ∧
      Brute.build cfg P first m m s0 = some s' ∧
      (toTree t ltot Nleafmax s mac).gatherPoint P rp R Nneibmax m [] (ncellOf ltot) = .done kd ∧
      (Brute.toTree m Nleafmax s' mac').gatherPoint P rp R Nneibmax m [] (m + 1) = .done bf ∧
      kd.Perm bf ∧ bf.Nodup ∧
      ∀ i, i ∈ bf ↔ first ≤ i ∧ i < first + m ∧ P.dead i = false ∧ Tree.distsqd (P.r i) rp < R ^ 2 := by
  obtain ⟨t, b, s, kd, h1, h2, h3, h4, h5, h6⟩ := C07_point_gather_built coord kdiv dead0 first m Nleafmax gmax hM hn
    hlive cells ids inext ltot hl hg cfg P hm cell mac rp R hR Nneibmax hbuf
  obtain ⟨s', s1, e1, e2, hok⟩ := C85_build cfg hq P [] first m m Nleafmax (by omega) hM le_rfl s0 mac'
  obtain rfl : s' = s1 := by simpa [Brute.restocks] using e2
  simp only [List.getLast_singleton] at hok
  rcases C07_point_gather _ cfg P m _ _ hok rp R hR Nneibmax [] (by simp) (m + 1)
    (by rw [Brute.forest_cells]; simp) with ⟨e, _, e3⟩ | ⟨_, e2⟩
  · rw [List.nil_append] at e
    have hbf : ∀ i, i ∈ List.filter (inSphere P rp R) ((List.range' first m).filter fun i => [P].all fun Q => !Q.dead i) ↔
        first ≤ i ∧ i < first + m ∧ P.dead i = false ∧ Tree.distsqd (P.r i) rp < R ^ 2 := by
      intro i
      simp only [List.mem_filter, inSphere, Bool.and_eq_true, decide_eq_true_eq, Bool.not_eq_true',
        List.mem_range'_1, sq, List.all_cons, List.all_nil, Bool.and_true]
      tauto
    refine ⟨t, b, s, s', kd, _, h1, h2, h3, e1, h4, e, ?_, e3, hbf⟩
    rw [List.perm_ext_iff_of_nodup h5 e3]
    intro i
    rw [h6, hbf]
  · exfalso
    have := List.length_filter_le (inSphere P rp R) ((List.range' first m).filter fun i => [P].all fun Q => !Q.dead i)
    have h7 := List.length_filter_le (fun i => [P].all fun Q => !Q.dead i) (List.range' first m)
    simp only [Brute.toTree, List.length_nil, List.length_range'] at e2 h7
    omega

theorem Brute.nearest_le (d : Domain n ℝ) (hd : d.WF) (dr : Vec n ℝ) :
    dot (ghostNearest d dr) (ghostNearest d dr) ≤ dot dr dr := by
  refine dot_le_dot fun k => ?_
  rw [ghostNearest_eq d hd]
  have hs : 0 ≤ d.size k := by rw [hd.size k]; linarith [hd.pos k]
  by_cases h : d.lhs k = .periodic
  · rw [if_pos h, wrap1]
    split_ifs with h1 h2
    · rw [abs_le]; constructor <;> linarith [le_abs_self (dr k), neg_abs_le (dr k)]
    · rw [abs_le]; constructor <;> linarith [le_abs_self (dr k), neg_abs_le (dr k)]
    · exact le_rfl
  · rw [if_neg h]

/-- With the brute-force tree the gravity of the gas is a direct sum. For every active cell with a particle of the
tree, every opening criterion, any opening angle and any periodic or open domain, the walk puts each particle of the
tree exactly once into the lists of neighbours and of direct interactions; no cell is ever used as a multipole. -/
theorem C85_direct (cfg : Cfg) (hK : 0 ≤ cfg.kernrange) (P : Parts n) (first N pfuel Nleafmax : ℕ) (hN : 0 < N)
    (hM : 1 ≤ Nleafmax) (hf : N ≤ pfuel) (s : TState n) (mac : ℕ → ℝ) (l : List ℕ)
    (hs : Brute.Stocked cfg P first N s l) (d : Domain n ℝ) (hd : d.WF) (gmac : Tree.Mac) (macerror : ℝ)
    (a : List ℕ) (cell : Props n) (hcell : Summary cfg P a cell) (i : ℕ) (hia : i ∈ a) (hil : i ∈ l) :
    ∃ nb dr : List ℕ, (Brute.toTree N Nleafmax s mac).gravityWalk d cfg.kernrange gmac macerror cell pfuel
        ⟨[], [], []⟩ (N + 1) = .done ⟨nb, dr, []⟩ ∧ (nb ++ dr).Perm l := by
  set T := Brute.toTree N Nleafmax s mac with hT
  have hok : T.OK cfg P pfuel (Brute.forest N) l := Brute.toTree_ok hN hM hf hs
  obtain ⟨nb, dr, cs, parts, e, hp, h2, _⟩ := C09_gravity_partition T cfg P pfuel _ l hok d cfg.kernrange gmac macerror
    cell ⟨[], [], []⟩ (N + 1) (by rw [Brute.forest_cells]; simp)
  have hinv := Brute.walk_inv (fun s : Tree.GravLists => s.cells = []) (L := T.links) (Ncell := T.Ncell)
    (body := T.gravityBody d cfg.kernrange gmac macerror cell pfuel) (by
      intro c hc s1 hs1 s2 hs2
      have hopen : ∀ x, T.gravityBody d cfg.kernrange gmac macerror cell pfuel c s1 = x →
          (x = .open_ s1 ∨ ∃ p q, x = .next ⟨p, q, s1.cells⟩) → s2.cells = [] := by
        intro x hx h
        rw [hx] at hs2
        rcases h with rfl | ⟨p, q, rfl⟩
        · rcases hs2 with h | h
          · rw [← Act.open_.inj h]; exact hs1
          · cases h
        · rcases hs2 with h | h
          · cases h
          · rw [← Act.next.inj h]; exact hs1
      refine hopen _ rfl ?_
      rcases Nat.eq_zero_or_pos c with rfl | h0
      · left
        simp only [Tree.gravityBody]
        have hco : T.links.copen 0 ≠ none := by simp [hT, Brute.toTree, Brute.links, hN]
        rw [if_pos, if_pos hco]
        right
        have x1 := hs.rootSum.extent i hil
        have x2 := hcell.extent i hia
        have x3 := Brute.nearest_le d hd (fun k => (s.cell 0).rcell k - cell.rcell k)
        have x4 : Tree.distsqd (s.cell 0).rcell cell.rcell ≤ ((s.cell 0).rmax + cell.rmax) ^ 2 := by
          have x1 : Tree.distsqd (P.r i) (s.cell 0).rcell ≤ (s.cell 0).rmax ^ 2 := x1
          rw [distsqd_comm] at x1
          have := dot_add_le hs.rootSum.rmaxNonneg hcell.rmaxNonneg x1 x2
          have e : (fun k => (s.cell 0).rcell k - cell.rcell k) =
              fun k => ((s.cell 0).rcell k - P.r i k) + (P.r i k - cell.rcell k) := by funext k; ring
          rw [Tree.distsqd, e]; exact this
        refine (x3.trans x4).trans ?_
        have r1 := hs.rootSum.rmaxNonneg
        have r2 := hcell.rmaxNonneg
        have r3 := hs.rootSum.hmaxNonneg
        have r4 := mul_nonneg hK r3
        show ((s.cell 0).rmax + cell.rmax) ^ 2 ≤ (cell.rmax + (s.cell 0).rmax + cfg.kernrange * (s.cell 0).hmax) ^ 2
        exact pow_le_pow_left₀ (by linarith) (by linarith) 2
      · obtain ⟨j, rfl⟩ : ∃ j, c = j + 1 := ⟨c - 1, by omega⟩
        have hj : j < N := by simpa [hT, Brute.toTree] using hc
        have hco : T.links.copen (j + 1) = none := by simp [hT, Brute.toTree, Brute.links]
        have hll : T.leafList pfuel (j + 1) = _ := Brute.leaf_list hs.toHolds hf hj
        have hNc : (T.cell (j + 1)).N = 0 ∨ (T.cell (j + 1)).N = 1 := by
          have h1 := (hs.leafSum j hj).N
          have h2 := Brute.leafOf_length first l j
          have : (T.cell (j + 1)).N = (s.cell (j + 1)).N := rfl
          omega
        simp only [Tree.gravityBody, hll]
        split_ifs with c1 c2 c3 c4 c5 c6 <;> first
          | exact absurd hco c2
          | exact Or.inl rfl
          | exact Or.inr ⟨_, _, rfl⟩
          | (exfalso; rcases hNc with q | q <;> simp_all)) (N + 1) 0 ⟨[], [], []⟩ _ rfl e
  simp only [List.nil_append] at hinv
  subst hinv
  cases h2
  exact ⟨nb, dr, e, by simpa using hp⟩

/-- After new smoothing lengths `h'` have been found `UpdateHmaxValues` ends and leaves in every cell the largest
smoothing length and the smoothing box of the particles beneath it, as in the other trees (C70): the tree is correctly
stocked with the new smoothing lengths once the opening distance, which keeps its old value, is recomputed. -/
theorem C85_hmax (cfg : Cfg) (P : Parts n) (first N pfuel Nleafmax : ℕ) (hN : 0 < N) (hM : 1 ≤ Nleafmax)
    (hf : N ≤ pfuel) (s : TState n) (mac : ℕ → ℝ) (l : List ℕ) (hs : Brute.Stocked cfg P first N s l) (h' : ℕ → ℝ) :
    ∃ s', Brute.updHmax cfg { P with h := h' } (Brute.links N) (N + 1) pfuel 0 s = some s' ∧
      s'.ifirst = s.ifirst ∧ s'.ilast = s.ilast ∧ s'.inext = s.inext ∧
      (∀ c, ∃ a b d, s'.cell c = { s.cell c with hmax := a, hmin := b, hmx := d }) ∧
      (Brute.toTree N Nleafmax { s' with
        cell := fun c => { s'.cell c with
          cdistsqd := max ((s'.cell c).rmax ^ 2) ((s'.cell c).hmax ^ 2) / cfg.thetamaxsqd } } mac).OK cfg
          { P with h := h' } pfuel (Brute.forest N) l := by
  refine ⟨_, Brute.updHmax_eq hN hs.toHolds hf, rfl, rfl, rfl, ?_, ?_⟩
  · intro c
    by_cases hc : c < N + 1
    · simp only [if_pos hc]
      exact ⟨_, _, _, honly_leaf _ _⟩
    · simp only [if_neg hc]
      exact ⟨_, _, _, rfl⟩
  · refine Brute.toTree_ok hN hM hf ⟨⟨hs.sub, hs.chain, hs.rootFirst, hs.rootLast, hs.leafFirst, hs.leafLast⟩, ?_, ?_⟩
    · have := hs.rootSum.refresh (h' := h') (honly_leaf (cfg := cfg) (P := P.withH h') l (s.cell 0)) (hsum_leaf l _)
      simpa [Brute.lstOf, withCdist, Parts.withH] using this
    · intro j hj
      have := (hs.leafSum j hj).refresh (h' := h') (honly_leaf (cfg := cfg) (P := P.withH h') _ (s.cell (j + 1)))
        (hsum_leaf _ _)
      simpa [Brute.lstOf, withCdist, Parts.withH, hj] using this

/-- After `UpdateActiveParticleCounters` the active particles of the active cells are together exactly the active live
particles of the tree, each once, one to a cell. -/
theorem C85_active (cfg : Cfg) (P : Parts n) (N pfuel Nleafmax : ℕ) (hN : 0 < N) (hM : 1 ≤ Nleafmax)
    (hf : N ≤ pfuel) (s : TState n) (mac : ℕ → ℝ) (l : List ℕ) (hs : Brute.Stocked cfg P 0 N s l) :
    ∃ T', Brute.updActive (Brute.toTree N Nleafmax s mac) P N pfuel = some T' ∧
      (∀ c, ∃ k, T'.cell c = { s.cell c with Nactive := k }) ∧
      (T'.activeCells.flatMap fun c => (T'.activeList P N pfuel c).getD []).Perm
        (l.filter fun i => decide (P.active i = true ∧ P.dead i = false)) ∧
      ∀ c ∈ T'.activeCells, c ≠ 0 ∧ ∃ a, T'.activeList P N pfuel c = some a ∧ a.length ≤ 1 := by
  have hok : (Brute.toTree N Nleafmax s mac).OK cfg P pfuel (Brute.forest N) l := Brute.toTree_ok hN hM hf hs
  obtain ⟨T', e, h1, h2, h3⟩ := C70_active _ cfg P pfuel _ l hok (by rw [Brute.forest_cells]; rfl) N
    (fun c => decide (Brute.level c = 1)) (Tree.counts P N) (by
      intro c hc
      rcases Nat.eq_zero_or_pos c with rfl | h0
      · simp [Brute.level, Brute.toTree, Brute.links, hN]
      · simp [Brute.level, Brute.toTree, Brute.links, show c ≠ 0 by omega]) (by
      intro i _ a b c
      simp [Tree.counts, a, b, c])
  refine ⟨T', e, h1, ?_, ?_⟩
  · have : (l.filter fun i => decide (i < N ∧ P.active i = true ∧ P.dead i = false)) =
        l.filter fun i => decide (P.active i = true ∧ P.dead i = false) := by
      refine List.filter_congr fun i hi => ?_
      have hi' := List.mem_range'_1.mp (hs.sub.subset hi)
      have : i < N := by omega
      simp [this]
    rw [← this]; exact h2
  · intro c hc
    have hc' := hc
    obtain ⟨k, hk⟩ := h1 c
    obtain ⟨hl, hn⟩ : T'.links = Brute.links N ∧ T'.Ncell = N + 1 := by
      have := Tree.updActive_spec (fun c => decide (Brute.level c = 1)) (Tree.counts P N) pfuel
        (Brute.toTree N Nleafmax s mac) (Brute.lstOf 0 l) (N + 1) (fun c hc h0 => Brute.lst_traverse hs.toHolds hf hc)
      rw [show (Brute.toTree N Nleafmax s mac).Ncell = N + 1 from rfl] at e
      rw [this] at e
      obtain rfl := Option.some.inj e
      exact ⟨rfl, rfl⟩
    rw [Tree.activeCells, List.mem_filter, hl, hn, List.mem_range] at hc'
    have h0 : c ≠ 0 := by
      rintro rfl
      simp [Brute.links, hN] at hc'
    refine ⟨h0, ?_⟩
    obtain ⟨j, rfl⟩ : ∃ j, c = j + 1 := ⟨c - 1, by omega⟩
    have hT' : T'.leafList pfuel (j + 1) = some (Brute.leafOf 0 l j) := by
      have := Tree.updActive_spec (fun c => decide (Brute.level c = 1)) (Tree.counts P N) pfuel
        (Brute.toTree N Nleafmax s mac) (Brute.lstOf 0 l) (N + 1) (fun c hc h0 => Brute.lst_traverse hs.toHolds hf hc)
      rw [show (Brute.toTree N Nleafmax s mac).Ncell = N + 1 from rfl] at e
      rw [this] at e
      obtain rfl := Option.some.inj e
      exact Brute.leaf_list (M := 0) (mac := fun _ => 0) hs.toHolds hf (by omega)
    refine ⟨_, by rw [Tree.activeList, hT']; rfl, ?_⟩
    exact (List.length_filter_le _ _).trans (Brute.leafOf_length 0 l j)

/-- A tree without particles is not stocked, but the searches find nothing in it, whatever the cell holds. -/
theorem C85_empty (cfg : Cfg) (P : Parts n) (first pfuel Nleafmax : ℕ) (s0 : TState n) (mac : ℕ → ℝ)
    (rp : Vec n ℝ) (R : ℝ) (Nneibmax : ℕ) (l : List ℕ) (d : Domain n ℝ) (K : ℝ) (gmac : Tree.Mac) (macerror : ℝ)
    (cell : Props n) (g : Tree.GravLists) :
    ∃ s, Brute.build cfg P first 0 pfuel s0 = some s ∧
      (Brute.toTree 0 Nleafmax s mac).gatherPoint P rp R Nneibmax pfuel l 1 = .done l ∧
      (Brute.toTree 0 Nleafmax s mac).gravityWalk d K gmac macerror cell pfuel g 1 = .done g := by
  refine ⟨_, rfl, ?_, ?_⟩
  · simp [Tree.gatherPoint, walk, Tree.gatherPointBody, Brute.toTree, Brute.links, Brute.rootProps]
  · simp [Tree.gravityWalk, walk, Tree.gravityBody, Brute.toTree, Brute.links, Brute.rootProps]

theorem Brute.props_q1 {cfg : Cfg} {P : Parts 1} (l : List ℕ) (c : Props 1) :
    (Brute.props cfg P l c).q = fun _ => 0 := by
  have h : ∀ (l : List ℕ) (c : Props 1), (l.foldl (leafBody cfg P) c).q = c.q := by
    intro l
    induction l with
    | nil => intro c; rfl
    | cons a l ih =>
      intro c
      rw [List.foldl_cons, ih]
      unfold leafBody
      split_ifs <;> rfl
  have h2 : (setExtent cfg (normalise (l.foldl (leafBody cfg P) (zeroProps cfg c)))).q = fun _ => 0 := by
    have : ∀ x : Props 1, (setExtent cfg (normalise x)).q = x.q := by
      intro x; unfold setExtent normalise; split_ifs <;> rfl
    rw [this, h]; rfl
  simp only [Brute.props, Brute.quad]
  rw [if_neg (show ¬((1 : ℕ) = 3 ∨ 1 = 2) by norm_num)]
  split_ifs <;> exact h2

/-- In one dimension the brute-force tree stores no quadrupole moment, whereas the KD-tree does: the moment of the root
stays zero for every set of particles. For two unit masses at 0 and 4, with moments asked for, the moment about their
centre is 16 and the root cell does not summarise its particles. -/
theorem C85_quadrupole_fails :
    (∀ (cfg : Cfg) (P : Parts 1) (first N : ℕ) (s0 s : TState 1), 0 < N → Brute.build cfg P first N N s0 = some s →
      (s.cell 0).q = fun _ => 0) ∧
    ∀ s0 : TState 1, ∃ s, Brute.build exCfg7 exP7 0 2 2 s0 = some s ∧
      (stockLeafProps exCfg7 exP7 [0, 1] (s.cell 0)).q 0 = 16 ∧ ¬ Summary exCfg7 exP7 [0, 1] (s.cell 0) := by
  have h1 : ∀ (cfg : Cfg) (P : Parts 1) (first N : ℕ) (s0 s : TState 1), 0 < N →
      Brute.build cfg P first N N s0 = some s → (s.cell 0).q = fun _ => 0 := by
    intro cfg P first N s0 s hN e
    have hb : Brute.build cfg P first N N s0 = Brute.stockTree cfg P (Brute.links N) (N + 1) true N 0
        ⟨(Brute.lists first N s0).inext, (Brute.lists first N s0).ifirst, (Brute.lists first N s0).ilast,
          Function.update s0.cell 0 (Brute.rootProps N (s0.cell 0))⟩ := by
      rw [Brute.build]; exact if_pos hN
    obtain ⟨s1, e1, _, h2, _⟩ := Brute.stock_props (cfg := cfg) (P := P) hN le_rfl (Brute.holds_build first N hN s0
      (Function.update s0.cell 0 (Brute.rootProps N (s0.cell 0))))
    rw [hb, e1] at e
    obtain rfl := Option.some.inj e
    rw [h2, Brute.props_q1]
  refine ⟨h1, fun s0 => ?_⟩
  obtain ⟨s, e, -⟩ := Brute.stock_props (cfg := exCfg7) (P := exP7) (show 0 < 2 by norm_num) le_rfl
    (Brute.holds_build 0 2 (by norm_num) s0 (Function.update s0.cell 0 (Brute.rootProps 2 (s0.cell 0))))
  have e : Brute.build exCfg7 exP7 0 2 2 s0 = some s := by
    rw [Brute.build]; exact (if_pos (by norm_num)).trans e
  refine ⟨s, e, ?_⟩
  have hq := h1 _ _ _ _ _ _ (by norm_num) e
  have key : ∀ c : Props 1, Summary exCfg7 exP7 [0, 1] c → c.q 0 = 16 := by
    intro c hS
    have hm := hS.m
    have hr : c.r 0 = 2 := by
      have := hS.com (by rw [hm]; norm_num [gsum, exP7]) 0
      rw [hm] at this
      norm_num [gsum, exP7] at this
      linarith
    have := hS.quad rfl 0
    rw [this]
    norm_num [gsum, exP7, quadTerm, quadUsed, coord, dot, hr]
  refine ⟨key _ (stockLeaf_summary _ _ _ _ (by simp [exP7])), fun hS => ?_⟩
  have := key _ hS
  rw [hq] at this
  norm_num at this

/-! Instance: three particles in two dimensions, the middle one dead. -/
noncomputable section
def exP85 : Parts 2 where
  dead := fun i => decide (i = 1)
  active := fun _ => true
  grav := fun _ => true
  m := fun _ => 1
  h := fun _ => 1
  sound := fun _ => 1
  anorm := fun _ => 0
  gfac := fun _ => 0
  r := fun i _ => 4 * i
  v := fun _ _ => 0

/-- All hypotheses of the theorems hold for the tree made by the code: it is stocked over particles 0 and 2. -/
theorem exTree85 (s0 : TState 2) : ∃ s, Brute.build exCfg7 exP85 0 3 3 s0 = some s ∧
    Brute.Stocked exCfg7 exP85 0 3 s [0, 2] := by
  obtain ⟨s, e, h⟩ := Brute.stock_spec (cfg := exCfg7) (P := exP85) (Or.inl rfl) (by norm_num) le_rfl
    (Brute.holds_build 0 3 (by norm_num) s0 (Function.update s0.cell 0 (Brute.rootProps 3 (s0.cell 0))))
  refine ⟨s, ?_, ?_⟩
  · rw [Brute.build]; exact (if_pos (by norm_num)).trans e
  · have : Brute.live exP85 (List.range' 0 3) = [0, 2] := by
      simp [Brute.live, exP85, List.range'_succ]
    rwa [this] at h

example (s0 : TState 2) (d : Domain 2 ℝ) (hd : d.WF) : ∃ s, Brute.build exCfg7 exP85 0 3 3 s0 = some s ∧
    ∃ nb dr : List ℕ, (Brute.toTree 3 1 s (fun _ => 0)).gravityWalk d 2 .geometric 0 (s.cell 1) 3 ⟨[], [], []⟩ 4 =
      .done ⟨nb, dr, []⟩ ∧ (nb ++ dr).Perm [0, 2] := by
  obtain ⟨s, e, h⟩ := exTree85 s0
  refine ⟨s, e, ?_⟩
  have hc := h.leafSum 0 (by norm_num)
  exact C85_direct exCfg7 (by norm_num [exCfg7]) exP85 0 3 3 1 (by norm_num) le_rfl le_rfl s _ [0, 2] h d hd .geometric 0
    _ _ hc 0 (by simp [Brute.leafOf]) (by simp)

example (s0 : TState 2) : ∃ s T', Brute.build exCfg7 exP85 0 3 3 s0 = some s ∧
    Brute.updActive (Brute.toTree 3 1 s fun _ => 0) exP85 3 3 = some T' ∧
    (T'.activeCells.flatMap fun c => (T'.activeList exP85 3 3 c).getD []).Perm [0, 2] := by
  obtain ⟨s, e, h⟩ := exTree85 s0
  obtain ⟨T', e1, _, e2, _⟩ := C85_active exCfg7 exP85 3 3 1 (by norm_num) le_rfl le_rfl s (fun _ => 0) _ h
  exact ⟨s, T', e, e1, by simpa [exP85] using e2⟩
end

end Gandalf
