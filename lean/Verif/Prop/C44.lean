import Verif.Proof.PrunedTree2

/-!
# C44 – pruned trees are faithful summaries
-/

set_option autoImplicit false

namespace Gandalf
open Walk KD Pruned

variable {n : ℕ}

namespace Pruned

/-- The table of a tree: links, level, cell properties and `mac`. -/
def cellTable (T : Tree n) (level : ℕ → ℕ) (c : ℕ) : Cell (Props n × ℝ) :=
  ⟨T.links.copen c, T.links.cnext c, level c, (T.cell c, T.mac c)⟩

/-- links of a table -/
def linksOf {β : Type*} (tab : ℕ → Cell β) : Walk.Links := ⟨fun c => (tab c).copen, fun c => (tab c).cnext⟩

end Pruned

theorem accounts_leaves {Q : ℕ → List ℕ → Prop} : ∀ {f : Forest} {l : List ℕ}, f.Accounts Q l →
    ∃ parts : List (List ℕ), parts.flatten = l ∧ List.Forall₂ Q f.leaves parts := by
  intro f
  induction f with
  | nil => intro l h; exact ⟨[], by rw [show l = [] from h]; rfl, .nil⟩
  | cons c ch rest h1 h2 =>
    rintro l ⟨l1, l2, rfl, q, a, b⟩
    obtain ⟨p2, e2, g2⟩ := h2 b
    by_cases h : ch = .nil
    · subst h
      exact ⟨l1 :: p2, by rw [List.flatten_cons, e2], .cons q g2⟩
    · obtain ⟨p1, e1, g1⟩ := h1 (a h)
      refine ⟨p1 ++ p2, by rw [List.flatten_append, e1, e2], ?_⟩
      rw [Forest.leaves_cons_ne h]
      exact List.rel_append g1 g2

/-- **C44, pruning.** For every tree that is well linked and stocked for the particles `l`, every rule
`opn` that opens no leaf, and whatever the table held before: if the visited cells do not fit into `Nmax`
the function returns `-1`; otherwise it never raises its link error and gives a tree
* whose `N` cells `0 … N-1` are linked, in depth-first order, as the tree cut below the cells not opened,
* whose cell `j` has the level and properties of the `j`-th visited cell, cell 0 being the root,
* every cell of which summarises its particles, and whose leaves split `l`: every particle of the full
  tree is below exactly one leaf. -/
theorem C44_pruned_tree (T : Tree n) (cfg : Cfg) (P : Parts n) (pfuel : ℕ) (f : Forest) (l : List ℕ)
    (hT : T.OK cfg P pfuel f l) (hnd : f.cells.Nodup) (level : ℕ → ℕ) (opn : ℕ → Bool)
    (hopn : ∀ c, T.links.copen c = none → opn c = false) (Ncellmax : ℕ) (hmax : T.Ncell ≤ Ncellmax)
    (hend : T.Nend = T.Ncell ∨ T.Nend = Ncellmax)
    (Nmax : ℕ) (old : ℕ → Cell (Props n × ℝ)) (fuel : ℕ) (hfuel : f.cells.length ≤ fuel) :
    let N := (f.visited opn).length
    let g := (f.prune opn).number 0
    (Nmax < N → create (cellTable T level) T.Ncell Ncellmax opn Nmax old fuel = .full) ∧
    (N ≤ Nmax → ∃ tab, create (cellTable T level) T.Ncell Ncellmax opn Nmax old fuel =
        .ok tab N g.leaves (f.prune opn).leaves ∧
      g.Linked (linksOf tab) N ∧ g.entry N = 0 ∧ g.cells = List.range N ∧
      (∀ j (h : j < N), (tab j).level = level (f.visited opn)[j] ∧
        (tab j).data = (T.cell (f.visited opn)[j], T.mac (f.visited opn)[j])) ∧
      (f ≠ .nil → 0 < N ∧ (tab 0).data.1 = T.cell 0) ∧
      g.Accounts (fun j l' => Summary cfg P l' (tab j).data.1) l ∧
      ∃ parts : List (List ℕ), parts.flatten = l ∧
        List.Forall₂ (fun j lj => Summary cfg P lj (tab j).data.1) g.leaves parts) := by
  intro N g
  have hleaf : f.AllLeaves (fun c => opn c = false) := hT.linked.allLeaves.imp fun c hc => hopn c hc
  obtain ⟨h1, h2⟩ := create_spec (cellTable T level) T.Ncell Ncellmax T.Nend hmax hend opn Nmax old fuel f
    hT.linked
    hT.root hT.cells hnd hleaf hfuel
  refine ⟨h1, fun hN => ?_⟩
  obtain ⟨tab, e1, e2, e3, _⟩ := h2 hN
  have hent : g.entry N = 0 := by
    have := entry_number (f.prune opn) 0
    rw [Forest.size_prune, Nat.zero_add] at this
    exact this
  have hacc : g.Accounts (fun j l' => Summary cfg P l' (tab j).data.1) l := by
    refine Accounts.number opn _ _ f 0 l hleaf ?_ hT.covers.accounts
    intro j hj l' hq
    rw [Nat.zero_add, (e3 j hj).2]
    exact hq.1
  refine ⟨tab, e1, e2, hent, ?_, e3, ?_, hacc, accounts_leaves hacc⟩
  · show ((f.prune opn).number 0).cells = _
    rw [Forest.cells_number, Forest.size_prune, List.range_eq_range']
  · intro hne
    cases f with
    | nil => exact absurd rfl hne
    | cons c ch rest =>
      have hc : c = 0 := hT.root
      subst hc
      have hpos : 0 < N := by simp [N, Forest.visited]
      refine ⟨hpos, ?_⟩
      rw [(e3 0 hpos).2]
      rfl

/-- **C44, the rule of the code.** Whatever the box of the other process, the levels and the opening
criterion, the decision of `CreatePrunedTreeForMpiNode` opens no leaf and no cell at the last level; and a
cell it does not open between the two levels is either empty of particles or farther from the box than
its opening distance, and the box is outside the reach of its kernels. -/
theorem C44_rule (T : Tree n) (level : ℕ → ℕ) (d : Domain n ℝ) (K macfactor : ℝ) (hbox : Box n ℝ)
    (loc : Bool) (lmin lmax : ℕ) (c : ℕ) :
    (T.links.copen c = none → pruneOpen T level d K macfactor hbox loc lmin lmax c = false) ∧
    (pruneOpen T level d K macfactor hbox loc lmin lmax c = true → level c ≠ lmax) ∧
    (pruneOpen T level d K macfactor hbox loc lmin lmax c = false → T.links.copen c ≠ none →
      level c ≠ lmax → (loc = true → level c ≠ lmin) →
      lmin ≤ level c ∧
      ((T.cell c).rmax + K * (T.cell c).hmax) ^ 2 <
        dot (edgeVec d hbox (T.cell c).rcell) (edgeVec d hbox (T.cell c).rcell) ∧
      ((T.cell c).N = 0 ∨
        (T.cell c).cdistsqd < dot (edgeVec d hbox (T.cell c).rcell) (edgeVec d hbox (T.cell c).rcell))) := by
  unfold pruneOpen
  simp only []
  refine ⟨?_, ?_, ?_⟩
  · intro h
    by_cases h1 : loc = true ∧ level c = lmin
    · rw [if_pos h1]
    · rw [if_neg h1, if_pos (Or.inr h)]
  · intro h hl
    by_cases h1 : loc = true ∧ level c = lmin
    · rw [if_pos h1] at h; simp at h
    · rw [if_neg h1, if_pos (Or.inl hl)] at h; simp at h
  · intro h h2 h3 h4
    rw [if_neg (fun h' => h4 h'.1 h'.2), if_neg (by push Not; exact ⟨h3, h2⟩)] at h
    by_cases h5 : level c < lmin ∧ T.links.copen c ≠ none
    · rw [if_pos h5] at h; simp at h
    · rw [if_neg h5] at h
      split_ifs at h with h6
      push Not at h5 h6
      refine ⟨?_, h6.1, ?_⟩
      · by_contra hc
        exact h2 (h5 (by omega))
      · by_cases h7 : (T.cell c).N = 0
        · exact Or.inl h7
        · refine Or.inr ?_
          by_contra h8
          have := h6.2 (fun h9 => absurd h9 h8)
          omega

/-- The cell table has room: a tree with at most `2` children per cell cut at level `lmax` has at most
`GetMaxCellNumber` cells, so that for KD-trees the first attempt of `BuildPrunedTree` succeeds and the
receive posted for that number of cells holds the message. -/
theorem C44_kd_size (level : ℕ → ℕ) (opn : ℕ → Bool) (lmax : ℕ)
    (hopn : ∀ c, opn c = true → level c ≠ lmax) (f : Forest) (hf : f.Leveled level 2 0)
    (hr : f.roots ≤ 1) : (f.visited opn).length ≤ kdMaxCells lmax := by
  have := f.visited_le level 2 opn lmax hopn 0 hf (Nat.zero_le _)
  rw [Nat.sub_zero, Forest.geom_two] at this
  unfold kdMaxCells
  calc _ ≤ _ := this
    _ ≤ 1 * _ := Nat.mul_le_mul_right _ hr
    _ = _ := one_mul _

/-- **C44, memory.** Starting from any number of cells at least one, doubling the memory after every `-1`
ends, for every tree, with the pruned tree; and the memory is then large enough. -/
theorem C44_retry (T : Tree n) (cfg : Cfg) (P : Parts n) (pfuel : ℕ) (f : Forest) (l : List ℕ)
    (hT : T.OK cfg P pfuel f l) (hnd : f.cells.Nodup) (level : ℕ → ℕ) (opn : ℕ → Bool)
    (hopn : ∀ c, T.links.copen c = none → opn c = false) (Ncellmax : ℕ) (hmax : T.Ncell ≤ Ncellmax)
    (hend : T.Nend = T.Ncell ∨ T.Nend = Ncellmax)
    (old : ℕ → Cell (Props n × ℝ)) (fuel : ℕ) (hfuel : f.cells.length ≤ fuel)
    (rfuel m0 : ℕ) (hm0 : 1 ≤ m0) (hrf : (f.visited opn).length < rfuel + m0) (hrf1 : 1 ≤ rfuel) :
    ∃ m tab, retry (fun m => create (cellTable T level) T.Ncell Ncellmax opn m old fuel) rfuel m0 =
        some (m, .ok tab (f.visited opn).length ((f.prune opn).number 0).leaves (f.prune opn).leaves) ∧
      (f.visited opn).length ≤ m ∧ ((f.visited opn).length ≤ m0 → m = m0) := by
  induction rfuel generalizing m0 with
  | zero => omega
  | succ r ih =>
    by_cases h : (f.visited opn).length ≤ m0
    · obtain ⟨tab, e, _⟩ := (C44_pruned_tree T cfg P pfuel f l hT hnd level opn hopn Ncellmax hmax hend m0 old
        fuel hfuel).2 h
      exact ⟨m0, tab, by rw [retry, e], h, fun _ => rfl⟩
    · have e := (C44_pruned_tree T cfg P pfuel f l hT hnd level opn hopn Ncellmax hmax hend m0 old
        fuel hfuel).1 (by omega)
      obtain ⟨m, tab, h1, h2, _⟩ := ih (2 * m0) (by omega) (by omega) (by omega)
      exact ⟨m, tab, by rw [retry, e]; exact h1, h2, fun h' => absurd h' h⟩

/-- **C44, octrees: the receive is too small.** `OctTree::GetMaxCellNumber` counts only the cells of the
last level: for every dimension and level it is less than the number of cells of a full tree. -/
theorem C44_oct_bound (n level : ℕ) (hl : 1 ≤ level) :
    octMaxCells n level < ∑ i ∈ Finset.range (level + 1), (2 ^ n) ^ i := by
  rw [Finset.sum_range_succ]
  have : 0 < ∑ i ∈ Finset.range level, (2 ^ n) ^ i :=
    Finset.sum_pos (fun i _ => by positivity) ⟨0, by rw [Finset.mem_range]; omega⟩
  unfold octMaxCells
  omega

/-- **C44, octrees: the message is longer than the receive.** A root with its eight children, pruned at
level 1: the sender has 9 cells to send, after doubling its memory to 16, while the receiver has posted a
receive for `GetMaxCellNumber(1) = 8` cells. -/
theorem C44_oct_truncated : let celldata : ℕ → Cell Unit := fun c =>
      if c = 0 then ⟨some 1, some 9, 0, ()⟩ else ⟨none, some (c + 1), 1, ()⟩
    let opn : ℕ → Bool := fun c => c = 0
    octMaxCells 3 1 = 8 ∧
    ∃ tab leaves ll, retry (fun m => create celldata 9 9 opn m (fun _ => ⟨none, none, 0, ()⟩) 10) 2
      (max 1 (octMaxCells 3 1)) = some (16, .ok tab 9 leaves ll) := by
  intro celldata opn
  refine ⟨rfl, ?_⟩
  have key : ∀ r : Option (ℕ × Out Unit), (match r with
      | some (m, .ok _ N _ _) => (m == 16 && N == 9) | _ => false) = true →
      ∃ tab leaves ll, r = some (16, .ok tab 9 leaves ll) := by
    intro r h
    match r, h with
    | some (m, .ok tab N a b), h =>
      simp only [Bool.and_eq_true, beq_iff_eq] at h
      obtain ⟨rfl, rfl⟩ := h
      exact ⟨tab, a, b, rfl⟩
  exact key _ (by decide +kernel)

/-! ### What the receiver concludes from a pruned tree -/

/-- **C44, distant gravity.** On a tree linked as `f` whose cells account for the particles `l`, walked for
any cell, any criterion and any domain: either the walk returns `-1`, at a non-empty leaf that needs
opening, so that the cell is exported; or the cells whose moments were taken split `l`: each summarises its part, is
outside kernel range in both directions and no nearer than its opening distance, and their masses add up
to the mass of `l`. -/
theorem C44_distant_gravity (T : Tree n) (cfg : Cfg) (P : Parts n) (f : Forest) (l : List ℕ)
    (hlink : f.Linked T.links T.Ncell) (hroot : f.entry T.Ncell = 0) (hcells : ∀ c ∈ f.cells, c < T.Ncell)
    (hacc : f.Accounts (fun c l' => Summary cfg P l' (T.cell c)) l) (d : Domain n ℝ) (hd : d.WF) (K : ℝ)
    (gmac : Tree.Mac) (macerror : ℝ) (cell : Props n) (s : List ℕ) (fuel : ℕ)
    (hfuel : f.cells.length ≤ fuel) :
    (distantWalk T d K gmac macerror cell s fuel = .fail ∧
      ∃ c ∈ f.cells, T.links.copen c = none ∧ (T.cell c).N ≠ 0) ∨
    ∃ (cs : List ℕ) (parts : List (List ℕ)),
      distantWalk T d K gmac macerror cell s fuel = .done (s ++ cs) ∧ parts.flatten = l ∧
      List.Forall₂ (fun c lc => Summary cfg P lc (T.cell c) ∧
        OutOfRange K (cellDist d (T.cell c) cell) (T.cell c) cell ∧
        (T.cell c).cdistsqd ≤ cellDist d (T.cell c) cell ∧ c ∈ f.cells) cs parts ∧
      (cs.map fun c => (T.cell c).m).sum = gsum P l P.m := by
  have hdist : ∀ c, dot (nearestPeriodicVector d fun k => (T.cell c).rcell k - cell.rcell k).1
      (nearestPeriodicVector d fun k => (T.cell c).rcell k - cell.rcell k).1 =
      cellDist d (T.cell c) cell := by
    intro c
    rw [cellDist, (C12_ghostFinder_agrees d hd 0 _).1]
  have hbody : ∀ c l1 s, Summary cfg P l1 (T.cell c) →
      distantBody T d K gmac macerror cell c s = .abort ∨
      (distantBody T d K gmac macerror cell c s = .open_ s ∧ T.links.copen c ≠ none) ∨
      (distantBody T d K gmac macerror cell c s = .next s ∧ l1 = []) ∨
      (distantBody T d K gmac macerror cell c s = .next (s ++ [c]) ∧
        (OutOfRange K (cellDist d (T.cell c) cell) (T.cell c) cell ∧
          (T.cell c).cdistsqd ≤ cellDist d (T.cell c) cell)) := by
    intro c l1 s hq
    have hnil : (T.cell c).N = 0 → l1 = [] := fun h => by
      have hN := hq.N
      rw [h] at hN; exact List.length_eq_zero_iff.mp hN.symm
    simp only [distantBody, hdist]
    by_cases h1 : cellDist d (T.cell c) cell ≤ ((T.cell c).rmax + (cell.rmax + K * cell.hmax)) ^ 2 ∨
        cellDist d (T.cell c) cell ≤ (cell.rmax + (T.cell c).rmax + K * (T.cell c).hmax) ^ 2
    · rw [if_pos h1]
      by_cases h2 : T.links.copen c = none
      · rw [if_neg (not_not.mpr h2)]
        by_cases h3 : (T.cell c).N = 0
        · rw [if_pos h3]; exact Or.inr (Or.inr (Or.inl ⟨rfl, hnil h3⟩))
        · rw [if_neg h3]; exact Or.inl rfl
      · rw [if_pos h2]; exact Or.inr (Or.inl ⟨rfl, h2⟩)
    · rw [if_neg h1]
      push Not at h1
      by_cases h3 : (T.cell c).N = 0
      · rw [if_pos h3]; exact Or.inr (Or.inr (Or.inl ⟨rfl, hnil h3⟩))
      · rw [if_neg h3]
        by_cases h4 : (!T.openCellForGravity gmac macerror c (cellDist d (T.cell c) cell) cell.macfactor
            cell.amin) = true
        · rw [if_pos h4]
          refine Or.inr (Or.inr (Or.inr ⟨rfl, ⟨by rw [add_assoc]; exact h1.1, h1.2⟩, ?_⟩))
          unfold Tree.openCellForGravity at h4
          by_contra hc
          rw [not_le] at hc
          rw [if_pos hc] at h4
          simp at h4
        · rw [if_neg h4]
          by_cases h2 : T.links.copen c = none
          · rw [if_neg (not_not.mpr h2)]; exact Or.inl rfl
          · rw [if_pos h2]; exact Or.inr (Or.inl ⟨rfl, h2⟩)
  have habort : ∀ c s, distantBody T d K gmac macerror cell c s = .abort →
      T.links.copen c = none ∧ (T.cell c).N ≠ 0 := by
    intro c s
    simp only [distantBody]
    split_ifs <;> simp_all
  have hleaf : f.AllLeaves (fun c => ∀ s s', distantBody T d K gmac macerror cell c s ≠ .open_ s') := by
    refine hlink.allLeaves.imp fun c hc s s' => ?_
    simp only [distantBody]
    rw [if_neg (not_not.mpr hc), if_neg (not_not.mpr hc)]
    split_ifs <;> simp
  have hw := walk_eq_fold T.links T.Ncell (distantBody T d K gmac macerror cell) f hlink hcells hleaf s
    fuel (by rw [f.size_eq_length]; exact hfuel)
  rw [hroot] at hw
  rcases distant_fold T.links _ _ _ hbody f T.Ncell l s hlink hacc with e | ⟨cs, parts, e, e2, e3⟩
  · left
    refine ⟨by rw [distantWalk, hw, e], ?_⟩
    obtain ⟨c, hc, s', h⟩ := fold_none_abort _ f s e
    exact ⟨c, hc, habort c s' h⟩
  · right
    have e3' := e3.imp fun c lc h => (⟨h.1, h.2.1.1, h.2.1.2, h.2.2⟩ : Summary cfg P lc (T.cell c) ∧
        OutOfRange K (cellDist d (T.cell c) cell) (T.cell c) cell ∧
        (T.cell c).cdistsqd ≤ cellDist d (T.cell c) cell ∧ c ∈ f.cells)
    refine ⟨cs, parts, by rw [distantWalk, hw, e], e2, e3', ?_⟩
    rw [forall2_gsum (T := T) (cfg := cfg) (w := fun c => (T.cell c).m) (g := P.m) ?_ e3', e2]
    intro c lc h
    exact h.1.m

/-- **C44, hydro overlap.** If the walk on another process's pruned tree reports no overlap, then no
particle of the cell is within kernel range, in either direction, of any periodic image of any particle
of the other process; if it reports an overlap there is a non-empty leaf in range. -/
theorem C44_no_overlap (T : Tree n) (cfg : Cfg) (P : Parts n) (f : Forest) (l : List ℕ)
    (hlink : f.Linked T.links T.Ncell) (hroot : f.entry T.Ncell = 0) (hcells : ∀ c ∈ f.cells, c < T.Ncell)
    (hacc : f.Accounts (fun c l' => Summary cfg P l' (T.cell c)) l) (d : Domain n ℝ) (hd : d.WF)
    (a : List ℕ) (cell : Props n) (hcell : Summary cfg P a cell)
    (hK : 0 ≤ cfg.kernrange) (hh : ∀ i, 0 ≤ P.h i)
    (hdom : ∀ i ∈ a ++ l, ∀ k, d.lhs k = .periodic → d.min k ≤ P.r i k ∧ P.r i k ≤ d.max k)
    (hbig : ∀ k, d.lhs k = .periodic → -cfg.big ≤ d.min k ∧ d.max k ≤ cfg.big)
    (fuel : ℕ) (hfuel : f.cells.length ≤ fuel) :
    (overlapWalk T d cfg.kernrange cell fuel = .done () ∧
      ∀ i ∈ a, ∀ j ∈ l, ∀ y, d.IsImage (P.r j) y → ¬Interact cfg.kernrange P i y (P.h j)) ∨
    (overlapWalk T d cfg.kernrange cell fuel = .fail ∧
      ∃ c ∈ f.cells, T.links.copen c = none ∧ (T.cell c).N ≠ 0 ∧
        ¬OutOfRange cfg.kernrange (cellDist d (T.cell c) cell) (T.cell c) cell) := by
  have hdist : ∀ c, dot (nearestPeriodicVector d fun k => (T.cell c).rcell k - cell.rcell k).1
      (nearestPeriodicVector d fun k => (T.cell c).rcell k - cell.rcell k).1 =
      cellDist d (T.cell c) cell := by
    intro c
    rw [cellDist, (C12_ghostFinder_agrees d hd 0 _).1]
  have hbody : ∀ c l1 s, Summary cfg P l1 (T.cell c) →
      overlapBody T d cfg.kernrange cell c s = .abort ∨
      (overlapBody T d cfg.kernrange cell c s = .open_ s ∧ T.links.copen c ≠ none) ∨
      (overlapBody T d cfg.kernrange cell c s = .next s ∧
        (l1 = [] ∨ OutOfRange cfg.kernrange (cellDist d (T.cell c) cell) (T.cell c) cell)) := by
    intro c l1 s hq
    have hnil : (T.cell c).N = 0 → l1 = [] := fun h => by
      have hN := hq.N
      rw [h] at hN; exact List.length_eq_zero_iff.mp hN.symm
    simp only [overlapBody, hdist]
    by_cases h1 : cellDist d (T.cell c) cell ≤
          ((T.cell c).rmax + cell.rmax + cfg.kernrange * cell.hmax) ^ 2 ∨
        cellDist d (T.cell c) cell ≤ (cell.rmax + (T.cell c).rmax + cfg.kernrange * (T.cell c).hmax) ^ 2
    · rw [if_pos h1]
      by_cases h2 : T.links.copen c = none
      · rw [if_neg (not_not.mpr h2)]
        by_cases h3 : (T.cell c).N = 0
        · rw [if_pos h3]; exact Or.inr (Or.inr ⟨rfl, Or.inl (hnil h3)⟩)
        · rw [if_neg h3]; exact Or.inl rfl
      · rw [if_pos h2]; exact Or.inr (Or.inl ⟨rfl, h2⟩)
    · rw [if_neg h1]
      push Not at h1
      exact Or.inr (Or.inr ⟨rfl, Or.inr h1⟩)
  have habort : ∀ c s, overlapBody T d cfg.kernrange cell c s = .abort →
      T.links.copen c = none ∧ (T.cell c).N ≠ 0 ∧
        ¬OutOfRange cfg.kernrange (cellDist d (T.cell c) cell) (T.cell c) cell := by
    intro c s
    simp only [overlapBody, hdist]
    by_cases h1 : cellDist d (T.cell c) cell ≤
          ((T.cell c).rmax + cell.rmax + cfg.kernrange * cell.hmax) ^ 2 ∨
        cellDist d (T.cell c) cell ≤ (cell.rmax + (T.cell c).rmax + cfg.kernrange * (T.cell c).hmax) ^ 2
    · rw [if_pos h1]
      intro h
      refine ⟨?_, ?_, ?_⟩
      · by_contra h2; rw [if_pos h2] at h; simp at h
      · intro h3
        split_ifs at h
      · rintro ⟨g1, g2⟩
        rcases h1 with h1 | h1 <;> linarith
    · rw [if_neg h1]; simp
  have hleaf : f.AllLeaves (fun c => ∀ s s', overlapBody T d cfg.kernrange cell c s ≠ .open_ s') := by
    refine hlink.allLeaves.imp fun c hc s s' => ?_
    simp only [overlapBody]
    rw [if_neg (not_not.mpr hc)]
    split_ifs <;> simp
  have hw := walk_eq_fold T.links T.Ncell (overlapBody T d cfg.kernrange cell) f hlink hcells hleaf ()
    fuel (by rw [f.size_eq_length]; exact hfuel)
  rw [hroot] at hw
  cases e : f.fold (overlapBody T d cfg.kernrange cell) () with
  | none =>
    right
    refine ⟨by rw [overlapWalk, hw, e], ?_⟩
    obtain ⟨c, hc, s', h⟩ := fold_none_abort _ f () e
    exact ⟨c, hc, habort c s' h⟩
  | some u =>
    left
    refine ⟨by rw [overlapWalk, hw, e], ?_⟩
    intro i hi j hj y hy hx
    obtain ⟨c, lc, h1, h2, h3, h4⟩ := overlap_fold T.links _ _ _ hbody f T.Ncell l hlink hacc e j hj
    exact outOfRange_absurd hd hcell h1 hK hh hdom hbig hi h2 h4 hy hx h3

/-! ### Keeping pruned trees up to date -/

/-- **C44, leaves kept up to date.** Sender and receiver hold tables with the links of the same pruned tree, made as in
`C44_pruned_tree`. The sender copies the current properties of the cells of its tree to the leaves, and
sends the leaves; the receiver finds its leaves by scanning its table and reads the message. The message
fits exactly; afterwards leaf `j` of the receiver holds what the cell it stands for holds in the sender's
tree, with its own links, and all other cells are unchanged. -/
theorem C44_leaf_update {β : Type*} (f : Forest) (opn : ℕ → Bool) (tabS tabR : ℕ → Cell β)
    (hcopy : ∀ j < (f.visited opn).length, (tabS j).copen = (tabR j).copen ∧ (tabS j).cnext = (tabR j).cnext)
    (hR : ((f.prune opn).number 0).Linked (linksOf tabR) (f.visited opn).length)
    (localcells : ℕ → Cell β) :
    let N := (f.visited opn).length
    let leaves := ((f.prune opn).number 0).leaves
    let sender := updateLeaves localcells tabS (leaves.zip (f.prune opn).leaves)
    ∃ out, leavesIn (scanLeaves tabR N) (leavesOut sender leaves) tabR = some (out, []) ∧
      (∀ j (h : j < N), (tabR j).copen = none →
        (out j).data = (localcells (f.visited opn)[j]).data ∧
        (out j).level = (localcells (f.visited opn)[j]).level ∧
        (out j).copen = (tabR j).copen ∧ (out j).cnext = (tabR j).cnext) ∧
      (∀ j, ¬(j < N ∧ (tabR j).copen = none) → out j = tabR j) := by
  intro N leaves sender
  have hscan : scanLeaves tabR N = leaves := by
    have := Forest.filter_leaves (linksOf tabR) (f.prune opn) 0 N hR
    rw [Forest.size_prune, ← List.range_eq_range'] at this
    exact this
  have hnd : leaves.Nodup := by
    refine List.Nodup.sublist (Forest.leaves_sublist _) ?_
    rw [Forest.cells_number]
    exact List.nodup_range'
  have hal : List.Forall₂ (fun j c => ∃ h : j < N, (f.visited opn)[j] = c) leaves (f.prune opn).leaves := by
    refine Forest.forall2_leaves (f.prune opn) 0 ?_
    intro j hj
    rw [Forest.cells_prune] at hj
    refine ⟨by simpa using hj, ?_⟩
    simp only [Nat.zero_add, Forest.cells_prune]
  have hfst : (leaves.zip (f.prune opn).leaves).map Prod.fst = leaves :=
    List.map_fst_zip (le_of_eq hal.length_eq)
  obtain ⟨out, e, h1, h2⟩ := leavesIn_spec leaves sender tabR hnd
  obtain ⟨u1, u2⟩ := updateLeaves_spec localcells (leaves.zip (f.prune opn).leaves) tabS
    (by rw [hfst]; exact hnd)
  have hmem : ∀ j, j ∈ leaves ↔ j < N ∧ (tabR j).copen = none := by
    intro j
    rw [← hscan, scanLeaves, List.mem_filter, List.mem_range, Option.isNone_iff_eq_none]
  refine ⟨out, by rw [hscan]; exact e, ?_, ?_⟩
  · intro j hj hc
    have hjl := (hmem j).mpr ⟨hj, hc⟩
    obtain ⟨i, hi, rfl⟩ := List.getElem_of_mem hjl
    have hi' : i < (f.prune opn).leaves.length := by rw [← hal.length_eq]; exact hi
    have hz : (leaves[i], (f.prune opn).leaves[i]) ∈ leaves.zip (f.prune opn).leaves := by
      rw [List.mem_iff_getElem]
      exact ⟨i, by rw [List.length_zip]; omega, by rw [List.getElem_zip]⟩
    have hv : ∃ h : leaves[i] < N, (f.visited opn)[leaves[i]] = (f.prune opn).leaves[i] :=
      (List.forall₂_iff_get.mp hal).2 i hi hi'
    obtain ⟨_, hv⟩ := hv
    rw [h1 _ hjl]
    have := u1 _ hz
    simp only [] at this
    rw [show sender leaves[i] = _ from this, hv]
    exact ⟨rfl, rfl, hcopy _ hj⟩
  · intro j hj
    exact h2 j fun h => hj ((hmem j).mp h)

/-- **C44, cells above the leaves.** On a pruned copy of a binary tree whose leaves summarise their
particles, `StockTree` without stocking leaves makes every cell summarise the particles below it; leaves
are not touched. -/
theorem C44_restock (cfg : Cfg) (P : Parts n) (t : KD.Links) (ltot pfuel : ℕ) (c : ℕ) (ch : Forest)
    (next : ℕ) (l : List ℕ) (s : TState n) (hlink : (Forest.cons c ch .nil).Linked t.walkLinks next)
    (hb : (Forest.cons c ch .nil).Binary) (hnd : (Forest.cons c ch .nil).cells.Nodup)
    (hm : ∀ i ∈ l, 0 ≤ P.m i)
    (hacc : (Forest.cons c ch .nil).Accounts
      (fun d l' => t.copen d = none → Summary cfg P l' (s.cell d)) l)
    (fuel : ℕ) (hfuel : (Forest.cons c ch .nil).height ≤ fuel) :
    ∃ s', stockTree cfg P t ltot false pfuel fuel c s = some s' ∧
      (Forest.cons c ch .nil).Accounts (fun d l' => Summary cfg P l' (s'.cell d)) l ∧
      Summary cfg P l (s'.cell c) ∧ ∀ d, t.copen d = none → s'.cell d = s.cell d := by
  obtain ⟨s', e, h1, _, h3⟩ := stockRoots_spec (cfg := cfg) (P := P) t ltot pfuel _ next l s hlink hb hnd
    hm hacc
  have e' := e fuel hfuel
  simp only [stockRoots] at e'
  refine ⟨s', ?_, h1, ?_, h3⟩
  · cases e2 : stockTree cfg P t ltot false pfuel fuel c s with
    | none => rw [e2] at e'; simp at e'
    | some w => rw [e2] at e'; simpa using e'
  · obtain ⟨l1, l2, rfl, q, _, h⟩ := h1
    rw [show l2 = [] from h, List.append_nil]
    exact q

/-- Pruning at the root of a tree built for two particles (C07): one cell, which summarises both. -/
example : ∃ (T : Tree 1) (cfg : Cfg) (P : Parts 1) (l : List ℕ) (tab : ℕ → Cell (Props 1 × ℝ)),
    T.OK cfg P 2 (fullTree 0 0 .nil) l ∧ l.length = 2 ∧
    create (cellTable T fun _ => 0) T.Ncell T.Nend (fun _ => false) 1
      (cellTable T fun _ => 0) 1 = .ok tab 1 [0] [0] ∧ Summary cfg P l (tab 0).data.1 := by
  obtain ⟨T, cfg, P, l, h, hl⟩ := exTree7
  obtain ⟨tab, e, _, _, _, _, _, ha, _⟩ := (C44_pruned_tree T cfg P 2 _ l h
    (by simp [fullTree, Forest.cells]) (fun _ => 0) (fun _ => false) (fun _ _ => rfl) T.Nend h.ends (Or.inr rfl) 1
    (cellTable T fun _ => 0) 1 (by simp [fullTree, Forest.cells])).2 (by simp [fullTree, Forest.visited])
  refine ⟨T, cfg, P, l, tab, h, hl, e, ?_⟩
  obtain ⟨l1, l2, rfl, q, _, hn⟩ := ha
  obtain rfl : l2 = [] := hn
  rw [List.append_nil]
  exact q

/-- Seven cells cut at level one: root and two leaves, linked `0 → 1 → 2`. -/
example : ∃ tab, create (β := ℕ) (fun c => if c = 0 then ⟨some 1, some 7, 0, 10⟩ else
      if c = 1 then ⟨some 2, some 4, 1, 11⟩ else if c = 4 then ⟨some 5, some 7, 1, 14⟩ else
      ⟨none, some (c + 1), 2, 10 + c⟩) 7 7 (fun c => c = 0) 3 (fun _ => ⟨none, none, 0, 0⟩) 8 =
      .ok tab 3 [1, 2] [1, 4] ∧ (tab 0).copen = some 1 ∧ (tab 1).cnext = some 2 ∧ (tab 2).data = 14 ∧
      (tab 2).copen = none ∧ (tab 2).cnext = some 3 :=
  ⟨_, rfl, rfl, rfl, rfl, rfl, rfl⟩

/-- The forest of the seven cells is leveled and binary, with levels as given. -/
example : let f := Forest.cons 0 (.cons 1 (.cons 2 .nil (.cons 3 .nil .nil))
      (.cons 4 (.cons 5 .nil (.cons 6 .nil .nil)) .nil)) .nil
    let level : ℕ → ℕ := fun c => if c = 0 then 0 else if c = 1 ∨ c = 4 then 1 else 2
    f.Leveled level 2 0 ∧ f.Binary ∧ f.roots = 1 ∧ (f.visited fun c => level c < 1).length = 3 ∧
      kdMaxCells 1 = 3 := by
  refine ⟨?_, ?_, rfl, rfl, rfl⟩
  · simp [Forest.Leveled, Forest.roots]
  · simp [Forest.Binary, Forest.roots]

end Gandalf
