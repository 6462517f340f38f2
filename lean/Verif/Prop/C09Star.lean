import Verif.Prop.C09
import Verif.Proof.MultipoleExample

/-!
# C09: when the walk of a star runs out of room
-/

set_option autoImplicit false
set_option linter.unusedSectionVars false

namespace Gandalf

open KD Walk Multipole

variable {n : ℕ}

/-- state after a part of the walk over cells `cs` with particles `l` -/
structure Grown (s s' : Tree.GravLists) (a b : ℕ) : Prop where
  neib : s'.neib.length ≤ s.neib.length + a
  direct : s'.direct.length ≤ s.direct.length + a
  cells : s'.cells.length ≤ s.cells.length + b

theorem star_step (T : Tree n) (cfg : Cfg) (P : Parts n) (K : ℝ) (rs : Vec n ℝ) (hs : ℝ)
    (Nneibmax Ndirectmax Ngravcellmax pfuel c : ℕ) (l1 : List ℕ) (s : Tree.GravLists)
    (hS : Summary cfg P l1 (T.cell c)) (hl : T.links.copen c = none → T.leafList pfuel c = some l1)
    (h1 : s.neib.length + T.Nleafmax ≤ Nneibmax) (h2 : s.direct.length + T.Nleafmax ≤ Ndirectmax)
    (h3 : s.cells.length < Ngravcellmax) :
    (T.starGravityBody P K rs hs Nneibmax Ndirectmax Ngravcellmax pfuel c s = .open_ s ∧ T.links.copen c ≠ none) ∨
    ∃ s', T.starGravityBody P K rs hs Nneibmax Ndirectmax Ngravcellmax pfuel c s = .next s' ∧
      Grown s s' l1.length 1 := by
  have hf := List.length_filter_le (fun i => !P.dead i) l1
  simp only [Tree.starGravityBody]
  by_cases a1 : Tree.distsqd (T.cell c).rcell rs < (0.5 * (K * hs) + (T.cell c).rmax + 0.5 * K * (T.cell c).hmax) ^ 2
  · rw [if_pos a1]
    by_cases a2 : T.links.copen c = none
    · rw [if_neg (not_not.mpr a2), if_pos h1, hl a2]
      exact Or.inr ⟨_, rfl, by simp only [List.length_append]; omega, by simp, by simp⟩
    · rw [if_pos a2]
      exact Or.inl ⟨rfl, a2⟩
  · rw [if_neg a1]
    by_cases a3 : Tree.distsqd (T.cell c).rcell rs > (T.cell c).cdistsqd ∧ (T.cell c).N > 0
    · rw [if_pos a3]
      by_cases a4 : T.links.copen c = none ∧ (T.cell c).N = 1 ∧ s.direct.length + s.neib.length < Ndirectmax
      · rw [if_pos a4]
        refine Or.inr ⟨_, rfl, by simp, ?_, by simp⟩
        have e1 := hS.N
        have e2 := List.length_filter_le (fun i => !P.dead i) (T.ifirst c).toList
        have e3 : (T.ifirst c).toList.length ≤ 1 := by cases T.ifirst c <;> simp
        simp only [List.length_append]
        omega
      · rw [if_neg a4, if_pos ⟨h3, a3.2⟩]
        exact Or.inr ⟨_, rfl, by simp, by simp, by simp⟩
    · rw [if_neg a3]
      by_cases a5 : Tree.distsqd (T.cell c).rcell rs ≤ (T.cell c).cdistsqd ∧ (T.cell c).N > 0
      · rw [if_pos a5]
        by_cases a2 : T.links.copen c = none
        · rw [if_neg (not_not.mpr a2), if_pos h2, hl a2]
          exact Or.inr ⟨_, rfl, by simp, by simp only [List.length_append]; omega, by simp⟩
        · rw [if_pos a2]
          exact Or.inl ⟨rfl, a2⟩
      · rw [if_neg a5]
        exact Or.inr ⟨_, rfl, by simp, by simp, by simp⟩

theorem star_fold (T : Tree n) (cfg : Cfg) (P : Parts n) (K : ℝ) (rs : Vec n ℝ) (hs : ℝ)
    (Nneibmax Ndirectmax Ngravcellmax pfuel : ℕ) :
    ∀ (f : Forest) (next : ℕ) (l : List ℕ) (s : Tree.GravLists), f.Linked T.links next →
    f.Covers (T.leafList pfuel) (fun c l' => Summary cfg P l' (T.cell c) ∧
      (T.links.copen c = none → l'.length ≤ T.Nleafmax)) l →
    s.neib.length + l.length + T.Nleafmax ≤ Nneibmax → s.direct.length + l.length + T.Nleafmax ≤ Ndirectmax →
    s.cells.length + f.cells.length ≤ Ngravcellmax →
    ∃ s', f.fold (T.starGravityBody P K rs hs Nneibmax Ndirectmax Ngravcellmax pfuel) s = some s' ∧
      Grown s s' l.length f.cells.length := by
  intro f
  induction f with
  | nil =>
    intro next l s _ _ _ _ _
    exact ⟨s, rfl, by omega, by omega, by omega⟩
  | cons c ch rest ih1 ih2 =>
    rintro next l s ⟨k1, k2, k3, k4⟩ ⟨l1, l2, rfl, q, a, b, d⟩ h1 h2 h3
    have hcl : T.links.copen c = none → ch = .nil := by
      intro h; rw [k2] at h
      cases ch with
      | nil => rfl
      | cons _ _ _ => simp at h
    simp only [Forest.cells, List.length_cons, List.length_append] at h1 h2 h3 ⊢
    simp only [Forest.fold]
    rcases star_step T cfg P K rs hs Nneibmax Ndirectmax Ngravcellmax pfuel c l1 s q.1 (fun h => a (hcl h))
      (by omega) (by omega) (by omega) with ⟨e, ho⟩ | ⟨s', e, g⟩
    · have hch : ch ≠ .nil := by
        intro h; rw [h] at k2; exact ho k2
      rw [e]
      obtain ⟨s1, e1, g1⟩ := ih1 _ l1 s k3 (b hch) (by omega) (by omega) (by omega)
      have := g1.neib
      have := g1.direct
      have := g1.cells
      obtain ⟨s2, e2, g2⟩ := ih2 next l2 s1 k4 d (by omega) (by omega) (by omega)
      have := g2.neib
      have := g2.direct
      have := g2.cells
      refine ⟨s2, ?_, by omega, by omega, by omega⟩
      simp only [e1, Option.bind_some, e2]
    · rw [e]
      have := g.neib
      have := g.direct
      have := g.cells
      obtain ⟨s2, e2, g2⟩ := ih2 next l2 s' k4 d (by omega) (by omega) (by omega)
      have := g2.neib
      have := g2.direct
      have := g2.cells
      exact ⟨s2, e2, by omega, by omega, by omega⟩

/-- **C09, room for a star.** With buffers one leaf longer than the number of particles and room for all cells the walk
of a star does not return −1. -/
theorem C09_star_room (T : Tree n) (cfg : Cfg) (P : Parts n) (pfuel : ℕ) (f : Forest) (l : List ℕ)
    (hT : T.OK cfg P pfuel f l) (K : ℝ) (rs : Vec n ℝ) (hs : ℝ) (Nneibmax Ndirectmax Ngravcellmax fuel : ℕ)
    (hfuel : f.cells.length ≤ fuel) (h1 : l.length + T.Nleafmax ≤ Nneibmax) (h2 : l.length + T.Nleafmax ≤ Ndirectmax)
    (h3 : f.cells.length ≤ Ngravcellmax) :
    ∃ s, T.starGravityWalk P K rs hs Nneibmax Ndirectmax Ngravcellmax pfuel fuel = .done s := by
  set body := T.starGravityBody P K rs hs Nneibmax Ndirectmax Ngravcellmax pfuel with hb
  have hleaf : f.AllLeaves (fun c => ∀ s s', body c s ≠ .open_ s') := by
    refine (hT.linked.allLeaves.and hT.covers.allLeaves).imp fun c hc s s' => ?_
    obtain ⟨ho, l', hl'⟩ := hc
    simp only [body, Tree.starGravityBody, hl']
    rw [if_neg (not_not.mpr ho), if_neg (not_not.mpr ho)]
    split_ifs <;> simp
  have hw := walk_eq_fold_end T.links T.Ncell T.Nend hT.ends body f hT.linked
    hT.cells hleaf ⟨[], [], []⟩ fuel (by rw [f.size_eq_length]; exact hfuel)
  rw [hT.root] at hw
  obtain ⟨s', e, _⟩ := star_fold T cfg P K rs hs Nneibmax Ndirectmax Ngravcellmax pfuel f T.Nend l ⟨[], [], []⟩
    hT.linked hT.covers (by simpa using h1) (by simpa using h2) (by simpa using h3)
  exact ⟨s', by rw [Tree.starGravityWalk, hw, hb, e]⟩

/-- four particles in two leaves of at most 2: buffers for 6 particles and 3 cells -/
example : ∃ s, (lineTree (fun i => i) 1 10 1).starGravityWalk (linePart (fun i => i) 1) 2 (fun _ => 1) 1 6 6 3 2 3 =
    .done s :=
  C09_star_room _ _ _ 2 _ _ (lineTree_ok (fun i => (i : ℝ)) 1 10 1) 2 _ 1 6 6 3 3 (by simp [Forest.cells])
    (by simp [lineTree]) (by simp [lineTree]) (by simp [Forest.cells])

/-- **C09, the retry of a star does not end.** `UpdateAllStarGasForces` gives the walk buffers for `Ntot` particles and on
−1 only enlarges the buffer of cells (HydroTree.cpp:593, 618-625). A tree of four particles (leaves for up to three) with
a star among them returns −1 however large that buffer is, so the loop does not end. -/
theorem C09_star_retry_fails : ∃ (T : Tree 1) (cfg : Cfg) (P : Parts 1) (f : Forest) (l : List ℕ) (rs : Vec 1 ℝ)
    (hs : ℝ), T.OK cfg P 2 f l ∧ (∀ i ∈ l, P.dead i = false) ∧ 0 < hs ∧
    ∀ Ngravcellmax, T.starGravityWalk P cfg.kernrange rs hs l.length l.length Ngravcellmax 2 f.cells.length = .fail := by
  have hok := lineTree_ok_of (fun i => (i : ℝ)) 1 10 1 3 (by norm_num)
  set T : Tree 1 := { lineTree (fun i => (i : ℝ)) 1 10 1 with Nleafmax := 3 } with hT
  refine ⟨T, lineCfg 10 1, linePart (fun i => i) 1, _, _, fun _ => 3 / 2, 1, hok, fun _ _ => rfl, one_pos,
    fun Ngravcellmax => ?_⟩
  have S0 : Summary (lineCfg 10 1) (linePart (fun i => i) 1) [0, 1, 2, 3] (T.cell 0) :=
    line_root (fun i => (i : ℝ)) 1 10 1
  have S1 : Summary (lineCfg 10 1) (linePart (fun i => i) 1) [0, 1] (T.cell 1) := line_leaf1 (fun i => (i : ℝ)) 1 10 1
  have S2 : Summary (lineCfg 10 1) (linePart (fun i => i) 1) [2, 3] (T.cell 2) := line_leaf2 (fun i => (i : ℝ)) 1 10 1
  have g0 := box_of S0 (a := 0) (b := 3) (by simp) (by simp)
    (by simp only [List.mem_cons, List.not_mem_nil, or_false, linePart]
        rintro i (rfl | rfl | rfl | rfl) <;> norm_num)
    (by norm_num [linePart, lineCfg]) (by norm_num [linePart, lineCfg])
  have g1 := box_of S1 (a := 0) (b := 1) (by simp) (by simp)
    (by simp only [List.mem_cons, List.not_mem_nil, or_false, linePart]
        rintro i (rfl | rfl) <;> norm_num)
    (by norm_num [linePart, lineCfg]) (by norm_num [linePart, lineCfg])
  have g2 := box_of S2 (a := 2) (b := 3) (by simp) (by simp)
    (by simp only [List.mem_cons, List.not_mem_nil, or_false, linePart]
        rintro i (rfl | rfl) <;> norm_num)
    (by norm_num [linePart, lineCfg]) (by norm_num [linePart, lineCfg])
  norm_num [linePart] at g0 g1 g2
  have near : ∀ c, (T.cell c).rmax = 3 / 2 ∨ (T.cell c).rmax = 1 / 2 → 0 ≤ (T.cell c).hmax →
      ((T.cell c).rcell 0 = 3 / 2 ∨ (T.cell c).rcell 0 = 1 / 2 ∨ (T.cell c).rcell 0 = 5 / 2) →
      Tree.distsqd (T.cell c).rcell (fun _ => 3 / 2) <
        (0.5 * (2 * 1) + (T.cell c).rmax + 0.5 * 2 * (T.cell c).hmax) ^ 2 := by
    intro c hr hh hx
    have e : Tree.distsqd (T.cell c).rcell (fun _ => 3 / 2) = ((T.cell c).rcell 0 - 3 / 2) ^ 2 := by
      simp [Tree.distsqd, dot, sq]
    have h1 : (3 / 2 : ℝ) ≤ 0.5 * (2 * 1) + (T.cell c).rmax + 0.5 * 2 * (T.cell c).hmax := by
      norm_num
      rcases hr with h | h <;> rw [h] <;> linarith
    have h2 : ((3 : ℝ) / 2) ^ 2 ≤ (0.5 * (2 * 1) + (T.cell c).rmax + 0.5 * 2 * (T.cell c).hmax) ^ 2 :=
      pow_le_pow_left₀ (by norm_num) h1 2
    rw [e]
    refine lt_of_lt_of_le ?_ h2
    rcases hx with h | h | h <;> rw [h] <;> norm_num
  have b0 : ∀ s, T.starGravityBody (linePart (fun i => i) 1) 2 (fun _ => 3 / 2) 1 4 4 Ngravcellmax 2 0 s =
      .open_ s := by
    intro s
    simp only [Tree.starGravityBody]
    rw [if_pos (near 0 (Or.inl g0.2) S0.hmaxNonneg (Or.inl g0.1)), if_pos]
    simp [hT, lineTree]
  have ll1 : T.leafList 2 1 = some [0, 1] := line_list1 (fun i => (i : ℝ)) 1 10 1
  have b1 : T.starGravityBody (linePart (fun i => i) 1) 2 (fun _ => 3 / 2) 1 4 4 Ngravcellmax 2 1 ⟨[], [], []⟩ =
      .next ⟨[0, 1], [], []⟩ := by
    simp only [Tree.starGravityBody]
    rw [if_pos (near 1 (Or.inr g1.2) S1.hmaxNonneg (Or.inr (Or.inl g1.1))), if_neg, if_pos, ll1]
    · simp [linePart]
    · simp [hT]
    · simp [hT, lineTree]
  have b2 : T.starGravityBody (linePart (fun i => i) 1) 2 (fun _ => 3 / 2) 1 4 4 Ngravcellmax 2 2 ⟨[0, 1], [], []⟩ =
      .abort := by
    simp only [Tree.starGravityBody]
    rw [if_pos (near 2 (Or.inr g2.2) S2.hmaxNonneg (Or.inr (Or.inr g2.1))), if_neg, if_neg]
    · simp [hT]
    · simp [hT, lineTree]
  have hl0 : T.links.copen 0 = some 1 := rfl
  have hl1 : T.links.cnext 1 = some 2 := rfl
  have hN : T.Ncell = 3 := rfl
  show T.starGravityWalk (linePart (fun i => i) 1) 2 (fun _ => 3 / 2) 1 4 4 Ngravcellmax 2 3 = .fail
  unfold Tree.starGravityWalk
  rw [hN, Walk.walk, if_pos (by norm_num), b0, hl0]
  simp only []
  rw [Walk.walk, if_pos (by norm_num), b1, hl1]
  simp only []
  rw [Walk.walk, if_pos (by norm_num), b2]

end Gandalf
