import Verif.Proof.PeriodicBox
import Verif.Prop.C07

/-!
# C08 – scatter-gather searches find every interacting pair
-/

set_option autoImplicit false

namespace Gandalf
open Walk KD

variable {n : ℕ}

/-- hydro interaction through some image `y` of particle `j`: closer than the larger kernel radius -/
def Interact (K : ℝ) (P : Parts n) (i : ℕ) (y : Vec n ℝ) (hj : ℝ) : Prop :=
  Tree.distsqd y (P.r i) < (K * max (P.h i) hj) ^ 2

/-- Componentwise consequence of an interaction: the image lies in one of the two kernels' boxes. -/
theorem interact_cases {K : ℝ} (hK : 0 ≤ K) {P : Parts n} {i j : ℕ} (hi : 0 ≤ P.h i)
    {y : Vec n ℝ} (h : Interact K P i y (P.h j)) :
    (∀ k, |y k - P.r i k| < K * P.h i) ∨ (∀ k, |y k - P.r i k| < K * P.h j) := by
  unfold Interact at h
  have h0 : 0 ≤ K * max (P.h i) (P.h j) := mul_nonneg hK (hi.trans (le_max_left _ _))
  rcases le_total (P.h j) (P.h i) with hle | hle
  · rw [max_eq_left hle] at h h0
    exact Or.inl fun k => abs_lt_of_dot_lt h0 h k
  · rw [max_eq_right hle] at h h0
    exact Or.inr fun k => abs_lt_of_dot_lt h0 h k

/-- **C08, open box, into an array.** Let the cell summarise the particles `a` and the tree the
particles `l`. On success the search has appended live tree particles, each once, among them every
live `j` interacting with any particle of the cell. -/
theorem C08_neighbourList (T : Tree n) (cfg : Cfg) (P : Parts n) (pfuel : ℕ) (f : Forest)
    (l a : List ℕ) (hT : T.OK cfg P pfuel f l) (cell : Props n) (hcell : Summary cfg P a cell)
    (hK : 0 ≤ cfg.kernrange) (hh : ∀ i, 0 ≤ P.h i)
    (Nneibmax : ℕ) (s : List ℕ) (hs : s.length ≤ Nneibmax) (fuel : ℕ)
    (hfuel : f.cells.length ≤ fuel) :
    (∃ found : List ℕ, T.neighbourList P cfg.kernrange cell Nneibmax pfuel s fuel =
        .done (s ++ found) ∧ (s ++ found).length ≤ Nneibmax ∧ found.Nodup ∧
      (∀ j ∈ found, j ∈ l ∧ P.dead j = false) ∧
      ∀ i ∈ a, ∀ j ∈ l, P.dead j = false → Interact cfg.kernrange P i (P.r j) (P.h j) → j ∈ found) ∨
    (T.neighbourList P cfg.kernrange cell Nneibmax pfuel s fuel = .fail ∧
      Nneibmax ≤ s.length + l.length + T.Nleafmax) := by
  classical
  set near : ℕ → Bool := fun c => boxOverlap cell.bb (T.cell c).hb || boxOverlap cell.hb (T.cell c).bb
  set need : ℕ → Bool := fun j => decide (∃ i ∈ a, Interact cfg.kernrange P i (P.r j) (P.h j))
  have hb : T.neighbourBody cell Nneibmax pfuel =
      collectBody T.links (fun c => (T.cell c).N) (T.leafList pfuel) near (fun _ => true)
        (fun s => decide (s.length + T.Nleafmax < Nneibmax)) := by
    funext c s
    simp only [Tree.neighbourBody, collectBody, decide_eq_true_eq, near, List.filter_true]
    cases T.leafList pfuel c <;> rfl
  have hnear : ∀ c l, Summary cfg P l (T.cell c) → near c = false → l.filter need = [] := by
    intro c l hS hf
    rw [List.filter_eq_nil_iff]
    intro j hj hin
    simp only [need, decide_eq_true_eq] at hin
    obtain ⟨i, hi, hx⟩ := hin
    have hji := hcell.bb i hi
    have hjb := hS.bb j hj
    have hih := hcell.hbox i hi
    have hjh := hS.hbox j hj
    have : near c = true := by
      simp only [near, Bool.or_eq_true, boxOverlap_eq_true, Props.bb, Props.hb]
      rcases interact_cases hK (hh i) hx with h | h
      · right
        intro k
        have h1 := abs_lt.mp (h k)
        have h2 := hih k
        have h3 := hjb k
        constructor <;> linarith
      · left
        intro k
        have h1 := abs_lt.mp (h k)
        have h2 := hji k
        have h3 := hjh k
        constructor <;> linarith
    rw [hf] at this; exact absurd this (by simp)
  rcases collect_walk hT near (fun _ => true) need
    (fun s => decide (s.length + T.Nleafmax < Nneibmax)) hnear s fuel hfuel with
    ⟨r, e, g1, g2⟩ | ⟨e, r, g1, g2⟩
  · left
    rw [List.filter_true] at e
    set keep : ℕ → Bool := fun i => !P.dead i &&
      (decide (Tree.distsqd (P.r i) cell.rcell < (cell.rmax + cfg.kernrange * cell.hmax) ^ 2) ||
       decide (Tree.distsqd (P.r i) cell.rcell <
        (cell.rmax + cfg.kernrange * P.h i) * (cell.rmax + cfg.kernrange * P.h i)))
    refine ⟨r.filter keep, ?_, ?_, (hT.nodup.sublist g1).filter _, ?_, ?_⟩
    · rw [Tree.neighbourList, hb, e]
      simp only [trimList_eq]
      rfl
    · have h1 := collect_walk_bound hT _ _ Nneibmax s _ fuel hfuel hs e
      have h2 := List.length_filter_le keep r
      rw [List.length_append] at h1 ⊢
      omega
    · intro i hi
      simp only [List.mem_filter, keep, Bool.and_eq_true, Bool.not_eq_true'] at hi
      exact ⟨g1.subset hi.1, hi.2.1⟩
    · intro i hi j hj hd hx
      have hneed : need j = true := by
        simp only [need, decide_eq_true_eq]; exact ⟨i, hi, hx⟩
      have : j ∈ r.filter need := by rw [g2]; exact List.mem_filter.mpr ⟨hj, hneed⟩
      refine List.mem_filter.mpr ⟨(List.mem_filter.mp this).1, ?_⟩
      simp only [keep, hd, Bool.not_false, Bool.true_and, Bool.or_eq_true, decide_eq_true_eq, ← sq]
      have hext := hcell.extent i hi
      unfold Interact at hx
      rcases le_total (P.h j) (P.h i) with hle | hle
      · left
        rw [max_eq_left hle] at hx
        rw [add_comm]
        refine distsqd_lt_add (mul_nonneg hK hcell.hmaxNonneg) hcell.rmaxNonneg ?_ hext
        refine lt_of_lt_of_le hx (pow_le_pow_left₀ (mul_nonneg hK (hh i)) ?_ 2)
        exact mul_le_mul_of_nonneg_left (hcell.hmax i hi) hK
      · right
        rw [max_eq_right hle] at hx
        rw [add_comm]
        exact distsqd_lt_add (mul_nonneg hK (hh j)) hcell.rmaxNonneg hx hext
  · refine Or.inr ⟨by rw [Tree.neighbourList, hb, e], ?_⟩
    rw [List.filter_true, decide_eq_false_iff_not, not_lt, List.length_append] at g2
    have := g1.length_le
    omega

/-- **C08, open or periodic box, into a neighbour manager.** The walk never fails; it appends
particles of the tree, each once, among them every `j` of which *some periodic image* interacts with
any particle of the cell. Hypotheses: a well-formed domain containing the particles in its periodic
dimensions, kernels not larger than the box, `big_number` beyond the box; and, if the box is periodic
in some but not all dimensions, that the uninitialised memory read by `PeriodicBoxOverlap` is zero. -/
theorem C08_ghostNeighbours (T : Tree n) (cfg : Cfg) (P : Parts n) (pfuel : ℕ) (f : Forest)
    (l a : List ℕ) (hT : T.OK cfg P pfuel f l) (cell : Props n) (hcell : Summary cfg P a cell)
    (hK : 0 ≤ cfg.kernrange) (hh : ∀ i, 0 ≤ P.h i) (d : Domain n ℝ) (hd : d.WF) (junk : Vec n ℝ)
    (hj : d.anyPeriodic = true → ∀ k, d.lhs k ≠ .periodic → junk k = 0)
    (hdom : ∀ i ∈ a ++ l, ∀ k, d.lhs k = .periodic → d.min k ≤ P.r i k ∧ P.r i k ≤ d.max k)
    (hker : ∀ i ∈ a ++ l, ∀ k, d.lhs k = .periodic → cfg.kernrange * P.h i ≤ d.size k)
    (hbig : ∀ k, d.lhs k = .periodic → -cfg.big ≤ d.min k ∧ d.max k ≤ cfg.big)
    (s : List ℕ) (fuel : ℕ) (hfuel : f.cells.length ≤ fuel) :
    ∃ found : List ℕ, T.ghostNeighbourWalk d junk cell pfuel s fuel = .done (s ++ found) ∧
      found.Sublist l ∧
      ∀ i ∈ a, ∀ j ∈ l, ∀ y, d.IsImage (P.r j) y → Interact cfg.kernrange P i y (P.h j) →
        j ∈ found := by
  classical
  set near : ℕ → Bool := fun c => periodicBoxOverlap d junk cell.bb (T.cell c).hb ||
    periodicBoxOverlap d junk cell.hb (T.cell c).bb
  set need : ℕ → Bool := fun j => decide (j ∈ l ∧ ∃ i ∈ a, ∃ y, d.IsImage (P.r j) y ∧
    Interact cfg.kernrange P i y (P.h j))
  have hb : T.managerBody (periodicBoxOverlap d junk) cell pfuel =
      collectBody T.links (fun c => (T.cell c).N) (T.leafList pfuel) near (fun _ => true)
        (fun _ => true) := by
    funext c s
    simp only [Tree.managerBody, collectBody, near, List.filter_true, if_true]
    cases T.leafList pfuel c <;> rfl
  have sz : ∀ k, d.max k = d.min k + d.size k := fun k => by rw [hd.size k]; ring
  -- tight boxes of a cell lie in the domain, enlarged by at most one box length
  have box : ∀ (l' : List ℕ) (c : Props n), Summary cfg P l' c → (∀ i ∈ l', i ∈ a ++ l) → l' ≠ [] →
      ∀ k, d.lhs k = .periodic →
      (d.min k ≤ c.bbmin k ∧ c.bbmin k ≤ d.max k ∧ d.min k ≤ c.bbmax k ∧ c.bbmax k ≤ d.max k) ∧
      (d.min k - d.size k ≤ c.hmin k ∧ c.hmin k ≤ d.max k ∧ d.min k ≤ c.hmx k ∧
        c.hmx k ≤ d.max k + d.size k) := by
    intro l' c hS hsub hne k hk
    obtain ⟨i0, hi0⟩ := List.exists_mem_of_ne_nil _ hne
    have q1 := hdom i0 (hsub i0 hi0) k hk
    have q2 := hS.bb i0 hi0 k
    have q3 := hS.hbox i0 hi0 k
    have q4 := mul_nonneg hK (hh i0)
    have q5 := hbig k hk
    have q6 : 0 < d.size k := by rw [hd.size k]; linarith [hd.pos k]
    refine ⟨⟨?_, by linarith, by linarith, ?_⟩, ?_, by linarith, by linarith, ?_⟩
    · rcases hS.bbminTight k with e | ⟨i, hi, e⟩
      · rw [e]; linarith [hd.pos k]
      · rw [e]; exact (hdom i (hsub i hi) k hk).1
    · rcases hS.bbmaxTight k with e | ⟨i, hi, e⟩
      · rw [e]; linarith [hd.pos k]
      · rw [e]; exact (hdom i (hsub i hi) k hk).2
    · rcases hS.hminTight k with e | ⟨i, hi, e⟩
      · rw [e]; linarith [hd.pos k]
      · rw [e]
        have := hdom i (hsub i hi) k hk
        have := hker i (hsub i hi) k hk
        linarith
    · rcases hS.hmxTight k with e | ⟨i, hi, e⟩
      · rw [e]; linarith [hd.pos k]
      · rw [e]
        have := hdom i (hsub i hi) k hk
        have := hker i (hsub i hi) k hk
        linarith
  have hnear : ∀ c l', Summary cfg P l' (T.cell c) → (∀ j ∈ l', j ∈ l) → near c = false →
      l'.filter need = [] := by
    intro c l' hS hsub hf
    rw [List.filter_eq_nil_iff]
    intro j hj' hin
    simp only [need, decide_eq_true_eq] at hin
    obtain ⟨hjl, i, hi, y, ⟨m, hm⟩, hx⟩ := hin
    have bA := box a cell hcell (fun i hi => List.mem_append_left _ hi) (List.ne_nil_of_mem hi)
    have bB := box l' (T.cell c) hS (fun i hi => List.mem_append_right _ (hsub i hi))
      (List.ne_nil_of_mem hj')
    have hji := hcell.bb i hi
    have hjb := hS.bb j hj'
    have hih := hcell.hbox i hi
    have hjh := hS.hbox j hj'
    have : near c = true := by
      simp only [near, Bool.or_eq_true]
      rcases interact_cases hK (hh i) hx with h | h
      · right
        refine periodicBoxOverlap_of_image d hd junk hj _ _ ?_ m (fun k => (hm k).1) ?_
        · intro k hk
          have h1 := (bA k hk).2
          have h2 := (bB k hk).1
          have := sz k
          simp only [Props.bb, Props.hb]
          rw [abs_le]
          constructor <;> linarith
        · intro k
          have h1 := abs_lt.mp (h k)
          have h2 := hih k
          have h3 := hjb k
          rw [(hm k).2] at h1
          simp only [Props.bb, Props.hb]
          constructor <;> linarith
      · left
        refine periodicBoxOverlap_of_image d hd junk hj _ _ ?_ m (fun k => (hm k).1) ?_
        · intro k hk
          have h1 := (bA k hk).1
          have h2 := (bB k hk).2
          have := sz k
          simp only [Props.bb, Props.hb]
          rw [abs_le]
          constructor <;> linarith
        · intro k
          have h1 := abs_lt.mp (h k)
          have h2 := hji k
          have h3 := hjh k
          rw [(hm k).2] at h1
          simp only [Props.bb, Props.hb]
          constructor <;> linarith
    rw [hf] at this; exact absurd this (by simp)
  rcases collect_walk_sub hT near (fun _ => true) need (fun _ => true) hnear s fuel hfuel with
    ⟨r, e, g1, g2⟩ | ⟨_, r, _, g2⟩
  · rw [List.filter_true] at e
    refine ⟨r, by rw [Tree.ghostNeighbourWalk, hb, e], g1, ?_⟩
    intro i hi j hj y hy hx
    have hneed : need j = true := by
      simp only [need, decide_eq_true_eq]; exact ⟨hj, i, hi, y, hy, hx⟩
    have : j ∈ r.filter need := by rw [g2]; exact List.mem_filter.mpr ⟨hj, hneed⟩
    exact (List.mem_filter.mp this).1
  · exact absurd g2 (by simp)

/-- **C08, open box, into a neighbour manager** (`ComputeNeighbourList` with manager). -/
theorem C08_neighbours (T : Tree n) (cfg : Cfg) (P : Parts n) (pfuel : ℕ) (f : Forest)
    (l a : List ℕ) (hT : T.OK cfg P pfuel f l) (cell : Props n) (hcell : Summary cfg P a cell)
    (hK : 0 ≤ cfg.kernrange) (hh : ∀ i, 0 ≤ P.h i)
    (s : List ℕ) (fuel : ℕ) (hfuel : f.cells.length ≤ fuel) :
    ∃ found : List ℕ, T.neighbourWalk cell pfuel s fuel = .done (s ++ found) ∧
      found.Sublist l ∧
      ∀ i ∈ a, ∀ j ∈ l, Interact cfg.kernrange P i (P.r j) (P.h j) → j ∈ found := by
  let d : Domain n ℝ := ⟨fun _ => 0, fun _ => 1, fun _ => .open_, fun _ => .open_, fun _ => 1,
    fun _ => 1 / 2⟩
  have hd : d.WF := ⟨fun k => by simp [d], fun k => by simp [d], fun k => by simp [d],
    fun k => by simp [d]⟩
  have hnp : ∀ k, d.lhs k ≠ .periodic := fun k => by simp [d]
  have ha : d.anyPeriodic = false := by
    rw [Bool.eq_false_iff]; intro h; rw [anyPeriodic_iff] at h
    obtain ⟨k, hk⟩ := h; exact hnp k hk
  obtain ⟨found, e, h1, h2⟩ := C08_ghostNeighbours T cfg P pfuel f l a hT cell hcell hK hh d hd
    (fun _ => 0) (fun _ _ _ => rfl) (fun _ _ k hk => absurd hk (hnp k))
    (fun _ _ k hk => absurd hk (hnp k)) (fun k hk => absurd hk (hnp k)) s fuel hfuel
  refine ⟨found, ?_, h1, fun i hi j hj hx => h2 i hi j hj (P.r j) ⟨fun _ => 0, fun k =>
    ⟨fun _ => rfl, by simp⟩⟩ hx⟩
  have hov : (periodicBoxOverlap d fun _ => 0) = boxOverlap := by
    funext b1 b2; simp [periodicBoxOverlap, ha]
  rw [← e, Tree.neighbourWalk, Tree.ghostNeighbourWalk, hov]

/-- **C08, defect for mixed boundaries.** In a box periodic in x and open in y the overlap test reads
the never-written `dr_corr[1]` (GhostNeighbours.hpp:174-226): there are two boxes whose images under
the periodic dimension overlap, and stack contents for which the test reports no overlap, so the
search misses the pair. -/
theorem C08_mixed_boundaries_defect : ∃ (d : Domain 2 ℝ) (b1 b2 : Box 2 ℝ) (junk : Vec 2 ℝ),
    d.WF ∧ (∀ k, b1.min k ≤ b1.max k ∧ b2.min k ≤ b2.max k) ∧
    (∃ x y, b1.Mem x ∧ b2.Mem y ∧ d.IsImage y x) ∧
    periodicBoxOverlap d (fun _ => 0) b1 b2 = true ∧ periodicBoxOverlap d junk b1 b2 = false := by
  let d : Domain 2 ℝ := ⟨fun _ => 0, fun _ => 10, ![.periodic, .open_], ![.periodic, .open_],
    fun _ => 10, fun _ => 5⟩
  let b1 : Box 2 ℝ := ⟨![0, 0], ![1, 1]⟩
  let b2 : Box 2 ℝ := ⟨![9, 0], ![10, 1]⟩
  have hd : d.WF := by
    constructor
    · intro k; simp [d]
    · intro k; norm_num [d]
    · intro k; norm_num [d]
    · intro k; fin_cases k <;> simp [d]
  have ha : d.anyPeriodic = true := (anyPeriodic_iff d).mpr ⟨0, by simp [d]⟩
  refine ⟨d, b1, b2, ![0, 100], hd, ?_, ⟨![0, 0], ![10, 0], ?_, ?_, ![-1, 0], ?_⟩, ?_, ?_⟩
  · intro k; fin_cases k <;> norm_num [b1, b2]
  · intro k; fin_cases k <;> norm_num [b1]
  · intro k; fin_cases k <;> norm_num [b2]
  · intro k; fin_cases k <;> norm_num [d]
  · refine periodicBoxOverlap_of_image d hd _ (fun _ _ _ => rfl) _ _ ?_ ![-1, 0] ?_ ?_
    · intro k; fin_cases k <;> norm_num [d, b1, b2, abs_le]
    · intro k; fin_cases k <;> simp [d]
    · intro k; fin_cases k <;> norm_num [d, b1, b2]
  · rw [Bool.eq_false_iff]
    intro h
    simp only [periodicBoxOverlap, ha, Bool.not_true, Bool.false_eq_true, if_false] at h
    rw [if_pos, boxOverlap_eq_true] at h
    · have := (h 1).2
      simp only [periodicCorrection, ha, if_true] at this
      norm_num [Domain.periodicBound, d, b1, b2] at this
      rw [if_neg (by decide)] at this
      norm_num at this
    · rw [periodicFlags_is_periodic]
      exact ⟨0, by simp [d], Or.inl (by norm_num [d, b1, b2])⟩

/-- hypotheses of the periodic theorem on the domain: a fully periodic unit cube of side 4 -/
example : Domain.WF (n := 3) (α := ℝ) ⟨fun _ => 0, fun _ => 4, fun _ => .periodic,
    fun _ => .periodic, fun _ => 4, fun _ => 2⟩ :=
  ⟨fun k => by norm_num, fun k => by norm_num, fun k => by norm_num, fun k => by simp⟩

end Gandalf
