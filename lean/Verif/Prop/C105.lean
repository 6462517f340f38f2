import Verif.Proof.LeafOf
import Verif.Proof.MultipoleExample

/-!
# C105 – the leaf of a point
-/

set_option autoImplicit false

namespace Gandalf
open Walk KD

variable {n : ℕ}

theorem C105.result (T : Tree n) (cfg : Cfg) (P : Parts n) (pfuel : ℕ) (f : Forest) (l : List ℕ)
    (hT : T.OK cfg P pfuel f l) (rp : Vec n ℝ) (fuel : ℕ) (hf : f.cells.length ≤ fuel) :
    T.findLeaf rp fuel 0 = .done (f.firstLeaf (T.near rp) T.full) := by
  obtain ⟨fuel', -, e⟩ := T.findLeaf_linked rp f T.Nend hT.linked hT.cells fuel (by rw [Forest.size_eq_length]; exact hf)
  rw [hT.root] at e
  rw [e]
  cases f.firstLeaf (T.near rp) T.full with
  | some c => rfl
  | none =>
    simp only
    rw [Tree.findLeaf.eq_def]
    simp only [if_neg (not_lt.mpr hT.ends)]

/-- In a correctly linked and stocked tree the search ends after visiting each cell at most once. What it finds is a leaf
with particles, whose bounding box contains the point. -/
theorem C105_found (T : Tree n) (cfg : Cfg) (P : Parts n) (pfuel : ℕ) (f : Forest) (l : List ℕ)
    (hT : T.OK cfg P pfuel f l) (rp : Vec n ℝ) (fuel : ℕ) (hf : f.cells.length ≤ fuel) :
    ∃ r, T.findLeaf rp fuel 0 = .done r ∧ ∀ c, r = some c → c ∈ f.cells ∧ T.links.copen c = none ∧
      (∀ k, (T.cell c).bbmin k ≤ rp k ∧ rp k ≤ (T.cell c).bbmax k) ∧
      ∃ l', T.leafList pfuel c = some l' ∧ l' ≠ [] ∧ ∀ j ∈ l', j ∈ l := by
  refine ⟨_, C105.result T cfg P pfuel f l hT rp fuel hf, ?_⟩
  intro c hc
  obtain ⟨⟨h1, l', h2, ⟨h3, -⟩, h4⟩, h5, h6, h7⟩ :=
    Forest.firstLeaf_some (hT.linked.allLeaves.and hT.covers.sub.leafQ) hc
  refine ⟨h5, h1, ?_, l', h2, ?_, h4⟩
  · have := (boxOverlap_eq_true _ _).mp h6
    exact fun k => ⟨(this k).2, (this k).1⟩
  · rintro rfl
    have := h3.N
    simp only [Tree.full, decide_eq_true_eq] at h7
    exact h7 this

/-- At the position of a particle a leaf is always found. -/
theorem C105_particle (T : Tree n) (cfg : Cfg) (P : Parts n) (pfuel : ℕ) (f : Forest) (l : List ℕ)
    (hT : T.OK cfg P pfuel f l) (fuel : ℕ) (hf : f.cells.length ≤ fuel) (i : ℕ) (hi : i ∈ l) :
    ∃ c, T.findLeaf (P.r i) fuel 0 = .done (some c) := by
  have : ∃ c, f.firstLeaf (T.near (P.r i)) T.full = some c := by
    refine Forest.firstLeaf_covers i ?_ hT.covers hi
    rintro c l' ⟨h, -⟩ hi'
    constructor
    · exact (boxOverlap_eq_true _ _).mpr fun k => ⟨(h.bb i hi' k).2, (h.bb i hi' k).1⟩
    · simp only [Tree.full, decide_eq_true_eq, h.N]
      exact fun h0 => by rw [List.length_eq_zero_iff.mp h0] at hi'; cases hi'
  obtain ⟨c, hc⟩ := this
  exact ⟨c, by rw [C105.result T cfg P pfuel f l hT _ fuel hf, hc]⟩

/-- If the position of a particle is beside all other leaves, the leaf found holds it. -/
theorem C105_own (T : Tree n) (cfg : Cfg) (P : Parts n) (pfuel : ℕ) (f : Forest) (l : List ℕ)
    (hT : T.OK cfg P pfuel f l) (fuel : ℕ) (hf : f.cells.length ≤ fuel) (i : ℕ) (hi : i ∈ l)
    (hbig : ∀ k, -cfg.big < P.r i k ∧ P.r i k < cfg.big)
    (hother : ∀ c ∈ f.cells, T.links.copen c = none → ∀ l', T.leafList pfuel c = some l' → i ∉ l' →
      ∃ k, (∀ j ∈ l', P.r i k < P.r j k) ∨ (∀ j ∈ l', P.r j k < P.r i k)) :
    ∃ c l', T.findLeaf (P.r i) fuel 0 = .done (some c) ∧ T.leafList pfuel c = some l' ∧ i ∈ l' := by
  obtain ⟨c, hc⟩ := C105_particle T cfg P pfuel f l hT fuel hf i hi
  have hq := C105.result T cfg P pfuel f l hT (P.r i) fuel hf
  rw [hc] at hq
  injection hq with hq
  obtain ⟨⟨h1, l', h2, h3, -⟩, h5, h6, h7⟩ := Forest.firstLeaf_some (hT.linked.allLeaves.and hT.covers.leafQ) hq.symm
  refine ⟨c, l', hc, h2, ?_⟩
  by_contra hn
  have hb := (boxOverlap_eq_true _ _).mp h6
  obtain ⟨k, h | h⟩ := hother c h5 h1 l' h2 hn
  · have h8 : (T.cell c).bbmin k ≤ P.r i k := (hb k).2
    rcases h3.bbminTight k with e | ⟨j, hj, e⟩
    · linarith [(hbig k).2]
    · linarith [h j hj]
  · have h8 : P.r i k ≤ (T.cell c).bbmax k := (hb k).1
    rcases h3.bbmaxTight k with e | ⟨j, hj, e⟩
    · linarith [(hbig k).1]
    · linarith [h j hj]

/-- A point inside the tree need not have a leaf: boxes shrink to the particles, so that a point which is beside the
particles of each leaf in some direction gets the answer "outside", though it may lie amid the particles. -/
theorem C105_gap_fails (T : Tree n) (cfg : Cfg) (P : Parts n) (pfuel : ℕ) (f : Forest) (l : List ℕ)
    (hT : T.OK cfg P pfuel f l) (rp : Vec n ℝ) (fuel : ℕ) (hf : f.cells.length ≤ fuel)
    (hbig : ∀ k, -cfg.big < rp k ∧ rp k < cfg.big)
    (hgap : ∀ c ∈ f.cells, T.links.copen c = none → ∀ l', T.leafList pfuel c = some l' →
      ∃ k, (∀ j ∈ l', rp k < P.r j k) ∨ (∀ j ∈ l', P.r j k < rp k)) :
    T.findLeaf rp fuel 0 = .done none := by
  rw [C105.result T cfg P pfuel f l hT rp fuel hf]
  congr 1
  cases hq : f.firstLeaf (T.near rp) T.full with
  | none => rfl
  | some c =>
    exfalso
    obtain ⟨⟨h1, l', h2, h3, -⟩, h5, h6, h7⟩ := Forest.firstLeaf_some (hT.linked.allLeaves.and hT.covers.leafQ) hq
    have hb := (boxOverlap_eq_true _ _).mp h6
    obtain ⟨k, h | h⟩ := hgap c h5 h1 l' h2
    · have h8 : (T.cell c).bbmin k ≤ rp k := (hb k).2
      rcases h3.bbminTight k with e | ⟨j, hj, e⟩
      · linarith [(hbig k).2]
      · linarith [h j hj]
    · have h8 : rp k ≤ (T.cell c).bbmax k := (hb k).1
      rcases h3.bbmaxTight k with e | ⟨j, hj, e⟩
      · linarith [(hbig k).1]
      · linarith [h j hj]

open Multipole in
/-- A star in the middle of four particles in a row is in no leaf: its radiation is left out, as that of a star of another
process would be. -/
theorem C105_star_fails : ∃ (T : Tree 1) (cfg : Cfg) (P : Parts 1) (f : Forest) (l : List ℕ) (rs : Vec 1 ℝ),
    T.OK cfg P 2 f l ∧ (∃ i ∈ l, ∃ j ∈ l, P.r i 0 < rs 0 ∧ rs 0 < P.r j 0) ∧
    ((T.cell 0).bbmin 0 ≤ rs 0 ∧ rs 0 ≤ (T.cell 0).bbmax 0) ∧ ∀ fuel, 3 ≤ fuel → T.findLeaf rs fuel 0 = .done none := by
  have hok := lineTree_ok (fun i => (i : ℝ)) 1 10 1
  refine ⟨lineTree (fun i => (i : ℝ)) 1 10 1, lineCfg 10 1, linePart (fun i => i) 1, _, [0, 1, 2, 3], fun _ => 3 / 2, hok,
    ⟨1, by simp, 2, by simp, by norm_num [linePart]⟩, ?_, fun fuel hf => ?_⟩
  · have S0 := line_root (fun i => (i : ℝ)) 1 10 1
    have h1 := (S0.bb 1 (by simp) 0).1
    have h2 := (S0.bb 2 (by simp) 0).2
    norm_num [linePart] at h1 h2
    constructor <;> linarith
  · refine C105_gap_fails _ _ _ 2 _ _ hok _ fuel (by simpa [Forest.cells] using hf) (by norm_num [lineCfg]) ?_
    intro c hc hopen l' hl'
    simp only [Forest.cells, List.mem_cons, List.append_nil, List.nil_append, List.not_mem_nil, or_false] at hc
    refine ⟨0, ?_⟩
    rcases hc with rfl | rfl | rfl
    · simp [lineTree] at hopen
    · rw [line_list1] at hl'
      cases hl'
      right
      simp only [List.mem_cons, List.not_mem_nil, or_false, linePart]
      rintro j (rfl | rfl) <;> norm_num
    · rw [line_list2] at hl'
      cases hl'
      left
      simp only [List.mem_cons, List.not_mem_nil, or_false, linePart]
      rintro j (rfl | rfl) <;> norm_num

open Multipole in
/-- Where leaves touch, the leaf found for the position of a particle need not be the leaf that holds it. -/
theorem C105_other_leaf_fails : ∃ (T : Tree 1) (cfg : Cfg) (P : Parts 1) (f : Forest) (l : List ℕ), T.OK cfg P 2 f l ∧
    ∃ i ∈ l, ∃ c l', (∀ fuel, 3 ≤ fuel → T.findLeaf (P.r i) fuel 0 = .done (some c)) ∧ T.leafList 2 c = some l' ∧ i ∉ l' := by
  let pos : ℕ → ℝ := fun i => if i = 2 then 1 else i
  have hok := lineTree_ok pos 1 10 1
  refine ⟨lineTree pos 1 10 1, lineCfg 10 1, linePart pos 1, _, [0, 1, 2, 3], hok, 2, by simp, 1, [0, 1], ?_,
    line_list1 pos 1 10 1, by simp⟩
  intro fuel hf
  rw [C105.result _ _ _ 2 _ _ hok _ fuel (by simpa [Forest.cells] using hf)]
  have h0 : (lineTree pos 1 10 1).near ((linePart pos 1).r 2) 0 = true := by
    refine (boxOverlap_eq_true _ _).mpr fun k => ?_
    have := (line_root pos 1 10 1).bb 2 (by simp) k
    exact ⟨this.2, this.1⟩
  have S1 := line_leaf1 pos 1 10 1
  have h1 : (lineTree pos 1 10 1).near ((linePart pos 1).r 2) 1 = true := by
    refine (boxOverlap_eq_true _ _).mpr fun k => ?_
    have := S1.bb 1 (by simp) k
    have e : (linePart pos 1).r 2 k = (linePart pos 1).r 1 k := by simp [linePart, pos]
    rw [← e] at this
    exact ⟨this.2, this.1⟩
  have h2 : (lineTree pos 1 10 1).full 1 = true := by
    have := S1.N
    simp [Tree.full, this]
  simp [Forest.firstLeaf, h0, h1, h2]

open Multipole in
/-- All theorems apply to the four particles in a row. -/
example : ∃ c, (lineTree (fun i => (i : ℝ)) 1 10 1).findLeaf ((linePart (fun i => (i : ℝ)) 1).r 2) 3 0 = .done (some c) :=
  C105_particle _ _ _ 2 _ _ (lineTree_ok (fun i => (i : ℝ)) 1 10 1) 3 (by simp [Forest.cells]) 2 (by simp)

end Gandalf
