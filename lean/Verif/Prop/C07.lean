import Verif.Proof.TreeSearch
import Verif.Prop.C06
import Verif.Spec.Box

/-!
# C07 – gather searches are complete and duplicate free
-/

set_option autoImplicit false

namespace Gandalf
open Walk KD

variable {n : ℕ}

/-- `i` is live and closer than `R` to `x` -/
noncomputable def inSphere (P : KD.Parts n) (x : Vec n ℝ) (R : ℝ) (i : ℕ) : Bool :=
  decide (Tree.distsqd (P.r i) x < R * R) && !P.dead i

/-- **C07, around a point.** On every correct tree over particles `l` (dead flags may have been set
since stocking) the search with radius `R ≥ 0` ends; either it appends to the list *exactly* the live
particles closer than `R`, each once, within the buffer; or it returns −1, and then the buffer could
not take the particles in the sphere plus one full leaf. -/
theorem C07_point_gather (T : Tree n) (cfg : Cfg) (P : Parts n) (pfuel : ℕ) (f : Forest)
    (l : List ℕ) (hT : T.OK cfg P pfuel f l) (rp : Vec n ℝ) (R : ℝ) (hR : 0 ≤ R)
    (Nneibmax : ℕ) (s : List ℕ) (hs : s.length ≤ Nneibmax) (fuel : ℕ)
    (hfuel : f.cells.length ≤ fuel) :
    (T.gatherPoint P rp R Nneibmax pfuel s fuel = .done (s ++ l.filter (inSphere P rp R)) ∧
      (s ++ l.filter (inSphere P rp R)).length ≤ Nneibmax ∧
      (l.filter (inSphere P rp R)).Nodup) ∨
    (T.gatherPoint P rp R Nneibmax pfuel s fuel = .fail ∧
      Nneibmax ≤ s.length + (l.filter (inSphere P rp R)).length + T.Nleafmax) := by
  have hb : T.gatherPointBody P rp R Nneibmax pfuel = collectBody T.links (fun c => (T.cell c).N)
      (T.leafList pfuel)
      (fun c => decide (Tree.distsqd (T.cell c).rcell rp <
        (R + (T.cell c).rmax) * (R + (T.cell c).rmax)))
      (inSphere P rp R) (fun s => decide (s.length + T.Nleafmax < Nneibmax)) := by
    funext c s
    simp only [Tree.gatherPointBody, collectBody, decide_eq_true_eq, inSphere]
    cases T.leafList pfuel c <;> rfl
  have hnear : ∀ c l, Summary cfg P l (T.cell c) →
      (decide (Tree.distsqd (T.cell c).rcell rp <
        (R + (T.cell c).rmax) * (R + (T.cell c).rmax))) = false → l.filter (inSphere P rp R) = [] := by
    intro c l hS hf
    rw [decide_eq_false_iff_not] at hf
    rw [List.filter_eq_nil_iff]
    intro i hi hin
    simp only [inSphere, Bool.and_eq_true, decide_eq_true_eq] at hin
    apply hf
    rw [← sq, distsqd_comm]
    refine distsqd_lt_add hR hS.rmaxNonneg (y := P.r i) ?_ (hS.extent i hi)
    rw [distsqd_comm, sq]; exact hin.1
  rcases collect_walk hT _ (inSphere P rp R) (inSphere P rp R)
    (fun s => decide (s.length + T.Nleafmax < Nneibmax)) hnear s fuel hfuel with
    ⟨r, e, g1, g2⟩ | ⟨e, r, g1, g2⟩
  · refine Or.inl ⟨?_, ?_, hT.nodup.filter _⟩
    · rw [Tree.gatherPoint, hb, e, g2]
    · rw [g2] at e
      exact collect_walk_bound hT _ _ Nneibmax s _ fuel hfuel hs e
  · refine Or.inr ⟨by rw [Tree.gatherPoint, hb, e], ?_⟩
    rw [decide_eq_false_iff_not, not_lt, List.length_append] at g2
    have := (g1.filter (inSphere P rp R)).length_le
    omega

/-- **C07 on the real pipeline.** Size, lay out, build and stock a KD-tree over the particles
`first … first+m-1`; then the point gather finds exactly the live particles of that range closer than
`R`, provided the buffer holds all particles plus a leaf. -/
theorem C07_point_gather_built {κ : Type*} {α : Type} [LinearOrder α] {ndim : ℕ} (coord : κ → ℕ → α)
    (kdiv : ℕ → κ) (dead0 : ℕ → Bool) (first m Nleafmax gmax : ℕ) (hM : 1 ≤ Nleafmax) (hn : 1 ≤ m)
    (hlive : ∀ i, first ≤ i → i < first + m → dead0 i = false)
    (cells : KD.Links) (ids : ℕ → ℕ) (inext : ℕ → Option ℕ) (ltot : ℕ)
    (hl : computeLtot Nleafmax m (m + 1) = some ltot) (hg : gtotOf ltot ≤ gmax)
    (cfg : Cfg) (P : Parts ndim) (hm : ∀ i, P.dead i = false → 0 ≤ P.m i) (cell : ℕ → Props ndim)
    (mac : ℕ → ℝ) (rp : Vec ndim ℝ) (R : ℝ) (hR : 0 ≤ R) (Nneibmax : ℕ)
    (hbuf : m + Nleafmax < Nneibmax) :
    ∃ t b s', ∃ found : List ℕ, createTreeStructure ltot gmax cells = some t ∧
      buildTree t ltot coord kdiv dead0 first m ids inext = some b ∧
      stockTree cfg P t ltot true m (ltot + 1) 0 ⟨b.inext, b.ifirst, b.ilast, cell⟩ = some s' ∧
      (toTree t ltot Nleafmax s' mac).gatherPoint P rp R Nneibmax m [] (ncellOf ltot) = .done found ∧
      found.Nodup ∧ ∀ i, i ∈ found ↔ first ≤ i ∧ i < first + m ∧ P.dead i = false ∧
        Tree.distsqd (P.r i) rp < R ^ 2 := by
  obtain ⟨t, b, s', l, h1, h2, h3, hp, hlo, hst, _⟩ := C06_built_tree_stocks coord kdiv dead0 first m
    Nleafmax gmax hM hn hlive cells ids inext ltot hl hg cfg P hm cell
  have hnd : l.Nodup := hp.nodup_iff.mpr List.nodup_range'
  have hlen : l.length = m := by rw [hp.length_eq]; simp
  have hfl : (l.filter fun i => !P.dead i).length ≤ m := by
    have := List.length_filter_le (fun i => !P.dead i) l; omega
  have hok := toTree_ok (mac := mac) (pfuel := m) hlo hst hfl (hnd.filter _)
  rcases C07_point_gather _ cfg P m _ _ hok rp R hR Nneibmax [] (by simp) (ncellOf ltot)
    (by rw [(C05_cell_count ltot).2.1]; simp) with ⟨e, _, e3⟩ | ⟨_, e2⟩
  · rw [List.nil_append] at e
    refine ⟨t, b, s', _, h1, h2, h3, e, e3, ?_⟩
    intro i
    simp only [List.mem_filter, inSphere, Bool.and_eq_true, decide_eq_true_eq, Bool.not_eq_true',
      hp.mem_iff, List.mem_range'_1, sq]
    tauto
  · exfalso
    have := List.length_filter_le (inSphere P rp R) (l.filter fun i => !P.dead i)
    simp only [toTree, List.length_nil] at e2
    omega

/-- **C07, for a cell.** The gather search for a cell with smoothing length bound `hmax`: on success
it has appended live particles of the tree only, each once, all within `rmax + kernrange·hmax` of the
cell centre, and among them *every* live particle closer than `kernrange·hmax` to any point of the
cell. -/
theorem C07_cell_gather (T : Tree n) (cfg : Cfg) (P : Parts n) (pfuel : ℕ) (f : Forest)
    (l : List ℕ) (hT : T.OK cfg P pfuel f l) (kernrange hmax : ℝ) (hK : 0 ≤ kernrange * hmax)
    (cell : Props n) (hrm : 0 ≤ cell.rmax)
    (Nneibmax : ℕ) (s : List ℕ) (hs : s.length ≤ Nneibmax) (fuel : ℕ)
    (hfuel : f.cells.length ≤ fuel) :
    (∃ found : List ℕ, T.gatherCell P kernrange cell hmax Nneibmax pfuel s fuel = .done (s ++ found) ∧
      (s ++ found).length ≤ Nneibmax ∧ found.Nodup ∧
      (∀ i ∈ found, i ∈ l ∧ P.dead i = false ∧
        Tree.distsqd (P.r i) cell.rcell < (cell.rmax + kernrange * hmax) ^ 2) ∧
      ∀ i ∈ l, P.dead i = false → ∀ x : Vec n ℝ, cell.bb.Mem x →
        Tree.distsqd x cell.rcell ≤ cell.rmax ^ 2 →
        Tree.distsqd (P.r i) x < (kernrange * hmax) ^ 2 → i ∈ found) ∨
    (T.gatherCell P kernrange cell hmax Nneibmax pfuel s fuel = .fail ∧
      Nneibmax ≤ s.length + l.length + T.Nleafmax) := by
  classical
  set near : ℕ → Bool := fun c => boxOverlap (Tree.gatherBox kernrange cell hmax) (T.cell c).bb
  set need : ℕ → Bool := fun i => decide (∃ x : Vec n ℝ, cell.bb.Mem x ∧
    Tree.distsqd x cell.rcell ≤ cell.rmax ^ 2 ∧ Tree.distsqd (P.r i) x < (kernrange * hmax) ^ 2)
  have hb : T.gatherCellBody (Tree.gatherBox kernrange cell hmax) Nneibmax pfuel =
      collectBody T.links (fun c => (T.cell c).N) (T.leafList pfuel) near (fun _ => true)
        (fun s => decide (s.length + T.Nleafmax < Nneibmax)) := by
    funext c s
    simp only [Tree.gatherCellBody, collectBody, decide_eq_true_eq, near, List.filter_true]
    cases T.leafList pfuel c <;> rfl
  have hnear : ∀ c l, Summary cfg P l (T.cell c) → near c = false → l.filter need = [] := by
    intro c l hS hf
    rw [List.filter_eq_nil_iff]
    intro i hi hin
    simp only [need, decide_eq_true_eq] at hin
    obtain ⟨x, hx1, _, hx3⟩ := hin
    have : near c = true := by
      simp only [near, boxOverlap_eq_true]
      intro k
      have h1 := hx1 k
      have h2 := hS.bb i hi k
      have h3 := abs_lt.mp (abs_lt_of_dot_lt hK hx3 k)
      simp only [Tree.gatherBox, Props.bb] at h1 ⊢
      constructor <;> linarith
    rw [hf] at this; exact absurd this (by simp)
  rcases collect_walk hT near (fun _ => true) need
    (fun s => decide (s.length + T.Nleafmax < Nneibmax)) hnear s fuel hfuel with
    ⟨r, e, g1, g2⟩ | ⟨e, r, g1, g2⟩
  · left
    rw [List.filter_true] at e
    set keep : ℕ → Bool := fun i => !P.dead i &&
      decide (Tree.distsqd (P.r i) cell.rcell < (cell.rmax + kernrange * hmax) ^ 2)
    refine ⟨r.filter keep, ?_, ?_, (hT.nodup.sublist g1).filter _, ?_, ?_⟩
    · rw [Tree.gatherCell, hb, e]
      simp only [trimList_eq]
      rfl
    · have h1 := collect_walk_bound hT _ _ Nneibmax s _ fuel hfuel hs e
      have h2 := List.length_filter_le keep r
      rw [List.length_append] at h1 ⊢
      omega
    · intro i hi
      simp only [List.mem_filter, keep, Bool.and_eq_true, Bool.not_eq_true', decide_eq_true_eq] at hi
      exact ⟨g1.subset hi.1, hi.2⟩
    · intro i hi hd x hx1 hx2 hx3
      have hneed : need i = true := by
        simp only [need, decide_eq_true_eq]; exact ⟨x, hx1, hx2, hx3⟩
      have : i ∈ r.filter need := by rw [g2]; exact List.mem_filter.mpr ⟨hi, hneed⟩
      refine List.mem_filter.mpr ⟨(List.mem_filter.mp this).1, ?_⟩
      simp only [keep, hd, Bool.not_false, Bool.true_and, decide_eq_true_eq]
      rw [add_comm]
      exact distsqd_lt_add hK hrm hx3 hx2
  · refine Or.inr ⟨by rw [Tree.gatherCell, hb, e], ?_⟩
    rw [List.filter_true, decide_eq_false_iff_not, not_lt, List.length_append] at g2
    have := g1.length_le
    omega

/-! Instance: the one-leaf tree with particles 0 at x=0 and 1 at x=4 (see C06): all hypotheses of the
theorems hold for the tree made by the code. -/
noncomputable section
def exP7 : Parts 1 where
  dead := fun _ => false
  active := fun _ => true
  grav := fun _ => true
  m := fun _ => 1
  h := fun _ => 1
  sound := fun _ => 1
  anorm := fun _ => 0
  gfac := fun _ => 0
  r := fun i _ => 4 * i
  v := fun _ _ => 0
def exCfg7 : Cfg where
  big := 100
  kernrange := 2
  thetamaxsqd := 1
  gadget2 := false
  eigenmac := false
  needQuad := true
theorem exTree7' : ∃ (T : Tree 1) (l : List ℕ),
    T.OK exCfg7 exP7 2 (fullTree 0 0 .nil) l ∧ l.Perm [0, 1] := by
  obtain ⟨t, b, s', l, h1, h2, h3, hp, hlo, hst, _⟩ := C06_built_tree_stocks (κ := Fin 1)
    (fun k i => exP7.r i k) (fun _ => 0) (fun _ => false) 0 2 6 1 (by norm_num) (by norm_num)
    (fun _ _ _ => rfl) ⟨fun _ => 0, fun _ => none, fun _ => none, fun _ => none, fun _ => none,
      fun _ => 0, fun _ => 0, 0⟩ id (fun _ => none) 0 (by decide) (by decide) exCfg7 exP7
    (fun _ _ => zero_le_one) (fun _ => Classical.choice ⟨⟨0, 0, 0, 0, 0, 0, 0, 0, 0, fun _ => 0,
      fun _ => 0, fun _ => 0, fun _ => 0, fun _ => 0, fun _ => 0, fun _ => 0, fun _ => 0, fun _ => 0,
      fun _ => 0⟩⟩)
  have e : (l.filter fun i => !exP7.dead i) = l := by simp [exP7]
  rw [e] at hst
  have hlen : l.length = 2 := by rw [hp.length_eq]; simp
  exact ⟨toTree t 0 6 s' fun _ => 0, l, toTree_ok hlo hst (by omega)
    (hp.nodup_iff.mpr List.nodup_range'), hp⟩
theorem exTree7 : ∃ (T : Tree 1) (cfg : Cfg) (P : Parts 1) (l : List ℕ),
    T.OK cfg P 2 (fullTree 0 0 .nil) l ∧ l.length = 2 := by
  obtain ⟨T, l, h, hp⟩ := exTree7'
  exact ⟨T, exCfg7, exP7, l, h, by rw [hp.length_eq]; rfl⟩
end

end Gandalf
