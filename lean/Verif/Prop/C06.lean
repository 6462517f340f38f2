import Verif.Proof.KDStockTree
import Verif.Proof.KDBuild
import Verif.Prop.C03

/-!
# C06 – stocked cells bound and sum up their particles
-/

set_option autoImplicit false

namespace Gandalf
open KD LeafList

/-- **C06.** Stocking a tree whose leaves hold the particles `l` (in any order, some of them possibly
dead) terminates, removes the dead particles from the leaf lists, and leaves in *every* cell a correct
`Summary` of exactly the live particles in the leaves beneath it; nothing outside the tree is changed.
Masses must not be negative. -/
theorem C06_stock_summarises {n : ℕ} (cfg : Cfg) (P : Parts n) (t : KD.Links) (ltot pfuel M : ℕ)
    (s : TState n) (l : List ℕ) (hlo : LaidOut t ltot ltot 0 0) (hl : LeafLists t s M ltot 0 l)
    (hnd : l.Nodup) (hf : l.length ≤ pfuel) (hm : ∀ i, P.dead i = false → 0 ≤ P.m i) :
    ∃ s', stockTree cfg P t ltot true pfuel (ltot + 1) 0 s = some s' ∧
      Stocked cfg P t s' M ltot 0 (l.filter fun i => !P.dead i) ∧
      (∀ x, x ∉ l → s'.inext x = s.inext x) ∧
      (∀ c, ncellOf ltot ≤ c → s'.cell c = s.cell c) := by
  obtain ⟨s', e, h, f⟩ := stockTree_spec (cfg := cfg) t ltot M pfuel hm ltot 0 0 l s hlo hl hnd hf
  refine ⟨s', e _ le_rfl, h, f.inext, ?_⟩
  intro c hc
  rw [ncellOf_eq] at hc
  exact f.cell c (by omega)

theorem owns_leafLists {κ α : Type*} [LE α] {t : KD.Links} {coord : κ → ℕ → α} {kdiv : ℕ → κ}
    {b : Build} {n : ℕ} {cell : ℕ → Props n} {M : ℕ} : ∀ (d c : ℕ) (l : List ℕ),
    Owns t coord kdiv b d c l → l.length ≤ M * 2 ^ d →
    LeafLists t ⟨b.inext, b.ifirst, b.ilast, cell⟩ M d c l := by
  intro d
  induction d with
  | zero => intro c l h hM; exact ⟨by simpa using hM, h.2.1, h.2.2.1, h.2.2.2⟩
  | succ d ih =>
    intro c l h hM
    obtain ⟨_, _, _, _, c1, c2, l1, l2, q1, q2, q3, q4, _, _, q7, q8⟩ := h
    have e : l.length = l1.length + l2.length := by rw [q3, List.length_append]
    have e2 : M * 2 ^ (d + 1) = 2 * (M * 2 ^ d) := by ring
    exact ⟨c1, c2, l1, l2, q1, q2, q3, ih _ _ q7 (by omega), ih _ _ q8 (by omega)⟩

/-- **C06, whole pipeline.** Size, lay out and build a tree over particles `first … first+n-1`; later
(particles may have moved and died) stock it: the stocking succeeds and the root cell summarises
exactly the live particles of the range; every other cell summarises exactly the live particles in
the leaves beneath it. -/
theorem C06_built_tree_stocks {κ : Type*} {α : Type} [LinearOrder α] {ndim : ℕ} (coord : κ → ℕ → α)
    (kdiv : ℕ → κ) (dead0 : ℕ → Bool) (first n Nleafmax gmax : ℕ) (hM : 1 ≤ Nleafmax) (hn : 1 ≤ n)
    (hlive : ∀ i, first ≤ i → i < first + n → dead0 i = false)
    (cells : KD.Links) (ids : ℕ → ℕ) (inext : ℕ → Option ℕ) (ltot : ℕ)
    (hl : computeLtot Nleafmax n (n + 1) = some ltot) (hg : gtotOf ltot ≤ gmax)
    (cfg : Cfg) (P : Parts ndim) (hm : ∀ i, P.dead i = false → 0 ≤ P.m i) (cell : ℕ → Props ndim) :
    ∃ t b s', ∃ l : List ℕ, createTreeStructure ltot gmax cells = some t ∧
      buildTree t ltot coord kdiv dead0 first n ids inext = some b ∧
      stockTree cfg P t ltot true n (ltot + 1) 0 ⟨b.inext, b.ifirst, b.ilast, cell⟩ = some s' ∧
      l.Perm (List.range' first n) ∧ LaidOut t ltot ltot 0 0 ∧
      Stocked cfg P t s' Nleafmax ltot 0 (l.filter fun i => !P.dead i) ∧
      Summary cfg P (l.filter fun i => !P.dead i) (s'.cell 0) := by
  obtain ⟨L, h1, h2, h3⟩ := C02_depth_minimal Nleafmax n hM
  rw [h1 (n+1) le_rfl] at hl
  obtain rfl := Option.some.inj hl
  obtain ⟨t, ht, hlo, _, _⟩ := C05_structure_is_preorder L gmax hg cells
  have hmin : 0 < L → 2 ^ (L-1) ≤ n := by
    intro hL
    have := h3 (L-1) (by omega)
    have h4 : 1 * 2 ^ (L-1) ≤ Nleafmax * 2 ^ (L-1) := Nat.mul_le_mul_right _ hM
    omega
  obtain ⟨b, l, e, ho, hp, _, _⟩ := buildTree_spec t L coord kdiv dead0 first n ids inext hlo
    (by omega) hmin hlive
  have hnd : l.Nodup := hp.nodup_iff.mpr List.nodup_range'
  have hlen : l.length = n := by rw [hp.length_eq]; simp
  obtain ⟨s', es, hs, _, _⟩ := C06_stock_summarises cfg P t L n Nleafmax
    ⟨b.inext, b.ifirst, b.ilast, cell⟩ l hlo (owns_leafLists L 0 l ho (by omega)) hnd (by omega) hm
  exact ⟨t, b, s', l, ht, e, es, hp, hlo, hs, hs.summary⟩

/-- Reading off the root: the total mass of the tree is the mass of all live gravitating particles in
the range, and `N` their number. -/
theorem C06_root_mass {κ : Type*} {α : Type} [LinearOrder α] {ndim : ℕ} (coord : κ → ℕ → α)
    (kdiv : ℕ → κ) (dead0 : ℕ → Bool) (first n Nleafmax gmax : ℕ) (hM : 1 ≤ Nleafmax) (hn : 1 ≤ n)
    (hlive : ∀ i, first ≤ i → i < first + n → dead0 i = false)
    (cells : KD.Links) (ids : ℕ → ℕ) (inext : ℕ → Option ℕ) (ltot : ℕ)
    (hl : computeLtot Nleafmax n (n + 1) = some ltot) (hg : gtotOf ltot ≤ gmax)
    (cfg : Cfg) (P : Parts ndim) (hm : ∀ i, P.dead i = false → 0 ≤ P.m i) (cell : ℕ → Props ndim) :
    ∃ t b s', createTreeStructure ltot gmax cells = some t ∧
      buildTree t ltot coord kdiv dead0 first n ids inext = some b ∧
      stockTree cfg P t ltot true n (ltot + 1) 0 ⟨b.inext, b.ifirst, b.ilast, cell⟩ = some s' ∧
      (s'.cell 0).m = ∑ i ∈ Finset.Ico first (first + n),
        (if P.dead i = false ∧ P.grav i = true then P.m i else 0) ∧
      (s'.cell 0).N = ((Finset.Ico first (first + n)).filter fun i => P.dead i = false).card := by
  obtain ⟨t, b, s', l, h1, h2, h3, hp, _, _, hS⟩ := C06_built_tree_stocks coord kdiv dead0 first n
    Nleafmax gmax hM hn hlive cells ids inext ltot hl hg cfg P hm cell
  refine ⟨t, b, s', h1, h2, h3, ?_, ?_⟩
  · rw [hS.m, gsum]
    have hp2 := ((hp.filter (fun i => !P.dead i)).filter P.grav).map P.m
    rw [hp2.sum_eq]
    clear hp2 hS h3 h2 hl hlive hg
    rw [Finset.sum_Ico_eq_sum_range]
    rw [Nat.add_sub_cancel_left]
    have : ∀ k, ((List.filter P.grav (List.filter (fun i => !P.dead i)
        (List.range' first k))).map P.m).sum = ∑ j ∈ Finset.range k,
        (if P.dead (first + j) = false ∧ P.grav (first + j) = true then P.m (first + j) else 0) := by
      intro k
      induction k with
      | zero => simp
      | succ k ih =>
        rw [Finset.sum_range_succ, ← ih, List.range'_concat]
        simp only [List.filter_append, List.map_append, List.sum_append, Nat.one_mul]
        congr 1
        by_cases h1 : P.dead (first + k) <;> by_cases h2 : P.grav (first + k) <;>
          simp [h1, h2]
    exact this n
  · rw [hS.N]
    rw [(hp.filter (fun i => !P.dead i)).length_eq]
    have : ∀ k, (List.filter (fun i => !P.dead i) (List.range' first k)).length =
        ((Finset.Ico first (first + k)).filter fun i => P.dead i = false).card := by
      intro k
      induction k with
      | zero => simp
      | succ k ih =>
        rw [List.range'_concat, ← Nat.add_assoc, Nat.Ico_succ_right_eq_insert_Ico (by omega),
          Finset.filter_insert]
        simp only [List.filter_append, List.length_append, Nat.one_mul]
        rw [ih]
        by_cases h1 : P.dead (first + k)
        · simp [h1]
        · simp only [Bool.not_eq_true] at h1
          rw [if_pos h1, Finset.card_insert_of_notMem (by simp)]
          simp [h1]
    exact this n

/-! Instance: two particles of masses 1 and 3 at x = 0 and x = 4 in one leaf: mass 4, centre of mass
3, box [0,4]. -/
noncomputable section
private def exP : Parts 1 where
  dead := fun i => i == 2
  active := fun _ => true
  grav := fun _ => true
  m := fun i => if i = 0 then 1 else 3
  h := fun _ => 1
  sound := fun _ => 1
  anorm := fun _ => 0
  gfac := fun _ => 0
  r := fun i _ => if i = 0 then 0 else 4
  v := fun _ _ => 0
private def exCfg : Cfg where
  big := 100
  kernrange := 2
  thetamaxsqd := 1
  gadget2 := false
  eigenmac := false
  needQuad := true
example (c : Props 1) : (stockLeafProps exCfg exP [0, 1] c).m = 4 ∧
    (stockLeafProps exCfg exP [0, 1] c).r 0 = 3 ∧ (stockLeafProps exCfg exP [0, 1] c).hmax = 1 := by
  have h := stockLeaf_summary exCfg exP [0, 1] c (by simp [exP])
  have hm : (stockLeafProps exCfg exP [0, 1] c).m = 4 := by
    rw [h.m]; norm_num [gsum, exP]
  refine ⟨hm, ?_, ?_⟩
  · have h2 := h.com (by rw [hm]; norm_num) 0
    rw [hm] at h2
    have h3 : gsum exP [0, 1] (fun i => exP.m i * exP.r i 0) = 12 := by norm_num [gsum, exP]
    linarith
  · have h1 := h.hmax 0 (by simp)
    rcases h.hmaxTight with h2 | ⟨i, _, h2⟩
    · rw [h2] at h1; norm_num [exP] at h1
    · rw [h2]; rfl
end

end Gandalf
