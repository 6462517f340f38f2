import Verif.Proof.OpenCrit
import Verif.Proof.MultipoleExample

/-! # A tree with a wide and a narrow leaf -/

set_option autoImplicit false
set_option linter.unusedSectionVars false

namespace Gandalf.OpenCrit

open KD Multipole Gravity

noncomputable section

/-- masses 1 at `-2 L`, 0, 1 and 3 with given accelerations and potentials -/
def macPart (L : ℝ) (an gp : ℕ → ℝ) : Parts 1 where
  r := fun i _ => [-(2 * L), 0, 1, 3].getD i 0
  v := fun _ _ => 0
  m := fun _ => 1
  h := fun _ => 1 / 8
  sound := fun _ => 1
  anorm := an
  gfac := fun i => gfacOf (gp i)
  dead := fun _ => false
  active := fun _ => true
  grav := fun _ => true

def macCfg (big : ℝ) (gadget2 eigen : Bool) : Cfg where
  big := big
  kernrange := 2
  thetamaxsqd := 1
  gadget2 := gadget2
  eigenmac := eigen
  needQuad := true

/-- leaf 1 holds the particles 0 and 1, leaf 2 the particles 2 and 3 -/
def macTree (cfg : Cfg) (P : Parts 1) (gmac : Tree.Mac) (err : ℝ) : Tree 1 where
  links := ⟨fun c => if c = 0 then some 1 else none, fun c => if c = 1 then some 2 else some 3⟩
  Ncell := 3
  Nend := 3
  Nleafmax := 2
  cell := fun c =>
    if c = 1 then stockLeafProps cfg P [0, 1] blank
    else if c = 2 then stockLeafProps cfg P [2, 3] blank
    else stockInternalProps cfg (stockLeafProps cfg P [0, 1] blank) (stockLeafProps cfg P [2, 3] blank) blank
  mac := fun c => macOf 1 gmac err (if c = 1 then stockLeafProps cfg P [0, 1] blank
    else if c = 2 then stockLeafProps cfg P [2, 3] blank
    else stockInternalProps cfg (stockLeafProps cfg P [0, 1] blank) (stockLeafProps cfg P [2, 3] blank) blank).q
  ifirst := fun c => if c = 1 then some 0 else if c = 2 then some 2 else none
  ilast := fun c => if c = 1 then some 1 else if c = 2 then some 3 else none
  inext := fun i => some (i + 1)

end

section
variable (cfg : Cfg) (P : Parts 1) (hP : ∀ i, P.dead i = false) (gmac : Tree.Mac) (err : ℝ)
include hP

theorem mac_leaf1 : Summary cfg P [0, 1] ((macTree cfg P gmac err).cell 1) :=
  stockLeaf_summary _ _ _ _ (by simp [hP])

theorem mac_leaf2 : Summary cfg P [2, 3] ((macTree cfg P gmac err).cell 2) :=
  stockLeaf_summary _ _ _ _ (by simp [hP])

theorem mac_root (hm : ∀ i, 0 ≤ P.m i) : Summary cfg P [0, 1, 2, 3] ((macTree cfg P gmac err).cell 0) :=
  stockInternal_summary _ _ [0, 1] [2, 3] _ _ _ (by simp [hm]) (mac_leaf1 cfg P hP gmac err)
    (mac_leaf2 cfg P hP gmac err)

omit hP in
theorem mac_list1 : (macTree cfg P gmac err).leafList 2 1 = some [0, 1] := by
  simp [Tree.leafList, macTree, LeafList.traverse]

omit hP in
theorem mac_list2 : (macTree cfg P gmac err).leafList 2 2 = some [2, 3] := by
  simp [Tree.leafList, macTree, LeafList.traverse]

theorem macTree_ok (hm : ∀ i, 0 ≤ P.m i) : (macTree cfg P gmac err).OK cfg P 2
    (.cons 0 (.cons 1 .nil (.cons 2 .nil .nil)) .nil) [0, 1, 2, 3] where
  linked := by simp [Forest.Linked, Forest.entry, macTree]
  root := rfl
  ends := le_rfl
  cells := by simp [Forest.cells, macTree]
  covers := by
    refine ⟨[0, 1, 2, 3], [], rfl, ⟨mac_root cfg P hP gmac err hm, by simp [macTree]⟩, by simp, fun _ => ?_, rfl⟩
    refine ⟨[0, 1], [2, 3], rfl, ⟨mac_leaf1 cfg P hP gmac err, by simp [macTree]⟩,
      fun _ => mac_list1 cfg P gmac err, by simp, ?_⟩
    exact ⟨[2, 3], [], rfl, ⟨mac_leaf2 cfg P hP gmac err, by simp [macTree]⟩,
      fun _ => mac_list2 cfg P gmac err, by simp, rfl⟩
  nodup := by decide

end

/-- open boundaries -/
noncomputable def openDom : Domain 1 ℝ :=
  ⟨fun _ => 0, fun _ => 1, fun _ => .open_, fun _ => .open_, fun _ => 1, fun _ => 1⟩

theorem openDom_dot (v : Vec 1 ℝ) : dot (ghostNearest openDom v) (ghostNearest openDom v) = v 0 ^ 2 := by
  have : openDom.anyPeriodic = false := by simp [openDom, Domain.anyPeriodic, Domain.periodicBound]
  simp only [ghostNearest, this]
  simp [dot, sq]

section
variable {L : ℝ} (hL : 1 ≤ L) (an gp : ℕ → ℝ) (g e : Bool) (gmac : Tree.Mac) (err : ℝ)
include hL

/-- what the leaves hold -/
theorem mac_cells : let T := macTree (macCfg (2 * L + 10) g e) (macPart L an gp) gmac err
    (T.cell 0).rcell 0 = 3 / 2 - L ∧ (T.cell 0).rmax = L + 3 / 2 ∧
    (T.cell 1).rcell 0 = -L ∧ (T.cell 1).rmax = L ∧ (T.cell 1).hmax = 1 / 8 ∧ (T.cell 1).N = 2 ∧
    (T.cell 2).rcell 0 = 2 ∧ (T.cell 2).rmax = 1 ∧ (T.cell 2).hmax = 1 / 8 ∧ (T.cell 2).N = 2 ∧
    (T.cell 2).m = 2 ∧ (T.cell 2).r 0 = 2 ∧ (T.cell 2).q 0 = 4 ∧ (T.cell 2).cdistsqd = 1 ∧ (T.cell 0).N = 4 := by
  intro T
  have S0 : Summary _ _ _ (T.cell 0) :=
    mac_root (macCfg (2 * L + 10) g e) (macPart L an gp) (fun _ => rfl) gmac err (fun _ => zero_le_one)
  have S1 : Summary _ _ _ (T.cell 1) := mac_leaf1 (macCfg (2 * L + 10) g e) (macPart L an gp) (fun _ => rfl) gmac err
  have S2 : Summary _ _ _ (T.cell 2) := mac_leaf2 (macCfg (2 * L + 10) g e) (macPart L an gp) (fun _ => rfl) gmac err
  clear_value T
  have p0 : ∀ k, (macPart L an gp).r 0 k = -(2 * L) := fun _ => rfl
  have p1 : ∀ k, (macPart L an gp).r 1 k = 0 := fun _ => rfl
  have p2 : ∀ k, (macPart L an gp).r 2 k = 1 := fun _ => rfl
  have p3 : ∀ k, (macPart L an gp).r 3 k = 3 := fun _ => rfl
  have pb : (macCfg (2 * L + 10) g e).big = 2 * L + 10 := rfl
  have g0 := box_of S0 (a := 0) (b := 3) (by simp) (by simp)
    (by simp only [List.mem_cons, List.not_mem_nil, or_false]
        rintro i (rfl | rfl | rfl | rfl) <;> simp only [p0, p1, p2, p3] <;> constructor <;> linarith)
    (by rw [p0, pb]; linarith) (by rw [p3, pb]; linarith)
  have g1 := box_of S1 (a := 0) (b := 1) (by simp) (by simp)
    (by simp only [List.mem_cons, List.not_mem_nil, or_false]
        rintro i (rfl | rfl) <;> simp only [p0, p1] <;> constructor <;> linarith)
    (by rw [p0, pb]; linarith) (by rw [p1, pb]; linarith)
  have g2 := box_of S2 (a := 2) (b := 3) (by simp) (by simp)
    (by simp only [List.mem_cons, List.not_mem_nil, or_false]
        rintro i (rfl | rfl) <;> simp only [p2, p3] <;> constructor <;> linarith)
    (by rw [p2, pb]; linarith) (by rw [p3, pb]; linarith)
  rw [p0, p3] at g0
  rw [p0, p1] at g1
  rw [p2, p3] at g2
  have hh : ∀ c i ls, i ∈ ls → Summary (macCfg (2 * L + 10) g e) (macPart L an gp) ls c → c.hmax = 1 / 8 := by
    intro c i ls hi hS
    have h1 := hS.hmax i hi
    rcases hS.hmaxTight with h | ⟨i, _, h⟩
    · rw [h] at h1
      simp only [macPart] at h1
      norm_num at h1
    · rw [h]; rfl
  have N2 : (T.cell 2).N = 2 := S2.N
  have hm2 : (T.cell 2).m = 2 := by
    rw [S2.m]
    change (1 : ℝ) + (1 + 0) = 2
    norm_num
  have hr2 : (T.cell 2).r 0 = 2 := by
    have := S2.com (by rw [hm2]; norm_num) 0
    rw [hm2] at this
    change 2 * (T.cell 2).r 0 = (1 * 1 : ℝ) + (1 * 3 + 0) at this
    linarith
  have hh2 := hh _ 2 _ (by simp) S2
  refine ⟨by rw [g0.1]; ring, by rw [g0.2]; ring, by rw [g1.1]; ring, by rw [g1.2]; ring, hh _ 0 _ (by simp) S1,
    S1.N, by rw [g2.1]; norm_num, by rw [g2.2]; norm_num, hh2, N2, hm2, hr2, ?_, ?_, S0.N⟩
  · have := S2.quad rfl 0
    rw [this]
    change quadTerm 1 (fun k => (macPart L an gp).r 2 k - (T.cell 2).r k) 0 +
      (quadTerm 1 (fun k => (macPart L an gp).r 3 k - (T.cell 2).r k) 0 + 0) = 4
    simp [quadTerm, quadUsed, coord, dot, p2, p3, hr2]
    norm_num
  · rw [S2.cdist (by rw [N2]; norm_num), hh2, g2.2]
    norm_num [macCfg]

omit hL in
theorem mac_factor : ((macTree (macCfg (2 * L + 10) false true) (macPart L an gp) gmac err).cell 1).macfactor =
    max (max 0 (gfacOf (gp 0))) (gfacOf (gp 1)) := by
  simp only [macTree, if_true, stockLeafProps, List.foldl_cons, List.foldl_nil, quadBody, macPart, macCfg, setExtent,
    normalise]
  simp only [Bool.not_false, Bool.and_self, if_true]
  split_ifs <;> simp [leafBody, zeroProps]

omit hL in
theorem mac_amin : ((macTree (macCfg (2 * L + 10) true false) (macPart L an gp) gmac err).cell 1).amin =
    min (min (2 * L + 10) (an 0)) (an 1) := by
  simp only [macTree, if_true, stockLeafProps, List.foldl_cons, List.foldl_nil, quadBody, macPart, macCfg, setExtent,
    normalise]
  simp only [Bool.not_false, Bool.and_self, if_true]
  split_ifs <;> simp [leafBody, zeroProps]

/-- the walk for the wide leaf, if the narrow leaf passes the test -/
theorem mac_walk (ho : (macTree (macCfg (2 * L + 10) g e) (macPart L an gp) gmac err).openCellForGravity gmac err 2
      ((L + 2) ^ 2)
      ((macTree (macCfg (2 * L + 10) g e) (macPart L an gp) gmac err).cell 1).macfactor
      ((macTree (macCfg (2 * L + 10) g e) (macPart L an gp) gmac err).cell 1).amin = false) :
    (macTree (macCfg (2 * L + 10) g e) (macPart L an gp) gmac err).gravityWalk openDom 2 gmac err
      ((macTree (macCfg (2 * L + 10) g e) (macPart L an gp) gmac err).cell 1) 2 ⟨[], [], []⟩ 3 =
      .done ⟨[0, 1], [], [2]⟩ := by
  obtain ⟨c1, c2, c3, c4, c5, c6, c7, c8, c9, c10, c11, c12, c13, c14, c15⟩ := mac_cells hL an gp g e gmac err
  have ll1 := mac_list1 (macCfg (2 * L + 10) g e) (macPart L an gp) gmac err
  have hl0 : (macTree (macCfg (2 * L + 10) g e) (macPart L an gp) gmac err).links.copen 0 = some 1 := rfl
  have hl1 : (macTree (macCfg (2 * L + 10) g e) (macPart L an gp) gmac err).links.cnext 1 = some 2 := rfl
  have hl2 : (macTree (macCfg (2 * L + 10) g e) (macPart L an gp) gmac err).links.cnext 2 = some 3 := rfl
  have ho1 : (macTree (macCfg (2 * L + 10) g e) (macPart L an gp) gmac err).links.copen 1 = none := rfl
  have hN : (macTree (macCfg (2 * L + 10) g e) (macPart L an gp) gmac err).Ncell = 3 := rfl
  generalize macTree (macCfg (2 * L + 10) g e) (macPart L an gp) gmac err = T at *
  have b0 : ∀ s, T.gravityBody openDom 2 gmac err (T.cell 1) 2 0 s = .open_ s := by
    intro s
    simp only [Tree.gravityBody, openDom_dot]
    rw [if_pos, if_pos]
    · rw [hl0]; simp
    · left
      rw [c1, c2, c3, c4, c5]
      nlinarith
  have b1 : T.gravityBody openDom 2 gmac err (T.cell 1) 2 1 ⟨[], [], []⟩ = .next ⟨[0, 1], [], []⟩ := by
    simp only [Tree.gravityBody, openDom_dot]
    rw [if_pos, if_neg, if_neg, ll1]
    · simp
    · rw [c6]; norm_num
    · rw [ho1]; simp
    · left
      rw [sub_self, zero_pow two_ne_zero]
      exact sq_nonneg _
  have b2 : T.gravityBody openDom 2 gmac err (T.cell 1) 2 2 ⟨[0, 1], [], []⟩ = .next ⟨[0, 1], [], [2]⟩ := by
    simp only [Tree.gravityBody, openDom_dot]
    have eD : ((T.cell 2).rcell 0 - (T.cell 1).rcell 0) ^ 2 = (L + 2) ^ 2 := by
      rw [c7, c3]
      ring
    rw [eD, ho, if_neg, if_neg, if_pos (by rfl), if_neg]
    · simp
    · rw [c10]; simp
    · rw [c10]; norm_num
    · rw [c8, c4, c5, c9, not_or, not_le, not_le]
      constructor <;> nlinarith
  unfold Tree.gravityWalk
  rw [hN, Walk.walk, if_pos (by norm_num), b0, hl0]
  simp only []
  rw [Walk.walk, if_pos (by norm_num), b1, hl1]
  simp only []
  rw [Walk.walk, if_pos (by norm_num), b2, hl2]
  simp only []
  rw [Walk.walk, if_neg (by norm_num)]

end

/-! ### with the true potentials and accelerations -/

/-- potential and acceleration of particle `i` by the other three -/
noncomputable def gpM (L : ℝ) (i : ℕ) : ℝ :=
  pot 0 (masses (macPart L (fun _ => 0) fun _ => 0) ([0, 1, 2, 3].erase i)) ((macPart L (fun _ => 0) fun _ => 0).r i)

noncomputable def anM (L : ℝ) (i : ℕ) : ℝ :=
  |acc 0 (masses (macPart L (fun _ => 0) fun _ => 0) ([0, 1, 2, 3].erase i))
    ((macPart L (fun _ => 0) fun _ => 0).r i) 0|

theorem gdist1 (x y : Vec 1 ℝ) : gdist 0 x y = |x 0 - y 0| := by
  simp [gdist, Real.sqrt_sq_eq_abs]

section
variable {L : ℝ} (hL : 1 ≤ L)
include hL

theorem gpM_zero : gpM L 0 = 1 / (2 * L) + 1 / (2 * L + 1) + 1 / (2 * L + 3) := by
  have e : gpM L 0 = 1 / gdist 0 (fun _ : Fin 1 => -(2 * L)) (fun _ => 0) +
      (1 / gdist 0 (fun _ : Fin 1 => -(2 * L)) (fun _ => 1) +
        (1 / gdist 0 (fun _ : Fin 1 => -(2 * L)) (fun _ => 3) + 0)) := rfl
  rw [e, gdist1, gdist1, gdist1, abs_of_nonpos (by linarith), abs_of_nonpos (by linarith),
    abs_of_nonpos (by linarith)]
  rw [show -(-(2 * L) - 0) = 2 * L by ring, show -(-(2 * L) - 1) = 2 * L + 1 by ring,
    show -(-(2 * L) - 3) = 2 * L + 3 by ring]
  ring

theorem gpM_one : gpM L 1 = 1 / (2 * L) + 4 / 3 := by
  have e : gpM L 1 = 1 / gdist 0 (fun _ : Fin 1 => (0 : ℝ)) (fun _ => -(2 * L)) +
      (1 / gdist 0 (fun _ : Fin 1 => (0 : ℝ)) (fun _ => 1) +
        (1 / gdist 0 (fun _ : Fin 1 => (0 : ℝ)) (fun _ => 3) + 0)) := rfl
  rw [e, gdist1, gdist1, gdist1, abs_of_nonneg (by linarith)]
  norm_num

theorem anM_zero : anM L 0 = 1 / (2 * L) ^ 2 + 1 / (2 * L + 1) ^ 2 + 1 / (2 * L + 3) ^ 2 := by
  have e : anM L 0 = |1 * (0 - -(2 * L)) / gdist 0 (fun _ : Fin 1 => -(2 * L)) (fun _ => 0) ^ 3 +
      (1 * (1 - -(2 * L)) / gdist 0 (fun _ : Fin 1 => -(2 * L)) (fun _ => 1) ^ 3 +
        (1 * (3 - -(2 * L)) / gdist 0 (fun _ : Fin 1 => -(2 * L)) (fun _ => 3) ^ 3 + 0))| := rfl
  rw [e, gdist1, gdist1, gdist1, abs_of_nonpos (by linarith : -(2 * L) - 0 ≤ 0),
    abs_of_nonpos (by linarith : -(2 * L) - 1 ≤ 0), abs_of_nonpos (by linarith : -(2 * L) - 3 ≤ 0)]
  rw [show -(-(2 * L) - 0) = 2 * L by ring, show -(-(2 * L) - 1) = 2 * L + 1 by ring,
    show -(-(2 * L) - 3) = 2 * L + 3 by ring, show 0 - -(2 * L) = 2 * L by ring,
    show 1 - -(2 * L) = 2 * L + 1 by ring, show 3 - -(2 * L) = 2 * L + 3 by ring]
  have h : ∀ a : ℝ, 0 < a → 1 * a / a ^ 3 = 1 / a ^ 2 := fun a ha => by field_simp
  rw [h _ (by linarith), h _ (by linarith), h _ (by linarith), abs_of_nonneg (by positivity)]
  ring

theorem anM_one : anM L 1 = 10 / 9 - 1 / (2 * L) ^ 2 := by
  have e : anM L 1 = |1 * (-(2 * L) - 0) / gdist 0 (fun _ : Fin 1 => (0 : ℝ)) (fun _ => -(2 * L)) ^ 3 +
      (1 * (1 - 0) / gdist 0 (fun _ : Fin 1 => (0 : ℝ)) (fun _ => 1) ^ 3 +
        (1 * (3 - 0) / gdist 0 (fun _ : Fin 1 => (0 : ℝ)) (fun _ => 3) ^ 3 + 0))| := rfl
  have h1 : 1 / (2 * L) ^ 2 ≤ 1 / 4 := by
    rw [div_le_div_iff₀ (by positivity) (by norm_num)]
    nlinarith
  rw [e, gdist1, gdist1, gdist1, abs_of_nonneg (by linarith : (0 : ℝ) ≤ 0 - -(2 * L))]
  have h : 1 * (-(2 * L) - 0) / (0 - -(2 * L)) ^ 3 = -(1 / (2 * L) ^ 2) := by
    have : L ≠ 0 := by linarith
    field_simp
    ring
  rw [h]
  norm_num
  norm_num at h1
  rw [abs_of_nonneg (by linarith)]
  ring

end

end Gandalf.OpenCrit
