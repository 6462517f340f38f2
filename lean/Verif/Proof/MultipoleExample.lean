import Verif.Proof.MultipoleTree
import Verif.Proof.KDStock
import Verif.Spec.Cover

/-! # A tree with two leaves of two particles each -/

set_option autoImplicit false
set_option linter.unusedSectionVars false

namespace Gandalf.Multipole

open KD

/-- the box of particles with known extremes -/
theorem box_of {cfg : Cfg} {P : Parts 1} {l : List ℕ} {c : Props 1} (hS : Summary cfg P l c) {a b : ℕ} (ha : a ∈ l)
    (hb : b ∈ l) (hl : ∀ i ∈ l, P.r a 0 ≤ P.r i 0 ∧ P.r i 0 ≤ P.r b 0) (h1 : P.r a 0 < cfg.big)
    (h2 : -cfg.big < P.r b 0) :
    c.rcell 0 = 1 / 2 * (P.r a 0 + P.r b 0) ∧ c.rmax = 1 / 2 * (P.r b 0 - P.r a 0) := by
  have hN : c.N ≠ 0 := by
    rw [hS.N]
    exact fun h => by simp [List.length_eq_zero_iff.mp h] at ha
  have e1 : c.bbmin 0 = P.r a 0 := by
    have hle := (hS.bb a ha 0).1
    rcases hS.bbminTight 0 with h | ⟨i, hi, h⟩
    · linarith
    · have := (hl i hi).1
      linarith
  have e2 : c.bbmax 0 = P.r b 0 := by
    have hle := (hS.bb b hb 0).2
    rcases hS.bbmaxTight 0 with h | ⟨i, hi, h⟩
    · linarith
    · have := (hl i hi).2
      linarith
  refine ⟨by rw [hS.centre hN, e1, e2], ?_⟩
  have := hS.size hN
  simp only [Fin.sum_univ_one, e1, e2] at this
  have hab := (hl b hb).1
  exact (pow_left_inj₀ hS.rmaxNonneg (by linarith) two_ne_zero).mp this

noncomputable section

/-- four particles on a line, masses 1 -/
def linePart (pos : ℕ → ℝ) (h : ℝ) : Parts 1 where
  r := fun i _ => pos i
  v := fun _ _ => 0
  m := fun _ => 1
  h := fun _ => h
  sound := fun _ => 1
  anorm := fun _ => 0
  gfac := fun _ => 0
  dead := fun _ => false
  active := fun _ => true
  grav := fun _ => true

def lineCfg (big θ : ℝ) : Cfg where
  big := big
  kernrange := 2
  thetamaxsqd := θ ^ 2
  gadget2 := false
  eigenmac := false
  needQuad := true

def blank : Props 1 := ⟨0, 0, 0, 0, 0, 0, 0, 0, 0, fun _ => 0, fun _ => 0, fun _ => 0, fun _ => 0, fun _ => 0,
  fun _ => 0, fun _ => 0, fun _ => 0, fun _ => 0, fun _ => 0⟩

/-- the stocked tree over them: root 0 with the leaves 1 (particles 0, 1) and 2 (particles 2, 3) -/
def lineTree (pos : ℕ → ℝ) (h big θ : ℝ) : Tree 1 where
  links := ⟨fun c => if c = 0 then some 1 else none, fun c => if c = 1 then some 2 else some 3⟩
  Ncell := 3
  Nend := 3
  Nleafmax := 2
  cell := fun c =>
    if c = 1 then stockLeafProps (lineCfg big θ) (linePart pos h) [0, 1] blank
    else if c = 2 then stockLeafProps (lineCfg big θ) (linePart pos h) [2, 3] blank
    else stockInternalProps (lineCfg big θ) (stockLeafProps (lineCfg big θ) (linePart pos h) [0, 1] blank)
      (stockLeafProps (lineCfg big θ) (linePart pos h) [2, 3] blank) blank
  mac := fun _ => 0
  ifirst := fun c => if c = 1 then some 0 else if c = 2 then some 2 else none
  ilast := fun c => if c = 1 then some 1 else if c = 2 then some 3 else none
  inext := fun i => some (i + 1)

end

section
variable (pos : ℕ → ℝ) (h big θ : ℝ)

theorem line_leaf1 : Summary (lineCfg big θ) (linePart pos h) [0, 1] ((lineTree pos h big θ).cell 1) :=
  stockLeaf_summary _ _ _ _ (by simp [linePart])

theorem line_leaf2 : Summary (lineCfg big θ) (linePart pos h) [2, 3] ((lineTree pos h big θ).cell 2) :=
  stockLeaf_summary _ _ _ _ (by simp [linePart])

theorem line_root : Summary (lineCfg big θ) (linePart pos h) [0, 1, 2, 3] ((lineTree pos h big θ).cell 0) :=
  stockInternal_summary _ _ [0, 1] [2, 3] _ _ _ (by simp [linePart]) (line_leaf1 pos h big θ) (line_leaf2 pos h big θ)

theorem line_list1 : (lineTree pos h big θ).leafList 2 1 = some [0, 1] := by
  simp [Tree.leafList, lineTree, LeafList.traverse]

theorem line_list2 : (lineTree pos h big θ).leafList 2 2 = some [2, 3] := by
  simp [Tree.leafList, lineTree, LeafList.traverse]

theorem lineTree_ok_of (M : ℕ) (hM : 2 ≤ M) : ({ lineTree pos h big θ with Nleafmax := M } : Tree 1).OK
    (lineCfg big θ) (linePart pos h) 2 (.cons 0 (.cons 1 .nil (.cons 2 .nil .nil)) .nil) [0, 1, 2, 3] where
  linked := by simp [Forest.Linked, Forest.entry, lineTree]
  root := rfl
  ends := le_rfl
  cells := by simp [Forest.cells, lineTree]
  covers := by
    refine ⟨[0, 1, 2, 3], [], rfl, ⟨line_root pos h big θ, by simp [lineTree]⟩, by simp, fun _ => ?_, rfl⟩
    refine ⟨[0, 1], [2, 3], rfl, ⟨line_leaf1 pos h big θ, by simpa [lineTree] using hM⟩,
      fun _ => line_list1 pos h big θ, by simp, ?_⟩
    exact ⟨[2, 3], [], rfl, ⟨line_leaf2 pos h big θ, by simpa [lineTree] using hM⟩,
      fun _ => line_list2 pos h big θ, by simp, rfl⟩
  nodup := by decide

theorem lineTree_ok : (lineTree pos h big θ).OK (lineCfg big θ) (linePart pos h) 2
    (.cons 0 (.cons 1 .nil (.cons 2 .nil .nil)) .nil) [0, 1, 2, 3] := lineTree_ok_of pos h big θ 2 le_rfl

end

end Gandalf.Multipole
