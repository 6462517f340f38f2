import Verif.Proof.Signal
import Mathlib.Tactic.FinCases

/-! Lemmas and small trees for C84. -/

set_option autoImplicit false

noncomputable section

namespace Gandalf.Signal
open Walk KD SignalSpec

variable {n : ℕ}

theorem covers_mono {leaf : ℕ → Option (List ℕ)} {Q Q' : ℕ → List ℕ → Prop} (hQ : ∀ c l, Q c l → Q' c l) :
    ∀ {f : Forest} {l : List ℕ}, f.Covers leaf Q l → f.Covers leaf Q' l := by
  intro f
  induction f with
  | nil => intro l h; exact h
  | cons c ch rest h1 h2 =>
    rintro l ⟨l1, l2, e, q, a, b, d⟩
    exact ⟨l1, l2, e, hQ _ _ q, a, fun h => h1 (b h), h2 d⟩

theorem asks_open (P : Parts n) (big : ℝ) (b : Bool) (j i : ℕ) (x : ℝ) : Asks 0 P (openSetup P 0 big b).img j i x ↔
    P.r j ≠ P.r i ∧ x = closing P i j * P.h j / max (distance (P.r j) (P.r i)) (P.h j) := by
  unfold Asks openSetup
  constructor
  · rintro ⟨g, hg, hp, rfl⟩
    rw [List.mem_singleton] at hg
    subst hg
    exact ⟨(dot_pos _ _).1 hp, term_eq P j i⟩
  · rintro ⟨hne, rfl⟩
    exact ⟨_, List.mem_singleton_self _, (dot_pos _ _).2 hne, (term_eq P j i).symm⟩

/-- a cell with a particle inside the active cell overlaps it -/
theorem opens_of_inside {P : Parts n} {l' : List ℕ} {A O : Props n} (hO : Bounds P l' O) {i : ℕ} (hi : i ∈ l') {small dt : ℝ}
    (hin : ∀ k, A.bbmin k < P.r i k ∧ P.r i k < A.bbmax k) : opens small id dt A O := by
  left
  intro k
  obtain ⟨a, b⟩ := hin k
  obtain ⟨c, d⟩ := hO.bb i hi k
  unfold sepCells width
  rw [abs_lt]
  constructor <;> simp only [id] <;> linarith

/-! ### trees of two leaves -/

/-- a cell with the given bounds -/
def boxProps (N : ℕ) (sound : ℝ) (bbmin bbmax vmin vmax : Vec n ℝ) : Props n :=
  ⟨N, 0, 0, 0, 0, 0, sound, 0, 0, fun _ => 0, fun _ => 0, fun _ => 0, fun k => 1 / 2 * (bbmin k + bbmax k), bbmin, bbmax, bbmin, bbmax, vmin, vmax⟩

/-- particle 0 in leaf 1, particles 1 … m in leaf 2 -/
def pairTree (m : ℕ) (R A B : Props n) : Tree n where
  links := ⟨fun c => if c = 0 then some 1 else none, fun c => if c = 1 then some 2 else some 3⟩
  Ncell := 3
  Nend := 3
  Nleafmax := m
  cell := fun c => if c = 0 then R else if c = 1 then A else B
  mac := fun _ => 0
  ifirst := fun c => if c = 2 then some 1 else some 0
  ilast := fun c => if c = 1 then some 0 else some m
  inext := fun i => some (i + 1)

def pairForest : Forest := .cons 0 (.cons 1 .nil (.cons 2 .nil .nil)) .nil

/-- particles of unit smoothing length -/
def parts (r v : List (Vec n ℝ)) (sound : ℕ → ℝ) : Parts n :=
  ⟨fun i => r.getD i 0, fun i => v.getD i 0, fun _ => 1, fun _ => 1, sound, fun _ => 0, fun _ => 0, fun _ => false, fun _ => true,
    fun _ => true⟩

theorem pair_tree {m pfuel : ℕ} {R A B : Props n} {P : Parts n} {l : List ℕ} (hR : Bounds P (0 :: l) R) (hA : Bounds P [0] A) (hB : Bounds P l B)
    (h1 : (pairTree m R A B).leafList pfuel 1 = some [0]) (h2 : (pairTree m R A B).leafList pfuel 2 = some l) :
    BoundTree (pairTree m R A B) P pfuel pairForest (0 :: l) := by
  refine ⟨?_, rfl, le_rfl, ?_, ?_⟩
  · simp [pairForest, Forest.Linked, pairTree, Forest.entry]
  · simp [pairForest, Forest.cells, pairTree]
  · refine ⟨0 :: l, [], by simp, hR, (fun h => by cases h), fun _ => ?_, rfl⟩
    refine ⟨[0], l, rfl, hA, fun _ => h1, fun h => absurd rfl h, ?_⟩
    exact ⟨l, [], by simp, hB, fun _ => h2, fun h => absurd rfl h, rfl⟩

theorem pair_walk {m pfuel : ℕ} {R A B : Props n} {P : Parts n} {l : List ℕ} {S : Setup n} {vs : ℕ → ℝ}
    (hT : BoundTree (pairTree m R A B) P pfuel pairForest (0 :: l)) (hS : S.pruned = false)
    (h1 : (pairTree m R A B).leafList pfuel 1 = some [0])
    (hB : ¬opens S.small S.near (dtMin S.big P [0] vs) A B) (hself : visit S.small P S.img [0] vs 0 = vs) :
    signalWalk S (pairTree m R A B) P pfuel A [0] vs 3 = .done vs := by
  rw [walk_fold S A [0] hT vs 3 (by simp [pairForest, Forest.cells])]
  have b2 : body S (pairTree m R A B) P pfuel A [0] 2 vs = .next vs := by
    unfold body
    rw [if_neg]
    exact hB
  have b1 : body S (pairTree m R A B) P pfuel A [0] 1 vs = .next vs := by
    unfold body
    rw [h1, hS]
    simp only [List.foldl_cons, List.foldl_nil, hself]
    split_ifs with q1 q2
    · exact absurd q2 (by simp [pairTree])
    all_goals first | rfl | contradiction
  have hf : pairForest.fold (body S (pairTree m R A B) P pfuel A [0]) vs = some vs := by
    unfold pairForest
    by_cases hR : opens S.small S.near (dtMin S.big P [0] vs) A R
    · have b0 : body S (pairTree m R A B) P pfuel A [0] 0 vs = .open_ vs := by
        unfold body
        rw [if_pos (show opens S.small S.near (dtMin S.big P [0] vs) A ((pairTree m R A B).cell 0) from hR), if_pos (by simp [pairTree])]
      simp [Forest.fold, b0, b1, b2]
    · have b0 : body S (pairTree m R A B) P pfuel A [0] 0 vs = .next vs := by
        unfold body
        rw [if_neg]
        exact hR
      simp [Forest.fold, b0]
  rw [hf]

theorem open_self (small big : ℝ) (P : Parts n) (vs : ℕ → ℝ) : visit small P (openSetup P small big false).img [0] vs 0 = vs := by
  unfold visit openSetup
  simp [touch, dot]

theorem dtMin_one (big : ℝ) (P : Parts n) (vs : ℕ → ℝ) (h : 0 < vs 0) (hh : 0 ≤ P.h 0) : dtMin big P [0] vs = P.h 0 / vs 0 := by
  simp only [dtMin, List.foldl_cons, List.foldl_nil, if_pos h]
  exact max_eq_right (by positivity)

/-! two particles on a line -/

theorem line_cell : Bounds (parts [![0], ![5]] [![0], ![-3]] (fun _ => 1)) [0] (boxProps 1 1 ![0] ![0] ![0] ![0]) :=
  ⟨rfl, by simp [parts, boxProps], by simp [parts, boxProps], by simp [parts, boxProps]⟩

theorem line_tree : BoundTree (pairTree 1 (boxProps 2 1 ![0] ![5] ![-3] ![0]) (boxProps 1 1 ![0] ![0] ![0] ![0]) (boxProps 1 1 ![5] ![5] ![-3] ![-3]))
    (parts [![0], ![5]] [![0], ![-3]] (fun _ => 1)) 2 pairForest [0, 1] :=
  pair_tree ⟨rfl, by simp [parts, boxProps], by simp [parts, boxProps], by simp [parts, boxProps]⟩ line_cell
    ⟨rfl, by simp [parts, boxProps], by simp [parts, boxProps], by simp [parts, boxProps]⟩ rfl rfl

/-! cells beside each other -/

def besideParts : Parts 2 := parts [![0, 4], ![3, 0], ![3, 4], ![3, 8]] [] (fun i => if i = 0 then 1 else 10)

def beside : Tree 2 := pairTree 3 (boxProps 4 10 ![0, 0] ![3, 8] ![0, 0] ![0, 0]) (boxProps 1 1 ![0, 4] ![0, 4] ![0, 0] ![0, 0])
  (boxProps 3 10 ![3, 0] ![3, 8] ![0, 0] ![0, 0])

theorem beside_cell : Bounds besideParts [0] (beside.cell 1) :=
  ⟨rfl, by simp [besideParts, parts, boxProps, beside, pairTree], by simp [besideParts, parts, boxProps, beside, pairTree],
    by simp [besideParts, parts, boxProps, beside, pairTree]⟩

theorem beside_tree : BoundTree beside besideParts 4 pairForest [0, 1, 2, 3] :=
  pair_tree ⟨rfl, by simp [besideParts, parts, boxProps, Fin.forall_fin_two]; norm_num, by simp [besideParts, parts, boxProps],
      by simp [besideParts, parts, boxProps]⟩ beside_cell
    ⟨rfl, by simp [besideParts, parts, boxProps, Fin.forall_fin_two]; norm_num, by simp [besideParts, parts, boxProps],
      by simp [besideParts, parts, boxProps]⟩ rfl rfl

theorem beside_walk (small big : ℝ) :
    signalWalk (openSetup besideParts small big false) beside besideParts 4 (beside.cell 1) [0] (fun _ => 5 / 2) 3 = .done (fun _ => 5 / 2) := by
  refine pair_walk beside_tree rfl rfl ?_ (open_self small big besideParts _)
  rw [dtMin_one _ _ _ (by norm_num) (by simp [besideParts, parts])]
  have hr : rmin id (boxProps 1 1 ![0, 4] ![0, 4] ![0, 0] ![0, 0]) (boxProps 3 10 ![3, 0] ![3, 8] ![0, 0] ![0, 0] : Props 2) = 5 := by
    unfold rmin
    rw [show (dot (gapVec id (boxProps 1 1 ![0, 4] ![0, 4] ![0, 0] ![0, 0]) (boxProps 3 10 ![3, 0] ![3, 8] ![0, 0] ![0, 0] : Props 2))
      (gapVec id (boxProps 1 1 ![0, 4] ![0, 4] ![0, 0] ![0, 0]) (boxProps 3 10 ![3, 0] ![3, 8] ![0, 0] ![0, 0])) : ℝ) = 5 ^ 2 by
        norm_num [dot, gapVec, sepCells, width, boxProps, Fin.sum_univ_two], Real.sqrt_sq (by norm_num)]
  have hv : dot (gapVec id (boxProps 1 1 ![0, 4] ![0, 4] ![0, 0] ![0, 0]) (boxProps 3 10 ![3, 0] ![3, 8] ![0, 0] ![0, 0] : Props 2))
      (gapVel id (boxProps 1 1 ![0, 4] ![0, 4] ![0, 0] ![0, 0]) (boxProps 3 10 ![3, 0] ![3, 8] ![0, 0] ![0, 0])) = 0 := by
    norm_num [dot, gapVel, boxProps, Fin.sum_univ_two]
  rintro (h | h)
  · have := h 0
    norm_num [openSetup, sepCells, width, boxProps] at this
  · change rmin id _ _ < _ * cellSignal small id _ _ at h
    unfold cellSignal at h
    rw [hr, hv] at h
    norm_num [boxProps, besideParts, parts] at h

/-! oblique motion -/

def obliqueParts : Parts 2 := parts [![0, 0], ![6, 0], ![6, 8]] [![0, 0], ![0, -20], ![0, -20]] (fun _ => 1)

def oblique : Tree 2 := pairTree 2 (boxProps 3 1 ![0, 0] ![6, 8] ![0, -20] ![0, 0]) (boxProps 1 1 ![0, 0] ![0, 0] ![0, 0] ![0, 0])
  (boxProps 2 1 ![6, 0] ![6, 8] ![0, -20] ![0, -20])

theorem oblique_cell : Bounds obliqueParts [0] (oblique.cell 1) :=
  ⟨rfl, by simp [obliqueParts, parts, boxProps, oblique, pairTree], by simp [obliqueParts, parts, boxProps, oblique, pairTree],
    by simp [obliqueParts, parts, boxProps, oblique, pairTree]⟩

theorem oblique_tree : BoundTree oblique obliqueParts 3 pairForest [0, 1, 2] :=
  pair_tree ⟨rfl, by simp [obliqueParts, parts, boxProps, Fin.forall_fin_two], by simp [obliqueParts, parts, boxProps, Fin.forall_fin_two],
      by simp [obliqueParts, parts, boxProps]⟩ oblique_cell
    ⟨rfl, by simp [obliqueParts, parts, boxProps, Fin.forall_fin_two], by simp [obliqueParts, parts, boxProps, Fin.forall_fin_two],
      by simp [obliqueParts, parts, boxProps]⟩ rfl rfl

theorem oblique_walk (small big : ℝ) :
    signalWalk (openSetup obliqueParts small big false) oblique obliqueParts 3 (oblique.cell 1) [0] (fun _ => 3 / 2) 3 = .done (fun _ => 3 / 2) := by
  refine pair_walk oblique_tree rfl rfl ?_ (open_self small big obliqueParts _)
  rw [dtMin_one _ _ _ (by norm_num) (by simp [obliqueParts, parts])]
  have hr : rmin id (boxProps 1 1 ![0, 0] ![0, 0] ![0, 0] ![0, 0]) (boxProps 2 1 ![6, 0] ![6, 8] ![0, -20] ![0, -20] : Props 2) = 6 := by
    unfold rmin
    rw [show (dot (gapVec id (boxProps 1 1 ![0, 0] ![0, 0] ![0, 0] ![0, 0]) (boxProps 2 1 ![6, 0] ![6, 8] ![0, -20] ![0, -20] : Props 2))
      (gapVec id (boxProps 1 1 ![0, 0] ![0, 0] ![0, 0] ![0, 0]) (boxProps 2 1 ![6, 0] ![6, 8] ![0, -20] ![0, -20])) : ℝ) = 6 ^ 2 by
        norm_num [dot, gapVec, sepCells, width, boxProps, Fin.sum_univ_two], Real.sqrt_sq (by norm_num)]
  have hv : dot (gapVec id (boxProps 1 1 ![0, 0] ![0, 0] ![0, 0] ![0, 0]) (boxProps 2 1 ![6, 0] ![6, 8] ![0, -20] ![0, -20] : Props 2))
      (gapVel id (boxProps 1 1 ![0, 0] ![0, 0] ![0, 0] ![0, 0]) (boxProps 2 1 ![6, 0] ![6, 8] ![0, -20] ![0, -20])) = 0 := by
    norm_num [dot, gapVel, gapVec, sepCells, width, boxProps, Fin.sum_univ_two]
  rintro (h | h)
  · have := h 0
    norm_num [openSetup, sepCells, width, boxProps] at this
  · change rmin id _ _ < _ * cellSignal small id _ _ at h
    unfold cellSignal at h
    rw [hr, hv] at h
    norm_num [boxProps, obliqueParts, parts] at h

/-! a periodic line of length 10 -/

def ring10 : Domain 1 ℝ := ⟨![0], ![10], fun _ => .periodic, fun _ => .periodic, ![10], ![5]⟩

def aroundParts : Parts 1 := parts [![1], ![5], ![34 / 5]] [![0], ![20], ![20]] (fun _ => 1)

def around : Tree 1 := pairTree 2 (boxProps 3 1 ![1] ![34 / 5] ![0] ![20]) (boxProps 1 1 ![1] ![1] ![0] ![0])
  (boxProps 2 1 ![5] ![34 / 5] ![20] ![20])

theorem around_cell : Bounds aroundParts [0] (around.cell 1) :=
  ⟨rfl, by simp [aroundParts, parts, boxProps, around, pairTree], by simp [aroundParts, parts, boxProps, around, pairTree],
    by simp [aroundParts, parts, boxProps, around, pairTree]⟩

theorem around_tree : BoundTree around aroundParts 3 pairForest [0, 1, 2] :=
  pair_tree ⟨rfl, by simp [aroundParts, parts, boxProps]; norm_num, by simp [aroundParts, parts, boxProps],
      by simp [aroundParts, parts, boxProps]⟩ around_cell
    ⟨rfl, by simp [aroundParts, parts, boxProps]; norm_num, by simp [aroundParts, parts, boxProps],
      by simp [aroundParts, parts, boxProps]⟩ rfl rfl

theorem ring10_near (x : Vec 1 ℝ) (h : |x 0| ≤ 5) : ghostNearest ring10 x = x := by
  obtain ⟨a, b⟩ := abs_le.1 h
  funext k
  obtain rfl : k = 0 := Subsingleton.elim _ _
  have h1 : ¬ (x 0 > ring10.half 0) := by simp [ring10]; linarith
  have h2 : ¬ (x 0 < -ring10.half 0) := by simp [ring10]; linarith
  unfold ghostNearest
  split_ifs
  · simp only [h1, h2, if_false, ite_self]
  · rfl

theorem around_walk (small big : ℝ) (hsm : 0 ≤ small) :
    signalWalk (boxSetup ring10 (around.cell 1) aroundParts small big false) around aroundParts 3 (around.cell 1) [0] (fun _ => 3 / 2) 3 =
      .done (fun _ => 3 / 2) := by
  refine pair_walk around_tree rfl rfl ?_ ?_
  · rw [dtMin_one _ _ _ (by norm_num) (by simp [aroundParts, parts])]
    have hs : sepCells (ghostNearest ring10) (boxProps 1 1 ![1] ![1] ![0] ![0]) (boxProps 2 1 ![5] ![34 / 5] ![20] ![20] : Props 1) = fun _ => 49 / 10 := by
      unfold sepCells
      rw [ring10_near]
      · funext k
        obtain rfl : k = 0 := Subsingleton.elim _ _
        norm_num [boxProps]
      · norm_num [boxProps]
    have hg : gapVec (ghostNearest ring10) (boxProps 1 1 ![1] ![1] ![0] ![0]) (boxProps 2 1 ![5] ![34 / 5] ![20] ![20] : Props 1) = fun _ => 4 := by
      funext k
      obtain rfl : k = 0 := Subsingleton.elim _ _
      rw [gapVec, hs]
      norm_num [width, boxProps]
    have hv : gapVel (ghostNearest ring10) (boxProps 1 1 ![1] ![1] ![0] ![0]) (boxProps 2 1 ![5] ![34 / 5] ![20] ![20] : Props 1) = fun _ => 20 := by
      funext k
      obtain rfl : k = 0 := Subsingleton.elim _ _
      rw [gapVel, hs]
      norm_num [boxProps]
    have hr : rmin (ghostNearest ring10) (boxProps 1 1 ![1] ![1] ![0] ![0]) (boxProps 2 1 ![5] ![34 / 5] ![20] ![20] : Props 1) = 4 := by
      unfold rmin
      rw [hg, show (dot (fun _ : Fin 1 => (4 : ℝ)) fun _ => 4) = 4 ^ 2 by norm_num [dot], Real.sqrt_sq (by norm_num)]
    rintro (h | h)
    · have := h 0
      change |sepCells (ghostNearest ring10) _ _ 0| < _ at this
      rw [hs] at this
      norm_num [width, boxProps] at this
    · change rmin (ghostNearest ring10) _ _ < _ * cellSignal small (ghostNearest ring10) _ _ at h
      unfold cellSignal at h
      rw [hr, hg, hv] at h
      have h1 : (dot (fun _ : Fin 1 => (4 : ℝ)) fun _ => 20) = 80 := by norm_num [dot]
      rw [h1] at h
      have h2 : 0 ≤ 80 / (4 + small) := by positivity
      norm_num [boxProps, aroundParts, parts] at h
      linarith
  · have h1 : (fun k => aroundParts.r 0 k - (around.cell 1).rcell k) = fun _ => 0 := by
      funext k
      obtain rfl : k = 0 := Subsingleton.elim _ _
      norm_num [aroundParts, parts, around, pairTree, boxProps]
    have h2 : ∀ k, (around.cell 1).rcell k = aroundParts.r 0 k := fun k => by
      have := congrFun h1 k
      linarith
    unfold visit boxSetup
    simp only [List.foldl_cons, List.foldl_nil]
    rw [h1, ring10_near _ (by simp)]
    unfold touch
    rw [if_neg]
    simp [dot, h2]

end Gandalf.Signal
