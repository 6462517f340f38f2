import Verif.Model.MpiDomains
import Verif.Spec.MpiDomains
import Verif.Spec.KDLayout
import Verif.Proof.KDStructure
import Verif.Proof.TreeSearch
import Mathlib.Algebra.Order.Field.Basic
import Mathlib.Tactic.Linarith
import Mathlib.Tactic.FieldSimp

/-!
# Helper lemmas for the domain decomposition (C42)
-/

set_option autoImplicit false
set_option linter.unusedSectionVars false

namespace Gandalf.Mpi

open KD

variable {n : ℕ} {α : Type*}

/-- `Q c e` for every cell `c` with children of the complete subtree of depth `d` at cell `c0`; the
subtrees of the children of `c` have depth `e`. -/
def Nodes : (d c : ℕ) → (ℕ → ℕ → Prop) → Prop
  | 0, _, _ => True
  | d + 1, c, Q => Q c d ∧ Nodes d (c + 1) Q ∧ Nodes d (c + 1 + fullSize d) Q

theorem fullSize_pos (d : ℕ) : 0 < fullSize d := by
  have := fullSize_add_one d
  have h2 : 2 ≤ 2 ^ (d + 1) := by
    calc 2 = 2 ^ 1 := rfl
      _ ≤ 2 ^ (d + 1) := Nat.pow_le_pow_right (by omega) (by omega)
  omega

theorem Nodes.of_forall {Q : ℕ → ℕ → Prop} : ∀ (d c : ℕ),
    (∀ c' e, c ≤ c' → c' + fullSize (e + 1) ≤ c + fullSize d → e < d → Q c' e) → Nodes d c Q := by
  intro d
  induction d with
  | zero => intro c _; trivial
  | succ d ih =>
    intro c h
    have := fullSize_succ d
    have := fullSize_pos d
    exact ⟨h c d le_rfl (by omega) (by omega),
      ih (c + 1) fun c' e h1 h2 h3 => h c' e (by omega) (by omega) (by omega),
      ih _ fun c' e h1 h2 h3 => h c' e (by omega) (by omega) (by omega)⟩

/-- Combination of two statements about the same cells. -/
theorem Nodes.map₂ {Q R S : ℕ → ℕ → Prop} : ∀ (d c : ℕ),
    (∀ c' e, c ≤ c' → c' + fullSize (e + 1) ≤ c + fullSize d → e < d → Q c' e → R c' e → S c' e) →
    Nodes d c Q → Nodes d c R → Nodes d c S := by
  intro d
  induction d with
  | zero => intro c _ _ _; trivial
  | succ d ih =>
    intro c h hq hr
    have := fullSize_succ d
    have := fullSize_pos d
    exact ⟨h c d le_rfl (by omega) (by omega) hq.1 hr.1,
      ih (c + 1) (fun c' e h1 h2 h3 => h c' e (by omega) (by omega) (by omega)) hq.2.1 hr.2.1,
      ih _ (fun c' e h1 h2 h3 => h c' e (by omega) (by omega) (by omega)) hq.2.2 hr.2.2⟩

theorem Nodes.map {Q S : ℕ → ℕ → Prop} (d c : ℕ)
    (h : ∀ c' e, c ≤ c' → c' + fullSize (e + 1) ≤ c + fullSize d → e < d → Q c' e → S c' e)
    (hq : Nodes d c Q) : Nodes d c S :=
  Nodes.map₂ d c (fun c' e h1 h2 h3 q _ => h c' e h1 h2 h3 q) hq hq

/-- Levels and second children of the cells with children. -/
theorem LaidOut.nodes {t : Links} {L : ℕ} : ∀ (d c g : ℕ), LaidOut t L d c g →
    Nodes d c fun c e => t.level c + (e + 1) = L ∧ t.c2 c = some (c + 1 + fullSize e) := by
  intro d
  induction d with
  | zero => intro c g _; trivial
  | succ d ih =>
    intro c g h
    obtain ⟨h1, -, -, h4, -, h6, h7⟩ := h
    exact ⟨⟨h1, h4⟩, ih _ _ h6, ih _ _ h7⟩

/-- The boxes of the children of `c` follow from the division of `c`. -/
def ConsistentAt (D : Division n α) (c e : ℕ) : Prop :=
  D.box (c + 1) = leftBox (D.box c) (D.k c) (D.r c) ∧
  D.box (c + 1 + fullSize e) = rightBox (D.box c) (D.k c) (D.r c)

theorem updLoop_add (t : Links) (L : ℕ) : ∀ (a b c : ℕ) (D : Division n α),
    updLoop t L (a + b) c D = (updLoop t L a c D).bind (updLoop t L b (c + a)) := by
  intro a
  induction a with
  | zero => intro b c D; simp [updLoop]
  | succ a ih =>
    intro b c D
    rw [show a + 1 + b = (a + b) + 1 by omega]
    simp only [updLoop]
    cases updStep t L D c with
    | none => rfl
    | some D1 =>
      simp only [Option.bind_some]
      rw [ih b (c + 1) D1, show c + 1 + a = c + (a + 1) by omega]

theorem updLoop_spec (t : Links) (L : ℕ) : ∀ (d c g : ℕ), LaidOut t L d c g →
    ∀ D : Division n α, ∃ D', updLoop t L (fullSize d) c D = some D' ∧ D'.k = D.k ∧ D'.r = D.r ∧
      Nodes d c (ConsistentAt D') ∧ ∀ i, i ≤ c ∨ c + fullSize d ≤ i → D'.box i = D.box i := by
  intro d
  induction d with
  | zero =>
    intro c g h D
    refine ⟨D, ?_, rfl, rfl, trivial, fun _ _ => rfl⟩
    rw [fullSize_zero]
    simp [updLoop, updStep, h.1]
  | succ d ih =>
    intro c g h D
    obtain ⟨h1, -, -, h4, -, h6, h7⟩ := h
    have hf := fullSize_succ d
    have hp := fullSize_pos d
    have hlev : t.level c ≠ L := by omega
    set D1 : Division n α := { D with
      box := Function.update (Function.update D.box (c + 1) (leftBox (D.box c) (D.k c) (D.r c)))
        (c + 1 + fullSize d) (rightBox (D.box c) (D.k c) (D.r c)) } with hD1
    have hs : updStep t L D c = some D1 := by
      unfold updStep
      rw [if_neg hlev, h4, Option.map_some]
      have hc : Function.update D.box (c + 1) (leftBox (D.box c) (D.k c) (D.r c)) c = D.box c :=
        Function.update_of_ne (by omega) _ _
      simp only [hc, hD1]
    obtain ⟨D2, e2, k2, r2, n2, o2⟩ := ih (c + 1) g h6 D1
    obtain ⟨D3, e3, k3, r3, n3, o3⟩ := ih (c + 1 + fullSize d) (g + 2 ^ d) h7 D2
    have hk : D3.k = D.k := by rw [k3, k2]
    have hr : D3.r = D.r := by rw [r3, r2]
    have b0 : D3.box c = D.box c := by
      rw [o3 c (by omega), o2 c (by omega)]
      simp only [hD1]
      rw [Function.update_of_ne (by omega), Function.update_of_ne (by omega)]
    have b1 : D3.box (c + 1) = leftBox (D.box c) (D.k c) (D.r c) := by
      rw [o3 (c + 1) (by omega), o2 (c + 1) (by omega)]
      simp only [hD1]
      rw [Function.update_of_ne (by omega), Function.update_self]
    have b2 : D3.box (c + 1 + fullSize d) = rightBox (D.box c) (D.k c) (D.r c) := by
      rw [o3 _ (by omega), o2 _ (by omega)]
      simp only [hD1]
      rw [Function.update_self]
    refine ⟨D3, ?_, hk, hr, ⟨⟨?_, ?_⟩, ?_, n3⟩, ?_⟩
    · rw [hf, show 1 + fullSize d + fullSize d = (fullSize d + fullSize d) + 1 by omega]
      simp only [updLoop]
      rw [hs, Option.bind_some, updLoop_add, e2, Option.bind_some, e3]
    · rw [b1, b0, hk, hr]
    · rw [b2, b0, hk, hr]
    · refine Nodes.map d (c + 1) ?_ n2
      intro c' e l1 l2 l3 hc
      unfold ConsistentAt at hc ⊢
      have x : ∀ i, i ≤ c + 1 + fullSize d → D3.box i = D2.box i := fun i hi => o3 i (Or.inl hi)
      have hfe := fullSize_succ e
      rw [x _ (by omega), x _ (by omega), x _ (by omega), k3, r3]
      exact hc
    · intro i hi
      rw [o3 i (by omega), o2 i (by omega)]
      simp only [hD1]
      rw [Function.update_of_ne (by omega), Function.update_of_ne (by omega)]

/-- `UpdateBoundingBoxes` on a table of links made by `CreateTreeStructure`. -/
theorem updateBoundingBoxes_spec {t : Links} {L : ℕ} (hlo : LaidOut t L L 0 0) (D : Division n α) :
    ∃ D', updateBoundingBoxes t L D = some D' ∧ D'.k = D.k ∧ D'.r = D.r ∧
      Nodes L 0 (ConsistentAt D') ∧ D'.box 0 = D.box 0 := by
  obtain ⟨D', h1, h2, h3, h4, h5⟩ := updLoop_spec t L L 0 0 hlo D
  refine ⟨D', ?_, h2, h3, h4, h5 0 (Or.inl le_rfl)⟩
  unfold updateBoundingBoxes
  rw [ncellOf_eq]
  exact h1

section order
variable [LinearOrder α]

theorem left_holds {b : Box n α} {k : Fin n} {r : α} {x : Vec n α} (hb : b.Holds x) (h : x k < r) :
    (leftBox b k r).Holds x := by
  intro j
  refine ⟨(hb j).1, ?_⟩
  unfold leftBox
  by_cases hj : j = k
  · subst hj; simpa using h
  · simpa [hj] using (hb j).2

theorem right_holds {b : Box n α} {k : Fin n} {r : α} {x : Vec n α} (hb : b.Holds x) (h : r ≤ x k) :
    (rightBox b k r).Holds x := by
  intro j
  refine ⟨?_, (hb j).2⟩
  unfold rightBox
  by_cases hj : j = k
  · subst hj; simpa using h
  · simpa [hj] using (hb j).1

theorem of_left_holds {b : Box n α} {k : Fin n} {r : α} {x : Vec n α} (hr : r ≤ b.max k)
    (h : (leftBox b k r).Holds x) : b.Holds x ∧ x k < r := by
  have hk := (h k).2
  simp only [leftBox, Function.update_self] at hk
  refine ⟨fun j => ⟨(h j).1, ?_⟩, hk⟩
  by_cases hj : j = k
  · subst hj; exact lt_of_lt_of_le hk hr
  · have := (h j).2
    simpa [leftBox, hj] using this

theorem of_right_holds {b : Box n α} {k : Fin n} {r : α} {x : Vec n α} (hr : b.min k ≤ r)
    (h : (rightBox b k r).Holds x) : b.Holds x ∧ r ≤ x k := by
  have hk := (h k).1
  simp only [rightBox, Function.update_self] at hk
  refine ⟨fun j => ⟨?_, (h j).2⟩, hk⟩
  by_cases hj : j = k
  · subst hj; exact le_trans hr hk
  · have := (h j).1
    simpa [rightBox, hj] using this

/-- The division of cell `c` lies in its box. -/
def WithinAt (D : Division n α) (c : ℕ) : Prop :=
  (D.box c).min (D.k c) ≤ D.r c ∧ D.r c ≤ (D.box c).max (D.k c)

/-- The division of cell `c` lies inside its box, not on a face. -/
def StrictAt (D : Division n α) (c : ℕ) : Prop :=
  (D.box c).min (D.k c) < D.r c ∧ D.r c < (D.box c).max (D.k c)

theorem leaves_cover {t : Links} {L : ℕ} {D : Division n α} {x : Vec n α} : ∀ (d c g : ℕ),
    LaidOut t L d c g → Nodes d c (ConsistentAt D) → (D.box c).Holds x →
    ∃ j, g ≤ j ∧ j < g + 2 ^ d ∧ (D.box (t.g2c j)).Holds x := by
  intro d
  induction d with
  | zero =>
    intro c g h _ hx
    refine ⟨g, le_rfl, by simp, ?_⟩
    rw [h.2.2.2.2.2.2]
    exact hx
  | succ d ih =>
    intro c g h hn hx
    obtain ⟨-, -, -, -, -, h6, h7⟩ := h
    obtain ⟨⟨c1, c2⟩, n1, n2⟩ := hn
    have hpow : 2 ^ (d + 1) = 2 ^ d + 2 ^ d := by ring
    rcases lt_or_ge (x (D.k c)) (D.r c) with hlt | hge
    · obtain ⟨j, j1, j2, j3⟩ := ih _ _ h6 n1 (by rw [c1]; exact left_holds hx hlt)
      exact ⟨j, j1, by omega, j3⟩
    · obtain ⟨j, j1, j2, j3⟩ := ih _ _ h7 n2 (by rw [c2]; exact right_holds hx hge)
      exact ⟨j, by omega, by omega, j3⟩

theorem leaves_inside {t : Links} {L : ℕ} {D : Division n α} {x : Vec n α} : ∀ (d c g : ℕ),
    LaidOut t L d c g → Nodes d c (ConsistentAt D) → Nodes d c (fun c _ => WithinAt D c) →
    ∀ j, g ≤ j → j < g + 2 ^ d → (D.box (t.g2c j)).Holds x → (D.box c).Holds x := by
  intro d
  induction d with
  | zero =>
    intro c g h _ _ j j1 j2 hx
    have : j = g := by simp at j2; omega
    subst this
    rw [h.2.2.2.2.2.2] at hx
    exact hx
  | succ d ih =>
    intro c g h hn hw j j1 j2 hx
    obtain ⟨-, -, -, -, -, h6, h7⟩ := h
    obtain ⟨⟨c1, c2⟩, n1, n2⟩ := hn
    obtain ⟨⟨wa, wb⟩, w1, w2⟩ := hw
    have hpow : 2 ^ (d + 1) = 2 ^ d + 2 ^ d := by ring
    by_cases hj : j < g + 2 ^ d
    · have := ih _ _ h6 n1 w1 j j1 hj hx
      rw [c1] at this
      exact (of_left_holds wb this).1
    · have := ih _ _ h7 n2 w2 j (by omega) (by omega) hx
      rw [c2] at this
      exact (of_right_holds wa this).1

theorem leaves_disjoint {t : Links} {L : ℕ} {D : Division n α} {x : Vec n α} : ∀ (d c g : ℕ),
    LaidOut t L d c g → Nodes d c (ConsistentAt D) → Nodes d c (fun c _ => WithinAt D c) →
    ∀ i j, g ≤ i → i < j → j < g + 2 ^ d →
      ¬ ((D.box (t.g2c i)).Holds x ∧ (D.box (t.g2c j)).Holds x) := by
  intro d
  induction d with
  | zero =>
    intro c g h _ _ i j i1 i2 i3
    simp at i3
    omega
  | succ d ih =>
    intro c g h hn hw i j i1 i2 i3 hx
    obtain ⟨-, -, -, -, -, h6, h7⟩ := h
    obtain ⟨⟨c1, c2⟩, n1, n2⟩ := hn
    obtain ⟨⟨wa, wb⟩, w1, w2⟩ := hw
    have hpow : 2 ^ (d + 1) = 2 ^ d + 2 ^ d := by ring
    by_cases hj : j < g + 2 ^ d
    · exact ih _ _ h6 n1 w1 i j i1 i2 hj hx
    · by_cases hi : i < g + 2 ^ d
      · have a := leaves_inside _ _ _ h6 n1 w1 i i1 hi hx.1
        have b := leaves_inside _ _ _ h7 n2 w2 j (by omega) (by omega) hx.2
        rw [c1] at a
        rw [c2] at b
        exact absurd (of_left_holds wb a).2 (not_lt.mpr (of_right_holds wa b).2)
      · exact ih _ _ h7 n2 w2 i j (by omega) i2 (by omega) hx

theorem cuts_up {t : Links} {L : ℕ} {D : Division n α} (hlo : LaidOut t L L 0 0)
    (hc : Nodes L 0 (ConsistentAt D)) (hw : Nodes L 0 (fun c _ => WithinAt D c)) :
    CutsUp (D.box 0) (2 ^ L) (domainOf t D) := by
  refine ⟨?_, ?_, ?_⟩
  · intro j hj x hx
    exact leaves_inside L 0 0 hlo hc hw j (Nat.zero_le _) (by omega) hx
  · intro i hi j hj hij x hx
    rcases lt_or_gt_of_ne hij with h | h
    · exact leaves_disjoint L 0 0 hlo hc hw i j (Nat.zero_le _) h (by omega) hx
    · exact leaves_disjoint L 0 0 hlo hc hw j i (Nat.zero_le _) h (by omega) hx.symm
  · intro x hx
    obtain ⟨j, -, h2, h3⟩ := leaves_cover L 0 0 hlo hc hx
    exact ⟨j, by omega, h3⟩

theorem findCell_spec {t : Links} {L : ℕ} {D : Division n α} {x : Vec n α} : ∀ (d c g : ℕ),
    LaidOut t L d c g → Nodes d c (ConsistentAt D) →
    ∃ j, g ≤ j ∧ j < g + 2 ^ d ∧ findCell t L D x (d + 1) c = some (t.g2c j) ∧
      ((D.box c).Holds x → (D.box (t.g2c j)).Holds x) := by
  intro d
  induction d with
  | zero =>
    intro c g h _
    refine ⟨g, le_rfl, by simp, ?_, ?_⟩
    · simp [findCell, h.1, h.2.2.2.2.2.2]
    · rw [h.2.2.2.2.2.2]
      exact id
  | succ d ih =>
    intro c g h hn
    obtain ⟨h1, -, -, h4, -, h6, h7⟩ := h
    obtain ⟨⟨c1, c2⟩, n1, n2⟩ := hn
    have hpow : 2 ^ (d + 1) = 2 ^ d + 2 ^ d := by ring
    have hmax : (D.box (c + 1)).max (D.k c) = D.r c := by
      rw [c1]
      simp [leftBox]
    rcases lt_or_ge (x (D.k c)) (D.r c) with hlt | hge
    · obtain ⟨j, j1, j2, j3, j4⟩ := ih _ _ h6 n1
      refine ⟨j, j1, by omega, ?_, ?_⟩
      · rw [findCell, if_pos (by omega), hmax, if_pos hlt, j3]
      · intro hx
        exact j4 (by rw [c1]; exact left_holds hx hlt)
    · obtain ⟨j, j1, j2, j3, j4⟩ := ih _ _ h7 n2
      refine ⟨j, by omega, by omega, ?_, ?_⟩
      · rw [findCell, if_pos (by omega), hmax, if_neg (not_lt.mpr hge), h4, Option.bind_some, j3]
      · intro hx
        exact j4 (by rw [c2]; exact right_holds hx hge)

end order

section balance
variable [Field α] [LinearOrder α] [IsStrictOrderedRing α]

theorem particleInBox_iff (x : Vec n α) (b : Box n α) : particleInBox x b = true ↔ b.Holds x := by
  unfold particleInBox Box.Holds
  rw [List.all_eq_true]
  constructor
  · intro h k
    have := h k (List.mem_finRange k)
    simpa using this
  · intro h k _
    simpa using h k

/-- The bisection stays in the interval. -/
theorem bisect_mem (frac : α → α) (tol : α) : ∀ (fuel : ℕ) (rmin rmax r r' : α),
    rmin < r → r < rmax → bisect frac tol fuel rmin rmax r = some r' → rmin < r' ∧ r' < rmax := by
  intro fuel
  induction fuel with
  | zero => intro rmin rmax r r' _ _ h; cases h
  | succ fuel ih =>
    intro rmin rmax r r' h1 h2 h
    unfold bisect at h
    have m1 : r < 1 / 2 * (r + rmax) := by linarith
    have m2 : 1 / 2 * (r + rmax) < rmax := by linarith
    have m3 : rmin < 1 / 2 * (rmin + r) := by linarith
    have m4 : 1 / 2 * (rmin + r) < r := by linarith
    by_cases a : frac r < 1 / 2 - tol
    · rw [if_pos a] at h
      by_cases b : |frac r - 1 / 2| > tol
      · rw [if_pos b] at h
        have := ih _ _ _ _ m1 m2 h
        exact ⟨by linarith [this.1], this.2⟩
      · rw [if_neg b] at h
        obtain rfl := Option.some.inj h
        exact ⟨by linarith, m2⟩
    · rw [if_neg a] at h
      by_cases c : frac r > 1 / 2 + tol
      · rw [if_pos c] at h
        by_cases b : |frac r - 1 / 2| > tol
        · rw [if_pos b] at h
          have := ih _ _ _ _ m3 m4 h
          exact ⟨this.1, by linarith [this.2]⟩
        · rw [if_neg b] at h
          obtain rfl := Option.some.inj h
          exact ⟨m3, by linarith⟩
      · rw [if_neg c] at h
        obtain rfl := Option.some.inj h
        exact ⟨h1, h2⟩

/-- A routine that moves the division inside the cell. -/
def StaysInside (find : ℕ → Fin n → α → Box n α → Option α) : Prop :=
  ∀ c k r b r', b.min k < r → r < b.max k → find c k r b = some r' → b.min k < r' ∧ r' < b.max k

theorem findDivision_stays (frac : ℕ → α → α) (tol : α) (fuel : ℕ) :
    StaysInside (n := n) (findDivision frac tol fuel) :=
  fun c _ _ _ _ h1 h2 h => bisect_mem (frac c) tol fuel _ _ _ _ h1 h2 h

theorem balanceCells_spec {t : Links} {find : ℕ → Fin n → α → Box n α → Option α}
    (hf : StaysInside find) (l : ℕ) : ∀ (m c : ℕ) (D D' : Division n α),
    balanceCells t find l m c D = some D' → D'.box = D.box ∧ D'.k = D.k ∧
      (∀ i, t.level i ≠ l ∨ i < c ∨ c + m ≤ i → D'.r i = D.r i) ∧
      ∀ i, t.level i = l → c ≤ i → i < c + m → (D.box i).min (D.k i) < (D.box i).max (D.k i) →
        StrictAt D' i := by
  intro m
  induction m with
  | zero =>
    intro c D D' h
    obtain rfl := Option.some.inj h
    exact ⟨rfl, rfl, fun _ _ => rfl, fun i _ h1 h2 _ => absurd h2 (by omega)⟩
  | succ m ih =>
    intro c D D' h
    simp only [balanceCells, Option.bind_eq_some_iff] at h
    obtain ⟨D1, h1, h2⟩ := h
    obtain ⟨a1, a2, a3, a4⟩ := ih (c + 1) D1 D' h2
    unfold balanceCell at h1
    by_cases hl : t.level c ≠ l
    · rw [if_pos hl] at h1
      obtain rfl := Option.some.inj h1
      refine ⟨a1, a2, ?_, ?_⟩
      · intro i hi
        by_cases hic : i = c
        · subst hic; exact a3 i (Or.inl hl)
        · exact a3 i (by omega)
      · intro i hi h3 h4
        by_cases hic : i = c
        · subst hic; exact absurd hi hl
        · exact a4 i hi (by omega) (by omega)
    · rw [if_neg hl] at h1
      push Not at hl
      simp only [Option.map_eq_some_iff] at h1
      obtain ⟨r2, h3, rfl⟩ := h1
      refine ⟨a1, a2, ?_, ?_⟩
      · intro i hi
        have hic : i ≠ c := by
          rintro rfl
          rcases hi with h | h | h
          · exact h hl
          · omega
          · omega
        rw [a3 i (by omega)]
        exact Function.update_of_ne hic _ _
      · intro i hi h4 h5 hv
        by_cases hic : i = c
        · subst hic
          have hr : D'.r i = r2 := by
            rw [a3 i (by omega)]
            exact Function.update_self _ _ _
          unfold StrictAt
          rw [a1, a2, hr]
          refine hf _ _ _ _ _ ?_ ?_ h3
          · split_ifs with hc
            · linarith
            · push Not at hc
              exact hc.1
          · split_ifs with hc
            · linarith
            · push Not at hc
              exact hc.2
        · exact a4 i hi (by omega) (by omega) hv

/-- Two divisions that agree in the cells above level `m` have the same boxes down to level `m`. -/
theorem boxes_agree {L m : ℕ} {D1 D2 : Division n α} : ∀ (d c : ℕ), D1.box c = D2.box c →
    Nodes d c (fun c e => L < m + (e + 1) → D1.k c = D2.k c ∧ D1.r c = D2.r c ∧
      ConsistentAt D1 c e ∧ ConsistentAt D2 c e) →
    Nodes d c (fun c e => L ≤ m + (e + 1) → D1.box c = D2.box c) := by
  intro d
  induction d with
  | zero => intro c _ _; trivial
  | succ d ih =>
    intro c hb h
    refine ⟨fun _ => hb, ?_⟩
    by_cases hm : L < m + (d + 1)
    · obtain ⟨hk, hr, ⟨a1, a2⟩, b1, b2⟩ := h.1 hm
      refine ⟨ih _ ?_ h.2.1, ih _ ?_ h.2.2⟩
      · rw [a1, b1, hb, hk, hr]
      · rw [a2, b2, hb, hk, hr]
    · exact ⟨Nodes.of_forall _ _ fun c' e _ _ h3 h4 => absurd h4 (by omega),
        Nodes.of_forall _ _ fun c' e _ _ h3 h4 => absurd h4 (by omega)⟩

/-- Boxes are not turned inside out down to level `m` if the divisions above lie within. -/
theorem boxes_valid {L m : ℕ} {D : Division n α} : ∀ (d c : ℕ),
    (∀ k, (D.box c).min k < (D.box c).max k) →
    Nodes d c (fun c e => L < m + (e + 1) → ConsistentAt D c e ∧ StrictAt D c) →
    Nodes d c (fun c e => L ≤ m + (e + 1) → ∀ k, (D.box c).min k < (D.box c).max k) := by
  intro d
  induction d with
  | zero => intro c _ _; trivial
  | succ d ih =>
    intro c hb h
    refine ⟨fun _ => hb, ?_⟩
    by_cases hm : L < m + (d + 1)
    · obtain ⟨⟨a1, a2⟩, w1, w2⟩ := h.1 hm
      refine ⟨ih _ ?_ h.2.1, ih _ ?_ h.2.2⟩
      · intro k
        rw [a1]
        unfold leftBox
        by_cases hk : k = D.k c
        · subst hk; simpa using w1
        · simpa [hk] using hb k
      · intro k
        rw [a2]
        unfold rightBox
        by_cases hk : k = D.k c
        · subst hk; simpa using w2
        · simpa [hk] using hb k
    · exact ⟨Nodes.of_forall _ _ fun c' e _ _ h3 h4 => absurd h4 (by omega),
        Nodes.of_forall _ _ fun c' e _ _ h3 h4 => absurd h4 (by omega)⟩

/-- State before level `m` is balanced: the cells above it are final. -/
structure Balanced (L m : ℕ) (D : Division n α) : Prop where
  valid : ∀ k, (D.box 0).min k < (D.box 0).max k
  nodes : Nodes L 0 (fun c e => L < m + (e + 1) → ConsistentAt D c e ∧ StrictAt D c)

theorem balanceLevel_spec {t : Links} {L : ℕ} (hlo : LaidOut t L L 0 0)
    {find : ℕ → Fin n → α → Box n α → Option α} (hf : StaysInside find) {l : ℕ}
    {D D' : Division n α} (hB : Balanced L l D) (h : balanceLevel t L find D l = some D') :
    Balanced L (l + 1) D' ∧ Nodes L 0 (ConsistentAt D') ∧ D'.box 0 = D.box 0 ∧ D'.k = D.k := by
  unfold balanceLevel at h
  rw [Option.bind_eq_some_iff] at h
  obtain ⟨D1, h1, h2⟩ := h
  obtain ⟨a1, a2, a3, a4⟩ := balanceCells_spec hf l _ _ _ _ h1
  obtain ⟨D2, e1, e2, e3, e4, e5⟩ := updateBoundingBoxes_spec hlo D1
  rw [e1] at h2
  obtain rfl := Option.some.inj h2
  have hroot : D2.box 0 = D.box 0 := by rw [e5, a1]
  have hlev := LaidOut.nodes L 0 0 hlo
  have hagree : Nodes L 0 (fun c e => L ≤ l + (e + 1) → D.box c = D2.box c) := by
    refine boxes_agree L 0 hroot.symm ?_
    refine Nodes.map₂ L 0 ?_ (Nodes.map₂ L 0 (fun c e _ _ _ q r => And.intro q r) hlev e4) hB.nodes
    intro c e h3 h4 h5 hle hn hm
    refine ⟨by rw [e2, a2], ?_, (hn hm).1, hle.2⟩
    rw [e3, a3 c (Or.inl (by omega))]
  have hvalid := boxes_valid L 0 hB.valid hB.nodes
  refine ⟨⟨by rw [hroot]; exact hB.valid, ?_⟩, e4, hroot, by rw [e2, a2]⟩
  refine Nodes.map₂ L 0 ?_ (Nodes.map₂ L 0 (fun c e _ _ _ q r => And.intro q r) hlev e4)
    (Nodes.map₂ L 0 (fun c e _ _ _ q r => And.intro q r) hagree
      (Nodes.map₂ L 0 (fun c e _ _ _ q r => And.intro q r) hvalid hB.nodes))
  rintro c e h3 h4 h5 ⟨⟨hl, -⟩, hcon⟩ ⟨hag, hva, hn⟩ hm
  refine ⟨hcon, ?_⟩
  unfold StrictAt
  rw [← hag (by omega), e2, a2, e3]
  by_cases hll : t.level c = l
  · have hw := a4 c hll (Nat.zero_le _) (by
      rw [ncellOf_eq]
      have := fullSize_pos (e + 1)
      omega) (hva (by omega) _)
    unfold StrictAt at hw
    rw [a1, a2] at hw
    exact hw
  · have hw := (hn (by omega)).2
    unfold StrictAt at hw
    rw [a3 c (Or.inl hll)]
    exact hw

theorem balanceLevels_spec {t : Links} {L : ℕ} (hlo : LaidOut t L L 0 0)
    {find : ℕ → Fin n → α → Box n α → Option α} (hf : StaysInside find) : ∀ (m l : ℕ)
    (D D' : Division n α), Balanced L l D → balanceLevels t L find m l D = some D' →
    Balanced L (l + m) D' ∧ D'.box 0 = D.box 0 ∧ D'.k = D.k := by
  intro m
  induction m with
  | zero =>
    intro l D D' hB h
    obtain rfl := Option.some.inj h
    exact ⟨hB, rfl, rfl⟩
  | succ m ih =>
    intro l D D' hB h
    simp only [balanceLevels, Option.bind_eq_some_iff] at h
    obtain ⟨D1, h1, h2⟩ := h
    obtain ⟨b1, -, b2, b3⟩ := balanceLevel_spec hlo hf hB h1
    obtain ⟨c1, c2, c3⟩ := ih (l + 1) D1 D' b1 h2
    rw [show l + (m + 1) = l + 1 + m by omega]
    exact ⟨c1, by rw [c2, b2], by rw [c3, b3]⟩

theorem loadBalance_spec {t : Links} {L : ℕ} (hlo : LaidOut t L L 0 0)
    {find : ℕ → Fin n → α → Box n α → Option α} (hf : StaysInside find) (partbox : Box n α)
    (hv : ∀ k, partbox.min k < partbox.max k) (D D' : Division n α)
    (h : loadBalance t L find partbox D = some D') :
    D'.box 0 = partbox ∧ Nodes L 0 (ConsistentAt D') ∧ Nodes L 0 (fun c _ => StrictAt D' c) := by
  unfold loadBalance at h
  have hB : Balanced L 0 ({ D with box := Function.update D.box 0 partbox } : Division n α) := by
    refine ⟨by simpa using hv, ?_⟩
    refine Nodes.of_forall _ _ fun c e _ _ h3 h4 => absurd h4 (by omega)
  obtain ⟨b, h0, -⟩ := balanceLevels_spec hlo hf L 0 _ _ hB h
  refine ⟨by rw [h0]; simp, ?_, ?_⟩
  · exact Nodes.map L 0 (fun c e _ _ h3 hn => (hn (by omega)).1) b.nodes
  · exact Nodes.map L 0 (fun c e _ _ h3 hn => (hn (by omega)).2) b.nodes

theorem balanceCells_some {t : Links} {find : ℕ → Fin n → α → Box n α → Option α}
    (hf : ∀ c k r b, (find c k r b).isSome) (l : ℕ) : ∀ (m c : ℕ) (D : Division n α),
    ∃ D', balanceCells t find l m c D = some D' := by
  intro m
  induction m with
  | zero => intro c D; exact ⟨D, rfl⟩
  | succ m ih =>
    intro c D
    have : ∃ D1, balanceCell t find l D c = some D1 := by
      unfold balanceCell
      by_cases hl : t.level c ≠ l
      · exact ⟨D, if_pos hl⟩
      · rw [if_neg hl]
        obtain ⟨r, hr⟩ := Option.isSome_iff_exists.mp (hf c (D.k c)
          (if (D.box c).min (D.k c) ≥ D.r c ∨ (D.box c).max (D.k c) ≤ D.r c then
            1 / 2 * ((D.box c).min (D.k c) + (D.box c).max (D.k c)) else D.r c) (D.box c))
        exact ⟨_, by simp only [hr, Option.map_some]; rfl⟩
    obtain ⟨D1, h1⟩ := this
    obtain ⟨D2, h2⟩ := ih (c + 1) D1
    exact ⟨D2, by simp only [balanceCells, h1, Option.bind_some, h2]⟩

theorem loadBalance_some {t : Links} {L : ℕ} (hlo : LaidOut t L L 0 0)
    {find : ℕ → Fin n → α → Box n α → Option α} (hf : ∀ c k r b, (find c k r b).isSome)
    (partbox : Box n α) (D : Division n α) : ∃ D', loadBalance t L find partbox D = some D' := by
  have : ∀ (m l : ℕ) (D : Division n α), ∃ D', balanceLevels t L find m l D = some D' := by
    intro m
    induction m with
    | zero => intro l D; exact ⟨D, rfl⟩
    | succ m ih =>
      intro l D
      obtain ⟨D1, h1⟩ := balanceCells_some (t := t) hf l (ncellOf L) 0 D
      obtain ⟨D2, h2, -⟩ := updateBoundingBoxes_spec hlo D1
      obtain ⟨D3, h3⟩ := ih (l + 1) D2
      exact ⟨D3, by simp only [balanceLevels, balanceLevel, h1, Option.bind_some, h2, h3]⟩
  exact this L 0 _

theorem leaves_valid {t : Links} {L : ℕ} {D : Division n α} : ∀ (d c g : ℕ),
    LaidOut t L d c g → Nodes d c (ConsistentAt D) → Nodes d c (fun c _ => StrictAt D c) →
    (∀ k, (D.box c).min k < (D.box c).max k) →
    ∀ j, g ≤ j → j < g + 2 ^ d → ∀ k, (D.box (t.g2c j)).min k < (D.box (t.g2c j)).max k := by
  intro d
  induction d with
  | zero =>
    intro c g h _ _ hv j j1 j2
    have : j = g := by simp at j2; omega
    subst this
    rw [h.2.2.2.2.2.2]
    exact hv
  | succ d ih =>
    intro c g h hn hw hv j j1 j2
    obtain ⟨-, -, -, -, -, h6, h7⟩ := h
    obtain ⟨⟨c1, c2⟩, n1, n2⟩ := hn
    obtain ⟨⟨wa, wb⟩, w1, w2⟩ := hw
    have hpow : 2 ^ (d + 1) = 2 ^ d + 2 ^ d := by ring
    by_cases hj : j < g + 2 ^ d
    · refine ih _ _ h6 n1 w1 ?_ j j1 hj
      intro k
      rw [c1]
      unfold leftBox
      by_cases hk : k = D.k c
      · subst hk; simpa using wa
      · simpa [hk] using hv k
    · refine ih _ _ h7 n2 w2 ?_ j (by omega) (by omega)
      intro k
      rw [c2]
      unfold rightBox
      by_cases hk : k = D.k c
      · subst hk; simpa using wb
      · simpa [hk] using hv k

/-- A point common to a domain and the particle box of a process makes the process a candidate. -/
theorem boxesOverlap_of_mem {a b : Box n α} {x : Vec n α} (ha : a.Holds x)
    (hb : ∀ k, b.min k ≤ x k ∧ x k ≤ b.max k) : boxesOverlap a b = true := by
  unfold boxesOverlap
  have : ∀ l : List (Fin n), l.foldl (fun res k => res &&
    (valueInRange (a.min k) (b.min k) (b.max k) || valueInRange (b.min k) (a.min k) (a.max k))) true
      = true := by
    intro l
    induction l with
    | nil => rfl
    | cons k l ih =>
      rw [List.foldl_cons]
      have : (true && (valueInRange (a.min k) (b.min k) (b.max k) ||
          valueInRange (b.min k) (a.min k) (a.max k))) = true := by
        simp only [valueInRange, Bool.true_and, Bool.or_eq_true, Bool.and_eq_true, decide_eq_true_eq]
        rcases le_total (b.min k) (a.min k) with h | h
        · exact Or.inl ⟨h, (ha k).1.trans (hb k).2⟩
        · exact Or.inr ⟨h, (hb k).1.trans (ha k).2.le⟩
      rw [this]
      exact ih
  exact this _

theorem rbox_fold_le (l : List (Vec n α)) : ∀ b : Box n α,
    let c := l.foldl (fun b r => (⟨fun k => min (b.min k) (r k), fun k => max (b.max k) (r k)⟩ : Box n α)) b
    (∀ k, c.min k ≤ b.min k ∧ b.max k ≤ c.max k) ∧ ∀ x ∈ l, ∀ k, c.min k ≤ x k ∧ x k ≤ c.max k := by
  induction l with
  | nil => intro b; exact ⟨fun k => ⟨le_rfl, le_rfl⟩, fun x hx => absurd hx (by simp)⟩
  | cons y l ih =>
    intro b
    obtain ⟨h1, h2⟩ := ih ⟨fun k => min (b.min k) (y k), fun k => max (b.max k) (y k)⟩
    refine ⟨fun k => ⟨(h1 k).1.trans (min_le_left _ _), (le_max_left _ _).trans (h1 k).2⟩, ?_⟩
    intro x hx k
    rcases List.mem_cons.mp hx with rfl | hx
    · exact ⟨(h1 k).1.trans (min_le_right _ _), (le_max_right _ _).trans (h1 k).2⟩
    · exact h2 x hx k

theorem mem_rbox (big : α) (l : List (Vec n α)) (x : Vec n α) (hx : x ∈ l) (k : Fin n) :
    (rboxOf big l).min k ≤ x k ∧ x k ≤ (rboxOf big l).max k :=
  (rbox_fold_le l _).2 x hx k

theorem partbox_fold_le (l : List (Box n α)) : ∀ b : Box n α,
    let c := l.foldl (fun b r => (⟨fun k => min (b.min k) (r.min k),
      fun k => max (b.max k) (r.max k)⟩ : Box n α)) b
    (∀ k, c.min k ≤ b.min k ∧ b.max k ≤ c.max k) ∧
      ∀ x ∈ l, ∀ k, c.min k ≤ x.min k ∧ x.max k ≤ c.max k := by
  induction l with
  | nil => intro b; exact ⟨fun k => ⟨le_rfl, le_rfl⟩, fun x hx => absurd hx (by simp)⟩
  | cons y l ih =>
    intro b
    obtain ⟨h1, h2⟩ := ih ⟨fun k => min (b.min k) (y.min k), fun k => max (b.max k) (y.max k)⟩
    refine ⟨fun k => ⟨(h1 k).1.trans (min_le_left _ _), (le_max_left _ _).trans (h1 k).2⟩, ?_⟩
    intro x hx k
    rcases List.mem_cons.mp hx with rfl | hx
    · exact ⟨(h1 k).1.trans (min_le_right _ _), (le_max_right _ _).trans (h1 k).2⟩
    · exact h2 x hx k

theorem partbox_le (simbox : Box n α) (l : List (Box n α)) :
    (∀ k, (partboxOf simbox l).min k ≤ simbox.min k ∧ simbox.max k ≤ (partboxOf simbox l).max k) ∧
      ∀ x ∈ l, ∀ k, (partboxOf simbox l).min k ≤ x.min k ∧ x.max k ≤ (partboxOf simbox l).max k :=
  partbox_fold_le l simbox

/-- The upper face of `partbox` is that of the simulation box or of some process. -/
theorem partbox_max (l : List (Box n α)) (k : Fin n) : ∀ simbox : Box n α,
    (partboxOf simbox l).max k = simbox.max k ∨ ∃ b ∈ l, (partboxOf simbox l).max k = b.max k := by
  induction l with
  | nil => intro b; exact Or.inl rfl
  | cons y l ih =>
    intro b
    rcases ih ⟨fun k => min (b.min k) (y.min k), fun k => max (b.max k) (y.max k)⟩ with h | ⟨c, hc, h⟩
    · rcases max_choice (b.max k) (y.max k) with e | e
      · exact Or.inl (h.trans e)
      · exact Or.inr ⟨y, List.mem_cons_self, h.trans e⟩
    · exact Or.inr ⟨c, List.mem_cons_of_mem _ hc, h⟩

theorem rbox_max (big : α) (k : Fin n) (l : List (Vec n α)) :
    (rboxOf big l).max k = -big ∨ ∃ x ∈ l, (rboxOf big l).max k = x k := by
  have : ∀ (l : List (Vec n α)) (b : Box n α),
      (l.foldl (fun b r => (⟨fun k => min (b.min k) (r k), fun k => max (b.max k) (r k)⟩ : Box n α)) b).max k
        = b.max k ∨ ∃ x ∈ l, (l.foldl (fun b r => (⟨fun k => min (b.min k) (r k),
          fun k => max (b.max k) (r k)⟩ : Box n α)) b).max k = x k := by
    intro l
    induction l with
    | nil => intro b; exact Or.inl rfl
    | cons y l ih =>
      intro b
      rcases ih ⟨fun k => min (b.min k) (y k), fun k => max (b.max k) (y k)⟩ with h | ⟨c, hc, h⟩
      · rcases max_choice (b.max k) (y k) with e | e
        · exact Or.inl (h.trans e)
        · exact Or.inr ⟨y, List.mem_cons_self, h.trans e⟩
      · exact Or.inr ⟨c, List.mem_cons_of_mem _ hc, h⟩
  exact this l _

/-- With a step of the work at one place the iteration never ends. -/
theorem bisect_step_none (s tol : α) (h0 : 0 ≤ tol) (ht : tol < 1 / 2) : ∀ (fuel : ℕ) (rmin rmax r : α),
    bisect (fun r => if r < s then 0 else 1) tol fuel rmin rmax r = none := by
  intro fuel
  induction fuel with
  | zero => intro _ _ _; rfl
  | succ fuel ih =>
    intro rmin rmax r
    unfold bisect
    have e : |(0 : α) - 1 / 2| = 1 / 2 := by rw [zero_sub, abs_neg, abs_of_pos]; norm_num
    have e2 : |(1 : α) - 1 / 2| = 1 / 2 := by
      rw [abs_of_pos] <;> norm_num
    by_cases h : r < s
    · simp only [if_pos h]
      rw [if_pos (by linarith : (0 : α) < 1 / 2 - tol), e, if_pos ht]
      exact ih _ _ _
    · simp only [if_neg h]
      rw [if_neg (by linarith : ¬ (1 : α) < 1 / 2 - tol), if_pos (by linarith : (1 : α) > 1 / 2 + tol),
        e2, if_pos ht]
      exact ih _ _ _

/-- With a work fraction that does not rise faster than `K` the iteration ends after `m` rounds as soon
as the interval has shrunk to the width that holds the tolerance. -/
theorem bisect_some (frac : α → α) (tol K : α)
    (hL : ∀ x y, x ≤ y → frac y - frac x ≤ K * (y - x)) : ∀ (m : ℕ) (rmin rmax r : α),
    rmin ≤ r → r ≤ rmax → frac rmin < 1 / 2 - tol → 1 / 2 + tol < frac rmax →
    (r = 1 / 2 * (rmin + rmax) ∧ K * (rmax - rmin) ≤ 2 * tol * 2 ^ m) →
    ∃ r', bisect frac tol (m + 1) rmin rmax r = some r' := by
  intro m
  induction m with
  | zero =>
    intro rmin rmax r h1 h2 h3 h4 ⟨_, h5⟩
    have := hL rmin rmax (h1.trans h2)
    exfalso
    rw [pow_zero, mul_one] at h5
    linarith
  | succ m ih =>
    intro rmin rmax r h1 h2 h3 h4 ⟨h0, h5⟩
    rw [bisect]
    rw [pow_succ] at h5
    by_cases a : frac r < 1 / 2 - tol
    · rw [if_pos a]
      by_cases b : |frac r - 1 / 2| > tol
      · rw [if_pos b]
        refine ih _ _ _ (by linarith) (by linarith) a h4 ⟨rfl, ?_⟩
        have : K * (rmax - r) = 1 / 2 * (K * (rmax - rmin)) := by rw [h0]; ring
        linarith
      · exact ⟨_, if_neg b⟩
    · rw [if_neg a]
      by_cases c : frac r > 1 / 2 + tol
      · rw [if_pos c]
        by_cases b : |frac r - 1 / 2| > tol
        · rw [if_pos b]
          refine ih _ _ _ (by linarith) (by linarith) h3 c ⟨rfl, ?_⟩
          have : K * (r - rmin) = 1 / 2 * (K * (rmax - rmin)) := by rw [h0]; ring
          linarith
        · exact ⟨_, if_neg b⟩
      · exact ⟨_, if_neg c⟩

end balance

theorem leafCounts_length : ∀ d N, (leafCounts d N).length = 2 ^ d := by
  intro d
  induction d with
  | zero => intro N; rfl
  | succ d ih => intro N; rw [leafCounts, List.length_append, ih, ih]; ring

theorem leafCounts_sum : ∀ d N, (leafCounts d N).sum = N := by
  intro d
  induction d with
  | zero => intro N; simp [leafCounts]
  | succ d ih => intro N; rw [leafCounts, List.sum_append, ih, ih]; omega

theorem leafCounts_ge : ∀ d N m, m * 2 ^ d ≤ N → ∀ x ∈ leafCounts d N, m ≤ x := by
  intro d
  induction d with
  | zero => intro N m h x hx; simp [leafCounts] at hx; subst hx; simpa using h
  | succ d ih =>
    intro N m h x hx
    rw [leafCounts, List.mem_append] at hx
    rw [pow_succ, ← mul_assoc] at h
    rcases hx with hx | hx
    · exact ih _ m (by omega) x hx
    · exact ih _ m (by omega) x hx

theorem leafCounts_le : ∀ d N m, N ≤ m * 2 ^ d → ∀ x ∈ leafCounts d N, x ≤ m := by
  intro d
  induction d with
  | zero => intro N m h x hx; simp [leafCounts] at hx; subst hx; simpa using h
  | succ d ih =>
    intro N m h x hx
    rw [leafCounts, List.mem_append] at hx
    rw [pow_succ, ← mul_assoc] at h
    rcases hx with hx | hx
    · exact ih _ m (by omega) x hx
    · exact ih _ m (by omega) x hx

/-- `FindBoxOverlapParticles` finds exactly the particles in the box. -/
theorem boxParts_spec {n : ℕ} (T : Tree n) (cfg : Cfg) (P : Parts n) (pfuel : ℕ) (f : Forest)
    (l : List ℕ) (hT : T.OK cfg P pfuel f l) (b : Box n ℝ) (fuel : ℕ)
    (hfuel : f.cells.length ≤ fuel) :
    T.boxParts P b pfuel fuel = .done (l.filter fun i => particleInBox (P.r i) b) := by
  have hb : T.boxPartsBody P b pfuel = collectBody T.links (fun c => (T.cell c).N)
      (T.leafList pfuel) (fun c => boxOverlap (T.cell c).bb b)
      (fun i => particleInBox (P.r i) b) (fun _ => true) := by
    funext c s
    simp only [Tree.boxPartsBody, collectBody]
    cases T.leafList pfuel c <;> simp
  have hnear : ∀ c l, Summary cfg P l (T.cell c) → boxOverlap (T.cell c).bb b = false →
      l.filter (fun i => particleInBox (P.r i) b) = [] := by
    intro c l hS hf
    rw [List.filter_eq_nil_iff]
    intro i hi hin
    have hin := (particleInBox_iff (P.r i) b).mp hin
    rw [← Bool.not_eq_true] at hf
    apply hf
    unfold boxOverlap
    rw [List.all_eq_true]
    intro k _
    have := hS.bb i hi k
    have h2 := hin k
    have e : ((T.cell c).bb).min k = (T.cell c).bbmin k := rfl
    have e' : ((T.cell c).bb).max k = (T.cell c).bbmax k := rfl
    rw [e, e', if_neg (by linarith), if_neg (by linarith)]
  rcases collect_walk hT _ _ (fun i => particleInBox (P.r i) b) (fun _ => true) hnear [] fuel hfuel with
    ⟨r, e, g1, g2⟩ | ⟨e, r, g1, g2⟩
  · rw [Tree.boxParts, hb, e, g2, List.nil_append]
  · exact absurd g2 (by simp)

end Gandalf.Mpi
