import Verif.Spec.RadTree
import Verif.Prop.C01
import Verif.Proof.KDStructure

/-! The boxes and exit pointers made by `DivideTreeCell`. -/

set_option autoImplicit false
set_option linter.unusedSectionVars false

namespace Gandalf.RadTree
open KD

variable {n : ℕ} {α : Type} [NeZero n] [Field α] [LinearOrder α]

/-- How a cell of height `d` has been divided, all the way down. -/
def Good (big : α) (cells : ℕ → Cell n α) : (d c : ℕ) → Prop
  | 0, _ => True
  | d + 1, c =>
    0 < (cells (c + 1 + fullSize d)).N ∧
    (cells c).N = (cells (c + 1)).N + (cells (c + 1 + fullSize d)).N ∧
    ((0 < (cells (c + 1)).N ∧ ∃ x, (cells c).bbmin (cells c).kdiv ≤ x ∧ x ≤ (cells c).bbmax (cells c).kdiv ∧
        (cells (c + 1)).bbmin = (cells c).bbmin ∧
        (cells (c + 1)).bbmax = Function.update (cells c).bbmax (cells c).kdiv x ∧
        (cells (c + 1 + fullSize d)).bbmin = Function.update (cells c).bbmin (cells c).kdiv x ∧
        (cells (c + 1 + fullSize d)).bbmax = (cells c).bbmax ∧
        (cells (c + 1)).exit = Function.update (cells c).exit true
          (Function.update ((cells c).exit true) (cells c).kdiv (some (c + 1 + fullSize d))) ∧
        (cells (c + 1 + fullSize d)).exit = Function.update (cells c).exit false
          (Function.update ((cells c).exit false) (cells c).kdiv (some (c + 1)))) ∨
     ((cells (c + 1)).N = 0 ∧ d = 0 ∧ (cells (c + 1)).bbmax (cells c).kdiv = -big ∧
        (cells (c + 1 + fullSize d)).bbmin = (cells c).bbmin ∧
        (cells (c + 1 + fullSize d)).bbmax = (cells c).bbmax ∧
        (cells (c + 1 + fullSize d)).exit = (cells c).exit)) ∧
    Good big cells d (c + 1) ∧ Good big cells d (c + 1 + fullSize d)

theorem Good.congr (big : α) (f g : ℕ → Cell n α) : ∀ (d c : ℕ),
    (∀ i, c ≤ i → i < c + fullSize d → f i = g i) → Good big f d c → Good big g d c := by
  intro d
  induction d with
  | zero => intro c _ _; trivial
  | succ d ih =>
    intro c h hg
    have hs := fullSize_succ d
    have hd := fullSize_add_one d
    have hpos : 2 ≤ 2 ^ (d + 1) := by
      calc 2 = 2 ^ 1 := rfl
        _ ≤ 2 ^ (d+1) := Nat.pow_le_pow_right (by omega) (by omega)
    have e0 : f c = g c := h c le_rfl (by omega)
    have e1 : f (c+1) = g (c+1) := h _ (by omega) (by omega)
    have e2 : f (c+1+fullSize d) = g (c+1+fullSize d) := h _ (by omega) (by omega)
    unfold Good at hg ⊢
    rw [← e0, ← e1, ← e2]
    obtain ⟨a1, a2, a3, a4, a5⟩ := hg
    exact ⟨a1, a2, a3, ih _ (fun i hi hi' => h i (by omega) (by omega)) a4,
      ih _ (fun i hi hi' => h i (by omega) (by omega)) a5⟩

/-- equal in everything but the division axis -/
def SameGeo (a b : Cell n α) : Prop :=
  a.N = b.N ∧ a.bbmin = b.bbmin ∧ a.bbmax = b.bbmax ∧ a.exit = b.exit

variable [IsStrictOrderedRing α]

theorem foldl_max_le (f : ℕ → α) (b : α) : ∀ (l : List ℕ) (a : α), a ≤ b → (∀ j ∈ l, f j ≤ b) →
    l.foldl (fun (m : α) (j : ℕ) => max m (f j)) a ≤ b := by
  intro l
  induction l with
  | nil => intro a h _; exact h
  | cons x l ih =>
    intro a h hl
    exact ih _ (max_le h (hl x (by simp))) (fun j hj => hl j (by simp [hj]))

theorem le_foldl_max (f : ℕ → α) : ∀ (l : List ℕ) (a : α),
    a ≤ l.foldl (fun (m : α) (j : ℕ) => max m (f j)) a ∧
    ∀ j ∈ l, f j ≤ l.foldl (fun (m : α) (j : ℕ) => max m (f j)) a := by
  intro l
  induction l with
  | nil => intro a; exact ⟨le_rfl, by simp⟩
  | cons x l ih =>
    intro a
    obtain ⟨h1, h2⟩ := ih (max a (f x))
    refine ⟨(le_max_left _ _).trans h1, ?_⟩
    intro j hj
    rcases List.mem_cons.mp hj with rfl | hj
    · exact (le_max_right _ _).trans h1
    · exact h2 j hj

/-- the dividing plane separates the two halves -/
theorem plane_spec (big : α) (key : ℕ → α) (ids : ℕ → ℕ) (first p N : ℕ) (v : α) (hN : 1 < N)
    (hlow : ∀ j, first ≤ j → j < p → key (ids j) ≤ v) (hv : -big ≤ v) :
    plane big key ids first p N v ≤ v ∧
    ∀ j, first ≤ j → j < p → key (ids j) ≤ plane big key ids first p N v := by
  unfold plane
  rw [if_pos hN]
  have h1 := foldl_max_le (fun j => key (ids j)) v (List.range' first (p - first)) (-big) hv (by
    intro j hj
    rw [List.mem_range'_1] at hj
    exact hlow j hj.1 (by omega))
  have h2 := le_foldl_max (fun j => key (ids j)) (List.range' first (p - first)) (-big)
  refine ⟨by linarith, ?_⟩
  intro j hj hjp
  have := h2.2 j (by rw [List.mem_range'_1]; omega)
  linarith

theorem divide_good (t : KD.Links) (ltot : ℕ) (big : α) (r : ℕ → Vec n α) (dead : ℕ → Bool) :
    ∀ (d c g first iend : ℕ) (s : State n α), LaidOut t ltot d c g →
      (s.cell c).N = iend - first → first ≤ iend → (0 < d → 2 ^ (d - 1) ≤ iend - first) →
      (∀ j, first ≤ j → j < iend → dead (s.ids j) = false ∧ (∀ k, -big ≤ r (s.ids j) k) ∧
        InBox (s.cell c) (r (s.ids j))) →
      ∃ s', divide t ltot big r dead (d + 1) first iend c s = some s' ∧ Good big s'.cell d c ∧
        (∀ i, i < c ∨ c + fullSize d ≤ i → s'.cell i = s.cell i) ∧
        SameGeo (s'.cell c) (s.cell c) ∧ (∀ j, j < first ∨ iend ≤ j → s'.ids j = s.ids j) ∧
        (∀ j, first ≤ j → j < iend → ∃ j', first ≤ j' ∧ j' < iend ∧ s'.ids j = s.ids j') := by
  intro d
  induction d with
  | zero =>
    intro c g first iend s hlo hN hle _ hp
    have hl : t.level c = ltot := hlo.1
    rw [divide, if_pos hl]
    refine ⟨_, rfl, trivial, ?_, ?_, fun _ _ => rfl, fun j h1 h2 => ⟨j, h1, h2, rfl⟩⟩
    · intro i hi
      have h1 := fullSize_zero
      exact Function.update_of_ne (by omega) _ _
    · refine ⟨?_, ?_, ?_, ?_⟩ <;> simp only [Function.update_self]
      rw [hN, List.filter_eq_self.mpr, List.length_range']
      intro j hj
      rw [List.mem_range'_1] at hj
      rw [(hp j hj.1 (by omega)).1]; rfl
  | succ d ih =>
    intro c g first iend s hlo hN hle hmin hp
    obtain ⟨hl, _, hc1, hc2, _, lo1, lo2⟩ := hlo
    have hs := fullSize_succ d
    have hd := fullSize_add_one d
    have hpos : 2 ≤ 2 ^ (d + 1) := by
      calc 2 = 2 ^ 1 := rfl
        _ ≤ 2 ^ (d+1) := Nat.pow_le_pow_right (by omega) (by omega)
    have hmin' : 2 ^ d ≤ iend - first := by simpa using hmin (by omega)
    have hd1 : 1 ≤ 2 ^ d := Nat.one_le_two_pow
    have hNpos : (s.cell c).N ≠ 0 := by omega
    rw [divide, if_neg (by omega : ¬ t.level c = ltot), hc1, hc2]
    simp only [if_neg hNpos]
    set k := longest (s.cell c) with hk
    set m := (s.cell c).N / 2 with hm
    obtain ⟨ids', v, hq, hM⟩ := C01_quickSelect_median (fun i => r i k) s.ids first (iend - 1)
      (first + m) (by omega) (by omega)
    rw [hq (iend - first) (by omega)]
    simp only [Option.bind_eq_bind, Option.bind_some]
    -- every particle of the range is one of the old ones
    have hmem : ∀ j, first ≤ j → j < iend → ∃ j', first ≤ j' ∧ j' < iend ∧ ids' j = s.ids j' := by
      intro j h1 h2
      have : ids' j ∈ (List.range' first (iend - 1 + 1 - first)).map s.ids := by
        rw [← hM.perm.mem_iff]
        exact List.mem_map.mpr ⟨j, by rw [List.mem_range'_1]; omega, rfl⟩
      obtain ⟨j', hj', e⟩ := List.mem_map.mp this
      rw [List.mem_range'_1] at hj'
      exact ⟨j', by omega, by omega, e.symm⟩
    have hp' : ∀ j, first ≤ j → j < iend → dead (ids' j) = false ∧ (∀ k, -big ≤ r (ids' j) k) ∧
        InBox (s.cell c) (r (ids' j)) := by
      intro j h1 h2
      obtain ⟨j', h3, h4, e⟩ := hmem j h1 h2
      rw [e]; exact hp j' h3 h4
    set x := plane big (fun i => r i k) ids' first (first + m) (iend - first) v with hx
    set A : Cell n α := { s.cell c with kdiv := k } with hA
    set C0 : ℕ → Cell n α := Function.update s.cell c A with hC0
    have C0c : C0 c = A := Function.update_self ..
    have hv : -big ≤ v := by
      rw [← hM.value]; exact (hp' (first + m) (by omega) (by omega)).2.1 k
    -- the two sets of children
    set c2 := c + 1 + fullSize d with hc2d
    set S1 : ℕ → Cell n α := setChildren big C0 c (c + 1) c2 k x with hS1
    have S1c : S1 c = A := by
      rw [hS1]; unfold setChildren
      simp only
      split_ifs <;>
      · rw [Function.update_of_ne (by omega), Function.update_of_ne (by omega)]; exact C0c
    have S1out : ∀ i, i < c ∨ c + fullSize (d + 1) ≤ i → S1 i = s.cell i := by
      intro i hi
      rw [hS1]; unfold setChildren
      simp only
      have e0 : C0 i = s.cell i := Function.update_of_ne (by omega) _ _
      split_ifs <;>
      · rw [Function.update_of_ne (by omega), Function.update_of_ne (by omega)]; exact e0
    have AN : A.N = (s.cell c).N := rfl
    have S11N : (S1 (c + 1)).N = m := by
      rw [hS1]; unfold setChildren
      simp only [C0c]
      split_ifs <;> rw [Function.update_of_ne (by omega), Function.update_self]
    have S12N : (S1 c2).N = (s.cell c).N - m := by
      rw [hS1]; unfold setChildren
      simp only [C0c]
      split_ifs <;> rw [Function.update_self]
    -- geometry of the children
    have hgeo : (0 < m ∧ A.bbmin k ≤ x ∧ x ≤ A.bbmax k ∧
          (S1 (c+1)).bbmin = A.bbmin ∧ (S1 (c+1)).bbmax = Function.update A.bbmax k x ∧
          (S1 c2).bbmin = Function.update A.bbmin k x ∧ (S1 c2).bbmax = A.bbmax ∧
          (S1 (c+1)).exit = Function.update A.exit true (Function.update (A.exit true) k (some c2)) ∧
          (S1 c2).exit = Function.update A.exit false (Function.update (A.exit false) k (some (c+1)))) ∨
        (m = 0 ∧ d = 0 ∧ (S1 (c+1)).bbmax k = -big ∧ (S1 c2).bbmin = A.bbmin ∧
          (S1 c2).bbmax = A.bbmax ∧ (S1 c2).exit = A.exit) := by
      have n2 : 0 < A.N - A.N / 2 := by omega
      rcases Nat.eq_zero_or_pos m with h0 | h0
      · right
        have hd0 : d = 0 := by
          by_contra hne
          have : 2 ^ 1 ≤ 2 ^ d := Nat.pow_le_pow_right (by omega) (by omega)
          omega
        refine ⟨h0, hd0, ?_, ?_, ?_, ?_⟩ <;>
        · rw [hS1]; unfold setChildren
          simp only [C0c]
          rw [if_neg (by omega), if_pos n2]
          first
          | rw [Function.update_self]
          | (rw [Function.update_of_ne (by omega), Function.update_self]; simp only [Function.update_self])
      · left
        have hpl := plane_spec big (fun i => r i k) ids' first (first + m) (iend - first) v (by omega)
          (fun j h1 h2 => hM.low j h1 h2) hv
        refine ⟨h0, ?_, ?_, ?_⟩
        · exact (((hp' first le_rfl (by omega)).2.2 k).1).trans (hpl.2 first le_rfl (by omega))
        · refine hpl.1.trans ?_
          rw [← hM.value]
          exact ((hp' (first + m) (by omega) (by omega)).2.2 k).2
        · refine ⟨?_, ?_, ?_, ?_, ?_, ?_⟩ <;>
          · rw [hS1]; unfold setChildren
            simp only [C0c]
            rw [if_pos ⟨by omega, n2⟩]
            first
            | (rw [Function.update_self]; done)
            | (rw [Function.update_of_ne (by omega), Function.update_self]; done)
    -- particles of the left half
    have hL : ∀ j, first ≤ j → j < first + m → dead (ids' j) = false ∧ (∀ k, -big ≤ r (ids' j) k) ∧
        InBox (S1 (c+1)) (r (ids' j)) := by
      intro j h1 h2
      obtain ⟨a1, a2, a3⟩ := hp' j h1 (by omega)
      refine ⟨a1, a2, ?_⟩
      rcases hgeo with ⟨h0, _, _, g1, g2, _⟩ | ⟨h0, _⟩
      · intro j'
        rw [g1, g2]
        refine ⟨(a3 j').1, ?_⟩
        by_cases hj : j' = k
        · subst hj
          rw [Function.update_self]
          exact (plane_spec big (fun i => r i k) ids' first (first + m) (iend - first) v (by omega)
            (fun j h1 h2 => hM.low j h1 h2) hv).2 j h1 h2
        · rw [Function.update_of_ne hj]; exact (a3 j').2
      · omega
    have hR : ∀ j, first + m ≤ j → j < iend → dead (ids' j) = false ∧ (∀ k, -big ≤ r (ids' j) k) ∧
        InBox (S1 c2) (r (ids' j)) := by
      intro j h1 h2
      obtain ⟨a1, a2, a3⟩ := hp' j (by omega) h2
      refine ⟨a1, a2, ?_⟩
      rcases hgeo with ⟨h0, _, _, _, _, g1, g2, _⟩ | ⟨_, _, _, g1, g2, _⟩
      · intro j'
        rw [g1, g2]
        refine ⟨?_, (a3 j').2⟩
        by_cases hj : j' = k
        · subst hj
          rw [Function.update_self]
          exact ((plane_spec big (fun i => r i k) ids' first (first + m) (iend - first) v (by omega)
            (fun j h1 h2 => hM.low j h1 h2) hv).1).trans (hM.high j h1 (by omega))
        · rw [Function.update_of_ne hj]; exact (a3 j').1
      · intro j'; rw [g1, g2]; exact a3 j'
    have hminL : 0 < d → 2 ^ (d - 1) ≤ first + m - first := by
      intro h
      have e : 2 ^ d = 2 * 2 ^ (d - 1) := by
        rw [← pow_succ', Nat.sub_add_cancel h]
      omega
    have hminR : 0 < d → 2 ^ (d - 1) ≤ iend - (first + m) := by
      intro h
      have e : 2 ^ d = 2 * 2 ^ (d - 1) := by
        rw [← pow_succ', Nat.sub_add_cancel h]
      omega
    obtain ⟨s2, e2, G1, F1, SG1, I1, J1⟩ := ih (c + 1) g first (first + m) ⟨S1, ids'⟩ lo1
      (by simp only [S11N]; omega) (by omega) hminL hL
    rw [e2]
    simp only [Option.bind_some]
    have s2c2 : s2.cell c2 = S1 c2 := F1 c2 (by omega)
    obtain ⟨s3, e3, G2, F2, SG2, I2, J2⟩ := ih c2 (g + 2 ^ d) (first + m) iend s2 lo2
      (by rw [s2c2, S12N]; omega) (by omega) hminR (by
        intro j h1 h2
        rw [I1 j (by omega), s2c2]
        exact hR j h1 h2)
    rw [e3]
    simp only [Option.bind_some]
    refine ⟨_, rfl, ?_, ?_, ?_, ?_, ?_⟩
    · have c3 : s3.cell c = A := by
        rw [F2 c (by omega), F1 c (by omega)]; exact S1c
      have c31 : SameGeo (s3.cell (c+1)) (S1 (c+1)) := by
        rw [F2 (c+1) (by omega)]; exact SG1
      have c32 : SameGeo (s3.cell c2) (S1 c2) := by rw [← s2c2]; exact SG2
      have u1 : ∀ X : Cell n α, Function.update s3.cell c X (c + 1) = s3.cell (c + 1) :=
        fun X => Function.update_of_ne (by omega) _ _
      have u2 : ∀ X : Cell n α, Function.update s3.cell c X c2 = s3.cell c2 :=
        fun X => Function.update_of_ne (by omega) _ _
      unfold Good
      rw [← hc2d]
      simp only [u1, u2, Function.update_self, c3]
      obtain ⟨p1, p2, p3, p4⟩ := c31
      obtain ⟨q1, q2, q3, q4⟩ := c32
      simp only [p1, p2, p3, p4, q1, q2, q3, q4, S11N, S12N]
      refine ⟨by omega, trivial, ?_, ?_, ?_⟩
      · rcases hgeo with ⟨h0, b1, b2, b3, b4, b5, b6, b7, b8⟩ | ⟨h0, b1, b2, b3, b4, b5⟩
        · exact Or.inl ⟨h0, x, b1, b2, b3, b4, b5, b6, b7, b8⟩
        · exact Or.inr ⟨h0, b1, b2, b3, b4, b5⟩
      · refine Good.congr big s2.cell _ d (c+1) ?_ G1
        intro i hi hi'
        rw [Function.update_of_ne (by omega), F2 i (by omega)]
      · refine Good.congr big s3.cell _ d c2 ?_ G2
        intro i hi hi'
        rw [Function.update_of_ne (by omega)]
    · intro i hi
      simp only
      rw [Function.update_of_ne (by omega), F2 i (by omega), F1 i (by omega)]
      exact S1out i hi
    · have c3 : s3.cell c = A := by
        rw [F2 c (by omega), F1 c (by omega)]; exact S1c
      have N1 : (s3.cell (c+1)).N = m := by rw [F2 (c+1) (by omega), SG1.1]; exact S11N
      have N2 : (s3.cell c2).N = (s.cell c).N - m := by rw [SG2.1, s2c2, S12N]
      refine ⟨?_, ?_, ?_, ?_⟩ <;> simp only [Function.update_self, c3, N1, N2, hA]
      omega
    · intro j hj
      simp only
      rw [I2 j (by omega), I1 j (by omega)]
      exact hM.outside j (by omega)
    · intro j h1 h2
      simp only
      by_cases hj : j < first + m
      · obtain ⟨j', a1, a2, a3⟩ := J1 j h1 hj
        obtain ⟨j2, b1, b2, b3⟩ := hmem j' a1 (by omega)
        refine ⟨j2, b1, b2, ?_⟩
        rw [I2 j (by omega), a3, ← b3]
      · obtain ⟨j', a1, a2, a3⟩ := J2 j (by omega) h2
        obtain ⟨j2, b1, b2, b3⟩ := hmem j' (by omega) a2
        refine ⟨j2, b1, b2, ?_⟩
        rw [a3, I1 j' (by omega), ← b3]

end Gandalf.RadTree
