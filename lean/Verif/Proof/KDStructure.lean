import Verif.Model.KDStructure
import Verif.Spec.KDLayout

/-! Lemmas about tree sizing and the link table. -/

set_option autoImplicit false

namespace Gandalf.KD

theorem sizeLoop_spec (M N : ℕ) (hM : 1 ≤ M) : ∀ (fuel l : ℕ),
    N < l + fuel → (∀ k < l, M * 2 ^ k < N) →
    ∃ L, sizeLoop M N fuel l = some L ∧ N ≤ M * 2 ^ L ∧ ∀ k < L, M * 2 ^ k < N := by
  intro fuel
  induction fuel with
  | zero =>
    intro l hf hk
    exfalso
    cases l with
    | zero => omega
    | succ l =>
      have h1 := hk l (Nat.lt_succ_self l)
      have h2 : l < 2 ^ l := Nat.lt_two_pow_self
      have : 1 * 2 ^ l ≤ M * 2 ^ l := Nat.mul_le_mul_right _ hM
      omega
  | succ n ih =>
    intro l hf hk
    simp only [sizeLoop]
    split_ifs with h
    · refine ih (l+1) (by omega) ?_
      intro k hkl
      rcases Nat.lt_succ_iff_lt_or_eq.mp hkl with h' | rfl
      · exact hk k h'
      · exact h
    · exact ⟨l, rfl, by omega, hk⟩

theorem fullSize_zero : fullSize 0 = 1 := rfl
theorem fullSize_succ (d : ℕ) : fullSize (d + 1) = 1 + fullSize d + fullSize d := by
  unfold fullSize
  have : 1 ≤ 2 ^ (d+1) := Nat.one_le_two_pow
  have e : 2 ^ (d + 1 + 1) = 2 * 2 ^ (d+1) := by ring
  omega
theorem fullSize_add_one (d : ℕ) : 1 + fullSize d = 2 ^ (d + 1) := by
  unfold fullSize
  have : 1 ≤ 2 ^ (d+1) := Nat.one_le_two_pow
  omega

theorem ncellOf_eq (L : ℕ) : ncellOf L = fullSize L := by
  unfold ncellOf gtotOf fullSize; rw [pow_succ]; omega

/-- The fields of a table agree outside `[c, c+n)`, and its leaf table outside `[g, g+m)`. -/
structure SameOutside (s t : Links) (c n g m : ℕ) : Prop where
  level : ∀ i, i < c ∨ c + n ≤ i → t.level i = s.level i
  copen : ∀ i, i < c ∨ c + n ≤ i → t.copen i = s.copen i
  cnext : ∀ i, i < c ∨ c + n ≤ i → t.cnext i = s.cnext i
  c1 : ∀ i, i < c ∨ c + n ≤ i → t.c1 i = s.c1 i
  c2 : ∀ i, i < c ∨ c + n ≤ i → t.c2 i = s.c2 i
  c2g : ∀ i, i < c ∨ c + n ≤ i → t.c2g i = s.c2g i
  g2c : ∀ i, i < g ∨ g + m ≤ i → t.g2c i = s.g2c i

theorem LaidOut.congr {L : ℕ} : ∀ (d : ℕ) {s t : Links} {c g : ℕ}, LaidOut s L d c g →
    (∀ i, c ≤ i → i < c + fullSize d → t.level i = s.level i ∧ t.copen i = s.copen i ∧
      t.cnext i = s.cnext i ∧ t.c1 i = s.c1 i ∧ t.c2 i = s.c2 i ∧ t.c2g i = s.c2g i) →
    (∀ i, g ≤ i → i < g + 2 ^ d → t.g2c i = s.g2c i) → LaidOut t L d c g := by
  intro d
  induction d with
  | zero =>
    intro s t c g h hc hg
    obtain ⟨h1, h2, h3, h4, h5, h6, h7⟩ := h
    obtain ⟨e1, e2, e3, e4, e5, e6⟩ := hc c le_rfl (by simp [fullSize_zero])
    have e7 := hg g le_rfl (by simp)
    exact ⟨e1 ▸ h1, e2 ▸ h2, e4 ▸ h3, e5 ▸ h4, e3 ▸ h5, e6 ▸ h6, e7 ▸ h7⟩
  | succ d ih =>
    intro s t c g h hc hg
    have hfs := fullSize_succ d
    have hp : 2 ^ (d+1) = 2 ^ d + 2 ^ d := by ring
    obtain ⟨h1, h2, h3, h4, h5, h6, h7⟩ := h
    obtain ⟨e1, e2, e3, e4, e5, e6⟩ := hc c le_rfl (by omega)
    refine ⟨by rw [e1]; exact h1, by rw [e2]; exact h2, by rw [e4]; exact h3, by rw [e5]; exact h4,
      by rw [e3]; exact h5, ih h6 ?_ ?_, ih h7 ?_ ?_⟩
    · intro i a b; exact hc i (by omega) (by omega)
    · intro i a b; exact hg i (by omega) (by omega)
    · intro i a b; exact hc i (by omega) (by omega)
    · intro i a b; exact hg i (by omega) (by omega)

theorem structLoop_add (L N G : ℕ) : ∀ (n m c : ℕ) (s : Links),
    structLoop L N G (n + m) c s =
      (structLoop L N G n c s).bind (structLoop L N G m (c + n)) := by
  intro n
  induction n with
  | zero => intro m c s; simp [structLoop]
  | succ n ih =>
    intro m c s
    rw [show n + 1 + m = (n + m) + 1 by omega]
    simp only [structLoop]
    cases h : structStep L N G s c with
    | none => simp
    | some s' => simp [ih, show c + 1 + n = c + (n + 1) by omega]

theorem structLoop_spec (L N G : ℕ) : ∀ (d c : ℕ) (s : Links), s.level c + d = L →
    c + fullSize d ≤ N → s.g + 2 ^ d ≤ G →
    (∀ i, c ≤ i → i < c + fullSize d → s.copen i = none ∧ s.c1 i = none ∧ s.c2 i = none) →
    ∃ t, structLoop L N G (fullSize d) c s = some t ∧ LaidOut t L d c s.g ∧
      t.g = s.g + 2 ^ d ∧ t.level c = s.level c ∧ SameOutside s t c (fullSize d) s.g (2 ^ d) := by
  intro d
  induction d with
  | zero =>
    intro c s hl hN hG hz
    simp only [add_zero] at hl
    obtain ⟨z1, z2, z3⟩ := hz c le_rfl (by simp [fullSize_zero])
    rw [fullSize_zero, pow_zero] at *
    have hg : s.g < G := by omega
    refine ⟨{ s with
        cnext := Function.update s.cnext c (some (c + 1))
        c2g := Function.update s.c2g c s.g
        g2c := Function.update s.g2c s.g c
        g := s.g + 1 }, by simp [structLoop, structStep, hl, hg], ?_, rfl, rfl, ?_⟩
    · simp [LaidOut, hl, z1, z2, z3]
    · constructor <;> intro i hi <;> simp only [] <;>
        first
        | rfl
        | (rw [Function.update_of_ne]; omega)
  | succ d ih =>
    intro c s hl hN hG hz
    have hfs := fullSize_succ d
    have hp : 2 ^ (d+1) = 2 ^ d + 2 ^ d := by ring
    have hone := fullSize_add_one d
    have h2p : 1 ≤ 2 ^ d := Nat.one_le_two_pow
    have hlt : s.level c < L := by omega
    have hne : ¬ s.level c = L := by omega
    have hsub : L - s.level c = d + 1 := by omega
    have hc2 : c + 2 ^ (d+1) = c + 1 + fullSize d := by omega
    -- the first step
    let s1 : Links := { s with
        level := Function.update (Function.update s.level (c + 1) (s.level c + 1))
          (c + 1 + fullSize d) (s.level c + 1)
        copen := Function.update s.copen c (some (c + 1))
        c1 := Function.update s.c1 c (some (c + 1))
        c2 := Function.update s.c2 c (some (c + 1 + fullSize d))
        cnext := Function.update s.cnext c (some (c + fullSize (d+1))) }
    have hstep : structStep L N G s c = some s1 := by
      simp only [structStep, if_neg hne]
      have u1 : Function.update s.level (c + 1) (s.level c + 1) c = s.level c :=
        Function.update_of_ne (by omega) _ _
      have hc2L : c2L L (s.level c) = some (2 ^ (d+1)) := by simp [c2L, hlt, hsub]
      have hcNL : cNL L (s.level c) = some (fullSize (d+1)) := by
        simp only [cNL, hc2L, Option.map_some, Option.some.injEq]; omega
      have u2 : ∀ x, Function.update (Function.update s.level (c + 1) (s.level c + 1))
          (c + 1 + fullSize d) x c = s.level c := by
        intro x; rw [Function.update_of_ne (by omega), u1]
      simp only [u1, hc2L, Option.bind_eq_bind, Option.bind_some, hc2, u2, hcNL]
      rw [if_pos (by omega)]
    have hsplit : structLoop L N G (fullSize (d+1)) c s =
        (structLoop L N G (fullSize d) (c+1) s1).bind
          (structLoop L N G (fullSize d) (c + 1 + fullSize d)) := by
      rw [hfs, add_assoc, structLoop_add]
      simp only [structLoop, hstep, Option.bind_some]
      rw [structLoop_add]
    have s1lev1 : s1.level (c+1) = s.level c + 1 := by
      simp only [s1]
      by_cases hd : fullSize d = 0
      · unfold fullSize at hd; have : 2 ≤ 2 ^ (d+1) := by omega
        omega
      · rw [Function.update_of_ne (by omega), Function.update_self]
    have s1lev2 : s1.level (c+1+fullSize d) = s.level c + 1 := by simp [s1]
    have s1levc : s1.level c = s.level c := by
      simp only [s1]
      rw [Function.update_of_ne (by omega), Function.update_of_ne (by omega)]
    have s1g : s1.g = s.g := rfl
    obtain ⟨t, ht, htl, htg, htlev, hto⟩ := ih (c+1) s1 (by omega) (by omega) (by omega) (by
      intro i hi1 hi2
      have := hz i (by omega) (by omega)
      simp only [s1]
      rw [Function.update_of_ne (by omega), Function.update_of_ne (by omega),
        Function.update_of_ne (by omega)]
      exact this)
    have tlev2 : t.level (c+1+fullSize d) = s.level c + 1 := by
      rw [hto.level _ (by omega), s1lev2]
    obtain ⟨u, hu, hul, hug, hulev, huo⟩ := ih (c+1+fullSize d) t (by omega) (by omega)
      (by omega) (by
      intro i hi1 hi2
      have := hz i (by omega) (by omega)
      rw [hto.copen _ (by omega), hto.c1 _ (by omega), hto.c2 _ (by omega)]
      simp only [s1]
      rw [Function.update_of_ne (by omega), Function.update_of_ne (by omega),
        Function.update_of_ne (by omega)]
      exact this)
    refine ⟨u, ?_, ?_, ?_, ?_, ?_⟩
    · rw [hsplit, ht, Option.bind_some, hu]
    · have lc : u.level c = s.level c := by
        rw [huo.level _ (by omega), hto.level _ (by omega), s1levc]
      refine ⟨by omega, ?_, ?_, ?_, ?_, ?_, ?_⟩
      · rw [huo.copen _ (by omega), hto.copen _ (by omega)]; simp [s1]
      · rw [huo.c1 _ (by omega), hto.c1 _ (by omega)]; simp [s1]
      · rw [huo.c2 _ (by omega), hto.c2 _ (by omega)]; simp [s1]
      · rw [huo.cnext _ (by omega), hto.cnext _ (by omega)]; simp [s1]
      · refine LaidOut.congr d (s1g ▸ htl) ?_ ?_
        · intro i a b
          exact ⟨huo.level _ (by omega), huo.copen _ (by omega), huo.cnext _ (by omega),
            huo.c1 _ (by omega), huo.c2 _ (by omega), huo.c2g _ (by omega)⟩
        · intro i a b; exact huo.g2c _ (by omega)
      · rw [htg, s1g] at hul; exact hul
    · omega
    · rw [huo.level _ (by omega), hto.level _ (by omega), s1levc]
    · constructor
      · intro i hi
        rw [huo.level _ (by omega), hto.level _ (by omega)]
        simp only [s1]
        rw [Function.update_of_ne (by omega), Function.update_of_ne (by omega)]
      · intro i hi
        rw [huo.copen _ (by omega), hto.copen _ (by omega)]
        simp only [s1]; rw [Function.update_of_ne (by omega)]
      · intro i hi
        rw [huo.cnext _ (by omega), hto.cnext _ (by omega)]
        simp only [s1]; rw [Function.update_of_ne (by omega)]
      · intro i hi
        rw [huo.c1 _ (by omega), hto.c1 _ (by omega)]
        simp only [s1]; rw [Function.update_of_ne (by omega)]
      · intro i hi
        rw [huo.c2 _ (by omega), hto.c2 _ (by omega)]
        simp only [s1]; rw [Function.update_of_ne (by omega)]
      · intro i hi
        rw [huo.c2g _ (by omega), hto.c2g _ (by omega)]
      · intro i hi
        rw [huo.g2c _ (by omega), hto.g2c _ (by omega)]

theorem fullTree_entry (d c : ℕ) (rest : Forest) (next : ℕ) :
    (fullTree d c rest).entry next = c := by
  cases d <;> rfl

theorem fullTree_cells : ∀ (d c : ℕ) (rest : Forest),
    (fullTree d c rest).cells = List.range' c (fullSize d) ++ rest.cells := by
  intro d
  induction d with
  | zero => intro c rest; simp [fullTree, Forest.cells, fullSize_zero]
  | succ d ih =>
    intro c rest
    simp only [fullTree, Forest.cells, ih, List.append_nil]
    rw [fullSize_succ, add_assoc, ← List.range'_append_1, ← List.range'_append_1]
    simp

theorem fullTree_leaves_length : ∀ (d c : ℕ) (rest : Forest),
    (fullTree d c rest).leaves.length = 2 ^ d + rest.leaves.length := by
  intro d
  induction d with
  | zero => intro c rest; simp [fullTree, Forest.leaves]; omega
  | succ d ih =>
    intro c rest
    have h : ∀ f : Forest, f ≠ .nil → (Forest.cons c f rest).leaves = f.leaves ++ rest.leaves := by
      intro f hf
      cases f with
      | nil => exact absurd rfl hf
      | cons => rfl
    simp only [fullTree]
    rw [h _ (by cases d <;> simp [fullTree]), List.length_append, ih, ih]
    simp [Forest.leaves]; ring

theorem fullTree_linked {t : Links} {L : ℕ} : ∀ (d c g : ℕ) (rest : Forest) (next : ℕ),
    LaidOut t L d c g → rest.entry next = c + fullSize d → rest.Linked t.walkLinks next →
    (fullTree d c rest).Linked t.walkLinks next := by
  intro d
  induction d with
  | zero =>
    intro c g rest next h he hr
    obtain ⟨_, h2, _, _, h5, _, _⟩ := h
    rw [fullSize_zero] at he
    exact ⟨by simp [Links.walkLinks, h5, he], by simp [Links.walkLinks, h2], trivial, hr⟩
  | succ d ih =>
    intro c g rest next h he hr
    obtain ⟨_, h2, _, _, h5, h6, h7⟩ := h
    have hfs := fullSize_succ d
    refine ⟨by simp [Links.walkLinks, h5, he], ?_, ?_, hr⟩
    · cases d <;> simp [Links.walkLinks, h2, fullTree]
    · rw [he]
      refine ih (c+1) g _ _ h6 (fullTree_entry _ _ _ _) ?_
      exact ih _ _ _ _ h7 (by simp [Forest.entry]; omega) trivial

theorem LaidOut.leaf_iff {t : Links} {L : ℕ} : ∀ (d c g : ℕ), LaidOut t L d c g →
    ∀ i, c ≤ i → i < c + fullSize d →
      t.level i ≤ L ∧ L ≤ t.level i + d ∧ (t.copen i = none ↔ t.level i = L) ∧
      (t.level i = L → g ≤ t.c2g i ∧ t.c2g i < g + 2 ^ d ∧ t.g2c (t.c2g i) = i) := by
  intro d
  induction d with
  | zero =>
    intro c g h i h1 h2
    rw [fullSize_zero] at h2
    obtain rfl : i = c := by omega
    obtain ⟨a1, a2, a3, a4, a5, a6, a7⟩ := h
    refine ⟨by omega, by omega, by simp [a1, a2], fun _ => ⟨by omega, by simp; omega, ?_⟩⟩
    rw [a6, a7]
  | succ d ih =>
    intro c g h i h1 h2
    have hfs := fullSize_succ d
    have hp : 2 ^ (d+1) = 2 ^ d + 2 ^ d := by ring
    obtain ⟨a1, a2, a3, a4, a5, a6, a7⟩ := h
    by_cases e : i = c
    · subst e
      exact ⟨by omega, by omega, by simp [a2]; omega, fun h => by omega⟩
    · by_cases e2 : i < c + 1 + fullSize d
      · obtain ⟨b1, b2, b3, b4⟩ := ih _ _ a6 i (by omega) e2
        refine ⟨b1, by omega, b3, fun h => ?_⟩
        have := b4 h
        exact ⟨by omega, by omega, this.2.2⟩
      · obtain ⟨b1, b2, b3, b4⟩ := ih _ _ a7 i (by omega) (by omega)
        refine ⟨b1, by omega, b3, fun h => ?_⟩
        have := b4 h
        exact ⟨by omega, by omega, this.2.2⟩

theorem LaidOut.g2c_leaf {t : Links} {L : ℕ} : ∀ (d c g : ℕ), LaidOut t L d c g →
    ∀ k, g ≤ k → k < g + 2 ^ d → c ≤ t.g2c k ∧ t.g2c k < c + fullSize d ∧
      t.level (t.g2c k) = L ∧ t.c2g (t.g2c k) = k := by
  intro d
  induction d with
  | zero =>
    intro c g h k h1 h2
    obtain rfl : k = g := by simp at h2; omega
    obtain ⟨a1, a2, a3, a4, a5, a6, a7⟩ := h
    rw [fullSize_zero, a7]
    exact ⟨le_rfl, by omega, a1, a6⟩
  | succ d ih =>
    intro c g h k h1 h2
    have hfs := fullSize_succ d
    have hp : 2 ^ (d+1) = 2 ^ d + 2 ^ d := by ring
    obtain ⟨a1, a2, a3, a4, a5, a6, a7⟩ := h
    by_cases e2 : k < g + 2 ^ d
    · obtain ⟨b1, b2, b3⟩ := ih _ _ a6 k (by omega) e2
      exact ⟨by omega, by omega, b3⟩
    · obtain ⟨b1, b2, b3⟩ := ih _ _ a7 k (by omega) (by omega)
      exact ⟨by omega, by omega, b3⟩

end Gandalf.KD
