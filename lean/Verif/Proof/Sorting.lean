import Verif.Model.Sorting
import Verif.Proof.QuickSelect
import Mathlib.Data.List.Perm.Basic
import Mathlib.Data.List.Range
import Mathlib.Data.List.Nodup

set_option autoImplicit false

namespace Gandalf.Sorting

open QuickSelect

variable {ι α : Type*}

theorem PermOn.list_perm {a b : ℕ → ι} {N : ℕ} (h : PermOn a b 0 N) :
    ((List.range N).map b).Perm ((List.range N).map a) := by
  obtain ⟨σ, hσ, rfl⟩ := h
  rw [← List.map_map]
  refine List.Perm.map a ?_
  rw [List.perm_ext_iff_of_nodup (List.nodup_range.map σ.injective) List.nodup_range]
  intro x
  rw [List.mem_map, List.mem_range]
  constructor
  · rintro ⟨y, hy, rfl⟩
    exact (perm_maps_range hσ ⟨Nat.zero_le _, List.mem_range.mp hy⟩).2
  · intro hx
    refine ⟨σ.symm x, ?_, by simp⟩
    rw [List.mem_range]
    by_contra hc
    have := hσ (σ.symm x) (Or.inr (not_lt.mp hc))
    rw [Equiv.apply_symm_apply] at this
    omega

variable [LinearOrder α]

/-- The insertion loop: the array with `raux` put into the hole is rearranged inside `[0, j]`. -/
theorem insertIdsLoop_spec (raux : α) (iaux : ι) : ∀ (k : ℕ) (s : (ℕ → α) × (ℕ → ι)),
    let fill := fun (s : (ℕ → α) × (ℕ → ι)) (k : ℕ) =>
      fun i => (Function.update s.1 k raux i, Function.update s.2 k iaux i)
    let p := insertIdsLoop raux k s
    PermOn (fill s k) (fill p.1 p.2) 0 (k + 1) ∧ p.2 ≤ k ∧
    (∀ i, i < p.2 → p.1.1 i = s.1 i) ∧ (∀ i, p.2 < i → i ≤ k → p.1.1 i = s.1 (i - 1)) ∧
    (∀ i, k < i → p.1.1 i = s.1 i) ∧
    (0 < p.2 → s.1 (p.2 - 1) ≤ raux) ∧ (∀ i, p.2 ≤ i → i < k → raux < s.1 i) := by
  intro k
  induction k with
  | zero => intro s; exact ⟨PermOn.refl _ _ _, le_rfl, fun _ _ => rfl, by intro i h1 h2; simp [insertIdsLoop] at h1; omega,
      fun _ _ => rfl, by simp [insertIdsLoop], by omega⟩
  | succ k ih =>
    intro s fill p
    by_cases h : s.1 k ≤ raux
    · have e : p = (s, k + 1) := by simp only [p, insertIdsLoop, if_pos h]
      rw [e]
      exact ⟨PermOn.refl _ _ _, le_rfl, fun _ _ => rfl, fun i h1 h2 => by simp only at h1; omega, fun _ _ => rfl, fun _ => h,
        fun i h1 h2 => by simp only at h1; omega⟩
    · set s' : (ℕ → α) × (ℕ → ι) :=
        (Function.update s.1 (k + 1) (s.1 k), Function.update s.2 (k + 1) (s.2 k)) with hs'
      have e : p = insertIdsLoop raux k s' := by simp only [p, insertIdsLoop, if_neg h, hs']
      rw [e]
      obtain ⟨g1, g2, g3, g4, g5, g6, g7⟩ := ih s'
      have hlt : ∀ i, i ≠ k + 1 → s'.1 i = s.1 i := fun i hi => by simp [hs', hi]
      refine ⟨?_, by omega, ?_, ?_, ?_, ?_, ?_⟩
      · refine PermOn.trans ?_ (g1.mono le_rfl (by omega))
        have : fill s' k = swap (fill s (k + 1)) k (k + 1) := by
          funext i
          rw [swap_apply]
          simp only [fill, hs', Function.update_apply]
          by_cases h1 : i = k + 1
          · subst h1; simp
          · by_cases h2 : i = k
            · subst h2; simp
            · simp [h1, h2]
        change PermOn (fill s (k + 1)) (fill s' k) 0 (k + 1 + 1)
        rw [this]
        exact permOn_swap _ (by omega) (by omega)
      · intro i hi
        rw [g3 i hi, hlt i (by omega)]
      · intro i h1 h2
        by_cases hk : i = k + 1
        · subst hk
          rw [g5 (k + 1) (by omega)]
          simp [hs']
        · rw [g4 i h1 (by omega), hlt _ (by omega)]
      · intro i hi
        rw [g5 i (by omega), hlt i (by omega)]
      · intro h0
        have := g6 h0
        rwa [hlt _ (by omega)] at this
      · intro i h1 h2
        by_cases hk : i = k
        · subst hk; exact not_le.mp h
        · have := g7 i h1 (by omega)
          rwa [hlt _ (by omega)] at this

/-- the plain loop is the loop on keys of the tandem one -/
theorem insertLoop_eq (raux : α) : ∀ (k : ℕ) (s : (ℕ → α) × (ℕ → ι)),
    insertLoop raux k s.1 = ((insertIdsLoop raux k s).1.1, (insertIdsLoop raux k s).2) := by
  intro k
  induction k with
  | zero => intro s; rfl
  | succ k ih =>
    intro s
    simp only [insertLoop, insertIdsLoop]
    split_ifs
    · rfl
    · exact ih (Function.update s.1 (k + 1) (s.1 k), Function.update s.2 (k + 1) (s.2 k))

theorem insertIdsStep_spec (s : (ℕ → α) × (ℕ → ι)) (j : ℕ)
    (hs : ∀ a b, a ≤ b → b < j → s.1 a ≤ s.1 b) :
    let s' := insertIdsStep s j
    PermOn (fun i => (s.1 i, s.2 i)) (fun i => (s'.1 i, s'.2 i)) 0 (j + 1) ∧
    ∀ a b, a ≤ b → b < j + 1 → s'.1 a ≤ s'.1 b := by
  intro s'
  obtain ⟨g1, g2, g3, g4, g5, g6, g7⟩ := insertIdsLoop_spec (s.1 j) (s.2 j) j s
  set p := insertIdsLoop (s.1 j) j s with hp
  have hs' : s' = (Function.update p.1.1 p.2 (s.1 j), Function.update p.1.2 p.2 (s.2 j)) := rfl
  constructor
  · simpa [hs'] using g1
  · have hval : ∀ i, i ≤ j → s'.1 i = if i < p.2 then s.1 i else if i = p.2 then s.1 j else s.1 (i - 1) := by
      intro i hi
      rw [hs']
      simp only [Function.update_apply]
      by_cases h1 : i = p.2
      · subst h1; simp
      · rw [if_neg h1]
        by_cases h2 : i < p.2
        · rw [if_pos h2, g3 i h2]
        · rw [if_neg h2, if_neg h1, g4 i (by omega) hi]
    have hle : ∀ i, i < p.2 → s.1 i ≤ s.1 j := fun i hi =>
      (hs i (p.2 - 1) (by omega) (by omega)).trans (g6 (by omega))
    intro a b hab hb
    rw [hval a (by omega), hval b (by omega)]
    by_cases a1 : a < p.2
    · rw [if_pos a1]
      by_cases b1 : b < p.2
      · rw [if_pos b1]; exact hs a b hab (by omega)
      · rw [if_neg b1]
        by_cases b2 : b = p.2
        · rw [if_pos b2]; exact hle a a1
        · rw [if_neg b2]; exact hs a (b - 1) (by omega) (by omega)
    · rw [if_neg a1, if_neg (by omega : ¬ b < p.2)]
      by_cases a2 : a = p.2
      · rw [if_pos a2]
        by_cases b2 : b = p.2
        · rw [if_pos b2]
        · rw [if_neg b2]; exact (g7 (b - 1) (by omega) (by omega)).le
      · rw [if_neg a2, if_neg (by omega)]; exact hs _ _ (by omega) (by omega)

theorem insertIds_fold : ∀ (m j : ℕ) (s : (ℕ → α) × (ℕ → ι)),
    (∀ a b, a ≤ b → b < j → s.1 a ≤ s.1 b) →
    let s' := (List.range' j m).foldl insertIdsStep s
    PermOn (fun i => (s.1 i, s.2 i)) (fun i => (s'.1 i, s'.2 i)) 0 (j + m) ∧
    ∀ a b, a ≤ b → b < j + m → s'.1 a ≤ s'.1 b := by
  intro m
  induction m with
  | zero => intro j s h; exact ⟨PermOn.refl _ _ _, h⟩
  | succ m ih =>
    intro j s h
    rw [List.range'_succ, List.foldl_cons]
    obtain ⟨g1, g2⟩ := insertIdsStep_spec s j h
    obtain ⟨k1, k2⟩ := ih (j + 1) _ g2
    refine ⟨(g1.mono le_rfl (by omega)).trans (k1.mono le_rfl (by omega)), ?_⟩
    intro a b h1 h2
    exact k2 a b h1 (by omega)

/-! ### heap -/

/-- children are not above their parent: parent of `i ≥ 1` is `i / 2` -/
def IsHeap (V : ι → α) (q : ℕ) (qV : ℕ → ι) : Prop :=
  ∀ i, 1 ≤ i → i < q → V (qV i) ≤ V (qV (i / 2))

theorem IsHeap.root {V : ι → α} {q : ℕ} {qV : ℕ → ι} (h : IsHeap V q qV) :
    ∀ i, i < q → V (qV i) ≤ V (qV 0) := by
  intro i
  induction i using Nat.strong_induction_on with
  | _ i ih =>
    intro hi
    rcases Nat.eq_zero_or_pos i with rfl | h0
    · exact le_rfl
    · exact (h i h0 hi).trans (ih (i / 2) (by omega) (by omega))

theorem siftUp_spec (V : ι → α) (q : ℕ) : ∀ (fuel qq : ℕ) (qV : ℕ → ι), 1 ≤ qq → qq ≤ q → qq < fuel →
    (∀ i, 1 ≤ i → i ≤ q → i ≠ qq → V (qV i) ≤ V (qV (i / 2))) →
    (∀ i, 1 ≤ i → i ≤ q → i / 2 = qq → V (qV i) ≤ V (qV (qq / 2))) →
    ∃ qV', siftUp V fuel qq qV = some qV' ∧ PermOn qV qV' 0 (q + 1) ∧ IsHeap V (q + 1) qV' := by
  intro fuel
  induction fuel with
  | zero => intro qq qV _ _ h; omega
  | succ fuel ih =>
    intro qq qV h1 h2 hf hh hc
    rw [siftUp]
    by_cases hgt : V (qV qq) > V (qV (qq / 2))
    · simp only [if_pos hgt]
      have hperm : PermOn qV (swap qV qq (qq / 2)) 0 (q + 1) :=
        permOn_swap qV (by omega) (by omega)
      have hsw : ∀ x, swap qV qq (qq / 2) x =
          if x = qq / 2 then qV qq else if x = qq then qV (qq / 2) else qV x := swap_apply _ _ _
      by_cases h0 : qq / 2 = 0
      · rw [if_pos h0]
        refine ⟨_, rfl, hperm, ?_⟩
        have hq1 : qq = 1 := by omega
        intro i hi1 hi2
        rw [hsw, hsw]
        by_cases hi : i = qq
        · subst hi
          simp only [if_neg (show ¬ i = i / 2 by omega), if_true]
          exact hgt.le
        · rw [if_neg (by omega), if_neg hi]
          by_cases hp : i / 2 = qq
          · rw [if_neg (by omega), if_pos hp]; exact hc i hi1 (by omega) hp
          · rw [if_neg (by omega), if_neg hp]; exact hh i hi1 (by omega) hi
      · rw [if_neg h0]
        have k1 : ∀ i, 1 ≤ i → i ≤ q → i ≠ qq / 2 →
            V (swap qV qq (qq / 2) i) ≤ V (swap qV qq (qq / 2) (i / 2)) := by
          intro i hi1 hi2 hne
          rw [hsw, hsw, if_neg hne]
          by_cases hi : i = qq
          · subst hi; simp only [if_true]; exact hgt.le
          · rw [if_neg hi]
            by_cases hp1 : i / 2 = qq / 2
            · rw [if_pos hp1]
              have := hh i hi1 hi2 hi
              rw [hp1] at this
              exact this.trans hgt.le
            · rw [if_neg hp1]
              by_cases hp : i / 2 = qq
              · rw [if_pos hp]; exact hc i hi1 hi2 hp
              · rw [if_neg hp]; exact hh i hi1 hi2 hi
        have k2 : ∀ i, 1 ≤ i → i ≤ q → i / 2 = qq / 2 →
            V (swap qV qq (qq / 2) i) ≤ V (swap qV qq (qq / 2) (qq / 2 / 2)) := by
          intro i hi1 hi2 hp
          have hg := hh (qq / 2) (by omega) (by omega) (by omega)
          have n1 : ¬ qq / 2 / 2 = qq / 2 := by omega
          have n2 : ¬ qq / 2 / 2 = qq := by omega
          rw [hsw, hsw (qq / 2 / 2), if_neg n1, if_neg n2]
          by_cases hm : i = qq / 2
          · omega
          rw [if_neg hm]
          by_cases hi : i = qq
          · rw [if_pos hi]; exact hg
          · rw [if_neg hi]
            have := hh i hi1 hi2 hi
            rw [hp] at this
            exact this.trans hg
        obtain ⟨qV', e, hp, hH⟩ := ih (qq / 2) (swap qV qq (qq / 2)) (by omega) (by omega) (by omega) k1 k2
        exact ⟨qV', e, hperm.trans hp, hH⟩
    · simp only [if_neg hgt]
      refine ⟨qV, rfl, PermOn.refl _ _ _, ?_⟩
      intro i hi1 hi2
      by_cases hi : i = qq
      · subst hi; exact not_lt.mp hgt
      · exact hh i hi1 (by omega) hi

theorem buildHeap_spec (V : ι → α) : ∀ (m q : ℕ) (qV : ℕ → ι), 1 ≤ q → IsHeap V q qV →
    ∃ qV', buildHeap V m q qV = some qV' ∧ PermOn qV qV' 0 (q + m) ∧ IsHeap V (q + m) qV' := by
  intro m
  induction m with
  | zero => intro q qV _ h; exact ⟨qV, rfl, PermOn.refl _ _ _, h⟩
  | succ m ih =>
    intro q qV hq h
    obtain ⟨a, e, hp, hH⟩ := siftUp_spec V q (q + 1) q qV hq le_rfl (by omega)
      (fun i h1 h2 h3 => h i h1 (by omega)) (fun i h1 h2 h3 => by omega)
    obtain ⟨b, e', hp', hH'⟩ := ih (q + 1) a (by omega) hH
    refine ⟨b, ?_, (hp.mono le_rfl (by omega)).trans (hp'.mono le_rfl (by omega)), ?_⟩
    · rw [buildHeap, e]; exact e'
    · rw [show q + (m + 1) = q + 1 + m by omega]; exact hH'

theorem siftDown_spec (V : ι → α) (q : ℕ) : ∀ (fuel qq q1 : ℕ) (qV : ℕ → ι), 1 ≤ q1 → q1 < q →
    q1 / 2 = qq → q < fuel + q1 →
    (∀ i, 1 ≤ i → i < q → i / 2 ≠ qq → V (qV i) ≤ V (qV (i / 2))) →
    (∀ i, 1 ≤ i → i < q → i / 2 = qq → V (qV i) ≤ V (qV q1)) →
    (1 ≤ qq → ∀ i, 1 ≤ i → i < q → i / 2 = qq → V (qV i) ≤ V (qV (qq / 2))) →
    ∃ qV', siftDown V q fuel qq q1 qV = some qV' ∧ PermOn qV qV' 0 q ∧ IsHeap V q qV' := by
  intro fuel
  induction fuel with
  | zero => intro qq q1 qV _ _ _ h; omega
  | succ fuel ih =>
    intro qq q1 qV h1 h2 hpar hf hh hmax hgp
    rw [siftDown]
    by_cases hlt : V (qV qq) < V (qV q1)
    · simp only [if_pos hlt]
      have hperm : PermOn qV (swap qV qq q1) 0 q := permOn_swap qV (by omega) (by omega)
      have hsw : ∀ x, swap qV qq q1 x =
          if x = q1 then qV qq else if x = qq then qV q1 else qV x := swap_apply _ _ _
      -- the heap below everything but the children of `q1`
      have hh' : ∀ i, 1 ≤ i → i < q → i / 2 ≠ q1 →
          V (swap qV qq q1 i) ≤ V (swap qV qq q1 (i / 2)) := by
        intro i hi1 hi2 hne
        rw [hsw, hsw, if_neg hne]
        by_cases hi : i = q1
        · subst hi; simp only [if_true, if_pos hpar]; exact hlt.le
        · rw [if_neg hi]
          by_cases hiq : i = qq
          · subst hiq
            rw [if_pos rfl, if_neg (by omega)]
            exact hgp hi1 q1 h1 h2 hpar
          · rw [if_neg hiq]
            by_cases hp : i / 2 = qq
            · rw [if_pos hp]; exact hmax i hi1 hi2 hp
            · rw [if_neg hp]; exact hh i hi1 hi2 hp
      have hch : ∀ i, 1 ≤ i → i < q → i / 2 = q1 →
          V (swap qV qq q1 i) ≤ V (swap qV qq q1 (q1 / 2)) := by
        intro i hi1 hi2 hp
        rw [hsw, hsw, if_neg (by omega), if_neg (by omega), if_neg (by omega), if_pos hpar]
        have := hh i hi1 hi2 (by omega)
        rwa [hp] at this
      by_cases hend : 2 * q1 ≥ q
      · rw [if_pos hend]
        refine ⟨_, rfl, hperm, ?_⟩
        intro i hi1 hi2
        exact hh' i hi1 hi2 (by omega)
      · rw [if_neg hend]
        by_cases hc : V (swap qV qq q1 (2 * q1)) < V (swap qV qq q1 (2 * q1 + 1)) ∧ 2 * q1 + 1 < q
        · rw [if_pos hc]
          obtain ⟨b, e, hp, hH⟩ := ih q1 (2 * q1 + 1) (swap qV qq q1) (by omega) hc.2 (by omega)
            (by omega) hh' (by
              intro i hi1 hi2 hp
              have : i = 2 * q1 ∨ i = 2 * q1 + 1 := by omega
              rcases this with rfl | rfl
              · exact hc.1.le
              · exact le_rfl) (fun _ => hch)
          exact ⟨b, e, hperm.trans hp, hH⟩
        · rw [if_neg hc]
          obtain ⟨b, e, hp, hH⟩ := ih q1 (2 * q1) (swap qV qq q1) (by omega) (by omega) (by omega)
            (by omega) hh' (by
              intro i hi1 hi2 hp
              have : i = 2 * q1 ∨ i = 2 * q1 + 1 := by omega
              rcases this with rfl | rfl
              · exact le_rfl
              · by_contra hcc
                exact hc ⟨not_le.mp hcc, hi2⟩) (fun _ => hch)
          exact ⟨b, e, hperm.trans hp, hH⟩
    · simp only [if_neg hlt]
      refine ⟨qV, rfl, PermOn.refl _ _ _, ?_⟩
      intro i hi1 hi2
      by_cases hp : i / 2 = qq
      · rw [hp]; exact (hmax i hi1 hi2 hp).trans (not_lt.mp hlt)
      · exact hh i hi1 hi2 hp

theorem invertHeap_spec (V : ι → α) : ∀ (q : ℕ) (qV : ℕ → ι), IsHeap V (q + 1) qV →
    ∃ qV', invertHeap V q qV = some qV' ∧ PermOn qV qV' 0 (q + 1) ∧
      ∀ a b, a ≤ b → b ≤ q → V (qV' a) ≤ V (qV' b) := by
  intro q
  induction q with
  | zero =>
    intro qV _
    refine ⟨qV, rfl, PermOn.refl _ _ _, ?_⟩
    intro a b h1 h2
    have : a = b := by omega
    rw [this]
  | succ q ih =>
    intro qV hH
    rw [invertHeap]
    have hsw : ∀ x, swap qV (q + 1) 0 x =
        if x = 0 then qV (q + 1) else if x = q + 1 then qV 0 else qV x := swap_apply _ _ _
    have hperm : PermOn qV (swap qV (q + 1) 0) 0 (q + 1 + 1) := permOn_swap qV (by omega) (by omega)
    have hmaxroot := hH.root
    have hbig : ∀ i, i < q + 1 → V (swap qV (q + 1) 0 i) ≤ V (qV 0) := by
      intro i hi
      exact hperm.inside (P := fun x => V x ≤ V (qV 0)) (fun i _ h2 => hmaxroot i h2) (Nat.zero_le i)
        (by omega)
    by_cases h1 : q + 1 = 1
    · simp only [if_pos h1]
      refine ⟨_, rfl, hperm, ?_⟩
      intro a b hab hb
      have hq : q = 0 := by omega
      subst hq
      by_cases hb1 : b = 1
      · subst hb1
        have e : swap qV 1 0 1 = qV 0 := by rw [swap_apply]; simp
        rw [show swap qV (0 + 1) 0 1 = qV 0 from e]
        exact hperm.inside (P := fun x => V x ≤ V (qV 0)) (fun i _ h2 => hmaxroot i h2) (Nat.zero_le a)
          (by omega)
      · have : a = b := by omega
        rw [this]
    · simp only [if_neg h1]
      have hq1 : (if V (swap qV (q + 1) 0 1) < V (swap qV (q + 1) 0 2) ∧ q + 1 > 2 then 2 else 1) = 1 := by
        rw [if_neg]
        rintro ⟨hc, h2⟩
        have := hH 2 (by omega) (by omega)
        rw [hsw, hsw, if_neg (by omega), if_neg (by omega), if_neg (by omega), if_neg (by omega)] at hc
        exact absurd hc (not_lt.mpr this)
      rw [hq1]
      obtain ⟨b, e, hp, hHb⟩ := siftDown_spec V (q + 1) (q + 1) 0 1 (swap qV (q + 1) 0) le_rfl (by omega)
        rfl (by omega) (by
          intro i hi1 hi2 hp
          rw [hsw, hsw, if_neg (by omega), if_neg (by omega), if_neg hp, if_neg (by omega)]
          exact hH i hi1 (by omega)) (by
          intro i hi1 hi2 hp
          have : i = 1 := by omega
          rw [this]) (by omega)
      obtain ⟨c, e', hp', hs⟩ := ih b hHb
      refine ⟨c, by rw [e]; exact e', hperm.trans ((hp.mono le_rfl (by omega)).trans
        (hp'.mono le_rfl (by omega))), ?_⟩
      have hlast : c (q + 1) = qV 0 := by
        rw [hp'.outside (Or.inr le_rfl), hp.outside (Or.inr le_rfl), hsw]; simp
      have hle : ∀ i, i < q + 1 → V (c i) ≤ V (qV 0) := by
        intro i hi
        exact (hp.trans hp').inside (P := fun x => V x ≤ V (qV 0)) (fun i _ h2 => hbig i h2)
          (Nat.zero_le i) hi
      intro x y hxy hy
      by_cases hy1 : y = q + 1
      · subst hy1
        rw [hlast]
        by_cases hx : x = q + 1
        · subst hx; rw [hlast]
        · exact hle x (by omega)
      · exact hs x y hxy (by omega)

end Gandalf.Sorting
