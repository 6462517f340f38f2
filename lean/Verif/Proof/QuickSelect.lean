import Verif.Common
import Verif.Model.QuickSelect
import Mathlib.GroupTheory.Perm.Basic

/-! Lemmas about the QuickSelect model. -/

set_option autoImplicit false

namespace Gandalf.QuickSelect

variable {ι α : Type*}

theorem swap_eq_comp (a : ℕ → ι) (i j : ℕ) : swap a i j = a ∘ Equiv.swap i j := by
  funext x
  simp only [swap, Function.comp, Function.update_apply, Equiv.swap_apply_def]
  by_cases h1 : x = j
  · by_cases h2 : x = i <;> simp_all
  · by_cases h2 : x = i <;> simp_all

/-- `b` is `a` rearranged inside `[l,r)` and untouched elsewhere -/
def PermOn (a b : ℕ → ι) (l r : ℕ) : Prop :=
  ∃ σ : Equiv.Perm ℕ, (∀ i, (i < l ∨ r ≤ i) → σ i = i) ∧ b = a ∘ σ

theorem PermOn.refl (a : ℕ → ι) (l r : ℕ) : PermOn a a l r := ⟨1, by simp, by funext; simp⟩

theorem PermOn.trans {a b c : ℕ → ι} {l r : ℕ} (h1 : PermOn a b l r) (h2 : PermOn b c l r) :
    PermOn a c l r := by
  obtain ⟨σ, hσ, rfl⟩ := h1
  obtain ⟨τ, hτ, rfl⟩ := h2
  refine ⟨σ * τ, ?_, by funext; simp⟩
  intro i hi
  simp [hτ i hi, hσ i hi]

theorem PermOn.mono {a b : ℕ → ι} {l r l' r' : ℕ} (h : PermOn a b l r) (hl : l' ≤ l)
    (hr : r ≤ r') : PermOn a b l' r' := by
  obtain ⟨σ, hσ, rfl⟩ := h
  exact ⟨σ, fun i hi => hσ i (by omega), rfl⟩

theorem PermOn.outside {a b : ℕ → ι} {l r : ℕ} (h : PermOn a b l r) {i : ℕ}
    (hi : i < l ∨ r ≤ i) : b i = a i := by
  obtain ⟨σ, hσ, rfl⟩ := h
  simp [hσ i hi]

theorem perm_maps_range {σ : Equiv.Perm ℕ} {l r : ℕ}
    (hσ : ∀ i, (i < l ∨ r ≤ i) → σ i = i) {i : ℕ} (h : l ≤ i ∧ i < r) : l ≤ σ i ∧ σ i < r := by
  by_contra hc
  have : σ (σ i) = σ i := hσ _ (by omega)
  have := σ.injective this
  omega

theorem PermOn.inside {a b : ℕ → ι} {l r : ℕ} (h : PermOn a b l r) {P : ι → Prop}
    (hP : ∀ i, l ≤ i → i < r → P (a i)) {i : ℕ} (h1 : l ≤ i) (h2 : i < r) : P (b i) := by
  obtain ⟨σ, hσ, rfl⟩ := h
  have := perm_maps_range hσ ⟨h1, h2⟩
  exact hP _ this.1 this.2

theorem permOn_swap (a : ℕ → ι) {i j l r : ℕ} (hi : l ≤ i ∧ i < r) (hj : l ≤ j ∧ j < r) :
    PermOn a (swap a i j) l r := by
  refine ⟨Equiv.swap i j, ?_, swap_eq_comp a i j⟩
  intro x hx
  apply Equiv.swap_apply_of_ne_of_ne <;> omega

theorem swap_apply (a : ℕ → ι) (i j x : ℕ) :
    swap a i j x = if x = j then a i else if x = i then a j else a x := by
  simp [swap, Function.update_apply]

variable [LinearOrder α]

theorem partLoop_spec (key : ι → α) (rp : α) (l r : ℕ) :
    ∀ (m : ℕ) (a : ℕ → ι) (j g : ℕ), j + m = r → l ≤ g → g ≤ j →
    (∀ i, l ≤ i → i < g → key (a i) ≤ rp) → (∀ i, g ≤ i → i < j → rp < key (a i)) →
    PermOn a (partLoop key rp m a j g).1 l r ∧ l ≤ (partLoop key rp m a j g).2 ∧
    (partLoop key rp m a j g).2 ≤ r ∧
    (∀ i, l ≤ i → i < (partLoop key rp m a j g).2 →
      key ((partLoop key rp m a j g).1 i) ≤ rp) ∧
    (∀ i, (partLoop key rp m a j g).2 ≤ i → i < r →
      rp < key ((partLoop key rp m a j g).1 i)) := by
  intro m
  induction m with
  | zero =>
    intro a j g hj hl hg h1 h2
    simp only [partLoop]
    exact ⟨PermOn.refl _ _ _, hl, by omega, h1, by intro i hi hr; exact h2 i hi (by omega)⟩
  | succ m ih =>
    intro a j g hj hl hg h1 h2
    simp only [partLoop]
    split_ifs with hk
    · have := ih (swap a j g) (j+1) (g+1) (by omega) (by omega) (by omega) ?_ ?_
      · exact ⟨(permOn_swap a (by omega) (by omega)).trans this.1, this.2⟩
      · intro i hi hig
        rw [swap_apply]
        by_cases e : i = g
        · simpa [e] using hk
        · rw [if_neg e]
          by_cases e2 : i = j
          · omega
          · rw [if_neg e2]; exact h1 i hi (by omega)
      · intro i hi hig
        rw [swap_apply, if_neg (by omega)]
        split_ifs with e2
        · exact h2 g le_rfl (by omega)
        · exact h2 i (by omega) (by omega)
    · exact ih a (j+1) g (by omega) hl (by omega) h1 (by
        intro i hi hij
        by_cases e : i = j
        · subst e; exact not_le.mp hk
        · exact h2 i hi (by omega))

theorem pass_spec (key : ι → α) (a : ℕ → ι) {l r : ℕ} (hlr : l ≤ r) :
    PermOn a (pass key a l r).1 l (r+1) ∧ l ≤ (pass key a l r).2.1 ∧ (pass key a l r).2.1 ≤ r ∧
    key ((pass key a l r).1 (pass key a l r).2.1) = (pass key a l r).2.2 ∧
    (∀ i, l ≤ i → i < (pass key a l r).2.1 → key ((pass key a l r).1 i) ≤ (pass key a l r).2.2) ∧
    (∀ i, (pass key a l r).2.1 < i → i ≤ r →
      (pass key a l r).2.2 < key ((pass key a l r).1 i)) := by
  have hs := partLoop_spec key (key (a ((l+r)/2))) l r (r-l) (swap a ((l+r)/2) r) l l (by omega)
    le_rfl le_rfl (by intros; omega) (by intros; omega)
  simp only [pass]
  generalize hg : partLoop key (key (a ((l+r)/2))) (r-l) (swap a ((l+r)/2) r) l l = q at hs ⊢
  obtain ⟨b, g⟩ := q
  simp only at hs ⊢
  obtain ⟨hp, h1, h2, h3, h4⟩ := hs
  have hbr : b r = a ((l+r)/2) := by
    rw [hp.outside (by omega), swap_apply]; simp
  refine ⟨?_, h1, h2, ?_, ?_, ?_⟩
  · refine ((permOn_swap a (l := l) (r := r+1) (by omega) (by omega)).trans
      (hp.mono le_rfl (by omega))).trans (permOn_swap b (by omega) (by omega))
  · rw [swap_apply]; simp [hbr]
  · intro i hi hig
    rw [swap_apply, if_neg (by omega), if_neg (by omega)]
    exact h3 i hi hig
  · intro i hi hir
    rw [swap_apply, if_neg (by omega)]
    split_ifs with e
    · exact h4 g le_rfl (by omega)
    · exact h4 i (by omega) (by omega)

theorem quickSelect_spec (key : ι → α) :
    ∀ (fuel : ℕ) (a : ℕ → ι) (l r p : ℕ), l ≤ p → p ≤ r → r - l < fuel →
    ∃ b v, quickSelect key fuel a l r p = some (b, v) ∧ PermOn a b l (r+1) ∧ key (b p) = v ∧
      (∀ i, l ≤ i → i < p → key (b i) ≤ v) ∧ (∀ i, p < i → i ≤ r → v ≤ key (b i)) := by
  intro fuel
  induction fuel with
  | zero => intro a l r p _ _ h; omega
  | succ n ih =>
    intro a l r p h1 h2 hf
    have hs := pass_spec key a (l := l) (r := r) (by omega)
    simp only [quickSelect]
    rw [if_pos ⟨h1, h2⟩]
    generalize pass key a l r = q at hs ⊢
    obtain ⟨b, g, v⟩ := q
    simp only at hs ⊢
    obtain ⟨hp, hl, hr, hk, hlo, hhi⟩ := hs
    rcases lt_trichotomy g p with hgp | hgp | hgp
    · rw [if_pos hgp]
      obtain ⟨c, w, hc, hpc, hkc, hc1, hc2⟩ := ih b (g+1) r p (by omega) h2 (by omega)
      refine ⟨c, w, hc, hp.trans (hpc.mono (by omega) le_rfl), hkc, ?_, hc2⟩
      intro i hi hip
      by_cases e : g + 1 ≤ i
      · exact hc1 i e hip
      · have hw : v < w := by
          rw [← hkc]
          exact hpc.inside (P := fun x => v < key x) (fun i hi hir => hhi i (by omega) (by omega))
            (by omega) (by omega)
        rw [hpc.outside (by omega)]
        refine le_trans ?_ hw.le
        by_cases e2 : i = g
        · subst e2; exact hk.le
        · exact hlo i hi (by omega)
    · subst hgp
      rw [if_neg (by omega), if_neg (by omega)]
      exact ⟨b, v, rfl, hp, hk, hlo, fun i hi hir => (hhi i hi hir).le⟩
    · rw [if_neg (by omega), if_pos hgp]
      obtain ⟨c, w, hc, hpc, hkc, hc1, hc2⟩ := ih b l (g-1) p h1 (by omega) (by omega)
      have hg1 : g - 1 + 1 = g := by omega
      rw [hg1] at hpc
      refine ⟨c, w, hc, hp.trans (hpc.mono le_rfl (by omega)), hkc, hc1, ?_⟩
      intro i hi hir
      by_cases e : i ≤ g - 1
      · exact hc2 i hi e
      · have hw : w ≤ v := by
          rw [← hkc]
          exact hpc.inside (P := fun x => key x ≤ v) (fun i hi hir => hlo i hi hir)
            (by omega) (by omega)
        rw [hpc.outside (by omega)]
        refine hw.trans ?_
        by_cases e2 : i = g
        · subst e2; exact hk.ge
        · exact (hhi i (by omega) hir).le

theorem quickSelect_mono (key : ι → α) :
    ∀ (fuel : ℕ) (a : ℕ → ι) (l r p : ℕ) (x : (ℕ → ι) × α),
    quickSelect key fuel a l r p = some x → ∀ n, fuel ≤ n → quickSelect key n a l r p = some x := by
  intro fuel
  induction fuel with
  | zero => intro a l r p x h; simp [quickSelect] at h
  | succ k ih =>
    intro a l r p x h n hn
    obtain ⟨n, rfl⟩ : ∃ n', n = n' + 1 := ⟨n - 1, by omega⟩
    simp only [quickSelect] at h ⊢
    split_ifs at h ⊢ with h1 h2 h3
    · exact ih _ _ _ _ _ h n (by omega)
    · exact ih _ _ _ _ _ h n (by omega)
    · exact h

/-! ### Reads stay inside the range: two arrays agreeing on `[l,r]` are treated identically. -/

/-- agreement on `[l,r)` -/
def AgreeOn (a b : ℕ → ι) (l r : ℕ) : Prop := ∀ i, l ≤ i → i < r → a i = b i

theorem AgreeOn.swap {a b : ℕ → ι} {l r i j : ℕ} (h : AgreeOn a b l r) (hi : l ≤ i ∧ i < r)
    (hj : l ≤ j ∧ j < r) : AgreeOn (swap a i j) (QuickSelect.swap b i j) l r := by
  intro x h1 h2
  rw [swap_apply, swap_apply, h i hi.1 hi.2, h j hj.1 hj.2, h x h1 h2]

theorem partLoop_local (key : ι → α) (rp : α) (l r : ℕ) :
    ∀ (m : ℕ) (a b : ℕ → ι) (j g : ℕ), j + m < r → l ≤ g → g ≤ j → AgreeOn a b l r →
    AgreeOn (partLoop key rp m a j g).1 (partLoop key rp m b j g).1 l r ∧
    (partLoop key rp m a j g).2 = (partLoop key rp m b j g).2 := by
  intro m
  induction m with
  | zero => intro a b j g _ _ _ h; exact ⟨h, rfl⟩
  | succ m ih =>
    intro a b j g hj hl hg h
    simp only [partLoop, h j (by omega) (by omega)]
    split_ifs with hk
    · exact ih _ _ _ _ (by omega) (by omega) (by omega) (h.swap (by omega) (by omega))
    · exact ih _ _ _ _ (by omega) (by omega) (by omega) h

theorem pass_local (key : ι → α) (a b : ℕ → ι) {l r L R : ℕ} (hlr : l ≤ r) (hL : L ≤ l)
    (hR : r < R) (h : AgreeOn a b L R) :
    AgreeOn (pass key a l r).1 (pass key b l r).1 L R ∧
    (pass key a l r).2 = (pass key b l r).2 := by
  have hm := h ((l+r)/2) (by omega) (by omega)
  have hp := partLoop_local key (key (b ((l+r)/2))) L R (r-l) _ _ l l (by omega) (by omega) le_rfl
    (h.swap (i := (l+r)/2) (j := r) (by omega) (by omega))
  have hs := partLoop_spec key (key (b ((l+r)/2))) l r (r-l) (swap a ((l+r)/2) r) l l (by omega)
    le_rfl le_rfl (by intros; omega) (by intros; omega)
  simp only [pass, hm]
  obtain ⟨p1, p2⟩ := hp
  rw [p2]
  rw [p2] at hs
  exact ⟨p1.swap (by omega) (by omega), rfl⟩

theorem quickSelect_local (key : ι → α) {L R : ℕ} :
    ∀ (fuel : ℕ) (a b : ℕ → ι) (l r p : ℕ), L ≤ l → r < R → AgreeOn a b L R →
    ∀ a' v, quickSelect key fuel a l r p = some (a', v) →
    ∃ b', quickSelect key fuel b l r p = some (b', v) ∧ AgreeOn a' b' L R := by
  intro fuel
  induction fuel with
  | zero => intro a b l r p _ _ _ a' v h; simp [quickSelect] at h
  | succ n ih =>
    intro a b l r p hL hR hab a' v h
    simp only [quickSelect] at h ⊢
    split_ifs at h with h1 h2 h3
    all_goals
      have hlr : l ≤ r := by omega
      obtain ⟨q1, q2⟩ := pass_local key a b hlr hL hR hab
      have q3 := pass_spec key a hlr
      rw [if_pos h1, ← q2]
    · rw [if_pos h2]; exact ih _ _ _ _ _ (by omega) hR q1 _ _ h
    · rw [if_neg h2, if_pos h3]; exact ih _ _ _ _ _ hL (by omega) q1 _ _ h
    · rw [if_neg h2, if_neg h3]
      simp only [Option.some.injEq, Prod.mk.injEq] at h
      obtain ⟨rfl, rfl⟩ := h
      exact ⟨_, rfl, q1⟩

end Gandalf.QuickSelect

namespace Gandalf.QuickSelect
variable {ι : Type*}

/-- entries `l, l+1, …, l+n-1` of an array, as a list -/
def slice (a : ℕ → ι) (l n : ℕ) : List ι := (List.range' l n).map a

theorem PermOn.slice_perm {a b : ℕ → ι} {l r : ℕ} (h : PermOn a b l r) :
    (slice b l (r - l)).Perm (slice a l (r - l)) := by
  obtain ⟨σ, hσ, rfl⟩ := h
  have : ((List.range' l (r-l)).map σ).Perm (List.range' l (r-l)) := by
    rw [List.perm_ext_iff_of_nodup ((List.nodup_range').map σ.injective) List.nodup_range']
    intro x
    simp only [List.mem_map, List.mem_range'_1]
    constructor
    · rintro ⟨y, hy, rfl⟩
      have := perm_maps_range hσ (i := y) (by omega)
      omega
    · intro hx
      refine ⟨σ.symm x, ?_, by simp⟩
      by_contra hc
      have h2 := hσ (σ.symm x) (by omega)
      rw [Equiv.apply_symm_apply] at h2
      rw [← h2] at hc
      exact hc hx
  simpa [slice, List.map_map] using this.map a

end Gandalf.QuickSelect
