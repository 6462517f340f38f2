import Verif.Proof.QuickSelect

/-!
# C01 – median split of a tree cell  (KDTree::QuickSelect)
-/

set_option autoImplicit false

namespace Gandalf

/-- What a user of the median split may rely on: `after` is `before` with the entries of positions
`l..r` rearranged, and position `p` separates them at coordinate `v`. -/
structure IsMedianSplit {ι α : Type*} [LE α] (key : ι → α) (before after : ℕ → ι)
    (l r p : ℕ) (v : α) : Prop where
  /-- ids outside the range are untouched -/
  outside : ∀ i, i < l ∨ r < i → after i = before i
  /-- ids inside the range are only permuted (with multiplicity) -/
  perm : ((List.range' l (r + 1 - l)).map after).Perm ((List.range' l (r + 1 - l)).map before)
  /-- the returned division coordinate is the coordinate of the particle at the split position -/
  value : key (after p) = v
  /-- nothing before the split is beyond the division coordinate -/
  low : ∀ i, l ≤ i → i < p → key (after i) ≤ v
  /-- nothing at or after the split is below it -/
  high : ∀ i, p ≤ i → i ≤ r → v ≤ key (after i)

open QuickSelect in
/-- **C01.** For every id array, every range `[l,r]`, every split position in it and every coordinate
assignment (ties allowed), QuickSelect finishes within `r-l+1` turns and yields a median split. -/
theorem C01_quickSelect_median {ι α : Type*} [LinearOrder α] (key : ι → α) (ids : ℕ → ι)
    (l r p : ℕ) (hl : l ≤ p) (hr : p ≤ r) :
    ∃ ids' v, (∀ fuel, r - l + 1 ≤ fuel → quickSelect key fuel ids l r p = some (ids', v)) ∧
      IsMedianSplit key ids ids' l r p v := by
  obtain ⟨b, v, h, hp, hk, h1, h2⟩ := quickSelect_spec key (r-l+1) ids l r p hl hr (by omega)
  refine ⟨b, v, fun fuel hf => quickSelect_mono key _ _ _ _ _ _ h fuel hf, ?_⟩
  refine ⟨fun i hi => hp.outside (by omega), hp.slice_perm, hk, h1, ?_⟩
  intro i hi hir
  rcases Nat.eq_or_lt_of_le hi with rfl | hlt
  · exact hk.ge
  · exact h2 i hlt hir

open QuickSelect in
/-- **C01 (halves).** Consequently every particle placed before the split position has a coordinate
not exceeding that of every particle placed at or after it. -/
theorem C01_quickSelect_halves {ι α : Type*} [LinearOrder α] (key : ι → α) (ids ids' : ℕ → ι)
    (l r p : ℕ) (hl : l ≤ p) (hr : p ≤ r) (v : α) (fuel : ℕ)
    (h : quickSelect key fuel ids l r p = some (ids', v)) (i j : ℕ) (hi : l ≤ i) (hip : i < p)
    (hj : p ≤ j) (hjr : j ≤ r) : key (ids' i) ≤ key (ids' j) := by
  obtain ⟨b, w, hb, hm⟩ := C01_quickSelect_median key ids l r p hl hr
  have h2 := quickSelect_mono key _ _ _ _ _ _ h (max fuel (r-l+1)) (le_max_left _ _)
  rw [hb _ (le_max_right _ _)] at h2
  simp only [Option.some.injEq, Prod.mk.injEq] at h2
  obtain ⟨rfl, rfl⟩ := h2
  exact (hm.low i hi hip).trans (hm.high j hj hjr)

open QuickSelect in
/-- **C01 (reads in range).** The outcome depends only on the ids in `[l,r]`: two arrays that agree
there give the same division coordinate and the same ids in the range. -/
theorem C01_quickSelect_reads_in_range {ι α : Type*} [LinearOrder α] (key : ι → α)
    (ids₁ ids₂ : ℕ → ι) (l r p : ℕ) (h : ∀ i, l ≤ i → i ≤ r → ids₁ i = ids₂ i)
    (fuel : ℕ) (out : ℕ → ι) (v : α) (hq : quickSelect key fuel ids₁ l r p = some (out, v)) :
    ∃ out₂, quickSelect key fuel ids₂ l r p = some (out₂, v) ∧
      ∀ i, l ≤ i → i ≤ r → out i = out₂ i := by
  obtain ⟨b, hb, hag⟩ := quickSelect_local key fuel ids₁ ids₂ l r p le_rfl (Nat.lt_succ_self r)
    (fun i h1 h2 => h i h1 (by omega)) out v hq
  exact ⟨b, hb, fun i h1 h2 => hag i h1 (by omega)⟩


/-- Non-trivial instance: ids 2..6 with tied coordinates 3,1,3,2,3, split at position 4. -/
example : ((QuickSelect.quickSelect (fun i : ℕ => if i = 3 then 1 else if i = 5 then 2 else 3) 5 id
      2 6 4).map fun q => ((List.range 8).map q.1, q.2)) = some ([0, 1, 3, 5, 2, 6, 4, 7], 3) := by
  decide

end Gandalf
