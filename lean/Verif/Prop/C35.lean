import Verif.Proof.Sorting

/-!
# C35 – the sorting helpers sort
-/

set_option autoImplicit false

namespace Gandalf

open Sorting QuickSelect

variable {ι α : Type*} [LinearOrder α]

/-- first `N` entries of an array -/
def firstEntries {β : Type*} (N : ℕ) (a : ℕ → β) : List β := (List.range N).map a

theorem pairwise_firstEntries {β : Type*} {R : β → β → Prop} {N : ℕ} {a : ℕ → β}
    (h : ∀ i j, i < j → j < N → R (a i) (a j)) : (firstEntries N a).Pairwise R := by
  rw [firstEntries, List.pairwise_map]
  exact List.pairwise_lt_range.imp_of_mem fun {i j} _ hj hij => h i j hij (List.mem_range.mp hj)

/-- **C35, tandem insertion sort.** For every length and content: the keys come out ascending, key and
payload stay together (the list of pairs is permuted), and nothing beyond the first `N` entries is
touched. -/
theorem C35_insertionSortIds (N : ℕ) (ids : ℕ → ι) (r : ℕ → α) :
    let s := insertionSortIds N ids r
    (firstEntries N s.1).Pairwise (· ≤ ·) ∧
    (firstEntries N fun i => (s.1 i, s.2 i)).Perm (firstEntries N fun i => (r i, ids i)) ∧
    ∀ i, N ≤ i → s.1 i = r i ∧ s.2 i = ids i := by
  intro s
  rcases Nat.eq_zero_or_pos N with rfl | hN
  · exact ⟨List.Pairwise.nil, List.Perm.refl _, fun i _ => ⟨rfl, rfl⟩⟩
  obtain ⟨h1, h2⟩ := insertIds_fold (N - 1) 1 (r, ids) (fun a b h1 h2 => by
    have : a = b := by omega
    rw [this])
  have e : 1 + (N - 1) = N := by omega
  rw [e] at h1 h2
  refine ⟨?_, PermOn.list_perm h1, ?_⟩
  · exact pairwise_firstEntries fun i j hij hj => h2 i j hij.le hj
  · intro i hi
    have := h1.outside (i := i) (Or.inr hi)
    exact Prod.mk.inj this

/-- **C35, insertion sort.** -/
theorem C35_insertionSort (N : ℕ) (r : ℕ → α) :
    (firstEntries N (insertionSort N r)).Pairwise (· ≤ ·) ∧
    (firstEntries N (insertionSort N r)).Perm (firstEntries N r) ∧
    ∀ i, N ≤ i → insertionSort N r i = r i := by
  have key : ∀ (l : List ℕ) (s : (ℕ → α) × (ℕ → Unit)),
      l.foldl insertStep s.1 = (l.foldl insertIdsStep s).1 := by
    intro l
    induction l with
    | nil => intro s; rfl
    | cons j l ih =>
      intro s
      rw [List.foldl_cons, List.foldl_cons, ← ih]
      congr 1
      simp only [insertStep, insertIdsStep, insertLoop_eq]
  have e : insertionSort N r = (insertionSortIds N (fun _ => ()) r).1 :=
    key _ (r, fun _ => ())
  obtain ⟨h1, h2, h3⟩ := C35_insertionSortIds N (fun _ => ()) r
  rw [e]
  refine ⟨h1, ?_, fun i hi => (h3 i hi).1⟩
  have := h2.map Prod.fst
  simp only [firstEntries, List.map_map] at this
  exact this

/-- **C35, heapsort.** For every number of values the routine ends; the ids it returns are the numbers
`0 … N-1`, each once, in ascending order of their values; nothing beyond `qV[N-1]` is written. -/
theorem C35_heapsort (N : ℕ) (qV0 : ℕ → ℕ) (V : ℕ → α) :
    ∃ qV, heapsort N qV0 V = some qV ∧
      (firstEntries N qV).Perm (List.range N) ∧
      (firstEntries N fun i => V (qV i)).Pairwise (· ≤ ·) ∧
      ∀ i, N ≤ i → qV i = qV0 i := by
  set q0 : ℕ → ℕ := fun q => if q < N then N - q - 1 else qV0 q with hq0
  rcases Nat.eq_zero_or_pos N with rfl | hN
  · exact ⟨q0, rfl, List.Perm.refl _, List.Pairwise.nil, fun i _ => by simp [hq0]⟩
  obtain ⟨a, e1, p1, hH⟩ := buildHeap_spec V (N - 1) 1 q0 le_rfl (fun i h1 h2 => by omega)
  rw [show 1 + (N - 1) = N - 1 + 1 by omega] at p1 hH
  obtain ⟨b, e2, p2, hs⟩ := invertHeap_spec V (N - 1) a hH
  rw [show N - 1 + 1 = N by omega] at p1 p2
  refine ⟨b, ?_, ?_, ?_, ?_⟩
  · change (buildHeap V (N - 1) 1 q0).bind (invertHeap V (N - 1)) = _
    rw [e1]; exact e2
  · refine (PermOn.list_perm (p1.trans p2)).trans ?_
    have : (List.range N).map q0 = (List.range N).reverse := by
      apply List.ext_getElem
      · simp
      · intro i h1 h2
        have : i < N := by simpa using h1
        simp only [List.getElem_map, List.getElem_range, List.getElem_reverse, List.length_range, hq0,
          if_pos this]
        omega
    rw [this]
    exact List.reverse_perm _
  · exact pairwise_firstEntries fun i j hij hj => hs i j hij.le (by omega)
  · intro i hi
    rw [(p1.trans p2).outside (Or.inr hi), hq0]
    simp only [if_neg (not_lt.mpr hi)]

/-- a case with repeated values -/
example : ((heapsort 6 (fun _ => 99) (fun i => ([5, 1, 4, 1, 3, 2] : List ℕ).getD i 0)).map
    fun qV => (firstEntries 7 qV)) = some [1, 3, 5, 4, 2, 0, 99] := by decide +kernel
example : let s := insertionSortIds 4 (fun i => i) (fun i => ([3, 1, 2, 1, 0] : List ℕ).getD i 0)
    firstEntries 5 s.1 = [1, 1, 2, 3, 0] ∧ firstEntries 4 s.2 = [1, 3, 2, 0] := by decide +kernel

end Gandalf
