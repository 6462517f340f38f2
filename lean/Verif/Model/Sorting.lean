import Verif.Model.QuickSelect

/-!
# Sorting helpers (src/Headers/InlineFuncs.h:128-248)

Arrays are functions `ℕ → β` with `Function.update` for a store; `QuickSelect.swap` is the exchange
through a temporary.
-/

set_option autoImplicit false

namespace Gandalf.Sorting

open QuickSelect (swap)

variable {ι α : Type*} [LinearOrder α]

/-- inner loop of `InsertionSort`, InlineFuncs.h:210-213: `i = k-1` downwards. Returns the array and the
final `i + 1`. -/
def insertLoop (raux : α) : ℕ → (ℕ → α) → (ℕ → α) × ℕ
  | 0, r => (r, 0)
  | k + 1, r => if r k ≤ raux then (r, k + 1) else insertLoop raux k (Function.update r (k + 1) (r k))

/-- body of the outer loop, InlineFuncs.h:209-214 -/
def insertStep (r : ℕ → α) (j : ℕ) : ℕ → α :=
  let raux := r j
  let p := insertLoop raux j r
  Function.update p.1 p.2 raux

/-- `InsertionSort`, InlineFuncs.h:200-218 -/
def insertionSort (Nsort : ℕ) (r : ℕ → α) : ℕ → α :=
  (List.range' 1 (Nsort - 1)).foldl insertStep r

/-- inner loop of `InsertionSortIds`, InlineFuncs.h:238-242 -/
def insertIdsLoop (raux : α) : ℕ → (ℕ → α) × (ℕ → ι) → ((ℕ → α) × (ℕ → ι)) × ℕ
  | 0, s => (s, 0)
  | k + 1, s => if s.1 k ≤ raux then (s, k + 1) else
      insertIdsLoop raux k (Function.update s.1 (k + 1) (s.1 k), Function.update s.2 (k + 1) (s.2 k))

/-- body of the outer loop, InlineFuncs.h:236-244 -/
def insertIdsStep (s : (ℕ → α) × (ℕ → ι)) (j : ℕ) : (ℕ → α) × (ℕ → ι) :=
  let raux := s.1 j
  let iaux := s.2 j
  let p := insertIdsLoop raux j s
  (Function.update p.1.1 p.2 raux, Function.update p.1.2 p.2 iaux)

/-- `InsertionSortIds`, InlineFuncs.h:226-248 -/
def insertionSortIds (Nsort : ℕ) (ids : ℕ → ι) (r : ℕ → α) : (ℕ → α) × (ℕ → ι) :=
  (List.range' 1 (Nsort - 1)).foldl insertIdsStep (r, ids)

/-- the `while` loop of the heap building, InlineFuncs.h:152-156; `none`: loop longer than `fuel` -/
def siftUp (V : ι → α) : ℕ → ℕ → (ℕ → ι) → Option (ℕ → ι)
  | 0, _, _ => none
  | fuel + 1, qq, qV =>
    let q1 := qq / 2
    if V (qV qq) > V (qV q1) then
      let qV' := swap qV qq q1
      if q1 = 0 then some qV' else siftUp V fuel q1 qV'
    else some qV

/-- heap building, InlineFuncs.h:149-157: the turns `q, q+1, …` (`m` of them) -/
def buildHeap (V : ι → α) : ℕ → ℕ → (ℕ → ι) → Option (ℕ → ι)
  | 0, _, qV => some qV
  | m + 1, q, qV => (siftUp V (q + 1) q qV).bind (buildHeap V m (q + 1))

/-- the `while` loop of the heap inversion, InlineFuncs.h:171-176 -/
def siftDown (V : ι → α) (q : ℕ) : ℕ → ℕ → ℕ → (ℕ → ι) → Option (ℕ → ι)
  | 0, _, _, _ => none
  | fuel + 1, qq, q1, qV =>
    if V (qV qq) < V (qV q1) then
      let qV' := swap qV qq q1
      let qq' := q1
      let q1' := 2 * qq'
      if q1' ≥ q then some qV'
      else if V (qV' q1') < V (qV' (q1' + 1)) ∧ q1' + 1 < q then siftDown V q fuel qq' (q1' + 1) qV'
      else siftDown V q fuel qq' q1' qV'
    else some qV

/-- heap inversion, InlineFuncs.h:166-177: turns `q, q-1, …, 1` -/
def invertHeap (V : ι → α) : ℕ → (ℕ → ι) → Option (ℕ → ι)
  | 0, qV => some qV
  | q + 1, qV =>
    let qV' := swap qV (q + 1) 0
    if q + 1 = 1 then some qV'
    else
      let q1 := if V (qV' 1) < V (qV' 2) ∧ q + 1 > 2 then 2 else 1
      (siftDown V (q + 1) (q + 1) 0 q1 qV').bind (invertHeap V q)

/-- `Heapsort`, InlineFuncs.h:135-192. `qV0` is the content of `qV` on entry. -/
def heapsort (N : ℕ) (qV0 : ℕ → ℕ) (V : ℕ → α) : Option (ℕ → ℕ) :=
  let qV : ℕ → ℕ := fun q => if q < N then N - q - 1 else qV0 q
  (buildHeap V (N - 1) 1 qV).bind (invertHeap V (N - 1))

end Gandalf.Sorting
