import Verif.Proof.Snapshot

/-! Lemmas on the column format, on the headers and on files written by several processes (C80). -/

set_option autoImplicit false
set_option linter.unusedSectionVars false

namespace Gandalf.Snap
open Units (Quantity SimUnit)

/-! ## Headers -/

theorem skip_zero : Reads (skip 0) [] () := by
  intro rest
  simp [skip, skip.go]

theorem skip_go_all (l rest : List Tok) (h : ∀ a ∈ l, 0 < a.size) :
    skip.go ((l.map Tok.size).sum) (l ++ rest) = some ((), rest) := by
  induction l with
  | nil => simp [skip.go]
  | cons a l ih =>
    have ha := h a (by simp)
    have ih := ih fun b hb => h b (by simp [hb])
    simp only [List.map_cons, List.sum_cons, List.cons_append]
    obtain ⟨m, hm⟩ : ∃ m, a.size + (l.map Tok.size).sum = m + 1 := ⟨a.size + (l.map Tok.size).sum - 1, by omega⟩
    rw [hm, skip.go, if_pos (by omega), ← hm, Nat.add_sub_cancel_left]
    exact ih

theorem size_pos (a : Tok) : 0 < a.size := by cases a <;> simp [Tok.size]

theorem reads_skip (l : List Tok) {N : ℕ} (h : N = (l.map Tok.size).sum) : Reads (skip N) l () := by
  subst h
  exact fun rest => skip_go_all l rest fun a _ => size_pos a

/-! ## The column format -/

theorem reads_rRows {γ : Type} {w : ℕ} {g : γ → List Tok} {v : γ → List ℝ} (as : List γ)
    (h : ∀ a ∈ as, Reads (rN rReal w) (g a) (v a)) (hne : ∀ a ∈ as, g a ≠ []) {N : ℕ} (hN : N = as.length) :
    Reads (rRows w N) (as.flatMap g) (as.map fun a => some (v a)) := by
  subst hN
  induction as with
  | nil => exact reads_pure _
  | cons a as ih =>
    intro rest
    have hk := reads_bind (k := fun x => rRows w as.length >>= fun xs => pure (some x :: xs)) (h a (by simp))
      (reads_bind_pure (g := fun xs => some (v a) :: xs)
      (ih (fun b hb => h b (by simp [hb])) (fun b hb => hne b (by simp [hb])))) rest
    simp only [List.length_cons, List.flatMap_cons, List.map_cons]
    unfold rRows
    cases hg : g a with
    | nil => exact absurd hg (hne a (by simp))
    | cons t ts =>
      rw [hg] at hk
      simpa using hk

theorem rRows_nil (w N : ℕ) : rRows w N [] = some (List.replicate N none, []) := by
  cases N <;> rfl

/-- the numbers of a line of a particle -/
noncomputable def rowVals {n : ℕ} (rnd : ℝ → ℝ) (U : Scale) (p : Part n) : List ℝ :=
  (List.ofFn fun k => rnd (U.out .r (p.r k))) ++ (List.ofFn fun k => rnd (U.out .v (p.v k))) ++
    [rnd (U.out .m p.m), rnd (U.out .r p.h), rnd (U.out .rho p.rho), rnd (U.out .u p.u)]

/-- the numbers of a line of a star -/
noncomputable def starVals {n : ℕ} (rnd : ℝ → ℝ) (U : Scale) (a : Star n) : List ℝ :=
  (List.ofFn fun k => rnd (U.out .r (a.r k))) ++ (List.ofFn fun k => rnd (U.out .v (a.v k))) ++
    [rnd (U.out .m a.m), rnd (U.out .r a.h), rnd 0, rnd 0]

theorem columnRow_eq {n : ℕ} (rnd : ℝ → ℝ) (U : Scale) (p : Part n) :
    columnRow rnd U p = (rowVals rnd U p).map .real := by
  simp [columnRow, rowVals, List.map_ofFn, Function.comp_def]

theorem columnStar_eq {n : ℕ} (rnd : ℝ → ℝ) (U : Scale) (a : Star n) :
    columnStar rnd U a = (starVals rnd U a).map .real := by
  simp [columnStar, starVals, List.map_ofFn, Function.comp_def]

theorem reads_row {n : ℕ} (rnd : ℝ → ℝ) (U : Scale) (p : Part n) :
    Reads (rN rReal (2 * n + 4)) (columnRow rnd U p) (rowVals rnd U p) := by
  rw [columnRow_eq]
  exact (reads_rN_map (v := id) _ (fun x _ => reads_real x) (by simp [rowVals]; omega)).cast (by simp)

theorem reads_starRow {n : ℕ} (rnd : ℝ → ℝ) (U : Scale) (a : Star n) :
    Reads (rN rReal (2 * n + 4)) (columnStar rnd U a) (starVals rnd U a) := by
  rw [columnStar_eq]
  exact (reads_rN_map (v := id) _ (fun x _ => reads_real x) (by simp [starVals]; omega)).cast (by simp)

section getD
variable {n : ℕ} (a b : Vec n ℝ) (c0 c1 c2 c3 : ℝ)

theorem getD_first (k : Fin n) : (List.ofFn a ++ List.ofFn b ++ [c0, c1, c2, c3]).getD k 0 = a k := by
  simp [List.getD_eq_getElem?_getD, List.getElem?_append]

theorem getD_second (k : Fin n) : (List.ofFn a ++ List.ofFn b ++ [c0, c1, c2, c3]).getD (n + k) 0 = b k := by
  simp [List.getD_eq_getElem?_getD, List.getElem?_append]

theorem getD_tail : (List.ofFn a ++ List.ofFn b ++ [c0, c1, c2, c3]).getD (2 * n) 0 = c0 ∧
    (List.ofFn a ++ List.ofFn b ++ [c0, c1, c2, c3]).getD (2 * n + 1) 0 = c1 ∧
    (List.ofFn a ++ List.ofFn b ++ [c0, c1, c2, c3]).getD (2 * n + 2) 0 = c2 ∧
    (List.ofFn a ++ List.ofFn b ++ [c0, c1, c2, c3]).getD (2 * n + 3) 0 = c3 := by
  have h (j : ℕ) : (List.ofFn a ++ List.ofFn b ++ [c0, c1, c2, c3]).getD (2 * n + j) 0 = [c0, c1, c2, c3].getD j 0 := by
    rw [List.getD_eq_getElem?_getD, List.getElem?_append_right (by simp; omega)]
    simp only [List.length_append, List.length_ofFn]
    rw [show 2 * n + j - (n + n) = j by omega, List.getD_eq_getElem?_getD]
  exact ⟨h 0, h 1, h 2, h 3⟩

end getD

/-- a particle as it comes back from a column file, before conversion -/
noncomputable def Part.colVal {n : ℕ} (rnd : ℝ → ℝ) (U : Scale) (blank p : Part n) : Part n :=
  ⟨blank.ptype, blank.dead, blank.iorig, fun k => rnd (U.out .r (p.r k)), fun k => rnd (U.out .v (p.v k)),
    rnd (U.out .m p.m), rnd (U.out .r p.h), rnd (U.out .rho p.rho), rnd (U.out .u p.u)⟩

/-- a star as it comes back from a column file, before conversion -/
noncomputable def Star.colVal {n : ℕ} (rnd : ℝ → ℝ) (U : Scale) (blank a : Star n) : Star n :=
  ⟨fun k => rnd (U.out .r (a.r k)), fun k => rnd (U.out .v (a.v k)), rnd (U.out .m a.m), rnd (U.out .r a.h),
    blank.radius⟩

theorem columnPart_row {n : ℕ} (rnd : ℝ → ℝ) (U : Scale) (blank p : Part n) :
    columnPart blank (some (rowVals rnd U p)) = Part.colVal rnd U blank p := by
  have t := getD_tail (fun k => rnd (U.out .r (p.r k))) (fun k => rnd (U.out .v (p.v k))) (rnd (U.out .m p.m))
    (rnd (U.out .r p.h)) (rnd (U.out .rho p.rho)) (rnd (U.out .u p.u))
  simp only [columnPart, Part.colVal, rowVals, getD_first, getD_second, t]

theorem columnReadStar_row {n : ℕ} (rnd : ℝ → ℝ) (U : Scale) (blank a : Star n) :
    columnReadStar blank (some (starVals rnd U a)) = Star.colVal rnd U blank a := by
  have t := getD_tail (fun k => rnd (U.out .r (a.r k))) (fun k => rnd (U.out .v (a.v k))) (rnd (U.out .m a.m))
    (rnd (U.out .r a.h)) (rnd 0) (rnd 0)
  simp only [columnReadStar, Star.colVal, starVals, getD_first, getD_second, t]

theorem columnRow_ne {n : ℕ} (rnd : ℝ → ℝ) (U : Scale) (p : Part n) : columnRow rnd U p ≠ [] := by
  simp [columnRow]

theorem columnStar_ne {n : ℕ} (rnd : ℝ → ℝ) (U : Scale) (a : Star n) : columnStar rnd U a ≠ [] := by
  simp [columnStar]

theorem reads_columnHeader (rnd : ℝ → ℝ) (U : Scale) (n : ℕ) (N Ns : ℤ) (t : ℝ) :
    Reads (rColumnHeader U n) [.int N, .int Ns, .int n, .real (rnd t)] ⟨n, N, Ns, rnd t / (U.unit .t).inscale⟩ := by
  unfold rColumnHeader
  refine reads_bind (l := [.int N]) (reads_int N) (reads_bind (l := [.int Ns]) (reads_int Ns) (reads_bind
    (l := [.int n]) (reads_int n) (reads_bind (l := [.real (rnd t)]) (l' := []) (reads_real _) ?_)))
  rw [if_pos rfl]
  exact reads_pure _

theorem reads_column {n : ℕ} (kernrange : ℝ) (rnd : ℝ → ℝ) (U : Scale) (blank : Part n) (blankStar : Star n)
    (x s : Sim n) : Reads (readColumn kernrange U blank blankStar s) (writeColumn rnd U x)
      { s with
        t := rnd (U.out .t x.t) / (U.unit .t).inscale
        tsnaplast := rnd (U.out .t x.t) / (U.unit .t).inscale
        parts := x.parts.map (Part.colVal rnd U blank)
        stars := x.stars.map (Star.colVal rnd U blankStar)
        sinkRadius := x.stars.map fun a => kernrange * rnd (U.out .r a.h) } := by
  unfold readColumn writeColumn
  simp only [List.append_assoc]
  refine reads_bind (reads_columnHeader rnd U n _ _ _) ?_
  simp only [Int.toNat_natCast]
  refine reads_bind (reads_rRows x.parts (fun p _ => reads_row rnd U p) (fun p _ => columnRow_ne rnd U p) rfl) ?_
  refine (reads_bind_pure (reads_rRows x.stars (fun p _ => reads_starRow rnd U p) (fun p _ => columnStar_ne rnd U p)
    rfl)).cast ?_
  simp only [List.map_map, Function.comp_def, columnPart_row, columnReadStar_row]
  rfl

theorem bind_some {β γ : Type} {r : Rd β} {k : β → Rd γ} {l l' : List Tok} {x : β} (h : r l = some (x, l')) :
    (r >>= k) l = k x l' := by
  show (StateT.bind r k) l = _
  simp only [StateT.bind, h]
  rfl

/-- a file of the MPI version ends with the particles -/
theorem read_columnMpi {n : ℕ} (kernrange : ℝ) (rnd : ℝ → ℝ) (U : Scale) (blank : Part n) (blankStar : Star n)
    (ranks : List (Sim n)) (t : ℝ) (s : Sim n) :
    ∃ s', readColumn kernrange U blank blankStar s (writeColumnMpi rnd U ranks t) = some (s', []) ∧
      s'.parts = (ranks.flatMap Sim.parts).map (Part.colVal rnd U blank) ∧
      s'.stars = List.replicate ((ranks.map fun s => s.stars.length).sum) blankStar := by
  have hN : (ranks.map fun s => (s.parts.length : ℤ)).sum = ((ranks.flatMap Sim.parts).length : ℕ) := by
    induction ranks with
    | nil => rfl
    | cons a l ih => simp [ih]
  have hNs : (ranks.map fun s => (s.stars.length : ℤ)).sum = ((ranks.map fun s => s.stars.length).sum : ℕ) := by
    induction ranks with
    | nil => rfl
    | cons a l ih => simp at ih ⊢; rw [ih (by simpa using hN)]
  have e : (ranks.flatMap fun s => s.parts.flatMap (columnRow rnd U)) =
      (ranks.flatMap Sim.parts).flatMap (columnRow rnd U) := by
    rw [List.flatMap_assoc]
  unfold writeColumnMpi
  rw [e, hN, hNs]
  have h1 := reads_columnHeader rnd U n ((ranks.flatMap Sim.parts).length : ℕ)
    ((ranks.map fun s => s.stars.length).sum : ℕ) (U.out .t t)
  have h2 := reads_rRows (w := 2 * n + 4) (ranks.flatMap Sim.parts) (fun p _ => reads_row rnd U p)
    (fun p _ => columnRow_ne rnd U p) rfl
  unfold readColumn
  refine ⟨{ s with
    t := rnd (U.out .t t) / (U.unit .t).inscale
    tsnaplast := rnd (U.out .t t) / (U.unit .t).inscale
    parts := (ranks.flatMap Sim.parts).map (Part.colVal rnd U blank)
    stars := List.replicate ((ranks.map fun s => s.stars.length).sum) blankStar
    sinkRadius := List.replicate ((ranks.map fun s => s.stars.length).sum) (kernrange * blankStar.h) }, ?_, rfl, rfl⟩
  have h2' := h2 []
  rw [List.append_nil] at h2'
  refine (bind_some (h1 _)).trans ?_
  simp only [Int.toNat_natCast]
  refine (bind_some h2').trans ((bind_some (rRows_nil _ _)).trans ?_)
  show some _ = some _
  simp only [List.map_map, Function.comp_def, columnPart_row, List.map_replicate, columnReadStar]

/-! ## Several processes -/

/-- the disk holds the values `L` from position `pos` on -/
def Disk.Holds (d : Disk) (pos : ℕ) (L : List Tok) : Prop := ∀ j, j < L.length → d (pos + j) = L[j]?

theorem flatten_block {β : Type} (bs : List (List β)) (k j : ℕ) (h : j < (bs.getD k []).length) :
    bs.flatten[((bs.take k).map List.length).sum + j]? = (bs.getD k [])[j]? := by
  induction bs generalizing k with
  | nil => simp at h
  | cons b bs ih =>
    cases k with
    | zero =>
      simp at h ⊢
      rw [List.getElem?_append_left h]
    | succ k =>
      simp only [List.take_succ_cons, List.map_cons, List.sum_cons, List.flatten_cons, List.getD_cons_succ] at h ⊢
      rw [add_assoc, List.getElem?_append_right (by omega), Nat.add_sub_cancel_left]
      exact ih k h

theorem exists_block {β : Type} (bs : List (List β)) (j : ℕ) (h : j < bs.flatten.length) :
    ∃ k, k < bs.length ∧ ((bs.take k).map List.length).sum ≤ j ∧
      j - ((bs.take k).map List.length).sum < (bs.getD k []).length := by
  induction bs generalizing j with
  | nil => simp at h
  | cons b bs ih =>
    by_cases hj : j < b.length
    · exact ⟨0, by simp, by simp, by simpa using hj⟩
    · simp only [List.flatten_cons, List.length_append] at h
      obtain ⟨k, h1, h2, h3⟩ := ih (j - b.length) (by omega)
      refine ⟨k + 1, by simpa using h1, ?_, ?_⟩
      · simp only [List.take_succ_cons, List.map_cons, List.sum_cons]; omega
      · simp only [List.take_succ_cons, List.map_cons, List.sum_cons, List.getD_cons_succ]
        rw [← Nat.sub_sub]
        exact h3

theorem take_lengths {w : ℕ} (bufs : List (List Tok)) (counts : List ℕ)
    (hc : bufs.map List.length = counts.map (w * ·)) (k : ℕ) :
    ((bufs.take k).map List.length).sum = w * before counts k := by
  unfold before
  rw [List.map_take, hc, ← List.map_take, List.sum_map_mul_left]
  simp

theorem writeBlocks_apply (d : Disk) (offset w : ℕ) (bufs : List (List Tok)) (counts order : List ℕ)
    (hc : bufs.map List.length = counts.map (w * ·)) (i : ℕ) :
    ((∃ k ∈ order, offset + w * before counts k ≤ i ∧ i - (offset + w * before counts k) < (bufs.getD k []).length) →
      writeBlocks d offset w bufs counts order i = bufs.flatten[i - offset]?) ∧
    ((¬ ∃ k ∈ order, offset + w * before counts k ≤ i ∧ i - (offset + w * before counts k) < (bufs.getD k []).length) →
      writeBlocks d offset w bufs counts order i = d i) := by
  induction order with
  | nil => simp [writeBlocks]
  | cons k order ih =>
    by_cases hk : offset + w * before counts k ≤ i ∧ i - (offset + w * before counts k) < (bufs.getD k []).length
    · refine ⟨fun _ => ?_, fun h => absurd ⟨k, by simp, hk⟩ h⟩
      simp only [writeBlocks, Disk.write]
      rw [if_pos hk]
      have := flatten_block bufs k (i - (offset + w * before counts k)) hk.2
      rw [take_lengths bufs counts hc] at this
      rw [← this]
      congr 1
      omega
    · have e : writeBlocks d offset w bufs counts (k :: order) i = writeBlocks d offset w bufs counts order i := by
        simp only [writeBlocks, Disk.write]
        rw [if_neg hk]
      rw [e]
      refine ⟨fun h => ih.1 ?_, fun h => ih.2 ?_⟩
      · obtain ⟨k', h1, h2⟩ := h
        rcases List.mem_cons.1 h1 with rfl | h1
        · exact absurd h2 hk
        · exact ⟨k', h1, h2⟩
      · rintro ⟨k', h1, h2⟩
        exact h ⟨k', by simp [h1], h2⟩

/-- all processes have written: the blocks one after the other, the rest as before -/
theorem writeBlocks_all (d : Disk) (offset w : ℕ) (bufs : List (List Tok)) (counts order : List ℕ)
    (hc : bufs.map List.length = counts.map (w * ·)) (ho : ∀ k, k < bufs.length → k ∈ order) :
    Disk.Holds (writeBlocks d offset w bufs counts order) offset bufs.flatten ∧
      ∀ i, i < offset → writeBlocks d offset w bufs counts order i = d i := by
  constructor
  · intro j hj
    obtain ⟨k, h1, h2, h3⟩ := exists_block bufs j hj
    rw [take_lengths bufs counts hc] at h2 h3
    have := (writeBlocks_apply d offset w bufs counts order hc (offset + j)).1 ⟨k, ho k h1, by omega, by
      rw [show offset + j - (offset + w * before counts k) = j - w * before counts k by omega]
      exact h3⟩
    rw [this, Nat.add_sub_cancel_left]
  · intro i hi
    refine (writeBlocks_apply d offset w bufs counts order hc i).2 ?_
    rintro ⟨k, _, h, _⟩
    omega

theorem ofType_flatten {n : ℕ} (ranks : List (List (Part n))) (ty : PType) :
    ofType ranks.flatten ty = (ranks.map fun ps => ofType ps ty).flatten := by
  unfold ofType
  rw [List.filter_flatten]

theorem flatMap_length {n : ℕ} (l : List (Part n)) (g : Part n → List Tok) (w : ℕ) (hg : ∀ p, (g p).length = w) :
    (l.flatMap g).length = w * l.length := by
  induction l with
  | nil => simp
  | cons a l ih => simp [ih, hg, Nat.mul_add, Nat.add_comm]

theorem writeArrayMpi_holds {n : ℕ} (ranks : List (List (Part n))) (w : ℕ) (g : Part n → List Tok)
    (hg : ∀ p, (g p).length = w) (order : PType → List ℕ) (ho : ∀ ty k, k < ranks.length → k ∈ order ty)
    (tys : List PType) (d : Disk) (offset : ℕ) :
    let r := writeArrayMpi ranks w g order tys (d, offset)
    let L := tys.flatMap fun ty => (ofType ranks.flatten ty).flatMap g
    r.1.Holds offset L ∧ r.2 = offset + L.length ∧ ∀ i, i < offset → r.1 i = d i := by
  induction tys generalizing d offset with
  | nil => simp [writeArrayMpi, Disk.Holds]
  | cons ty tys ih =>
    simp only [writeArrayMpi, List.flatMap_cons]
    set counts := ranks.map fun ps => (ofType ps ty).length with hcounts
    set bufs := ranks.map fun ps => (ofType ps ty).flatMap g with hbufs
    have hc : bufs.map List.length = counts.map (w * ·) := by
      rw [hbufs, hcounts, List.map_map, List.map_map]
      refine List.map_congr_left fun ps _ => ?_
      simp only [Function.comp_apply]
      exact flatMap_length _ g w hg
    have hfl : bufs.flatten = (ofType ranks.flatten ty).flatMap g := by
      rw [ofType_flatten, hbufs]
      simp only [List.flatMap_def, List.map_flatten, List.map_map, List.flatten_flatten]
      rfl
    have hlen : ((ofType ranks.flatten ty).flatMap g).length = w * counts.sum := by
      rw [← hfl, List.length_flatten, hc, List.sum_map_mul_left]
      simp
    obtain ⟨hb1, hb2⟩ := writeBlocks_all d offset w bufs counts (order ty) hc (fun k hk => ho ty k (by
      simpa [hbufs] using hk))
    obtain ⟨i1, i2, i3⟩ := ih (writeBlocks d offset w bufs counts (order ty)) (offset + w * counts.sum)
    refine ⟨?_, ?_, ?_⟩
    · intro j hj
      by_cases h : j < ((ofType ranks.flatten ty).flatMap g).length
      · rw [i3 _ (by omega), List.getElem?_append_left h, ← hfl]
        exact hb1 j (by rwa [hfl])
      · rw [List.getElem?_append_right (by omega)]
        have hj' : j - ((ofType ranks.flatten ty).flatMap g).length <
            (tys.flatMap fun ty => (ofType ranks.flatten ty).flatMap g).length := by
          rw [List.length_append] at hj; omega
        have := i1 _ hj'
        rw [← this]
        have e : offset + w * counts.sum + (j - ((ofType ranks.flatten ty).flatMap g).length) = offset + j := by
          rw [← hlen]; omega
        rw [e]
    · rw [i2, List.length_append]; omega
    · intro i hi
      rw [i3 i (by omega)]
      exact hb2 i hi

end Gandalf.Snap
