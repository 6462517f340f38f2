import Verif.Proof.MpiPack

/-!
# C43: what is packed for another process is what is unpacked there
-/

set_option autoImplicit false

namespace Gandalf

open Pack

variable {F P S R T : Type*}

/-- A list of records appended to a buffer one after the other and read back one after the other: the same
records, and the iterator at the end of them. -/
theorem C43_records (c : Codec T) (l : List T) (rest : List Byte) :
    (l.foldl (appendBytes c) []).length = l.length * c.size ∧
    l.foldl (fun (x : Option (List T × List Byte)) _ =>
      x.bind fun x => (unpackBytes c x.2).map fun y => (x.1 ++ [y.1], y.2))
      (some ([], l.foldl (appendBytes c) [] ++ rest)) = some (l, rest) := by
  have hb : ∀ b : List Byte, l.foldl (appendBytes c) b = b ++ l.flatMap c.enc := by
    intro b; exact foldl_append c id l b
  constructor
  · rw [hb, List.nil_append, flatMap_length_const _ c.size _ fun _ _ => c.enc_length _]
  · rw [hb, List.nil_append]
    have key : ∀ (l a : List T) (rest : List Byte),
        l.foldl (fun (x : Option (List T × List Byte)) _ =>
          x.bind fun x => (unpackBytes c x.2).map fun y => (x.1 ++ [y.1], y.2))
          (some (a, l.flatMap c.enc ++ rest)) = some (a ++ l, rest) := by
      intro l
      induction l with
      | nil => intro a rest; simp
      | cons x l ih =>
        intro a rest
        rw [List.foldl_cons, Option.bind_some, List.flatMap_cons, List.append_assoc,
          unpackBytes_append, Option.map_some, ih, List.append_assoc, List.singleton_append]
    exact key l [] rest

example : [1, 258, -1].foldl (appendBytes .int) [] =
    [1, 0, 0, 0, 2, 1, 0, 0, 255, 255, 255, 255] := by decide

/-- **Displacements.** The table holds the sums of the counts before; so block `i` begins where block
`i - 1` ends, and no two blocks share an element. -/
theorem C43_displs (size : ℕ) (counts old : ℕ → ℕ) :
    (∀ i < size, computeDispls size counts old i = ((List.range i).map counts).sum) ∧
    (∀ i, i + 1 < size → computeDispls size counts old (i + 1) =
      computeDispls size counts old i + counts i) ∧
    ∀ i j k, i < size → j < size →
      computeDispls size counts old i ≤ k → k < computeDispls size counts old i + counts i →
      computeDispls size counts old j ≤ k → k < computeDispls size counts old j + counts j → i = j := by
  have h := computeDispls_spec size counts old
  have mono : ∀ i j, i < j → ((List.range i).map counts).sum + counts i ≤ ((List.range j).map counts).sum := by
    intro i j hij
    obtain ⟨k, rfl⟩ : ∃ k, j = i + 1 + k := ⟨j - (i + 1), by omega⟩
    rw [List.range_add, List.map_append, List.sum_append, List.range_succ, List.map_append,
      List.sum_append]
    simp
  refine ⟨h, ?_, ?_⟩
  · intro i hi
    rw [h i (by omega), h (i + 1) hi, List.range_succ, List.map_append, List.sum_append]
    simp
  · intro i j k hi hj h1 h2 h3 h4
    rw [h i hi] at h1 h2
    rw [h j hj] at h3 h4
    rcases lt_trichotomy i j with hlt | heq | hgt
    · have := mono i j hlt; omega
    · exact heq
    · have := mono j i hgt; omega

example : (List.range 4).map (computeDispls 4 (fun i => [3, 0, 2, 5].getD i 0) fun _ => 99) =
    [0, 3, 3, 5] := by decide

/-- **Requests about ghosts.** The process asked about ghost `index` is the one whose block of ghosts
contains it, also when some blocks are empty. -/
theorem C43_ghost_process (Nhydro : ℕ) (received : List ℕ) (index : ℕ) (h1 : Nhydro ≤ index)
    (h2 : index < Nhydro + received.sum) :
    ∃ p < received.length, procOf (ghostEnds Nhydro received) index = p ∧
      Nhydro + (received.take p).sum ≤ index ∧ index < Nhydro + (received.take (p + 1)).sum :=
  have h := procOf_spec received Nhydro index h1 h2
  ⟨_, h.1, rfl, h.2.1, h.2.2⟩

example : procOf (ghostEnds 10 [2, 0, 3]) 11 = 0 ∧ procOf (ghostEnds 10 [2, 0, 3]) 12 = 2 := by decide

/-- **Blocks copied to their displacements** make up one contiguous message, the blocks in order. -/
theorem C43_fill {T : Type*} (blocks : List (List T)) (old : ℕ → ℕ) (buffer : ℕ → T) :
    let displs := computeDispls blocks.length (fun i => (blocks.getD i []).length) old
    (∀ i (h : i < blocks.flatten.length), fillBuffer displs blocks buffer i = blocks.flatten[i]) ∧
    ∀ i, blocks.flatten.length ≤ i → fillBuffer displs blocks buffer i = buffer i := by
  intro displs
  have e : fillBuffer displs blocks buffer = overlay (fun a _ => a) 0 blocks.flatten buffer := by
    unfold fillBuffer
    refine fillBuffer_overlay displs blocks 0 0 buffer ?_
    intro j hj
    rw [Nat.zero_add, Nat.zero_add, show displs j = _ from computeDispls_spec _ _ _ j hj]
    congr 1
    apply List.ext_getElem
    · simp; omega
    · intro n h1 h2
      simp at h1 h2
      simp [List.getD_eq_getElem?_getD, List.getElem?_eq_getElem (show n < blocks.length by omega)]
  rw [e]
  refine ⟨fun i h => ?_, fun i h => overlay_other _ _ _ _ _ (by omega)⟩
  have := overlay_get (fun (a : T) (_ : T) => a) 0 blocks.flatten buffer i h
  rwa [Nat.zero_add] at this

example : (List.range 6).map (fillBuffer (fun i => [0, 2, 2].getD i 0) [[1, 2], [], [3, 4, 5]] fun _ => 9)
    = [1, 2, 3, 4, 5, 9] := by decide

/-- **Export.** The active particles of the exported cells travel to another process. The message has
exactly the announced length and is consumed to its last byte; the `j`-th exported particle is received in
slot `offset_part + j`, linked to the next; the `k`-th cell is received in slot `offset_cells + k` with
exactly its own particles between `ifirst` and `ilast`; nothing else changes. -/
theorem C43_transfer (zero : F) (cC : Codec (CellStream F)) (cS : Codec S) (stream : P → S)
    (recv : S → P → P)
    -- the sending process
    (celldata : ℕ → Cell F) (active : ℕ → List ℕ) (part : ℕ → P) (celllist : List ℕ)
    (hsize : (celllist.flatMap active).length < 2 ^ 31)
    -- the receiving process
    (offset_part offset_cells : ℕ) (cell : ℕ → Cell F) (part' : ℕ → P) (inext : ℕ → ℤ) :
    let sent := packTransfer cC cS celldata active stream part celllist
    sent.parts = celllist.flatMap active ∧ sent.cells = celllist ∧
      sent.buffer.length = announcedSize cC cS sent.parts.length celllist.length ∧
    ∃ got, unpackTransfer zero cC cS recv offset_part offset_cells celllist.length sent.buffer cell part'
        inext = some got ∧
      got.iter = [] ∧ got.part_count = sent.parts.length ∧
      (∀ j (h : j < sent.parts.length),
        got.part (offset_part + j) = recv (stream (part sent.parts[j])) (part' (offset_part + j)) ∧
        got.inext (offset_part + j) = offset_part + j + 1) ∧
      (∀ i, i < offset_part ∨ offset_part + sent.parts.length ≤ i →
        got.part i = part' i ∧ got.inext i = inext i) ∧
      (∀ k (h : k < celllist.length),
        let before := ((celllist.take k).flatMap active).length
        let n := (active celllist[k]).length
        got.cell (offset_cells + k) = ⟨(celldata celllist[k]).amin, (offset_part + before : ℕ),
          (offset_part + before + n : ℕ) - 1, n, n, (offset_cells + k : ℕ), zero⟩) ∧
      ∀ i, i < offset_cells ∨ offset_cells + celllist.length ≤ i → got.cell i = cell i := by
  intro sent
  have hs : sent = ⟨bytesOf cC cS celldata active stream part 0 celllist, celllist,
      celllist.flatMap active, (celllist.flatMap active).length⟩ := by
    show packTransfer cC cS celldata active stream part celllist = _
    unfold packTransfer
    rw [pack_foldl]
    simp
  rw [hs]
  refine ⟨rfl, rfl, bytesOf_length cC cS celldata active stream part celllist 0, ?_⟩
  have hu := unpackCells_spec cC cS celldata active stream part recv zero offset_part offset_cells
    celllist 0 ⟨bytesOf cC cS celldata active stream part 0 celllist, cell, part', inext, offset_part, 0⟩
    0 [] (by omega) rfl (by simp)
  refine ⟨_, hu, rfl, by simp, ?_, ?_, ?_, ?_⟩
  · intro j h
    refine ⟨?_, ?_⟩
    · simp only []
      rw [overlay_get _ _ _ _ j (by simpa using h)]
      simp
    · simp only []
      rw [overlay_get _ _ _ _ j (by simpa using h)]
      simp
  · intro i h
    refine ⟨?_, ?_⟩
    · simp only []
      rw [overlay_other _ _ _ _ _ (by simpa using h)]
    · simp only []
      rw [overlay_other _ _ _ _ _ (by simpa using h)]
  · intro k h
    simp only [Nat.zero_add]
    rw [overlay_get _ _ _ _ k (by rw [cellsOf_length]; exact h), cellsOf_get celldata active zero
      offset_part celllist 0 offset_cells k h]
    simp
  · intro i h
    simp only [Nat.zero_add]
    exact overlay_other _ _ _ _ _ (by rw [cellsOf_length]; exact h)

/-- **Return.** The records of the imported particles and the work of the imported cells travel back: the
`j`-th exported particle is given the record of the `j`-th particle imported, the `k`-th exported cell is
charged the work of the `k`-th, nothing else changes, and the message is consumed to its last byte. -/
theorem C43_return [Add F] (cR : Codec R) (cD : Codec F) (ret : P → R) (acc : R → P → P)
    -- the process that computed
    (part : ℕ → P) (cell : ℕ → Cell F) (start_part start_cell : ℕ)
    -- the process that gets the result
    (part_ids cell_ids : List ℕ) (hp : part_ids.Nodup) (hc : cell_ids.Nodup) (part' : ℕ → P)
    (cell' : ℕ → Cell F) :
    let sent := packReturn cR cD ret part cell start_part part_ids.length start_cell cell_ids.length
    sent.length = part_ids.length * cR.size + cell_ids.length * cD.size ∧
    ∃ p c, unpackReturn cR cD acc part_ids cell_ids sent part' cell' = some ([], p, c) ∧
      (∀ j (h : j < part_ids.length),
        p part_ids[j] = acc (ret (part (start_part + j))) (part' part_ids[j])) ∧
      (∀ i, i ∉ part_ids → p i = part' i) ∧
      (∀ k (h : k < cell_ids.length), c cell_ids[k] =
        { cell' cell_ids[k] with
          worktot := (cell' cell_ids[k]).worktot + (cell (start_cell + k)).worktot }) ∧
      ∀ i, i ∉ cell_ids → c i = cell' i := by
  intro sent
  have hs : sent = ((List.range' start_part part_ids.length).map fun i => ret (part i)).flatMap cR.enc ++
      (((List.range' start_cell cell_ids.length).map fun i => (cell i).worktot).flatMap cD.enc ++ []) := by
    show packReturn cR cD ret part cell start_part part_ids.length start_cell cell_ids.length = _
    unfold packReturn
    simp only []
    rw [foldl_append cR fun i => ret (part i), foldl_append cD fun i => (cell i).worktot,
      List.flatMap_map, List.flatMap_map]
    simp
  refine ⟨?_, ?_⟩
  · rw [hs, List.append_nil, List.length_append,
      flatMap_length_const _ cR.size _ (fun _ _ => cR.enc_length _),
      flatMap_length_const _ cD.size _ (fun _ _ => cD.enc_length _)]
    simp
  · obtain ⟨p, e1, h1, h2⟩ := unpackReturnParts_spec cR acc part_ids
      ((List.range' start_part part_ids.length).map fun i => ret (part i))
      (((List.range' start_cell cell_ids.length).map fun i => (cell i).worktot).flatMap cD.enc ++ [])
      part' (by simp) hp
    obtain ⟨c, e2, h3, h4⟩ := unpackReturnCells_spec cD cell_ids
      ((List.range' start_cell cell_ids.length).map fun i => (cell i).worktot) [] cell' (by simp) hc
    refine ⟨p, c, ?_, ?_, h2, ?_, h4⟩
    · unfold unpackReturn
      rw [hs, e1, Option.bind_some, e2, Option.map_some]
    · intro j h
      rw [h1 j h (by simpa using h)]
      simp
    · intro k h
      rw [h3 k h (by simpa using h)]
      simp

/-- **There and back.** Every active particle of the exported cells gets exactly the result the other
process computed for it, whatever the slots used there and whatever was in them. -/
theorem C43_round_trip [Add F] (zero : F) (cC : Codec (CellStream F)) (cS : Codec S) (cR : Codec R)
    (cD : Codec F) (stream : P → S) (recv : S → P → P) (ret : P → R) (acc : R → P → P)
    (celldata : ℕ → Cell F) (active : ℕ → List ℕ) (part : ℕ → P) (celllist : List ℕ)
    (hsize : (celllist.flatMap active).length < 2 ^ 31) (hdis : (celllist.flatMap active).Nodup)
    (hcells : celllist.Nodup) (offset_part offset_cells : ℕ) (cell : ℕ → Cell F) (junk : ℕ → P)
    (inext : ℕ → ℤ) (compute : P → P) :
    let sent := packTransfer cC cS celldata active stream part celllist
    ∃ got, unpackTransfer zero cC cS recv offset_part offset_cells celllist.length sent.buffer cell junk
        inext = some got ∧
    ∃ p c, unpackReturn cR cD acc sent.parts sent.cells
        (packReturn cR cD ret (fun i => compute (got.part i)) got.cell offset_part sent.parts.length
          offset_cells sent.cells.length) part celldata = some ([], p, c) ∧
      (∀ i ∈ celllist.flatMap active, ∃ old,
        p i = acc (ret (compute (recv (stream (part i)) old))) (part i)) ∧
      ∀ i, i ∉ celllist.flatMap active → p i = part i := by
  intro sent
  obtain ⟨h1, h2, -, got, e, -, -, h3, -⟩ := C43_transfer zero cC cS stream recv celldata active part
    celllist hsize offset_part offset_cells cell junk inext
  obtain ⟨-, p, c, e2, h4, h5, -⟩ := C43_return cR cD ret acc (fun i => compute (got.part i)) got.cell
    offset_part offset_cells sent.parts sent.cells (h1 ▸ hdis) (h2 ▸ hcells) part celldata
  refine ⟨got, e, p, c, e2, ?_, ?_⟩
  · intro i hi
    rw [← h1] at hi
    obtain ⟨j, hj, rfl⟩ := List.mem_iff_getElem.mp hi
    refine ⟨junk (offset_part + j), ?_⟩
    rw [h4 j hj, (h3 j hj).1]
  · intro i hi
    exact h5 i (h1 ▸ hi)

namespace C43Example

/-- A stream record for cells whose `amin` is a bit pattern. -/
def cellCodec : Codec (CellStream (BitVec 64)) where
  size := 20
  enc x := Codec.double.enc x.amin ++ (Codec.int.enc x.ifirst ++ (Codec.int.enc x.ilast ++
    Codec.int.enc x.N))
  dec l := ⟨Codec.double.dec (l.take 8), Codec.int.dec ((l.drop 8).take 4),
    Codec.int.dec ((l.drop 12).take 4), Codec.int.dec (l.drop 16)⟩
  enc_length x := by
    simp only [List.length_append, Codec.enc_length]; rfl
  dec_enc x := by
    have a : (Codec.double.enc x.amin).length = 8 := Codec.double.enc_length _
    have b : ∀ y, (Codec.int.enc y).length = 4 := fun y => Codec.int.enc_length _
    have d12 : ∀ l : List Byte, l.drop 12 = (l.drop 8).drop 4 := fun l => by rw [List.drop_drop]
    have d16 : ∀ l : List Byte, l.drop 16 = ((l.drop 8).drop 4).drop 4 := fun l => by
      rw [List.drop_drop, List.drop_drop]
    rw [d12, d16, List.take_left' a, List.drop_left' a, List.take_left' (b _), List.drop_left' (b _),
      List.take_left' (b _), List.drop_left' (b _)]
    simp only [Codec.dec_enc]

/-- Two cells with three and one active particles; particles are numbers. -/
def active : ℕ → List ℕ := fun c => if c = 4 then [7, 2, 5] else [3]

example : (packTransfer cellCodec .double (fun _ => ⟨0, 0, 0, 0, 0, 0, 0⟩) active id
    (fun i => BitVec.ofNat 64 (100 + i)) [4, 9]).parts = [7, 2, 5, 3] := by decide

example : ([4, 9].flatMap active).Nodup ∧ ([4, 9].flatMap active).length < 2 ^ 31 := by decide

end C43Example

/-- **Sinks.** If every sink lies in the domain of exactly one process, all processes end with the records
of the process that owns it, whatever they held before, and no buffer overflows. -/
theorem C43_sinks {A : Type*} (V Nmpi Nsink : ℕ) (inDomain : ℕ → ℕ → Bool) (rec : ℕ → ℕ → List A)
    (hV : ∀ p s, (rec p s).length = V) (own : ℕ → ℕ) (hlt : ∀ s < Nsink, own s < Nmpi)
    (hown : ∀ s < Nsink, ∀ p < Nmpi, inDomain p s = true ↔ p = own s) (rank : ℕ) :
    ∃ out, sinkUpdate V Nmpi Nsink inDomain rec rank = some out ∧
      (∀ s < Nsink, out s = rec (own s) s) ∧ ∀ s, Nsink ≤ s → out s = rec rank s :=
  sinkUpdate_spec Nmpi inDomain V Nsink rec rank own hV hlt hown

/-- Four sinks on three processes, the second without sinks. -/
example : (sinkUpdate 2 3 4 (fun p s => p = [2, 0, 0, 2].getD s 0) (fun p s => [p, s]) 1).map
    (fun f => (List.range 5).map f) = some [[2, 0], [0, 1], [0, 2], [2, 3], [1, 4]] := by decide

/-- **A sink in no domain.** The vector of owners starts with zeros, so a sink that no process claims (one
on the upper edge of the box, `C42_upper_edge_fails`) is given to process 0, which did not count it:
the record is written past the end of its send buffer. -/
theorem C43_unclaimed_sink_overflows {A : Type*} (V Nmpi Nsink : ℕ) (hV0 : 0 < V) (hN : 0 < Nmpi)
    (inDomain : ℕ → ℕ → Bool) (rec : ℕ → ℕ → List A) (hV : ∀ p s, (rec p s).length = V) (s0 : ℕ)
    (hs0 : s0 < Nsink) (hno : ∀ p < Nmpi, inDomain p s0 = false)
    (hone : ∀ s < Nsink, ∀ p < Nmpi, inDomain 0 s = true → inDomain p s = true → p = 0) (rank : ℕ) :
    sinkUpdate V Nmpi Nsink inDomain rec rank = none := by
  have h0 : sinkOwner Nmpi inDomain s0 = 0 := by
    unfold sinkOwner
    have : ∀ m ≤ Nmpi, (List.range m).foldl
        (fun m p => max m (if inDomain p s0 then p else 0)) 0 = 0 := by
      intro m
      induction m with
      | zero => intro _; rfl
      | succ m ih =>
        intro hm
        rw [List.range_succ, List.foldl_append, List.foldl_cons, List.foldl_nil, ih (by omega),
          hno m (by omega)]
        simp
    exact this Nmpi le_rfl
  have hsub : ∀ s < Nsink, inDomain 0 s = true → sinkOwner Nmpi inDomain s = 0 := fun s hs h =>
    sinkOwner_unique Nmpi inDomain s 0 hN h fun q hq hq2 => hone s hs q hq h hq2
  have hlt : localSinks Nsink inDomain 0 <
      ((List.range Nsink).filter fun s => sinkOwner Nmpi inDomain s = 0).length := by
    unfold localSinks
    rw [← List.countP_eq_length_filter, ← List.countP_eq_length_filter]
    obtain ⟨k, rfl⟩ : ∃ k, Nsink = s0 + 1 + k := ⟨Nsink - (s0 + 1), by omega⟩
    rw [List.range_add, List.countP_append, List.countP_append, List.range_succ, List.countP_append,
      List.countP_append]
    have a1 : (List.range s0).countP (fun s => inDomain 0 s) ≤
        (List.range s0).countP fun s => decide (sinkOwner Nmpi inDomain s = 0) := by
      apply List.countP_mono_left
      intro s hs h
      have := List.mem_range.mp hs
      simpa using hsub s (by omega) h
    have a2 : ((List.range k).map fun x => s0 + 1 + x).countP (fun s => inDomain 0 s) ≤
        ((List.range k).map fun x => s0 + 1 + x).countP
          fun s => decide (sinkOwner Nmpi inDomain s = 0) := by
      apply List.countP_mono_left
      intro s hs h
      rw [List.mem_map] at hs
      obtain ⟨x, hx, rfl⟩ := hs
      have := List.mem_range.mp hx
      simpa using hsub _ (by omega) h
    have a3 : [s0].countP (fun s => inDomain 0 s) = 0 := by simp [hno 0 hN]
    have a4 : [s0].countP (fun s => decide (sinkOwner Nmpi inDomain s = 0)) = 1 := by simp [h0]
    omega
  have hsend : sinkSend V Nmpi Nsink inDomain (rec 0) 0 = none := by
    unfold sinkSend
    simp only []
    rw [if_pos]
    rw [flatMap_length_const _ V _ fun _ _ => hV 0 _]
    exact Nat.mul_lt_mul_of_pos_right hlt hV0
  unfold sinkUpdate
  obtain ⟨n, rfl⟩ : ∃ n, Nmpi = n + 1 := ⟨Nmpi - 1, by omega⟩
  rw [List.range_succ_eq_map, List.mapM_cons, hsend]
  rfl

example : sinkUpdate 1 2 2 (fun p s => s = 1 ∧ p = 1) (fun p s => [(p, s)]) 0 = none := by decide

/-- **Timing blocks.** The blocks sent to the root process are rebuilt there as they were: all levels, all
names (of any length), all counters, and the message is consumed to its last byte. The map of each level
has the names of its blocks as keys, no name twice. -/
theorem C43_timing (blockmap : List (List (List Byte × TBlock))) (levels : blockmap.length < 2 ^ 31)
    (blocks : ∀ x ∈ blockmap, x.length < 2 ^ 31)
    (names : ∀ x ∈ blockmap, ∀ kv ∈ x, kv.1 = kv.2.block_name ∧ 24 + kv.1.length < 2 ^ 31)
    (distinct : ∀ x ∈ blockmap, (x.map Prod.fst).Nodup) :
    unpackTiming (packTiming blockmap) = some (blockmap, []) := by
  have := unpackTiming_spec blockmap ⟨levels, blocks, names, distinct⟩ []
  rwa [List.append_nil] at this

example : unpackTiming (packTiming [[([77, 65], ⟨0, 1, 5, 6, [77, 65]⟩)], [],
    [([], ⟨2, 3, 7, 8, []⟩), ([1], ⟨2, 9, 10, 11, [1]⟩)]]) =
    some ([[([77, 65], ⟨0, 1, 5, 6, [77, 65]⟩)], [],
      [([], ⟨2, 3, 7, 8, []⟩), ([1], ⟨2, 9, 10, 11, [1]⟩)]], []) :=
  C43_timing _ (by decide) (by decide) (by decide) (by decide)

end Gandalf
