import Verif.Common

/-!
# Model of the messages between processes
(src/Headers/InlineFuncs.h:489-505, 616-633; src/Tree/Tree.cpp:1794-1958;
src/Headers/CommunicationHandler.h:364-401; src/Common/CodeTiming.cpp:93-137, 409-497;
src/Mpi/MpiControl.cpp:624-713)

Memory contents are lists of bytes; an iterator into a buffer is the rest of the buffer; reading past the
end gives `none`. Integers in messages are 32-bit.
-/

set_option autoImplicit false

namespace Gandalf.Pack

/-- `char` -/
abbrev Byte := BitVec 8

/-- A trivially copyable type: `sizeof(T)` bytes from which the value can be restored by `memcpy`. -/
structure Codec (T : Type*) where
  size : ℕ
  enc : T → List Byte
  dec : List Byte → T
  enc_length : ∀ x, (enc x).length = size
  dec_enc : ∀ x, dec (enc x) = x

/-- The `k` low bytes of `x`, lowest first. -/
def encNat : (k x : ℕ) → List Byte
  | 0, _ => []
  | k + 1, x => BitVec.ofNat 8 x :: encNat k (x / 256)

/-- The number with the given bytes, lowest first. -/
def decNat : List Byte → ℕ
  | [] => 0
  | b :: l => b.toNat + 256 * decNat l

theorem encNat_length (k x : ℕ) : (encNat k x).length = k := by
  induction k generalizing x with
  | zero => rfl
  | succ k ih => simp [encNat, ih]

theorem decNat_encNat (k x : ℕ) : decNat (encNat k x) = x % 256 ^ k := by
  induction k generalizing x with
  | zero => simp [encNat, decNat, Nat.mod_one]
  | succ k ih =>
    rw [encNat, decNat, ih, BitVec.toNat_ofNat, pow_succ' 256 k, Nat.mod_mul]

/-- Words of `k` bytes. -/
def Codec.word (k : ℕ) : Codec (BitVec (8 * k)) where
  size := k
  enc x := encNat k x.toNat
  dec l := BitVec.ofNat (8 * k) (decNat l)
  enc_length x := encNat_length k _
  dec_enc x := by
    rw [decNat_encNat, show (256 : ℕ) ^ k = 2 ^ (8 * k) by rw [pow_mul]; rfl]
    rw [Nat.mod_eq_of_lt x.isLt]
    exact BitVec.ofNat_toNat _ _ |>.trans (BitVec.setWidth_eq x)

/-- `int` -/
def Codec.int : Codec (BitVec 32) := Codec.word 4

/-- `double`, as its bit pattern -/
def Codec.double : Codec (BitVec 64) := Codec.word 8

/-- A struct of two members (padding, which carries nothing, is left out). -/
def Codec.pair {S T : Type*} (a : Codec S) (b : Codec T) : Codec (S × T) where
  size := a.size + b.size
  enc x := a.enc x.1 ++ b.enc x.2
  dec l := (a.dec (l.take a.size), b.dec (l.drop a.size))
  enc_length x := by rw [List.length_append, a.enc_length, b.enc_length]
  dec_enc x := by
    have h := a.enc_length x.1
    rw [List.take_left' h, List.drop_left' h, a.dec_enc, b.dec_enc]

/-- `append_bytes`, InlineFuncs.h:616-623 -/
def appendBytes {T : Type*} (c : Codec T) (buffer : List Byte) (x : T) : List Byte := buffer ++ c.enc x

/-- `unpack_bytes`, InlineFuncs.h:625-633: the value and the iterator afterwards. -/
def unpackBytes {T : Type*} (c : Codec T) (it : List Byte) : Option (T × List Byte) :=
  if it.length < c.size then none else some (c.dec (it.take c.size), it.drop c.size)

/-! ### Displacements -/

/-- `compute_displs`, InlineFuncs.h:489-505, for a vector of `size` entries that held `old`. -/
def computeDispls (size : ℕ) (counts old : ℕ → ℕ) : ℕ → ℕ :=
  if size = 0 then old
  else
    let d := Function.update old 0 0
    if size = 1 then d
    else (List.range' 1 (size - 1)).foldl (fun d i => Function.update d i (counts (i - 1) + d (i - 1))) d

/-- `i_start_ghost` of `DoUpdateMpiGhostParents`, MpiControl.cpp:640-645: inclusive partial sums, moved by
the number of particles before the ghosts. -/
def ghostEnds (base : ℕ) : List ℕ → List ℕ
  | [] => []
  | a :: l => (base + a) :: ghostEnds (base + a) l

/-- The process of a ghost, MpiControl.cpp:652-654: `std::upper_bound`, the first entry above `index`. -/
def procOf (ends : List ℕ) (index : ℕ) : ℕ := ends.findIdx fun e => index < e

/-- Filling of the buffer of `DoUpdateMpiGhostParents`, MpiControl.cpp:671-674: block `p` is copied to
position `displs[p]`. -/
def fillBuffer {T : Type*} (displs : ℕ → ℕ) (blocks : List (List T)) (buffer : ℕ → T) : ℕ → T :=
  (blocks.zipIdx).foldl (fun b x => fun i =>
    if h : displs x.2 ≤ i ∧ i - displs x.2 < x.1.length then x.1[i - displs x.2]'h.2 else b i) buffer

/-! ### Export of cells and particles -/

/-- `TreeCellStreamlined`, CommunicationHandler.h:367-383 -/
structure CellStream (F : Type*) where
  amin : F
  ifirst : BitVec 32
  ilast : BitVec 32
  N : BitVec 32

/-- The fields of a tree cell that take part. -/
structure Cell (F : Type*) where
  amin : F
  ifirst : ℤ
  ilast : ℤ
  Nactive : ℤ
  N : ℤ
  id : ℤ
  worktot : F

variable {F P S R : Type*}

/-- Constructor of `TreeCellStreamlined`, CommunicationHandler.h:369-375. -/
def CellStream.of (c : Cell F) (Nactive exported : ℕ) : CellStream F :=
  ⟨c.amin, BitVec.ofNat 32 exported, BitVec.ofInt 32 (exported + Nactive - 1), BitVec.ofNat 32 Nactive⟩

/-- State of `PackParticlesAndCellsForMPITransfer`. -/
structure PackState where
  buffer : List Byte
  cells : List ℕ
  parts : List ℕ
  exported : ℕ

/-- Body of the loop over cells, Tree.cpp:1816-1826; `active c` is the list `ComputeActiveParticleList`
makes for cell `c`, `stream` the conversion to `StreamlinedPart`. -/
def packCell (cC : Codec (CellStream F)) (cS : Codec S) (celldata : ℕ → Cell F) (active : ℕ → List ℕ)
    (stream : P → S) (part : ℕ → P) (s : PackState) (c : ℕ) : PackState :=
  let n := (active c).length
  { buffer := (active c).foldl (fun b i => appendBytes cS b (stream (part i)))
      (appendBytes cC s.buffer (.of (celldata c) n s.exported))
    cells := s.cells ++ [c]
    parts := s.parts ++ active c
    exported := s.exported + n }

/-- `PackParticlesAndCellsForMPITransfer`, Tree.cpp:1794-1830, into an empty buffer. -/
def packTransfer (cC : Codec (CellStream F)) (cS : Codec S) (celldata : ℕ → Cell F)
    (active : ℕ → List ℕ) (stream : P → S) (part : ℕ → P) (celllist : List ℕ) : PackState :=
  celllist.foldl (packCell cC cS celldata active stream part) ⟨[], [], [], 0⟩

/-- `ReceiveCell`, CommunicationHandler.h:389-401, and `dest_cell.id = …`, Tree.cpp:1863. -/
def receiveCell (zero : F) (c : CellStream F) (Ntot id : ℕ) : Cell F :=
  ⟨c.amin, c.ifirst.toInt + Ntot, c.ilast.toInt + Ntot, c.N.toInt, c.N.toInt, id, zero⟩

/-- State of `UnpackParticlesAndCellsFromMPITransfer`. -/
structure UnpackState (F P : Type*) where
  iter : List Byte
  cell : ℕ → Cell F
  part : ℕ → P
  inext : ℕ → ℤ
  index : ℕ
  part_count : ℕ

/-- The loop over the particles of one cell, Tree.cpp:1868-1876; `recv` is `ReceiveParticle`. -/
def unpackParts (cS : Codec S) (recv : S → P → P) : ℕ → UnpackState F P → Option (UnpackState F P)
  | 0, s => some s
  | m + 1, s =>
    (unpackBytes cS s.iter).bind fun x =>
      unpackParts cS recv m
        { s with
          iter := x.2
          part := Function.update s.part s.index (recv x.1 (s.part s.index))
          inext := Function.update s.inext s.index (s.index + 1)
          index := s.index + 1
          part_count := s.part_count + 1 }

/-- The loop over cells, Tree.cpp:1859-1879. The last statement of its body, `ReconstructProperties`,
which computes further fields of the cell from the particles, is not part of this model. -/
def unpackCells (zero : F) (cC : Codec (CellStream F)) (cS : Codec S) (recv : S → P → P)
    (offset_part offset_cells : ℕ) : (m icell : ℕ) → UnpackState F P → Option (UnpackState F P)
  | 0, _, s => some s
  | m + 1, icell, s =>
    (unpackBytes cC s.iter).bind fun x =>
      let d := receiveCell zero x.1 offset_part (icell + offset_cells)
      (unpackParts cS recv d.Nactive.toNat
        { s with
          iter := x.2
          cell := Function.update s.cell (icell + offset_cells) d }).bind
        (unpackCells zero cC cS recv offset_part offset_cells m (icell + 1))

/-- `UnpackParticlesAndCellsFromMPITransfer`, Tree.cpp:1836-1883. -/
def unpackTransfer (zero : F) (cC : Codec (CellStream F)) (cS : Codec S) (recv : S → P → P)
    (offset_part offset_cells Ncell : ℕ) (buffer : List Byte) (cell : ℕ → Cell F) (part : ℕ → P)
    (inext : ℕ → ℤ) : Option (UnpackState F P) :=
  unpackCells zero cC cS recv offset_part offset_cells Ncell 0 ⟨buffer, cell, part, inext, offset_part, 0⟩

/-- `GetSizeOfExportedParticleData` + `GetSizeOfExportedCellData`, Tree.cpp:1738-1750, the size announced
in the header (NeighbourSearch.h:208-224). -/
def announcedSize (cC : Codec (CellStream F)) (cS : Codec S) (Nactive cactive : ℕ) : ℕ :=
  Nactive * cS.size + cactive * cC.size

/-! ### Return of accelerations -/

/-- `PackParticlesAndCellsForMPIReturn`, Tree.cpp:1889-1918; `ret` is the conversion to the returned
record. -/
def packReturn (cR : Codec R) (cD : Codec F) (ret : P → R) (part : ℕ → P) (cell : ℕ → Cell F)
    (start_part Npart start_cell Ncell : ℕ) : List Byte :=
  let b := (List.range' start_part Npart).foldl (fun b i => appendBytes cR b (ret (part i))) []
  (List.range' start_cell Ncell).foldl (fun b c => appendBytes cD b (cell c).worktot) b

/-- Loop over the particles of `UnpackParticlesAndCellsForMPIReturn`, Tree.cpp:1934-1946; `acc` is
`ReceiveParticleAccelerations`. -/
def unpackReturnParts (cR : Codec R) (acc : R → P → P) : List ℕ → List Byte → (ℕ → P) →
    Option (List Byte × (ℕ → P))
  | [], it, part => some (it, part)
  | i :: ids, it, part =>
    (unpackBytes cR it).bind fun x =>
      unpackReturnParts cR acc ids x.2 (Function.update part i (acc x.1 (part i)))

/-- Loop over the cells, Tree.cpp:1948-1956. -/
def unpackReturnCells [Add F] (cD : Codec F) : List ℕ → List Byte → (ℕ → Cell F) →
    Option (List Byte × (ℕ → Cell F))
  | [], it, cell => some (it, cell)
  | i :: ids, it, cell =>
    (unpackBytes cD it).bind fun x =>
      unpackReturnCells cD ids x.2
        (Function.update cell i { cell i with worktot := (cell i).worktot + x.1 })

/-- `UnpackParticlesAndCellsForMPIReturn`, Tree.cpp:1921-1958. -/
def unpackReturn [Add F] (cR : Codec R) (cD : Codec F) (acc : R → P → P) (part_ids cell_ids : List ℕ)
    (buffer : List Byte) (part : ℕ → P) (cell : ℕ → Cell F) :
    Option (List Byte × (ℕ → P) × (ℕ → Cell F)) :=
  (unpackReturnParts cR acc part_ids buffer part).bind fun x =>
    (unpackReturnCells cD cell_ids x.1 cell).map fun y => (y.1, x.2, y.2)

/-! ### Sinks after accretion (src/Mpi/MpiControl.cpp:407-527) -/

/-- `owner[s]` after the reductions, MpiControl.cpp:419-429: the vector starts with zeros, each process
with the sink in its domain enters its rank, the maximum is taken. -/
def sinkOwner (Nmpi : ℕ) (inDomain : ℕ → ℕ → Bool) (s : ℕ) : ℕ :=
  (List.range Nmpi).foldl (fun m p => max m (if inDomain p s then p else 0)) 0

/-- `local_sinks`, MpiControl.cpp:419-424 -/
def localSinks (Nsink : ℕ) (inDomain : ℕ → ℕ → Bool) (p : ℕ) : ℕ :=
  ((List.range Nsink).filter fun s => inDomain p s).length

/-- `sendbuffer`, MpiControl.cpp:435-469, allocated for `local_sinks` records of `V` numbers; `none` if
more is written than allocated. `rec s` are the numbers of sink `s` on this process. -/
def sinkSend (V Nmpi Nsink : ℕ) (inDomain : ℕ → ℕ → Bool) (rec : ℕ → List F) (p : ℕ) : Option (List F) :=
  let b := ((List.range Nsink).filter fun s => sinkOwner Nmpi inDomain s = p).flatMap rec
  if b.length > localSinks Nsink inDomain p * V then none else some b

/-- Body of the loop that unpacks, MpiControl.cpp:488-522; the state are the records and `consumed`. -/
def sinkUnpack (V Nmpi : ℕ) (inDomain : ℕ → ℕ → Bool) (displ : ℕ → ℕ) (buffer : List F) (rank : ℕ)
    (x : (ℕ → List F) × (ℕ → ℕ)) (s : ℕ) : (ℕ → List F) × (ℕ → ℕ) :=
  let origin := sinkOwner Nmpi inDomain s
  if origin = rank then x
  else (Function.update x.1 s ((buffer.drop (displ origin + x.2 origin * V)).take V),
    Function.update x.2 origin (x.2 origin + 1))

/-- `UpdateSinksAfterAccretion`, MpiControl.cpp:407-527, on process `rank`: the records of the sinks
afterwards. `MPI_Allgatherv` puts the buffers of the processes one after the other, as `displ` says. -/
def sinkUpdate (V Nmpi Nsink : ℕ) (inDomain : ℕ → ℕ → Bool) (rec : ℕ → ℕ → List F) (rank : ℕ) :
    Option (ℕ → List F) :=
  ((List.range Nmpi).mapM fun p => sinkSend V Nmpi Nsink inDomain (rec p) p).map fun bs =>
    let d := computeDispls Nmpi (localSinks Nsink inDomain) fun _ => 0
    ((List.range Nsink).foldl (sinkUnpack V Nmpi inDomain (fun i => d i * V) bs.flatten rank)
      (rec rank, fun _ => 0)).1

/-! ### Timing blocks -/

/-- The members of `TimingBlock` that are sent, CodeTiming.h:47-60. -/
structure TBlock where
  timing_level : BitVec 32
  Ncalled : BitVec 32
  ttot : BitVec 64
  ttot_wall : BitVec 64
  block_name : List Byte
deriving DecidableEq

/-- `TimingBlock::Pack`, CodeTiming.cpp:93-113. -/
def TBlock.pack (b : TBlock) (buffer : List Byte) : List Byte :=
  let temp := appendBytes .double (appendBytes .double (appendBytes .int (appendBytes .int []
    b.timing_level) b.Ncalled) b.ttot) b.ttot_wall ++ b.block_name
  let size := BitVec.ofNat 32 temp.length
  appendBytes .int (appendBytes .int buffer size ++ temp) size

/-- `string(buffer, buffer+len)` and `buffer += len`, CodeTiming.cpp:128-130. -/
def takeBytes (len : ℤ) (it : List Byte) : Option (List Byte × List Byte) :=
  if len < 0 ∨ it.length < len.toNat then none else some (it.take len.toNat, it.drop len.toNat)

/-- `TimingBlock::Unpack`, CodeTiming.cpp:119-137; an exception is `none` as well. -/
def TBlock.unpack (it : List Byte) : Option (TBlock × List Byte) :=
  (unpackBytes .int it).bind fun s1 =>
  (unpackBytes .int s1.2).bind fun lv =>
  (unpackBytes .int lv.2).bind fun nc =>
  (unpackBytes .double nc.2).bind fun tt =>
  (unpackBytes .double tt.2).bind fun tw =>
  (takeBytes (s1.1.toInt - (4 + 4 + 8 + 8)) tw.2).bind fun nm =>
  (unpackBytes .int nm.2).bind fun s2 =>
  if s1.1 ≠ s2.1 then none else some (⟨lv.1, nc.1, tt.1, tw.1, nm.1⟩, s2.2)

/-- One level of the packing, CodeTiming.cpp:421-434; the blocks of a level in the order of the map. -/
def packLevel (buffer : List Byte) (x : List (List Byte × TBlock) × ℕ) : List Byte :=
  let b := appendBytes .int (appendBytes .int buffer (BitVec.ofNat 32 x.2)) (BitVec.ofNat 32 x.1.length)
  appendBytes .int (x.1.foldl (fun b kv => kv.2.pack b) b) (BitVec.ofInt 32 (-1))

/-- `pack_timing_blocks_for_MPI_send`, CodeTiming.cpp:406-440. -/
def packTiming (blockmap : List (List (List Byte × TBlock))) : List Byte :=
  appendBytes .int (blockmap.zipIdx.foldl packLevel
    (appendBytes .int [] (BitVec.ofNat 32 blockmap.length))) (BitVec.ofInt 32 (-1))

/-- `newblockmap[l][name] = block`: the entry is replaced, or made. -/
def insertBlock (m : List (List Byte × TBlock)) (b : TBlock) : List (List Byte × TBlock) :=
  if m.any (fun kv => kv.1 = b.block_name) then
    m.map fun kv => if kv.1 = b.block_name then (kv.1, b) else kv
  else m ++ [(b.block_name, b)]

/-- Loop over the blocks of a level, CodeTiming.cpp:475-480. -/
def unpackBlocks : ℕ → List Byte → List (List Byte × TBlock) →
    Option (List (List Byte × TBlock) × List Byte)
  | 0, it, m => some (m, it)
  | k + 1, it, m => (TBlock.unpack it).bind fun x => unpackBlocks k x.2 (insertBlock m x.1)

/-- Loop over the levels, CodeTiming.cpp:461-489. -/
def unpackLevels : (k l : ℕ) → List Byte → List (List (List Byte × TBlock)) →
    Option (List (List (List Byte × TBlock)) × List Byte)
  | 0, _, it, acc => some (acc, it)
  | k + 1, l, it, acc =>
    (unpackBytes .int it).bind fun lb =>
    if lb.1.toInt ≠ l then none else
    (unpackBytes .int lb.2).bind fun nb =>
    (unpackBlocks nb.1.toInt.toNat nb.2 []).bind fun bs =>
    (unpackBytes .int bs.2).bind fun mo =>
    if mo.1.toInt ≠ -1 then none else unpackLevels k (l + 1) mo.2 (acc ++ [bs.1])

/-- `unpack_timing_blocks_from_MPI_send`, CodeTiming.cpp:446-497. -/
def unpackTiming (it : List Byte) : Option (List (List (List Byte × TBlock)) × List Byte) :=
  (unpackBytes .int it).bind fun nl =>
  (unpackLevels nl.1.toInt.toNat 0 nl.2 []).bind fun ls =>
  (unpackBytes .int ls.2).bind fun mo => if mo.1.toInt ≠ -1 then none else some (ls.1, mo.2)

end Gandalf.Pack
