import Verif.Model.MpiPack

/-!
# Helper lemmas for messages (C43)
-/

set_option autoImplicit false
set_option linter.unusedSectionVars false

namespace Gandalf.Pack

variable {F P S R T : Type*}

theorem unpackBytes_append (c : Codec T) (x : T) (rest : List Byte) :
    unpackBytes c (c.enc x ++ rest) = some (x, rest) := by
  have h := c.enc_length x
  unfold unpackBytes
  rw [if_neg (by rw [List.length_append]; omega), List.take_left' h, List.drop_left' h, c.dec_enc]

theorem foldl_append {A : Type*} (c : Codec T) (f : A → T) (l : List A) : ∀ b : List Byte,
    l.foldl (fun b i => appendBytes c b (f i)) b = b ++ l.flatMap fun i => c.enc (f i) := by
  induction l with
  | nil => intro b; simp
  | cons a l ih => intro b; rw [List.foldl_cons, ih, appendBytes, List.flatMap_cons, List.append_assoc]

theorem flatMap_length_const {A B : Type*} (f : A → List B) (m : ℕ) (l : List A)
    (h : ∀ a ∈ l, (f a).length = m) : (l.flatMap f).length = l.length * m := by
  induction l with
  | nil => simp
  | cons a l ih =>
    rw [List.flatMap_cons, List.length_append, h a List.mem_cons_self,
      ih fun a ha => h a (List.mem_cons_of_mem _ ha), List.length_cons]
    ring

/-- Entries `start, start+1, …` are changed by the entries of the list. -/
def overlay {A B : Type*} (f : A → B → B) (start : ℕ) (l : List A) (old : ℕ → B) : ℕ → B := fun i =>
  match (if start ≤ i then l[i - start]? else none) with
  | some a => f a (old i)
  | none => old i

section overlay
variable {A B : Type*} (f : A → B → B)

theorem overlay_nil (start : ℕ) (old : ℕ → B) : overlay f start [] old = old := by
  funext i
  unfold overlay
  split_ifs <;> rfl

theorem overlay_cons (start : ℕ) (a : A) (l : List A) (old : ℕ → B) :
    overlay f start (a :: l) old =
      overlay f (start + 1) l (Function.update old start (f a (old start))) := by
  funext i
  unfold overlay
  rcases lt_trichotomy i start with h | h | h
  · rw [if_neg (by omega), if_neg (by omega), Function.update_of_ne (by omega)]
  · subst h
    rw [if_pos le_rfl, if_neg (by omega), Nat.sub_self, Function.update_self]
    rfl
  · rw [if_pos (by omega), if_pos (by omega), show i - start = (i - (start + 1)) + 1 by omega,
      List.getElem?_cons_succ, Function.update_of_ne (by omega)]

theorem overlay_append (start : ℕ) (l m : List A) (old : ℕ → B) :
    overlay f start (l ++ m) old = overlay f (start + l.length) m (overlay f start l old) := by
  induction l generalizing start old with
  | nil => rw [List.nil_append, overlay_nil, List.length_nil, Nat.add_zero]
  | cons a l ih =>
    rw [List.cons_append, overlay_cons, ih, overlay_cons, List.length_cons,
      show start + 1 + l.length = start + (l.length + 1) by omega]

theorem overlay_get (start : ℕ) (l : List A) (old : ℕ → B) (j : ℕ) (h : j < l.length) :
    overlay f start l old (start + j) = f l[j] (old (start + j)) := by
  unfold overlay
  rw [if_pos (by omega), Nat.add_sub_cancel_left, List.getElem?_eq_getElem h]

theorem overlay_other (start : ℕ) (l : List A) (old : ℕ → B) (i : ℕ)
    (h : i < start ∨ start + l.length ≤ i) : overlay f start l old i = old i := by
  unfold overlay
  rcases h with h | h
  · rw [if_neg (by omega)]
  · rw [if_pos (by omega), List.getElem?_eq_none (by omega)]

end overlay

/-! ### Export -/

section
variable (cC : Codec (CellStream F)) (cS : Codec S) (celldata : ℕ → Cell F) (active : ℕ → List ℕ)
  (stream : P → S) (part : ℕ → P)

/-- The bytes of the exported cells. -/
def bytesOf : ℕ → List ℕ → List Byte
  | _, [] => []
  | e, c :: cs => cC.enc (.of (celldata c) (active c).length e) ++
      ((active c).flatMap fun i => cS.enc (stream (part i))) ++
      bytesOf (e + (active c).length) cs

theorem pack_foldl (l : List ℕ) : ∀ s : PackState,
    l.foldl (packCell cC cS celldata active stream part) s =
      ⟨s.buffer ++ bytesOf cC cS celldata active stream part s.exported l, s.cells ++ l,
        s.parts ++ l.flatMap active, s.exported + (l.flatMap active).length⟩ := by
  induction l with
  | nil => intro s; simp [bytesOf]
  | cons c l ih =>
    intro s
    rw [List.foldl_cons, ih]
    unfold packCell
    simp only []
    rw [foldl_append cS fun i => stream (part i)]
    simp only [bytesOf, appendBytes, List.append_assoc, List.flatMap_cons,
      List.length_append, List.singleton_append, Nat.add_assoc]

theorem bytesOf_length (l : List ℕ) : ∀ e, (bytesOf cC cS celldata active stream part e l).length =
    (l.flatMap active).length * cS.size + l.length * cC.size := by
  induction l with
  | nil => intro e; simp [bytesOf]
  | cons c l ih =>
    intro e
    rw [bytesOf, List.length_append, List.length_append, ih, cC.enc_length,
      flatMap_length_const _ cS.size _ (fun _ _ => cS.enc_length _), List.flatMap_cons,
      List.length_append, List.length_cons]
    ring

variable (recv : S → P → P) (zero : F)

theorem unpackParts_spec (l : List S) : ∀ (s : UnpackState F P) (rest : List Byte),
    s.iter = (l.flatMap cS.enc) ++ rest →
    unpackParts cS recv l.length s = some ⟨rest, s.cell, overlay recv s.index l s.part,
      overlay (fun a _ => a) s.index ((List.range l.length).map fun j : ℕ => (s.index + j + 1 : ℤ)) s.inext,
      s.index + l.length, s.part_count + l.length⟩ := by
  induction l with
  | nil =>
    intro s rest h
    rw [List.flatMap_nil, List.nil_append] at h
    simp only [List.length_nil, unpackParts, overlay_nil, List.range_zero, List.map_nil, Nat.add_zero,
      ← h]
  | cons a l ih =>
    intro s rest h
    rw [List.flatMap_cons, List.append_assoc] at h
    rw [List.length_cons, unpackParts, h, unpackBytes_append, Option.bind_some]
    rw [ih _ rest rfl]
    simp only [Option.some.injEq, UnpackState.mk.injEq, true_and]
    refine ⟨?_, ?_, by omega, by omega⟩
    · rw [overlay_cons]
    · rw [List.range_succ_eq_map, List.map_cons, List.map_map, overlay_cons]
      simp only [Nat.cast_zero, add_zero]
      congr 1
      apply List.map_congr_left
      intro j _
      simp only [Function.comp, Nat.cast_add, Nat.cast_succ, Nat.cast_one]
      ring

/-- The cells as they arrive. -/
def cellsOf (op : ℕ) : (e oc : ℕ) → List ℕ → List (Cell F)
  | _, _, [] => []
  | e, oc, c :: cs => ⟨(celldata c).amin, (op + e : ℕ), (op + e + (active c).length : ℕ) - 1,
      (active c).length, (active c).length, oc, zero⟩ :: cellsOf op (e + (active c).length) (oc + 1) cs

theorem toInt_ofNat {x : ℕ} (h : x < 2 ^ 31) : (BitVec.ofNat 32 x).toInt = x := by
  rw [BitVec.toInt_eq_toNat_of_lt] <;> rw [BitVec.toNat_ofNat] <;> omega

theorem toInt_ofInt {x : ℤ} (h1 : -2 ^ 31 ≤ x) (h2 : x < 2 ^ 31) : (BitVec.ofInt 32 x).toInt = x := by
  rw [BitVec.toInt_ofInt]
  apply Int.bmod_eq_of_le <;> omega

theorem unpackCells_spec (op oc : ℕ) (l : List ℕ) : ∀ (icell : ℕ) (s : UnpackState F P) (e : ℕ)
    (rest : List Byte), e + (l.flatMap active).length < 2 ^ 31 → s.index = op + e →
    s.iter = bytesOf cC cS celldata active stream part e l ++ rest →
    unpackCells zero cC cS recv op oc l.length icell s = some ⟨rest,
      overlay (fun a _ => a) (icell + oc) (cellsOf celldata active zero op e (icell + oc) l) s.cell,
      overlay recv s.index ((l.flatMap active).map fun i => stream (part i)) s.part,
      overlay (fun a _ => a) s.index ((List.range (l.flatMap active).length).map
        fun j : ℕ => (s.index + j + 1 : ℤ)) s.inext,
      s.index + (l.flatMap active).length, s.part_count + (l.flatMap active).length⟩ := by
  induction l with
  | nil =>
    intro icell s e rest _ _ h
    rw [bytesOf, List.nil_append] at h
    simp [unpackCells, overlay_nil, cellsOf, ← h]
  | cons c l ih =>
    intro icell s e rest hb hi h
    rw [List.flatMap_cons, List.length_append] at hb
    rw [bytesOf, List.append_assoc, List.append_assoc] at h
    rw [List.length_cons, unpackCells, h, unpackBytes_append, Option.bind_some]
    have hd : receiveCell zero (CellStream.of (celldata c) (active c).length e) op (icell + oc) =
        ⟨(celldata c).amin, (op + e : ℕ), (op + e + (active c).length : ℕ) - 1,
          (active c).length, (active c).length, (icell + oc : ℕ), zero⟩ := by
      unfold receiveCell CellStream.of
      simp only [Cell.mk.injEq, true_and, and_true]
      rw [toInt_ofNat (by omega), toInt_ofNat (by omega), toInt_ofInt (by omega) (by omega)]
      refine ⟨by push_cast; ring, by push_cast; ring, rfl, rfl⟩
    simp only [hd]
    rw [Int.toNat_natCast]
    have hp := unpackParts_spec cS recv ((active c).map fun i => stream (part i))
      { s with
        iter := (active c).flatMap (fun i => cS.enc (stream (part i))) ++
          (bytesOf cC cS celldata active stream part (e + (active c).length) l ++ rest)
        cell := Function.update s.cell (icell + oc) ⟨(celldata c).amin, (op + e : ℕ),
          (op + e + (active c).length : ℕ) - 1, (active c).length, (active c).length,
          (icell + oc : ℕ), zero⟩ }
      (bytesOf cC cS celldata active stream part (e + (active c).length) l ++ rest)
      (by rw [List.flatMap_map])
    rw [List.length_map] at hp
    rw [hp, Option.bind_some]
    rw [ih (icell + 1) _ (e + (active c).length) rest (by omega) (by simp only; omega) rfl]
    simp only [Option.some.injEq, UnpackState.mk.injEq, true_and]
    refine ⟨?_, ?_, ?_, ?_, ?_⟩
    · rw [cellsOf, overlay_cons, show icell + 1 + oc = icell + oc + 1 by omega]
    · rw [List.flatMap_cons, List.map_append, overlay_append, List.length_map]
    · rw [List.flatMap_cons, List.length_append, List.range_add, List.map_append, overlay_append,
        List.length_map, List.length_range]
      congr 1
      rw [List.map_map]
      apply List.map_congr_left
      intro j _
      simp only [Function.comp]
      push_cast
      ring
    · rw [List.flatMap_cons, List.length_append]; omega
    · rw [List.flatMap_cons, List.length_append]; omega

theorem cellsOf_length (op : ℕ) (l : List ℕ) : ∀ e oc,
    (cellsOf celldata active zero op e oc l).length = l.length := by
  induction l with
  | nil => intro e oc; rfl
  | cons c l ih => intro e oc; rw [cellsOf, List.length_cons, ih, List.length_cons]

theorem cellsOf_get (op : ℕ) (l : List ℕ) : ∀ (e oc k : ℕ) (h : k < l.length)
    (h' : k < (cellsOf celldata active zero op e oc l).length),
    (cellsOf celldata active zero op e oc l)[k] =
      ⟨(celldata l[k]).amin, (op + (e + ((l.take k).flatMap active).length) : ℕ),
        (op + (e + ((l.take k).flatMap active).length) + (active l[k]).length : ℕ) - 1,
        (active l[k]).length, (active l[k]).length, (oc + k : ℕ), zero⟩ := by
  induction l with
  | nil => intro e oc k h; exact absurd h (by simp)
  | cons c l ih =>
    intro e oc k h h'
    cases k with
    | zero => simp [cellsOf]
    | succ k =>
      simp only [cellsOf, List.getElem_cons_succ]
      rw [ih (e + (active c).length) (oc + 1) k (by simpa using h)]
      simp only [List.take_succ_cons, List.flatMap_cons, List.length_append,
        show oc + 1 + k = oc + (k + 1) by omega,
        show e + (active c).length + (List.flatMap active (List.take k l)).length =
          e + ((active c).length + (List.flatMap active (List.take k l)).length) by omega]

end

/-! ### Return -/

section
variable (cR : Codec R) (cD : Codec F) (acc : R → P → P)

theorem unpackReturnParts_spec (ids : List ℕ) : ∀ (vals : List R) (rest : List Byte) (part : ℕ → P),
    vals.length = ids.length → ids.Nodup →
    ∃ part', unpackReturnParts cR acc ids (vals.flatMap cR.enc ++ rest) part = some (rest, part') ∧
      (∀ j (h : j < ids.length) (h' : j < vals.length), part' ids[j] = acc vals[j] (part ids[j])) ∧
      ∀ i, i ∉ ids → part' i = part i := by
  induction ids with
  | nil =>
    intro vals rest part hl _
    rw [List.length_nil, List.length_eq_zero_iff] at hl
    subst hl
    exact ⟨part, rfl, fun j h => absurd h (by simp), fun _ _ => rfl⟩
  | cons a ids ih =>
    intro vals rest part hl hn
    cases vals with
    | nil => simp at hl
    | cons v vals =>
      rw [List.nodup_cons] at hn
      obtain ⟨part', e, h1, h2⟩ := ih vals rest (Function.update part a (acc v (part a)))
        (by simpa using hl) hn.2
      refine ⟨part', ?_, ?_, ?_⟩
      · rw [List.flatMap_cons, List.append_assoc, unpackReturnParts, unpackBytes_append,
          Option.bind_some, e]
      · intro j h h'
        cases j with
        | zero =>
          simp only [List.getElem_cons_zero]
          rw [h2 a hn.1, Function.update_self]
        | succ j =>
          simp only [List.getElem_cons_succ]
          rw [h1 j (by simpa using h) (by simpa using h'), Function.update_of_ne]
          intro he
          exact hn.1 (he ▸ List.getElem_mem _)
      · intro i hi
        rw [List.mem_cons, not_or] at hi
        rw [h2 i hi.2, Function.update_of_ne hi.1]

theorem unpackReturnCells_spec [Add F] (ids : List ℕ) : ∀ (vals : List F) (rest : List Byte)
    (cell : ℕ → Cell F), vals.length = ids.length → ids.Nodup →
    ∃ cell', unpackReturnCells cD ids (vals.flatMap cD.enc ++ rest) cell = some (rest, cell') ∧
      (∀ j (h : j < ids.length) (h' : j < vals.length), cell' ids[j] =
        { cell ids[j] with worktot := (cell ids[j]).worktot + vals[j] }) ∧
      ∀ i, i ∉ ids → cell' i = cell i := by
  induction ids with
  | nil =>
    intro vals rest cell hl _
    rw [List.length_nil, List.length_eq_zero_iff] at hl
    subst hl
    exact ⟨cell, rfl, fun j h => absurd h (by simp), fun _ _ => rfl⟩
  | cons a ids ih =>
    intro vals rest cell hl hn
    cases vals with
    | nil => simp at hl
    | cons v vals =>
      rw [List.nodup_cons] at hn
      obtain ⟨cell', e, h1, h2⟩ := ih vals rest
        (Function.update cell a { cell a with worktot := (cell a).worktot + v }) (by simpa using hl) hn.2
      refine ⟨cell', ?_, ?_, ?_⟩
      · rw [List.flatMap_cons, List.append_assoc, unpackReturnCells, unpackBytes_append,
          Option.bind_some, e]
      · intro j h h'
        cases j with
        | zero =>
          simp only [List.getElem_cons_zero]
          rw [h2 a hn.1, Function.update_self]
        | succ j =>
          simp only [List.getElem_cons_succ]
          rw [h1 j (by simpa using h) (by simpa using h'), Function.update_of_ne]
          intro he
          exact hn.1 (he ▸ List.getElem_mem _)
      · intro i hi
        rw [List.mem_cons, not_or] at hi
        rw [h2 i hi.2, Function.update_of_ne hi.1]

end

/-! ### Displacements -/

theorem computeDispls_spec (size : ℕ) (counts old : ℕ → ℕ) : ∀ i < size,
    computeDispls size counts old i = ((List.range i).map counts).sum := by
  have key : ∀ m, ∀ i ≤ m, ((List.range' 1 m).foldl
      (fun d i => Function.update d i (counts (i - 1) + d (i - 1))) (Function.update old 0 0)) i =
      ((List.range i).map counts).sum := by
    intro m
    induction m with
    | zero =>
      intro i hi
      obtain rfl : i = 0 := by omega
      simp
    | succ m ih =>
      intro i hi
      rw [List.range'_1_concat, List.foldl_append, List.foldl_cons, List.foldl_nil]
      by_cases h : i = 1 + m
      · subst h
        rw [Function.update_self, show 1 + m - 1 = m by omega, ih m le_rfl, Nat.add_comm 1 m,
          List.range_succ, List.map_append, List.sum_append]
        simp [Nat.add_comm]
      · rw [Function.update_of_ne h]
        exact ih i (by omega)
  intro i hi
  unfold computeDispls
  rw [if_neg (by omega)]
  by_cases h1 : size = 1
  · rw [if_pos h1]
    obtain rfl : i = 0 := by omega
    simp
  · rw [if_neg h1]
    exact key (size - 1) i (by omega)

theorem ghostEnds_length (l : List ℕ) : ∀ b, (ghostEnds b l).length = l.length := by
  induction l with
  | nil => intro b; rfl
  | cons a l ih => intro b; simp [ghostEnds, ih]

/-- The process found is the one in whose block the ghost lies. -/
theorem procOf_spec (l : List ℕ) : ∀ (base index : ℕ), base ≤ index → index < base + l.sum →
    procOf (ghostEnds base l) index < l.length ∧
      base + (l.take (procOf (ghostEnds base l) index)).sum ≤ index ∧
      index < base + (l.take (procOf (ghostEnds base l) index + 1)).sum := by
  induction l with
  | nil => intro base index h1 h2; simp at h2; omega
  | cons a l ih =>
    intro base index h1 h2
    rw [ghostEnds, procOf, List.findIdx_cons]
    by_cases h : index < base + a
    · simp only [h, decide_true, cond_true]
      simp
      omega
    · simp only [h, decide_false, cond_false]
      rw [List.sum_cons] at h2
      have := ih (base + a) index (by omega) (by omega)
      unfold procOf at this
      simp only [List.length_cons, List.take_succ_cons, List.sum_cons]
      omega

theorem fillBuffer_overlay {T : Type*} (displs : ℕ → ℕ) (blocks : List (List T)) :
    ∀ (k base : ℕ) (buffer : ℕ → T),
    (∀ j < blocks.length, displs (k + j) = base + ((blocks.take j).map List.length).sum) →
    (blocks.zipIdx k).foldl (fun b x => fun i =>
      if h : displs x.2 ≤ i ∧ i - displs x.2 < x.1.length then x.1[i - displs x.2]'h.2 else b i) buffer =
    overlay (fun a _ => a) base blocks.flatten buffer := by
  induction blocks with
  | nil => intro k base buffer _; rw [List.flatten_nil, overlay_nil]; rfl
  | cons x blocks ih =>
    intro k base buffer h
    have h0 : displs k = base := by simpa using h 0 (by simp)
    rw [List.zipIdx_cons, List.foldl_cons, ih (k + 1) (base + x.length) _ ?_, List.flatten_cons,
      overlay_append]
    · congr 1
      funext i
      simp only [h0]
      unfold overlay
      by_cases h1 : base ≤ i
      · by_cases h2 : i - base < x.length
        · rw [dif_pos ⟨h1, h2⟩, if_pos h1, List.getElem?_eq_getElem h2]
        · rw [dif_neg (fun hh => h2 hh.2), if_pos h1, List.getElem?_eq_none (by omega)]
      · rw [dif_neg (fun hh => h1 hh.1), if_neg h1]
    · intro j hj
      have := h (j + 1) (by simpa using hj)
      rw [show k + 1 + j = k + (j + 1) by omega, this]
      simp [Nat.add_assoc]

/-! ### Sinks -/

section sinks
variable (Nmpi : ℕ) (inDomain : ℕ → ℕ → Bool)

theorem sinkOwner_unique (s p : ℕ) (hp : p < Nmpi) (hin : inDomain p s = true)
    (hu : ∀ q < Nmpi, inDomain q s = true → q = p) : sinkOwner Nmpi inDomain s = p := by
  have key : ∀ m ≤ Nmpi, (List.range m).foldl
      (fun m p => max m (if inDomain p s then p else 0)) 0 = if p < m then p else 0 := by
    intro m
    induction m with
    | zero => intro _; rfl
    | succ m ih =>
      intro hm
      rw [List.range_succ, List.foldl_append, List.foldl_cons, List.foldl_nil, ih (by omega)]
      by_cases h : inDomain m s = true
      · have := hu m (by omega) h
        subst this
        rw [if_pos h, if_neg (by omega), if_pos (by omega)]
        omega
      · rw [if_neg h]
        have hne : m ≠ p := fun he => h (he ▸ hin)
        by_cases h2 : p < m
        · rw [if_pos h2, if_pos (by omega)]; omega
        · rw [if_neg h2, if_neg (by omega)]; omega
  have := key Nmpi le_rfl
  rw [if_pos hp] at this
  exact this

theorem drop_take_flatten {A : Type*} (f : ℕ → List A) (V : ℕ) (L R : List ℕ) (s : ℕ) (B : List A)
    (h : ∀ s, (f s).length = V) :
    (((L ++ s :: R).flatMap f ++ B).drop (L.length * V)).take V = f s := by
  rw [List.flatMap_append, List.append_assoc,
    List.drop_left' (flatMap_length_const f V L fun _ _ => h _), List.flatMap_cons, List.append_assoc,
    List.take_left' (h s)]

theorem filter_range_split (q : ℕ → Bool) (m n : ℕ) (hm : m < n) (hq : q m = true) :
    ∃ R, (List.range n).filter q = (List.range m).filter q ++ m :: R := by
  obtain ⟨k, rfl⟩ : ∃ k, n = m + 1 + k := ⟨n - (m + 1), by omega⟩
  refine ⟨((List.range k).map fun x => m + 1 + x).filter q, ?_⟩
  rw [List.range_add, List.filter_append, List.range_succ, List.filter_append, List.append_assoc]
  simp [hq]

theorem mapM_some {A B : Type*} (f : A → Option B) (g : A → B) (l : List A)
    (h : ∀ a ∈ l, f a = some (g a)) : l.mapM f = some (l.map g) := by
  induction l with
  | nil => rfl
  | cons a l ih =>
    rw [List.mapM_cons, h a List.mem_cons_self, ih fun a ha => h a (List.mem_cons_of_mem _ ha)]
    rfl

theorem range_flatMap_split {A : Type*} (b : ℕ → List A) (n p : ℕ) (hp : p < n) :
    ∃ B, ((List.range n).map b).flatten = ((List.range p).map b).flatten ++ (b p ++ B) := by
  obtain ⟨k, rfl⟩ : ∃ k, n = p + 1 + k := ⟨n - (p + 1), by omega⟩
  refine ⟨(((List.range k).map fun x => p + 1 + x).map b).flatten, ?_⟩
  rw [List.range_add, List.map_append, List.flatten_append, List.range_succ, List.map_append,
    List.flatten_append, List.append_assoc]
  simp

theorem flatten_length_const {A : Type*} (b : ℕ → List A) (c : ℕ → ℕ) (V n : ℕ)
    (h : ∀ p, p < n → (b p).length = c p * V) :
    (((List.range n).map b).flatten).length = ((List.range n).map c).sum * V := by
  induction n with
  | zero => simp
  | succ n ih =>
    rw [List.range_succ, List.map_append, List.flatten_append, List.length_append,
      ih fun p hp => h p (by omega), List.map_append, List.sum_append]
    simp [h n (by omega), add_mul]

theorem sinkUpdate_spec {A : Type*} (V Nsink : ℕ) (rec : ℕ → ℕ → List A) (rank : ℕ) (own : ℕ → ℕ)
    (hV : ∀ p s, (rec p s).length = V) (hlt : ∀ s < Nsink, own s < Nmpi)
    (hown : ∀ s < Nsink, ∀ p < Nmpi, inDomain p s = true ↔ p = own s) :
    ∃ out, sinkUpdate V Nmpi Nsink inDomain rec rank = some out ∧
      (∀ s < Nsink, out s = rec (own s) s) ∧ ∀ s, Nsink ≤ s → out s = rec rank s := by
  have ho : ∀ s < Nsink, sinkOwner Nmpi inDomain s = own s := fun s hs =>
    sinkOwner_unique Nmpi inDomain s (own s) (hlt s hs) ((hown s hs _ (hlt s hs)).mpr rfl)
      fun q hq h => (hown s hs q hq).mp h
  set L : ℕ → List ℕ := fun p => (List.range Nsink).filter fun s => own s = p with hL
  have hL1 : ∀ p, ((List.range Nsink).filter fun s => sinkOwner Nmpi inDomain s = p) = L p := by
    intro p
    apply List.filter_congr
    intro s hs
    rw [ho s (List.mem_range.mp hs)]
  have hL2 : ∀ p < Nmpi, localSinks Nsink inDomain p = (L p).length := by
    intro p hp
    unfold localSinks
    congr 1
    apply List.filter_congr
    intro s hs
    have := hown s (List.mem_range.mp hs) p hp
    rw [Bool.eq_iff_iff, this, decide_eq_true_iff, eq_comm]
  have hb : ∀ p, ((L p).flatMap (rec p)).length = (L p).length * V := fun p =>
    flatMap_length_const _ V _ fun _ _ => hV p _
  have hsend : ∀ p ∈ List.range Nmpi, sinkSend V Nmpi Nsink inDomain (rec p) p =
      some ((L p).flatMap (rec p)) := by
    intro p hp
    unfold sinkSend
    simp only [hL1, hL2 p (List.mem_range.mp hp), hb]
    rw [if_neg (by omega)]
  unfold sinkUpdate
  rw [mapM_some _ _ _ hsend, Option.map_some]
  refine ⟨_, rfl, ?_⟩
  set d := computeDispls Nmpi (localSinks Nsink inDomain) fun _ => 0 with hd
  set buf := ((List.range Nmpi).map fun p => (L p).flatMap (rec p)).flatten with hbuf
  have hdis : ∀ p < Nmpi, d p = ((List.range p).map fun q => (L q).length).sum := by
    intro p hp
    rw [hd, computeDispls_spec _ _ _ p hp]
    congr 1
    apply List.map_congr_left
    intro q hq
    exact hL2 q (by have := List.mem_range.mp hq; omega)
  have key : ∀ m ≤ Nsink,
      let r := (List.range m).foldl (sinkUnpack V Nmpi inDomain (fun i => d i * V) buf rank)
        (rec rank, fun _ => 0)
      (∀ s < m, r.1 s = rec (own s) s) ∧ (∀ s, m ≤ s → r.1 s = rec rank s) ∧
      ∀ p, p ≠ rank → r.2 p = ((List.range m).filter fun s => own s = p).length := by
    intro m
    induction m with
    | zero => intro _; simp
    | succ m ih =>
      intro hm
      obtain ⟨h1, h2, h3⟩ := ih (by omega)
      simp only [List.range_succ, List.foldl_append, List.foldl_cons, List.foldl_nil]
      set r := (List.range m).foldl (sinkUnpack V Nmpi inDomain (fun i => d i * V) buf rank)
        (rec rank, fun _ => 0) with hr
      unfold sinkUnpack
      simp only [ho m (by omega)]
      by_cases hrk : own m = rank
      · rw [if_pos hrk]
        refine ⟨?_, fun s hs => h2 s (by omega), ?_⟩
        · intro s hs
          rcases Nat.lt_or_ge s m with h | h
          · exact h1 s h
          · obtain rfl : s = m := by omega
            rw [h2 s le_rfl, hrk]
        · intro p hp
          rw [h3 p hp, List.filter_append]
          have : ¬ own m = p := fun he => hp (he ▸ hrk)
          simp [this]
      · rw [if_neg hrk]
        refine ⟨?_, ?_, ?_⟩
        · intro s hs
          simp only []
          by_cases h : s = m
          · subst h
            rw [Function.update_self, h3 _ hrk]
            obtain ⟨B, hB⟩ := range_flatMap_split (fun p => (L p).flatMap (rec p)) Nmpi (own s)
              (hlt s (by omega))
            obtain ⟨R, hR⟩ := filter_range_split (fun t => decide (own t = own s)) s Nsink (by omega)
              (by simp)
            have hlen : (((List.range (own s)).map fun p => (L p).flatMap (rec p)).flatten).length =
                d (own s) * V := by
              rw [flatten_length_const _ (fun q => (L q).length) V _ (fun p _ => hb p),
                hdis _ (hlt s (by omega))]
            rw [hbuf, hB, ← List.drop_drop, List.drop_left' hlen]
            have hLs : L (own s) = (List.range s).filter (fun t => decide (own t = own s)) ++ s :: R := hR
            simp only [hLs]
            exact drop_take_flatten (rec (own s)) V _ R s B (hV _)
          · rw [Function.update_of_ne h]
            exact h1 s (by omega)
        · intro s hs
          simp only []
          rw [Function.update_of_ne (by omega)]
          exact h2 s (by omega)
        · intro p hp
          simp only []
          rw [List.filter_append]
          by_cases h : p = own m
          · subst h
            rw [Function.update_self, h3 _ hp]
            simp
          · rw [Function.update_of_ne h, h3 p hp]
            have : ¬ own m = p := fun he => h he.symm
            simp [this]
  have := key Nsink le_rfl
  exact ⟨this.1, this.2.1⟩

end sinks

/-! ### Timing -/

theorem pack_append (b : TBlock) (buf : List Byte) : b.pack buf = buf ++ b.pack [] := by
  unfold TBlock.pack appendBytes
  simp [List.append_assoc]

theorem unpack_pack (b : TBlock) (rest : List Byte) (h : 24 + b.block_name.length < 2 ^ 31) :
    TBlock.unpack (b.pack [] ++ rest) = some (b, rest) := by
  have e4 : ∀ x, (Codec.int.enc x).length = 4 := fun x => Codec.int.enc_length x
  have e8 : ∀ x, (Codec.double.enc x).length = 8 := fun x => Codec.double.enc_length x
  unfold TBlock.unpack TBlock.pack appendBytes
  simp only [List.nil_append, List.append_assoc, unpackBytes_append, Option.bind_some]
  have hl : (Codec.int.enc b.timing_level ++ (Codec.int.enc b.Ncalled ++ (Codec.double.enc b.ttot ++
      (Codec.double.enc b.ttot_wall ++ b.block_name)))).length = 24 + b.block_name.length := by
    simp only [List.length_append, e4, e8]; omega
  rw [hl, toInt_ofNat h]
  unfold takeBytes
  have hn : ((24 + b.block_name.length : ℕ) : ℤ) - (4 + 4 + 8 + 8) = (b.block_name.length : ℤ) := by
    push_cast; ring
  rw [hn, if_neg (by rw [List.length_append, Int.toNat_natCast]; omega), Int.toNat_natCast,
    List.take_left, List.drop_left, Option.bind_some, unpackBytes_append]
  simp

theorem unpackBlocks_spec (l : List (List Byte × TBlock)) : ∀ (m : List (List Byte × TBlock))
    (rest : List Byte), (∀ kv ∈ l, kv.1 = kv.2.block_name ∧ 24 + kv.1.length < 2 ^ 31) →
    ((m ++ l).map Prod.fst).Nodup →
    unpackBlocks l.length (l.flatMap (fun kv => kv.2.pack []) ++ rest) m = some (m ++ l, rest) := by
  induction l with
  | nil => intro m rest _ _; simp [unpackBlocks]
  | cons a l ih =>
    intro m rest h hn
    obtain ⟨h1, h2⟩ := h a List.mem_cons_self
    rw [List.length_cons, unpackBlocks, List.flatMap_cons, List.append_assoc,
      unpack_pack _ _ (h1 ▸ h2), Option.bind_some]
    have hins : insertBlock m a.2 = m ++ [a] := by
      unfold insertBlock
      rw [if_neg, ← h1]
      rw [List.any_eq_true]
      rintro ⟨x, hx, hx2⟩
      rw [List.map_append, List.nodup_append] at hn
      refine hn.2.2 x.1 (List.mem_map_of_mem hx) a.1 (by simp) ?_
      rw [h1]; simpa using hx2
    simp only [hins]
    rw [ih (m ++ [a]) rest (fun kv hk => h kv (List.mem_cons_of_mem _ hk))
      (by rwa [List.append_assoc, List.singleton_append]), List.append_assoc, List.singleton_append]

/-- The bytes of the levels. -/
def levelBytes : ℕ → List (List (List Byte × TBlock)) → List Byte
  | _, [] => []
  | l, x :: xs => Codec.int.enc (BitVec.ofNat 32 l) ++ (Codec.int.enc (BitVec.ofNat 32 x.length) ++
      (x.flatMap (fun kv => kv.2.pack []) ++ (Codec.int.enc (BitVec.ofInt 32 (-1)) ++
        levelBytes (l + 1) xs)))

theorem foldl_pack (x : List (List Byte × TBlock)) : ∀ b : List Byte,
    x.foldl (fun b kv => kv.2.pack b) b = b ++ x.flatMap fun kv => kv.2.pack [] := by
  induction x with
  | nil => intro b; simp
  | cons a x ih => intro b; rw [List.foldl_cons, ih, pack_append, List.flatMap_cons, List.append_assoc]

theorem foldl_packLevel (xs : List (List (List Byte × TBlock))) : ∀ (l : ℕ) (b : List Byte),
    (xs.zipIdx l).foldl packLevel b = b ++ levelBytes l xs := by
  induction xs with
  | nil => intro l b; simp [levelBytes]
  | cons x xs ih =>
    intro l b
    rw [List.zipIdx_cons, List.foldl_cons, ih]
    unfold packLevel
    simp only [foldl_pack, appendBytes, levelBytes, List.append_assoc]

/-- What the code keeps: keys are the names of their blocks and differ, and nothing is too long. -/
structure MapOk (xs : List (List (List Byte × TBlock))) : Prop where
  levels : xs.length < 2 ^ 31
  blocks : ∀ x ∈ xs, x.length < 2 ^ 31
  names : ∀ x ∈ xs, ∀ kv ∈ x, kv.1 = kv.2.block_name ∧ 24 + kv.1.length < 2 ^ 31
  distinct : ∀ x ∈ xs, (x.map Prod.fst).Nodup

theorem unpackLevels_spec (xs : List (List (List Byte × TBlock))) :
    ∀ (l : ℕ) (acc : List (List (List Byte × TBlock))) (rest : List Byte),
    l + xs.length < 2 ^ 31 → (∀ x ∈ xs, x.length < 2 ^ 31) →
    (∀ x ∈ xs, ∀ kv ∈ x, kv.1 = kv.2.block_name ∧ 24 + kv.1.length < 2 ^ 31) →
    (∀ x ∈ xs, (x.map Prod.fst).Nodup) →
    unpackLevels xs.length l (levelBytes l xs ++ rest) acc = some (acc ++ xs, rest) := by
  induction xs with
  | nil => intro l acc rest _ _ _ _; simp [unpackLevels, levelBytes]
  | cons x xs ih =>
    intro l acc rest h1 h2 h3 h4
    rw [List.length_cons] at h1
    have hx : x ∈ x :: xs := List.mem_cons_self
    rw [List.length_cons, unpackLevels, levelBytes]
    simp only [List.append_assoc, unpackBytes_append, Option.bind_some]
    rw [if_neg (by rw [toInt_ofNat (by omega)]; simp), toInt_ofNat (h2 x hx), Int.toNat_natCast,
      unpackBlocks_spec x [] _ (h3 x hx) (by simpa using h4 x hx), Option.bind_some]
    simp only [unpackBytes_append, Option.bind_some, List.nil_append]
    rw [if_neg (by rw [toInt_ofInt (by omega) (by omega)]; simp)]
    rw [ih (l + 1) _ rest (by omega) (fun y hy => h2 y (List.mem_cons_of_mem _ hy))
      (fun y hy => h3 y (List.mem_cons_of_mem _ hy)) (fun y hy => h4 y (List.mem_cons_of_mem _ hy)),
      List.append_assoc, List.singleton_append]

theorem unpackTiming_spec (xs : List (List (List Byte × TBlock))) (h : MapOk xs) (rest : List Byte) :
    unpackTiming (packTiming xs ++ rest) = some (xs, rest) := by
  unfold unpackTiming packTiming
  rw [show xs.zipIdx = xs.zipIdx 0 from rfl, foldl_packLevel]
  simp only [appendBytes, List.nil_append, List.append_assoc, unpackBytes_append, Option.bind_some]
  rw [toInt_ofNat h.levels, Int.toNat_natCast,
    unpackLevels_spec xs 0 [] _ (by have := h.levels; omega) h.blocks h.names h.distinct, Option.bind_some]
  simp only [unpackBytes_append, Option.bind_some, List.nil_append]
  rw [if_neg (by rw [toInt_ofInt (by omega) (by omega)]; simp)]

end Gandalf.Pack
