import Verif.Proof.Params

/-!
# C39 – parameter files
-/

set_option autoImplicit false
set_option linter.unusedSectionVars false

namespace Gandalf

open Params

/-! ### specification -/

/-- The table `t'` is `t` with the one entry `key`, if there is one, set from the text `value`. -/
structure Params.SetsOnly (io : FloatText) (t t' : Table) (key value : List Char) : Prop where
  int_keys : t'.ints.keys = t.ints.keys
  float_keys : t'.floats.keys = t.floats.keys
  string_keys : t'.strings.keys = t.strings.keys
  ints : ∀ k, t'.ints.val k = if k = key ∧ key ∈ t.ints.keys then readInt value else t.ints.val k
  floats : ∀ k, t'.floats.val k = if k = key ∧ key ∈ t.floats.keys ∧ key ∉ t.ints.keys then io.read value else t.floats.val k
  strings : ∀ k, t'.strings.val k =
    if k = key ∧ key ∈ t.strings.keys ∧ key ∉ t.ints.keys ∧ key ∉ t.floats.keys then value else t.strings.val k

/-- A usable name: not empty, no blanks, colons or equals signs, not beginning with a hash. -/
def Params.Name (k : List Char) : Prop := k ≠ [] ∧ ' ' ∉ k ∧ ':' ∉ k ∧ '=' ∉ k ∧ k.head? ≠ some '#'

instance (k : List Char) : Decidable (Name k) := by unfold Name; infer_instance

/-- The names of a table are usable and each occurs once. -/
structure Params.Sound (t : Table) : Prop where
  names : ∀ k, k ∈ t.ints.keys ∨ k ∈ t.floats.keys ∨ k ∈ t.strings.keys → Name k
  int_float : ∀ k ∈ t.ints.keys, k ∉ t.floats.keys
  int_string : ∀ k ∈ t.ints.keys, k ∉ t.strings.keys
  float_string : ∀ k ∈ t.floats.keys, k ∉ t.strings.keys
  int_nodup : t.ints.keys.Nodup
  float_nodup : t.floats.keys.Nodup
  string_nodup : t.strings.keys.Nodup

variable (io : FloatText) (t : Table)

namespace Params

theorem setParameter_spec (key value : List Char) : SetsOnly io t (setParameter io t key value) key value := by
  have upd : ∀ {β : Type} (f : List Char → β) (v : β) (k : List Char), Function.update f key v k = if k = key then v else f k := by
    intro β f v k
    by_cases h : k = key
    · subst h; simp
    · rw [Function.update_of_ne h, if_neg h]
  unfold setParameter
  by_cases h1 : key ∈ t.ints.keys
  · rw [if_pos h1]
    refine ⟨rfl, rfl, rfl, fun k => ?_, fun k => ?_, fun k => ?_⟩
    · simp only [h1, and_true]; exact upd _ _ k
    · simp [h1]
    · simp [h1]
  · rw [if_neg h1]
    by_cases h2 : key ∈ t.floats.keys
    · rw [if_pos h2]
      refine ⟨rfl, rfl, rfl, fun k => ?_, fun k => ?_, fun k => ?_⟩
      · simp [h1]
      · simp only [h1, h2, and_true, not_false_iff]; exact upd _ _ k
      · simp [h2]
    · rw [if_neg h2]
      by_cases h3 : key ∈ t.strings.keys
      · rw [if_pos h3]
        refine ⟨rfl, rfl, rfl, fun k => ?_, fun k => ?_, fun k => ?_⟩
        · simp [h1]
        · simp [h2]
        · simp only [h1, h2, h3, and_true, not_false_iff]; exact upd _ _ k
      · rw [if_neg h3]
        exact ⟨rfl, rfl, rfl, fun k => by simp [h1], fun k => by simp [h2], fun k => by simp [h3]⟩

theorem parse_plain (key value : List Char) (hk0 : key.head? ≠ some '#') (hk : '=' ∉ key) (hc : ':' ∉ key ++ '=' :: value)
    (hs : ' ' ∉ key ++ '=' :: value) : parseLine io t (key ++ '=' :: value) = setParameter io t key value := by
  unfold parseLine
  simp only
  rw [trim_id hs, find_none hc, find_append hk]
  have h1 : find '#' (key ++ '=' :: value) ≠ 0 := by
    rw [Ne, find_hash]
    cases key with
    | nil => simp
    | cons c k => simpa using hk0
  rw [if_neg (by simp only [List.length_append, List.length_cons]; push Not; exact ⟨h1, by omega⟩),
    if_neg (by simp only [List.length_append, List.length_cons]; push Not; constructor <;> omega)]
  congr 1
  · have : ((key.length : ℤ) - -1 - 1) = key.length := by ring
    rw [this]
    exact substr_front key _
  · have : (((key ++ '=' :: value).length : ℤ) - key.length - 1) = value.length := by
      simp only [List.length_append, List.length_cons]; omega
    rw [this]
    exact substr_end key value '='

end Params

/-- A comment, or a line of blanks, changes nothing. -/
theorem C39_comment (line : List Char) (h : (trim line).head? = some '#' ∨ ∀ c ∈ line, c = ' ') : parseLine io t line = t := by
  unfold parseLine
  simp only
  rw [if_pos]
  rcases h with h | h
  · exact Or.inl (find_hash.mpr h)
  · right
    have : trim line = [] := by
      unfold trim
      rw [List.filter_eq_nil_iff]
      intro c hc
      simp [h c hc]
    rw [this]
    rfl

/-- A line "description : key = value" sets the entry `key` and nothing else; blanks do not matter. -/
theorem C39_assignment (desc key value : List Char) (hd : ':' ∉ desc ∧ '=' ∉ desc) (hk : '=' ∉ key)
    (hh : (trim (desc ++ [':'])).head? ≠ some '#') :
    SetsOnly io t (parseLine io t (desc ++ ':' :: key ++ '=' :: value)) (trim key) (trim value) := by
  have e : parseLine io t (desc ++ ':' :: key ++ '=' :: value) = setParameter io t (trim key) (trim value) := by
    unfold parseLine
    simp only
    have ht : trim (desc ++ ':' :: key ++ '=' :: value) = trim desc ++ ':' :: trim key ++ '=' :: trim value := by
      rw [trim_append, trim_append, trim_cons (by decide), trim_cons (by decide)]
    have hc : find ':' (trim desc ++ ':' :: trim key ++ '=' :: trim value) = (trim desc).length := by
      rw [List.append_assoc, List.cons_append]
      exact find_append (fun h => hd.1 (mem_trim.mp h).1) _
    have he : find '=' (trim desc ++ ':' :: trim key ++ '=' :: trim value) = ((trim desc).length : ℤ) + 1 + (trim key).length := by
      rw [find_append]
      · simp only [List.length_append, List.length_cons]; omega
      · intro h
        rcases List.mem_append.mp h with h | h
        · exact hd.2 (mem_trim.mp h).1
        · rcases List.mem_cons.mp h with h | h
          · exact absurd h (by decide)
          · exact hk (mem_trim.mp h).1
    have h1 : find '#' (trim desc ++ ':' :: trim key ++ '=' :: trim value) ≠ 0 := by
      rw [Ne, find_hash]
      rw [trim_append, trim_cons (by decide)] at hh
      cases hD : trim desc with
      | nil => simp
      | cons c k => rw [hD] at hh; simpa using hh
    rw [ht, hc, he]
    rw [if_neg (by simp only [List.length_append, List.length_cons]; push Not; exact ⟨h1, by omega⟩),
      if_neg (by simp only [List.length_append, List.length_cons]; push Not; constructor <;> omega)]
    congr 1
    · have : ((trim desc).length : ℤ) + 1 + (trim key).length - (trim desc).length - 1 = (trim key).length := by ring
      rw [this]
      exact substr_mid _ _ _ _
    · have h2 := substr_end (trim desc ++ ':' :: trim key) (trim value) '='
      have h3 : ((trim desc).length : ℤ) + 1 + (trim key).length = (trim desc ++ ':' :: trim key).length := by
        simp only [List.length_append, List.length_cons]; omega
      have h4 : ((trim desc ++ ':' :: trim key ++ '=' :: trim value).length : ℤ) - (trim desc ++ ':' :: trim key).length - 1 =
          (trim value).length := by
        simp only [List.length_append, List.length_cons]; omega
      rw [h3, h4]
      exact h2
  rw [e]
  exact setParameter_spec io t _ _

/-- A line "key = value" without a colon sets the entry `key` and nothing else. -/
theorem C39_plain_assignment (key value : List Char) (hk : '=' ∉ key) (hc : ':' ∉ key ∧ ':' ∉ value)
    (hh : (trim key).head? ≠ some '#') :
    SetsOnly io t (parseLine io t (key ++ '=' :: value)) (trim key) (trim value) := by
  have ht : trim (key ++ '=' :: value) = trim key ++ '=' :: trim value := by
    rw [trim_append, trim_cons (by decide)]
  have hidem : ∀ s, trim (trim s) = trim s := fun s => trim_id fun h => (mem_trim.mp h).2 rfl
  have e0 : parseLine io t (key ++ '=' :: value) = parseLine io t (trim key ++ '=' :: trim value) := by
    unfold parseLine
    rw [ht, ← ht, hidem]
  rw [e0, parse_plain io t (trim key) (trim value) hh (fun h => hk (mem_trim.mp h).1) _ _]
  · exact setParameter_spec io t _ _
  · rw [← ht]
    intro h
    have h := (mem_trim.mp h).1
    rcases List.mem_append.mp h with h | h
    · exact hc.1 h
    · rcases List.mem_cons.mp h with h | h
      · exact absurd h (by decide)
      · exact hc.2 h
  · rw [← ht]
    intro h
    exact (mem_trim.mp h).2 rfl

/-- An unknown name changes nothing. -/
theorem C39_unknown (key value : List Char) (h : key ∉ t.ints.keys ∧ key ∉ t.floats.keys ∧ key ∉ t.strings.keys) :
    setParameter io t key value = t := by
  unfold setParameter
  rw [if_neg h.1, if_neg h.2.1, if_neg h.2.2]

/-- A line without an equals sign changes nothing, provided it has a colon or is not itself the name of a parameter.
(Missing: a line that consists of just the name of a parameter, see `C39_bare_key_fails`.) -/
theorem C39_no_assignment_partial (line : List Char) (he : '=' ∉ line)
    (h : ':' ∈ line ∨ (trim line ∉ t.ints.keys ∧ trim line ∉ t.floats.keys ∧ trim line ∉ t.strings.keys)) : parseLine io t line = t := by
  unfold parseLine
  simp only
  have he' : find '=' (trim line) = -1 := find_none fun h => he (mem_trim.mp h).1
  by_cases h0 : find '#' (trim line) = 0 ∨ ((trim line).length : ℤ) = 0
  · rw [if_pos h0]
  · rw [if_neg h0]
    by_cases hc : ':' ∈ trim line
    · rw [if_pos]
      right
      have := find_nonneg hc
      have h2 := (find_lt ':' (trim line)).1
      rw [he']
      exact ⟨h2, by omega⟩
    · have h' : trim line ∉ t.ints.keys ∧ trim line ∉ t.floats.keys ∧ trim line ∉ t.strings.keys := by
        rcases h with h | h
        · exact absurd (mem_trim.mpr ⟨h, by decide⟩) hc
        · exact h
      rw [he', find_none hc, if_neg (by omega)]
      have e1 : substr (trim line) (-1 + 1) (-1 - -1 - 1) = trim line := by
        unfold substr
        rw [if_pos (by omega)]
        simp
      rw [e1]
      exact C39_unknown io t _ _ h'

/-- A line that consists of the name of a parameter only is taken as an assignment of that name to itself. -/
theorem C39_bare_key (key : List Char) (hk : Name key) : parseLine io t key = setParameter io t key key := by
  obtain ⟨h0, hs, hc, he, hh⟩ := hk
  unfold parseLine
  simp only
  rw [trim_id hs, find_none hc, find_none he]
  have h1 : find '#' key ≠ 0 := by rw [Ne, find_hash]; exact hh
  have h2 : (key.length : ℤ) ≠ 0 := by simpa using h0
  rw [if_neg (by push Not; exact ⟨h1, h2⟩), if_neg (by omega)]
  have e1 : substr key (-1 + 1) (-1 - -1 - 1) = key := by
    unfold substr
    rw [if_pos (by omega)]
    simp
  have e2 : substr key (-1 + 1) ((key.length : ℤ) - -1 - 1) = key := by
    have : ((key.length : ℤ) - -1 - 1) = key.length := by ring
    rw [this]
    have := substr_front key []
    simpa using this
  rw [e1, e2]

/-- the table with the names of the code -/
def Params.codeTable (i : List Char → ℤ) (f : List Char → ℚ) (s : List Char → List Char) : Table := ⟨⟨intKeys, i⟩, ⟨floatKeys, f⟩, ⟨stringKeys, s⟩⟩

/-- So a stray line `ndim` sets the number of dimensions to zero, and a stray line `run_id` names the run "run_id". -/
theorem C39_bare_key_fails (i : List Char → ℤ) (f : List Char → ℚ) (s : List Char → List Char) :
    (parseLine io (codeTable i f s) "ndim".toList).ints.val "ndim".toList = 0 ∧
    (parseLine io (codeTable i f s) "run_id".toList).strings.val "run_id".toList = "run_id".toList := by
  constructor
  · rw [C39_bare_key io _ _ (by decide +kernel), (setParameter_spec io _ _ _).ints]
    rw [if_pos ⟨rfl, by change "ndim".toList ∈ intKeys; decide +kernel⟩]
    decide +kernel
  · rw [C39_bare_key io _ _ (by decide +kernel), (setParameter_spec io _ _ _).strings]
    rw [if_pos ⟨rfl, by
      change "run_id".toList ∈ stringKeys ∧ "run_id".toList ∉ intKeys ∧ "run_id".toList ∉ floatKeys
      decide +kernel⟩]

/-- The names in the code are usable and distinct. -/
theorem C39_code_names (i : List Char → ℤ) (f : List Char → ℚ) (s : List Char → List Char) : Sound (codeTable i f s) := by
  have a1 : ∀ k ∈ intKeys, Name k := by decide +kernel
  have a2 : ∀ k ∈ floatKeys, Name k := by decide +kernel
  have a3 : ∀ k ∈ stringKeys, Name k := by decide +kernel
  refine ⟨fun k h => ?_, ?_, ?_, ?_, ?_, ?_, ?_⟩
  · rcases h with h | h | h
    · exact a1 k h
    · exact a2 k h
    · exact a3 k h
  · change ∀ k ∈ intKeys, k ∉ floatKeys; decide +kernel
  · change ∀ k ∈ intKeys, k ∉ stringKeys; decide +kernel
  · change ∀ k ∈ floatKeys, k ∉ stringKeys; decide +kernel
  · change intKeys.Nodup; decide +kernel
  · change floatKeys.Nodup; decide +kernel
  · change stringKeys.Nodup; decide +kernel

namespace Params

theorem parse_entry (k v : List Char) (hk : Name k) (hv : ' ' ∉ v ∧ ':' ∉ v) : parseLine io t (entry k v) = setParameter io t k v := by
  obtain ⟨h0, hs, hc, he, hh⟩ := hk
  have ht : trim (entry k v) = k ++ '=' :: v := by
    unfold entry
    rw [trim_append, trim_append, trim_id hs, trim_id hv.1]
    simp [trim]
  have hs' : ' ' ∉ k ++ '=' :: v := by
    simp only [List.mem_append, List.mem_cons, not_or]
    exact ⟨hs, by decide, hv.1⟩
  have e : parseLine io t (entry k v) = parseLine io t (k ++ '=' :: v) := by
    unfold parseLine
    rw [ht, trim_id hs']
  rw [e]
  refine parse_plain io t k v hh he ?_ hs'
  simp only [List.mem_append, List.mem_cons, not_or]
  exact ⟨hc, by decide, hv.2⟩

/-- reading a list of entries of distinct names -/
theorem read_entries (t0 : Table) (l : List (List Char × List Char)) (hn : ∀ e ∈ l, Name e.1 ∧ ' ' ∉ e.2 ∧ ':' ∉ e.2)
    (hd : (l.map Prod.fst).Nodup) :
    ∃ r, r = readLines io t0 (l.map fun e => entry e.1 e.2) ∧ r.ints.keys = t0.ints.keys ∧ r.floats.keys = t0.floats.keys ∧
      r.strings.keys = t0.strings.keys ∧
      (∀ e ∈ l, e.1 ∈ t0.ints.keys → r.ints.val e.1 = readInt e.2) ∧
      (∀ e ∈ l, e.1 ∈ t0.floats.keys → e.1 ∉ t0.ints.keys → r.floats.val e.1 = io.read e.2) ∧
      (∀ e ∈ l, e.1 ∈ t0.strings.keys → e.1 ∉ t0.ints.keys → e.1 ∉ t0.floats.keys → r.strings.val e.1 = e.2) ∧
      (∀ k, k ∉ l.map Prod.fst → r.ints.val k = t0.ints.val k ∧ r.floats.val k = t0.floats.val k ∧ r.strings.val k = t0.strings.val k) := by
  refine ⟨_, rfl, ?_⟩
  induction l generalizing t0 with
  | nil => simp [readLines]
  | cons e l ih =>
    obtain ⟨hname, hv⟩ := hn e (by simp)
    have hstep : readLines io t0 ((e :: l).map fun e => entry e.1 e.2) =
        readLines io (setParameter io t0 e.1 e.2) (l.map fun e => entry e.1 e.2) := by
      unfold readLines
      rw [List.map_cons, List.foldl_cons, parse_entry io t0 _ _ hname hv]
    have hs := setParameter_spec io t0 e.1 e.2
    rw [List.map_cons, List.nodup_cons] at hd
    obtain ⟨k1, k2, k3, i1, i2, i3, i4⟩ := ih (setParameter io t0 e.1 e.2) (fun e he => hn e (List.mem_cons_of_mem _ he)) hd.2
    rw [hstep]
    rw [hs.int_keys] at k1 i1 i2 i3
    rw [hs.float_keys] at k2 i2 i3
    rw [hs.string_keys] at k3 i3
    obtain ⟨j1, j2, j3⟩ := i4 e.1 hd.1
    refine ⟨k1, k2, k3, ?_, ?_, ?_, ?_⟩
    · intro e' he' hm
      rcases List.mem_cons.mp he' with rfl | he'
      · rw [j1, hs.ints, if_pos ⟨rfl, hm⟩]
      · exact i1 e' he' hm
    · intro e' he' hm hm2
      rcases List.mem_cons.mp he' with rfl | he'
      · rw [j2, hs.floats, if_pos ⟨rfl, hm, hm2⟩]
      · exact i2 e' he' hm hm2
    · intro e' he' hm hm2 hm3
      rcases List.mem_cons.mp he' with rfl | he'
      · rw [j3, hs.strings, if_pos ⟨rfl, hm, hm2, hm3⟩]
      · exact i3 e' he' hm hm2 hm3
    · intro k hk
      rw [List.map_cons, List.mem_cons, not_or] at hk
      obtain ⟨a, b, c⟩ := i4 k hk.2
      rw [a, b, c, hs.ints, hs.floats, hs.strings, if_neg (fun h => hk.1 h.1), if_neg (fun h => hk.1 h.1), if_neg (fun h => hk.1 h.1)]
      exact ⟨rfl, rfl, rfl⟩

end Params

/-- Recorded parameters are read back: integers and strings unchanged, floating-point numbers as far as their text keeps
them, whatever the table held before.  Strings must not contain blanks or colons. -/
theorem C39_roundtrip (hS : Sound t) (t0 : Table) (h0 : t0.ints.keys = t.ints.keys ∧ t0.floats.keys = t.floats.keys ∧ t0.strings.keys = t.strings.keys)
    (hint : ∀ k ∈ t.ints.keys, -2147483648 ≤ t.ints.val k ∧ t.ints.val k ≤ 2147483647)
    (hstr : ∀ k ∈ t.strings.keys, ' ' ∉ t.strings.val k ∧ ':' ∉ t.strings.val k)
    (hflt : ∀ x, ' ' ∉ io.write x ∧ ':' ∉ io.write x) :
    (∀ k ∈ t.ints.keys, (readLines io t0 (record io t)).ints.val k = t.ints.val k) ∧
    (∀ k ∈ t.strings.keys, (readLines io t0 (record io t)).strings.val k = t.strings.val k) ∧
    (∀ k ∈ t.floats.keys, (readLines io t0 (record io t)).floats.val k = io.read (io.write (t.floats.val k))) := by
  obtain ⟨l, hl⟩ : ∃ l : List (List Char × List Char), l = t.ints.keys.map (fun k => (k, showInt (t.ints.val k))) ++
    t.floats.keys.map (fun k => (k, io.write (t.floats.val k))) ++ t.strings.keys.map (fun k => (k, t.strings.val k)) := ⟨_, rfl⟩
  have hrec : record io t = l.map fun e => entry e.1 e.2 := by
    rw [hl]
    simp [record, List.map_append, List.map_map, Function.comp_def]
  have hfst : l.map Prod.fst = t.ints.keys ++ t.floats.keys ++ t.strings.keys := by
    rw [hl]
    simp [List.map_append, List.map_map, Function.comp_def]
  have hmem : ∀ k v, (k, v) ∈ l → (k ∈ t.ints.keys ∧ v = showInt (t.ints.val k)) ∨ (k ∈ t.floats.keys ∧ v = io.write (t.floats.val k)) ∨
      (k ∈ t.strings.keys ∧ v = t.strings.val k) := by
    intro k v h
    rw [hl] at h
    simp only [List.mem_append, List.mem_map, Prod.mk.injEq] at h
    rcases h with (⟨a, h1, rfl, rfl⟩ | ⟨a, h1, rfl, rfl⟩) | ⟨a, h1, rfl, rfl⟩
    · exact Or.inl ⟨h1, rfl⟩
    · exact Or.inr (Or.inl ⟨h1, rfl⟩)
    · exact Or.inr (Or.inr ⟨h1, rfl⟩)
  obtain ⟨r, hr, _, _, _, ri, rf, rs, _⟩ := read_entries io t0 l (by
    rintro ⟨k, v⟩ he
    rcases hmem k v he with ⟨h1, rfl⟩ | ⟨h1, rfl⟩ | ⟨h1, rfl⟩
    · exact ⟨hS.names k (Or.inl h1), showInt_plain _⟩
    · exact ⟨hS.names k (Or.inr (Or.inl h1)), hflt _⟩
    · exact ⟨hS.names k (Or.inr (Or.inr h1)), hstr k h1⟩) (by
    rw [hfst, List.nodup_append, List.nodup_append]
    refine ⟨⟨hS.int_nodup, hS.float_nodup, ?_⟩, hS.string_nodup, ?_⟩
    · intro a ha b hb e
      exact hS.int_float a ha (e ▸ hb)
    · intro a ha b hb e
      rcases List.mem_append.mp ha with ha | ha
      · exact hS.int_string a ha (e ▸ hb)
      · exact hS.float_string a ha (e ▸ hb))
  rw [← hrec] at hr
  rw [← hr]
  refine ⟨fun k hk => ?_, fun k hk => ?_, fun k hk => ?_⟩
  · have := ri (k, showInt (t.ints.val k)) (by rw [hl]; simp [hk]) (by rw [h0.1]; exact hk)
    rw [this]
    have := readInt_showInt (t.ints.val k) (hint k hk).1 (hint k hk).2 [] (by simp)
    simpa using this
  · have hi : k ∉ t.ints.keys := fun h => hS.int_string k h hk
    have hf : k ∉ t.floats.keys := fun h => hS.float_string k h hk
    exact rs (k, t.strings.val k) (by rw [hl]; simp [hk]) (by rw [h0.2.2]; exact hk) (by rw [h0.1]; exact hi) (by rw [h0.2.1]; exact hf)
  · have hi : k ∉ t.ints.keys := fun h => hS.int_float k h hk
    exact rf (k, io.write (t.floats.val k)) (by rw [hl]; simp [hk]) (by rw [h0.2.1]; exact hk) (by rw [h0.1]; exact hi)

namespace Params

theorem round6_of_int {y : ℚ} (m : ℤ) (h : y = m * 10 ^ (Int.log 10 |y| - 5)) : round6 y = y := by
  unfold round6
  have hq : (10 : ℚ) ^ (Int.log 10 |y| - 5) ≠ 0 := zpow_ne_zero _ (by norm_num)
  have : y / 10 ^ (Int.log 10 |y| - 5) = m := by rw [div_eq_iff hq]; exact h
  rw [this, round_intCast]
  exact h.symm

end Params

/-- The six digits written keep a number to within a relative error of 5e-6 ... -/
theorem C39_float_error (x : ℚ) : |round6 x - x| ≤ 5 / 10 ^ 6 * |x| := by
  by_cases hx : x = 0
  · subst hx; simp [round6]
  have hpos : 0 < |x| := abs_pos.mpr hx
  have hlog := Int.zpow_log_le_self (b := 10) (by norm_num) hpos
  have hq : (0 : ℚ) < 10 ^ (Int.log 10 |x| - 5) := zpow_pos (by norm_num) _
  have e : (10 : ℚ) ^ (Int.log 10 |x| - 5) = 10 ^ Int.log 10 |x| / 10 ^ 5 := by
    rw [zpow_sub₀ (by norm_num)]
    norm_num
  have h := abs_sub_round (x / 10 ^ (Int.log 10 |x| - 5))
  have h2 : round6 x - x = -(x / 10 ^ (Int.log 10 |x| - 5) - round (x / 10 ^ (Int.log 10 |x| - 5))) * 10 ^ (Int.log 10 |x| - 5) := by
    unfold round6
    field_simp
    ring
  rw [h2, abs_mul, abs_neg, abs_of_pos hq]
  calc |x / 10 ^ (Int.log 10 |x| - 5) - round (x / 10 ^ (Int.log 10 |x| - 5))| * 10 ^ (Int.log 10 |x| - 5)
      ≤ 1 / 2 * 10 ^ (Int.log 10 |x| - 5) := mul_le_mul_of_nonneg_right h hq.le
    _ = 1 / 2 * (10 ^ Int.log 10 |x| / 10 ^ 5) := by rw [e]
    _ ≤ 1 / 2 * (|x| / 10 ^ 5) := by
      push_cast at hlog
      gcongr
    _ = 5 / 10 ^ 6 * |x| := by ring

/-- ... and recording what was read back changes it no further. -/
theorem C39_float_stable (x : ℚ) : round6 (round6 x) = round6 x := by
  by_cases hx : x = 0
  · subst hx; simp [round6]
  have hpos : 0 < |x| := abs_pos.mpr hx
  have hlog := Int.zpow_log_le_self (b := 10) (by norm_num) hpos
  have hlog2 := Int.lt_zpow_succ_log_self (b := 10) (by norm_num) |x|
  push_cast at hlog hlog2
  obtain ⟨L, hL⟩ : ∃ L, L = Int.log 10 |x| := ⟨_, rfl⟩
  rw [← hL] at hlog hlog2
  have hq : (0 : ℚ) < 10 ^ (L - 5) := zpow_pos (by norm_num) _
  obtain ⟨m, hm⟩ : ∃ m, m = round (x / 10 ^ (L - 5)) := ⟨_, rfl⟩
  have hy : round6 x = m * 10 ^ (L - 5) := by unfold round6; rw [← hL, ← hm]
  have hyabs : |round6 x| = |(m : ℚ)| * 10 ^ (L - 5) := by rw [hy, abs_mul, abs_of_pos hq]
  have e5 : (10 : ℚ) ^ L = 10 ^ 5 * 10 ^ (L - 5) := by
    rw [← zpow_natCast, ← zpow_add₀ (by norm_num)]
    congr 1
    push_cast
    ring
  have e6 : (10 : ℚ) ^ (L + 1) = 10 ^ 6 * 10 ^ (L - 5) := by
    rw [← zpow_natCast, ← zpow_add₀ (by norm_num)]
    congr 1
    push_cast
    ring
  have hlo : (10 : ℚ) ^ 5 ≤ |x / 10 ^ (L - 5)| := by
    rw [abs_div, abs_of_pos hq, le_div_iff₀ hq, ← e5]
    exact hlog
  have hhi : |x / 10 ^ (L - 5)| < (10 : ℚ) ^ 6 := by
    rw [abs_div, abs_of_pos hq, div_lt_iff₀ hq, ← e6]
    exact hlog2
  have hround := abs_sub_round (x / 10 ^ (L - 5))
  rw [← hm] at hround
  generalize x / 10 ^ (L - 5) = z at *
  -- the rounded mantissa has six digits, or is a million
  have hmlo : (10 : ℤ) ^ 5 ≤ |m| := by
    have h1 : ((10 : ℤ) ^ 5 : ℚ) - 1 < ((|m| : ℤ) : ℚ) := by
      push_cast
      have := abs_sub_abs_le_abs_sub z m
      linarith
    have : (10 : ℤ) ^ 5 - 1 < |m| := by exact_mod_cast h1
    omega
  have hmhi : |m| ≤ (10 : ℤ) ^ 6 := by
    have h1 : ((|m| : ℤ) : ℚ) < (10 : ℤ) ^ 6 + 1 := by
      push_cast
      have := abs_sub_abs_le_abs_sub (m : ℚ) z
      rw [abs_sub_comm] at this
      linarith
    have : |m| < (10 : ℤ) ^ 6 + 1 := by exact_mod_cast h1
    omega
  have hmlo' : (10 : ℚ) ^ 5 ≤ |(m : ℚ)| := by exact_mod_cast hmlo
  have hy0 : 0 < |round6 x| := by rw [hyabs]; positivity
  rcases hmhi.lt_or_eq with hlt | heq
  · have hlt' : |(m : ℚ)| < 10 ^ 6 := by exact_mod_cast hlt
    have hl : Int.log 10 |round6 x| = L := by
      refine le_antisymm ?_ ?_
      · have : Int.log 10 |round6 x| < L + 1 := by
          rw [← Int.lt_zpow_iff_log_lt (by norm_num) hy0]
          push_cast
          rw [hyabs, e6]
          exact mul_lt_mul_of_pos_right hlt' hq
        omega
      · rw [← Int.zpow_le_iff_le_log (by norm_num) hy0]
        push_cast
        rw [hyabs, e5]
        exact mul_le_mul_of_nonneg_right hmlo' hq.le
    exact round6_of_int m (by rw [hl]; exact hy)
  · have habs : |round6 x| = 10 ^ (L + 1) := by
      rw [hyabs, e6]
      congr 1
      exact_mod_cast heq
    have hl : Int.log 10 |round6 x| = L + 1 := by
      rw [habs]
      have := Int.log_zpow (R := ℚ) (b := 10) (by norm_num) (L + 1)
      push_cast at this
      exact this
    have hm10 : ∃ m', m = m' * 10 := by
      rcases abs_eq (by norm_num) |>.mp heq with h | h
      · exact ⟨10 ^ 5, by rw [h]; norm_num⟩
      · exact ⟨-10 ^ 5, by rw [h]; norm_num⟩
    obtain ⟨m', hm'⟩ := hm10
    refine round6_of_int m' ?_
    rw [hl, hy, hm']
    push_cast
    rw [mul_assoc]
    congr 1
    rw [show L + 1 - 5 = 1 + (L - 5) by ring, zpow_add₀ (by norm_num), zpow_one]

/-- The default adiabatic index 1.66666666666666 is not what is read back from the recorded file. -/
theorem C39_float_roundtrip_fails : round6 (166666666666666 / 10 ^ 14) = 166667 / 10 ^ 5 := by
  have h : Int.log 10 |(166666666666666 / 10 ^ 14 : ℚ)| = 0 := by
    rw [abs_of_pos (by norm_num)]
    refine le_antisymm ?_ ?_
    · have : Int.log 10 (166666666666666 / 10 ^ 14 : ℚ) < 1 := by
        rw [← Int.lt_zpow_iff_log_lt (by norm_num) (by norm_num)]
        norm_num
      omega
    · rw [← Int.zpow_le_iff_le_log (by norm_num) (by norm_num)]
      norm_num
  unfold round6
  rw [h]
  have : round ((166666666666666 / 10 ^ 14 : ℚ) / 10 ^ ((0 : ℤ) - 5)) = 166667 := by
    rw [round_eq_iff]
    norm_num [zpow_neg]
  rw [this]
  norm_num [zpow_neg]

/-- A value with a colon can be set (after a description) but the recorded line is ignored when read back. -/
theorem C39_colon_value_fails (i : List Char → ℤ) (f : List Char → ℚ) (s : List Char → List Char) :
    (parseLine io (codeTable i f s) "file : in_file = a:b".toList).strings.val "in_file".toList = "a:b".toList ∧
    parseLine io (codeTable i f s) (entry "in_file".toList "a:b".toList) = codeTable i f s := by
  constructor
  · have h := C39_assignment io (codeTable i f s) "file ".toList " in_file ".toList " a:b".toList ⟨by decide +kernel, by decide +kernel⟩
      (by decide +kernel) (by decide +kernel)
    have e : ("file : in_file = a:b".toList) = "file ".toList ++ ':' :: " in_file ".toList ++ '=' :: " a:b".toList := by decide +kernel
    rw [e, h.strings]
    have e2 : trim " in_file ".toList = "in_file".toList := by decide +kernel
    rw [e2, if_pos ⟨rfl, by
      change "in_file".toList ∈ stringKeys ∧ "in_file".toList ∉ intKeys ∧ "in_file".toList ∉ floatKeys
      decide +kernel⟩]
    decide +kernel
  · unfold parseLine
    simp only
    rw [if_neg (by decide +kernel), if_pos (by decide +kernel)]

/-- Tabs are not removed: a line that begins with a tab sets nothing. -/
theorem C39_tab_fails (i : List Char → ℤ) (f : List Char → ℚ) (s : List Char → List Char) :
    parseLine io (codeTable i f s) "\tndim = 2".toList = codeTable i f s := by
  unfold parseLine
  simp only
  rw [if_neg (by decide +kernel), if_neg (by decide +kernel)]
  have e : substr (trim "\tndim = 2".toList) (find ':' (trim "\tndim = 2".toList) + 1)
      (find '=' (trim "\tndim = 2".toList) - find ':' (trim "\tndim = 2".toList) - 1) = "\tndim".toList := by decide +kernel
  rw [e]
  exact C39_unknown io _ _ _ ⟨by change "\tndim".toList ∉ intKeys; decide +kernel, by change "\tndim".toList ∉ floatKeys; decide +kernel,
    by change "\tndim".toList ∉ stringKeys; decide +kernel⟩

/-! ### a concrete case -/

/-- a text for numbers that meets the hypotheses of `C39_roundtrip` -/
def Params.plainText : FloatText := ⟨fun x => showInt x.num, fun s => readInt s⟩

example : ∀ x, ' ' ∉ plainText.write x ∧ ':' ∉ plainText.write x := fun x => showInt_plain x.num

example : (parseLine plainText (codeTable (fun _ => 0) (fun _ => 0) fun _ => []) "Number of dimensions : ndim = 2".toList).ints.val "ndim".toList = 2 := by
  decide +kernel

example : readLines plainText (codeTable (fun _ => 0) (fun _ => 0) fun _ => []) ["# ndim = 5".toList, "".toList] = codeTable (fun _ => 0) (fun _ => 0) fun _ => [] := rfl

end Gandalf
