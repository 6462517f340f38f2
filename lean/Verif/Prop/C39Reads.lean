import Verif.Prop.C39
import Verif.Model.ParamReads

/-!
# C39 – the parameters that the code reads
-/

set_option autoImplicit false
set_option linter.unusedSectionVars false

namespace Gandalf

open Params

variable (io : FloatText) (t : Table)

/-- A file does not add keys. -/
theorem Params.read_keys (lines : List (List Char)) :
    (readLines io t lines).ints.keys = t.ints.keys ∧ (readLines io t lines).floats.keys = t.floats.keys ∧
      (readLines io t lines).strings.keys = t.strings.keys := by
  induction lines using List.reverseRecOn with
  | nil => exact ⟨rfl, rfl, rfl⟩
  | append_singleton l x ih =>
    have e : readLines io t (l ++ [x]) = parseLine io (readLines io t l) x := by simp [readLines]
    rw [e]
    unfold parseLine
    simp only
    split
    · exact ih
    · split
      · exact ih
      · have h := setParameter_spec io (readLines io t l)
        exact ⟨(h _ _).int_keys.trans ih.1, (h _ _).float_keys.trans ih.2.1, (h _ _).string_keys.trans ih.2.2⟩

/-- **C39, what is read.** All parameters that the code reads have a default value, but for a few. -/
theorem C39_reads_partial (i : List Char → ℤ) (f : List Char → ℚ) (s : List Char → List Char) :
    (∀ k ∈ intReads, k ∈ (codeTable i f s).ints.keys) ∧ (∀ k ∈ floatReads, k ∈ (codeTable i f s).floats.keys) ∧
      ∀ k ∈ stringReads, k ∈ (codeTable i f s).strings.keys := by
  have h1 : ∀ k ∈ intReads, k ∈ intKeys := by decide +kernel
  have h2 : ∀ k ∈ floatReads, k ∈ floatKeys := by decide +kernel
  have h3 : ∀ k ∈ stringReads, k ∈ stringKeys := by decide +kernel
  exact ⟨h1, h2, h3⟩

/-- The others read as zero or as the empty text whatever a file of parameters says. -/
theorem C39_reads_fails (i : List Char → ℤ) (f : List Char → ℚ) (s : List Char → List Char) (lines : List (List Char)) :
    let t := readLines io (codeTable i f s) lines
    (∀ k ∈ intMissing, t.ints.get 0 k = 0) ∧ (∀ k ∈ floatMissing, t.floats.get 0 k = 0) ∧
      ∀ k ∈ stringMissing, t.strings.get [] k = [] := by
  intro t
  obtain ⟨e1, e2, e3⟩ := read_keys io (codeTable i f s) lines
  have h1 : ∀ k ∈ intMissing, k ∉ intKeys := by decide +kernel
  have h2 : ∀ k ∈ floatMissing, k ∉ floatKeys := by decide +kernel
  have h3 : ∀ k ∈ stringMissing, k ∉ stringKeys := by decide +kernel
  refine ⟨fun k hk => ?_, fun k hk => ?_, fun k hk => ?_⟩
  · exact if_neg (by rw [e1]; exact h1 k hk)
  · exact if_neg (by rw [e2]; exact h2 k hk)
  · exact if_neg (by rw [e3]; exact h3 k hk)

/-- **C39, negation.** Whatever the file of parameters says: the isothermal spheres have no particles, the table of supernovae has
no name, the Saitoh & Makino scheme is refused, and drag heats the gas also where the gas is isothermal. -/
theorem C39_unset_fails (i : List Char → ℤ) (f : List Char → ℚ) (s : List Char → List Char) (lines : List (List Char)) :
    let t := readLines io (codeTable i f s) lines
    isoSphereN t = 0 ∧ isoSphereOmega t = 0 ∧ silcc t = ([], 0, 0, 0) ∧ smAccepted t = false ∧ dustHeats t = true := by
  intro t
  obtain ⟨h1, h2, h3⟩ := C39_reads_fails io i f s lines
  have n1 : "Nsph".toList ∈ intMissing := by decide +kernel
  have n2 : "omega".toList ∈ floatMissing ∧ "Minj".toList ∈ floatMissing ∧ "Rinj".toList ∈ floatMissing ∧
    "R_therm_kin".toList ∈ floatMissing := by decide +kernel
  have n3 : "SNfile_name".toList ∈ stringMissing ∧ "sph".toList ∈ stringMissing ∧ "eos".toList ∈ stringMissing := by decide +kernel
  refine ⟨h1 _ n1, h2 _ n2.1, ?_, ?_, ?_⟩
  · unfold silcc
    rw [h3 _ n3.1, h2 _ n2.2.1, h2 _ n2.2.2.1, h2 _ n2.2.2.2]
  · unfold smAccepted
    rw [h3 _ n3.2.1]
    decide +kernel
  · unfold dustHeats
    rw [h3 _ n3.2.2]
    decide +kernel

/-- A file that sets the number of particles, which is then zero. -/
example (i : List Char → ℤ) (f : List Char → ℚ) (s : List Char → List Char) :
    isoSphereN (readLines io (codeTable i f s) ["Nsph = 1000".toList, "gas_eos = isothermal".toList]) = 0 :=
  (C39_unset_fails io i f s _).1

end Gandalf
