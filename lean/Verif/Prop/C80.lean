import Verif.Spec.Snapshot
import Verif.Proof.SnapshotMore
import Verif.Prop.C49

/-!
# C80 – what is written to a snapshot file is what is read from it
-/

set_option autoImplicit false

noncomputable section

namespace Gandalf
open Snap Units

/-! ## Sample data -/

/-- the default units -/
def exScale : Scale := ⟨units (overwrite false exUnits), false⟩

theorem exScale_setup : exScale.Setup :=
  ⟨exUnits, by show setupUnits false false exUnits = some _; unfold setupUnits; rw [if_neg (by simp),
    if_pos exUnits_recognised]; rfl, rfl, rfl⟩

/-- the code unit of time is not the unit of output -/
theorem exScale_time : (exScale.unit .t).outscale ≠ 1 := by
  intro h
  obtain ⟨_, e2, _⟩ := units_spec exUnits_recognised .t
  have hr := si_pos (exUnits_recognised .r (by simp [looked])).2
  have hm := si_pos (exUnits_recognised .m (by simp [looked])).2
  have hG : G_const * (base (overwrite false exUnits)).m * (base (overwrite false exUnits)).t ^ 2 =
      (base (overwrite false exUnits)).r ^ 3 := timeUnit_sq hr hm
  have vr : (base (overwrite false exUnits)).r = r_pc := by
    simp [base, overwrite, exUnits, si, SIUnit]
  have vm : (base (overwrite false exUnits)).m = m_sun := by
    simp [base, overwrite, exUnits, si, SIUnit]
  have vt : (base (overwrite false exUnits)).t = myr := by
    have : (exScale.unit .t).outSI = myr := by
      simp [exScale, units, setupOne, siKey, key, overwrite, exUnits, si, SIUnit]
    have e3 : (exScale.unit .t).outscale * (exScale.unit .t).outSI = (base (overwrite false exUnits)).t := e2
    rw [h, this, one_mul] at e3
    exact e3.symm
  rw [vr, vm, vt] at hG
  norm_num [G_const, m_sun, r_pc, myr] at hG

/-- a particle with given type and state -/
def exPart (ty : PType) (dead : Bool) (i : ℤ) : Part 2 := ⟨ty, dead, i, ![1, 2], ![-1, 3], 5, 1 / 2, 7, 11⟩

/-- a dust particle in front of two gas particles, one of them dead, and a star -/
def exSim : Sim 2 :=
  ⟨[exPart .dust false 4, exPart .gas true 9, exPart .gas false 2], [⟨![1, 1], ![0, 1], 3, 1 / 4, 1 / 10⟩], [1 / 10],
    6, 5, 4, 2, 1, 3, 100, 2, true⟩

/-! ## Writing and reading -/

theorem Snap.Scale.Setup.scale {U : Scale} (h : U.Setup) (q : Quantity) :
    (U.unit q).inscale = (U.unit q).outscale ∧ (U.unit q).outscale ≠ 0 := by
  obtain ⟨p, h1, h2⟩ := h
  have := C49_snapshot _ p _ h1 h2 q 1
  simp only [readValue, readUnit, writeValue, one_mul] at this
  have hi : (U.unit q).inscale ≠ 0 := by
    intro h0
    rw [h0] at this
    simp at this
  rw [div_eq_one_iff_eq hi] at this
  exact ⟨this.symm, by rw [this]; exact hi⟩

theorem Snap.Fmt.Exact.val {f : Fmt} (h : f.Exact) (y : ℝ) : f.val y = y := by
  unfold Fmt.val
  rcases h with h | h
  · simp [h]
  · simp [h]

theorem Snap.load_eq {n : ℕ} (f : Fmt) (U : Scale) (restart : Bool) (blank : Part n) (blankStar : Star n) (x s : Sim n)
    (hu : f.binary = false → ∀ u ∈ unitNames U, u ≠ "") {file : List Tok} (hw : writeSeren f U x = some file) :
    loadSeren f U restart blank blankStar s file = some (convert U (readBack f U restart x s)) := by
  have h := reads_seren f U restart blank blankStar x s hu hw []
  rw [List.append_nil] at h
  unfold loadSeren
  rw [show (readSeren f restart blank blankStar s).run file = some (readBack f U restart x s, []) from h]
  rfl

theorem Snap.write_some {n : ℕ} (f : Fmt) (U : Scale) (x : Sim n)
    (h : ∀ p ∈ x.parts, p.dead = false → p.ptype ≠ .boundary) : ∃ file, writeSeren f U x = some file := by
  unfold writeSeren
  rw [if_neg]
  · exact ⟨_, rfl⟩
  simp only [List.any_eq_true, decide_eq_true_eq, not_exists, not_and, live, List.mem_filter]
  exact fun p hp => h p hp.1 hp.2

theorem Snap.not_boundary {n : ℕ} {x : Sim n} (h : ∀ p ∈ x.parts, p.dead = false → p.ptype ≠ .boundary) :
    (live x.parts).any (fun p => p.ptype = .boundary) = false := by
  simp only [List.any_eq_false, decide_eq_true_eq, live, List.mem_filter]
  exact fun p hp => h p hp.1 hp.2

/-- **C80, restart.** Units from any parameter file, the binary format or a text format with exact decimals, any state of
the simulation that writes and of the one that reads: if no live particle is of type icm or boundary, the file is written;
at a restart from it the particles are the live ones, those of each type in their old order, the stars and sinks are the
old ones, and times, mean mass and counters have their old values. -/
theorem C80_seren_partial {n : ℕ} (f : Fmt) (hf : f.Exact) (U : Scale) (hU : U.Setup)
    (hu : f.binary = false → ∀ u ∈ unitNames U, u ≠ "") (x s : Sim n) (blank : Part n) (blankStar : Star n)
    (hx : ∀ p ∈ x.parts, p.dead = false → p.ptype ≠ .boundary ∧ p.ptype ≠ .icm) :
    ∃ file s', writeSeren f U x = some file ∧ loadSeren f U true blank blankStar s file = some s' ∧
      s'.parts.Perm (x.parts.filter fun p => p.dead = false) ∧
      (∀ ty, s'.parts.filter (fun p => p.ptype = ty) = liveOf x.parts ty) ∧
      s'.stars = x.stars ∧ s'.sinkRadius = x.stars.map (·.radius) ∧
      s'.t = x.t ∧ s'.tsnaplast = x.tsnaplast ∧ s'.tlitesnaplast = x.tlitesnaplast ∧ s'.mmean = x.mmean ∧
      s'.noutsnap = x.noutsnap ∧ s'.nsteps = x.nsteps ∧ s'.noutlite = x.noutlite := by
  have hb : ∀ p ∈ x.parts, p.dead = false → p.ptype ≠ .boundary := fun p hp hd => (hx p hp hd).1
  obtain ⟨file, hw⟩ := write_some f U x hb
  refine ⟨file, _, hw, load_eq f U true blank blankStar x s hu hw, ?_⟩
  have k (q : Quantity) (y : ℝ) : f.val (U.out q y) / (U.unit q).inscale = y := by
    obtain ⟨e1, e2⟩ := hU.scale q
    rw [hf.val, e1]
    unfold Scale.out
    field_simp
  have d (i : ℕ) (hi : i < 50) : (headOf f U x).ddata.getD i 0 = f.val (ddata U x i) := getD_range _ _ hi
  have l (i : ℕ) (hi : i < 50) : (headOf f U x).ilpdata.getD i 0 = ilpdata x i := getD_range _ _ hi
  have hp : (convert U (readBack f U true x s)).parts = sorted x.parts := by
    simp only [convert, readBack, List.map_map]
    refine (List.map_congr_left fun p hp => ?_).trans (List.map_id _)
    obtain ⟨h1, h2⟩ := sorted_mem hp
    have hi := (hx p h1 h2).2
    simp only [Function.comp, Part.val, k, id]
    have e : back p.ptype = p.ptype := by cases ht : p.ptype <;> first | rfl | exact absurd ht hi
    rw [e, ← h2]
  refine ⟨?_, ?_, ?_, ?_, ?_, ?_, ?_, ?_, ?_, ?_, ?_⟩
  · rw [hp]
    exact sorted_perm _ (not_boundary hb)
  · intro ty
    rw [hp]
    by_cases ht : ty = .boundary
    · subst ht
      rw [List.filter_eq_nil_iff.2, eq_comm]
      · refine List.filter_eq_nil_iff.2 fun p hp => ?_
        simp only [decide_eq_true_eq, not_and]
        exact fun h => hb p hp h
      · intro p hp
        obtain ⟨h1, h2⟩ := sorted_mem hp
        simpa using hb p h1 h2
    · rw [sorted_ofType _ _ ht]
      unfold ofType liveOf
      refine List.filter_congr fun p _ => ?_
      simp only [and_comm]
  · simp only [convert, readBack, List.map_map]
    refine (List.map_congr_left fun a _ => ?_).trans (List.map_id _)
    simp only [Function.comp, Star.val, k, id]
  · simp only [convert, readBack, List.map_map]
    refine List.map_congr_left fun a _ => ?_
    simp only [Function.comp, k]
  · simp only [convert, readBack, setScalars, if_true, d 0 (by norm_num)]
    exact k .t x.t
  · simp only [convert, readBack, setScalars, if_true, d 1 (by norm_num)]
    exact k .t x.tsnaplast
  · simp only [convert, readBack, setScalars, if_true, d 10 (by norm_num)]
    exact k .t x.tlitesnaplast
  · simp only [convert, readBack, setScalars, if_true, d 2 (by norm_num)]
    exact k .m x.mmean
  · simp only [convert, readBack, setScalars, if_true, l 0 (by norm_num)]
    rfl
  · simp only [convert, readBack, setScalars, if_true, l 1 (by norm_num)]
    rfl
  · simp only [convert, readBack, setScalars, if_true, l 10 (by norm_num)]
    rfl

/-- The hypotheses are met: default units, dust before gas, a dead particle, a star. -/
example : (⟨true, id⟩ : Fmt).Exact ∧ exScale.Setup ∧
    ∀ p ∈ exSim.parts, p.dead = false → p.ptype ≠ .boundary ∧ p.ptype ≠ .icm := by
  refine ⟨Or.inl rfl, exScale_setup, ?_⟩
  simp [exSim, exPart]

/-- and in text form the names of the units are there -/
example : ∀ u ∈ unitNames exScale, u ≠ "" := by
  simp [unitNames, exScale, units, setupBase, setupOne, overwrite, exUnits, key, labelKey]

/-- **C80, decimals.** If writing a number in decimals changes it by at most the fraction `ε`, everything read from a text
file at a restart differs by at most that fraction from what was written; types, identifiers and the order within each
type are kept exactly. -/
theorem C80_text {n : ℕ} (f : Fmt) (hf : f.binary = false) (ε : ℝ) (hr : ∀ y, Near ε (f.rnd y) y) (U : Scale)
    (hU : U.Setup) (hu : ∀ u ∈ unitNames U, u ≠ "") (x s : Sim n) (blank : Part n) (blankStar : Star n)
    (hx : ∀ p ∈ x.parts, p.dead = false → p.ptype ≠ .boundary ∧ p.ptype ≠ .icm) :
    ∃ file s' L, writeSeren f U x = some file ∧ loadSeren f U true blank blankStar s file = some s' ∧
      L.Perm (x.parts.filter fun p => p.dead = false) ∧
      (∀ ty, L.filter (fun p => p.ptype = ty) = liveOf x.parts ty) ∧
      List.Forall₂ (NearPart ε) L s'.parts ∧ List.Forall₂ (NearStar ε) x.stars s'.stars ∧
      Near ε s'.t x.t ∧ Near ε s'.tsnaplast x.tsnaplast ∧ Near ε s'.tlitesnaplast x.tlitesnaplast ∧
      Near ε s'.mmean x.mmean ∧
      s'.noutsnap = x.noutsnap ∧ s'.nsteps = x.nsteps ∧ s'.noutlite = x.noutlite := by
  have hb : ∀ p ∈ x.parts, p.dead = false → p.ptype ≠ .boundary := fun p hp hd => (hx p hp hd).1
  obtain ⟨file, hw⟩ := write_some f U x hb
  refine ⟨file, _, sorted x.parts, hw, load_eq f U true blank blankStar x s (fun _ => hu) hw, ?_⟩
  have k (q : Quantity) (y : ℝ) : Near ε (f.val (U.out q y) / (U.unit q).inscale) y := by
    obtain ⟨e1, e2⟩ := hU.scale q
    have := hr (U.out q y)
    unfold Near at this ⊢
    rw [e1, show f.val (U.out q y) = f.rnd (U.out q y) by simp [Fmt.val, hf]]
    have hpos : 0 < |(U.unit q).outscale| := abs_pos.2 e2
    have e3 : f.rnd (U.out q y) / (U.unit q).outscale - y =
        (f.rnd (U.out q y) - U.out q y) / (U.unit q).outscale := by
      unfold Scale.out; field_simp
    rw [e3, abs_div, div_le_iff₀ hpos]
    refine this.trans (le_of_eq ?_)
    unfold Scale.out
    rw [abs_mul]; ring
  have d (i : ℕ) (hi : i < 50) : (headOf f U x).ddata.getD i 0 = f.val (ddata U x i) := getD_range _ _ hi
  have l (i : ℕ) (hi : i < 50) : (headOf f U x).ilpdata.getD i 0 = ilpdata x i := getD_range _ _ hi
  refine ⟨sorted_perm _ (not_boundary hb), ?_, ?_, ?_, ?_, ?_, ?_, ?_, ?_, ?_, ?_⟩
  · intro ty
    by_cases ht : ty = .boundary
    · subst ht
      rw [List.filter_eq_nil_iff.2, eq_comm]
      · refine List.filter_eq_nil_iff.2 fun p hp => ?_
        simp only [decide_eq_true_eq, not_and]
        exact fun h => hb p hp h
      · intro p hp
        obtain ⟨h1, h2⟩ := sorted_mem hp
        simpa using hb p h1 h2
    · rw [sorted_ofType _ _ ht]
      unfold ofType liveOf
      refine List.filter_congr fun p _ => ?_
      simp only [and_comm]
  · simp only [convert, readBack, List.map_map]
    rw [List.forall₂_map_right_iff]
    refine List.forall₂_same.2 fun p hp => ?_
    obtain ⟨h1, h2⟩ := sorted_mem hp
    have hi := (hx p h1 h2).2
    refine ⟨?_, h2.symm, rfl, fun j => k _ _, fun j => k _ _, k _ _, k _ _, k _ _, k _ _⟩
    show back p.ptype = p.ptype
    cases ht : p.ptype <;> first | rfl | exact absurd ht hi
  · simp only [convert, readBack, List.map_map]
    rw [List.forall₂_map_right_iff]
    exact List.forall₂_same.2 fun a _ => ⟨fun j => k _ _, fun j => k _ _, k _ _, k _ _, k _ _⟩
  · simp only [convert, readBack, setScalars, if_true, d 0 (by norm_num)]
    exact k .t x.t
  · simp only [convert, readBack, setScalars, if_true, d 1 (by norm_num)]
    exact k .t x.tsnaplast
  · simp only [convert, readBack, setScalars, if_true, d 10 (by norm_num)]
    exact k .t x.tlitesnaplast
  · simp only [convert, readBack, setScalars, if_true, d 2 (by norm_num)]
    exact k .m x.mmean
  · simp only [convert, readBack, setScalars, if_true, l 0 (by norm_num)]
    rfl
  · simp only [convert, readBack, setScalars, if_true, l 1 (by norm_num)]
    rfl
  · simp only [convert, readBack, setScalars, if_true, l 10 (by norm_num)]
    rfl

/-- a format that is off by a thousandth -/
example : (⟨false, fun y => y * (1001 / 1000)⟩ : Fmt).binary = false ∧
    ∀ y, Near (1 / 1000) ((⟨false, fun y => y * (1001 / 1000)⟩ : Fmt).rnd y) y := by
  refine ⟨rfl, fun y => le_of_eq ?_⟩
  show |y * (1001 / 1000) - y| = _
  rw [show y * (1001 / 1000) - y = 1 / 1000 * y by ring, abs_mul]
  norm_num

/-- **C80, types (defect).** Whatever the file, no particle read from a Seren file that was written is of type icm: those
that were are gas from then on (SimulationIO.hpp:895-898, 1551-1554). -/
theorem C80_icm_fails {n : ℕ} (f : Fmt) (U : Scale) (hu : f.binary = false → ∀ u ∈ unitNames U, u ≠ "") (restart : Bool)
    (x s s' : Sim n) (blank : Part n) (blankStar : Star n) {file : List Tok} (hw : writeSeren f U x = some file)
    (hl : loadSeren f U restart blank blankStar s file = some s') :
    (∀ p ∈ s'.parts, p.ptype ≠ .icm) ∧
    ((∃ p ∈ x.parts, p.dead = false ∧ p.ptype = .icm) → ¬ s'.parts.Perm (x.parts.filter fun p => p.dead = false)) := by
  rw [load_eq f U restart blank blankStar x s hu hw] at hl
  obtain rfl := Option.some.inj hl
  have h : ∀ p ∈ (convert U (readBack f U restart x s)).parts, p.ptype ≠ .icm := by
    intro p hp
    simp only [convert, readBack, List.map_map, List.mem_map, Function.comp] at hp
    obtain ⟨q, _, rfl⟩ := hp
    show back q.ptype ≠ .icm
    cases q.ptype <;> simp [back]
  refine ⟨h, ?_⟩
  rintro ⟨p, hp, hd, ht⟩ hperm
  exact h p (hperm.symm.mem_iff.1 (List.mem_filter.2 ⟨hp, by simpa using hd⟩)) ht

/-- such a file can be written -/
example : ∃ file, writeSeren ⟨true, id⟩ exScale { exSim with parts := [exPart .icm false 1] } = some file :=
  write_some _ _ _ (by simp [exPart])

/-- **C80, boundary particles.** One live boundary particle ends the run when the snapshot is written. -/
theorem C80_boundary {n : ℕ} (f : Fmt) (U : Scale) (x : Sim n) :
    writeSeren f U x = none ↔ ∃ p ∈ x.parts, p.dead = false ∧ p.ptype = .boundary := by
  unfold writeSeren
  constructor
  · intro h
    split_ifs at h with hb
    simp only [List.any_eq_true, decide_eq_true_eq, live, List.mem_filter] at hb
    obtain ⟨p, ⟨h1, h2⟩, h3⟩ := hb
    exact ⟨p, h1, h2, h3⟩
  · rintro ⟨p, h1, h2, h3⟩
    rw [if_pos]
    simp only [List.any_eq_true, decide_eq_true_eq, live, List.mem_filter]
    exact ⟨p, ⟨h1, h2⟩, h3⟩

example : writeSeren ⟨false, id⟩ exScale { exSim with parts := [exPart .gas false 1, exPart .boundary false 2] } = none :=
  (C80_boundary _ _ _).2 ⟨exPart .boundary false 2, by simp, rfl, rfl⟩

/-- **C80, the time without restart (defect).** A file read as initial conditions or for plotting: from a binary file the
time is that of the snapshot; from a text file it is not read, and the time which the simulation had is divided by the
unit of time at each read.  The radii of the sinks and the flag for smoothing lengths: only a text file says that the
smoothing lengths are given. -/
theorem C80_time_fails {n : ℕ} (f : Fmt) (U : Scale) (hU : U.Setup)
    (hu : f.binary = false → ∀ u ∈ unitNames U, u ≠ "") (x s s' : Sim n) (blank : Part n) (blankStar : Star n)
    {file : List Tok} (hw : writeSeren f U x = some file) (hl : loadSeren f U false blank blankStar s file = some s') :
    (f.binary = true → s'.t = x.t ∧ s'.nsteps = x.nsteps ∧ s'.hGiven = s.hGiven) ∧
    (f.binary = false → s'.t = s.t / (U.unit .t).outscale ∧ s'.nsteps = s.nsteps ∧
      ((∃ p ∈ x.parts, p.dead = false) → s'.hGiven = true)) := by
  rw [load_eq f U false blank blankStar x s hu hw] at hl
  obtain rfl := Option.some.inj hl
  obtain ⟨e1, e2⟩ := hU.scale .t
  have d (i : ℕ) (hi : i < 50) : (headOf f U x).ddata.getD i 0 = f.val (ddata U x i) := getD_range _ _ hi
  have l (i : ℕ) (hi : i < 50) : (headOf f U x).ilpdata.getD i 0 = ilpdata x i := getD_range _ _ hi
  constructor
  · intro hf
    refine ⟨?_, ?_, ?_⟩
    · simp only [convert, readBack, setScalars, hf, if_true, d 0 (by norm_num), Fmt.val, e1]
      simp only [Bool.false_eq_true, if_false, ddata, if_true, Scale.out]
      field_simp
    · simp only [convert, readBack, setScalars, hf, if_true, l 1 (by norm_num)]
      rfl
    · simp [convert, readBack, setScalars, hf]
  · intro hf
    refine ⟨?_, ?_, ?_⟩
    · simp [convert, readBack, setScalars, hf, e1]
    · simp [convert, readBack, setScalars, hf]
    · rintro ⟨p, hp, hd⟩
      have hpos : 0 < (live x.parts).length := List.length_pos_of_mem (List.mem_filter.2 ⟨hp, by simpa using hd⟩)
      simp only [convert, readBack]
      rw [if_pos ⟨hpos, hf⟩]

/-- With the default units a snapshot of time 6 read into a simulation of time 6 gives another time. -/
example (s' : Sim 2) (file : List Tok) (hw : writeSeren ⟨false, id⟩ exScale exSim = some file)
    (hl : loadSeren ⟨false, id⟩ exScale false (exPart .gas false 0) ⟨0, 0, 0, 0, 0⟩ exSim file = some s') :
    s'.t ≠ exSim.t := by
  have hu : ∀ u ∈ unitNames exScale, u ≠ "" := by
    simp [unitNames, exScale, units, setupBase, setupOne, overwrite, exUnits, key, labelKey]
  have h := ((C80_time_fails ⟨false, id⟩ exScale exScale_setup (fun _ => hu) exSim exSim s' _ _ hw hl).2 rfl).1
  have h1 := exScale_time
  have h0 := (exScale_setup.scale .t).2
  rw [h]
  intro hc
  rw [div_eq_iff h0] at hc
  have : exSim.t = 6 := rfl
  rw [this] at hc
  exact h1 (by linarith)

/-! ## Headers -/

/-- **C80, headers.** The header readers return the dimension, the number of live particles, the number of stars and the
time, from text files and – by counting bytes – from binary files; with another dimension compiled in they end the run. -/
theorem C80_header {n : ℕ} (rnd : ℝ → ℝ) (U : Scale) (hU : U.Setup) (x : Sim n) (fileT fileB : List Tok)
    (hT : writeSeren ⟨false, rnd⟩ U x = some fileT) (hB : writeSeren ⟨true, rnd⟩ U x = some fileB) (n' : ℕ) :
    ((rUnformHeader U n').run fileB).map Prod.fst = (if n' = n then
      some ⟨n, (x.parts.countP fun p => p.dead = false : ℕ), (x.stars.length : ℕ), x.t⟩ else none) ∧
    ((rFormHeader U n').run fileT).map Prod.fst = (if n' = n then
      some ⟨n, (x.parts.countP fun p => p.dead = false : ℕ), (x.stars.length : ℕ),
        rnd (x.t * (U.unit .t).outscale) / (U.unit .t).outscale⟩ else none) := by
  obtain ⟨e1, e2⟩ := hU.scale .t
  have key (f : Fmt) (file : List Tok) (h : writeSeren f U x = some file) : ∃ rest, file = headToks f U x ++ rest := by
    unfold writeSeren at h
    by_cases hb : (live x.parts).any (fun p => p.ptype = .boundary) = true
    · rw [if_pos hb] at h; simp at h
    rw [if_neg hb] at h
    obtain rfl := Option.some.inj h
    rw [header_eq]
    simp only [List.append_assoc]
    exact ⟨_, rfl⟩
  have c : (live x.parts).length = x.parts.countP fun p => p.dead = false := by
    simp [live, List.countP_eq_length_filter]
  have r2 : List.range 50 = 0 :: 1 :: (List.range 48).map (· + 2) := rfl
  have r1 : List.range 50 = 0 :: (List.range 49).map (· + 1) := rfl
  have i0 : idata U x 0 = ((x.parts.countP fun p => p.dead = false : ℕ) : ℤ) := by rw [← c]; rfl
  have i1 : idata U x 1 = ((x.stars.length : ℕ) : ℤ) := rfl
  have hc : ((n : ℤ) = n') ↔ n' = n := by rw [Nat.cast_inj]; exact eq_comm
  constructor
  · obtain ⟨rest, rfl⟩ := key _ _ hB
    set f : Fmt := ⟨true, rnd⟩ with hf
    set L : List Tok := (List.range 48).map (fun i => Tok.int (idata U x (i + 2))) ++
      ((List.range 50).map (fun i => f.long (ilpdata x i)) ++ (List.range 50).map (fun i => f.real (rdata x i))) with hL
    have e : headToks f U x ++ rest = [.str f.tag] ++ ([.int f.prec] ++ ([.int n] ++ ([.int n, .int n] ++
        ([.int (idata U x 0)] ++ ([.int (idata U x 1)] ++ (L ++ ([f.double (ddata U x 0)] ++
        ((List.range 49).map (fun i => f.double (ddata U x (i + 1))) ++ rest)))))))) := by
      unfold headToks
      rw [show (List.range 50).map (fun i => Tok.int (idata U x i)) = .int (idata U x 0) :: .int (idata U x 1) ::
        (List.range 48).map (fun i => Tok.int (idata U x (i + 2))) by rw [r2]; simp,
        show (List.range 50).map (fun i => f.double (ddata U x i)) = f.double (ddata U x 0) ::
        (List.range 49).map (fun i => f.double (ddata U x (i + 1))) by rw [r1]; simp]
      simp [hL]
    rw [e]
    have hsz : 48 * 4 + 50 * 8 + 50 * 8 = (L.map Tok.size).sum := by
      have h1 : ∀ i, (f.long i).size = 8 := fun i => rfl
      have h2 : ∀ i, (f.real i).size = 8 := fun i => rfl
      have h3 : ∀ i, (Tok.int i).size = 4 := fun i => rfl
      simp only [hL, List.map_append, List.map_map, List.sum_append, Function.comp_def, h1, h2, h3,
        List.map_const', List.sum_replicate, List.length_range, smul_eq_mul]
    show Option.map _ (rUnformHeader U n' _) = _
    unfold rUnformHeader
    rw [bind_some (reads_skip _ (by rfl) _), bind_some (reads_skip _ (by rfl) _), bind_some (reads_int _ _),
      bind_some (reads_skip _ (by rfl) _), bind_some (reads_int _ _), bind_some (reads_int _ _),
      bind_some (reads_skip L hsz _), bind_some (reads_fmt_double f _ _)]
    by_cases hn : n' = n
    · rw [if_pos (hc.2 hn), if_pos hn]
      show some _ = some _
      rw [i0, i1, e1]
      simp only [Fmt.val, hf, if_true, ddata, Scale.out]
      congr 2
      field_simp
    · rw [if_neg (fun h => hn (hc.1 h)), if_neg hn]
      rfl
  · obtain ⟨rest, rfl⟩ := key _ _ hT
    set f : Fmt := ⟨false, rnd⟩ with hf
    unfold headToks
    simp only [List.append_assoc]
    show Option.map _ (rFormHeader U n' _) = _
    unfold rFormHeader
    rw [bind_some (reads_any _ _), bind_some (reads_any _ _), bind_some (reads_int _ _), bind_some (reads_any _ _),
      bind_some (reads_any _ _), bind_some (reads_rN_map (r := rInt) (g := fun i => Tok.int (idata U x i)) (v := idata U x)
        (List.range 50) (fun i _ => reads_int _) (by simp) _),
      bind_some (reads_rN_map (r := rInt) (g := fun i => f.long (ilpdata x i)) (v := ilpdata x)
        (List.range 50) (fun i _ => reads_int _) (by simp) _),
      bind_some (reads_rN_map (r := rReal) (g := fun i => f.real (rdata x i)) (v := fun i => f.val (rdata x i))
        (List.range 50) (fun i _ => reads_fmt_real f _) (by simp) _),
      bind_some (reads_rN_map (r := rDouble) (g := fun i => f.double (ddata U x i)) (v := fun i => f.val (ddata U x i))
        (List.range 50) (fun i _ => reads_fmt_double f _) (by simp) _)]
    by_cases hn : n' = n
    · rw [if_pos (hc.2 hn), if_pos hn]
      show some _ = some _
      rw [getD_range _ _ (by norm_num), getD_range _ _ (by norm_num), getD_range _ _ (by norm_num), i0, i1, e1]
      rfl
    · rw [if_neg (fun h => hn (hc.1 h)), if_neg hn]
      rfl

/-- both files exist -/
example : (∃ file, writeSeren ⟨false, id⟩ exScale exSim = some file) ∧ ∃ file, writeSeren ⟨true, id⟩ exScale exSim = some file :=
  ⟨write_some _ _ _ (by simp [exSim, exPart]), write_some _ _ _ (by simp [exSim, exPart])⟩

/-- **C80, wrong files.** A file of another dimension, or of the other one of the two formats, ends the run. -/
theorem C80_wrong_file {n n' : ℕ} (f f' : Fmt) (U : Scale) (x : Sim n) (s : Sim n') (restart : Bool) (blank : Part n')
    (blankStar : Star n') {file : List Tok} (hw : writeSeren f U x = some file)
    (h : n ≠ n' ∨ f.binary ≠ f'.binary) : loadSeren f' U restart blank blankStar s file = none := by
  unfold writeSeren at hw
  by_cases hb : (live x.parts).any (fun p => p.ptype = .boundary) = true
  · rw [if_pos hb] at hw; simp at hw
  rw [if_neg hb] at hw
  obtain rfl := Option.some.inj hw
  rw [header_eq]
  simp only [List.append_assoc]
  unfold headToks
  simp only [List.append_assoc]
  generalize ((List.range 50).map (fun i => Tok.int (idata U x i)) ++ _) = rest
  have : ∀ rest, rHead f' n' ([Tok.str f.tag] ++ ([Tok.int f.prec] ++ ([Tok.int n] ++ ([Tok.int n] ++ ([Tok.int n] ++
      rest))))) = none := by
    intro rest
    unfold rHead
    rw [bind_some (reads_str _ _), bind_some (reads_int _ _), bind_some (reads_int _ _), bind_some (reads_int _ _),
      bind_some (reads_int _ _), if_neg]
    · rfl
    rintro ⟨h1, h2, h3, _⟩
    rcases h with h | h
    · exact h (by exact_mod_cast h3)
    · unfold Fmt.tag at h1
      cases e1 : f.binary <;> cases e2 : f'.binary <;> simp_all
  have h2 : readSeren f' restart blank blankStar s ([Tok.str f.tag] ++ ([Tok.int f.prec] ++ ([Tok.int n] ++
      ([Tok.int n] ++ ([Tok.int n] ++ rest))))) = none := by
    unfold readSeren
    show (StateT.bind (rHead f' n') _) _ = none
    simp only [StateT.bind, this]
    rfl
  unfold loadSeren
  show Option.map _ (readSeren f' restart blank blankStar s _) = none
  rw [h2]
  rfl

example : (2 : ℕ) ≠ 3 ∨ (⟨true, id⟩ : Fmt).binary ≠ (⟨false, id⟩ : Fmt).binary := Or.inl (by norm_num)

/-! ## The column format -/

/-- **C80, column format.** With exact decimals all particles come back in their order with their positions, velocities,
masses, smoothing lengths, densities and energies, and all stars with theirs except the radius.  (Missing: types,
identifiers, dead particles, radii, the time; see the next theorem.) -/
theorem C80_column_partial {n : ℕ} (kernrange : ℝ) (U : Scale) (hU : U.Setup) (x s : Sim n) (blank : Part n)
    (blankStar : Star n) : ∃ s', loadColumn kernrange U blank blankStar s (writeColumn id U x) = some s' ∧
      s'.parts = x.parts.map (fun p => { p with ptype := blank.ptype, dead := blank.dead, iorig := blank.iorig }) ∧
      List.Forall₂ (fun a b => b.r = a.r ∧ b.v = a.v ∧ b.m = a.m ∧ b.h = a.h) x.stars s'.stars := by
  have h := reads_column kernrange id U blank blankStar x s []
  rw [List.append_nil] at h
  have k (q : Quantity) (y : ℝ) : id (U.out q y) / (U.unit q).inscale = y := by
    obtain ⟨e1, e2⟩ := hU.scale q
    rw [e1]
    unfold Scale.out
    simp only [id]
    field_simp
  refine ⟨_, congrArg (Option.map fun x : Sim n × List Tok => convert U x.1) h, ?_, ?_⟩
  all_goals simp only [convert, List.map_map]
  · refine List.map_congr_left fun p _ => ?_
    simp only [Function.comp, Part.colVal, k]
  · rw [List.forall₂_map_right_iff]
    refine List.forall₂_same.2 fun a _ => ⟨?_, ?_, ?_, ?_⟩
    all_goals simp only [Function.comp, Star.colVal, k]

/-- **C80, column format (defects).** Even with exact decimals: the time comes back divided by the unit of time – the header
reader and the conversion both divide (SimulationIO.hpp:173 and 2549) –, every particle takes the type, the
identifier and the state of a fresh one, so that a dead particle is alive again, the radius of every sink is the kernel
range times `h` and that of the star is that of a fresh star, divided by the unit of length. -/
theorem C80_column_fails {n : ℕ} (kernrange : ℝ) (U : Scale) (hU : U.Setup) (x s s' : Sim n) (blank : Part n)
    (blankStar : Star n) (h : loadColumn kernrange U blank blankStar s (writeColumn id U x) = some s') :
    s'.t = x.t / (U.unit .t).outscale ∧ s'.tsnaplast = x.t / (U.unit .t).outscale ∧
    (∀ p ∈ s'.parts, p.ptype = blank.ptype ∧ p.dead = blank.dead ∧ p.iorig = blank.iorig) ∧
    s'.sinkRadius = x.stars.map (fun a => kernrange * a.h) ∧
    (∀ a ∈ s'.stars, a.radius = blankStar.radius / (U.unit .r).outscale) := by
  have h' := reads_column kernrange id U blank blankStar x s []
  rw [List.append_nil] at h'
  unfold loadColumn at h
  rw [show (readColumn kernrange U blank blankStar s).run _ = _ from h'] at h
  obtain rfl := Option.some.inj h
  obtain ⟨e1, e2⟩ := hU.scale .t
  obtain ⟨e3, e4⟩ := hU.scale .r
  refine ⟨?_, ?_, ?_, ?_, ?_⟩
  · simp only [convert, e1, Scale.out, id]
    field_simp
  · simp only [convert, e1, Scale.out, id]
    field_simp
  · intro p hp
    simp only [convert, List.map_map, List.mem_map, Function.comp] at hp
    obtain ⟨q, _, rfl⟩ := hp
    exact ⟨rfl, rfl, rfl⟩
  · simp only [convert, List.map_map]
    refine List.map_congr_left fun a _ => ?_
    simp only [Function.comp, e3, Scale.out, id]
    field_simp
  · intro a ha
    simp only [convert, List.map_map, List.mem_map, Function.comp] at ha
    obtain ⟨q, _, rfl⟩ := ha
    simp only [Star.colVal, e3]

/-- The sample: the time, the type of the dust, the dead particle and the radius of the sink are all wrong. -/
example (s' : Sim 2) (h : loadColumn 2 exScale (exPart .gas false 0) ⟨0, 0, 0, 0, 0⟩ exSim
    (writeColumn id exScale exSim) = some s') :
    s'.t ≠ exSim.t ∧ (∀ p ∈ s'.parts, p.ptype ≠ .dust ∧ p.dead ≠ true) ∧ s'.sinkRadius ≠ exSim.sinkRadius := by
  obtain ⟨h1, _, h3, h4, _⟩ := C80_column_fails 2 exScale exScale_setup exSim exSim s' _ _ h
  refine ⟨?_, fun p hp => ?_, ?_⟩
  · rw [h1]
    intro hc
    rw [div_eq_iff (exScale_setup.scale .t).2] at hc
    have : exSim.t = 6 := rfl
    rw [this] at hc
    exact exScale_time (by linarith)
  · obtain ⟨a, b, _⟩ := h3 p hp
    rw [a, b]
    simp [exPart]
  · rw [h4]
    simp [exSim]
    norm_num

/-! ## Several processes -/

/-- **C80, several processes.** The arrays written by several processes, each writing its block at its place in any order and any
number of times, are those which one process would write that has all the particles, rank after rank: a number per
particle (identifiers, masses, …) or a vector per particle (positions, velocities).  What was in the file before is
kept, and the next array starts behind it. -/
theorem C80_mpi {n : ℕ} (ranks : List (List (Part n))) (order : PType → List ℕ)
    (ho : ∀ ty k, k < ranks.length → k ∈ order ty) (d : Disk) (offset : ℕ) :
    (∀ g : Part n → Tok,
      let w := writeArrayMpi ranks 1 (fun p => [g p]) order types (d, offset)
      let L := scalarArray ranks.flatten g
      (∀ j, j < L.length → w.1 (offset + j) = L[j]?) ∧ w.2 = offset + L.length ∧ ∀ i, i < offset → w.1 i = d i) ∧
    (∀ (g : Part n → Vec n ℝ) (put : ℝ → Tok),
      let w := writeArrayMpi ranks n (fun p => (List.ofFn (g p)).map put) order types (d, offset)
      let L := vectorArray ranks.flatten g put
      (∀ j, j < L.length → w.1 (offset + j) = L[j]?) ∧ w.2 = offset + L.length ∧ ∀ i, i < offset → w.1 i = d i) := by
  constructor
  · intro g
    have h := writeArrayMpi_holds ranks 1 (fun p => [g p]) (fun p => rfl) order ho types d offset
    have e : (types.flatMap fun ty => (ofType ranks.flatten ty).flatMap fun p => [g p]) = scalarArray ranks.flatten g := by
      unfold scalarArray
      simp [List.map_eq_flatMap]
    simp only [e] at h
    exact h
  · intro g put
    exact writeArrayMpi_holds ranks n (fun p => (List.ofFn (g p)).map put) (fun p => by simp) order ho types d offset

/-- Three processes, one of them without particles, writing in the order 2, 0, 1. -/
example : let ranks : List (List (Part 2)) := [[exPart .dust false 1, exPart .gas false 2], [], [exPart .gas false 3]]
    (∀ (ty : PType) k, k < ranks.length → k ∈ (fun _ : PType => [2, 0, 1]) ty) ∧
    scalarArray ranks.flatten (fun p => .int p.iorig) = [.int 2, .int 3, .int 1] := by
  refine ⟨fun ty k hk => ?_, ?_⟩
  · simp only [List.length_cons, List.length_nil] at hk
    interval_cases k <;> simp
  · simp [scalarArray, types, ofType, exPart]

/-- **C80, column files of several processes (defect).** The stars are counted in the header, once for each process, but
their lines are never written (SimulationIO.hpp:412-429): whatever the stars were, each star read is a fresh one
(with its mass, position and velocity divided by the units). -/
theorem C80_mpi_column_fails {n : ℕ} (kernrange : ℝ) (rnd : ℝ → ℝ) (U : Scale) (hU : U.Setup) (ranks : List (Sim n))
    (t : ℝ) (s : Sim n) (blank : Part n) (blankStar : Star n) :
    ∃ s', loadColumn kernrange U blank blankStar s (writeColumnMpi rnd U ranks t) = some s' ∧
      s'.parts.length = (ranks.map fun x => x.parts.length).sum ∧
      s'.stars.length = (ranks.map fun x => x.stars.length).sum ∧
      ∀ a ∈ s'.stars, a.m = blankStar.m / (U.unit .m).outscale := by
  obtain ⟨s', h1, h2, h3⟩ := read_columnMpi kernrange rnd U blank blankStar ranks t s
  refine ⟨convert U s', ?_, ?_, ?_, ?_⟩
  · unfold loadColumn
    rw [show (readColumn kernrange U blank blankStar s).run _ = _ from h1]
    rfl
  · simp only [convert, h2, List.length_map, List.length_flatMap]
  · simp only [convert, h3, List.length_map, List.length_replicate]
  · intro a ha
    simp only [convert, h3, List.mem_map, List.mem_replicate] at ha
    obtain ⟨b, ⟨_, rfl⟩, rfl⟩ := ha
    rw [← (hU.scale .m).1]

/-- Two processes that both know the one star of the sample: two stars without mass are read. -/
example : ∃ s', loadColumn 2 exScale (exPart .gas false 0) ⟨0, 0, 0, 0, 0⟩ exSim
    (writeColumnMpi id exScale [exSim, exSim] 6) = some s' ∧ s'.stars.length = 2 ∧ ∀ a ∈ s'.stars, a.m = 0 := by
  obtain ⟨s', h1, _, h3, h4⟩ := C80_mpi_column_fails 2 id exScale exScale_setup [exSim, exSim] 6 exSim
    (exPart .gas false 0) ⟨0, 0, 0, 0, 0⟩
  exact ⟨s', h1, by rw [h3]; rfl, fun a ha => by rw [h4 a ha]; simp⟩

end Gandalf
