import Verif.Proof.Output
import Mathlib.Tactic.NormNum

/-!
# C48 – a crash always leaves a usable restart point

Full claim: whatever the instant of a crash, the restart file names a completely written snapshot.  This does
not hold: the restart file and the temporary snapshot are rewritten in place, and column files lose the snapshot
number.  Proved is the claim outside these two windows, for the Seren formats (`C48_restart_partial`), and a witness
for each of the failures.
-/

set_option autoImplicit false

namespace Gandalf
open Output

variable {α : Type*} [Field α] [LinearOrder α] [IsStrictOrderedRing α]

/-- **C48 (partial).** With a Seren format, at every instant of every execution, with any number of crashes
and restarts before: either the restart file does not exist yet (and a restart starts from the beginning), or it names
a completely written snapshot (and a restart reads it), or the crash fell between the opening and the closing of
the restart file, or between the opening and the closing of the temporary snapshot the restart file names.

Missing for the full claim: the last two cases (see `C48_restart_window` and `C48_tmp_window`), and the
column format (see `C48_column_window`). -/
theorem C48_restart_partial (cfg : Cfg α) (hc : cfg.column = false) {s : St α} {ops : List (Op α)}
    {d : Disk α} (he : Exec cfg true s ops d) :
    (d .restart = none ∧ resume cfg d = .fromStart) ∨
    (∃ f h, d .restart = some (some (.pointer f)) ∧ d f = some (some (.data h)) ∧
      resume cfg d = .ok (restore cfg h) ∧ (f = .tmp ∨ f = .snap h.Noutsnap)) ∨
    (d .restart = some none ∧ ∃ f ops', ops = .closed .restart (.pointer f) :: ops') ∨
    (d .restart = some (some (.pointer .tmp)) ∧ d .tmp = some none ∧
      ∃ g ops', ops = .closed .tmp (.data g) :: ops') := by
  obtain ⟨i1, i2⟩ := exec_sound cfg true (fun _ => hc) he
  rcases i1.resume (cfg := cfg) with (h | ⟨f, g, h1, h2, h3⟩) | h | h
  · exact Or.inl ⟨h, by rw [resume, h]⟩
  · refine Or.inr (Or.inl ⟨f, g, h1, h2, h3, ?_⟩)
    rcases i2.pointer _ h1 with e | ⟨k, e⟩
    · exact Or.inl (by simpa using e)
    · have e' : f = .snap k := by simpa using e
      subst e'
      exact Or.inr (by rw [(i2.snap k g h2).1])
  · exact Or.inr (Or.inr (Or.inl h))
  · exact Or.inr (Or.inr (Or.inr h))

/-- **C48, between calls.** When no file is being written, a restart never fails. -/
theorem C48_between_calls (cfg : Cfg α) (hc : cfg.column = false) {s : St α} {d : Disk α}
    (he : Exec cfg true s [] d) : resume cfg d ≠ .broken := by
  rcases C48_restart_partial cfg hc he with ⟨_, h⟩ | ⟨f, h, _, _, h', _⟩ | ⟨_, f, ops', h⟩ | ⟨_, _, g, ops', h⟩
  · rw [h]; simp
  · rw [h']; simp
  · simp at h
  · simp at h

/-- **C48, nothing lost.** With a Seren format, a state on schedule, and at least one snapshot of each kind taken (or
the first output times equal to the intervals), the state read back from a snapshot is the state written, apart
from the count of steps since the last restart file. -/
theorem C48_restore_exact (cfg : Cfg α) (hc : cfg.column = false) (s : St α)
    (h1 : s.tsnapnext = cfg.tsnapfirst + s.Noutsnap * cfg.dt_snap)
    (h2 : s.tlitesnapnext = cfg.tlitesnapfirst + s.Noutlitesnap * cfg.dt_litesnap)
    (h3 : if s.Noutsnap = 0 then s.tsnaplast = 0 ∧ cfg.tsnapfirst = cfg.dt_snap
      else s.tsnaplast = outTime cfg.tsnapfirst cfg.dt_snap s.Noutsnap)
    (h4 : if s.Noutlitesnap = 0 then s.tlitesnaplast = 0 ∧ cfg.tlitesnapfirst = cfg.dt_litesnap
      else s.tlitesnaplast = outTime cfg.tlitesnapfirst cfg.dt_litesnap s.Noutlitesnap) :
    restore cfg (header s) = { s with nlastrestart := 0 } := by
  have e1 : s.tsnaplast + cfg.dt_snap = s.tsnapnext := by
    by_cases h : s.Noutsnap = 0
    · rw [if_pos h] at h3
      rw [h1, h3.1, h3.2, h]; simp
    · rw [if_neg h] at h3
      rw [h1, h3]; unfold outTime; ring
  have e2 : s.tlitesnaplast + cfg.dt_litesnap = s.tlitesnapnext := by
    by_cases h : s.Noutlitesnap = 0
    · rw [if_pos h] at h4
      rw [h2, h4.1, h4.2, h]; simp
    · rw [if_neg h] at h4
      rw [h2, h4]; unfold outTime; ring
  obtain ⟨t, tn, tl, ln, ll, n, m, ns, nl⟩ := s
  simp only [restore, hc, header, fresh, Bool.false_eq_true, if_false] at *
  simp only [e1, e2]

/-- output every 1, restart file at every resynchronisation -/
def exRestart (column : Bool) : Cfg ℚ := ⟨1, 1, 1, 1, false, 1, column⟩

private theorem exStart (column : Bool) : Exec (exRestart column) true
    (⟨1, 2, 1, 1, 0, 1, 0, 1, 0⟩ : St ℚ)
    (writeSnapshot (.snap 1) ⟨1, 2, 1, 1, 0, 1, 0, 1, 0⟩ ++ writeRestart (.snap 1)) (fun _ => none) := by
  have e1 := Exec.boot (cfg := exRestart column) (crashes := true) false
  have h1 : output (exRestart column) false (fresh (exRestart column)) = (fresh (exRestart column), [], none) := by
    norm_num [output, litePart, snapPart, tmpPart, fresh, exRestart]
  rw [h1] at e1
  have e2 := Exec.pass _ _ e1 false false 1 (by norm_num [fresh])
  have h2 : pass (exRestart column) false false 1 (fresh (exRestart column)) = (⟨1, 2, 1, 1, 0, 1, 0, 1, 0⟩,
      writeSnapshot (.snap 1) ⟨1, 2, 1, 1, 0, 1, 0, 1, 0⟩ ++ writeRestart (.snap 1)) := by
    norm_num [pass, output, litePart, snapPart, tmpPart, fresh, exRestart]
  rw [h2] at e2
  exact e2

/-- **C48, the restart file is truncated first.** Opening the restart file empties it: a crash before it is closed leaves
no restart point, although snapshots exist. -/
theorem C48_restart_window (column : Bool) : ∃ s ops d, Exec (exRestart column) true s ops d ∧
    resume (exRestart column) d = .broken ∧ ∃ h, d (.snap 1) = some (some (.data h)) := by
  have e3 := ((exStart column).write).write.write
  refine ⟨_, _, _, e3, ?_, ⟨header ⟨1, 2, 1, 1, 0, 1, 0, 1, 0⟩, ?_⟩⟩
  · simp [resume, Op.apply, header]
  · simp only [Op.apply, Function.update_self, ne_eq, reduceCtorEq, not_false_eq_true, Function.update_of_ne]

/-- **C48, the temporary snapshot is rewritten in place.** Once the restart file names the temporary snapshot,
writing the next one destroys the only restart point until it is complete. -/
theorem C48_tmp_window : ∃ s ops d, Exec (exRestart false) true s ops d ∧
    d .restart = some (some (.pointer .tmp)) ∧ resume (exRestart false) d = .broken := by
  have e1 := Exec.boot (cfg := exRestart false) (crashes := true) false
  have h1 : output (exRestart false) false (fresh (exRestart false)) = (fresh (exRestart false), [], none) := by
    norm_num [output, litePart, snapPart, tmpPart, fresh, exRestart]
  rw [h1] at e1
  have e2 := Exec.pass _ _ e1 true false (1 / 4) (by norm_num [fresh])
  have h2 : pass (exRestart false) true false (1 / 4) (fresh (exRestart false)) =
      (⟨1 / 4, 1, 0, 1, 0, 0, 0, 1, 1⟩, restartSnapshot ⟨1 / 4, 1, 0, 1, 0, 0, 0, 1, 0⟩) := by
    norm_num [pass, output, litePart, snapPart, tmpPart, fresh, exRestart]
  rw [h2] at e2
  have e3 := ((e2.write).write).write.write
  have e4 := Exec.pass _ _ e3 true false (1 / 2) (by norm_num)
  have h4 : pass (exRestart false) true false (1 / 2) ⟨1 / 4, 1, 0, 1, 0, 0, 0, 1, 1⟩ =
      (⟨1 / 2, 1, 0, 1, 0, 0, 0, 2, 2⟩, restartSnapshot ⟨1 / 2, 1, 0, 1, 0, 0, 0, 2, 1⟩) := by
    norm_num [pass, output, litePart, snapPart, tmpPart, exRestart]
  rw [h4] at e4
  have e5 := e4.write
  refine ⟨_, _, _, e5, ?_, ?_⟩
  · simp [Op.apply]
  · simp [resume, Op.apply]

/-- **C48, column format.** After a restart from snapshot 1 in column format numbering begins again at 1: the next
snapshot is written over the very file the restart file names. -/
theorem C48_column_window : ∃ s ops d, Exec (exRestart true) true s ops d ∧
    d .restart = some (some (.pointer (.snap 1))) ∧ resume (exRestart true) d = .broken := by
  have e3 := ((exStart true).write).write.write.write
  have e6 := Exec.crash _ _ _ e3 rfl (s1 := ⟨1, 2, 1, 1, 0, 0, 0, 0, 0⟩) (by
    simp only [resume, Op.apply, header, Function.update_self, ne_eq, reduceCtorEq, not_false_eq_true,
      Function.update_of_ne]
    norm_num [restore, exRestart, fresh]) false
  have h6 : output (exRestart true) false (⟨1, 2, 1, 1, 0, 0, 0, 0, 0⟩ : St ℚ) =
      (⟨1, 2, 1, 1, 0, 0, 0, 0, 0⟩, [], none) := by
    norm_num [output, litePart, snapPart, tmpPart, exRestart]
  rw [h6] at e6
  have e7 := Exec.pass _ _ e6 false false 2 (by norm_num)
  have h7 : pass (exRestart true) false false 2 ⟨1, 2, 1, 1, 0, 0, 0, 0, 0⟩ = (⟨2, 3, 2, 1, 0, 1, 0, 1, 0⟩,
      writeSnapshot (.snap 1) ⟨2, 3, 2, 1, 0, 1, 0, 1, 0⟩ ++ writeRestart (.snap 1)) := by
    norm_num [pass, output, litePart, snapPart, tmpPart, exRestart]
  rw [h7] at e7
  have e8 := e7.write
  refine ⟨_, _, _, e8, ?_, ?_⟩
  · simp only [Op.apply, Function.update_self, ne_eq, reduceCtorEq, not_false_eq_true, Function.update_of_ne]
  · simp only [resume, Op.apply, Function.update_self, ne_eq, reduceCtorEq, not_false_eq_true,
      Function.update_of_ne]

/-- The partial theorem is not empty: after the first snapshot the restart file names it. -/
example : ∃ s d, Exec (exRestart false) true s [] d ∧
    d .restart = some (some (.pointer (.snap 1))) :=
  ⟨_, _, ((exStart false).write).write.write.write, by
    simp only [Op.apply, Function.update_self]⟩

/-- and a state meeting the hypotheses of `C48_restore_exact` -/
example : restore (exRestart false) (header (⟨5 / 2, 3, 2, 1, 0, 2, 0, 7, 3⟩ : St ℚ)) =
    ⟨5 / 2, 3, 2, 1, 0, 2, 0, 7, 0⟩ :=
  C48_restore_exact (exRestart false) rfl _ (by norm_num [exRestart]) (by norm_num [exRestart])
    (by norm_num [exRestart, outTime]) (by norm_num [exRestart])

end Gandalf
