import Verif.Proof.Output
import Mathlib.Tactic.NormNum

/-!
# C47 – snapshots are produced at every output time once
-/

set_option autoImplicit false

namespace Gandalf
open Output

variable {α : Type*} [Field α] [LinearOrder α] [IsStrictOrderedRing α]

/-- **C47.** For every sequence of times, resynchronisations and wall-clock stops after the set-up: the
snapshots written over the run are numbered `1, 2, …, Noutsnap`, each once and in this order; snapshot `k`
stands for the output time `tsnapfirst + (k-1) dt_snap`, and was not written before it; likewise the lite
snapshots; and no output is ahead of the simulation. -/
theorem C47_schedule (cfg : Cfg α) (resync : Bool) (l : List (Bool × Bool × α)) (hl : Increasing 0 l)
    (hdt : 0 ≤ cfg.dt_snap) (hdl : 0 ≤ cfg.dt_litesnap) :
    let o := output cfg resync (fresh cfg)
    let r := run cfg l o.1
    let ops := o.2.1 ++ r.2
    snapNumbers ops = List.range' 1 r.1.Noutsnap ∧ liteNumbers ops = List.range' 1 r.1.Noutlitesnap ∧
    (∀ k h, Op.closed (.snap k) (.data h) ∈ ops → h.Noutsnap = k ∧
      (1 ≤ k → h.tsnaplast = outTime cfg.tsnapfirst cfg.dt_snap k ∧ h.tsnaplast ≤ h.t)) ∧
    (∀ k h, Op.closed (.lite k) (.data h) ∈ ops → h.Noutlitesnap = k ∧
      (1 ≤ k → h.tlitesnaplast = outTime cfg.tlitesnapfirst cfg.dt_litesnap k ∧ h.tlitesnaplast ≤ h.t)) ∧
    (∀ k, 1 ≤ k → k ≤ r.1.Noutsnap → outTime cfg.tsnapfirst cfg.dt_snap k ≤ r.1.t) ∧
    (∀ k, 1 ≤ k → k ≤ r.1.Noutlitesnap → outTime cfg.tlitesnapfirst cfg.dt_litesnap k ≤ r.1.t) := by
  intro o r ops
  have hs := sched_output resync (sched_fresh cfg)
  obtain ⟨o1, o2, o3, o4⟩ := output_spec cfg resync (fresh cfg)
  obtain ⟨i1, i2, i3, i4, i5, i6⟩ := run_spec cfg l o.1 hs (by
    show Increasing (output cfg resync (fresh cfg)).1.t l
    rw [o1]; exact hl)
  have hb : Blocks (HeadOK cfg) (fresh cfg).Noutsnap ops r.1.Noutsnap :=
    (blocks_output (headOK_of_sched (sched_lite (sched_fresh cfg)))
      (headOK_of_sched (sched_snap (sched_lite (sched_fresh cfg))))).append i2
  have mono : ∀ (first dt : α) (N : ℕ) (x : α), 0 ≤ dt → (1 ≤ N → outTime first dt N ≤ x) →
      ∀ k, 1 ≤ k → k ≤ N → outTime first dt k ≤ x := by
    intro first dt N x hd h k hk hkN
    refine le_trans ?_ (h (by omega))
    have : (k : α) ≤ N := by exact_mod_cast hkN
    have : ((k : α) - 1) * dt ≤ (N - 1) * dt := mul_le_mul_of_nonneg_right (by linarith) hd
    unfold outTime
    linarith
  refine ⟨?_, ?_, ?_, ?_, ?_, ?_⟩
  · show snapNumbers (o.2.1 ++ r.2) = _
    rw [snapNumbers_append, i3]
    rcases o3 with ⟨_, g1, _, _, g2⟩ | ⟨_, g1, _, _, g2⟩
    · have g1' : o.1.Noutsnap = 1 := g1
      rw [g1'] at i4
      rw [show snapNumbers o.2.1 = [1] from g2, g1', List.singleton_append, ← List.range'_succ]
      congr 1; show r.1.Noutsnap - 1 + 1 = _; have : 1 ≤ r.1.Noutsnap := i4; omega
    · have g1' : o.1.Noutsnap = 0 := g1
      rw [show snapNumbers o.2.1 = [] from g2, g1', List.nil_append]
      rfl
  · show liteNumbers (o.2.1 ++ r.2) = _
    rw [liteNumbers_append, i5]
    rcases o4 with ⟨_, _, g1, _, _, g2⟩ | ⟨_, g1, _, _, g2⟩
    · have g1' : o.1.Noutlitesnap = 1 := g1
      rw [g1'] at i6
      rw [show liteNumbers o.2.1 = [1] from g2, g1', List.singleton_append, ← List.range'_succ]
      congr 1; show r.1.Noutlitesnap - 1 + 1 = _; have : 1 ≤ r.1.Noutlitesnap := i6; omega
    · have g1' : o.1.Noutlitesnap = 0 := g1
      rw [show liteNumbers o.2.1 = [] from g2, g1', List.nil_append]
      rfl
  · intro k h hk
    obtain ⟨g1, g2⟩ := hb.mem_snap hk
    exact ⟨g1, fun h1 => by rw [← g1]; exact g2.2.1 (by omega)⟩
  · intro k h hk
    obtain ⟨g1, g2⟩ := hb.mem_lite hk
    exact ⟨g1, fun h1 => by rw [← g1]; exact g2.2.2.2 (by omega)⟩
  · exact mono _ _ _ _ hdt fun h => by have := i1.1.last h; rw [← this.1]; exact this.2
  · exact mono _ _ _ _ hdl fun h => by have := i1.2.last h; rw [← this.1]; exact this.2

/-- **C47, nothing is late.** If no step is longer than the output interval, then after every call of
`Output` exactly the output times reached have their snapshot. -/
theorem C47_prompt (cfg : Cfg α) (resync : Bool) (l : List (Bool × Bool × α)) (hl : Increasing 0 l)
    (hdt : 0 < cfg.dt_snap) (h0 : 0 < cfg.tsnapfirst + cfg.dt_snap)
    (hw : StepsWithin cfg.dt_snap 0 l) :
    let r := run cfg l (output cfg resync (fresh cfg)).1
    ∀ k, 1 ≤ k → (outTime cfg.tsnapfirst cfg.dt_snap k ≤ r.1.t ↔ k ≤ r.1.Noutsnap) := by
  intro r k hk
  have hs := sched_output resync (sched_fresh cfg)
  obtain ⟨o1, o2, o3, o4⟩ := output_spec cfg resync (fresh cfg)
  have o1' : (output cfg resync (fresh cfg)).1.t = 0 := o1
  obtain ⟨i1, _⟩ := run_spec cfg l (output cfg resync (fresh cfg)).1 hs (by rw [o1']; exact hl)
  have hp := run_prompt cfg l (output cfg resync (fresh cfg)).1 (by
    rw [o1']
    rcases o3 with ⟨_, _, _, g, _⟩ | ⟨g0, _, _, g, _⟩
    · rw [g]; exact h0
    · rw [g]; exact g0) (by rw [o1']; exact hw)
  exact outTime_le _ _ hdt i1.1.next (fun h => by have := i1.1.last h; rw [← this.1]; exact this.2) hp k hk

/-- **C47, a long step leaves output behind.** One snapshot is written per call, however many output times
were passed: a step from 0 to 1 with output every 1/5 leaves four output times without snapshot. -/
theorem C47_long_step_late : ∃ (cfg : Cfg ℚ) (l : List (Bool × Bool × ℚ)), Increasing 0 l ∧
    cfg.tsnapfirst = 1 / 5 ∧ cfg.dt_snap = 1 / 5 ∧
    let r := run cfg l (output cfg true (fresh cfg)).1
    outTime cfg.tsnapfirst cfg.dt_snap 5 ≤ r.1.t ∧ r.1.Noutsnap = 1 := by
  refine ⟨⟨1 / 5, 1 / 5, 1, 0, false, 512, false⟩, [(false, false, 1)], ⟨by norm_num, trivial⟩, rfl, rfl, ?_⟩
  norm_num [run, pass, output, litePart, snapPart, tmpPart, fresh, outTime]

/-- **C47, names.** For every run name and every format that can be read back, different files have
different names: no snapshot overwrites another one, a lite snapshot, or the restart file. -/
theorem C47_names (run_id form : List Char) (hf : form ∈ formats) :
    Function.Injective (fileName run_id form) := fun _ _ h => fileName_inj run_id form hf h

/-- **C47, what `Output` returns.** The name returned is that of the snapshot written in this call, or else of
the lite snapshot, or empty if neither was written. -/
theorem C47_returned (cfg : Cfg α) (resync : Bool) (s : St α) :
    (output cfg resync s).2.2 = (match snapNumbers (output cfg resync s).2.1,
      liteNumbers (output cfg resync s).2.1 with
      | k :: _, _ => some (.snap k)
      | [], k :: _ => some (.lite k)
      | [], [] => none) := by
  obtain ⟨_, _, o3, o4⟩ := output_spec cfg resync s
  have e : (output cfg resync s).2.2 =
    (snapPart cfg (litePart cfg s).1).2.2.orElse fun _ => (litePart cfg s).2.2 := rfl
  have tl : (litePart cfg s).1.t = s.t ∧ (litePart cfg s).1.tsnapnext = s.tsnapnext ∧
      (litePart cfg s).1.Noutsnap = s.Noutsnap := by
    unfold litePart; split_ifs <;> exact ⟨rfl, rfl, rfl⟩
  have hs : (snapPart cfg (litePart cfg s).1).2.2 =
      if s.tsnapnext ≤ s.t then some (.snap (s.Noutsnap + 1)) else none := by
    unfold snapPart
    rw [tl.1, tl.2.1, tl.2.2]
    split_ifs <;> rfl
  have hl : (litePart cfg s).2.2 = if cfg.litesnap = true ∧ s.tlitesnapnext ≤ s.t then
      some (.lite (s.Noutlitesnap + 1)) else none := by
    unfold litePart; split_ifs <;> rfl
  rw [e, hs, hl]
  rcases o3 with ⟨g, _, _, _, g2⟩ | ⟨g, _, _, _, g2⟩
  · rw [g2, if_pos g]; rfl
  · rw [g2, if_neg (not_le.mpr g)]
    rcases o4 with ⟨c1, c2, _, _, _, g4⟩ | ⟨c1, _, _, _, g4⟩
    · rw [g4, if_pos ⟨c1, c2⟩]; rfl
    · rw [g4, if_neg fun h => absurd h.2 (not_le.mpr (c1 h.1))]; rfl

/-- **C47, over crashes and restarts.** With a Seren format and the first output times equal to the
intervals (the defaults for snapshots), in every state reached through any number of crashes, at any point of
writing files, and restarts: the next output times are on schedule, and every complete snapshot on disk carries its
number and its output time. -/
theorem C47_restarts (cfg : Cfg α) (hc : cfg.column = false) (h1 : cfg.tsnapfirst = cfg.dt_snap)
    (h2 : cfg.tlitesnapfirst = cfg.dt_litesnap) {s : St α} {ops : List (Op α)} {d : Disk α}
    (he : Exec cfg true s ops d) :
    s.tsnapnext = cfg.tsnapfirst + s.Noutsnap * cfg.dt_snap ∧
    s.tlitesnapnext = cfg.tlitesnapfirst + s.Noutlitesnap * cfg.dt_litesnap ∧
    (1 ≤ s.Noutsnap → s.tsnaplast = outTime cfg.tsnapfirst cfg.dt_snap s.Noutsnap ∧ s.tsnaplast ≤ s.t) ∧
    (∀ k h, d (.snap k) = some (some (.data h)) → h.Noutsnap = k ∧
      (1 ≤ k → h.tsnaplast = outTime cfg.tsnapfirst cfg.dt_snap k ∧ h.tsnaplast ≤ h.t)) ∧
    (∀ k h, d (.lite k) = some (some (.data h)) → h.Noutlitesnap = k ∧
      (1 ≤ k → h.tlitesnaplast = outTime cfg.tlitesnapfirst cfg.dt_litesnap k ∧ h.tlitesnaplast ≤ h.t)) := by
  obtain ⟨i1, _, i3⟩ := exec_invariant cfg true (fun _ => ⟨hc, h1, h2⟩) he
  refine ⟨i1.1.next, i1.2.next, i1.1.last, ?_, ?_⟩
  · intro k h hk
    obtain ⟨g1, g2⟩ := i3.snap k h hk
    exact ⟨g1, fun h' => by rw [← g1]; exact g2.2.1 (by omega)⟩
  · intro k h hk
    obtain ⟨g1, g2⟩ := i3.lite k h hk
    exact ⟨g1, fun h' => by rw [← g1]; exact g2.2.2.2 (by omega)⟩

section
/-- configuration of the first example: first output at 1, then every 1/5 -/
def exFirst : Cfg ℚ := ⟨1 / 5, 1, 1, 1, false, 1, false⟩
/-- configuration of the second example: column format, output every 1 -/
def exColumn : Cfg ℚ := ⟨1, 1, 1, 1, false, 512, true⟩

/-- **C47, restart before the first snapshot.** `tsnaplast` is 0 in a temporary snapshot written before the
first regular one, and a restart takes `tsnapnext = tsnaplast + dt_snap`: with `tsnapfirst = 1` and
`dt_snap = 1/5` a run restarted at `t = 1/2` writes snapshot 1 at once, for output time 1/5. -/
theorem C47_restart_first_fails : ∃ s ops d, Exec exFirst true s ops d ∧ s.t = 1 / 2 ∧ s.Noutsnap = 1 ∧
    s.tsnaplast = 1 / 5 ∧ outTime exFirst.tsnapfirst exFirst.dt_snap 1 = 1 := by
  have e1 := Exec.boot (cfg := exFirst) (crashes := true) false
  have h1 : output exFirst false (fresh exFirst) = (fresh exFirst, [], none) := by
    norm_num [output, litePart, snapPart, tmpPart, fresh, exFirst]
  rw [h1] at e1
  have e2 := Exec.pass _ _ e1 true false (1 / 2) (by norm_num [fresh])
  have h2 : pass exFirst true false (1 / 2) (fresh exFirst) =
      (⟨1 / 2, 1, 0, 1, 0, 0, 0, 1, 1⟩, restartSnapshot ⟨1 / 2, 1, 0, 1, 0, 0, 0, 1, 0⟩) := by
    norm_num [pass, output, litePart, snapPart, tmpPart, fresh, exFirst]
  rw [h2] at e2
  have e3 := ((e2.write).write).write.write
  have e4 := Exec.crash _ _ _ e3 rfl (s1 := restore exFirst ⟨0, 1, 0, 1 / 2, 0, 0⟩) (by
    simp [resume, Op.apply, header]) false
  refine ⟨_, _, _, e4, ?_⟩
  norm_num [output, litePart, snapPart, tmpPart, fresh, exFirst, restore, outTime]

/-- **C47, restart from a column file.** Column files carry no snapshot number: after a restart numbering begins
again at 1, and the snapshot for output time 3 overwrites the snapshot for output time 1. -/
theorem C47_column_overwrites : ∃ s ops d h, Exec exColumn true s ops d ∧
    d (.snap 1) = some (some (.data h)) ∧ h.tsnaplast = 3 ∧
    outTime exColumn.tsnapfirst exColumn.dt_snap 1 = 1 := by
  have e1 := Exec.boot (cfg := exColumn) (crashes := true) false
  have h1 : output exColumn false (fresh exColumn) = (fresh exColumn, [], none) := by
    norm_num [output, litePart, snapPart, tmpPart, fresh, exColumn]
  rw [h1] at e1
  have e2 := Exec.pass _ _ e1 false false 1 (by norm_num [fresh])
  have h2 : pass exColumn false false 1 (fresh exColumn) = (⟨1, 2, 1, 1, 0, 1, 0, 1, 0⟩,
      writeSnapshot (.snap 1) ⟨1, 2, 1, 1, 0, 1, 0, 1, 0⟩ ++ writeRestart (.snap 1)) := by
    norm_num [pass, output, litePart, snapPart, tmpPart, fresh, exColumn]
  rw [h2] at e2
  have e3 := ((e2.write).write).write.write
  have e4 := Exec.pass _ _ e3 false false 2 (by norm_num)
  have h4 : pass exColumn false false 2 ⟨1, 2, 1, 1, 0, 1, 0, 1, 0⟩ = (⟨2, 3, 2, 1, 0, 2, 0, 2, 0⟩,
      writeSnapshot (.snap 2) ⟨2, 3, 2, 1, 0, 2, 0, 2, 0⟩ ++ writeRestart (.snap 2)) := by
    norm_num [pass, output, litePart, snapPart, tmpPart, exColumn]
  rw [h4] at e4
  have e5 := ((e4.write).write).write.write
  have e6 := Exec.crash _ _ _ e5 rfl (s1 := ⟨2, 3, 2, 1, 0, 0, 0, 0, 0⟩) (by
    simp only [resume, Op.apply, header, Function.update_self, ne_eq, reduceCtorEq, not_false_eq_true,
      Function.update_of_ne]
    norm_num [restore, exColumn, fresh]) false
  have h6 : output exColumn false (⟨2, 3, 2, 1, 0, 0, 0, 0, 0⟩ : St ℚ) =
      (⟨2, 3, 2, 1, 0, 0, 0, 0, 0⟩, [], none) := by
    norm_num [output, litePart, snapPart, tmpPart, exColumn]
  rw [h6] at e6
  have e7 := Exec.pass _ _ e6 false false 3 (by norm_num)
  have h7 : pass exColumn false false 3 ⟨2, 3, 2, 1, 0, 0, 0, 0, 0⟩ = (⟨3, 4, 3, 1, 0, 1, 0, 1, 0⟩,
      writeSnapshot (.snap 1) ⟨3, 4, 3, 1, 0, 1, 0, 1, 0⟩ ++ writeRestart (.snap 1)) := by
    norm_num [pass, output, litePart, snapPart, tmpPart, exColumn]
  rw [h7] at e7
  have e8 := (e7.write).write
  refine ⟨_, _, _, ⟨1, 1, 0, 3, 3, 0⟩, e8, ?_, rfl, ?_⟩
  · simp [Op.apply, header]
  · norm_num [outTime, exColumn]
end

/-- A run with steps of 1/10 and output every 1/5: after three steps one snapshot. -/
example : let cfg : Cfg ℚ := ⟨1 / 5, 1 / 5, 1, 0, true, 512, false⟩
    let l : List (Bool × Bool × ℚ) := [(false, false, 1 / 10), (true, false, 2 / 10), (false, true, 3 / 10)]
    Increasing 0 l ∧ StepsWithin cfg.dt_snap 0 l ∧
    (run cfg l (output cfg true (fresh cfg)).1).1.Noutsnap = 1 ∧
    (run cfg l (output cfg true (fresh cfg)).1).1.Noutlitesnap = 1 := by
  refine ⟨⟨by norm_num, by norm_num, by norm_num, trivial⟩, ⟨by norm_num, by norm_num, by norm_num, trivial⟩,
    ?_, ?_⟩ <;> norm_num [run, pass, output, litePart, snapPart, tmpPart, fresh]

example : String.ofList (fileName "RUN".toList "su".toList (.snap 42)) = "RUN.su.00042" := by decide +kernel

end Gandalf
