import Verif.Proof.GhostSync
import Mathlib.Algebra.BigOperators.Group.List.Lemmas
import Mathlib.Tactic.NormNum

/-!
# C101: copies of particles on other processes
-/

set_option autoImplicit false

namespace Gandalf

open GhostSync

variable {α : Type}

namespace C101

/-- three processes; 0 owns two particles and a periodic image of particle 1; it sends particles 1 and
the image to 1 and particle 0 to 2 -/
def world : World where
  N := 3
  ids p q := if p = 0 ∧ q = 1 then [1, 2] else if p = 0 ∧ q = 2 then [0] else if p = 2 ∧ q = 1 then [0] else []
  start p := if p = 0 then 3 else 1
  nhydro p := if p = 0 then 2 else 1

/-- a state: the number of the particle is its mass -/
def mem : ℕ → ℕ → Part (Gas ℚ) := fun p i =>
  ⟨if p = 0 then (if i = 2 then 1 else i) else if p = 1 then (if i = 1 then 1 else if i = 2 then 2 else 0) else 0,
    true, ⟨i + 1, 0, false⟩⟩

end C101

/-- **C101, copies.** After ghosts have been received or brought up to date, the place of the `j`-th
particle that `p` sends to `q` holds all data this particle has now, is inactive and knows the number of
the particle. -/
theorem C101_copy (W : World) (mem : ℕ → ℕ → Part α) (p q : ℕ) (hp : p < W.N) (hq : q < W.N) (j : ℕ)
    (hj : j < (W.ids p q).length) :
    copyGhosts W mem q (slot W q p j) = ⟨(W.ids p q)[j], false, (mem p (W.ids p q)[j]).dat⟩ := by
  unfold copyGhosts
  rw [if_pos (by unfold slot; omega)]
  have e : slot W q p j - W.start q = (∑ p' ∈ Finset.range p, (W.ids p' q).length) + j := by
    unfold slot; omega
  rw [e, received_get W mem q hq p hp j hj]

example : copyGhosts C101.world C101.mem 1 (slot C101.world 1 0 1) = ⟨2, false, ⟨3, 0, false⟩⟩ := by
  rw [C101_copy C101.world C101.mem 0 1 (by decide) (by decide) 1 (by decide)]
  simp [C101.world, C101.mem]
  norm_num

/-- **C101, rest.** All other places keep what they hold. -/
theorem C101_rest (W : World) (mem : ℕ → ℕ → Part α) (q : ℕ) (hq : q < W.N) (i : ℕ)
    (h : i < W.start q ∨ W.start q + ∑ p ∈ Finset.range W.N, (W.ids p q).length ≤ i) :
    copyGhosts W mem q i = mem q i := by
  unfold copyGhosts
  split
  · next hs =>
    have : (received W mem q)[i - W.start q]? = none := by
      rw [List.getElem?_eq_none]
      rw [received_length W mem q hq]
      omega
    rw [this]
  · rfl

example : copyGhosts C101.world C101.mem 1 0 = C101.mem 1 0 :=
  C101_rest _ _ 1 (by decide) 0 (Or.inl (by decide))

/-- **C101, updates.** When particles have changed and copies are brought up to date, each place still
belongs to the particle it was made for: the assertion of the update holds.  A second update without changes
does nothing. -/
theorem C101_update (W : World) (mem mem' : ℕ → ℕ → Part α) (p q : ℕ) (hp : p < W.N) (hq : q < W.N)
    (j : ℕ) (hj : j < (W.ids p q).length) (hs : ∀ i ∈ W.ids p q, i < W.start p) :
    (copyGhosts W mem' q (slot W q p j)).iorig = (copyGhosts W mem q (slot W q p j)).iorig ∧
    copyGhosts W (copyGhosts W mem) q (slot W q p j) = copyGhosts W mem q (slot W q p j) := by
  rw [C101_copy W mem' p q hp hq j hj, C101_copy W mem p q hp hq j hj,
    C101_copy W (copyGhosts W mem) p q hp hq j hj]
  refine ⟨rfl, ?_⟩
  rw [C101_rest W mem p hp _ (Or.inl (hs _ (List.getElem_mem hj)))]

example : (∀ i ∈ C101.world.ids 0 1, i < C101.world.start 0) := by decide

/-- **C101, owner.** The process found for a copy is the one that sent it. -/
theorem C101_owner (W : World) (q p j : ℕ) (hp : p < W.N) (hj : j < (W.ids p q).length) :
    procOf W q (slot W q p j) = p :=
  procOf_slot W q p j hp hj

example : procOf C101.world 1 (slot C101.world 1 2 0) = 2 := C101_owner _ 1 2 0 (by decide) (by decide)

/-- **C101, own image.** An accreted periodic ghost of the process itself is not such a copy; it would be
sent to process 0, whichever process holds it. -/
theorem C101_owner_periodic_fails (W : World) (hN : 0 < W.N) (q i : ℕ) (hi : i < W.start q) :
    procOf W q i = 0 := by
  unfold procOf
  refine upperBound_eq _ _ 0 (by simpa [ends] using hN) (fun i hi => absurd hi (by omega)) ?_
  simp only [ends, List.getElem_map, List.getElem_range]
  omega

example : procOf C101.world 1 0 = 0 := C101_owner_periodic_fails _ (by decide) 1 0 (by decide)

/-- **C101, return.** When changed copies are sent back, every own particle of every process gets exactly
the changes of its copies and of the copies of its periodic images, each once; nothing else is changed. -/
theorem C101_return (W : World) (upd : Part α → Part α → Part α)
    (hupd : ∀ x y, (upd x y).iorig = y.iorig) (mem : ℕ → ℕ → Part α) (chg : ℕ → List ℕ)
    (h : Synced W mem) (hc : OnlyCopies W chg) (p : ℕ) (hp : p < W.N) (i : ℕ) :
    sendBack W upd mem chg p i = (changed W mem chg p i).foldl (fun y x => upd x y) (mem p i) := by
  unfold sendBack
  rw [updateAll_get _ _ upd hupd, backReceived_filter W mem chg h hc p hp i]

theorem C101.synced : Synced C101.world C101.mem where
  sent := by decide
  images := by
    intro p hp j h1 h2
    change p < 3 at hp
    have : p = 0 ∨ p = 1 ∨ p = 2 := by omega
    rcases this with rfl | rfl | rfl <;> simp [C101.world] at h1 h2
    · have : j = 2 := by omega
      subst this
      decide
    · omega
    · omega
  copies := by decide

theorem C101.only : OnlyCopies C101.world (fun q => if q = 1 then [2, 3] else []) := by
  intro q hq s hs
  change q < 3 at hq
  by_cases h : q = 1
  · subst h
    simp at hs
    rcases hs with rfl | rfl
    · exact ⟨0, by decide, 1, by decide, by decide⟩
    · exact ⟨2, by decide, 0, by decide, by decide⟩
  · simp [h] at hs

example : Synced C101.world C101.mem ∧ OnlyCopies C101.world (fun q => if q = 1 then [2, 3] else []) :=
  ⟨C101.synced, C101.only⟩

/-- **C101, synced.** Receiving or bringing up to date leaves the state that sending back needs. -/
theorem C101_synced (W : World) (mem : ℕ → ℕ → Part α)
    (sent : ∀ p < W.N, ∀ q < W.N, ∀ i ∈ W.ids p q, i < W.start p)
    (images : ∀ p < W.N, ∀ j, W.nhydro p ≤ j → j < W.start p → (mem p j).iorig < j) :
    Synced W (copyGhosts W mem) where
  sent := sent
  images := fun p hp j h1 h2 => by
    rw [C101_rest W mem p hp j (Or.inl h2)]
    exact images p hp j h1 h2
  copies := fun p hp q hq j hj => by rw [C101_copy W mem p q hp hq j hj]

example : Synced C101.world (copyGhosts C101.world C101.mem) :=
  C101_synced _ _ C101.synced.sent C101.synced.images

/-- **C101, dust.** Heating found for copies is added to the heating of their particle, all of it. -/
theorem C101_dust {F : Type} [AddCommMonoid F] (W : World) (mem : ℕ → ℕ → Part (Gas F))
    (chg : ℕ → List ℕ) (h : Synced W mem) (hc : OnlyCopies W chg) (p : ℕ) (hp : p < W.N) (i : ℕ) :
    (sendBack W returnDust mem chg p i).dat.dudt =
      (mem p i).dat.dudt + ((changed W mem chg p i).map fun x => x.dat.dudt).sum ∧
    (sendBack W returnDust mem chg p i).dat.m = (mem p i).dat.m := by
  rw [C101_return W returnDust (fun _ _ => rfl) mem chg h hc p hp i]
  generalize changed W mem chg p i = l
  generalize mem p i = y
  induction l generalizing y with
  | nil => simp
  | cons x l ih =>
    rw [List.foldl_cons, (ih _).1, (ih _).2]
    simp [returnDust, add_assoc]

example : ∃ chg, Synced C101.world C101.mem ∧ OnlyCopies C101.world chg := ⟨_, C101.synced, C101.only⟩

/-- **C101, sinks.** A particle of which one copy has been accreted, in part or wholly, has the mass left to
that copy, and is dead if none is left; a particle without accreted copies is as before. -/
theorem C101_sink {F : Type} [Zero F] [DecidableEq F] (W : World) (mem : ℕ → ℕ → Part (Gas F))
    (chg : ℕ → List ℕ) (h : Synced W mem) (hc : OnlyCopies W chg) (p : ℕ) (hp : p < W.N) (i : ℕ) :
    (changed W mem chg p i = [] → sendBack W returnSink mem chg p i = mem p i) ∧
    ∀ x, changed W mem chg p i = [x] →
      (sendBack W returnSink mem chg p i).dat.m = x.dat.m ∧
      (sendBack W returnSink mem chg p i).dat.dudt = (mem p i).dat.dudt ∧
      (sendBack W returnSink mem chg p i).iorig = (mem p i).iorig ∧
      (x.dat.m = 0 → (sendBack W returnSink mem chg p i).dat.dead = true ∧
        (sendBack W returnSink mem chg p i).active = false) ∧
      (x.dat.m ≠ 0 → (sendBack W returnSink mem chg p i).dat.dead = (mem p i).dat.dead ∧
        (sendBack W returnSink mem chg p i).active = (mem p i).active) := by
  rw [C101_return W returnSink (fun _ _ => rfl) mem chg h hc p hp i]
  refine ⟨fun e => by rw [e]; rfl, fun x e => ?_⟩
  rw [e]
  refine ⟨rfl, rfl, rfl, fun h0 => ?_, fun h0 => ?_⟩ <;> simp [returnSink, h0]

/-- **C101, sinks on meshless particles.** A particle of which one copy has lost `dm` to a sink and keeps some mass
ends as if the sink had taken `dm` from it where it lives; if nothing is left it is dead, inactive, and has no
mass. -/
theorem C101_sink_mfv {n : ℕ} {F : Type} [Ring F] [DecidableEq F] (W : World)
    (mem : ℕ → ℕ → Part (MGas n F)) (chg : ℕ → List ℕ) (h : Synced W mem) (hc : OnlyCopies W chg) (p : ℕ)
    (hp : p < W.N) (i : ℕ) (x : Part (MGas n F)) (e : changed W mem chg p i = [x]) (dm : F)
    (hx : x.dat.m = (mem p i).dat.m - dm) :
    (x.dat.m ≠ 0 → sendBack W returnSinkMfv mem chg p i = accreteMfv dm (mem p i)) ∧
    (x.dat.m = 0 → (sendBack W returnSinkMfv mem chg p i).dat.dead = true ∧
      (sendBack W returnSinkMfv mem chg p i).active = false ∧
      (sendBack W returnSinkMfv mem chg p i).dat.m = 0) := by
  rw [C101_return W returnSinkMfv (fun _ _ => rfl) mem chg h hc p hp i, e]
  have hdm : (mem p i).dat.m - x.dat.m = dm := by rw [hx, sub_sub_cancel]
  simp only [List.foldl_cons, List.foldl_nil, returnSinkMfv, accreteMfv, hdm]
  rw [hx]
  refine ⟨fun h0 => ?_, fun h0 => ?_⟩
  · rw [if_neg h0, if_neg h0]
  · rw [if_pos h0, if_pos h0]
    exact ⟨rfl, rfl, h0⟩

/-- a meshless state in the same world: the copy at place 2 of process 1 has lost 1/4 -/
def C101.mmem : ℕ → ℕ → Part (MGas 1 ℚ) := fun p i =>
  ⟨(C101.mem p i).iorig, true, ⟨if p = 1 then 3 / 4 else 1, fun _ => 2, 0, fun _ => 0, false⟩⟩

theorem C101.msynced : Synced C101.world C101.mmem :=
  ⟨C101.synced.sent, C101.synced.images, C101.synced.copies⟩

theorem C101.mchanged :
    changed C101.world C101.mmem (fun q => if q = 1 then [2, 3] else []) 0 1 = [C101.mmem 1 2] := by
  rw [← backReceived_filter _ _ _ C101.msynced C101.only 0 (by decide) 1]
  rfl

example : sendBack C101.world returnSinkMfv C101.mmem (fun q => if q = 1 then [2, 3] else []) 0 1 =
    accreteMfv (1 / 4) (C101.mmem 0 1) :=
  (C101_sink_mfv C101.world C101.mmem _ C101.msynced C101.only 0 (by decide) 1 _ C101.mchanged (1 / 4)
    (by norm_num [C101.mmem])).1 (by norm_num [C101.mmem])

/-- the copy of the image of particle 1 on process 1 is the one changed copy of particle 1 -/
theorem C101.changed_one :
    changed C101.world C101.mem (fun q => if q = 1 then [2, 3] else []) 0 1 = [C101.mem 1 2] := by
  rw [← backReceived_filter _ _ _ C101.synced C101.only 0 (by decide) 1]
  rfl

example : (sendBack C101.world returnSink C101.mem (fun q => if q = 1 then [2, 3] else []) 0 1).dat.m = 3 := by
  rw [((C101_sink C101.world C101.mem _ C101.synced C101.only 0 (by decide) 1).2 _ C101.changed_one).1]
  simp [C101.mem]
  norm_num

/-- **C101, images fail.** If two images of a particle are accreted in part in the same step, only the last is
taken off: the mass of the other is in its sink and stays in the particle. -/
theorem C101_sink_twice_fails {F : Type} [Zero F] [DecidableEq F] (W : World)
    (mem : ℕ → ℕ → Part (Gas F)) (chg : ℕ → List ℕ) (h : Synced W mem) (hc : OnlyCopies W chg) (p : ℕ)
    (hp : p < W.N) (i : ℕ) (x y : Part (Gas F)) (e : changed W mem chg p i = [x, y]) :
    (sendBack W returnSink mem chg p i).dat.m = y.dat.m := by
  rw [C101_return W returnSink (fun _ _ => rfl) mem chg h hc p hp i, e]
  rfl

/-- **C101, two processes fail.** The mass left to a copy overwrites what the owner's own sink has left: a particle
swallowed where it lives gets mass again though it is dead. -/
theorem C101_sink_own_fails {F : Type} [Zero F] [DecidableEq F] (W : World)
    (mem : ℕ → ℕ → Part (Gas F)) (chg : ℕ → List ℕ) (h : Synced W mem) (hc : OnlyCopies W chg) (p : ℕ)
    (hp : p < W.N) (i : ℕ) (x : Part (Gas F)) (e : changed W mem chg p i = [x]) (hx : x.dat.m ≠ 0)
    (hd : (mem p i).dat.dead = true) :
    (sendBack W returnSink mem chg p i).dat.dead = true ∧ (sendBack W returnSink mem chg p i).dat.m ≠ 0 := by
  obtain ⟨h1, -, -, -, h5⟩ := (C101_sink W mem chg h hc p hp i).2 x e
  exact ⟨by rw [(h5 hx).1, hd], by rw [h1]; exact hx⟩

/-- particle 1 of process 0 swallowed by a sink there, half of its copy taken by another sink -/
def C101.omem : ℕ → ℕ → Part (Gas ℚ) := fun p i =>
  ⟨(C101.mem p i).iorig, true, ⟨if p = 0 then 0 else 1 / 2, 0, p = 0⟩⟩

example : Synced C101.world C101.omem ∧
    changed C101.world C101.omem (fun q => if q = 1 then [2, 3] else []) 0 1 = [C101.omem 1 2] ∧
    (C101.omem 1 2).dat.m ≠ 0 ∧ (C101.omem 0 1).dat.dead = true := by
  have hs : Synced C101.world C101.omem := ⟨C101.synced.sent, C101.synced.images, C101.synced.copies⟩
  refine ⟨hs, ?_, by norm_num [C101.omem], rfl⟩
  rw [← backReceived_filter _ _ _ hs C101.only 0 (by decide) 1]
  rfl

theorem C101.only_both : OnlyCopies C101.world (fun q => if q = 1 then [1, 2] else []) := by
  intro q hq s hs
  by_cases h : q = 1
  · subst h
    simp at hs
    rcases hs with rfl | rfl
    · exact ⟨0, by decide, 0, by decide, by decide⟩
    · exact ⟨0, by decide, 1, by decide, by decide⟩
  · simp [h] at hs

example : changed C101.world C101.mem (fun q => if q = 1 then [1, 2] else []) 0 1 =
    [C101.mem 1 1, C101.mem 1 2] := by
  rw [← backReceived_filter _ _ _ C101.synced C101.only_both 0 (by decide) 1]
  rfl

/-- **C101, noted.** Without periodic ghosts, every copy but the first is noted when a sink accretes it; the
first, at place `Nhydro`, is not, so that its owner never hears of it. -/
theorem C101_noted (W : World) (q : ℕ) (h0 : W.start q = W.nhydro q) (p j : ℕ) :
    noted (W.nhydro q) (slot W q p j) = true ↔
      ¬((∑ p' ∈ Finset.range p, (W.ids p' q).length) = 0 ∧ j = 0) := by
  unfold noted slot
  rw [decide_eq_true_eq]
  omega

example : noted (C101.world.nhydro 1) (slot C101.world 1 0 1) = true ∧
    noted (C101.world.nhydro 1) (slot C101.world 1 0 0) = false :=
  ⟨(C101_noted C101.world 1 rfl 0 1).mpr (by decide), by decide⟩

/-- **C101, first copy fails.** A copy wholly accreted whose owner keeps it alive with all of its mass. -/
theorem C101_first_fails : ∃ (W : World) (mem : ℕ → ℕ → Part (Gas ℚ)) (s : ℕ), Synced W mem ∧
    CopyOf W mem 0 0 1 s ∧ (mem 1 s).dat.m = 0 ∧
    ∀ chg : ℕ → List ℕ, (∀ q, chg q = (if q = 1 then [s] else []).filter (noted (W.nhydro q))) →
      (sendBack W returnSink mem chg 0 0).dat.m = 1 := by
  refine ⟨⟨2, fun p q => if p = 0 ∧ q = 1 then [0] else [], fun _ => 1, fun _ => 1⟩,
    fun p i => ⟨0, true, ⟨if p = 0 then 1 else 0, 0, false⟩⟩, 1, ⟨by decide, ?_, by decide⟩, ?_, ?_, ?_⟩
  · intro p hp j h1 h2
    change 1 ≤ j at h1
    change j < 1 at h2
    omega
  · exact ⟨0, by decide, by decide, .own 0 (by decide)⟩
  · rfl
  · intro chg hchg
    have : chg = fun _ => [] := by
      funext q
      rw [hchg q]
      by_cases hq : q = 1 <;> simp [hq, noted]
    subst this
    rfl

end Gandalf
