import Verif.Model.Sinks
import Verif.Model.MpiCalendar

/-!
# Model of the particle exchange of `MpiKDTreeDecomposition::LoadBalancing`
(src/Mpi/MpiKDTreeDecomposition.cpp:407-475)

The processes run the loop over turns concurrently; the state holds for each process the number of
its finished communications (two per turn), its main particle array with `Nhydro`, and for each ordered
pair of processes the messages that have been sent but not received.  The messages of a pair are
received in the order in which they were sent.  A blocking `MPI_Send` may return as soon as the
message is buffered (`Step.send`), or only together with the receive (`Step.meet`); the MPI library
may choose either each time.  `MPI_Probe` followed by `MPI_Recv` from the same rank and tag is one step.

Simplification: the received particles are appended when they are received; in the code this is done after
both communications of the turn (lines 458-465), and the send buffer of the turn is filled before both
(lines 411-420).  As the send buffer only reads places below the first `Nhydro`, this makes no difference.
Growing the main array (lines 446-449) does not change its contents.
-/

set_option autoImplicit false

namespace Gandalf.Mpi

/-- What is fixed during the exchange: number of processes, number of turns, the calendar
(`my_matches[iturn]` of process `p` is `cal p iturn`), the lists `particles_to_transfer[q]` of process `p`,
and the particle arrays with `Nhydro` at the start. -/
structure Exchange (P : Type*) where
  N : ℕ
  T : ℕ
  cal : ℕ → ℕ → ℕ
  transfer : ℕ → ℕ → List ℕ
  arr : ℕ → ℕ → P
  Nhydro : ℕ → ℕ

/-- State of the exchange. -/
structure ExState (P : Type*) where
  /-- finished communications of each process -/
  pc : ℕ → ℕ
  arr : ℕ → ℕ → P
  Nhydro : ℕ → ℕ
  /-- `chan p q`: sent by `p` to `q`, not yet received -/
  chan : ℕ → ℕ → List (List P)

section
variable {P : Type*}

/-- Start of the loop, MpiKDTreeDecomposition.cpp:407. -/
def Exchange.start (E : Exchange P) : ExState P where
  pc _ := 0
  arr := E.arr
  Nhydro := E.Nhydro
  chan _ _ := []

/-- `inode = my_matches[iturn]` in the turn of communication `i`, line 409. -/
def Exchange.partner (E : Exchange P) (p i : ℕ) : ℕ := E.cal p (i / 2)

/-- `send_turn` when process `p` makes its communication `i`, lines 423-455: set to `rank < inode` at the
start of the turn and inverted after the first of the two communications. -/
def Exchange.isSend (E : Exchange P) (p i : ℕ) : Bool :=
  if i % 2 = 0 then decide (p < E.partner p i) else !decide (p < E.partner p i)

/-- Contents of `sendbuffer` for node `q`, lines 411-420. -/
def Exchange.buffer (E : Exchange P) (s : ExState P) (p q : ℕ) : List P :=
  (E.transfer p q).map (s.arr p)

/-- Copy of the receive buffer to the end of the main arrays, lines 458-465. -/
def appendParts (a : ℕ → P) (n : ℕ) (l : List P) : (ℕ → P) × ℕ :=
  l.foldl (fun s x => (Function.update s.1 s.2 x, s.2 + 1)) (a, n)

/-- Process `p` has made one more communication. -/
def ExState.advance (s : ExState P) (p : ℕ) : ExState P :=
  { s with pc := Function.update s.pc p (s.pc p + 1) }

/-- Process `p` receives the message `l`. -/
def ExState.take (s : ExState P) (p : ℕ) (l : List P) : ExState P :=
  { s with
    arr := Function.update s.arr p (appendParts (s.arr p) (s.Nhydro p) l).1
    Nhydro := Function.update s.Nhydro p (appendParts (s.arr p) (s.Nhydro p) l).2 }

/-- New contents of the channel from `p` to `q`. -/
def ExState.setChan (s : ExState P) (p q : ℕ) (l : List (List P)) : ExState P :=
  { s with chan := Function.update s.chan p (Function.update (s.chan p) q l) }

/-- One step of the machine. -/
inductive Step (E : Exchange P) : ExState P → ExState P → Prop
  /-- a send is buffered -/
  | send (s : ExState P) (p : ℕ) (hp : p < E.N) (hi : s.pc p < 2 * E.T)
      (hs : E.isSend p (s.pc p) = true) :
      Step E s ((s.setChan p (E.partner p (s.pc p))
        (s.chan p (E.partner p (s.pc p)) ++ [E.buffer s p (E.partner p (s.pc p))])).advance p)
  /-- the oldest message from the partner is received -/
  | recv (s : ExState P) (p : ℕ) (l : List P) (rest : List (List P)) (hp : p < E.N)
      (hi : s.pc p < 2 * E.T) (hs : E.isSend p (s.pc p) = false)
      (hc : s.chan (E.partner p (s.pc p)) p = l :: rest) :
      Step E s (((s.setChan (E.partner p (s.pc p)) p rest).take p l).advance p)
  /-- an unbuffered send and the matching receive complete together -/
  | meet (s : ExState P) (p q : ℕ) (hp : p < E.N) (hq : q < E.N)
      (hi : s.pc p < 2 * E.T) (hj : s.pc q < 2 * E.T)
      (hs : E.isSend p (s.pc p) = true) (hr : E.isSend q (s.pc q) = false)
      (hpq : E.partner p (s.pc p) = q) (hqp : E.partner q (s.pc q) = p)
      (hc : s.chan p q = []) :
      Step E s (((s.take q (E.buffer s p q)).advance p).advance q)

/-- The steps of an MPI library that never buffers: a process inside `MPI_Send` waits for the receive. -/
inductive SyncStep (E : Exchange P) : ExState P → ExState P → Prop
  | recv (s : ExState P) (p : ℕ) (l : List P) (rest : List (List P)) (hp : p < E.N)
      (hi : s.pc p < 2 * E.T) (hs : E.isSend p (s.pc p) = false)
      (hc : s.chan (E.partner p (s.pc p)) p = l :: rest) :
      SyncStep E s (((s.setChan (E.partner p (s.pc p)) p rest).take p l).advance p)
  | meet (s : ExState P) (p q : ℕ) (hp : p < E.N) (hq : q < E.N)
      (hi : s.pc p < 2 * E.T) (hj : s.pc q < 2 * E.T)
      (hs : E.isSend p (s.pc p) = true) (hr : E.isSend q (s.pc q) = false)
      (hpq : E.partner p (s.pc p) = q) (hqp : E.partner q (s.pc q) = p)
      (hc : s.chan p q = []) :
      SyncStep E s (((s.take q (E.buffer s p q)).advance p).advance q)

/-- `n` steps. -/
inductive Steps (E : Exchange P) : ℕ → ExState P → ExState P → Prop
  | refl (s : ExState P) : Steps E 0 s s
  | tail {n : ℕ} {s t u : ExState P} : Steps E n s t → Step E t u → Steps E (n + 1) s u

/-- Process `p` has left the loop. -/
def Exchange.Finished (E : Exchange P) (s : ExState P) : Prop := ∀ p < E.N, s.pc p = 2 * E.T

/-- `all_particles_to_export` of process `p`, HydroTree.cpp:1477-1491 (the nodes that are not potential
nodes have empty lists). -/
def Exchange.exported (E : Exchange P) (p : ℕ) : List ℕ :=
  ((List.range E.N).filter (· ≠ p)).flatMap (E.transfer p)

/-- Flagging of the transferred particles and `DeleteDeadParticles`,
MpiKDTreeDecomposition.cpp:470-473. -/
def Exchange.remove (E : Exchange P) (isDead : P → Bool) (kill bury : P → P) (s : ExState P) (p : ℕ) :
    (ℕ → P) × ℕ :=
  Sinks.deleteDead isDead bury (s.Nhydro p)
    ((E.exported p).foldl (fun a i => Function.update a i (kill (a i))) (s.arr p))

/-- The particles `0..Nhydro-1`. -/
def parts (a : ℕ → P) (n : ℕ) : List P := (List.range n).map a

end

end Gandalf.Mpi
