import Verif.Model.Output
import Mathlib.Algebra.Order.Field.Basic

/-! Runs of the output and restart model, and what is required of them. -/

set_option autoImplicit false

namespace Gandalf.Output

variable {α : Type*} [Field α] [LinearOrder α]

/-- All states of a run seen as a machine: `Exec crashes s ops d` – the current call has computed the new
state `s`, still has the file operations `ops` to do, and the disk is `d`. A crash loses everything but the disk; it may come before
any file operation; the restarted program reads the disk. -/
inductive Exec (cfg : Cfg α) (crashes : Bool) : St α → List (Op α) → Disk α → Prop
  | boot (resync : Bool) :
      Exec cfg crashes (output cfg resync (fresh cfg)).1 (output cfg resync (fresh cfg)).2.1 fun _ => none
  | write (s : St α) (o : Op α) (ops : List (Op α)) (d : Disk α) (h : Exec cfg crashes s (o :: ops) d) :
      Exec cfg crashes s ops (o.apply d)
  | pass (s : St α) (d : Disk α) (h : Exec cfg crashes s [] d) (resync kill : Bool) (t' : α)
      (ht : s.t ≤ t') :
      Exec cfg crashes (pass cfg resync kill t' s).1 (pass cfg resync kill t' s).2 d
  | crash (s s1 : St α) (ops : List (Op α)) (d : Disk α) (h : Exec cfg crashes s ops d)
      (hc : crashes = true) (hr : resume cfg d = .ok s1) (resync : Bool) :
      Exec cfg crashes (output cfg resync s1).1 (output cfg resync s1).2.1 d
  | crashEarly (s : St α) (ops : List (Op α)) (d : Disk α) (h : Exec cfg crashes s ops d)
      (hc : crashes = true) (hr : resume cfg d = .fromStart) (resync : Bool) :
      Exec cfg crashes (output cfg resync (fresh cfg)).1 (output cfg resync (fresh cfg)).2.1 d

/-- A list of passes without crash: final state and all file operations. -/
def run (cfg : Cfg α) : List (Bool × Bool × α) → St α → St α × List (Op α)
  | [], s => (s, [])
  | (resync, kill, t') :: l, s =>
    let p := pass cfg resync kill t' s
    let r := run cfg l p.1
    (r.1, p.2 ++ r.2)

/-- Numbers of the snapshots in a list of file operations. -/
def snapNumbers : List (Op α) → List ℕ
  | [] => []
  | .opened (.snap k) :: l => k :: snapNumbers l
  | _ :: l => snapNumbers l

/-- Numbers of the lite snapshots in a list of file operations. -/
def liteNumbers : List (Op α) → List ℕ
  | [] => []
  | .opened (.lite k) :: l => k :: liteNumbers l
  | _ :: l => liteNumbers l

/-- The `k`-th output time, `k = 1, 2, …` -/
def outTime (first dt : α) (k : ℕ) : α := first + (k - 1) * dt

/-- the times of a list of passes increase from `t` on -/
def Increasing : α → List (Bool × Bool × α) → Prop
  | _, [] => True
  | t, (_, _, t') :: l => t ≤ t' ∧ Increasing t' l

/-- no pass is longer than `dt` -/
def StepsWithin (dt : α) : α → List (Bool × Bool × α) → Prop
  | _, [] => True
  | t, (_, _, t') :: l => t' ≤ t + dt ∧ StepsWithin dt t' l

end Gandalf.Output
