import Verif.Common
import Verif.Model.Diagnostics
import Verif.Spec.Totals
import Mathlib.Algebra.BigOperators.Ring.List
import Mathlib.Algebra.Order.BigOperators.Group.List

/-! Lemmas for C62 -/

set_option autoImplicit false
set_option linter.unusedSectionVars false

namespace Gandalf.Diag

open Totals

variable {n : ℕ} {α : Type} [Field α] [LinearOrder α]

/-- the living -/
def live (l : List (Gas n α)) : List (Gas n α) := l.filter fun p => !p.dead

def gasBody (p : Gas n α) : Body n α := ⟨p.m, p.r, p.v⟩
def starBody (p : Star n α) : Body n α := ⟨p.m, p.r, p.v⟩

/-- the stars a process counts -/
def counted (mine : Option (Box n α)) (s : Star n α) : Bool :=
  match mine with | none => true | some b => particleInBox s.r b

/-- the sinks a process counts -/
def countedSink (mine : Option (Box n α)) (stars : List (Star n α)) (s : Sink α) : Bool :=
  match mine with
  | none => true
  | some b => match stars[s.istar]? with | none => false | some st => particleInBox st.r b

/-- the bodies that count -/
def bodies (mine : Option (Box n α)) (s : Sys n α) : List (Body n α) :=
  (live s.gas).map gasBody ++ (s.stars.filter (counted mine)).map starBody

theorem sum_map_sub' {β : Type} (l : List β) (f g : β → α) :
    (l.map fun b => f b - g b).sum = (l.map f).sum - (l.map g).sum := by
  induction l with
  | nil => simp
  | cons b l ih => simp only [List.map_cons, List.sum_cons, ih]; ring

theorem live_cons (p : Gas n α) (l : List (Gas n α)) :
    live (p :: l) = if p.dead then live l else p :: live l := by
  unfold live; rw [List.filter_cons]; cases p.dead <;> simp

theorem foldGas (l : List (Gas n α)) : ∀ d : Values n α,
    l.foldl addGas d =
      { d with
        Ndead := d.Ndead + (l.length - (live l).length)
        mtot := d.mtot + ((live l).map fun p => p.m).sum
        ketot := d.ketot + ((live l).map fun p => p.m * ∑ k, p.v k * p.v k).sum
        utot := d.utot + ((live l).map fun p => p.m * p.u).sum
        gpetot := d.gpetot - ((live l).map fun p => p.m * p.gpot).sum
        rcom := fun k => d.rcom k + ((live l).map fun p => p.m * p.r k).sum
        vcom := fun k => d.vcom k + ((live l).map fun p => p.m * p.v k).sum
        mom := fun k => d.mom k + ((live l).map fun p => p.m * p.v k).sum
        force := fun k => d.force k + ((live l).map fun p => p.m * p.a k).sum } := by
  induction l with
  | nil => intro d; simp [live]
  | cons p l ih =>
    intro d
    rw [List.foldl_cons, ih, live_cons]
    unfold addGas
    have hl : (live l).length ≤ l.length := List.length_filter_le _ _
    cases p.dead
    · simp [add_assoc, sub_sub]
    · simp; omega

theorem foldTurn (l : List (Gas n α)) : ∀ d : Values n α,
    l.foldl turnGas d =
      { d with angmom := fun j => d.angmom j + ((live l).map fun p => turn n p.m p.r p.v j).sum } := by
  induction l with
  | nil => intro d; simp [live]
  | cons p l ih =>
    intro d
    rw [List.foldl_cons, ih, live_cons]
    unfold turnGas
    cases p.dead
    · simp [add_assoc]
    · simp

theorem skip_star (mine : Option (Box n α)) (p : Star n α) : skipStar mine p = !counted mine p := by
  unfold counted skipStar; cases mine <;> rfl

theorem skip_sink (mine : Option (Box n α)) (stars : List (Star n α)) (p : Sink α) :
    skipSink mine stars p = !countedSink mine stars p := by
  unfold countedSink skipSink
  cases mine with
  | none => rfl
  | some b => simp only []; cases stars[p.istar]? <;> rfl

theorem foldStar (mine : Option (Box n α)) (l : List (Star n α)) : ∀ d : Values n α,
    l.foldl (addStar mine) d =
      { d with
        mtot := d.mtot + ((l.filter (counted mine)).map fun p => p.m).sum
        ketot := d.ketot + ((l.filter (counted mine)).map fun p => p.m * ∑ k, p.v k * p.v k).sum
        gpetot := d.gpetot - ((l.filter (counted mine)).map fun p => p.m * p.gpot).sum
        rcom := fun k => d.rcom k + ((l.filter (counted mine)).map fun p => p.m * p.r k).sum
        vcom := fun k => d.vcom k + ((l.filter (counted mine)).map fun p => p.m * p.v k).sum
        mom := fun k => d.mom k + ((l.filter (counted mine)).map fun p => p.m * p.v k).sum
        force := fun k => d.force k + ((l.filter (counted mine)).map fun p => p.m * p.a k).sum
        angmom := fun j => d.angmom j + ((l.filter (counted mine)).map fun p => turn n p.m p.r p.v j).sum } := by
  induction l with
  | nil => intro d; simp
  | cons p l ih =>
    intro d
    rw [List.foldl_cons, ih, List.filter_cons]
    unfold addStar
    rw [skip_star]
    cases counted mine p
    · simp
    · simp [add_assoc, sub_sub]

theorem foldSink (mine : Option (Box n α)) (stars : List (Star n α)) (l : List (Sink α)) : ∀ d : Values n α,
    l.foldl (addSink mine stars) d =
      { d with angmom := fun j => d.angmom j + ((l.filter (countedSink mine stars)).map fun p => p.angmom j).sum } := by
  induction l with
  | nil => intro d; simp
  | cons p l ih =>
    intro d
    rw [List.foldl_cons, ih, List.filter_cons]
    unfold addSink
    rw [skip_sink]
    cases countedSink mine stars p
    · simp
    · simp [add_assoc]

theorem turn_eq (hn : n ≤ 3) (m : α) (r v : Vec n α) (j : Fin 3) :
    turn n m r v j = m * (crossProduct (inSpace r) (inSpace v)) j := by
  rw [cross_apply]
  interval_cases n <;> fin_cases j <;> simp [turn, inSpace]

/-- sums over the bodies -/
theorem sum_bodies (mine : Option (Box n α)) (s : Sys n α) (f : Body n α → α) :
    ((bodies mine s).map f).sum = ((live s.gas).map fun p => f (gasBody p)).sum +
      ((s.stars.filter (counted mine)).map fun p => f (starBody p)).sum := by
  unfold bodies
  rw [List.map_append, List.sum_append, List.map_map, List.map_map]; rfl

/-- the values -/
theorem diagnose_eq (hn : n ≤ 3) (hf sg : Bool) (mine : Option (Box n α)) (s : Sys n α) :
    let d := diagnose hf sg mine s
    d.Nhydro = s.gas.length ∧ d.Nstar = s.stars.length ∧ d.Ndead = s.gas.length - (live s.gas).length ∧
    d.mtot = mass (bodies mine s) ∧
    d.ketot = kinetic (bodies mine s) ∧
    d.utot = ((live s.gas).map fun p => p.m * p.u).sum ∧
    d.gpetot = -(((live s.gas).map fun p => p.m * p.gpot).sum +
      ((s.stars.filter (counted mine)).map fun p => p.m * p.gpot).sum) / 2 ∧
    (∀ k, d.rcom k = if 0 < d.mtot then ((bodies mine s).map fun b => b.m * b.r k).sum / d.mtot else
      ((bodies mine s).map fun b => b.m * b.r k).sum) ∧
    (∀ k, d.vcom k = if 0 < d.mtot then momentum (bodies mine s) k / d.mtot else momentum (bodies mine s) k) ∧
    (∀ k, d.mom k = momentum (bodies mine s) k) ∧
    (∀ k, d.force k = ((live s.gas).map fun p => p.m * p.a k).sum +
      ((s.stars.filter (counted mine)).map fun p => p.m * p.a k).sum) ∧
    (∀ j, d.angmom j = angular (bodies mine s) j +
      ((s.sinks.filter (countedSink mine s.stars)).map fun p => p.angmom j).sum) ∧
    d.Etot = d.ketot + (if hf then d.utot else 0) + (if sg ∨ s.stars ≠ [] then d.gpetot else 0) := by
  have hk : ∀ (m : α) (v : Vec n α), m * (∑ k, v k ^ 2) / 2 = (m * ∑ k, v k * v k) * (1 / 2) := by
    intro m v; rw [mul_one_div]; simp only [pow_two]
  simp only [diagnose, foldGas, foldTurn, foldStar, foldSink, finish, zero, mass, kinetic, momentum, angular, sum_bodies]
  refine ⟨trivial, trivial, by simp, by simp [gasBody, starBody], ?_, by simp, ?_, ?_, ?_, ?_, ?_, ?_, ?_⟩
  · simp only [gasBody, starBody, hk, List.sum_map_mul_right]; ring
  · simp; ring
  · intro k
    simp only [gasBody, starBody, Pi.zero_apply, zero_add]
    split_ifs <;> rfl
  · intro k
    simp only [gasBody, starBody, Pi.zero_apply, zero_add]
    split_ifs <;> rfl
  · intro k; simp [gasBody, starBody]
  · intro k; simp
  · intro j
    simp only [turn_eq hn, gasBody, starBody, Pi.zero_apply, zero_add]
  · have h0 : (0 < s.stars.length) ↔ s.stars ≠ [] := List.length_pos_iff
    have hd : (sg || decide (0 < s.stars.length)) = true ↔ (sg = true ∨ s.stars ≠ []) := by simp [h0]
    cases hf
    · by_cases h : sg = true ∨ s.stars ≠ []
      · rw [if_pos (hd.mpr h), if_pos h]; simp
      · rw [if_neg (fun x => h (hd.mp x)), if_neg h]; simp
    · by_cases h : sg = true ∨ s.stars ≠ []
      · rw [if_pos (hd.mpr h), if_pos h]; simp
      · rw [if_neg (fun x => h (hd.mp x)), if_neg h]; simp

/-- if every element belongs to one class, the sums over the classes add up -/
theorem sum_classes {β γ : Type} (cls : γ → β → Bool) (rs : List γ) (f : β → α) (xs : List β)
    (h : ∀ x ∈ xs, (rs.countP fun r => cls r x) = 1) :
    (rs.map fun r => ((xs.filter (cls r)).map f).sum).sum = (xs.map f).sum := by
  induction xs with
  | nil => simp
  | cons x xs ih =>
    have e : (rs.map fun r => (((x :: xs).filter (cls r)).map f).sum) =
        rs.map fun r => (if cls r x then f x else 0) + ((xs.filter (cls r)).map f).sum := by
      refine List.map_congr_left fun r _ => ?_
      rw [List.filter_cons]; cases cls r x <;> simp
    have e1 : ∀ l : List γ, (l.map fun r => if cls r x then f x else 0).sum = (l.countP fun r => cls r x) * f x := by
      intro l
      induction l with
      | nil => simp
      | cons r l ih =>
        rw [List.map_cons, List.sum_cons, ih, List.countP_cons]
        cases cls r x <;> simp; ring
    rw [e, List.sum_map_add, e1, h x (by simp), ih fun y hy => h y (by simp [hy])]
    simp

/-- what the root has after the messages -/
theorem receive_fold (l : List (Values n α)) : ∀ d : Values n α,
    l.foldl receive d =
      { d with
        Nhydro := d.Nhydro + (l.map fun x => x.Nhydro).sum
        Etot := d.Etot + (l.map fun x => x.Etot).sum
        utot := d.utot + (l.map fun x => x.utot).sum
        ketot := d.ketot + (l.map fun x => x.ketot).sum
        gpetot := d.gpetot + (l.map fun x => x.gpetot).sum
        mtot := d.mtot + (l.map fun x => x.mtot).sum
        mom := fun k => d.mom k + (l.map fun x => x.mom k).sum
        angmom := fun k => d.angmom k + (l.map fun x => x.angmom k).sum
        force := fun k => d.force k + (l.map fun x => x.force k).sum
        rcom := fun k => d.rcom k + (l.map fun x => x.mtot * x.rcom k).sum
        vcom := fun k => d.vcom k + (l.map fun x => x.mtot * x.vcom k).sum } := by
  induction l with
  | nil => intro d; simp
  | cons x l ih => intro d; rw [List.foldl_cons, ih]; simp [receive, add_assoc]

end Gandalf.Diag
