import Verif.Proof.Diagnostics
import Mathlib.Algebra.BigOperators.Intervals

/-! # C62: the diagnostics are the totals of the system -/

set_option autoImplicit false
set_option linter.unusedSectionVars false

namespace Gandalf
open Diag Totals

variable {n : ℕ} {α : Type} [Field α] [LinearOrder α]

/-- the bodies of a system: the gas that is not dead, and the stars -/
def Diag.Sys.bodies (s : Sys n α) : List (Body n α) :=
  (s.gas.filter fun p => !p.dead).map (fun p => ⟨p.m, p.r, p.v⟩) ++ s.stars.map (fun p => ⟨p.m, p.r, p.v⟩)

/-- the potentials of the same bodies, in the same order -/
def Diag.Sys.gpots (s : Sys n α) : List α :=
  (s.gas.filter fun p => !p.dead).map (fun p => p.gpot) ++ s.stars.map (fun p => p.gpot)

/-- their accelerations -/
def Diag.Sys.accs (s : Sys n α) : List (Vec n α) :=
  (s.gas.filter fun p => !p.dead).map (fun p => p.a) ++ s.stars.map (fun p => p.a)

theorem Diag.bodies_none (s : Sys n α) : bodies none s = s.bodies := by
  unfold bodies Sys.bodies live
  rw [show s.stars.filter (counted none) = s.stars from List.filter_eq_self.mpr fun _ _ => rfl]
  rfl

/-- Without MPI: the counts, mass, momentum, kinetic energy, thermal energy, angular momentum (with that of the sinks)
are those of the system; the centre of mass balances it; the total energy is the sum of the parts. -/
theorem C62_totals [IsStrictOrderedRing α] (hn : n ≤ 3) (hf sg : Bool) (s : Sys n α) :
    let d := diagnose hf sg none s
    d.Nhydro = s.gas.length ∧ d.Nstar = s.stars.length ∧ d.Ndead = s.gas.countP (fun p => p.dead) ∧
    d.mtot = mass s.bodies ∧ d.mom = momentum s.bodies ∧ d.ketot = kinetic s.bodies ∧
    d.utot = ((s.gas.filter fun p => !p.dead).map fun p => p.m * p.u).sum ∧
    (∀ j, d.angmom j = angular s.bodies j + (s.sinks.map fun p => p.angmom j).sum) ∧
    (∀ k, d.force k = (List.zipWith (fun b a => b.m * a k) s.bodies s.accs).sum) ∧
    d.gpetot = -(List.zipWith (fun b g => b.m * g) s.bodies s.gpots).sum / 2 ∧
    (0 < mass s.bodies → IsCentre s.bodies d.rcom ∧ IsDrift s.bodies d.vcom) ∧
    d.Etot = d.ketot + (if hf then d.utot else 0) + (if sg ∨ s.stars ≠ [] then d.gpetot else 0) := by
  obtain ⟨h1, h2, h3, h4, h5, h6, h7, h8, h9, h10, h11, h12, h13⟩ := diagnose_eq hn hf sg none s
  have hst : s.stars.filter (counted none) = s.stars := List.filter_eq_self.mpr fun _ _ => rfl
  have hsk : s.sinks.filter (countedSink none s.stars) = s.sinks := List.filter_eq_self.mpr fun _ _ => rfl
  rw [hst] at h7 h11
  simp only [hsk, bodies_none] at h4 h5 h8 h9 h10 h12
  have hzip : ∀ {β : Type} (f : Body n α → β → α) (l : List (Gas n α)) (l' : List (Star n α)) (g : Gas n α → β) (g' : Star n α → β),
      (List.zipWith f (l.map (fun p => (⟨p.m, p.r, p.v⟩ : Body n α)) ++ l'.map (fun p => ⟨p.m, p.r, p.v⟩))
        (l.map g ++ l'.map g')).sum = (l.map fun p => f ⟨p.m, p.r, p.v⟩ (g p)).sum +
          (l'.map fun p => f ⟨p.m, p.r, p.v⟩ (g' p)).sum := by
    intro β f l l' g g'
    rw [List.zipWith_append (by simp), List.sum_append]
    simp [List.zipWith_map, List.zipWith_self]
  refine ⟨h1, h2, ?_, h4, funext h10, h5, h6, h12, ?_, ?_, ?_, h13⟩
  · rw [h3]
    have := List.length_eq_countP_add_countP (fun p : Gas n α => p.dead) (l := s.gas)
    have e : (live s.gas).length = s.gas.countP (fun p => !p.dead) := by
      unfold live; rw [List.countP_eq_length_filter]
    have e2 : s.gas.countP (fun p => !p.dead) = s.gas.countP (fun a => decide ¬a.dead = true) := by
      congr 1; funext p; cases p.dead <;> rfl
    omega
  · intro k
    rw [h11]
    unfold Sys.bodies Sys.accs
    rw [hzip]; rfl
  · rw [h7]
    unfold Sys.bodies Sys.gpots
    rw [hzip]; rfl
  · intro hm
    have hne := hm.ne'
    have key : ∀ (f : Body n α → α) (c : α), c = (s.bodies.map fun b => b.m * f b).sum / mass s.bodies →
        (s.bodies.map fun b => b.m * (f b - c)).sum = 0 := by
      intro f c hc
      have : (s.bodies.map fun b => b.m * (f b - c)).sum =
          (s.bodies.map fun b => b.m * f b).sum - mass s.bodies * c := by
        unfold mass
        rw [← List.sum_map_mul_right, ← sum_map_sub']
        congr 1; refine List.map_congr_left fun b _ => ?_; ring
      rw [this, hc]; field_simp; ring
    refine ⟨fun k => ?_, fun k => ?_⟩
    · refine key (fun b => b.r k) _ ?_
      rw [h8, if_pos (by rw [h4]; exact hm), h4]
    · refine key (fun b => b.v k) _ ?_
      rw [h9, if_pos (by rw [h4]; exact hm), h4]; rfl

/-- The gravitational energy counts each pair once, if the potential of each body is the sum over the others. -/
theorem C62_pair_energy [IsStrictOrderedRing α] (hn : n ≤ 3) (hf sg : Bool) (s : Sys n α)
    (phi : Fin s.bodies.length → Fin s.bodies.length → α) (hsym : ∀ i j, phi i j = phi j i)
    (hg : ∀ (i : Fin s.bodies.length) (h : i.val < s.gpots.length),
      s.gpots[i.val] = ∑ j, if j = i then 0 else (s.bodies[j]).m * phi i j) :
    (diagnose hf sg none s).gpetot = -pairs fun i j => (s.bodies[i]).m * (s.bodies[j]).m * phi i j := by
  have h := (C62_totals hn hf sg s).2.2.2.2.2.2.2.2.2.1
  rw [h]
  have hlen : s.gpots.length = s.bodies.length := by simp [Sys.gpots, Sys.bodies]
  have e : (List.zipWith (fun b g => b.m * g) s.bodies s.gpots).sum =
      ∑ i : Fin s.bodies.length, (s.bodies[i]).m * ∑ j, if j = i then 0 else (s.bodies[j]).m * phi i j := by
    have : List.zipWith (fun b g => b.m * g) s.bodies s.gpots =
        List.ofFn fun i : Fin s.bodies.length => (s.bodies[i]).m * ∑ j, if j = i then 0 else (s.bodies[j]).m * phi i j := by
      refine List.ext_getElem (by simp [hlen]) fun i h1 h2 => ?_
      have hi : i < s.bodies.length := by simpa [hlen] using h1
      rw [List.getElem_zipWith, List.getElem_ofFn]
      rw [hg ⟨i, hi⟩ (by rw [hlen]; exact hi)]
      rfl
    rw [this, List.sum_ofFn]
  rw [e]
  set f : Fin s.bodies.length → Fin s.bodies.length → α := fun i j => (s.bodies[i]).m * (s.bodies[j]).m * phi i j with hfdef
  have hfs : ∀ i j, f i j = f j i := by intro i j; simp only [hfdef, hsym i j]; ring
  have e2 : ∑ i, (s.bodies[i]).m * ∑ j, (if j = i then 0 else (s.bodies[j]).m * phi i j) =
      ∑ i, ∑ j, ((if i < j then f i j else 0) + (if j < i then f j i else 0)) := by
    refine Finset.sum_congr rfl fun i _ => ?_
    rw [Finset.mul_sum]
    refine Finset.sum_congr rfl fun j _ => ?_
    rcases lt_trichotomy i j with hij | rfl | hij
    · rw [if_neg hij.ne', if_pos hij, if_neg (not_lt.mpr hij.le), add_zero]; simp only [hfdef]; ring
    · simp
    · rw [if_neg hij.ne, if_neg (not_lt.mpr hij.le), if_pos hij, zero_add, ← hfs i j]; simp only [hfdef]; ring
  rw [e2]
  have e3 : ∑ i, ∑ j, ((if i < j then f i j else 0) + (if j < i then f j i else 0)) = 2 * pairs f := by
    simp only [Finset.sum_add_distrib]
    rw [Finset.sum_comm (f := fun i j => if j < i then f j i else 0)]
    unfold pairs; ring
  rw [e3]
  ring

/-- a body seen from a frame at `c` moving with `w` -/
def Totals.Body.shift (c w : Vec n α) (b : Body n α) : Body n α :=
  ⟨b.m, fun k => b.r k - c k, fun k => b.v k - w k⟩

/-- `SetComFrame` puts the system into the frame of its centre of mass: all bodies are shifted alike, the new centre
rests at the origin, the momentum is zero, and kinetic energy and angular momentum fall by those of the total mass moving
with the old centre. -/
theorem C62_com_frame [IsStrictOrderedRing α] (hn : n ≤ 3) (hf sg : Bool) (s : Sys n α) (hm : 0 < mass s.bodies) :
    ∃ c w, IsCentre s.bodies c ∧ IsDrift s.bodies w ∧
      (setComFrame hf sg s).bodies = s.bodies.map (Body.shift c w) ∧
      (let d := diagnose hf sg none s
       let d' := diagnose hf sg none (setComFrame hf sg s)
       d'.rcom = 0 ∧ d'.vcom = 0 ∧ d'.mom = 0 ∧ d'.mtot = d.mtot ∧ d'.utot = d.utot ∧ d'.gpetot = d.gpetot ∧
       d'.ketot = d.ketot - d.mtot * (∑ k, w k ^ 2) / 2 ∧
       ∀ j, d'.angmom j = d.angmom j - d.mtot * (crossProduct (inSpace c) (inSpace w)) j) := by
  set s' := setComFrame hf sg s with hs'
  set c := (diagnose hf sg none s).rcom with hc
  set w := (diagnose hf sg none s).vcom with hw
  have T := C62_totals hn hf sg s
  have T' := C62_totals hn hf sg s'
  obtain ⟨-, -, -, t4, t5, t6, t7, t8, -, t10, t11, -⟩ := T
  obtain ⟨-, -, -, t4', t5', t6', t7', t8', -, t10', t11', -⟩ := T'
  obtain ⟨hC, hD⟩ := t11 hm
  have hgas : s'.gas = s.gas.map fun p =>
      { p with
        r := fun k => p.r k - c k
        v := fun k => p.v k - w k } := rfl
  have hst : s'.stars = s.stars.map fun p =>
      { p with
        r := fun k => p.r k - c k
        v := fun k => p.v k - w k } := rfl
  have hsk : s'.sinks = s.sinks := rfl
  have hlive : (s'.gas.filter fun p => !p.dead) = (s.gas.filter fun p => !p.dead).map fun p =>
      { p with
        r := fun k => p.r k - c k
        v := fun k => p.v k - w k } := by
    rw [hgas, List.filter_map]; rfl
  have hb : s'.bodies = s.bodies.map (Body.shift c w) := by
    unfold Sys.bodies
    rw [hlive, hst, List.map_append, List.map_map, List.map_map, List.map_map, List.map_map]; rfl
  have hgp : s'.gpots = s.gpots := by
    unfold Sys.gpots
    rw [hlive, hst, List.map_map, List.map_map]; rfl
  have hmass : mass s'.bodies = mass s.bodies := by
    unfold mass; rw [hb, List.map_map]; rfl
  have hmom : momentum s'.bodies = 0 := by
    funext k
    unfold momentum; rw [hb, List.map_map]; exact hD k
  have hmoment : ∀ k, (s'.bodies.map fun b => b.m * b.r k).sum = 0 := by
    intro k; rw [hb, List.map_map]; exact hC k
  -- sums with the centre
  have sR : ∀ k, (s.bodies.map fun b => b.m * b.r k).sum = mass s.bodies * c k := by
    intro k
    have := hC k
    have e : (s.bodies.map fun b => b.m * (b.r k - c k)).sum =
        (s.bodies.map fun b => b.m * b.r k).sum - mass s.bodies * c k := by
      unfold mass
      rw [← List.sum_map_mul_right, ← sum_map_sub']
      congr 1; refine List.map_congr_left fun b _ => ?_; ring
    rw [e] at this; linarith
  have sV : ∀ k, (s.bodies.map fun b => b.m * b.v k).sum = mass s.bodies * w k := by
    intro k
    have := hD k
    have e : (s.bodies.map fun b => b.m * (b.v k - w k)).sum =
        (s.bodies.map fun b => b.m * b.v k).sum - mass s.bodies * w k := by
      unfold mass
      rw [← List.sum_map_mul_right, ← sum_map_sub']
      congr 1; refine List.map_congr_left fun b _ => ?_; ring
    rw [e] at this; linarith
  have sumv : ∀ (f : Fin n → Body n α → α) (l : List (Body n α)),
      (l.map fun b => ∑ k, f k b).sum = ∑ k, (l.map fun b => f k b).sum := by
    intro f l
    induction l with
    | nil => simp
    | cons b l ih => simp only [List.map_cons, List.sum_cons, ih, Finset.sum_add_distrib]
  refine ⟨c, w, hC, hD, hb, ?_, ?_, ?_, ?_, ?_, ?_, ?_, ?_⟩
  · obtain ⟨a1, -⟩ := t11' (by rw [hmass]; exact hm)
    funext k
    have := a1 k
    have e : (s'.bodies.map fun b => b.m * (b.r k - (diagnose hf sg none s').rcom k)).sum =
        (s'.bodies.map fun b => b.m * b.r k).sum - mass s'.bodies * (diagnose hf sg none s').rcom k := by
      unfold mass
      rw [← List.sum_map_mul_right, ← sum_map_sub']
      congr 1; refine List.map_congr_left fun b _ => ?_; ring
    rw [e, hmoment, hmass, zero_sub, neg_eq_zero] at this
    exact (mul_eq_zero.mp this).resolve_left hm.ne'
  · obtain ⟨-, a1⟩ := t11' (by rw [hmass]; exact hm)
    funext k
    have := a1 k
    have e : (s'.bodies.map fun b => b.m * (b.v k - (diagnose hf sg none s').vcom k)).sum =
        momentum s'.bodies k - mass s'.bodies * (diagnose hf sg none s').vcom k := by
      unfold mass momentum
      rw [← List.sum_map_mul_right, ← sum_map_sub']
      congr 1; refine List.map_congr_left fun b _ => ?_; ring
    rw [e, hmom, hmass, Pi.zero_apply, zero_sub, neg_eq_zero] at this
    exact (mul_eq_zero.mp this).resolve_left hm.ne'
  · rw [t5', hmom]
  · rw [t4', t4, hmass]
  · rw [t7', t7, hlive, List.map_map]; rfl
  · rw [t10', t10, hgp, hb]
    congr 2
    rw [List.zipWith_map_left]; rfl
  · rw [t6', t6, t4, hb]
    unfold kinetic
    rw [List.map_map]
    have e : ∀ b : Body n α, ((fun b : Body n α => b.m * (∑ k, b.v k ^ 2) / 2) ∘ Body.shift c w) b =
        b.m * (∑ k, b.v k ^ 2) / 2 + (-(∑ k, w k * (b.m * b.v k)) + b.m * ((∑ k, w k ^ 2) / 2)) := by
      intro b
      simp only [Function.comp, Body.shift]
      have : ∑ k, (b.v k - w k) ^ 2 = ∑ k, b.v k ^ 2 - 2 * ∑ k, w k * b.v k + ∑ k, w k ^ 2 := by
        rw [Finset.mul_sum, ← Finset.sum_sub_distrib, ← Finset.sum_add_distrib]
        refine Finset.sum_congr rfl fun k _ => ?_; ring
      have e2 : ∑ k, w k * (b.m * b.v k) = b.m * ∑ k, w k * b.v k := by
        rw [Finset.mul_sum]; refine Finset.sum_congr rfl fun k _ => ?_; ring
      rw [this, e2]; ring
    rw [List.map_congr_left (fun b _ => e b), List.sum_map_add, List.sum_map_add]
    have e3 : (s.bodies.map fun b => -(∑ k, w k * (b.m * b.v k))).sum = -(mass s.bodies * ∑ k, w k ^ 2) := by
      have : (fun b : Body n α => -(∑ k, w k * (b.m * b.v k))) = fun b => ∑ k, -(w k * (b.m * b.v k)) := by
        funext b; rw [Finset.sum_neg_distrib]
      rw [this, sumv, Finset.mul_sum, ← Finset.sum_neg_distrib]
      refine Finset.sum_congr rfl fun k _ => ?_
      have e4 : (s.bodies.map fun b => -(w k * (b.m * b.v k))).sum = -w k * (s.bodies.map fun b => b.m * b.v k).sum := by
        rw [← List.sum_map_mul_left]; congr 1; refine List.map_congr_left fun b _ => ?_; ring
      rw [e4, sV]; ring
    rw [e3, List.sum_map_mul_right]
    unfold mass
    ring
  · intro j
    rw [t8', t8, t4, hsk, hb]
    unfold angular
    rw [List.map_map]
    have e : ∀ b : Body n α, ((fun b : Body n α => b.m * (crossProduct (inSpace b.r) (inSpace b.v)) j) ∘ Body.shift c w) b =
        b.m * (crossProduct (inSpace b.r) (inSpace b.v)) j +
          (-(b.m * (crossProduct (inSpace c) (inSpace b.v)) j) + (-(b.m * (crossProduct (inSpace b.r) (inSpace w)) j) +
          b.m * (crossProduct (inSpace c) (inSpace w)) j)) := by
      intro b
      have e1 : inSpace (fun k => b.r k - c k) = inSpace b.r - inSpace c := by
        funext k; simp only [inSpace, Pi.sub_apply]; split_ifs <;> simp
      have e2 : inSpace (fun k => b.v k - w k) = inSpace b.v - inSpace w := by
        funext k; simp only [inSpace, Pi.sub_apply]; split_ifs <;> simp
      simp only [Function.comp, Body.shift, e1, e2, map_sub, LinearMap.sub_apply, Pi.sub_apply]
      ring
    rw [List.map_congr_left (fun b _ => e b), List.sum_map_add, List.sum_map_add, List.sum_map_add]
    have sRs : ∀ i : Fin 3, (s.bodies.map fun b => b.m * inSpace b.r i).sum = mass s.bodies * inSpace c i := by
      intro i
      simp only [inSpace]
      split_ifs with h
      · exact sR _
      · simp
    have sVs : ∀ i : Fin 3, (s.bodies.map fun b => b.m * inSpace b.v i).sum = mass s.bodies * inSpace w i := by
      intro i
      simp only [inSpace]
      split_ifs with h
      · exact sV _
      · simp
    have lin : ∀ (f g : Body n α → α) (x y : α), (s.bodies.map fun b => b.m * (x * f b - y * g b)).sum =
        x * (s.bodies.map fun b => b.m * f b).sum - y * (s.bodies.map fun b => b.m * g b).sum := by
      intro f g x y
      rw [← List.sum_map_mul_left, ← List.sum_map_mul_left, ← sum_map_sub']
      congr 1; refine List.map_congr_left fun b _ => ?_; ring
    have neg : ∀ f : Body n α → α, (s.bodies.map fun b => -(b.m * f b)).sum = -(s.bodies.map fun b => b.m * f b).sum := by
      intro f
      rw [show (fun b : Body n α => -(b.m * f b)) = fun b => (-1) * (b.m * f b) by funext b; ring, List.sum_map_mul_left]
      ring
    have hcv : (s.bodies.map fun b => b.m * (crossProduct (inSpace c) (inSpace b.v)) j).sum =
        mass s.bodies * (crossProduct (inSpace c) (inSpace w)) j := by
      simp only [cross_apply]
      fin_cases j
      · exact (lin _ _ _ _).trans (by rw [sVs, sVs]; simp; ring)
      · exact (lin _ _ _ _).trans (by rw [sVs, sVs]; simp; ring)
      · exact (lin _ _ _ _).trans (by rw [sVs, sVs]; simp; ring)
    have hrw : (s.bodies.map fun b => b.m * (crossProduct (inSpace b.r) (inSpace w)) j).sum =
        mass s.bodies * (crossProduct (inSpace c) (inSpace w)) j := by
      have flip : ∀ b : Body n α, b.m * (crossProduct (inSpace b.r) (inSpace w)) j =
          -(b.m * (crossProduct (inSpace w) (inSpace b.r)) j) := by
        intro b; rw [← cross_anticomm (inSpace w) (inSpace b.r), Pi.neg_apply]; ring
      rw [List.map_congr_left (fun b _ => flip b), neg]
      have : (s.bodies.map fun b => b.m * (crossProduct (inSpace w) (inSpace b.r)) j).sum =
          mass s.bodies * (crossProduct (inSpace w) (inSpace c)) j := by
        simp only [cross_apply]
        fin_cases j
        · exact (lin _ _ _ _).trans (by rw [sRs, sRs]; simp; ring)
        · exact (lin _ _ _ _).trans (by rw [sRs, sRs]; simp; ring)
        · exact (lin _ _ _ _).trans (by rw [sRs, sRs]; simp; ring)
      rw [this, ← cross_anticomm (inSpace c) (inSpace w), Pi.neg_apply]; ring
    rw [neg, neg, hcv, hrw, List.sum_map_mul_right]
    unfold mass
    ring

/-- With MPI the root process gets the values of the whole system, if every star lies in the domain of one process,
the stars of the sinks exist and masses are not negative: all but the number of dead particles. -/
theorem C62_mpi [IsStrictOrderedRing α] (hn : n ≤ 3) (hf sg : Bool) (root : Rank n α) (rest : List (Rank n α))
    (stars : List (Star n α)) (sinks : List (Sink α))
    (hst : ∀ s ∈ stars, ((root :: rest).countP fun q => particleInBox s.r q.dom) = 1)
    (hsk : ∀ s ∈ sinks, s.istar < stars.length)
    (hmg : ∀ q ∈ root :: rest, ∀ p ∈ q.gas, 0 ≤ p.m) (hms : ∀ s ∈ stars, 0 ≤ s.m)
    (hpos : 0 < mass (Sys.bodies ⟨(root :: rest).flatMap fun q => q.gas, stars, sinks⟩)) :
    let d := collate (root.values hf sg stars sinks) (rest.map fun q => q.values hf sg stars sinks)
    let e := diagnose hf sg none ⟨(root :: rest).flatMap fun q => q.gas, stars, sinks⟩
    d.Nhydro = e.Nhydro ∧ d.Nstar = e.Nstar ∧ d.mtot = e.mtot ∧ d.ketot = e.ketot ∧ d.utot = e.utot ∧
    d.gpetot = e.gpetot ∧ d.Etot = e.Etot ∧ d.mom = e.mom ∧ d.force = e.force ∧ d.angmom = e.angmom ∧
    d.rcom = e.rcom ∧ d.vcom = e.vcom := by
  intro d e
  set rs := root :: rest with hrs
  set all : Sys n α := ⟨rs.flatMap fun q => q.gas, stars, sinks⟩ with hall
  set val := fun q : Rank n α => q.values hf sg stars sinks with hval
  have E := diagnose_eq hn hf sg none all
  have V := fun q : Rank n α => diagnose_eq hn hf sg (some q.dom) ⟨q.gas, stars, sinks⟩
  -- sums over all gas, all stars, all sinks
  have gsum : ∀ f : Gas n α → α, (rs.map fun q => ((live q.gas).map f).sum).sum = ((live all.gas).map f).sum := by
    intro f
    have : ∀ l : List (Rank n α), (l.map fun q => ((live q.gas).map f).sum).sum =
        ((live (l.flatMap fun q => q.gas)).map f).sum := by
      intro l
      induction l with
      | nil => simp [live]
      | cons q l ih =>
        rw [List.map_cons, List.sum_cons, ih, List.flatMap_cons]
        unfold live
        rw [List.filter_append, List.map_append, List.sum_append]
    exact this rs
  have ssum : ∀ f : Star n α → α, (rs.map fun q => ((stars.filter (counted (some q.dom))).map f).sum).sum =
      (stars.map f).sum := fun f => sum_classes (fun q : Rank n α => counted (some q.dom)) rs f stars hst
  have ksum : ∀ f : Sink α → α, (rs.map fun q => ((sinks.filter (countedSink (some q.dom) stars)).map f).sum).sum =
      (sinks.map f).sum := by
    intro f
    refine sum_classes (fun q : Rank n α => countedSink (some q.dom) stars) rs f sinks fun x hx => ?_
    have hlt := hsk x hx
    have := hst _ (List.getElem_mem hlt)
    rw [← this]
    congr 1
    funext q
    simp only [countedSink, List.getElem?_eq_getElem hlt]
  have hcn : stars.filter (counted none) = stars := List.filter_eq_self.mpr fun _ _ => rfl
  have hkn : sinks.filter (countedSink none stars) = sinks := List.filter_eq_self.mpr fun _ _ => rfl
  have bsum : ∀ f : Body n α → α, (rs.map fun q => ((bodies (some q.dom) ⟨q.gas, stars, sinks⟩).map f).sum).sum =
      ((bodies none all).map f).sum := by
    intro f
    simp only [sum_bodies]
    rw [List.sum_map_add, gsum, ssum, hcn]
  -- weights are not negative, so nothing without mass has a moment
  have hbm : ∀ q ∈ rs, ∀ b ∈ bodies (some q.dom) ⟨q.gas, stars, sinks⟩, 0 ≤ b.m := by
    intro q hq b hb
    unfold bodies at hb
    rcases List.mem_append.mp hb with h | h
    · obtain ⟨p, hp, rfl⟩ := List.mem_map.mp h
      exact hmg q hq p (List.mem_of_mem_filter hp)
    · obtain ⟨p, hp, rfl⟩ := List.mem_map.mp h
      exact hms p (List.mem_of_mem_filter hp)
  have zero_moment : ∀ (l : List (Body n α)) (f : Body n α → α), (∀ b ∈ l, 0 ≤ b.m) → ¬ 0 < mass l →
      (l.map fun b => b.m * f b).sum = 0 := by
    intro l f hl hz
    have h0 : mass l = 0 := le_antisymm (not_lt.mp hz) (List.sum_nonneg fun x hx => by
      obtain ⟨b, hb, rfl⟩ := List.mem_map.mp hx; exact hl b hb)
    have : ∀ b ∈ l, b.m = 0 := by
      intro b hb
      refine le_antisymm ?_ (hl b hb)
      rw [← h0]
      exact List.single_le_sum (fun x hx => by
        obtain ⟨b, hb, rfl⟩ := List.mem_map.mp hx; exact hl b hb) _ (List.mem_map_of_mem hb)
    refine List.sum_eq_zero fun x hx => ?_
    obtain ⟨b, hb, rfl⟩ := List.mem_map.mp hx
    rw [this b hb, zero_mul]
  have rcom_w : ∀ q ∈ rs, ∀ k, (val q).mtot * (val q).rcom k =
      ((bodies (some q.dom) ⟨q.gas, stars, sinks⟩).map fun b => b.m * b.r k).sum := by
    intro q hq k
    obtain ⟨-, -, -, v4, -, -, -, v8, -⟩ := V q
    have a4 : (val q).mtot = mass (bodies (some q.dom) ⟨q.gas, stars, sinks⟩) := v4
    have a8 := v8 k
    change (val q).rcom k = _ at a8
    rw [a8]
    by_cases h : 0 < (val q).mtot
    · have h' : 0 < (diagnose hf sg (some q.dom) ⟨q.gas, stars, sinks⟩).mtot := h
      rw [if_pos h']
      change (val q).mtot * (_ / (val q).mtot) = _
      field_simp
    · have h' : ¬ 0 < (diagnose hf sg (some q.dom) ⟨q.gas, stars, sinks⟩).mtot := h
      rw [if_neg h', zero_moment _ (fun b => b.r k) (hbm q hq) (by rw [← a4]; exact h), mul_zero]
  have vcom_w : ∀ q ∈ rs, ∀ k, (val q).mtot * (val q).vcom k =
      ((bodies (some q.dom) ⟨q.gas, stars, sinks⟩).map fun b => b.m * b.v k).sum := by
    intro q hq k
    obtain ⟨-, -, -, v4, -, -, -, -, v9, -⟩ := V q
    have a4 : (val q).mtot = mass (bodies (some q.dom) ⟨q.gas, stars, sinks⟩) := v4
    have a9 := v9 k
    change (val q).vcom k = _ at a9
    rw [a9]
    by_cases h : 0 < (val q).mtot
    · have h' : 0 < (diagnose hf sg (some q.dom) ⟨q.gas, stars, sinks⟩).mtot := h
      rw [if_pos h']
      change (val q).mtot * (_ / (val q).mtot) = _
      unfold momentum
      field_simp
    · have h' : ¬ 0 < (diagnose hf sg (some q.dom) ⟨q.gas, stars, sinks⟩).mtot := h
      rw [if_neg h']
      unfold momentum
      rw [zero_moment _ (fun b => b.v k) (hbm q hq) (by rw [← a4]; exact h), mul_zero]
  -- the fields of the root
  have hsum : ∀ {β : Type} [AddCommMonoid β] (f : Values n α → β),
      f (val root) + ((rest.map val).map f).sum = (rs.map fun q => f (val q)).sum := by
    intro β _ f
    rw [List.map_map, hrs, List.map_cons, List.sum_cons]; rfl
  have hd : d = collate (val root) (rest.map val) := rfl
  have dm : d.mtot = (rs.map fun q => (val q).mtot).sum := by
    rw [hd]; simp only [collate, receive_fold]; exact hsum fun x => x.mtot
  have em : d.mtot = e.mtot := by
    rw [dm, E.2.2.2.1]
    have : ∀ q, (val q).mtot = ((bodies (some q.dom) ⟨q.gas, stars, sinks⟩).map fun b => b.m).sum := fun q => (V q).2.2.2.1
    simp only [this, bsum]; rfl
  have eke : d.ketot = e.ketot := by
    have h0 : d.ketot = (rs.map fun q => (val q).ketot).sum := by
      rw [hd]; simp only [collate, receive_fold]; exact hsum fun x => x.ketot
    rw [h0, E.2.2.2.2.1]
    have : ∀ q, (val q).ketot = ((bodies (some q.dom) ⟨q.gas, stars, sinks⟩).map fun b => b.m * (∑ k, b.v k ^ 2) / 2).sum :=
      fun q => (V q).2.2.2.2.1
    simp only [this, bsum]; rfl
  have eu : d.utot = e.utot := by
    have h0 : d.utot = (rs.map fun q => (val q).utot).sum := by
      rw [hd]; simp only [collate, receive_fold]; exact hsum fun x => x.utot
    rw [h0, E.2.2.2.2.2.1]
    have : ∀ q, (val q).utot = ((live q.gas).map fun p => p.m * p.u).sum := fun q => (V q).2.2.2.2.2.1
    simp only [this, gsum]
  have eg : d.gpetot = e.gpetot := by
    have h0 : d.gpetot = (rs.map fun q => (val q).gpetot).sum := by
      rw [hd]; simp only [collate, receive_fold]; exact hsum fun x => x.gpetot
    rw [h0, E.2.2.2.2.2.2.1]
    have : ∀ q, (val q).gpetot = (((live q.gas).map fun p => p.m * p.gpot).sum +
        ((stars.filter (counted (some q.dom))).map fun p => p.m * p.gpot).sum) * (-1 / 2) := by
      intro q
      rw [show (val q).gpetot = _ from (V q).2.2.2.2.2.2.1]; ring
    simp only [this]
    rw [List.sum_map_mul_right, List.sum_map_add, gsum, ssum, hcn]; ring
  refine ⟨?_, by rw [hd]; simp only [collate, receive_fold]; exact ((V root).2.1).trans E.2.1.symm, em, eke, eu, eg, ?_, ?_, ?_, ?_, ?_, ?_⟩
  · have h0 : d.Nhydro = (rs.map fun q => (val q).Nhydro).sum := by
      rw [hd]; simp only [collate, receive_fold]; exact hsum fun x => x.Nhydro
    rw [h0, E.1]
    have : ∀ q, (val q).Nhydro = q.gas.length := fun q => (V q).1
    simp only [this, hall, List.length_flatMap]
  · have h0 : d.Etot = (rs.map fun q => (val q).Etot).sum := by
      rw [hd]; simp only [collate, receive_fold]; exact hsum fun x => x.Etot
    have hE : e.Etot = e.ketot + (if hf then e.utot else 0) + (if sg ∨ stars ≠ [] then e.gpetot else 0) :=
      E.2.2.2.2.2.2.2.2.2.2.2.2
    have : ∀ q, (val q).Etot = (val q).ketot + (if hf then (val q).utot else 0) +
        (if sg ∨ stars ≠ [] then (val q).gpetot else 0) := fun q => (V q).2.2.2.2.2.2.2.2.2.2.2.2
    rw [h0, hE, ← eke, ← eu, ← eg]
    simp only [this]
    rw [List.sum_map_add, List.sum_map_add]
    have c1 : (rs.map fun q => (val q).ketot).sum = d.ketot := by
      rw [hd]; simp only [collate, receive_fold]; exact (hsum fun x => x.ketot).symm
    have c2 : (rs.map fun q => (val q).utot).sum = d.utot := by
      rw [hd]; simp only [collate, receive_fold]; exact (hsum fun x => x.utot).symm
    have c3 : (rs.map fun q => (val q).gpetot).sum = d.gpetot := by
      rw [hd]; simp only [collate, receive_fold]; exact (hsum fun x => x.gpetot).symm
    rw [c1]
    congr 1
    · congr 1
      cases hf
      · simp
      · simpa using c2
    · by_cases h : sg = true ∨ stars ≠ []
      · simp only [h, if_true]; exact c3
      · simp only [h, if_false]; simp
  · funext k
    have h0 : d.mom k = (rs.map fun q => (val q).mom k).sum := by
      rw [hd]; simp only [collate, receive_fold]; exact hsum fun x => x.mom k
    rw [h0, E.2.2.2.2.2.2.2.2.2.1]
    have : ∀ q, (val q).mom k = ((bodies (some q.dom) ⟨q.gas, stars, sinks⟩).map fun b => b.m * b.v k).sum :=
      fun q => (V q).2.2.2.2.2.2.2.2.2.1 k
    simp only [this, bsum]; rfl
  · funext k
    have h0 : d.force k = (rs.map fun q => (val q).force k).sum := by
      rw [hd]; simp only [collate, receive_fold]; exact hsum fun x => x.force k
    rw [h0, E.2.2.2.2.2.2.2.2.2.2.1]
    have : ∀ q, (val q).force k = ((live q.gas).map fun p => p.m * p.a k).sum +
        ((stars.filter (counted (some q.dom))).map fun p => p.m * p.a k).sum :=
      fun q => (V q).2.2.2.2.2.2.2.2.2.2.1 k
    simp only [this]
    rw [List.sum_map_add, gsum, ssum, hcn]
  · funext j
    have h0 : d.angmom j = (rs.map fun q => (val q).angmom j).sum := by
      rw [hd]; simp only [collate, receive_fold]; exact hsum fun x => x.angmom j
    rw [h0, E.2.2.2.2.2.2.2.2.2.2.2.1]
    have : ∀ q, (val q).angmom j = ((bodies (some q.dom) ⟨q.gas, stars, sinks⟩).map
          fun b => b.m * (crossProduct (inSpace b.r) (inSpace b.v)) j).sum +
        ((sinks.filter (countedSink (some q.dom) stars)).map fun p => p.angmom j).sum :=
      fun q => (V q).2.2.2.2.2.2.2.2.2.2.2.1 j
    simp only [this]
    rw [List.sum_map_add, bsum, ksum, hkn]; rfl
  · funext k
    have h0 : d.rcom k = (rs.map fun q => (val q).mtot * (val q).rcom k).sum / d.mtot := by
      rw [hd]
      simp only [collate, receive_fold]
      congr 1
      rw [mul_comm]; exact hsum fun x => x.mtot * x.rcom k
    rw [h0, List.map_congr_left fun q hq => rcom_w q hq k, bsum, em, E.2.2.2.2.2.2.2.1 k,
      if_pos (by rw [E.2.2.2.1, bodies_none]; exact hpos)]
  · funext k
    have h0 : d.vcom k = (rs.map fun q => (val q).mtot * (val q).vcom k).sum / d.mtot := by
      rw [hd]
      simp only [collate, receive_fold]
      congr 1
      rw [mul_comm]; exact hsum fun x => x.mtot * x.vcom k
    rw [h0, List.map_congr_left fun q hq => vcom_w q hq k, bsum, em, E.2.2.2.2.2.2.2.2.1 k,
      if_pos (by rw [E.2.2.2.1, bodies_none]; exact hpos)]
    rfl

/-- Violated with MPI: the dead particles of the other processes are not counted, and a star outside of all domains (as
it can be with open boundaries) is lost. -/
theorem C62_mpi_fails :
    (∃ (root other : Rank 1 ℚ),
      (collate (root.values true true [] []) [other.values true true [] []]).Ndead ≠
        (diagnose true true none ⟨root.gas ++ other.gas, [], []⟩).Ndead) ∧
    (∃ (root other : Rank 1 ℚ) (star : Star 1 ℚ),
      (collate (root.values true true [star] []) [other.values true true [star] []]).mtot ≠
        (diagnose true true none ⟨root.gas ++ other.gas, [star], []⟩).mtot) := by
  refine ⟨⟨⟨⟨fun _ => 0, fun _ => 1⟩, [⟨fun _ => 0, fun _ => 0, fun _ => 0, 1, 1, 0, false⟩]⟩,
    ⟨⟨fun _ => 1, fun _ => 2⟩, [⟨fun _ => 1, fun _ => 0, fun _ => 0, 1, 1, 0, true⟩]⟩, by decide +kernel⟩,
    ⟨⟨⟨fun _ => 0, fun _ => 1⟩, [⟨fun _ => 0, fun _ => 0, fun _ => 0, 1, 1, 0, false⟩]⟩,
    ⟨⟨fun _ => 1, fun _ => 2⟩, [⟨fun _ => 1, fun _ => 0, fun _ => 0, 1, 1, 0, false⟩]⟩,
    ⟨fun _ => 3, fun _ => 0, fun _ => 0, 5, 0⟩, by decide +kernel⟩⟩

/-- Violated: the energy of an external potential is left out of the total if there are neither stars nor
self-gravity. -/
theorem C62_external_energy_fails :
    ∃ s : Sys 1 ℚ, (diagnose true false none s).gpetot ≠ 0 ∧
      (diagnose true false none s).Etot = (diagnose true false none s).ketot + (diagnose true false none s).utot := by
  refine ⟨⟨[⟨fun _ => 1, fun _ => 0, fun _ => -1, 2, 3, 5, false⟩], [], []⟩, by decide +kernel, by decide +kernel⟩

/-! ### The theorems at work -/

section example2

/-- two gas particles, one of them dead, and a star with a sink -/
private def exS : Sys 3 ℚ :=
  ⟨[⟨![1, 0, 0], ![0, 2, 0], ![0, 0, 1], 2, 3, 4 / 3, false⟩, ⟨![9, 9, 9], ![1, 1, 1], ![0, 0, 0], 7, 7, 7, true⟩],
   [⟨![-2, 0, 0], ![0, -1, 3], ![0, 0, -1], 4, 2 / 3⟩], [⟨0, ![0, 0, 5]⟩]⟩

example : let d := diagnose true true none exS
    d.Ndead = 1 ∧ d.mtot = 6 ∧ d.ketot = 24 ∧ d.utot = 6 ∧ d.gpetot = -8 / 3 ∧ d.Etot = 82 / 3 ∧
      d.mom = ![0, 0, 12] ∧ d.rcom = ![-1, 0, 0] ∧ d.vcom = ![0, 0, 2] ∧ d.angmom = ![0, 24, 17] := by decide +kernel

/-- the hypotheses of `C62_pair_energy`: two bodies at distance 3 -/
example : (diagnose true true none exS).gpetot = -pairs fun i j => (exS.bodies[i]).m * (exS.bodies[j]).m * (1 / 3) :=
  C62_pair_energy (by norm_num) true true exS (fun _ _ => 1 / 3) (fun _ _ => rfl) (by decide +kernel)

/-- `SetComFrame` -/
example : ∃ c w, IsCentre exS.bodies c ∧ IsDrift exS.bodies w ∧
    (setComFrame true true exS).bodies = exS.bodies.map (Body.shift c w) := by
  obtain ⟨c, w, h1, h2, h3, -⟩ := C62_com_frame (by norm_num) true true exS (by decide +kernel)
  exact ⟨c, w, h1, h2, h3⟩

example : (diagnose true true none (setComFrame true true exS)).ketot = 12 := by decide +kernel

/-- two processes -/
private def exRoot : Rank 3 ℚ := ⟨⟨fun _ => -10, ![0, 10, 10]⟩, []⟩
private def exOther : Rank 3 ℚ := ⟨⟨![0, -10, -10], fun _ => 10⟩, exS.gas⟩

example : (collate (exRoot.values true true exS.stars exS.sinks) [exOther.values true true exS.stars exS.sinks]).rcom =
    ![-1, 0, 0] := by
  have h := C62_mpi (by norm_num) true true exRoot [exOther] exS.stars exS.sinks (by decide +kernel) (by decide +kernel)
    (by decide +kernel) (by decide +kernel) (by decide +kernel)
  exact h.2.2.2.2.2.2.2.2.2.2.1.trans (by decide +kernel)

end example2

end Gandalf
