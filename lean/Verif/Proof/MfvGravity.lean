import Verif.Spec.MfvGravity
import Verif.Proof.GravLoop

/-!
# Gravity of the meshless schemes: lemmas
-/

set_option autoImplicit false
set_option linter.unusedSectionVars false

namespace Gandalf.MfvGrav

open Gravity

variable {n N : ℕ}

theorem root_gdist (sm : ℝ) (x y : Vec n ℝ) :
    √(dot (fun k => y k - x k) (fun k => y k - x k) + sm) = gdist sm x y := by
  unfold gdist dot
  congr 2
  exact Finset.sum_congr rfl fun k _ => by ring

theorem gdist_symm (sm : ℝ) (x y : Vec n ℝ) : gdist sm x y = gdist sm y x := by
  unfold gdist
  congr 2
  exact Finset.sum_congr rfl fun k _ => by ring

theorem gdist_le {sm : ℝ} (hsm : 0 ≤ sm) (x y : Vec n ℝ) : gdist 0 x y ≤ gdist sm x y :=
  Real.sqrt_le_sqrt (by linarith)

/-- two particles that differ only in what the loops change -/
structure Same (p q : Part n) : Prop where
  r : p.r = q.r
  m : p.m = q.m
  h : p.h = q.h
  zeta : p.zeta = q.zeta
  hfactor : p.hfactor = q.hfactor
  selfgrav : p.selfgrav = q.selfgrav
  active : p.active = q.active
  a : p.a = q.a
  gpot_hydro : p.gpot_hydro = q.gpot_hydro

theorem Same.refl (p : Part n) : Same p p := ⟨rfl, rfl, rfl, rfl, rfl, rfl, rfl, rfl, rfl⟩

theorem Same.trans {p q s : Part n} (h : Same p q) (h' : Same q s) : Same p s :=
  ⟨h.r.trans h'.r, h.m.trans h'.m, h.h.trans h'.h, h.zeta.trans h'.zeta, h.hfactor.trans h'.hfactor,
   h.selfgrav.trans h'.selfgrav, h.active.trans h'.active, h.a.trans h'.a, h.gpot_hydro.trans h'.gpot_hydro⟩

theorem smooth1_spec (K : Kernel) (sm : ℝ) {p : Part n} (q : Part n) (hm : p.m ≠ 0) :
    Same (smooth1 K sm p q) p ∧ (∀ k, (smooth1 K sm p q).atree k = p.atree k + pull K sm p q k) ∧
    (smooth1 K sm p q).gpot = p.gpot + well K sm p q := by
  refine ⟨⟨rfl, rfl, rfl, rfl, rfl, rfl, rfl, rfl, rfl⟩, fun k => ?_, ?_⟩
  · simp only [smooth1, pull, strength, root_gdist, mul_one_div]
    field_simp
    ring
  · simp only [smooth1, well, root_gdist, mul_one_div]
    ring

theorem pull_congr (K : Kernel) (sm : ℝ) {p p' : Part n} (h : Same p p') (q : Part n) (k : Fin n) :
    pull K sm p q k = pull K sm p' q k := by
  unfold pull strength
  rw [h.r, h.m, h.h, h.zeta, h.hfactor]

theorem well_congr (K : Kernel) (sm : ℝ) {p p' : Part n} (h : Same p p') (q : Part n) :
    well K sm p q = well K sm p' q := by
  unfold well
  rw [h.r, h.h]

theorem smoothed_spec (K : Kernel) (sm : ℝ) (l : List (Part n)) : ∀ {p : Part n}, p.m ≠ 0 →
    Same (smoothed K sm p l) p ∧
    (∀ k, (smoothed K sm p l).atree k = p.atree k + (l.map fun q => pull K sm p q k).sum) ∧
    (smoothed K sm p l).gpot = p.gpot + (l.map fun q => well K sm p q).sum := by
  induction l with
  | nil => intro p _; exact ⟨Same.refl p, fun k => by simp [smoothed], by simp [smoothed]⟩
  | cons q l ih =>
    intro p hm
    obtain ⟨s1, a1, g1⟩ := smooth1_spec K sm q hm
    obtain ⟨s2, a2, g2⟩ := ih (p := smooth1 K sm p q) (by rw [s1.m]; exact hm)
    refine ⟨s2.trans s1, fun k => ?_, ?_⟩
    · change (smoothed K sm (smooth1 K sm p q) l).atree k = _
      rw [a2 k, a1 k, List.map_cons, List.sum_cons]
      simp only [pull_congr K sm s1]
      ring
    · change (smoothed K sm (smooth1 K sm p q) l).gpot = _
      rw [g2, g1, List.map_cons, List.sum_cons]
      simp only [well_congr K sm s1]
      ring

theorem direct1_spec (sm : ℝ) (p q : Part n) :
    Same (direct1 sm p q) p ∧ (∀ k, (direct1 sm p q).atree k = p.atree k + newton sm p.r q.m q.r k) ∧
    (direct1 sm p q).gpot = p.gpot + q.m / gdist sm p.r q.r := by
  refine ⟨⟨rfl, rfl, rfl, rfl, rfl, rfl, rfl, rfl, rfl⟩, fun k => ?_, ?_⟩
  · simp only [direct1, newton, root_gdist]
    ring
  · simp only [direct1, root_gdist]
    ring

theorem direct_spec (sm : ℝ) (l : List (Part n)) : ∀ p : Part n,
    Same (direct sm p l) p ∧
    (∀ k, (direct sm p l).atree k = p.atree k + (l.map fun q => newton sm p.r q.m q.r k).sum) ∧
    (direct sm p l).gpot = p.gpot + (l.map fun q => q.m / gdist sm p.r q.r).sum := by
  induction l with
  | nil => intro p; exact ⟨Same.refl p, fun k => by simp [direct], by simp [direct]⟩
  | cons q l ih =>
    intro p
    obtain ⟨s1, a1, g1⟩ := direct1_spec sm p q
    obtain ⟨s2, a2, g2⟩ := ih (direct1 sm p q)
    refine ⟨s2.trans s1, fun k => ?_, ?_⟩
    · change (direct sm (direct1 sm p q) l).atree k = _
      rw [a2 k, a1 k, List.map_cons, List.sum_cons]
      simp only [s1.r]
      ring
    · change (direct sm (direct1 sm p q) l).gpot = _
      rw [g2, g1, List.map_cons, List.sum_cons]
      simp only [s1.r]
      ring

theorem star1_spec (K : Kernel) (sm : ℝ) (p : Part n) (s : Star n) :
    Same (star1 K sm p s) p ∧ (∀ k, (star1 K sm p s).atree k = p.atree k + starPull K sm p s k) ∧
    (star1 K sm p s).gpot = p.gpot + starWell K sm p s := by
  have e : 2 / (p.h + s.h) = 1 / ((p.h + s.h) / 2) := by rw [one_div_div]
  refine ⟨⟨rfl, rfl, rfl, rfl, rfl, rfl, rfl, rfl, rfl⟩, fun k => ?_, ?_⟩
  · simp only [star1, starPull, root_gdist, e, mul_one_div]
    generalize (p.h + s.h) / 2 = H
    ring
  · simp only [star1, starWell, root_gdist, e, mul_one_div]
    generalize (p.h + s.h) / 2 = H
    ring

theorem starForces_spec (K : Kernel) (sm : ℝ) (l : List (Star n)) : ∀ p : Part n,
    Same (starForces K sm p l) p ∧
    (∀ k, (starForces K sm p l).atree k = p.atree k + (l.map fun s => starPull K sm p s k).sum) ∧
    (starForces K sm p l).gpot = p.gpot + (l.map fun s => starWell K sm p s).sum := by
  induction l with
  | nil => intro p; exact ⟨Same.refl p, fun k => by simp [starForces], by simp [starForces]⟩
  | cons q l ih =>
    intro p
    obtain ⟨s1, a1, g1⟩ := star1_spec K sm p q
    obtain ⟨s2, a2, g2⟩ := ih (star1 K sm p q)
    have e1 : ∀ s k, starPull K sm (star1 K sm p q) s k = starPull K sm p s k := fun s k => by
      unfold starPull; rw [s1.r, s1.h]
    have e2 : ∀ s, starWell K sm (star1 K sm p q) s = starWell K sm p s := fun s => by
      unfold starWell; rw [s1.r, s1.h]
    refine ⟨s2.trans s1, fun k => ?_, ?_⟩
    · change (starForces K sm (star1 K sm p q) l).atree k = _
      rw [a2 k, a1 k, List.map_cons, List.sum_cons]
      simp only [e1]
      ring
    · change (starForces K sm (star1 K sm p q) l).gpot = _
      rw [g2, g1, List.map_cons, List.sum_cons]
      simp only [e2]
      ring

/-- gravity of the gas at `p` -/
noncomputable def gasA (K : Kernel) (sm : ℝ) (L : Lists n) (p : Part n) (k : Fin n) : ℝ :=
  ((L.hyd ++ L.smo).map fun q => pull K sm p q k).sum + (L.dir.map fun q => newton sm p.r q.m q.r k).sum + L.fa k

noncomputable def gasPot (K : Kernel) (sm : ℝ) (L : Lists n) (p : Part n) : ℝ :=
  p.m / p.h * K.wpot 0 + ((L.hyd ++ L.smo).map fun q => well K sm p q).sum +
    (L.dir.map fun q => q.m / gdist sm p.r q.r).sum + L.fpot

theorem loopCopy_true (K : Kernel) (sm : ℝ) (stars : List (Star n)) (L : Lists n) (p : Part n) (hs : p.selfgrav = true) :
    loopCopy K sm true stars L p =
      let q3 := direct sm (smoothed K sm (smoothed K sm { p with
        atree := fun _ => 0
        gpot := (p.m / p.h) * K.wpot 0 } L.hyd) L.smo) L.dir
      starForces K sm { q3 with
        atree := fun k => q3.atree k + L.fa k
        gpot := q3.gpot + L.fpot
        gpot_hydro := q3.gpot + L.fpot } stars := by
  obtain ⟨r, m, h, z, hf, sg, ac, a, at', g, gh⟩ := p
  change sg = true at hs
  subst hs
  rfl

theorem loopCopy_false (K : Kernel) (sm : ℝ) (stars : List (Star n)) (L : Lists n) (p : Part n)
    (hs : p.selfgrav = false) :
    loopCopy K sm true stars L p = starForces K sm { p with
      atree := fun _ => 0
      gpot := (p.m / p.h) * K.wpot 0
      gpot_hydro := (p.m / p.h) * K.wpot 0 } stars := by
  obtain ⟨r, m, h, z, hf, sg, ac, a, at', g, gh⟩ := p
  change sg = false at hs
  subst hs
  rfl

theorem loopCopy_self (K : Kernel) (sm : ℝ) (stars : List (Star n)) (L : Lists n) {p : Part n} (hm : p.m ≠ 0)
    (hs : p.selfgrav = true) :
    (∀ k, (loopCopy K sm true stars L p).atree k =
      gasA K sm L p k + (stars.map fun s => starPull K sm p s k).sum) ∧
    (loopCopy K sm true stars L p).gpot = gasPot K sm L p + (stars.map fun s => starWell K sm p s).sum ∧
    (loopCopy K sm true stars L p).gpot_hydro = gasPot K sm L p := by
  set q0 : Part n := { p with
    atree := fun _ => 0
    gpot := (p.m / p.h) * K.wpot 0 } with hq0
  have s0 : Same q0 p := ⟨rfl, rfl, rfl, rfl, rfl, rfl, rfl, rfl, rfl⟩
  obtain ⟨s1, a1, g1⟩ := smoothed_spec K sm L.hyd (p := q0) hm
  set q1 := smoothed K sm q0 L.hyd
  obtain ⟨s2, a2, g2⟩ := smoothed_spec K sm L.smo (p := q1) (by rw [s1.m]; exact hm)
  set q2 := smoothed K sm q1 L.smo
  obtain ⟨s3, a3, g3⟩ := direct_spec sm L.dir q2
  set q3 := direct sm q2 L.dir
  have s20 : Same q2 p := s2.trans (s1.trans s0)
  set q4 : Part n := { q3 with
    atree := fun k => q3.atree k + L.fa k
    gpot := q3.gpot + L.fpot } with hq4
  have hp : loopCopy K sm true stars L p = starForces K sm { q4 with gpot_hydro := q4.gpot } stars :=
    loopCopy_true K sm stars L p hs
  set q5 : Part n := { q4 with gpot_hydro := q4.gpot } with hq5
  have r5 : q5.r = p.r ∧ q5.h = p.h := ⟨(s3.trans s20).r, (s3.trans s20).h⟩
  have e1 : ∀ s k, starPull K sm q5 s k = starPull K sm p s k := fun s k => by unfold starPull; rw [r5.1, r5.2]
  have e2 : ∀ s, starWell K sm q5 s = starWell K sm p s := fun s => by unfold starWell; rw [r5.1, r5.2]
  obtain ⟨s6, a6, g6⟩ := starForces_spec K sm stars q5
  have A : ∀ k, q5.atree k = gasA K sm L p k := fun k => by
    change q3.atree k + L.fa k = _
    rw [a3 k, a2 k, a1 k]
    change 0 + _ + _ + _ + _ = _
    unfold gasA
    simp only [pull_congr K sm s0, pull_congr K sm (s1.trans s0), s20.r, List.map_append, List.sum_append]
    ring
  have G : q5.gpot = gasPot K sm L p := by
    change q3.gpot + L.fpot = _
    rw [g3, g2, g1]
    change p.m / p.h * K.wpot 0 + _ + _ + _ + _ = _
    unfold gasPot
    simp only [well_congr K sm s0, well_congr K sm (s1.trans s0), s20.r, List.map_append, List.sum_append]
    ring
  rw [hp]
  refine ⟨fun k => ?_, ?_, ?_⟩
  · rw [a6 k, A k]; simp only [e1]
  · rw [g6, G]; simp only [e2]
  · rw [s6.gpot_hydro]; exact G

theorem loopCopy_other (K : Kernel) (sm : ℝ) (g : Bool) (stars : List (Star n)) (L : Lists n) {p : Part n}
    (hs : (g && p.selfgrav) = false) :
    (∀ k, (loopCopy K sm g stars L p).atree k = (stars.map fun s => starPull K sm p s k).sum) ∧
    (loopCopy K sm g stars L p).gpot = (if g then p.m / p.h * K.wpot 0 else p.gpot) +
      (stars.map fun s => starWell K sm p s).sum ∧
    (loopCopy K sm g stars L p).gpot_hydro = (if g then p.m / p.h * K.wpot 0 else p.gpot) := by
  cases g with
  | false =>
    set q : Part n := { p with
      atree := fun _ => 0
      gpot_hydro := p.gpot } with hq
    have hp : loopCopy K sm false stars L p = starForces K sm q stars := rfl
    obtain ⟨s6, a6, g6⟩ := starForces_spec K sm stars q
    rw [hp]
    refine ⟨fun k => ?_, ?_, ?_⟩
    · rw [a6 k]; exact zero_add _
    · rw [g6]; rfl
    · rw [s6.gpot_hydro]; rfl
  | true =>
    have hs' : p.selfgrav = false := by simpa using hs
    set q : Part n := { p with
      atree := fun _ => 0
      gpot := (p.m / p.h) * K.wpot 0
      gpot_hydro := (p.m / p.h) * K.wpot 0 } with hq
    have hp : loopCopy K sm true stars L p = starForces K sm q stars := loopCopy_false K sm stars L p hs'
    obtain ⟨s6, a6, g6⟩ := starForces_spec K sm stars q
    rw [hp]
    refine ⟨fun k => ?_, ?_, ?_⟩
    · rw [a6 k]; exact zero_add _
    · rw [g6]; rfl
    · rw [s6.gpot_hydro]; rfl

/-- outside both kernels the smoothed law is Newton's -/
theorem pull_far {K : Kernel} {n' : ℕ} (hK : K.Valid n') (hG : K.GravityOK) {sm : ℝ} (hsm : 0 ≤ sm) {p q : Part n}
    (hm : p.m ≠ 0) (hp : 0 < p.h) (hq : 0 < q.h) (h : Apart K p q) :
    (∀ k, pull K sm p q k = newton sm p.r q.m q.r k) ∧ well K sm p q = q.m / gdist sm p.r q.r := by
  have l1 : K.kernrange * p.h ≤ gdist sm p.r q.r := h.1.trans (gdist_le hsm _ _)
  have l2 : K.kernrange * q.h ≤ gdist sm p.r q.r := h.2.trans (gdist_le hsm _ _)
  have hd : 0 < gdist sm p.r q.r := lt_of_lt_of_le (mul_pos hK.range_pos hp) l1
  have k1 : K.kernrange ≤ gdist sm p.r q.r / p.h := by rw [le_div_iff₀ hp]; exact l1
  have k2 : K.kernrange ≤ gdist sm p.r q.r / q.h := by rw [le_div_iff₀ hq]; exact l2
  have g1 := hG.newton _ k1
  have g2 := hG.newton _ k2
  constructor
  · intro k
    simp only [pull, strength, newton]
    rw [g1.1, g2.1, Sph.w1_zero hK k1, Sph.w1_zero hK k2]
    field_simp
    ring
  · simp only [well]
    rw [g1.2, g2.2]
    field_simp
    norm_num

end Gandalf.MfvGrav
