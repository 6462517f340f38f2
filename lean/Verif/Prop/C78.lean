import Verif.Proof.InnerMotion
import Verif.Prop.C45
import Mathlib.Tactic

/-!
# C78: the inner motion of sub-systems of stars
-/

set_option autoImplicit false

namespace Gandalf

open Stars Inner

variable {n N P : ℕ}

/-- **C78 (members follow their system).** After `UpdateChildStars` every system of a hierarchy, at every
depth, sits in the centre of mass of its members, moves with their velocity and acceleration; the masses, and
the separations and relative velocities of the members of every system, are those from before; the system
itself has not moved. -/
theorem C78_children (x : Node n) (h : Massed x) :
    Coherent (updateTree x) ∧ Alike x (updateTree x) ∧ (updateTree x).top = x.top :=
  ⟨settle_coherent h id, settle_alike x id fun _ => rfl, settle_top id x⟩

/-- **C78 (stars of a hierarchy).** After `UpdateChildStars` the sum of mass times place, and of mass times
velocity, over all stars of the hierarchy, however deep, is the mass of the system times its place, and times
its velocity. -/
theorem C78_stars (x : Node n) (h : Massed x) (k : Fin n) :
    starSum (fun b => b.m * b.r k) (updateTree x) = x.top.m * x.top.r k ∧
    starSum (fun b => b.m * b.v k) (updateTree x) = x.top.m * x.top.v k := by
  have hm := settle_massed h id fun _ => rfl
  have := coherent_sum hm (settle_coherent h id) k
  rw [settle_top] at this
  exact this

/-- a triple: a star and a binary -/
noncomputable def Inner.triple : Node 1 :=
  .sys { binary 1 0 2 0 with m := 3 } 2 fun i =>
    if i = 0 then .star (binary 1 0 2 1)
    else .sys { binary 1 3 1 1 with m := 2 } 2 fun j => .star (binary 1 5 2 j)

theorem Inner.triple_massed : Massed Inner.triple := by
  refine .sys _ _ _ (by norm_num) ?_ fun i => ?_
  · simp [Node.top, Fin.sum_univ_two]; norm_num [binary]
  · fin_cases i
    · exact .star _ (by norm_num [binary])
    · refine .sys _ _ _ (by norm_num) ?_ fun j => .star _ (by norm_num [binary])
      simp [Node.top, binary]

/-- the stars of the triple were not where the system is, and were moved there -/
example : starSum (fun b => b.m * b.v 0) Inner.triple ≠ Inner.triple.top.m * Inner.triple.top.v 0 ∧
    starSum (fun b => b.m * b.v 0) (updateTree Inner.triple) = Inner.triple.top.m * Inner.triple.top.v 0 := by
  refine ⟨?_, (C78_stars _ Inner.triple_massed 0).2⟩
  simp [Inner.triple, starSum, Fin.sum_univ_two, binary, Node.top]
  norm_num

/-- **C78 (force from outside).** When the integration of the inner motion begins, the accelerations given to
the members, with those by the perturbers, by the other members and the rest from outside, add up to mass
times acceleration of the system, for every set of perturbers, wherever they are. -/
theorem C78_external (d : Domain n ℝ) (hd : Proper d) (S : Sys n) (p : Fin P → Pert n) (t : ℝ) (c : Fin N → Child n)
    (hS : S.m = ∑ i, (c i).m) (hm : S.m ≠ 0) (k : Fin n) :
    ∑ i, (c i).m * (start d S p t c i).a k = S.m * S.a0 k :=
  start_sum hd S p t c hS hm k

example (p : Fin 1 → Inner.Pert 1) : ∑ i, (binary 1 0 2 i).m *
    (start (bigBox 1 .periodic) { binarySys 0 0 1 with a0 := fun _ => 7 } p 0 (binary 1 0 2) i).a 0 = 2 * 7 :=
  C78_external _ (fun k _ => by norm_num [bigBox]) { binarySys 0 0 1 with a0 := fun _ => 7 } p 0 (binary 1 0 2)
    (by simp [binarySys, binary]) (by norm_num [binarySys]) 0

/-- **C78 (reaction).** What the perturbers pull the members by is what the members pull the perturbers by:
`apert` is the pull of the members on the perturber less the pull their whole mass would have in their centre
of mass. (The callers of the function do not use `apert`.) -/
theorem C78_reaction (d : Domain n ℝ) (q : Fin P → Vec n ℝ) (mq : Fin P → ℝ) (c : Fin N → Child n)
    (ha : ∀ i, (c i).active = true) (k : Fin n) :
    ∑ i, (c i).m * ((pertForces d q mq c i).a k - (c i).a k) + ∑ j, mq j * (apert d q c j k +
      (∑ i, (c i).m) * sep d (q j) (rcom c) k / √(dot (sep d (q j) (rcom c)) (sep d (q j) (rcom c))) ^ 3) = 0 := by
  have h1 : ∀ i, (c i).m * ((pertForces d q mq c i).a k - (c i).a k) =
      ∑ j, mq j * ((c i).m * sep d (c i).r (q j) k * invd (sep d (c i).r (q j)) ^ 3) := by
    intro i
    simp only [pertForces, ha i, if_true]
    rw [add_sub_cancel_left, Finset.mul_sum]
    exact Finset.sum_congr rfl fun j _ => by ring
  have h2 : ∀ j, mq j * (apert d q c j k +
      (∑ i, (c i).m) * sep d (q j) (rcom c) k / √(dot (sep d (q j) (rcom c)) (sep d (q j) (rcom c))) ^ 3) =
      -∑ i, mq j * ((c i).m * sep d (c i).r (q j) k * invd (sep d (c i).r (q j)) ^ 3) := by
    intro j
    simp only [apert, ha, if_true]
    rw [← Finset.mul_sum]
    generalize ∑ i, (c i).m * sep d (c i).r (q j) k * invd (sep d (c i).r (q j)) ^ 3 = Y
    simp only [invd, one_div, inv_pow, div_eq_mul_inv]
    ring
  simp only [h1, h2]
  rw [Finset.sum_comm, Finset.sum_neg_distrib]
  ring

/-- **C78 (perturbers, partly).** Perturbers without a jerk are put where their own prediction puts them. -/
theorem C78_perturber_partial (p : Inner.Pert n) (h : p.adot0 = fun _ => 0) (t : ℝ) :
    pertR (copyPert p) t = pertR p t ∧ pertV (copyPert p) t = pertV p t := by
  constructor <;> funext k <;> simp [pertR, pertV, copyPert, h]

/-- **C78 fails (jerk of the perturbers).** The copies of the perturbers have no jerk at the beginning of
their step (it is copied into another member, which is overwritten): a perturber with a jerk is put elsewhere,
by the whole term of the jerk. -/
theorem C78_perturber_fails : ∃ (p : Inner.Pert 1) (t : ℝ), pertR (copyPert p) t ≠ pertR p t ∧
    pertV (copyPert p) t ≠ pertV p t := by
  refine ⟨⟨fun _ => 0, fun _ => 0, fun _ => 0, fun _ => 1, fun _ => 1, 1, 0⟩, 1, fun h => ?_, fun h => ?_⟩
  · have := congrFun h 0
    norm_num [pertR, copyPert] at this
  · have := congrFun h 0
    norm_num [pertV, copyPert] at this

section loop
variable (d : Domain n ℝ) (S : Sys n) (p : Fin P → Inner.Pert n) (ae : Vec n ℝ) (ge big tend : ℝ) (ts : Child n → ℝ)

/-- **C78 (end of the loop).** When the loop over the sub-steps ends, the local time has reached the end of
the step of the system and exceeds it by at most the fraction `10⁻¹⁴` of the step. -/
theorem C78_loop (hts : ∀ x, 0 ≤ ts x) (hbig : 0 ≤ big) (fuel : ℕ) (s s' : State n N) (hs : s.t ≤ tend)
    (h : loop d S p ae ge big tend ts fuel s = some s') :
    tend ≤ s'.t ∧ s'.t ≤ tend + 0.00000000000001 * (tend - s.t) := by
  obtain ⟨k, _, hj, he, ht⟩ := loop_spec d S p ae ge big tend ts fuel s s' h
  refine ⟨ht, ?_⟩
  have hle : ∀ j, j ≤ k → ((round d S p ae ge big tend ts)^[j] s).t ≤ tend := by
    intro j hjk
    rcases Nat.eq_zero_or_pos j with h0 | h0
    · subst h0; exact hs
    · exact (hj j h0 hjk).le
  have hm := iter_mono d S p ae ge big tend ts hts hbig k s hle
  have hk := hle k le_rfl
  rw [he, Function.iterate_succ_apply']
  change ((round d S p ae ge big tend ts)^[k] s).t + dtOf big tend ts _ ≤ _
  have h1 := (dtOf_le big tend ts ((round d S p ae ge big tend ts)^[k] s)).2.1
  nlinarith

/-- **C78 (the loop ends).** If the step of no member ever falls below some `τ > 0`, the loop ends, after no
more than `K` sub-steps when `K·τ` covers the step of the system. -/
theorem C78_ends {τ : ℝ} (hτ : 0 < τ) (hbig : τ ≤ big) (s : State n N) (hs : s.t < tend)
    (hts : ∀ k i, τ ≤ ts (((round d S p ae ge big tend ts)^[k] s).c i)) (K : ℕ) (hK : tend ≤ s.t + K * τ) :
    ∃ s', loop d S p ae ge big tend ts K s = some s' := by
  have h0 : 0 < K := by
    rcases Nat.eq_zero_or_pos K with h0 | h0
    · subst h0; simp at hK; linarith
    · exact h0
  rcases iter_progress d S p ae ge big tend ts hτ hbig s hs hts K with ⟨j, hj, h⟩ | h
  · exact loop_ends d S p ae ge big tend ts K s j hj h
  · refine loop_ends d S p ae ge big tend ts K s (K - 1) (by omega) ?_
    rw [Nat.sub_add_cancel h0]
    linarith

example (s : State n N) (hs : s.t < tend) (hbig : 1 ≤ big) : ∃ K s', loop d S p ae ge big tend (fun _ => 1) K s = some s' ∧
    tend ≤ s'.t := by
  obtain ⟨K, hK⟩ := exists_nat_ge (tend - s.t)
  obtain ⟨s', h⟩ := C78_ends d S p ae ge big tend (fun _ => 1) one_pos hbig s hs (fun _ _ => le_rfl) K (by linarith)
  exact ⟨K, s', h, (C78_loop d S p ae ge big tend (fun _ => 1) (fun _ => zero_le_one) (by linarith) K s s' hs.le h).1⟩

/-- **C78 (centre of mass).** After every sub-step the members have the centre of mass of the system at the
end of the step of the system, its velocity and its acceleration. -/
theorem C78_centre (s : State n N) (hm : ∑ i, (s.c i).m ≠ 0) :
    CentredOn (round d S p ae ge big tend ts s).c S.r S.v S.a :=
  substep_centred d S p ae ge _ s.c hm

/-- **C78 (a sub-step, partly).** Without perturbers, in an open box, a sub-step moves the members, relative to
each other, by a kick-drift-kick step of the length of the sub-step under Newton's gravity, provided the
clocks of all members (`tlast`) show the beginning of the sub-step. -/
theorem C78_step_partial (hd : OpenBox d) (p : Fin 0 → Inner.Pert n) (s : State n N) (h : ∀ i, (s.c i).tlast = s.t) :
    RelStep (dtOf big tend ts s) s.c (round d S p ae ge big tend ts s).c := by
  have := substep_rel hd S p ae ge (s.t + dtOf big tend ts s) s.t s.c h
  rwa [add_sub_cancel_left] at this

/-- **C78 (clocks stand still).** The clocks of the members are set by `EndTimestep` only if their flag
`end_timestep` is up, which nothing in the loop raises. So, if it is down, in every sub-step the members move
relative to each other by a step that began when the clocks last were set, not when the sub-step began. -/
theorem C78_clock (hd : OpenBox d) (p : Fin 0 → Inner.Pert n) (s : State n N) (t0 : ℝ) (h : ∀ i, (s.c i).tlast = t0)
    (he : ∀ i, (s.c i).ended = false) (k : ℕ) :
    RelStep (((round d S p ae ge big tend ts)^[k + 1] s).t - t0) ((round d S p ae ge big tend ts)^[k] s).c
      ((round d S p ae ge big tend ts)^[k + 1] s).c ∧
    ∀ i, (((round d S p ae ge big tend ts)^[k + 1] s).c i).tlast = t0 := by
  refine ⟨?_, fun i => ((iter_clock d S p ae ge big tend ts (k + 1) s i (he i)).1).trans (h i)⟩
  rw [Function.iterate_succ_apply']
  exact substep_rel hd S p ae ge _ t0 _ fun i => ((iter_clock d S p ae ge big tend ts k s i (he i)).1).trans (h i)

end loop

theorem Inner.apart_arith {B τ α : ℝ} (p : 0 < τ) (b : τ ≤ B) (h : -2 ≤ α) :
    1 ≤ 1 + 6 * B * τ + 1 / 2 * α * τ ^ 2 := by
  have h2 : -2 * τ ^ 2 ≤ α * τ ^ 2 := mul_le_mul_of_nonneg_right h (sq_nonneg _)
  have h3 : τ * τ ≤ B * τ := mul_le_mul_of_nonneg_right b p.le
  nlinarith

theorem Inner.late_arith {B τ1 τ2 α0 α1 w X : ℝ} (p1 : 0 < τ1) (p2 : 0 < τ2) (b1 : τ1 ≤ B) (b2 : τ2 ≤ B)
    (h0 : -2 ≤ α0) (h1 : -2 ≤ α1) (hw : w = 6 * B + 1 / 2 * (α0 + α1) * τ1)
    (hr : X + w * (τ1 + τ2) + 1 / 2 * α1 * (τ1 + τ2) ^ 2 = X + w * τ2 + 1 / 2 * α1 * τ2 ^ 2) : False := by
  have key : τ1 * (6 * B + 1 / 2 * α0 * τ1 + α1 * (τ1 + τ2)) = 0 := by
    rw [hw] at hr
    linear_combination hr
  rcases mul_eq_zero.1 key with h | h
  · exact p1.ne' h
  · have := mul_le_mul_of_nonneg_right h0 p1.le
    have := mul_le_mul_of_nonneg_right h1 (add_pos p1 p2).le
    linarith

/-- **C78 fails (second sub-step).** For all parameters of the step of the scheme there is a free binary,
clocks showing the beginning of the step, that needs more than one sub-step and is moved wrongly in the second:
not by a step of the length of that sub-step. -/
theorem C78_clock_fails (mult small big h : ℝ) (hm : 0 < mult) (hs : 0 < small) (hb : 0 < big) (hh : 0 < h)
    (p : Fin 0 → Inner.Pert 1) : ∃ (S : Sys 1) (c : Fin 2 → Child 1) (tend : ℝ),
    (∀ i, (c i).tlast = 0 ∧ (c i).r0 = (c i).r ∧ (c i).v0 = (c i).v ∧ (c i).m = 1 ∧ (c i).h = h ∧
      (c i).ended = false) ∧
    let s : ℕ → State 1 2 := fun k => (round (bigBox 1 .open_) S p (aext (bigBox 1 .open_) S p 0 c)
      (gpotext (bigBox 1 .open_) S p 0 c) big tend (kdkStep mult small big))^[k]
        ⟨0, start (bigBox 1 .open_) S p 0 c⟩
    (s 1).t < tend ∧ ¬RelStep ((s 2).t - (s 1).t) (s 1).c (s 2).c := by
  set B := mult * √(h / small) with hB
  have hBpos : 0 < B := mul_pos hm (Real.sqrt_pos.2 (by positivity))
  have hd : OpenBox (bigBox 1 .open_) := fun k => by simp [bigBox]
  refine ⟨binarySys 0 0 (3 * B), binary h 0 (6 * B), 3 * B, fun i => ⟨rfl, rfl, rfl, rfl, rfl, rfl⟩, ?_⟩
  set d := bigBox 1 .open_
  set S := binarySys 0 0 (3 * B)
  set c := binary h 0 (6 * B) with hc
  set ts : Child 1 → ℝ := kdkStep mult small big
  set f := round (N := 2) d S p (aext d S p 0 c) (gpotext d S p 0 c) big (3 * B) ts with hf
  set s0 : State 1 2 := ⟨0, start d S p 0 c⟩ with hs0
  intro s
  have hk0 : ∀ i, (s0.c i).tlast = 0 := fun i => (start_keep d S p 0 c i).2.2.2.1
  have he0 : ∀ i, (s0.c i).ended = false := fun i => (start_keep d S p 0 c i).2.2.2.2.1
  have hh0 : ∀ k i, ((f^[k] s0).c i).h = h := fun k i =>
    (iter_m d S p _ _ big _ ts k s0 i).2.trans (start_keep d S p 0 c i).2.2.2.2.2.2.2.2
  have hm0 : ∀ k i, ((f^[k] s0).c i).m = 1 := fun k i =>
    (iter_m d S p _ _ big _ ts k s0 i).1.trans (start_keep d S p 0 c i).1
  have hts : ∀ k i, 0 < ts ((f^[k] s0).c i) ∧ ts ((f^[k] s0).c i) ≤ B := fun k i =>
    kdkStep_bounds hm hs hb hh _ (hh0 k i)
  have e1 : s 1 = f s0 := rfl
  have e2 : s 2 = f (f s0) := rfl
  have t1 : (f s0).t = 0 + dtOf big (3 * B) ts s0 := rfl
  have t2 : (f (f s0)).t = (f s0).t + dtOf big (3 * B) ts (f s0) := rfl
  have b1 : dtOf big (3 * B) ts s0 ≤ B := ((dtOf_le big (3 * B) ts s0).2.2 0).trans (hts 0 0).2
  have p1 : 0 < dtOf big (3 * B) ts s0 := dtOf_pos hb (by simp only [hs0]; linarith) fun i => (hts 0 i).1
  have b2 : dtOf big (3 * B) ts (f s0) ≤ B := ((dtOf_le big (3 * B) ts (f s0)).2.2 0).trans (hts 1 0).2
  have hlt : (f s0).t < 3 * B := by rw [t1]; linarith
  have p2 : 0 < dtOf big (3 * B) ts (f s0) := dtOf_pos hb hlt fun i => (hts 1 i).1
  refine ⟨by rw [e1]; exact hlt, fun hbad => ?_⟩
  rw [e1, e2] at hbad
  have G1 : RelStep ((f s0).t - 0) s0.c (f s0).c :=
    (C78_clock d S (aext d S p 0 c) (gpotext d S p 0 c) big (3 * B) ts hd p s0 0 hk0 he0 0).1
  have G2 : RelStep ((f (f s0)).t - 0) (f s0).c (f (f s0)).c :=
    (C78_clock d S (aext d S p 0 c) (gpotext d S p 0 c) big (3 * B) ts hd p s0 0 hk0 he0 1).1
  have g1 := G1 1 0 0
  have g2 := G2 1 0 0
  have g3 := hbad 1 0 0
  have c1 : ∀ i, ((f s0).c i).r0 = ((f s0).c i).r ∧ ((f s0).c i).v0 = ((f s0).c i).v ∧
      ((f s0).c i).a0 = ((f s0).c i).a := fun i =>
    (substep_clock d S p (aext d S p 0 c) (gpotext d S p 0 c) (0 + dtOf big (3 * B) ts s0) s0.c i (he0 i)).2.2
  obtain ⟨g1r, g1v, g1a⟩ := g1
  have g2r := g2.1
  have g3r := g3.1
  rw [g2r] at g3r
  -- the beginning
  have r0 : ∀ i, (s0.c i).r0 = (c i).r := fun i => (start_keep d S p 0 c i).2.2.2.2.2.1
  have v0 : ∀ i, (s0.c i).v0 = (c i).v := fun i => (start_keep d S p 0 c i).2.2.2.2.2.2.1
  have a0 : ∀ i, (s0.c i).a0 = (s0.c i).a := fun i => (start_keep d S p 0 c i).2.2.2.2.2.2.2.1
  have hx0 : (s0.c 1).r0 0 - (s0.c 0).r0 0 = 1 := by rw [r0, r0]; norm_num [hc, binary]
  have hw0 : (s0.c 1).v0 0 - (s0.c 0).v0 0 = 6 * B := by rw [v0, v0]; norm_num [hc, binary]; ring
  have hα0 : -2 ≤ (s0.c 1).a0 0 - (s0.c 0).a0 0 ∧ (s0.c 1).a0 0 - (s0.c 0).a0 0 ≤ 0 := by
    rw [a0, a0]
    have : (s0.c 1).a 0 - (s0.c 0).a 0 = grav (fun _ => 1) (fun i => (c i).r) 1 0 -
        grav (fun _ => 1) (fun i => (c i).r) 0 0 := by
      simp only [hs0]
      rw [start_rel hd, start_rel hd, add_sub_add_right_eq_sub]
      rfl
    rw [this]
    exact grav_two_diff _ (by norm_num [hc, binary])
  rw [hx0, hw0] at g1r
  rw [hw0] at g1v
  have hmm : (fun i => (s0.c i).m) = fun _ => (1:ℝ) := funext fun i => hm0 0 i
  rw [hmm] at g1a
  simp only [(c1 _).1, (c1 _).2.1, (c1 _).2.2] at g3r
  have T1 : (f s0).t - 0 = dtOf big (3 * B) ts s0 := by rw [t1]; ring
  have T2 : (f (f s0)).t - 0 = dtOf big (3 * B) ts s0 + dtOf big (3 * B) ts (f s0) := by rw [t2, t1]; ring
  have T3 : (f (f s0)).t - (f s0).t = dtOf big (3 * B) ts (f s0) := by rw [t2]; ring
  rw [T1] at g1r g1v
  rw [T2, T3] at g3r
  have hx1 : 1 ≤ ((f s0).c 1).r 0 - ((f s0).c 0).r 0 := by
    rw [g1r]; exact Inner.apart_arith p1 b1 hα0.1
  have hα1 := grav_two_diff (fun i => ((f s0).c i).r) hx1
  rw [← g1a] at hα1
  exact Inner.late_arith p1 p2 b1 b2 hα0.1 hα1.1 g1v g3r

/-- **C78 fails (place of the system between the sub-steps).** Already after the first of several sub-steps the
members are put where the system is at the end of its step: for a free binary moving along, that is ahead of
where it is at the time reached. -/
theorem C78_ahead_fails (mult small big h : ℝ) (hm : 0 < mult) (hs : 0 < small) (hb : 0 < big) (hh : 0 < h)
    (p : Fin 0 → Inner.Pert 1) : ∃ (c : Fin 2 → Child 1) (tend : ℝ),
    CentredOn c (fun _ => 0) (fun _ => 1) (fun _ => 0) ∧
    let S := binarySys 1 0 tend
    let s := round (bigBox 1 .open_) S p (aext (bigBox 1 .open_) S p 0 c) (gpotext (bigBox 1 .open_) S p 0 c) big tend
      (kdkStep mult small big) ⟨0, start (bigBox 1 .open_) S p 0 c⟩
    s.t < tend ∧ (∀ k, S.r k = 1 * tend) ∧ ¬CentredOn s.c (fun _ => 1 * s.t) (fun _ => 1) (fun _ => 0) := by
  set B := mult * √(h / small) with hB
  have hBpos : 0 < B := mul_pos hm (Real.sqrt_pos.2 (by positivity))
  refine ⟨binary h 1 0, 3 * B, ?_, ?_⟩
  · intro k
    simp [binary, Fin.sum_univ_two]
    norm_num
  · set d := bigBox 1 .open_
    set c := binary h 1 0
    intro S s
    have hms : ∀ i, (start d S p 0 c i).m = 1 := fun i => (start_keep d S p 0 c i).1
    have b1 : s.t < 3 * B := by
      have := (dtOf_le big (3 * B) (kdkStep mult small big) ⟨0, start d S p 0 c⟩).2.2 0
      have h2 := (kdkStep_bounds hm hs hb hh (start d S p 0 c 0) (start_keep d S p 0 c 0).2.2.2.2.2.2.2.2).2
      change 0 + dtOf big (3 * B) (kdkStep mult small big) ⟨0, start d S p 0 c⟩ < 3 * B
      linarith
    refine ⟨b1, fun k => rfl, fun hbad => ?_⟩
    have hce := C78_centre d S p (aext d S p 0 c) (gpotext d S p 0 c) big (3 * B) (kdkStep mult small big)
      ⟨0, start d S p 0 c⟩ (by simp only [hms]; norm_num)
    have h1 := (hce 0).1
    have h2 := (hbad 0).1
    rw [h1] at h2
    have hmm : ∑ i, (s.c i).m = 2 := by
      have : ∀ i, (s.c i).m = 1 := fun i => (substep_m d S p _ _ _ _ i).1.trans (hms i)
      simp only [this]; norm_num
    change (∑ i, (s.c i).m) * (1 * (3 * B)) = _ at h2
    rw [hmm] at h2
    linarith

/-- **C78 (energy, partly).** In an open box, when no potential remains from outside, `gpe_internal` after the
integration is the energy of the members in their own gravity where they end up. -/
theorem C78_energy_partial (d : Domain n ℝ) (hd : OpenBox d) (S : Sys n) (p : Fin P → Inner.Pert n) (big tstart tend : ℝ)
    (ts : Child n → ℝ) (fuel : ℕ) (c : Fin N → Child n) (hm : ∀ i, (c i).m ≠ 0) (s : State n N) (e : ℝ)
    (h : integrate d S p big tstart tend ts fuel c = some (s, e)) (h0 : gpotext d S p tstart c = 0) :
    e = pairEnergy (fun i => (c i).m) (fun i => (s.c i).r) := by
  have := Inner.integrate_energy hd S p big tstart tend ts fuel c hm s e h
  rw [h0] at this
  simpa using this

/-- a binary whose step ends after one sub-step -/
theorem Inner.binary_runs (p : Fin 0 → Inner.Pert 1) (big g : ℝ) (hb : 10 ≤ big) :
    integrate (bigBox 1 .open_) (binarySys 0 g 1) p big 0 1 (kdkStep 2 1 big) 1 (binary 8 0 2) =
      some (round (bigBox 1 .open_) (binarySys 0 g 1) p (aext (bigBox 1 .open_) (binarySys 0 g 1) p 0 (binary 8 0 2))
        (gpotext (bigBox 1 .open_) (binarySys 0 g 1) p 0 (binary 8 0 2)) big 1 (kdkStep 2 1 big)
        ⟨0, start (bigBox 1 .open_) (binarySys 0 g 1) p 0 (binary 8 0 2)⟩,
        gpeInternal (gpotext (bigBox 1 .open_) (binarySys 0 g 1) p 0 (binary 8 0 2))
        (round (bigBox 1 .open_) (binarySys 0 g 1) p (aext (bigBox 1 .open_) (binarySys 0 g 1) p 0 (binary 8 0 2))
        (gpotext (bigBox 1 .open_) (binarySys 0 g 1) p 0 (binary 8 0 2)) big 1 (kdkStep 2 1 big)
        ⟨0, start (bigBox 1 .open_) (binarySys 0 g 1) p 0 (binary 8 0 2)⟩).c) := by
  have hd : OpenBox (bigBox 1 .open_) := fun k => by simp [bigBox]
  set d := bigBox 1 .open_
  set S := binarySys 0 g 1
  set c := binary 8 0 2 with hc
  set s0 : State 1 2 := ⟨0, start d S p 0 c⟩ with hs0
  have hS : S.m ≠ 0 := by norm_num [S, binarySys]
  have ha : ∀ i, dot (s0.c i).a (s0.c i).a = 1 := by
    intro i
    have hae := aext_none d S p 0 c hS 0
    have : S.a0 0 = 0 := rfl
    rw [this] at hae
    obtain ⟨g0, g1⟩ := grav_two (fun i => (c i).r) (by norm_num [hc, binary])
    have e : (s0.c i).a 0 = grav (fun _ => 1) (fun i => (c i).r) i 0 := by
      simp only [hs0]
      rw [start_rel hd, hae, add_zero]
      rfl
    simp only [dot, Fin.sum_univ_one, e]
    fin_cases i
    · simp only [Fin.zero_eta]; rw [g0]; norm_num [hc, binary]
    · simp only [Fin.mk_one]; rw [g1]; norm_num [hc, binary]
  have hst : ∀ i, kdkStep 2 1 big (s0.c i) = 4 := by
    intro i
    have hh : (s0.c i).h = 8 := (start_keep d S p 0 c i).2.2.2.2.2.2.2.2
    rw [kdkStep, ha i, hh, Real.sqrt_one]
    have : √(8 / (1 + 1)) = 2 := by
      rw [show (8:ℝ) / (1 + 1) = 2 ^ 2 by norm_num, Real.sqrt_sq (by norm_num)]
    rw [this]
    exact min_eq_left (by linarith) |>.trans (by norm_num)
  have hdt : 1.00000000000001 ≤ dtOf big 1 (kdkStep 2 1 big) s0 :=
    le_dtOf (by linarith) (by norm_num [hs0]) fun i => by rw [hst]; norm_num
  have hl : loop d S p (aext d S p 0 c) (gpotext d S p 0 c) big 1 (kdkStep 2 1 big) 1 s0 =
      some (round d S p (aext d S p 0 c) (gpotext d S p 0 c) big 1 (kdkStep 2 1 big) s0) := by
    rw [loop]
    refine if_neg (not_lt.2 ?_)
    change 1 ≤ 0 + dtOf big 1 (kdkStep 2 1 big) s0
    linarith
  simp only [integrate]
  rw [hl]
  rfl

example (p : Fin 0 → Inner.Pert 1) : ∃ s e, integrate (bigBox 1 .open_) (binarySys 0 0 1) p 10 0 1 (kdkStep 2 1 10) 1
    (binary 8 0 2) = some (s, e) ∧ e = pairEnergy (fun i => (binary 8 0 2 i).m) (fun i => (s.c i).r) :=
  ⟨_, _, Inner.binary_runs p 10 0 le_rfl, C78_energy_partial _ (fun k => by simp [bigBox]) _ p 10 0 1 _ 1 _
    (fun i => by norm_num [binary]) _ _ (Inner.binary_runs p 10 0 le_rfl)
    (gpotext_none _ _ p 0 _ (by norm_num [binarySys]))⟩

/-- **C78 fails (energy).** The potential from outside is taken off twice: for a binary in the potential of
other stars `gpe_internal` is not the energy of its members in their own gravity, it can be negative. -/
theorem C78_energy_fails (p : Fin 0 → Inner.Pert 1) (big : ℝ) (hb : 10 ≤ big) : ∃ s e,
    integrate (bigBox 1 .open_) (binarySys 0 2 1) p big 0 1 (kdkStep 2 1 big) 1 (binary 8 0 2) = some (s, e) ∧
    0 < pairEnergy (fun _ => 1) (fun i => (s.c i).r) ∧ e < pairEnergy (fun _ => 1) (fun i => (s.c i).r) := by
  have hd : OpenBox (bigBox 1 .open_) := fun k => by simp [bigBox]
  have hint := Inner.binary_runs p big 2 hb
  set d := bigBox 1 .open_
  set S := binarySys 0 2 1
  set c := binary 8 0 2 with hc
  set s0 : State 1 2 := ⟨0, start d S p 0 c⟩ with hs0
  have hS : S.m ≠ 0 := by norm_num [S, binarySys]
  set s1 := round d S p (aext d S p 0 c) (gpotext d S p 0 c) big 1 (kdkStep 2 1 big) s0 with hs1
  have hen := Inner.integrate_energy hd S p big 0 1 (kdkStep 2 1 big) 1 c (fun i => by norm_num [hc, binary]) _ _ hint
  have hm1 : (fun i => (c i).m) = fun _ => (1:ℝ) := rfl
  have hge : gpotext d S p 0 c = 2 := gpotext_none d S p 0 c hS
  rw [hm1] at hen
  refine ⟨_, _, hint, ?_, ?_⟩
  · -- the distance at the end
    have hk0 : ∀ i, (s0.c i).tlast = s0.t := fun i => (start_keep d S p 0 c i).2.2.2.1
    have hr := (C78_step_partial d S (aext d S p 0 c) (gpotext d S p 0 c) big 1 (kdkStep 2 1 big) hd p s0 hk0 1 0 0).1
    have r0 : ∀ i, (s0.c i).r0 = (c i).r := fun i => (start_keep d S p 0 c i).2.2.2.2.2.1
    have v0 : ∀ i, (s0.c i).v0 = (c i).v := fun i => (start_keep d S p 0 c i).2.2.2.2.2.2.1
    have a0 : ∀ i, (s0.c i).a0 = (s0.c i).a := fun i => (start_keep d S p 0 c i).2.2.2.2.2.2.2.1
    have hx0 : (s0.c 1).r0 0 - (s0.c 0).r0 0 = 1 := by rw [r0, r0]; norm_num [hc, binary]
    have hw0 : (s0.c 1).v0 0 - (s0.c 0).v0 0 = 2 := by rw [v0, v0]; norm_num [hc, binary]
    have hα0 : -2 ≤ (s0.c 1).a0 0 - (s0.c 0).a0 0 := by
      rw [a0, a0]
      have : (s0.c 1).a 0 - (s0.c 0).a 0 = grav (fun _ => 1) (fun i => (c i).r) 1 0 -
          grav (fun _ => 1) (fun i => (c i).r) 0 0 := by
        simp only [hs0]
        rw [start_rel hd, start_rel hd, add_sub_add_right_eq_sub]
        rfl
      rw [this]
      exact (grav_two_diff _ (by norm_num [hc, binary])).1
    rw [hx0, hw0] at hr
    have hτ : dtOf big 1 (kdkStep 2 1 big) s0 ≤ 1.00000000000001 := by
      have := (dtOf_le big 1 (kdkStep 2 1 big) s0).2.1
      norm_num [hs0] at this ⊢
      exact this
    have hτ0 : 0 < dtOf big 1 (kdkStep 2 1 big) s0 := dtOf_pos (by linarith) (by simp [hs0]) fun i =>
      (kdkStep_bounds (by norm_num) one_pos (by linarith) (by norm_num : (0:ℝ) < 8) (s0.c i)
        (start_keep d S p 0 c i).2.2.2.2.2.2.2.2).1
    set τ := dtOf big 1 (kdkStep 2 1 big) s0
    have hpos : 0 < (s1.c 1).r 0 - (s1.c 0).r 0 := by
      change (s1.c 1).r 0 - (s1.c 0).r 0 = _ at hr
      rw [hr]
      have : (0:ℝ) ≤ τ ^ 2 := sq_nonneg _
      have h2 : τ ^ 2 ≤ 2 := by nlinarith
      nlinarith
    have hs1' : 0 < √(((s1.c 1).r 0 - (s1.c 0).r 0) ^ 2) := Real.sqrt_pos.2 (by positivity)
    have hs2' : 0 < √(((s1.c 0).r 0 - (s1.c 1).r 0) ^ 2) := by
      rw [show ((s1.c 0).r 0 - (s1.c 1).r 0) ^ 2 = ((s1.c 1).r 0 - (s1.c 0).r 0) ^ 2 by ring]; exact hs1'
    simp only [pairEnergy, Fin.sum_univ_two, Fin.sum_univ_one]
    simp only [if_true, zero_ne_one, one_ne_zero, if_false]
    positivity
  · rw [hen, hge]
    norm_num

end Gandalf
