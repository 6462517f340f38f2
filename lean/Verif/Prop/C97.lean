import Verif.Proof.MfvGravity
import Verif.Prop.C30
import Verif.Prop.C31

/-!
# C97: gravity of the meshless schemes
-/

set_option autoImplicit false
set_option linter.unusedSectionVars false

namespace Gandalf

open MfvGrav Gravity

variable {n N : ℕ}

namespace C97

/-- unit masses with smoothing length 1, four apart, at rest since the start -/
noncomputable def two : Fin 2 → MfvGrav.Part 3 := fun i =>
  ⟨![4 * (i : ℝ), 0, 0], 1, 1, 0, 0, true, true, fun _ => 0, fun _ => 0, 0, 0⟩

noncomputable def twoL : Fin 2 → Lists 3 := fun i => ⟨[], [], [two (1 - i)], fun _ => 0, 0⟩

theorem two_dist (sm : ℝ) : gdist sm (two 0).r (two 1).r = √(16 + sm) := by
  unfold gdist two
  congr 2
  rw [Fin.sum_univ_three]
  simp
  norm_num

theorem two_split : Split (m4Kernel 3) two twoL := by
  have d0 : gdist 0 (two 0).r (two 1).r = 4 := by
    rw [two_dist, add_zero, show (16 : ℝ) = 4 ^ 2 by norm_num, Real.sqrt_sq (by norm_num)]
  refine ⟨fun i => ⟨[1 - i], by simp, fun j => ?_, ?_⟩, fun i q hq => ?_, fun i => ⟨rfl, rfl⟩⟩
  · revert i j; decide
  · simp [twoL]
  · have e : q = two (1 - i) := by simpa [twoL] using hq
    subst e
    refine ⟨by norm_num [two], ?_⟩
    have h : gdist 0 (two i).r (two (1 - i)).r = 4 := by
      fin_cases i
      · exact d0
      · rw [gdist_symm]; exact d0
    unfold Apart
    rw [h]
    norm_num [two, m4Kernel]

/-- the field of a step does not depend on what the last one left -/
theorem zeroed (sys : Fin N → MfvGrav.Part n) {i : Fin N} (h : (sys i).active = true) :
    MfvGrav.zeroAcc sys i = { sys i with
      a := fun _ => 0
      atree := fun _ => 0
      gpot := 0
      gpot_hydro := 0 } := if_pos h

theorem sum_mem {l : List (Fin N)} {i : Fin N} (h : l.Nodup) (hl : ∀ j, j ∈ l ↔ j ≠ i) (f : Fin N → ℝ) :
    (l.map f).sum = ∑ j ∈ Finset.univ.erase i, f j := by
  rw [← List.sum_toFinset _ h]
  exact Finset.sum_congr (by ext j; simp [hl]) fun _ _ => rfl

end C97

/-- **C97, sums.** In the MUSCL scheme an active particle with self-gravity has after the gravity phase, whatever it
had before: as acceleration the smoothed pull of the two lists of near particles, Newton's of the list of distant ones, the
field of the cells and the smoothed pull of every star; the same in `atree`; the potential likewise, with the term for
itself; and in `gpot_hydro` the potential of the gas alone. -/
theorem C97_sum (K : Kernel) (sm : ℝ) (stars : List (MfvGrav.Star n)) (L : Fin N → Lists n)
    (sys : Fin N → MfvGrav.Part n) (i : Fin N) (ha : (sys i).active = true) (hs : (sys i).selfgrav = true)
    (hm : (sys i).m ≠ 0) :
    let p := sys i
    let q := musclGravity K sm true stars L sys i
    let g := fun k => (((L i).hyd ++ (L i).smo).map fun x => MfvGrav.pull K sm p x k).sum +
      ((L i).dir.map fun x => newton sm p.r x.m x.r k).sum + (L i).fa k + (stars.map fun s => starPull K sm p s k).sum
    let w := p.m / p.h * K.wpot 0 + (((L i).hyd ++ (L i).smo).map fun x => MfvGrav.well K sm p x).sum +
      ((L i).dir.map fun x => x.m / gdist sm p.r x.r).sum + (L i).fpot
    q.a = g ∧ q.atree = g ∧ q.gpot = w + (stars.map fun s => starWell K sm p s).sum ∧ q.gpot_hydro = w := by
  intro p q g w
  set z := MfvGrav.zeroAcc sys with hz
  have ez : z i = _ := C97.zeroed sys ha
  have hq : q = addMain (z i) (loopCopy K sm true stars (L i) (z i)) := by
    change (if true || decide (0 < stars.length) then updateAllGrav K sm true stars L z else z) i = _
    rw [Bool.true_or, if_pos rfl]
    refine if_pos ?_
    rw [ez]
    exact ha
  obtain ⟨h1, h2, h3⟩ := loopCopy_self K sm stars (L i) (p := z i) (by rw [ez]; exact hm) (by rw [ez]; exact hs)
  have g1 : ∀ k, gasA K sm (L i) (z i) k + (stars.map fun s => starPull K sm (z i) s k).sum = g k := fun k => by
    rw [ez]; rfl
  have g2 : gasPot K sm (L i) (z i) = w := by rw [ez]; rfl
  have g3 : (stars.map fun s => starWell K sm (z i) s).sum = (stars.map fun s => starWell K sm p s).sum := by
    rw [ez]; rfl
  rw [hq]
  refine ⟨?_, ?_, ?_, ?_⟩
  · funext k
    change (z i).a k + (loopCopy K sm true stars (L i) (z i)).atree k = _
    rw [h1 k, g1 k, ez]
    exact zero_add _
  · funext k
    change (z i).atree k + (loopCopy K sm true stars (L i) (z i)).atree k = _
    rw [h1 k, g1 k, ez]
    exact zero_add _
  · change (z i).gpot + (loopCopy K sm true stars (L i) (z i)).gpot = _
    rw [h2, g2, g3, ez]
    exact zero_add _
  · change (z i).gpot_hydro + (loopCopy K sm true stars (L i) (z i)).gpot_hydro = _
    rw [h3, g2, ez]
    exact zero_add _

/-- **C97, without self-gravity** (switched off, or of a type without it): the stars alone act on an active particle. -/
theorem C97_stars_only (K : Kernel) (sm : ℝ) (g : Bool) (stars : List (MfvGrav.Star n)) (L : Fin N → Lists n)
    (sys : Fin N → MfvGrav.Part n) (i : Fin N) (ha : (sys i).active = true) (hs : (g && (sys i).selfgrav) = false) :
    let q := musclGravity K sm g stars L sys i
    (q.a = fun k => (stars.map fun s => starPull K sm (sys i) s k).sum) ∧ q.atree = q.a ∧
    q.gpot = (if g then (sys i).m / (sys i).h * K.wpot 0 else 0) + (stars.map fun s => starWell K sm (sys i) s).sum := by
  intro q
  set z := MfvGrav.zeroAcc sys with hz
  have ez : z i = _ := C97.zeroed sys ha
  by_cases hc : (g || decide (0 < stars.length)) = true
  · have hq : q = addMain (z i) (loopCopy K sm g stars (L i) (z i)) := by
      change (if g || decide (0 < stars.length) then updateAllGrav K sm g stars L z else z) i = _
      rw [if_pos hc]
      refine if_pos ?_
      rw [ez]
      exact ha
    obtain ⟨h1, h2, h3⟩ := loopCopy_other K sm g stars (L i) (p := z i) (by rw [ez]; exact hs)
    have e1 : ∀ k, (loopCopy K sm g stars (L i) (z i)).atree k = (stars.map fun s => starPull K sm (sys i) s k).sum :=
      fun k => by rw [h1 k, ez]; rfl
    rw [hq]
    have A : (addMain (z i) (loopCopy K sm g stars (L i) (z i))).a =
        fun k => (stars.map fun s => starPull K sm (sys i) s k).sum := by
      funext k
      change (z i).a k + (loopCopy K sm g stars (L i) (z i)).atree k = _
      rw [e1 k, ez]
      exact zero_add _
    refine ⟨A, ?_, ?_⟩
    · rw [A]
      funext k
      change (z i).atree k + (loopCopy K sm g stars (L i) (z i)).atree k = _
      rw [e1 k, ez]
      exact zero_add _
    · change (z i).gpot + (loopCopy K sm g stars (L i) (z i)).gpot = _
      rw [h2, ez]
      exact zero_add _
  · have hg : g = false := by
      cases g
      · rfl
      · exact absurd rfl hc
    have hst : stars = [] := by
      subst hg
      cases stars with
      | nil => rfl
      | cons s l => exact absurd (by simp) hc
    have hq : q = z i := by
      change (if g || decide (0 < stars.length) then updateAllGrav K sm g stars L z else z) i = _
      rw [if_neg hc]
    rw [hq, ez, hst, hg]
    exact ⟨rfl, rfl, by simp⟩

/-- **C97, inactive particles** keep everything. -/
theorem C97_inactive (K : Kernel) (sm : ℝ) (g : Bool) (stars : List (MfvGrav.Star n)) (L : Fin N → Lists n)
    (sys : Fin N → MfvGrav.Part n) (i : Fin N) (ha : (sys i).active = false) :
    musclGravity K sm g stars L sys i = sys i ∧ rkGravity K sm g stars L sys i = sys i := by
  have h0 : MfvGrav.zeroAcc sys i = sys i := if_neg (by rw [ha]; decide)
  have h1 : ∀ z : Fin N → MfvGrav.Part n, z i = sys i → updateAllGrav K sm g stars L z i = z i := fun z hz =>
    if_neg (by rw [hz, ha]; decide)
  constructor
  · change (if g || decide (0 < stars.length) then updateAllGrav K sm g stars L (MfvGrav.zeroAcc sys)
      else MfvGrav.zeroAcc sys) i = _
    split_ifs
    · rw [h1 _ h0, h0]
    · exact h0
  · unfold rkGravity
    split_ifs
    · exact h1 _ rfl
    · rfl

/-- **C97, one law.** Wherever the line between the lists is drawn, as long as the pairs summed directly are outside each
other's kernels: the acceleration is the smoothed law summed over all other particles. -/
theorem C97_one_law {K : Kernel} {n' : ℕ} (hK : K.Valid n') (hG : K.GravityOK) {sm : ℝ} (hsm : 0 ≤ sm)
    {L : Fin N → Lists n} {sys : Fin N → MfvGrav.Part n} (hL : Split K sys L) (i : Fin N)
    (ha : (sys i).active = true) (hs : (sys i).selfgrav = true) (hm : (sys i).m ≠ 0) (hh : 0 < (sys i).h) (k : Fin n) :
    (musclGravity K sm true [] L sys i).a k = ∑ j ∈ Finset.univ.erase i, MfvGrav.pull K sm (sys i) (sys j) k ∧
    (musclGravity K sm true [] L sys i).gpot = (sys i).m / (sys i).h * K.wpot 0 +
      ∑ j ∈ Finset.univ.erase i, MfvGrav.well K sm (sys i) (sys j) := by
  obtain ⟨h1, -, h3, -⟩ := C97_sum K sm [] L sys i ha hs hm
  obtain ⟨l, hn, hl, hp⟩ := hL.all i
  have e1 : ((L i).dir.map fun x => newton sm (sys i).r x.m x.r k) =
      ((L i).dir.map fun x => MfvGrav.pull K sm (sys i) x k) := by
    refine List.map_congr_left fun x hx => ?_
    exact ((MfvGrav.pull_far hK hG hsm hm hh (hL.far i x hx).1 (hL.far i x hx).2).1 k).symm
  have e2 : ((L i).dir.map fun x => x.m / gdist sm (sys i).r x.r) =
      ((L i).dir.map fun x => MfvGrav.well K sm (sys i) x) := by
    refine List.map_congr_left fun x hx => ?_
    exact (MfvGrav.pull_far hK hG hsm hm hh (hL.far i x hx).1 (hL.far i x hx).2).2.symm
  constructor
  · rw [h1]
    beta_reduce
    rw [e1, (hL.near i).1]
    simp only [List.map_nil, List.sum_nil, add_zero]
    rw [← List.sum_append, ← List.map_append, (hp.map _).sum_eq, List.map_map]
    exact C97.sum_mem hn hl _
  · rw [h3, e2, (hL.near i).2]
    simp only [List.map_nil, List.sum_nil, add_zero]
    rw [add_assoc, ← List.sum_append, ← List.map_append, (hp.map _).sum_eq, List.map_map]
    congr 1
    exact C97.sum_mem hn hl _

/-- **C97, action and reaction**, the terms of the smoothing lengths included; and the potential energy of a pair is the
same from both sides. -/
theorem C97_mutual (K : Kernel) (sm : ℝ) (p q : MfvGrav.Part n) (hp : p.m ≠ 0) (hq : q.m ≠ 0) (k : Fin n) :
    p.m * MfvGrav.pull K sm p q k = -(q.m * MfvGrav.pull K sm q p k) ∧
    p.m * MfvGrav.well K sm p q = q.m * MfvGrav.well K sm q p := by
  have e := gdist_symm sm p.r q.r
  constructor
  · unfold MfvGrav.pull strength
    rw [e]
    generalize gdist sm q.r p.r = s
    field_simp
    ring
  · unfold MfvGrav.well
    rw [e]
    generalize gdist sm q.r p.r = s
    ring

/-- **C97, momentum.** When all particles are active, gravity changes no momentum. -/
theorem C97_momentum {K : Kernel} {n' : ℕ} (hK : K.Valid n') (hG : K.GravityOK) {sm : ℝ} (hsm : 0 ≤ sm)
    {L : Fin N → Lists n} {sys : Fin N → MfvGrav.Part n} (hL : Split K sys L)
    (ha : ∀ i, (sys i).active = true) (hs : ∀ i, (sys i).selfgrav = true) (hm : ∀ i, (sys i).m ≠ 0)
    (hh : ∀ i, 0 < (sys i).h) (k : Fin n) :
    ∑ i, (sys i).m * (musclGravity K sm true [] L sys i).a k = 0 := by
  have e : ∀ i, (sys i).m * (musclGravity K sm true [] L sys i).a k =
      ∑ j, if j = i then 0 else (sys i).m * MfvGrav.pull K sm (sys i) (sys j) k := fun i => by
    rw [(C97_one_law hK hG hsm hL i (ha i) (hs i) (hm i) (hh i) k).1, Finset.mul_sum,
      ← Finset.add_sum_erase Finset.univ _ (Finset.mem_univ i), if_pos rfl, zero_add]
    exact Finset.sum_congr rfl fun j hj => (if_neg (Finset.ne_of_mem_erase hj)).symm
  simp only [e]
  set f : Fin N → Fin N → ℝ := fun i j => if j = i then 0 else (sys i).m * MfvGrav.pull K sm (sys i) (sys j) k with hf
  have anti : ∀ i j, f i j = -f j i := fun i j => by
    simp only [hf]
    by_cases h : j = i
    · subst h; simp
    · rw [if_neg h, if_neg (fun h' => h h'.symm)]
      exact (C97_mutual K sm (sys i) (sys j) (hm i) (hm j) k).1
  have s1 : ∑ i, ∑ j, f i j = -∑ i, ∑ j, f i j := by
    rw [← Finset.sum_neg_distrib]
    rw [Finset.sum_comm]
    refine Finset.sum_congr rfl fun i _ => ?_
    rw [← Finset.sum_neg_distrib]
    exact Finset.sum_congr rfl fun j _ => anti j i
  linarith

example : ∑ i, (C97.two i).m * (musclGravity (m4Kernel 3) 0 true [] C97.twoL C97.two i).a 0 = 0 :=
  C97_momentum (C30_m4_valid 3 (by norm_num)) C31_m4_gravity le_rfl C97.two_split (fun _ => rfl) (fun _ => rfl)
    (fun _ => one_ne_zero) (fun _ => one_pos) 0

/-- **C97, stars.** Outside the kernel with the mean smoothing length a star acts as a point mass. -/
theorem C97_star_far {K : Kernel} (hG : K.GravityOK) (hr : 0 < K.kernrange) {sm : ℝ} (hsm : 0 ≤ sm) (p : MfvGrav.Part n)
    (s : MfvGrav.Star n) (hp : 0 < p.h) (hs : 0 < s.h) (h : K.kernrange * ((p.h + s.h) / 2) ≤ gdist 0 p.r s.r)
    (k : Fin n) :
    starPull K sm p s k = newton sm p.r s.m s.r k ∧ starWell K sm p s = s.m / gdist sm p.r s.r := by
  have hH : 0 < (p.h + s.h) / 2 := by linarith
  have l : K.kernrange * ((p.h + s.h) / 2) ≤ gdist sm p.r s.r := h.trans (gdist_le hsm _ _)
  have hd : 0 < gdist sm p.r s.r := lt_of_lt_of_le (mul_pos hr hH) l
  have g := hG.newton (gdist sm p.r s.r / ((p.h + s.h) / 2)) (by rw [le_div_iff₀ hH]; exact l)
  simp only [starPull, starWell, newton]
  rw [g.1, g.2]
  generalize (p.h + s.h) / 2 = H at *
  constructor
  · field_simp
  · field_simp

/-- **C97, Runge-Kutta.** Nothing sets the accelerations of the gas back in this main loop: after `t` steps of particles
that keep their places they are `t` times too large, and so are `atree` and the potential. -/
theorem C97_rk_accumulates (K : Kernel) (sm : ℝ) (stars : List (MfvGrav.Star n)) (L : Fin N → Lists n)
    (sys : Fin N → MfvGrav.Part n) (i : Fin N) (ha : (sys i).active = true) (hs : (sys i).selfgrav = true)
    (hm : (sys i).m ≠ 0) (t : ℕ) :
    let right := musclGravity K sm true stars L sys i
    let q := (rkGravity K sm true stars L)^[t] sys i
    (∀ k, q.a k = (sys i).a k + t * right.a k) ∧ (∀ k, q.atree k = (sys i).atree k + t * right.atree k) ∧
    q.gpot = (sys i).gpot + t * right.gpot := by
  intro right
  obtain ⟨r1, r2, r3, -⟩ := C97_sum K sm stars L sys i ha hs hm
  suffices h : ∀ t : ℕ, let q := (rkGravity K sm true stars L)^[t] sys i
      (q.r = (sys i).r ∧ q.m = (sys i).m ∧ q.h = (sys i).h ∧ q.zeta = (sys i).zeta ∧ q.hfactor = (sys i).hfactor ∧
        q.selfgrav = (sys i).selfgrav ∧ q.active = (sys i).active) ∧
      (∀ k, q.a k = (sys i).a k + t * right.a k) ∧ (∀ k, q.atree k = (sys i).atree k + t * right.atree k) ∧
      q.gpot = (sys i).gpot + t * right.gpot from (h t).2
  intro t
  induction t with
  | zero =>
    exact ⟨⟨rfl, rfl, rfl, rfl, rfl, rfl, rfl⟩, fun k => by simp, fun k => by simp, by simp⟩
  | succ t ih =>
    intro q
    set z := (rkGravity K sm true stars L)^[t] sys with hz
    obtain ⟨⟨i1, i2, i3, i4, i5, i6, i7⟩, ia, it, ig⟩ := ih
    have hq : q = addMain (z i) (loopCopy K sm true stars (L i) (z i)) := by
      change (rkGravity K sm true stars L)^[t + 1] sys i = _
      rw [Function.iterate_succ_apply']
      exact if_pos (by rw [i7]; exact ha)
    obtain ⟨h1, h2, -⟩ := loopCopy_self K sm stars (L i) (p := z i) (by rw [i2]; exact hm) (by rw [i6]; exact hs)
    have c1 : ∀ x k, MfvGrav.pull K sm (z i) x k = MfvGrav.pull K sm (sys i) x k := fun x k => by
      unfold MfvGrav.pull strength; rw [i1, i2, i3, i4, i5]
    have c2 : ∀ x, MfvGrav.well K sm (z i) x = MfvGrav.well K sm (sys i) x := fun x => by
      unfold MfvGrav.well; rw [i1, i3]
    have c3 : ∀ s k, starPull K sm (z i) s k = starPull K sm (sys i) s k := fun s k => by
      unfold starPull; rw [i1, i3]
    have c4 : ∀ s, starWell K sm (z i) s = starWell K sm (sys i) s := fun s => by
      unfold starWell; rw [i1, i3]
    have A : ∀ k, (loopCopy K sm true stars (L i) (z i)).atree k = right.a k := fun k => by
      rw [h1 k]
      change _ = (musclGravity K sm true stars L sys i).a k
      rw [r1]
      unfold gasA
      simp only [c1, c3, i1]
    have G : (loopCopy K sm true stars (L i) (z i)).gpot = right.gpot := by
      rw [h2]
      change _ = (musclGravity K sm true stars L sys i).gpot
      rw [r3]
      unfold gasPot
      simp only [c2, c4, i1, i2, i3]
    have AT : right.atree = right.a := by
      change (musclGravity K sm true stars L sys i).atree = (musclGravity K sm true stars L sys i).a
      rw [r2, r1]
    rw [hq]
    refine ⟨⟨i1, i2, i3, i4, i5, i6, i7⟩, fun k => ?_, fun k => ?_, ?_⟩
    · change (z i).a k + (loopCopy K sm true stars (L i) (z i)).atree k = _
      rw [A k, ia k]
      push_cast
      ring
    · change (z i).atree k + (loopCopy K sm true stars (L i) (z i)).atree k = _
      rw [A k, it k, AT]
      push_cast
      ring
    · change (z i).gpot + (loopCopy K sm true stars (L i) (z i)).gpot = _
      rw [G, ig]
      push_cast
      ring

/-- **C97 fails for the Runge-Kutta scheme**: of two unit masses four apart each is pulled to the other; from the second
step on the acceleration is not the one of their places. -/
theorem C97_rk_fails (sm : ℝ) (hsm : 0 ≤ sm) (t : ℕ) (ht : 2 ≤ t) :
    0 < (musclGravity (m4Kernel 3) sm true [] C97.twoL C97.two 0).a 0 ∧
    ((rkGravity (m4Kernel 3) sm true [] C97.twoL)^[t] C97.two 0).a 0 ≠
      (musclGravity (m4Kernel 3) sm true [] C97.twoL C97.two 0).a 0 := by
  have pos : 0 < (musclGravity (m4Kernel 3) sm true [] C97.twoL C97.two 0).a 0 := by
    rw [(C97_sum (m4Kernel 3) sm [] C97.twoL C97.two 0 rfl rfl one_ne_zero).1]
    have e : (1 : Fin 2) - 0 = 1 := rfl
    simp only [C97.twoL, List.nil_append, List.map_nil, List.sum_nil, List.map_cons, List.sum_cons, add_zero, zero_add,
      newton, e, C97.two_dist]
    have : (0 : ℝ) < √(16 + sm) := Real.sqrt_pos.mpr (by linarith)
    have h4 : (C97.two 1).m * ((C97.two 1).r 0 - (C97.two 0).r 0) = 4 := by norm_num [C97.two]
    rw [h4]
    positivity
  refine ⟨pos, ?_⟩
  rw [(C97_rk_accumulates (m4Kernel 3) sm [] C97.twoL C97.two 0 rfl rfl one_ne_zero t).1 0]
  have h0 : (C97.two 0).a 0 = 0 := rfl
  have ht' : (2 : ℝ) ≤ t := by exact_mod_cast ht
  rw [h0]
  nlinarith

/-- **C97 fails for the Runge-Kutta scheme with stars**: without self-gravity of the gas the stars do not act on it. -/
theorem C97_rk_stars_fails (K : Kernel) (sm : ℝ) (stars : List (MfvGrav.Star n)) (L : Fin N → Lists n)
    (sys : Fin N → MfvGrav.Part n) (i : Fin N) (ha : (sys i).active = true) :
    rkGravity K sm false stars L sys i = sys i ∧
    (musclGravity K sm false stars L sys i).a = fun k => (stars.map fun s => starPull K sm (sys i) s k).sum :=
  ⟨rfl, (C97_stars_only K sm false stars L sys i ha rfl).1⟩

example : starPull (m4Kernel 3) 0 (C97.two 0) ⟨![2, 0, 0], 1, 1⟩ 0 = 1 / 4 := by
  have d : gdist 0 (C97.two 0).r (![2, 0, 0] : Vec 3 ℝ) = 2 := by
    unfold gdist C97.two
    rw [Fin.sum_univ_three, Real.sqrt_eq_iff_mul_self_eq_of_pos (by norm_num)]
    simp
    norm_num
  simp only [starPull]
  rw [d]
  norm_num [C97.two, m4Kernel, M4.wgrav]

end Gandalf
