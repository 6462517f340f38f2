import Verif.Spec.SphForces
import Verif.Spec.Kernel
import Verif.Proof.PairForces
import Mathlib.Analysis.Calculus.Deriv.MeanValue
import Mathlib.Algebra.BigOperators.Group.Finset.Sigma

/-! Closed forms of the SPH force loops, symmetry of pairs, and sums over images. -/

set_option autoImplicit false
set_option linter.unusedSectionVars false

namespace Gandalf.Sph

variable {n N : ℕ}

/-! ### pairs -/

theorem drmag_neg (sm : ℝ) (x : Vec n ℝ) : drmag sm (fun k => -x k) = drmag sm x := by
  simp [drmag, dot]

theorem unit_neg (sm : ℝ) (x : Vec n ℝ) (k : Fin n) : unit sm (fun k => -x k) k = -unit sm x k := by
  unfold unit
  rw [drmag_neg]
  by_cases h : 0 < drmag sm x
  · rw [if_pos h, if_pos h]; ring
  · rw [if_neg h, if_neg h]

theorem sub_swap (p q : Part n) : (fun k => p.r k - q.r k) = fun k => -(fun k => q.r k - p.r k : Vec n ℝ) k := by
  funext k; ring

theorem dist_comm (sm : ℝ) (p q : Part n) : dist sm q p = dist sm p q := by
  unfold dist
  rw [sub_swap p q, drmag_neg]

theorem unit_swap (sm : ℝ) (p q : Part n) (k : Fin n) :
    unit sm (fun k => p.r k - q.r k) k = -unit sm (fun k => q.r k - p.r k) k := by
  rw [sub_swap p q, unit_neg]

theorem dvdr_comm (sm : ℝ) (p q : Part n) : dvdr sm q p = dvdr sm p q := by
  have e : (unit sm fun k => p.r k - q.r k) = fun k => -unit sm (fun k => q.r k - p.r k) k :=
    funext fun k => unit_swap sm p q k
  unfold dvdr
  rw [e]
  simp only [dot, mul_neg, Finset.sum_neg_distrib]
  ring

theorem presPaux_comm (K : Kernel) (sm : ℝ) (p q : Part n) : presPaux K sm q p = presPaux K sm p q := by
  unfold presPaux; ring

theorem winvrho_comm (K : Kernel) (sm : ℝ) (p q : Part n) : winvrho K sm q p = winvrho K sm p q := by
  unfold winvrho; ring

theorem pairAlpha_comm (par : Par) (p q : Part n) : pairAlpha par q p = pairAlpha par p q := by
  unfold pairAlpha
  rw [add_comm q.alpha]

theorem vsignal_comm (par : Par) (sm al : ℝ) (p q : Part n) : vsignal par sm al q p = vsignal par sm al p q := by
  unfold vsignal
  rw [dvdr_comm, add_comm q.sound]

theorem viscPaux_comm (par : Par) (K : Kernel) (sm : ℝ) (p q : Part n) :
    viscPaux par K sm q p = viscPaux par K sm p q := by
  unfold viscPaux
  rw [dvdr_comm, pairAlpha_comm, winvrho_comm]
  simp only [vsignal_comm par sm _ p q]

/-- heat into a pair from viscosity is what the force takes from its kinetic energy -/
theorem viscHeat_eq (par : Par) (K : Kernel) (sm : ℝ) (p q : Part n) :
    viscHeat par K sm p q = 0.5 * q.m * dvdr sm p q * viscPaux par K sm p q := by
  unfold viscHeat viscPaux
  by_cases h : dvdr sm p q < 0
  · rw [if_pos h, if_pos h]
    cases pairAlpha par p q with
    | none => simp
    | some al => simp only; ring
  · rw [if_neg h, if_neg h]; ring

theorem condHeat_swap (par : Par) (K : Kernel) (sm : ℝ) (p q : Part n) :
    q.m * condHeat par K sm q p = -(p.m * condHeat par K sm p q) := by
  unfold condHeat
  rw [dvdr_comm]
  by_cases h : dvdr sm p q < 0
  · rw [if_pos h, if_pos h]
    cases par.acond with
    | noac => simp
    | wadsley2008 => simp only; ring
    | price2008 =>
      simp only
      rw [winvrho_comm, abs_sub_comm q.pressure]
      ring
  · rw [if_neg h, if_neg h]; ring

theorem gravPaux_comm (K : Kernel) (sm : ℝ) (p q : Part n) : gravPaux K sm q p = gravPaux K sm p q := by
  unfold gravPaux; ring

/-! ### images -/

theorem image_zero (q : Part n) : image q 0 = q := by
  simp [image]

/-- seen from the other one, the shift is the opposite -/
theorem dr_image (p q : Part n) (s : Vec n ℝ) :
    (fun k => (image p fun k => -s k).r k - q.r k) = fun k => -(fun k => (image q s).r k - p.r k : Vec n ℝ) k := by
  funext k; simp only [image]; ring

theorem dist_image (sm : ℝ) (p q : Part n) (s : Vec n ℝ) :
    dist sm q (image p fun k => -s k) = dist sm p (image q s) := by
  unfold dist
  rw [dr_image, drmag_neg]

theorem unit_image (sm : ℝ) (p q : Part n) (s : Vec n ℝ) (k : Fin n) :
    unit sm (fun k => (image p fun k => -s k).r k - q.r k) k = -unit sm (fun k => (image q s).r k - p.r k) k := by
  rw [dr_image, unit_neg]

theorem dvdr_image (sm : ℝ) (p q : Part n) (s : Vec n ℝ) :
    dvdr sm q (image p fun k => -s k) = dvdr sm p (image q s) := by
  have e : (unit sm fun k => (image p fun k => -s k).r k - q.r k) =
      fun k => -unit sm (fun k => (image q s).r k - p.r k) k := funext fun k => unit_image sm p q s k
  unfold dvdr
  rw [e]
  simp only [dot, mul_neg, Finset.sum_neg_distrib, image]
  ring

theorem wkern_image (K : Kernel) (sm : ℝ) (p q : Part n) (s : Vec n ℝ) :
    wkern K sm q (image p fun k => -s k) = wkern K sm (image q s) p := by
  unfold wkern
  rw [dist_image, dist_comm]
  rfl

theorem wkern_image' (K : Kernel) (sm : ℝ) (p q : Part n) (s : Vec n ℝ) :
    wkern K sm (image p fun k => -s k) q = wkern K sm p (image q s) := by
  unfold wkern
  rw [dist_comm, dist_image]
  rfl

theorem presPaux_image (K : Kernel) (sm : ℝ) (p q : Part n) (s : Vec n ℝ) :
    presPaux K sm q (image p fun k => -s k) = presPaux K sm p (image q s) := by
  unfold presPaux
  rw [wkern_image, wkern_image']
  simp only [image]
  ring

theorem winvrho_image (K : Kernel) (sm : ℝ) (p q : Part n) (s : Vec n ℝ) :
    winvrho K sm q (image p fun k => -s k) = winvrho K sm p (image q s) := by
  unfold winvrho
  rw [wkern_image, wkern_image']
  simp only [image]
  ring

theorem viscPaux_image (par : Par) (K : Kernel) (sm : ℝ) (p q : Part n) (s : Vec n ℝ) :
    viscPaux par K sm q (image p fun k => -s k) = viscPaux par K sm p (image q s) := by
  have ea : pairAlpha par q (image p fun k => -s k) = pairAlpha par p (image q s) := by
    unfold pairAlpha
    simp only [image]
    rw [add_comm q.alpha]
  have ev : ∀ al, vsignal par sm al q (image p fun k => -s k) = vsignal par sm al p (image q s) := by
    intro al
    unfold vsignal
    rw [dvdr_image]
    simp only [image]
    ring
  unfold viscPaux
  rw [dvdr_image, ea, winvrho_image]
  simp only [ev]

theorem condHeat_image (par : Par) (K : Kernel) (sm : ℝ) (p q : Part n) (s : Vec n ℝ) :
    q.m * condHeat par K sm q (image p fun k => -s k) = -(p.m * condHeat par K sm p (image q s)) := by
  unfold condHeat
  rw [dvdr_image]
  by_cases h : dvdr sm p (image q s) < 0
  · rw [if_pos h, if_pos h]
    cases par.acond with
    | noac => simp
    | wadsley2008 =>
      simp only
      rw [wkern_image, wkern_image']
      simp only [image]
      ring
    | price2008 =>
      simp only
      rw [winvrho_image]
      simp only [image]
      rw [abs_sub_comm q.pressure]
      ring
  · rw [if_neg h, if_neg h]; ring

theorem gravPaux_image (K : Kernel) (sm : ℝ) (p q : Part n) (s : Vec n ℝ) :
    gravPaux K sm q (image p fun k => -s k) = gravPaux K sm p (image q s) := by
  unfold gravPaux
  rw [wkern_image, wkern_image', dist_image, dist_comm sm q (image p fun k => -s k), dist_image,
    dist_comm sm p (image q s)]
  simp only [image]
  ring

/-! ### loops -/

theorem foldl_hydro (par : Par) (K : Kernel) (sm : ℝ) (nb : List (Part n)) : ∀ p : Part n,
    nb.foldl (pairHydro par K sm) p =
      { p with
        div_v := p.div_v - (nb.map fun q => q.m * dvdr sm p q * wkern K sm p q).sum
        dudt := p.dudt + (nb.map fun q => condHeat par K sm p q - viscHeat par K sm p q).sum
        a := fun k => p.a k + (nb.map fun q => q.m * unit sm (fun k => q.r k - p.r k) k *
          (presPaux K sm p q - viscPaux par K sm p q)).sum
        levelneib := nb.foldl (fun l q => max l q.level) p.levelneib } := by
  induction nb with
  | nil => intro p; simp
  | cons q nb ih =>
    intro p
    rw [List.foldl_cons, ih]
    change ({ p with
        div_v := p.div_v - q.m * dvdr sm p q * wkern K sm p q -
          (nb.map fun q => q.m * dvdr sm p q * wkern K sm p q).sum
        dudt := p.dudt - viscHeat par K sm p q + condHeat par K sm p q +
          (nb.map fun q => condHeat par K sm p q - viscHeat par K sm p q).sum
        a := fun k => p.a k + q.m * unit sm (fun k => q.r k - p.r k) k *
            (presPaux K sm p q - viscPaux par K sm p q) +
          (nb.map fun q => q.m * unit sm (fun k => q.r k - p.r k) k *
            (presPaux K sm p q - viscPaux par K sm p q)).sum
        levelneib := nb.foldl (fun l q => max l q.level) (max p.levelneib q.level) } : Part n) = _
    simp only [List.map_cons, List.sum_cons, List.foldl_cons, Part.mk.injEq, true_and, and_true]
    refine ⟨?_, ?_, ?_⟩
    · funext k; ring
    · ring
    · ring

theorem foldl_hydroGrav (par : Par) (K : Kernel) (sm : ℝ) (nb : List (Part n)) : ∀ p : Part n,
    nb.foldl (fun p q => pairGrav K sm (pairHydro par K sm p q) q) p =
      { p with
        div_v := p.div_v - (nb.map fun q => q.m * dvdr sm p q * wkern K sm p q).sum
        dudt := p.dudt + (nb.map fun q => condHeat par K sm p q - viscHeat par K sm p q).sum
        a := fun k => p.a k + (nb.map fun q => q.m * unit sm (fun k => q.r k - p.r k) k *
          (presPaux K sm p q - viscPaux par K sm p q)).sum
        atree := fun k => p.atree k + (nb.map fun q => q.m * unit sm (fun k => q.r k - p.r k) k *
          gravPaux K sm p q).sum
        gpot := p.gpot + (nb.map fun q => q.m * gravGaux K sm p q).sum
        levelneib := nb.foldl (fun l q => max l q.level) p.levelneib } := by
  induction nb with
  | nil => intro p; simp
  | cons q nb ih =>
    intro p
    rw [List.foldl_cons, ih]
    change ({ p with
        div_v := p.div_v - q.m * dvdr sm p q * wkern K sm p q -
          (nb.map fun q => q.m * dvdr sm p q * wkern K sm p q).sum
        dudt := p.dudt - viscHeat par K sm p q + condHeat par K sm p q +
          (nb.map fun q => condHeat par K sm p q - viscHeat par K sm p q).sum
        a := fun k => p.a k + q.m * unit sm (fun k => q.r k - p.r k) k *
            (presPaux K sm p q - viscPaux par K sm p q) +
          (nb.map fun q => q.m * unit sm (fun k => q.r k - p.r k) k *
            (presPaux K sm p q - viscPaux par K sm p q)).sum
        atree := fun k => p.atree k + q.m * unit sm (fun k => q.r k - p.r k) k * gravPaux K sm p q +
          (nb.map fun q => q.m * unit sm (fun k => q.r k - p.r k) k * gravPaux K sm p q).sum
        gpot := p.gpot + q.m * gravGaux K sm p q + (nb.map fun q => q.m * gravGaux K sm p q).sum
        levelneib := nb.foldl (fun l q => max l q.level) (max p.levelneib q.level) } : Part n) = _
    simp only [List.map_cons, List.sum_cons, List.foldl_cons, Part.mk.injEq, true_and, and_true]
    refine ⟨?_, ?_, ?_, ?_, ?_⟩
    · funext k; ring
    · funext k; ring
    · ring
    · ring
    · ring

theorem foldl_direct (sm : ℝ) (nb : List (Part n)) : ∀ p : Part n,
    nb.foldl (pairDirect sm) p =
      { p with
        atree := fun k => p.atree k + (nb.map fun q => q.m * (q.r k - p.r k) * (1 / dist sm p q) ^ 3).sum
        gpot := p.gpot + (nb.map fun q => q.m * (1 / dist sm p q)).sum } := by
  induction nb with
  | nil => intro p; simp
  | cons q nb ih =>
    intro p
    rw [List.foldl_cons, ih]
    change ({ p with
        atree := fun k => p.atree k + q.m * (q.r k - p.r k) * (1 / dist sm p q) ^ 3 +
          (nb.map fun q => q.m * (q.r k - p.r k) * (1 / dist sm p q) ^ 3).sum
        gpot := p.gpot + q.m * (1 / dist sm p q) + (nb.map fun q => q.m * (1 / dist sm p q)).sum } : Part n) = _
    simp only [List.map_cons, List.sum_cons, Part.mk.injEq, true_and, and_true]
    refine ⟨?_, ?_⟩
    · funext k; ring
    · ring

/-- the level entering in `ComputeSphGravForces` is left open (`lv`) -/
theorem foldl_grav (K : Kernel) (sm : ℝ) (sphdata : ℕ → Part n) (nb : List (Part n)) : ∀ (i : ℕ) (p : Part n),
    (nb.zipIdx i).foldl (fun p q =>
      { pairGrav K sm p q.1 with
        levelneib := max p.levelneib (sphdata q.2).level }) p =
      { p with
        atree := fun k => p.atree k + (nb.map fun q => q.m * unit sm (fun k => q.r k - p.r k) k *
          gravPaux K sm p q).sum
        gpot := p.gpot + (nb.map fun q => q.m * gravGaux K sm p q).sum
        levelneib := (nb.zipIdx i).foldl (fun l q => max l (sphdata q.2).level) p.levelneib } := by
  induction nb with
  | nil => intro i p; simp
  | cons q nb ih =>
    intro i p
    rw [List.zipIdx_cons, List.foldl_cons, ih]
    change ({ p with
        atree := fun k => p.atree k + q.m * unit sm (fun k => q.r k - p.r k) k * gravPaux K sm p q +
          (nb.map fun q => q.m * unit sm (fun k => q.r k - p.r k) k * gravPaux K sm p q).sum
        gpot := p.gpot + q.m * gravGaux K sm p q + (nb.map fun q => q.m * gravGaux K sm p q).sum
        levelneib := (nb.zipIdx (i + 1)).foldl (fun l q => max l (sphdata q.2).level)
          (max p.levelneib (sphdata i).level) } : Part n) = _
    simp only [List.map_cons, List.sum_cons, List.foldl_cons, Part.mk.injEq, true_and, and_true]
    refine ⟨?_, ?_⟩
    · funext k; ring
    · ring

theorem setDalphadt_a (par : Par) (x : ℝ) (p : Part n) : (setDalphadt par x p).a = p.a := by
  unfold setDalphadt; split_ifs <;> rfl

theorem setDalphadt_atree (par : Par) (x : ℝ) (p : Part n) : (setDalphadt par x p).atree = p.atree := by
  unfold setDalphadt; split_ifs <;> rfl

theorem setDalphadt_dudt (par : Par) (x : ℝ) (p : Part n) : (setDalphadt par x p).dudt = p.dudt := by
  unfold setDalphadt; split_ifs <;> rfl

theorem setDalphadt_gpot (par : Par) (x : ℝ) (p : Part n) : (setDalphadt par x p).gpot = p.gpot := by
  unfold setDalphadt; split_ifs <;> rfl

theorem setDalphadt_div_v (par : Par) (x : ℝ) (p : Part n) : (setDalphadt par x p).div_v = p.div_v := by
  unfold setDalphadt; split_ifs <;> rfl

theorem setDalphadt_levelneib (par : Par) (x : ℝ) (p : Part n) : (setDalphadt par x p).levelneib = p.levelneib := by
  unfold setDalphadt; split_ifs <;> rfl

/-! ### sums over images -/

/-- sum over pairs and shifts of something that changes sign when the roles are exchanged -/
theorem sum_image_antisymm (S : Finset (Vec n ℝ)) (hS : Symm S) (f : Fin N → Fin N → Vec n ℝ → ℝ)
    (h : ∀ i j s, f j i (fun k => -s k) = -f i j s) : ∑ i, ∑ j, ∑ s ∈ S, f i j s = 0 := by
  have neg : ∀ g : Vec n ℝ → ℝ, ∑ s ∈ S, g (fun k => -s k) = ∑ s ∈ S, g s := by
    intro g
    refine Finset.sum_nbij' (fun s k => -s k) (fun s k => -s k) (fun s hs => hS s hs) (fun s hs => hS s hs) ?_ ?_ ?_
    · intro s _; funext k; simp
    · intro s _; funext k; simp
    · intro s _; rfl
  refine sum_antisymm (fun i j => ∑ s ∈ S, f i j s) fun i j => ?_
  rw [← neg, ← Finset.sum_neg_distrib]
  refine Finset.sum_congr rfl fun s _ => ?_
  exact h j i s

/-- a sum over a complete list is the sum over everything when the summand vanishes without interaction -/
theorem sum_complete {K : Kernel} {S : Finset (Vec n ℝ)} {sys : Fin N → Part n} {i : Fin N} {l : Neibs n N}
    (hl : Complete K S sys i l) (f : Part n → ℝ)
    (h0 : ∀ j s, ¬ Interacts K (sys i) (image (sys j) s) → f (image (sys j) s) = 0) (hself : f (sys i) = 0) :
    ((copies sys l).map f).sum = ∑ j, ∑ s ∈ S, f (image (sys j) s) := by
  rw [copies, List.map_map, ← List.sum_toFinset _ hl.nodup]
  rw [← Finset.sum_product' Finset.univ S (fun j s => f (image (sys j) s))]
  refine Finset.sum_subset ?_ ?_
  · intro x hx
    rw [Finset.mem_product]
    exact ⟨Finset.mem_univ _, hl.shifts x (List.mem_toFinset.mp hx)⟩
  · intro x hx hn
    rw [Finset.mem_product] at hx
    by_cases he : x = (i, 0)
    · rw [he]
      change f (image (sys i) 0) = 0
      rw [image_zero]
      exact hself
    · refine h0 _ _ fun hi => hn (List.mem_toFinset.mpr ?_)
      exact hl.all x.1 x.2 hx.2 he hi

theorem dr_self (p : Part n) : (fun k => p.r k - p.r k) = (0 : Vec n ℝ) := by funext k; simp

theorem unit_self (sm : ℝ) (p : Part n) (k : Fin n) : unit sm (fun k => p.r k - p.r k) k = 0 := by
  unfold unit; simp

theorem dvdr_self (sm : ℝ) (p : Part n) : dvdr sm p p = 0 := sub_self _

/-! ### kernels -/

theorem w1_nonpos {K : Kernel} {n' : ℕ} (h : K.Valid n') {s : ℝ} (hs : 0 ≤ s) : K.w1 s ≤ 0 := by
  have hd : HasDerivWithinAt K.w0 (K.w1 s) (Set.Ici s) s := (h.deriv s).hasDerivWithinAt
  have hm : AntitoneOn K.w0 (Set.Ici s) := h.antitone.mono fun x hx => le_trans hs hx
  have := hm.derivWithin_nonpos (x := s)
  rwa [hd.derivWithin (uniqueDiffOn_Ici s s Set.self_mem_Ici)] at this

theorem w1_zero {K : Kernel} {n' : ℕ} (h : K.Valid n') {s : ℝ} (hs : K.kernrange ≤ s) : K.w1 s = 0 := by
  have hd : HasDerivWithinAt K.w0 (K.w1 s) (Set.Ici s) s := (h.deriv s).hasDerivWithinAt
  have hc : HasDerivWithinAt K.w0 0 (Set.Ici s) s := by
    refine (hasDerivWithinAt_const s (Set.Ici s) (0 : ℝ)).congr ?_ (h.support s hs)
    intro x hx
    exact h.support x (le_trans hs hx)
  rw [← hd.derivWithin (uniqueDiffOn_Ici s s Set.self_mem_Ici), hc.derivWithin (uniqueDiffOn_Ici s s Set.self_mem_Ici)]

theorem le_dist {sm : ℝ} (hsm : 0 ≤ sm) (p q : Part n) :
    √(dot (fun k => q.r k - p.r k) (fun k => q.r k - p.r k)) ≤ dist sm p q :=
  Real.sqrt_le_sqrt (by linarith)

theorem wkern_zero {K : Kernel} {n' : ℕ} (h : K.Valid n') {sm : ℝ} (hsm : 0 ≤ sm) {p q : Part n} (hp : 0 < p.h)
    (hi : ¬ Interacts K p q) : wkern K sm p q = 0 := by
  unfold Interacts at hi
  push Not at hi
  unfold wkern
  rw [w1_zero h, mul_zero]
  rw [mul_one_div, le_div_iff₀ hp]
  exact le_trans hi.1 (le_dist hsm p q)

theorem wkern_zero' {K : Kernel} {n' : ℕ} (h : K.Valid n') {sm : ℝ} (hsm : 0 ≤ sm) {p q : Part n} (hq : 0 < q.h)
    (hi : ¬ Interacts K p q) : wkern K sm q p = 0 := by
  unfold Interacts at hi
  push Not at hi
  unfold wkern
  rw [w1_zero h, mul_zero]
  rw [mul_one_div, le_div_iff₀ hq, dist_comm]
  exact le_trans hi.2 (le_dist hsm p q)

/-- without interaction there is no hydro force -/
theorem acc_zero {K : Kernel} {n' : ℕ} (h : K.Valid n') (par : Par) {sm : ℝ} (hsm : 0 ≤ sm) {p q : Part n}
    (hp : 0 < p.h) (hq : 0 < q.h) (hi : ¬ Interacts K p q) : presPaux K sm p q - viscPaux par K sm p q = 0 := by
  have e1 := wkern_zero h hsm hp hi
  have e2 := wkern_zero' h hsm hq hi
  have e3 : winvrho K sm p q = 0 := by unfold winvrho; rw [e1, e2]; ring
  have e4 : viscPaux par K sm p q = 0 := by
    unfold viscPaux
    rw [e3]
    split_ifs
    · cases pairAlpha par p q <;> simp
    · rfl
  rw [e4]
  unfold presPaux
  rw [e1, e2]
  ring

/-- nor heating -/
theorem heat_zero {K : Kernel} {n' : ℕ} (h : K.Valid n') (par : Par) {sm : ℝ} (hsm : 0 ≤ sm) {p q : Part n}
    (hp : 0 < p.h) (hq : 0 < q.h) (hi : ¬ Interacts K p q) : condHeat par K sm p q - viscHeat par K sm p q = 0 := by
  have e1 := wkern_zero h hsm hp hi
  have e2 := wkern_zero' h hsm hq hi
  have e3 : winvrho K sm p q = 0 := by unfold winvrho; rw [e1, e2]; ring
  unfold condHeat viscHeat
  rw [e1, e2, e3]
  split_ifs
  · cases pairAlpha par p q <;> cases par.acond <;> simp
  · simp

theorem heat_self (K : Kernel) (par : Par) (sm : ℝ) (p : Part n) :
    condHeat par K sm p p - viscHeat par K sm p p = 0 := by
  unfold condHeat viscHeat
  simp [dvdr_self]

/-- energy balance of the pairs: work of the pressure and viscous forces and heating -/
theorem energy_pairs (par : Par) (K : Kernel) (sm : ℝ) (sys : Fin N → Part n) (S : Finset (Vec n ℝ)) (hS : Symm S) :
    ∑ i, ∑ j, ∑ s ∈ S,
      ((sys i).m * ((sys j).m * dot (sys i).v (unit sm (fun k => (image (sys j) s).r k - (sys i).r k)) *
        (presPaux K sm (sys i) (image (sys j) s) - viscPaux par K sm (sys i) (image (sys j) s)) +
      (condHeat par K sm (sys i) (image (sys j) s) - viscHeat par K sm (sys i) (image (sys j) s) +
       (sys i).pressure * (sys i).invomega / ((sys i).rho * (sys i).rho) *
         ((sys j).m * dvdr sm (sys i) (image (sys j) s) * wkern K sm (sys i) (image (sys j) s))))) = 0 := by
  refine sum_image_antisymm S hS _ fun i j s => ?_
  have hd : dot (sys j).v (unit sm (fun k => (image (sys i) fun k => -s k).r k - (sys j).r k)) =
      -dot (sys j).v (unit sm (fun k => (image (sys j) s).r k - (sys i).r k)) := by
    have : unit sm (fun k => (image (sys i) fun k => -s k).r k - (sys j).r k) =
        fun k => -unit sm (fun k => (image (sys j) s).r k - (sys i).r k) k :=
      funext fun k => unit_image sm (sys i) (sys j) s k
    rw [this]
    simp [dot]
  have hv : dvdr sm (sys i) (image (sys j) s) =
      dot (sys j).v (unit sm fun k => (image (sys j) s).r k - (sys i).r k) -
      dot (sys i).v (unit sm fun k => (image (sys j) s).r k - (sys i).r k) := rfl
  have hm : (image (sys i) fun k => -s k).m = (sys i).m := rfl
  have hm' : (image (sys j) s).m = (sys j).m := rfl
  have hpp : presPaux K sm (sys i) (image (sys j) s) =
      (sys i).pressure * (sys i).invomega / ((sys i).rho * (sys i).rho) * wkern K sm (sys i) (image (sys j) s) +
      (sys j).pressure * (sys j).invomega / ((sys j).rho * (sys j).rho) * wkern K sm (image (sys j) s) (sys i) := rfl
  have hc := condHeat_image par K sm (sys i) (sys j) s
  rw [hd, presPaux_image, viscPaux_image, viscHeat_eq, viscHeat_eq, dvdr_image, viscPaux_image, wkern_image,
    hm, hm']
  have hmul : (sys j).m * condHeat par K sm (sys j) (image (sys i) fun k => -s k) +
      (sys i).m * condHeat par K sm (sys i) (image (sys j) s) = 0 := by rw [hc]; ring
  rw [hpp, hv]
  linear_combination hmul

/-- scalar product with a sum over pairs -/
theorem dot_sum (S : Finset (Vec n ℝ)) (v : Vec n ℝ) (f : Fin N → Vec n ℝ → Fin n → ℝ) :
    dot v (fun k => ∑ j, ∑ s ∈ S, f j s k) = ∑ j, ∑ s ∈ S, dot v (f j s) := by
  simp only [dot, Finset.mul_sum]
  rw [Finset.sum_comm]
  refine Finset.sum_congr rfl fun j _ => ?_
  rw [Finset.sum_comm]

theorem dot_smul (v x : Vec n ℝ) (c d : ℝ) : dot v (fun k => c * x k * d) = c * dot v x * d := by
  simp only [dot, Finset.mul_sum, Finset.sum_mul]
  exact Finset.sum_congr rfl fun k _ => by ring

theorem wkern_nonpos {K : Kernel} {n' : ℕ} (h : K.Valid n') (sm : ℝ) {p q : Part n} (hp : 0 < p.h)
    (hf : 0 < p.hfactor) : wkern K sm p q ≤ 0 := by
  refine mul_nonpos_of_nonneg_of_nonpos hf.le (w1_nonpos h ?_)
  exact mul_nonneg (Real.sqrt_nonneg _) (by positivity)

end Gandalf.Sph
