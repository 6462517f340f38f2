import Verif.Spec.Dust
import Mathlib.Analysis.Calculus.MeanValue
import Mathlib.Analysis.SpecialFunctions.ExpDeriv
import Mathlib.Analysis.Complex.Exponential
import Mathlib.Tactic.LinearCombination

/-! # Lemmas on dust drag -/

set_option autoImplicit false
set_option linter.unusedSectionVars false

namespace Gandalf.Dust

variable {n N : ℕ} {P : Type}

/-! ### coefficients -/

/-- the fraction of the way to the terminal relative velocity -/
noncomputable def frac (dt ts : ℝ) : ℝ := (coeffs dt ts 1).1 * dt

theorem coeffs_snd {dt ts : ℝ} (hd : 0 < dt) (ht : 0 < ts) :
    (coeffs dt ts 1).2 = (dt + ts) * (coeffs dt ts 1).1 - 1 := by
  unfold coeffs
  simp only []
  by_cases h : (1e-3 : ℝ) < dt / ts
  · rw [if_pos h]
    ring
  · rw [if_neg h]
    have := ht.ne'
    field_simp
    ring

theorem frac_big {dt ts : ℝ} (hd : 0 < dt) (h : 1e-3 < dt / ts) : frac dt ts = 1 - Real.exp (-(dt / ts)) := by
  unfold frac coeffs
  simp only []
  rw [if_pos h]
  have := hd.ne'
  field_simp

theorem frac_small {dt ts : ℝ} (ht : 0 < ts) (h : ¬1e-3 < dt / ts) :
    frac dt ts = dt / ts * (1 - 0.5 * (dt / ts) * (1 - dt / ts / 3)) := by
  unfold frac coeffs
  simp only []
  rw [if_neg h]
  have := ht.ne'
  field_simp

theorem frac_nonneg {dt ts : ℝ} (hd : 0 < dt) (ht : 0 < ts) : 0 < frac dt ts := by
  have hx : 0 < dt / ts := by positivity
  by_cases h : (1e-3 : ℝ) < dt / ts
  · rw [frac_big hd h]
    have : Real.exp (-(dt / ts)) < 1 := by rw [Real.exp_lt_one_iff]; linarith
    linarith
  · rw [frac_small ht h]
    apply mul_pos hx
    push Not at h
    generalize dt / ts = x at hx h
    norm_num at h ⊢
    nlinarith

theorem frac_lt_one {dt ts : ℝ} (hd : 0 < dt) (ht : 0 < ts) : frac dt ts < 1 := by
  have hx : 0 < dt / ts := by positivity
  by_cases h : (1e-3 : ℝ) < dt / ts
  · rw [frac_big hd h]
    have := Real.exp_pos (-(dt / ts))
    linarith
  · rw [frac_small ht h]
    push Not at h
    generalize dt / ts = x at hx h
    norm_num at h ⊢
    have h1 : 1 - 1 / 2 * x * (1 - x / 3) ≤ 1 := by nlinarith
    have h2 : x * (1 - 1 / 2 * x * (1 - x / 3)) ≤ x * 1 := mul_le_mul_of_nonneg_left h1 hx.le
    linarith

theorem frac_err {dt ts : ℝ} (hd : 0 < dt) (ht : 0 < ts) :
    |frac dt ts - (1 - Real.exp (-(dt / ts)))| ≤ 6e-14 := by
  have hx : 0 < dt / ts := by positivity
  by_cases h : (1e-3 : ℝ) < dt / ts
  · rw [frac_big hd h, sub_self, abs_zero]
    norm_num
  · rw [frac_small ht h]
    push Not at h
    generalize dt / ts = x at hx h
    have hb := Real.exp_bound (x := -x) (by rw [abs_neg, abs_of_pos hx]; norm_num at h; linarith) (n := 4) (by norm_num)
    simp only [Finset.sum_range_succ, Finset.sum_range_zero] at hb
    norm_num [Nat.factorial] at hb h
    have e : x * (1 - 0.5 * x * (1 - x / 3)) - (1 - Real.exp (-x)) =
        Real.exp (-x) - (1 + -x + x ^ 2 / 2 + (-x) ^ 3 / 6) := by ring
    rw [e]
    have hx4 : x ^ 4 ≤ (1 / 1000) ^ 4 := pow_le_pow_left₀ hx.le h 4
    rw [abs_of_pos hx] at hb
    refine hb.trans ?_
    norm_num at hx4 ⊢
    linarith

/-- relative velocity after the kick -/
theorem testAccel_vel {L : Law} {dt grho gsound : ℝ} {dv da a : Vec n ℝ} (hd : 0 < dt) (ht : 0 < L grho 0 gsound)
    (h : testAccel L dt grho gsound dv da = some a) (k : Fin n) :
    dv k + (da k + a k) * dt = dv k * (1 - frac dt (L grho 0 gsound)) +
      da k * L grho 0 gsound * frac dt (L grho 0 gsound) := by
  unfold testAccel at h
  simp only [if_neg ht.ne', Option.some.injEq] at h
  rw [← h]
  simp only [coeffs_snd hd ht, frac]
  ring

/-- the equation of motion has one solution -/
theorem ode {ts w0 d dt : ℝ} {W : ℝ → ℝ} (ht : 0 < ts) (h0 : W 0 = w0)
    (h : ∀ t, HasDerivAt W (-W t / ts + d) t) :
    W dt = w0 * Real.exp (-(dt / ts)) + d * ts * (1 - Real.exp (-(dt / ts))) := by
  have hg : ∀ t, HasDerivAt (fun t => (W t - d * ts) * Real.exp (t / ts)) 0 t := by
    intro t
    have h1 : HasDerivAt (fun t => Real.exp (t / ts)) (Real.exp (t / ts) * (1 / ts)) t :=
      ((hasDerivAt_id t).div_const ts).exp
    refine (((h t).sub_const (d * ts)).mul h1).congr_deriv ?_
    have := ht.ne'
    field_simp
    ring
  have hc := is_const_of_deriv_eq_zero (fun t => (hg t).differentiableAt) (fun t => (hg t).deriv) dt 0
  simp only [zero_div, Real.exp_zero, mul_one, h0] at hc
  have he : Real.exp (dt / ts) * Real.exp (-(dt / ts)) = 1 := by rw [← Real.exp_add]; simp
  linear_combination Real.exp (-(dt / ts)) * hc - (W dt - d * ts) * he

/-! ### sums -/

theorem foldl_sub {β : Type} (f : β → ℝ) (l : List β) (s : ℝ) :
    l.foldl (fun s x => s - f x) s = s - (l.map f).sum := by
  induction l generalizing s with
  | nil => simp
  | cons a l ih => simp only [List.foldl_cons, ih, List.map_cons, List.sum_cons]; ring

theorem foldl_add {β : Type} (f : β → ℝ) (l : List β) (s : ℝ) :
    l.foldl (fun s x => s + f x) s = s + (l.map f).sum := by
  induction l generalizing s with
  | nil => simp
  | cons a l ih => simp only [List.foldl_cons, ih, List.map_cons, List.sum_cons]; ring

/-- a sum over the list of a particle is a sum over all images of the other kind -/
theorem sum_nb {O : Ops n P} {K : Kernel} {S : Finset (Vec n ℝ)} {sys : Fin N → P} {nb : Lists n N}
    (hc : Complete O K S sys nb) (i : Fin N) (f : Fin N → Vec n ℝ → ℝ)
    (hf : ∀ j, ∀ s ∈ S, K.wdrag (mag (fun k => O.r (sys i) k - (O.r (sys j) k + s k)) *
      (1 / if O.gas (sys i) then O.h (sys i) else O.h (sys j))) = 0 → f j s = 0) :
    ((nb i).map fun x => f x.1 x.2).sum =
      ∑ j, ∑ s ∈ S, if O.gas (sys j) = !O.gas (sys i) then f j s else 0 := by
  classical
  rw [← Finset.sum_product', ← List.sum_toFinset _ (hc.nodup i)]
  apply Finset.sum_subset_zero_on_sdiff
  · intro x hx
    rw [List.mem_toFinset] at hx
    exact Finset.mem_product.mpr ⟨Finset.mem_univ _, hc.shifts i x hx⟩
  · intro x hx
    rw [Finset.mem_sdiff, Finset.mem_product, List.mem_toFinset] at hx
    by_cases ho : O.gas (sys x.1) = !O.gas (sys i)
    · rw [if_pos ho]
      apply hf _ _ hx.1.2
      by_contra hne
      exact hx.2 (hc.all i x.1 x.2 hx.1.2 ho hne)
    · rw [if_neg ho]
  · intro x hx
    rw [List.mem_toFinset] at hx
    rw [if_pos (hc.other i x hx)]

/-- a double sum over pairs of images that changes sign under exchange vanishes -/
theorem sum_antisymm {S : Finset (Vec n ℝ)} (hS : Symm S) (f : Fin N → Fin N → Vec n ℝ → ℝ)
    (hf : ∀ i j, ∀ s ∈ S, f j i (fun k => -s k) = -f i j s) : ∑ i, ∑ j, ∑ s ∈ S, f i j s = 0 := by
  have h : ∑ i, ∑ j, ∑ s ∈ S, f i j s = ∑ i, ∑ j, ∑ s ∈ S, -f i j s := by
    rw [Finset.sum_comm]
    refine Finset.sum_congr rfl fun j _ => Finset.sum_congr rfl fun i _ => ?_
    refine Finset.sum_bij' (fun s _ => fun k => -s k) (fun s _ => fun k => -s k) (fun s hs => hS s hs)
      (fun s hs => hS s hs) (fun s _ => by funext k; simp) (fun s _ => by funext k; simp) ?_
    intro s hs
    rw [hf i j s hs, neg_neg]
  simp only [Finset.sum_neg_distrib] at h
  linarith

/-! ### one pair -/

theorem dot_neg (d e : Vec n ℝ) : dot (fun k => -d k) (fun k => -e k) = dot d e := by
  unfold dot
  exact Finset.sum_congr rfl fun k _ => by ring

theorem mag_neg (d : Vec n ℝ) : mag (fun k => -d k) = mag d := by
  unfold mag
  rw [dot_neg]

theorem unit_neg (d : Vec n ℝ) : unit (fun k => -d k) = fun k => -unit d k := by
  funext k
  unfold unit
  rw [mag_neg]
  split_ifs
  · ring
  · rfl

theorem kern_symm (O : Ops n P) (K : Kernel) {p q : P} (h : O.gas q = !O.gas p) (d : Vec n ℝ) :
    kern O K q p (fun k => -d k) = kern O K p q d := by
  unfold kern
  rw [mag_neg]
  cases hp : O.gas p <;> simp [h, hp]

theorem term_symm (O : Ops n P) (L : Law) {p q : P} (dt : ℝ) (h : O.gas q = !O.gas p) (d : Vec n ℝ)
    (hv : ∀ k, O.vdiff q p k = -O.vdiff p q k) : term O L dt q p (fun k => -d k) = term O L dt p q d := by
  have e1 : dot (unit (fun k => -d k)) (O.vdiff q p) = dot (unit d) (O.vdiff p q) := by
    rw [unit_neg, ← dot_neg (unit d)]
    congr 1
    funext k
    exact hv k
  have e2 : dot (unit (fun k => -d k)) (fun k => O.acc q k - O.acc p k) =
      dot (unit d) (fun k => O.acc p k - O.acc q k) := by
    rw [unit_neg, ← dot_neg (unit d)]
    congr 1
    funext k
    ring
  have e3 : tstop O L q p = tstop O L p q := by
    unfold tstop
    cases hp : O.gas p <;> simp [h, hp]
  have e4 : (if O.gas q then O.rho p + O.rho q else O.rho q + O.rho p) =
      (if O.gas p then O.rho q + O.rho p else O.rho p + O.rho q) := by
    cases hp : O.gas p <;> simp [h, hp]
  simp only [term, e1, e2, e3, e4]

/-- force of a pair divided by the kernel's sign: `n m_i m_j S W r̂` -/
noncomputable def force (O : Ops n P) (K : Kernel) (L : Law) (dt : ℝ) (p q : P) (d : Vec n ℝ) : ℝ :=
  n * O.m p * O.m q * term O L dt p q d * kern O K p q d

theorem force_symm (O : Ops n P) (K : Kernel) (L : Law) {p q : P} (dt : ℝ) (h : O.gas q = !O.gas p) (d : Vec n ℝ)
    (hv : ∀ k, O.vdiff q p k = -O.vdiff p q k) : force O K L dt q p (fun k => -d k) = force O K L dt p q d := by
  unfold force
  rw [term_symm O L dt h d hv, kern_symm O K h d]
  ring

/-- separation of particle `i` from an image of `j` -/
def sep (O : Ops n P) (sys : Fin N → P) (i j : Fin N) (s : Vec n ℝ) : Vec n ℝ :=
  fun k => O.r (sys i) k - (O.r (sys j) k + s k)

theorem sep_neg (O : Ops n P) (sys : Fin N → P) (i j : Fin N) (s : Vec n ℝ) :
    sep O sys j i (fun k => -s k) = fun k => -sep O sys i j s k := by
  funext k
  unfold sep
  ring

theorem kern_zero {O : Ops n P} {K : Kernel} {p q : P} {d : Vec n ℝ}
    (h : K.wdrag (mag d * (1 / if O.gas p then O.h p else O.h q)) = 0) : kern O K p q d = 0 := by
  unfold kern
  cases hp : O.gas p
  · simp only [hp, Bool.false_eq_true, if_false] at h ⊢
    rw [h, mul_zero]
  · simp only [hp, if_true] at h ⊢
    rw [h, mul_zero]

/-- force on a particle as a sum over all images -/
theorem mass_accel {O : Ops n P} {K : Kernel} {L : Law} {S : Finset (Vec n ℝ)} {dt : Fin N → ℝ} {nb : Lists n N}
    {sys : Fin N → P} (hg : ∀ i, Good O (sys i)) (hc : Complete O K S sys nb) (i : Fin N) (k : Fin n) :
    O.m (sys i) * accel O K L dt nb sys i k = ∑ j, ∑ s ∈ S, if O.gas (sys j) = !O.gas (sys i) then
      -(force O K L (dt i) (sys i) (sys j) (sep O sys i j s) * unit (sep O sys i j s) k) else 0 := by
  rw [← sum_nb hc i (fun j s => -(force O K L (dt i) (sys i) (sys j) (sep O sys i j s) * unit (sep O sys i j s) k))]
  · unfold accel adrag
    rw [foldl_sub, zero_sub, copies, List.map_map, mul_neg, ← neg_one_mul, ← mul_assoc, ← List.sum_map_mul_left]
    congr 1
    refine List.map_congr_left fun x _ => ?_
    simp only [Function.comp, wkern, force]
    rw [show (fun k => O.r (sys i) k - (O.r (sys x.1) k + x.2 k)) = sep O sys i x.1 x.2 from rfl]
    have := (hg x.1).rho.ne'
    field_simp
  · intro j s _ h0
    have hk : kern O K (sys i) (sys j) (sep O sys i j s) = 0 := kern_zero h0
    simp only [force, hk, mul_zero, zero_mul, neg_zero]

theorem momentum {O : Ops n P} {K : Kernel} {L : Law} {S : Finset (Vec n ℝ)} {dt : ℝ} {nb : Lists n N}
    {sys : Fin N → P} (hg : ∀ i, Good O (sys i)) (hc : Complete O K S sys nb) (hS : Symm S)
    (hv : ∀ i j k, O.vdiff (sys j) (sys i) k = -O.vdiff (sys i) (sys j) k) (k : Fin n) :
    ∑ i, O.m (sys i) * accel O K L (fun _ => dt) nb sys i k = 0 := by
  rw [Finset.sum_congr rfl fun i _ => mass_accel hg hc i k]
  apply sum_antisymm hS
  intro i j s _
  by_cases ho : O.gas (sys j) = !O.gas (sys i)
  · rw [if_pos ho, if_pos (by rw [ho, Bool.not_not]), sep_neg, force_symm O K L dt ho _ (hv i j), unit_neg]
    ring
  · rw [if_neg ho, if_neg (by intro h; exact ho (by rw [h, Bool.not_not])), neg_zero]

theorem symm_zero : Symm ({0} : Finset (Vec n ℝ)) := by
  intro s hs
  rw [Finset.mem_singleton] at hs ⊢
  subst hs
  funext k
  simp

/-- the force is along the line joining the particles -/
theorem unit_cross (d : Vec n ℝ) (k l : Fin n) : d k * unit d l = d l * unit d k := by
  unfold unit
  split_ifs <;> ring

theorem angular {O : Ops n P} {K : Kernel} {L : Law} {dt : ℝ} {nb : Lists n N}
    {sys : Fin N → P} (hg : ∀ i, Good O (sys i)) (hc : Complete O K {0} sys nb)
    (hv : ∀ i j k, O.vdiff (sys j) (sys i) k = -O.vdiff (sys i) (sys j) k) (k l : Fin n) :
    ∑ i, O.m (sys i) * (O.r (sys i) k * accel O K L (fun _ => dt) nb sys i l -
      O.r (sys i) l * accel O K L (fun _ => dt) nb sys i k) = 0 := by
  have e : ∀ i, O.m (sys i) * (O.r (sys i) k * accel O K L (fun _ => dt) nb sys i l -
      O.r (sys i) l * accel O K L (fun _ => dt) nb sys i k) = ∑ j, ∑ s ∈ ({0} : Finset (Vec n ℝ)),
      if O.gas (sys j) = !O.gas (sys i) then -(force O K L dt (sys i) (sys j) (sep O sys i j s) *
        (O.r (sys i) k * unit (sep O sys i j s) l - O.r (sys i) l * unit (sep O sys i j s) k)) else 0 := by
    intro i
    have h1 := mass_accel (L := L) (dt := fun _ => dt) hg hc i k
    have h2 := mass_accel (L := L) (dt := fun _ => dt) hg hc i l
    have : O.m (sys i) * (O.r (sys i) k * accel O K L (fun _ => dt) nb sys i l -
      O.r (sys i) l * accel O K L (fun _ => dt) nb sys i k) =
      O.r (sys i) k * (O.m (sys i) * accel O K L (fun _ => dt) nb sys i l) -
      O.r (sys i) l * (O.m (sys i) * accel O K L (fun _ => dt) nb sys i k) := by ring
    rw [this, h1, h2]
    simp only [Finset.sum_singleton, Finset.mul_sum, ← Finset.sum_sub_distrib]
    refine Finset.sum_congr rfl fun j _ => ?_
    split_ifs
    · ring
    · ring
  rw [Finset.sum_congr rfl fun i _ => e i]
  apply sum_antisymm symm_zero
  intro i j s hs
  rw [Finset.mem_singleton] at hs
  by_cases ho : O.gas (sys j) = !O.gas (sys i)
  · rw [if_pos ho, if_pos (by rw [ho, Bool.not_not]), sep_neg, force_symm O K L dt ho _ (hv i j), unit_neg]
    have hx := unit_cross (sep O sys i j s) k l
    have e1 : sep O sys i j s k = O.r (sys i) k - O.r (sys j) k := by subst hs; simp [sep]
    have e2 : sep O sys i j s l = O.r (sys i) l - O.r (sys j) l := by subst hs; simp [sep]
    rw [e1, e2] at hx
    linear_combination (-force O K L dt (sys i) (sys j) (sep O sys i j s)) * hx
  · rw [if_neg ho, if_neg (by intro h; exact ho (by rw [h, Bool.not_not])), neg_zero]

/-! ### energy -/

theorem sum_zip_ite {l : List (Fin N × Vec n ℝ)} {q : List ℝ} {c : Fin N → ℝ} :
    ∑ i, c i * ((l.zip q).map fun x => if x.1.1 = i then x.2 else 0).sum =
      ((l.zip q).map fun x => c x.1.1 * x.2).sum := by
  induction l.zip q with
  | nil => simp
  | cons a z ih =>
    simp only [List.map_cons, List.sum_cons, mul_add, Finset.sum_add_distrib, ih]
    congr 1
    rw [Finset.sum_eq_single a.1.1]
    · simp
    · intro b _ hb
      rw [if_neg (fun h => hb h.symm), mul_zero]
    · intro h
      exact absurd (Finset.mem_univ _) h

theorem zip_map {β γ : Type} (l : List β) (f : β → γ) : l.zip (l.map f) = l.map fun x => (x, f x) := by
  induction l with
  | nil => rfl
  | cons a l ih => simp [ih]

theorem adrag_nil (O : Ops n P) (K : Kernel) (L : Law) (dt : ℝ) (p : P) : adrag O K L dt p [] = fun _ => 0 := rfl

theorem dEk_zero (O : Ops n P) (dt : ℝ) (p : P) : dEk O dt p (fun _ => 0) = 0 := by
  simp [dEk]

/-- what one dust particle gives away -/
theorem spread_sum {O : Ops n P} {K : Kernel} {L : Law} {dt : ℝ} {nb : Lists n N}
    {sys : Fin N → P} (hg : ∀ i, Good O (sys i)) (j : Fin N) (hd : O.gas (sys j) = false) {q : List ℝ}
    (h : spread O K L dt (sys j) (copies O sys j (nb j)) = some q) :
    (((nb j).zip q).map fun x => O.m (sys x.1.1) * x.2).sum =
      -(O.m (sys j) * dEk O dt (sys j) (adrag O K L dt (sys j) (copies O sys j (nb j)))) := by
  unfold spread at h
  by_cases hn : nb j = []
  · simp [hn, copies, adrag_nil, dEk_zero]
  have hn' : copies O sys j (nb j) ≠ [] := by simpa [copies] using hn
  by_cases h0 : norm O K (sys j) (copies O sys j (nb j)) = 0
  · rw [if_pos ⟨hn', h0⟩] at h
    exact absurd h (by simp)
  rw [if_neg (fun hh => h0 hh.2), Option.some.injEq] at h
  subst h
  have hnorm : norm O K (sys j) (copies O sys j (nb j)) = ((nb j).map fun x => wkern O K (sys j) (sys x.1)
      (fun k => O.r (sys j) k - (O.r (sys x.1) k + x.2 k))).sum := by
    unfold norm copies
    rw [foldl_add, zero_add, List.map_map]
    rfl
  set E := dEk O dt (sys j) (adrag O K L dt (sys j) (copies O sys j (nb j)))
  set C := norm O K (sys j) (copies O sys j (nb j)) with hC
  rw [copies, List.map_map, zip_map, List.map_map]
  have e : ((nb j).map ((fun x : (Fin N × Vec n ℝ) × ℝ => O.m (sys x.1.1) * x.2) ∘ fun x : Fin N × Vec n ℝ => (x,
      ((fun x : P × Vec n ℝ => -(O.m (sys j) * ((1 / O.h x.1) ^ n * K.wdrag (mag x.2 * (1 / O.h x.1)) /
        (C * O.rho x.1)) * E)) ∘ fun x : Fin N × Vec n ℝ =>
        (sys x.1, fun k => O.r (sys j) k - (O.r (sys x.1) k + x.2 k))) x))).sum =
      ((nb j).map fun x => (-(O.m (sys j) * E) / C) * wkern O K (sys j) (sys x.1)
        (fun k => O.r (sys j) k - (O.r (sys x.1) k + x.2 k))).sum := by
    congr 1
    refine List.map_congr_left fun x _ => ?_
    have := (hg x.1).rho.ne'
    simp only [Function.comp, wkern, kern, hd, Bool.false_eq_true, if_false]
    field_simp
  rw [e, List.sum_map_mul_left, ← hnorm]
  field_simp

/-- the heating of the gas is what the drag takes from the kinetic energy -/
theorem heat_sum {O : Ops n P} {K : Kernel} {L : Law} {dt : Fin N → ℝ} {nb : Lists n N}
    {sys : Fin N → P} (hg : ∀ i, Good O (sys i)) {q : Fin N → ℝ} (h : heat O K L dt nb sys = some q) :
    ∑ i, O.m (sys i) * q i = -∑ i, O.m (sys i) * dEk O (dt i) (sys i) (accel O K L dt nb sys i) := by
  unfold heat at h
  by_cases hs : ∀ j, O.gas (sys j) = false → (spread O K L (dt j) (sys j) (copies O sys j (nb j))).isSome
  swap
  · rw [if_neg hs] at h
    exact absurd h (by simp)
  rw [if_pos hs, Option.some.injEq] at h
  subst h
  simp only [mul_add, Finset.sum_add_distrib, Finset.mul_sum]
  rw [Finset.sum_comm, ← Finset.sum_add_distrib, ← Finset.sum_neg_distrib]
  refine Finset.sum_congr rfl fun j _ => ?_
  cases hd : O.gas (sys j)
  · simp only [Bool.false_eq_true, if_false, mul_zero, zero_add]
    obtain ⟨l, hl⟩ := Option.isSome_iff_exists.mp (hs j hd)
    rw [sum_zip_ite, hl, Option.getD_some, spread_sum hg j hd hl]
    rfl
  · simp

/-- dust is not heated -/
theorem heat_dust {O : Ops n P} {K : Kernel} {L : Law} {dt : Fin N → ℝ} {nb : Lists n N} {S : Finset (Vec n ℝ)}
    {sys : Fin N → P} (hc : Complete O K S sys nb) {q : Fin N → ℝ} (h : heat O K L dt nb sys = some q) (i : Fin N)
    (hi : O.gas (sys i) = false) : q i = 0 := by
  unfold heat at h
  by_cases hs : ∀ j, O.gas (sys j) = false → (spread O K L (dt j) (sys j) (copies O sys j (nb j))).isSome
  swap
  · rw [if_neg hs] at h
    exact absurd h (by simp)
  rw [if_pos hs, Option.some.injEq] at h
  subst h
  simp only [hi, Bool.false_eq_true, if_false, zero_add]
  apply Finset.sum_eq_zero
  intro j _
  by_cases hj : O.gas (sys j) = true
  · rw [if_pos hj]
  rw [if_neg hj]
  apply List.sum_eq_zero
  intro y hy
  rw [List.mem_map] at hy
  obtain ⟨x, hx, rfl⟩ := hy
  rw [if_neg]
  intro e
  have := hc.other j x.1 (List.of_mem_zip hx).1
  rw [e, hi] at this
  simp at this
  exact hj this

/-- work of the drag over the kick -/
theorem kinetic_change (O : Ops n P) (dt : ℝ) (p : P) (ad : Vec n ℝ) :
    1 / 2 * O.m p * ∑ k, (O.vini p k + (O.acc p k + ad k) * dt) ^ 2 =
      kinetic O dt p + dt * (O.m p * dEk O dt p ad) := by
  unfold kinetic vend dEk
  rw [Finset.mul_sum, Finset.mul_sum, Finset.mul_sum, Finset.mul_sum, ← Finset.sum_add_distrib]
  exact Finset.sum_congr rfl fun k _ => by ring

/-! ### the copy loop -/

theorem loop_alive {dead : ℕ → Bool} {nl : ℕ → ℕ} {M : ℕ} (hn : ∀ k < M, dead (nl k) = false) (fuel : ℕ) (s : Copy)
    (hf : s.jj + fuel = M) (hM : s.Nneib = M) (hj : dead s.j = false)
    (hs : ∀ k < s.jj, s.slot k = some (nl k)) :
    (Copy.loop dead nl fuel s).Nneib = M ∧ ∀ k < M, (Copy.loop dead nl fuel s).slot k = some (nl k) := by
  induction fuel generalizing s with
  | zero =>
    simp only [Copy.loop]
    exact ⟨hM, fun k hk => hs k (by omega)⟩
  | succ f ih =>
    simp only [Copy.loop]
    rw [if_pos (by omega)]
    have e : s.step dead nl = { s with
      jj := s.jj + 1
      j := nl s.jj
      slot := Function.update s.slot s.jj (some (nl s.jj)) } := by
      unfold Copy.step
      rw [if_neg (by simp [hj])]
    apply ih
    · rw [e]; simp only []; omega
    · rw [e]; exact hM
    · rw [e]; exact hn _ (by omega)
    · intro k hk
      rw [e] at hk ⊢
      simp only [] at hk ⊢
      by_cases h : k = s.jj
      · rw [h, Function.update_self]
      · rw [Function.update_of_ne h]
        exact hs k (by omega)

theorem loop_dead {dead : ℕ → Bool} {nl : ℕ → ℕ} (fuel : ℕ) (s : Copy) (hj : dead s.j = true) :
    (Copy.loop dead nl fuel s).slot = s.slot ∧
    (s.jj ≤ s.Nneib → s.Nneib - s.jj ≤ fuel → (Copy.loop dead nl fuel s).Nneib = s.Nneib - (s.Nneib - s.jj + 1) / 2) := by
  induction fuel generalizing s with
  | zero =>
    simp only [Copy.loop]
    exact ⟨trivial, fun h1 h2 => by omega⟩
  | succ f ih =>
    simp only [Copy.loop]
    by_cases h : s.jj < s.Nneib
    · rw [if_pos h]
      have e : s.step dead nl = { s with
          jj := s.jj + 1
          Nneib := s.Nneib - 1 } := by
        unfold Copy.step
        rw [if_pos hj]
      rw [e]
      have hi := ih { s with
          jj := s.jj + 1
          Nneib := s.Nneib - 1 } hj
      refine ⟨hi.1, fun h1 h2 => ?_⟩
      by_cases h3 : s.jj + 1 ≤ s.Nneib - 1
      · rw [hi.2 h3 (by simp only []; omega)]
        simp only []
        omega
      · have : s.Nneib = s.jj + 1 := by omega
        have hl : Copy.loop dead nl f { s with
          jj := s.jj + 1
          Nneib := s.Nneib - 1 } = { s with
          jj := s.jj + 1
          Nneib := s.Nneib - 1 } := by
          cases f with
          | zero => rfl
          | succ g =>
            simp only [Copy.loop]
            rw [if_neg (by omega)]
        rw [hl]
        simp only []
        omega
    · rw [if_neg h]
      exact ⟨rfl, fun h1 _ => by omega⟩

end Gandalf.Dust
