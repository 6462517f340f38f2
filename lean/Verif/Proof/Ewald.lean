import Verif.Spec.Ewald
import Mathlib.Analysis.Calculus.Deriv.Add
import Mathlib.Analysis.Calculus.Deriv.Mul
import Mathlib.Analysis.Calculus.Deriv.Inv
import Mathlib.Analysis.SpecialFunctions.Sqrt
import Mathlib.Analysis.SpecialFunctions.ExpDeriv
import Mathlib.Analysis.SpecialFunctions.Log.Deriv
import Mathlib.Analysis.SpecialFunctions.Trigonometric.Deriv
import Mathlib.Tactic.Ring
import Mathlib.Tactic.FieldSimp
import Mathlib.Tactic.Linarith
import Mathlib.Tactic.FinCases

/-! # Gradients of the Ewald sums -/

set_option autoImplicit false
set_option linter.unusedSectionVars false

namespace Gandalf.Ewald
open Gandalf.Field

section closure
variable {n : ℕ} {x : Vec n ℝ}

theorem grad_add {a b : Vec n ℝ} {f g : Vec n ℝ → ℝ} (ha : Gradient a f x) (hb : Gradient b g x) :
    Gradient (fun k => a k + b k) (fun q => f q + g q) x := by
  intro r w t hr hm
  refine ((ha r w t hr hm).add (hb r w t hr hm)).congr_deriv ?_
  simp only [add_mul, Finset.sum_add_distrib]
  ring

theorem grad_sub {a b : Vec n ℝ} {f g : Vec n ℝ → ℝ} (ha : Gradient a f x) (hb : Gradient b g x) :
    Gradient (fun k => a k - b k) (fun q => f q - g q) x := by
  intro r w t hr hm
  refine ((ha r w t hr hm).sub (hb r w t hr hm)).congr_deriv ?_
  simp only [sub_mul, Finset.sum_sub_distrib]
  ring

theorem grad_zero : Gradient (fun _ => (0 : ℝ)) (fun _ : Vec n ℝ => (0 : ℝ)) x := by
  intro r w t _ _
  simpa using hasDerivAt_const t (0 : ℝ)

theorem grad_sum {ι : Type} (s : Finset ι) (a : ι → Vec n ℝ) (f : ι → Vec n ℝ → ℝ)
    (h : ∀ i ∈ s, Gradient (a i) (f i) x) :
    Gradient (fun k => ∑ i ∈ s, a i k) (fun q => ∑ i ∈ s, f i q) x := by
  classical
  induction s using Finset.induction_on with
  | empty => simpa using (grad_zero (n := n) (x := x))
  | insert i s hi ih =>
    simp only [Finset.sum_insert hi]
    exact grad_add (h i (Finset.mem_insert_self i s)) (ih fun j hj => h j (Finset.mem_insert_of_mem hj))

end closure

/-! ### Distances -/

theorem sq3_pos {a b c : ℝ} (h : a ≠ 0 ∨ b ≠ 0 ∨ c ≠ 0) : 0 < a ^ 2 + b ^ 2 + c ^ 2 := by
  rcases h with h | h | h
  · have := sq_pos_of_ne_zero h; nlinarith [sq_nonneg b, sq_nonneg c]
  · have := sq_pos_of_ne_zero h; nlinarith [sq_nonneg a, sq_nonneg c]
  · have := sq_pos_of_ne_zero h; nlinarith [sq_nonneg b, sq_nonneg a]

theorem radius_deriv {X Y Z : ℝ → ℝ} {x' y' z' t : ℝ} (hX : HasDerivAt X x' t) (hY : HasDerivAt Y y' t)
    (hZ : HasDerivAt Z z' t) (h : X t ≠ 0 ∨ Y t ≠ 0 ∨ Z t ≠ 0) :
    HasDerivAt (fun s => Real.sqrt (X s ^ 2 + Y s ^ 2 + Z s ^ 2))
      ((X t * x' + Y t * y' + Z t * z') / Real.sqrt (X t ^ 2 + Y t ^ 2 + Z t ^ 2)) t := by
  have hp := sq3_pos h
  have h1 := (((hX.pow 2).add (hY.pow 2)).add (hZ.pow 2)).sqrt (by simpa using hp.ne')
  refine h1.congr_deriv ?_
  have hs : Real.sqrt (X t ^ 2 + Y t ^ 2 + Z t ^ 2) ≠ 0 := (Real.sqrt_pos.2 hp).ne'
  simp only [Pi.add_apply, Pi.pow_apply]
  field_simp
  push_cast
  ring

/-- fields that depend on the distance from a point -/
theorem radial {f : ℝ → ℝ} {g : ℝ} (b p : P3) (h : p 0 + b 0 ≠ 0 ∨ p 1 + b 1 ≠ 0 ∨ p 2 + b 2 ≠ 0)
    (hf : HasDerivAt f g (Real.sqrt ((p 0 + b 0) ^ 2 + (p 1 + b 1) ^ 2 + (p 2 + b 2) ^ 2))) :
    Gradient (fun k => -g * (p k + b k) / Real.sqrt ((p 0 + b 0) ^ 2 + (p 1 + b 1) ^ 2 + (p 2 + b 2) ^ 2))
      (fun q => f (Real.sqrt ((q 0 + b 0) ^ 2 + (q 1 + b 1) ^ 2 + (q 2 + b 2) ^ 2))) p := by
  intro r w t hr hm
  have h0 := (hm 0).add_const (b 0)
  have h1 := (hm 1).add_const (b 1)
  have h2 := (hm 2).add_const (b 2)
  subst hr
  have hR := radius_deriv h0 h1 h2 h
  have := HasDerivAt.comp t (h₂ := f) (h := fun s => Real.sqrt ((r s 0 + b 0) ^ 2 + (r s 1 + b 1) ^ 2 + (r s 2 + b 2) ^ 2)) hf hR
  refine this.congr_deriv ?_
  rw [Fin.sum_univ_three]
  ring

theorem short_grad (S : Special) (hS : S.OK) (c : Cfg) (h : ℤ × ℤ × ℤ) (p : P3)
    (hp : ∃ k, p k + shift c h k ≠ 0) :
    Gradient (short S c h p).acc (fun q => (short S c h q).pot) p := by
  have hp' : p 0 + shift c h 0 ≠ 0 ∨ p 1 + shift c h 1 ≠ 0 ∨ p 2 + shift c h 2 ≠ 0 := by
    obtain ⟨k, hk⟩ := hp
    fin_cases k
    · exact Or.inl hk
    · exact Or.inr (Or.inl hk)
    · exact Or.inr (Or.inr hk)
  set R := Real.sqrt ((p 0 + shift c h 0) ^ 2 + (p 1 + shift c h 1) ^ 2 + (p 2 + shift c h 2) ^ 2) with hR
  have hRpos : 0 < R := Real.sqrt_pos.2 (sq3_pos hp')
  have hf : HasDerivAt (fun u => S.erfc (alpha c * u) / u)
      ((-(2 / Real.sqrt Real.pi) * Real.exp (-(alpha c * R) ^ 2) * alpha c * R - S.erfc (alpha c * R)) / R ^ 2) R := by
    have h1 : HasDerivAt (fun u => alpha c * u) (alpha c) R := by simpa using (hasDerivAt_id R).const_mul (alpha c)
    have h2 := HasDerivAt.comp R (hS.erfc_deriv (alpha c * R)) h1
    have h3 := h2.div (hasDerivAt_id R) hRpos.ne'
    refine h3.congr_deriv ?_
    simp
  have hg := radial (shift c h) p hp' hf
  have ha : (short S c h p).acc = fun k => -((-(2 / Real.sqrt Real.pi) * Real.exp (-(alpha c * R) ^ 2) * alpha c * R -
      S.erfc (alpha c * R)) / R ^ 2) * (p k + shift c h k) / R := by
    funext k
    have hk : (![p 0 + h.1 * c.L 0, p 1 + h.2.1 * c.L 1, p 2 + h.2.2 * c.L 2] : P3) k = p k + shift c h k := by
      fin_cases k <;> simp [shift, comp]
    have hr : Real.sqrt ((p 0 + h.1 * c.L 0) ^ 2 + (p 1 + h.2.1 * c.L 1) ^ 2 + (p 2 + h.2.2 * c.L 2) ^ 2) = R := by
      simp [hR, shift, comp]
    have : (short S c h p).acc k = accShort S (alpha c) (p k + shift c h k) R := by
      rw [← hk, ← hr]; rfl
    rw [this]
    unfold accShort
    have hq : -(alpha c * R) ^ 2 = -R ^ 2 * alpha c ^ 2 := by ring
    rw [hq]
    have hpi : Real.sqrt Real.pi ≠ 0 := (Real.sqrt_pos.2 Real.pi_pos).ne'
    field_simp
    ring
  rw [ha]
  exact hg

theorem newton_grad (p : P3) (hp : p 0 ≠ 0 ∨ p 1 ≠ 0 ∨ p 2 ≠ 0) :
    Gradient (fun k => p k / Real.sqrt (p 0 ^ 2 + p 1 ^ 2 + p 2 ^ 2) ^ 3)
      (fun q => 1 / Real.sqrt (q 0 ^ 2 + q 1 ^ 2 + q 2 ^ 2)) p := by
  have hR : 0 < Real.sqrt (p 0 ^ 2 + p 1 ^ 2 + p 2 ^ 2) := Real.sqrt_pos.2 (sq3_pos hp)
  have hf : HasDerivAt (fun u : ℝ => 1 / u) (-1 / Real.sqrt (p 0 ^ 2 + p 1 ^ 2 + p 2 ^ 2) ^ 2)
      (Real.sqrt (p 0 ^ 2 + p 1 ^ 2 + p 2 ^ 2)) := by
    have := hasDerivAt_inv hR.ne'
    simp only [one_div]
    refine this.congr_deriv ?_
    rw [neg_div, one_div]
  have := radial (f := fun u => 1 / u) (fun _ => 0) p (by simpa using hp) (by simpa using hf)
  simp only [add_zero] at this
  convert this using 2
  field_simp

/-! ### Two periodic directions -/

section plane
variable {S : Special} (hS : S.OK) {d linv rp : ℝ} (hd : 0 < d)
include hS hd

theorem erfcx_arg (a s : ℝ) :
    Real.exp (-a ^ 2 * (1 / 4 / d) - d * s ^ 2) * erfcx S (1 / Real.sqrt d * (d * s + a / 2)) =
      Real.exp (a * s) * S.erfc (1 / Real.sqrt d * (d * s + a / 2)) := by
  unfold erfcx
  rw [← mul_assoc, ← Real.exp_add]
  congr 2
  have : (1 / Real.sqrt d * (d * s + a / 2)) ^ 2 = (d * s + a / 2) ^ 2 / d := by
    rw [mul_pow, div_pow, Real.sq_sqrt hd.le]; ring
  rw [this]
  field_simp
  ring

/-- the function of `a` behind `GravInt2p1i` -/
theorem grav_deriv_ne (s : ℝ) (hs : 0 < s) (a : ℝ) :
    HasDerivAt (fun a : ℝ => (Real.exp (a * s) * S.erfc (1 / Real.sqrt d * (d * s + a / 2)) +
        Real.exp (-a * s) * S.erfc (1 / Real.sqrt d * (d * s - a / 2))) * (1 / (2 * s)))
      (1 / 2 * (Real.exp (a * s) * S.erfc (1 / Real.sqrt d * (d * s + a / 2)) -
        Real.exp (-a * s) * S.erfc (1 / Real.sqrt d * (d * s - a / 2)))) a := by
  set e := 1 / Real.sqrt d with he
  have hid := hasDerivAt_id a
  have hp : HasDerivAt (fun a : ℝ => e * (d * s + a / 2)) (e / 2) a := by
    refine ((hid.div_const 2).const_add (d * s)).const_mul e |>.congr_deriv ?_; ring
  have hq : HasDerivAt (fun a : ℝ => e * (d * s - a / 2)) (-e / 2) a := by
    refine ((hid.div_const 2).const_sub (d * s)).const_mul e |>.congr_deriv ?_; ring
  have h1 := (HasDerivAt.comp a (hS.erfc_deriv (e * (d * s + a / 2))) hp)
  have h2 := (HasDerivAt.comp a (hS.erfc_deriv (e * (d * s - a / 2))) hq)
  have e1 : HasDerivAt (fun a : ℝ => Real.exp (a * s)) (Real.exp (a * s) * s) a := by
    refine (hid.mul_const s).exp.congr_deriv ?_; simp
  have e2 : HasDerivAt (fun a : ℝ => Real.exp (-a * s)) (Real.exp (-a * s) * -s) a := by
    refine (hid.neg.mul_const s).exp.congr_deriv ?_; simp
  have h := ((e1.mul h1).add (e2.mul h2)).mul_const (1 / (2 * s))
  refine h.congr_deriv ?_
  have hsq : e ^ 2 = 1 / d := by rw [he, div_pow, Real.sq_sqrt hd.le, one_pow]
  have k1 : Real.exp (a * s) * Real.exp (-(e * (d * s + a / 2)) ^ 2) = Real.exp (-(d * s ^ 2) - a ^ 2 / (4 * d)) := by
    rw [← Real.exp_add]; congr 1
    rw [mul_pow, hsq]; field_simp; ring
  have k2 : Real.exp (-a * s) * Real.exp (-(e * (d * s - a / 2)) ^ 2) = Real.exp (-(d * s ^ 2) - a ^ 2 / (4 * d)) := by
    rw [← Real.exp_add]; congr 1
    rw [mul_pow, hsq]; field_simp; ring
  simp only [Function.comp_apply]
  have k3 : Real.exp (a * s) * Real.exp (-(e * (d * s + a / 2)) ^ 2) =
    Real.exp (-a * s) * Real.exp (-(e * (d * s - a / 2)) ^ 2) := k1.trans k2.symm
  generalize S.erfc (e * (d * s + a / 2)) = A at *
  generalize S.erfc (e * (d * s - a / 2)) = B at *
  generalize Real.exp (a * s) = E at *
  generalize Real.exp (-a * s) = F at *
  generalize Real.exp (-(e * (d * s + a / 2)) ^ 2) = U at *
  generalize Real.exp (-(e * (d * s - a / 2)) ^ 2) = V at *
  generalize 2 / Real.sqrt Real.pi = W at *
  field_simp
  linear_combination (-(W * e)) * k3

theorem grav_deriv_zero (a : ℝ) :
    HasDerivAt (fun a : ℝ => -(a * S.erf (a / 2 * (1 / Real.sqrt d)) +
        2 * Real.sqrt (d * (1 / Real.pi)) * Real.exp (-a ^ 2 * (1 / 4 / d))))
      (-S.erf (a / 2 * (1 / Real.sqrt d))) a := by
  set e := 1 / Real.sqrt d with he
  have hid := hasDerivAt_id a
  have hp : HasDerivAt (fun a : ℝ => a / 2 * e) (e / 2) a := by
    refine ((hid.div_const 2).mul_const e).congr_deriv ?_; ring
  have herf : ∀ u, HasDerivAt S.erf (2 / Real.sqrt Real.pi * Real.exp (-u ^ 2)) u := by
    intro u
    have : S.erf = fun x => 1 - S.erfc x := funext hS.erf_erfc
    rw [this]
    refine ((hS.erfc_deriv u).const_sub 1).congr_deriv ?_; ring
  have h1 := HasDerivAt.comp a (herf (a / 2 * e)) hp
  have h2 : HasDerivAt (fun a : ℝ => Real.exp (-a ^ 2 * (1 / 4 / d)))
      (Real.exp (-a ^ 2 * (1 / 4 / d)) * (-(2 * a) * (1 / 4 / d))) a := by
    refine (((hid.pow 2).neg).mul_const (1 / 4 / d)).exp.congr_deriv ?_; simp
  have h := ((hid.mul h1).add (h2.const_mul (2 * Real.sqrt (d * (1 / Real.pi))))).neg
  refine h.congr_deriv ?_
  have hsd : 0 < Real.sqrt d := Real.sqrt_pos.2 hd
  have hsp : 0 < Real.sqrt Real.pi := Real.sqrt_pos.2 Real.pi_pos
  have k : -(a / 2 * e) ^ 2 = -a ^ 2 * (1 / 4 / d) := by
    rw [mul_pow, he, div_pow 1, Real.sq_sqrt hd.le]; field_simp; norm_num
  have ks : Real.sqrt (d * (1 / Real.pi)) = Real.sqrt d / Real.sqrt Real.pi := by
    rw [mul_one_div, Real.sqrt_div hd.le]
  have kd : d = Real.sqrt d ^ 2 := (Real.sq_sqrt hd.le).symm
  simp only [Function.comp_apply, id_eq, k, ks]
  generalize Real.exp (-a ^ 2 * (1 / 4 / d)) = E
  rw [he]
  generalize S.erf _ = Q
  have : (1 : ℝ) / 4 / d = 1 / (4 * Real.sqrt d ^ 2) := by rw [← kd]; field_simp
  rw [this]
  field_simp
  ring

theorem s_pos {l1 l2 : ℤ} (hrp : rp ≠ 0) (h : l1 ≠ 0 ∨ l2 ≠ 0) : 0 < Real.sqrt ((l1 : ℝ) ^ 2 + (l2 * rp) ^ 2) := by
  apply Real.sqrt_pos.2
  rcases h with h | h
  · have h' : (l1 : ℝ) ≠ 0 := by exact_mod_cast h
    have := sq_pos_of_ne_zero h'
    nlinarith [sq_nonneg ((l2 : ℝ) * rp)]
  · have h' : (l2 : ℝ) * rp ≠ 0 := mul_ne_zero (by exact_mod_cast h) hrp
    have := sq_pos_of_ne_zero h'
    nlinarith [sq_nonneg (l1 : ℝ)]

/-- `GravInt2p1i` without the scaled function -/
theorem gravInt_eq (l1 l2 : ℤ) (z : ℝ) :
    gravInt S l1 l2 z linv d rp (1 / Real.sqrt d) (1 / 4 / d) =
      if l1 ≠ 0 ∨ l2 ≠ 0 then
        (Real.exp (2 * Real.pi * z * linv * Real.sqrt ((l1 : ℝ) ^ 2 + (l2 * rp) ^ 2)) *
          S.erfc (1 / Real.sqrt d * (d * Real.sqrt ((l1 : ℝ) ^ 2 + (l2 * rp) ^ 2) + 2 * Real.pi * z * linv / 2)) +
        Real.exp (-(2 * Real.pi * z * linv) * Real.sqrt ((l1 : ℝ) ^ 2 + (l2 * rp) ^ 2)) *
          S.erfc (1 / Real.sqrt d * (d * Real.sqrt ((l1 : ℝ) ^ 2 + (l2 * rp) ^ 2) - 2 * Real.pi * z * linv / 2))) *
          (1 / (2 * Real.sqrt ((l1 : ℝ) ^ 2 + (l2 * rp) ^ 2)))
      else -(2 * Real.pi * z * linv * S.erf (2 * Real.pi * z * linv / 2 * (1 / Real.sqrt d)) +
        2 * Real.sqrt (d * (1 / Real.pi)) * Real.exp (-(2 * Real.pi * z * linv) ^ 2 * (1 / 4 / d))) := by
  unfold gravInt
  by_cases h : l1 ≠ 0 ∨ l2 ≠ 0
  · simp only [if_pos h]
    have hsq : (l1 : ℝ) ^ 2 + (l2 * rp) ^ 2 = Real.sqrt ((l1 : ℝ) ^ 2 + (l2 * rp) ^ 2) ^ 2 :=
      (Real.sq_sqrt (by positivity)).symm
    rw [← erfcx_arg hS hd (2 * Real.pi * z * linv) (Real.sqrt ((l1 : ℝ) ^ 2 + (l2 * rp) ^ 2)), ← hsq]
  · simp only [if_neg h]

theorem derGravInt_eq (l1 l2 : ℤ) (z : ℝ) :
    derGravInt S l1 l2 z linv d rp (1 / Real.sqrt d) (1 / 4 / d) =
        Real.exp (2 * Real.pi * z * linv * Real.sqrt ((l1 : ℝ) ^ 2 + (l2 * rp) ^ 2)) *
          S.erfc (1 / Real.sqrt d * (d * Real.sqrt ((l1 : ℝ) ^ 2 + (l2 * rp) ^ 2) + 2 * Real.pi * z * linv / 2)) -
        Real.exp (-(2 * Real.pi * z * linv) * Real.sqrt ((l1 : ℝ) ^ 2 + (l2 * rp) ^ 2)) *
          S.erfc (1 / Real.sqrt d * (d * Real.sqrt ((l1 : ℝ) ^ 2 + (l2 * rp) ^ 2) - 2 * Real.pi * z * linv / 2)) := by
  unfold derGravInt
  have hsq : (l1 : ℝ) ^ 2 + (l2 * rp) ^ 2 = Real.sqrt ((l1 : ℝ) ^ 2 + (l2 * rp) ^ 2) ^ 2 :=
    (Real.sq_sqrt (by positivity)).symm
  have := erfcx_arg hS hd (2 * Real.pi * z * linv) (Real.sqrt ((l1 : ℝ) ^ 2 + (l2 * rp) ^ 2))
  rw [← hsq] at this
  simp only []
  rw [← this]
  ring

theorem gravInt_deriv (hrp : rp ≠ 0) (l1 l2 : ℤ) {Z : ℝ → ℝ} {z' t : ℝ} (hZ : HasDerivAt Z z' t) :
    HasDerivAt (fun s => gravInt S l1 l2 (Z s) linv d rp (1 / Real.sqrt d) (1 / 4 / d))
      (Real.pi * linv * derGravInt S l1 l2 (Z t) linv d rp (1 / Real.sqrt d) (1 / 4 / d) * z') t := by
  simp only [gravInt_eq hS hd, derGravInt_eq hS hd]
  have ha : HasDerivAt (fun s => 2 * Real.pi * Z s * linv) (2 * Real.pi * z' * linv) t :=
    (hZ.const_mul (2 * Real.pi)).mul_const linv
  by_cases h : l1 ≠ 0 ∨ l2 ≠ 0
  · simp only [if_pos h]
    have h1 := HasDerivAt.comp t (grav_deriv_ne hS hd _ (s_pos hS hd hrp h) (2 * Real.pi * Z t * linv)) ha
    refine h1.congr_deriv ?_
    ring
  · simp only [if_neg h]
    have h1 := HasDerivAt.comp t (grav_deriv_zero hS hd (2 * Real.pi * Z t * linv)) ha
    refine h1.congr_deriv ?_
    push Not at h
    obtain ⟨rfl, rfl⟩ := h
    have e1 : S.erfc (1 / Real.sqrt d * (2 * Real.pi * Z t * linv / 2)) =
        1 - S.erf (2 * Real.pi * Z t * linv / 2 * (1 / Real.sqrt d)) := by
      rw [hS.erf_erfc, mul_comm]; ring
    have e2 : S.erfc (1 / Real.sqrt d * (-(2 * Real.pi * Z t * linv / 2))) =
        1 + S.erf (2 * Real.pi * Z t * linv / 2 * (1 / Real.sqrt d)) := by
      have := hS.erf_odd (2 * Real.pi * Z t * linv / 2 * (1 / Real.sqrt d))
      rw [hS.erf_erfc (-_)] at this
      have hx : 1 / Real.sqrt d * (-(2 * Real.pi * Z t * linv / 2)) =
        -(2 * Real.pi * Z t * linv / 2 * (1 / Real.sqrt d)) := by ring
      rw [hx]; linarith
    simp only [Int.cast_zero, zero_mul, ne_eq, OfNat.ofNat_ne_zero, not_false_eq_true, zero_pow, add_zero, Real.sqrt_zero,
      mul_zero, Real.exp_zero, one_mul, zero_add, zero_sub, e1, e2]
    ring

theorem plane_deriv (hrp : rp ≠ 0) (l1 l2 : ℤ) {X Y Z : ℝ → ℝ} {x' y' z' t : ℝ} (hX : HasDerivAt X x' t)
    (hY : HasDerivAt Y y' t) (hZ : HasDerivAt Z z' t) :
    HasDerivAt (fun s => potLong2 S d linv rp (X s) (Y s) (Z s) l1 l2 (1 / Real.sqrt d) (1 / 4 / d))
      (-(l1 * accLong2Per S d linv rp (X t) (Y t) (Z t) l1 l2 (1 / Real.sqrt d) (1 / 4 / d) * x' +
        l2 * rp * accLong2Per S d linv rp (X t) (Y t) (Z t) l1 l2 (1 / Real.sqrt d) (1 / 4 / d) * y' +
        accLong2Iso S d linv rp (X t) (Y t) (Z t) l1 l2 (1 / Real.sqrt d) (1 / 4 / d) * z')) t := by
  have hc : HasDerivAt (fun s => linv * (2 * Real.pi) * (l1 * X s + l2 * Y s * rp))
      (linv * (2 * Real.pi) * (l1 * x' + l2 * y' * rp)) t :=
    (((hX.const_mul (l1 : ℝ)).add ((hY.const_mul (l2 : ℝ)).mul_const rp)).const_mul _)
  have h := (hc.cos.const_mul (linv * rp)).mul (gravInt_deriv hS hd (linv := linv) hrp l1 l2 hZ)
  unfold potLong2 accLong2Per accLong2Iso
  refine h.congr_deriv ?_
  ring

end plane

/-! ### One periodic direction -/

section axis
variable {S : Special} (hS : S.OK)
include hS

omit hS in
theorem hypot_nonneg (y z : ℝ) : 0 ≤ hypot y z := Real.sqrt_nonneg _

omit hS in
theorem simpson_deriv (F G : ℝ → ℝ → ℝ) (a b : ℝ) (n : ℕ) (e : ℝ) (hab : a ≤ b)
    (h : ∀ x, a ≤ x → HasDerivAt (fun η => F η x) (G e x) e) :
    HasDerivAt (fun η => simpsonInt (F η) a b n) (simpsonInt (G e) a b n) e := by
  unfold simpsonInt
  have hdx : 0 ≤ (b - a) / (2 * n) := div_nonneg (by linarith) (by positivity)
  refine ((HasDerivAt.fun_sum fun i _ => ?_).mul_const _).div_const 3
  have hi : (0 : ℝ) ≤ i * (2 * ((b - a) / (2 * n))) := by positivity
  exact ((h _ (by linarith)).add ((h _ (by linarith)).const_mul 4)).add (h _ (by linarith))

omit hS in
theorem simpson_neg (f : ℝ → ℝ) (a b : ℝ) (n : ℕ) : simpsonInt (fun x => -f x) a b n = -simpsonInt f a b n := by
  unfold simpsonInt
  simp only []
  rw [← neg_div, ← neg_mul, ← Finset.sum_neg_distrib]
  congr 2
  exact Finset.sum_congr rfl fun i _ => by ring

theorem intF_deriv (l : ℤ) (d e x : ℝ) (hx : 0 < x) :
    HasDerivAt (fun η => intFPot S l d η x) (-intFAcc S l d e x) e := by
  have hm : HasDerivAt (fun η : ℝ => x * η) x e := by simpa using (hasDerivAt_id e).const_mul x
  have hj := HasDerivAt.comp e (hS.J0_deriv (x * e)) hm
  unfold intFPot intFAcc
  by_cases hl : l = 0
  · subst hl
    simp only [if_true]
    refine (((hj.sub_const 1).mul_const (Real.exp (-d * x ^ 2))).div_const x).congr_deriv ?_
    simp only [Int.cast_zero]
    field_simp
    simp
    ring
  · simp only [if_neg hl]
    refine (((hj.mul_const (Real.exp (-d * x ^ 2))).mul_const x).div_const ((l : ℝ) ^ 2 + x ^ 2)).congr_deriv ?_
    ring

theorem simpsonPot_deriv (c : Cfg) (hc : c.OK) (l : ℤ) (d e : ℝ) :
    HasDerivAt (fun η => simpsonInt (intFPot S l d η) c.ixmin c.ixmax c.simpson)
      (-simpsonInt (intFAcc S l d e) c.ixmin c.ixmax c.simpson) e := by
  rw [← simpson_neg]
  exact simpson_deriv (fun η => intFPot S l d η) (fun η x => -intFAcc S l d η x) _ _ _ e hc.ix_le
    fun x hx => intF_deriv hS l d e x (lt_of_lt_of_le hc.ixmin_pos hx)

theorem simpsonAcc_zero (c : Cfg) (l : ℤ) (d : ℝ) :
    simpsonInt (intFAcc S l d 0) c.ixmin c.ixmax c.simpson = 0 := by
  unfold simpsonInt intFAcc
  simp [hS.J1_zero]

omit hS in
/-- a flat function of the distance from an axis has no slope on the axis -/
theorem flat_deriv {f : ℝ → ℝ} {Y Z : ℝ → ℝ} {y' z' t k : ℝ} (hY : HasDerivAt Y y' t) (hZ : HasDerivAt Z z' t)
    (hy : Y t = 0) (hz : Z t = 0) (hf : HasDerivAt f 0 0) :
    HasDerivAt (fun s => f (k * hypot (Y s) (Z s))) 0 t := by
  have h0 : hypot (Y t) (Z t) = 0 := by simp [hypot, hy, hz]
  rw [hasDerivAt_iff_isLittleO] at hf ⊢
  have hcont : Filter.Tendsto (fun s => k * hypot (Y s) (Z s)) (nhds t) (nhds 0) := by
    have hc : ContinuousAt (fun s => k * hypot (Y s) (Z s)) t := by
      unfold hypot
      exact continuousAt_const.mul (((hY.continuousAt.pow 2).add (hZ.continuousAt.pow 2)).sqrt)
    have := hc.tendsto
    simpa [h0] using this
  have hl := hf.comp_tendsto hcont
  simp only [Function.comp_def, sub_zero, smul_zero] at hl
  simp only [h0, mul_zero, smul_zero, sub_zero]
  refine hl.trans_isBigO ?_
  have bY : (fun s => Y s) =O[nhds t] fun s => s - t := by
    have := hY.differentiableAt.isBigO_sub
    simpa [hy] using this
  have bZ : (fun s => Z s) =O[nhds t] fun s => s - t := by
    have := hZ.differentiableAt.isBigO_sub
    simpa [hz] using this
  refine Asymptotics.IsBigO.const_mul_left ?_ k
  have hle : ∀ s, ‖hypot (Y s) (Z s)‖ ≤ 1 * ‖|Y s| + |Z s|‖ := by
    intro s
    have hn : 0 ≤ |Y s| + |Z s| := by positivity
    rw [one_mul, Real.norm_of_nonneg (hypot_nonneg _ _), Real.norm_of_nonneg hn]
    unfold hypot
    apply Real.sqrt_le_iff.2
    refine ⟨hn, ?_⟩
    nlinarith [sq_abs (Y s), sq_abs (Z s), mul_nonneg (abs_nonneg (Y s)) (abs_nonneg (Z s))]
  exact (Asymptotics.IsBigO.of_bound 1 (Filter.Eventually.of_forall hle)).trans
    ((bY.norm_left).add (bZ.norm_left))

theorem axis_deriv (c : Cfg) (hc : c.OK) (l : ℤ) (d : ℝ) {linv : ℝ} (hl : linv ≠ 0) {X Y Z : ℝ → ℝ} {x' y' z' t : ℝ}
    (hX : HasDerivAt X x' t) (hY : HasDerivAt Y y' t) (hZ : HasDerivAt Z z' t) :
    HasDerivAt (fun s => potLong1 S c l d linv (X s) (Y s) (Z s))
      (-(Real.pi * (2 * linv) ^ 2 * accLong1Per S c l d linv (X t) (Y t) (Z t) * x' +
        Real.pi * (2 * linv) ^ 2 * accLong1Iso S c l d linv (X t) (Y t) (Z t) * y' +
        Real.pi * (2 * linv) ^ 2 * accLong1Iso S c l d linv (X t) (Z t) (Y t) * z')) t := by
  have hcos : HasDerivAt (fun s => Real.cos (2 * Real.pi * l * X s * linv))
      (-Real.sin (2 * Real.pi * l * X t * linv) * (2 * Real.pi * l * x' * linv)) t :=
    ((hX.const_mul (2 * Real.pi * l)).mul_const linv).cos
  have hcomm : ∀ y z, hypot y z = hypot z y := fun y z => by unfold hypot; rw [add_comm]
  have harg : 2 * Real.pi * linv * l * X t = 2 * Real.pi * l * X t * linv := by ring
  have hP := simpsonPot_deriv hS c hc l d (2 * Real.pi * linv * hypot (Y t) (Z t))
  by_cases h0 : hypot (Y t) (Z t) = 0
  · have hyz : Y t = 0 ∧ Z t = 0 := by
      have hq : Y t ^ 2 + Z t ^ 2 = 0 := (Real.sqrt_eq_zero (by positivity)).1 h0
      constructor <;> nlinarith [sq_nonneg (Y t), sq_nonneg (Z t)]
    have hflat : HasDerivAt (fun η => simpsonInt (intFPot S l d η) c.ixmin c.ixmax c.simpson) 0 0 := by
      have := simpsonPot_deriv hS c hc l d 0
      rwa [simpsonAcc_zero hS, neg_zero] at this
    have hS' := flat_deriv (k := 2 * Real.pi * linv) hY hZ hyz.1 hyz.2 hflat
    have h := (hcos.const_mul (2 * linv * Real.exp (-d * (l : ℝ) ^ 2))).mul hS'
    have i1 : accLong1Iso S c l d linv (X t) (Y t) (Z t) = 0 := by unfold accLong1Iso; simp [h0]
    have i2 : accLong1Iso S c l d linv (X t) (Z t) (Y t) = 0 := by unfold accLong1Iso; simp [hcomm (Z t), h0]
    rw [i1, i2]
    unfold potLong1 accLong1Per
    refine h.congr_deriv ?_
    simp only [harg]
    ring
  · have hne : Y t ≠ 0 ∨ Z t ≠ 0 := by
      by_contra hcon
      push Not at hcon
      exact h0 (by simp [hypot, hcon.1, hcon.2])
    have hq : 0 < Y t ^ 2 + Z t ^ 2 := by
      rcases hne with h | h <;> have := sq_pos_of_ne_zero h <;> nlinarith [sq_nonneg (Y t), sq_nonneg (Z t)]
    have hh : HasDerivAt (fun s => hypot (Y s) (Z s)) ((Y t * y' + Z t * z') / hypot (Y t) (Z t)) t := by
      have := ((hY.pow 2).add (hZ.pow 2)).sqrt (by simpa using hq.ne')
      refine this.congr_deriv ?_
      simp only [Pi.add_apply, Pi.pow_apply, hypot]
      have hs : Real.sqrt (Y t ^ 2 + Z t ^ 2) ≠ 0 := (Real.sqrt_pos.2 hq).ne'
      field_simp
      push_cast
      ring
    have hS' := HasDerivAt.comp t hP (hh.const_mul (2 * Real.pi * linv))
    have h := (hcos.const_mul (2 * linv * Real.exp (-d * (l : ℝ) ^ 2))).mul hS'
    have hpi : Real.pi ≠ 0 := Real.pi_ne_zero
    have he : 2 * Real.pi * linv * hypot (Y t) (Z t) ≠ 0 := by positivity
    unfold potLong1 accLong1Per accLong1Iso
    refine h.congr_deriv ?_
    simp only [hcomm (Z t) (Y t), Function.comp_apply, harg]
    rw [if_pos he, if_pos he]
    field_simp
    ring

end axis

/-! ### Three periodic directions -/

theorem cube_deriv (A d i1 i2 w linv : ℝ) (l1 l2 l3 : ℤ) {X Y Z : ℝ → ℝ} {x' y' z' t : ℝ} (hX : HasDerivAt X x' t)
    (hY : HasDerivAt Y y' t) (hZ : HasDerivAt Z z' t) :
    HasDerivAt (fun s => A * Real.exp (-d * w) *
        Real.cos (2 * Real.pi * linv * (l1 * X s + l2 * Y s * i1 + l3 * Z s * i2)) / w)
      (-(A * (2 * Real.pi * linv) * Real.exp (-d * w) *
        Real.sin (2 * Real.pi * linv * (l1 * X t + l2 * Y t * i1 + l3 * Z t * i2)) / w *
        (l1 * x' + l2 * i1 * y' + l3 * i2 * z'))) t := by
  have hc : HasDerivAt (fun s => 2 * Real.pi * linv * (l1 * X s + l2 * Y s * i1 + l3 * Z s * i2))
      (2 * Real.pi * linv * (l1 * x' + l2 * y' * i1 + l3 * z' * i2)) t :=
    ((((hX.const_mul (l1 : ℝ)).add ((hY.const_mul (l2 : ℝ)).mul_const i1)).add
      ((hZ.const_mul (l3 : ℝ)).mul_const i2)).const_mul _)
  refine ((hc.cos.const_mul (A * Real.exp (-d * w))).div_const w).congr_deriv ?_
  ring

end Gandalf.Ewald
