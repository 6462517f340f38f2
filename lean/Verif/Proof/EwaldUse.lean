import Verif.Proof.EwaldForce
import Verif.Proof.EwaldSpecial
import Mathlib.Analysis.Calculus.Deriv.MeanValue

/-! # Choice of formula, the potential that is used, and cases for the examples -/

set_option autoImplicit false

namespace Gandalf.Ewald
open Gandalf.Field

/-- the test of Ewald.cpp:569-570 -/
def farTest (c : Cfg) (dr : P3) : Prop :=
  periodicity c ≠ 7 ∧ max (max (il c dr 0 + 1) (il c dr 1 + 1)) (il c dr 2 + 1) > 4 * c.grid - 7

theorem correction_far (c : Cfg) (tab : ℕ → ℝ) (m : ℝ) (dr : P3) (h : farTest c (wrapStep c m dr).1) :
    correction c tab m dr = ⟨(wrapStep c m dr).2.pot + m * (far c tab (wrapStep c m dr).1).pot,
      fun k => (wrapStep c m dr).2.acc k + m * (far c tab (wrapStep c m dr).1).acc k⟩ := by
  unfold farTest at h
  unfold correction
  simp only [if_pos h]

theorem correction_near (c : Cfg) (tab : ℕ → ℝ) (m : ℝ) (dr : P3) (h : ¬farTest c (wrapStep c m dr).1) :
    correction c tab m dr = ⟨(wrapStep c m dr).2.pot + m * (lookup c tab (wrapStep c m dr).1).pot,
      fun k => (wrapStep c m dr).2.acc k + m * (lookup c tab (wrapStep c m dr).1).acc k⟩ := by
  unfold farTest at h
  unfold correction
  simp only [if_neg h]

theorem far_open (c : Cfg) (hc : c.OK) (hv : c.Covers) (dr : P3) (hd : ∀ k, c.per k = true → |dr k| ≤ c.L k / 2)
    (h : farTest c dr) : ∃ k, c.per k = false ∧ 2 * unit c < |dr k| := by
  have h3 := hv.three
  have hex : ∃ k, il c dr k + 1 > 4 * c.grid - 7 := by
    have := h.2
    rcases lt_max_iff.1 this with h' | h'
    · rcases lt_max_iff.1 h' with h'' | h''
      · exact ⟨0, h''⟩
      · exact ⟨1, h''⟩
    · exact ⟨2, h'⟩
  obtain ⟨k, hk⟩ := hex
  have ho : c.per k = false := by
    by_contra hcon
    have hp : c.per k = true := by simpa using hcon
    have := il_periodic c hc hv dr k hp (hd k hp)
    unfold Ngrid Ncells at this
    rw [if_pos hp] at this
    omega
  refine ⟨k, ho, ?_⟩
  have hN : Ncells c k = 4 * (c.grid - 2) + 1 := by unfold Ncells; simp [ho]
  have hL : Lewald c k = 2 * unit c := by
    unfold Lewald unit; simp only [ho]; simp; ring
  have hil : Ncells c k ≤ il c dr k := by omega
  have hfl : ((il c dr k : ℕ) : ℝ) ≤ dI c k * |dr k| :=
    Nat.floor_le (mul_nonneg (dI_pos c hc hv k).le (abs_nonneg _))
  have h2 : (2 : ℝ) ≤ Ncells c k := by exact_mod_cast Ncells_ge c hv k
  have hil' : (Ncells c k : ℝ) ≤ il c dr k := by exact_mod_cast hil
  have hq : (Ncells c k : ℝ) ≤ ((Ncells c k : ℝ) - 1) / Lewald c k * |dr k| := le_trans hil' hfl
  rw [← hL]
  have hLp := Lewald_pos c hc hv k
  rw [div_mul_eq_mul_div, le_div_iff₀ hLp] at hq
  by_contra hcon
  push Not at hcon
  nlinarith

theorem near_range (c : Cfg) (hc : c.OK) (hv : c.Covers) (dr : P3) (hd : ∀ k, c.per k = true → |dr k| ≤ c.L k / 2)
    (h : ¬farTest c dr) (k : Fin 3) : il c dr k + 1 < Ngrid c k := by
  have h3 := hv.three
  cases hp : c.per k with
  | true => exact il_periodic c hc hv dr k hp (hd k hp)
  | false =>
    have h7 : periodicity c ≠ 7 := by
      intro h7
      obtain ⟨_, _, _, _, _, _, b7⟩ := per_bits c
      obtain ⟨p0, p1, p2⟩ := b7 h7
      fin_cases k
      · exact Bool.noConfusion (p0.symm.trans hp)
      · exact Bool.noConfusion (p1.symm.trans hp)
      · exact Bool.noConfusion (p2.symm.trans hp)
    have hm : max (max (il c dr 0 + 1) (il c dr 1 + 1)) (il c dr 2 + 1) ≤ 4 * c.grid - 7 := by
      by_contra hcon
      exact h ⟨h7, by omega⟩
    have hk : il c dr k + 1 ≤ 4 * c.grid - 7 := by
      refine le_trans ?_ hm
      fin_cases k
      · exact le_trans (le_max_left _ _) (le_max_left _ _)
      · exact le_trans (le_max_right _ _) (le_max_left _ _)
      · exact le_max_right _ _
    unfold Ngrid Ncells
    simp only [hp]
    simp
    omega

/-- the potential that is used does not change within a cell -/
theorem pot_flat (c : Cfg) (hc : c.OK) (hv : c.Covers) (tab : ℕ → ℝ) (dr : P3) (hg : ∀ k, 0 < frac c dr k)
    (a : P3) (ha : Gradient a (fun q => (lookup c tab q).pot) dr) : a = 0 := by
  funext k
  have hm : Moves (fun s => Function.update dr k (dr k + s)) (fun j => if j = k then 1 else 0) 0 := by
    intro j
    by_cases hj : j = k
    · subst hj
      simp only [Function.update_self, if_true]
      simpa using (hasDerivAt_id (0 : ℝ)).const_add (dr j)
    · simp only [Function.update_of_ne hj, if_neg hj]
      exact hasDerivAt_const _ _
  have h1 := ha _ _ 0 (by simp) hm
  have hev : ∀ᶠ s in nhds (0 : ℝ), il c (Function.update dr k (dr k + s)) k = il c dr k := by
    have hcont : ContinuousAt (fun s : ℝ => dI c k * |dr k + s|) 0 := by fun_prop
    have hlo : (il c dr k : ℝ) < dI c k * |dr k + 0| := by
      have := hg k; unfold frac at this; rw [add_zero]; linarith
    have hhi : dI c k * |dr k + 0| < il c dr k + 1 := by
      have := (frac_range c hc hv dr k).2; unfold frac at this; rw [add_zero]; linarith
    filter_upwards [hcont.eventually (lt_mem_nhds hlo), hcont.eventually (gt_mem_nhds hhi)] with s hs1 hs2
    unfold il at hs1 hs2 ⊢
    simp only [Function.update_self]
    rw [Nat.floor_eq_iff (mul_nonneg (dI_pos c hc hv k).le (abs_nonneg _))]
    exact ⟨hs1.le, hs2⟩
  have hconst : (fun s => (lookup c tab (Function.update dr k (dr k + s))).pot) =ᶠ[nhds 0] fun _ => (lookup c tab dr).pot := by
    filter_upwards [hev] with s hs
    have : il c (Function.update dr k (dr k + s)) = il c dr := by
      funext j
      by_cases hj : j = k
      · subst hj; exact hs
      · unfold il; rw [Function.update_of_ne hj]
    unfold lookup base0
    simp only [this]
  have h2 := (hasDerivAt_const (0 : ℝ) (lookup c tab dr).pot).congr_of_eventuallyEq hconst
  have := h1.unique h2
  simp at this
  simpa using this

/-! ### A series of one term -/

theorem erf_gt (S : Special) (hS : S.OK) {x : ℝ} (hx : 0 < x) :
    2 * x * Real.exp (-x ^ 2) / Real.sqrt Real.pi < S.erf x := by
  have hsp : 0 < Real.sqrt Real.pi := Real.sqrt_pos.2 Real.pi_pos
  have herf : ∀ u, HasDerivAt S.erf (2 / Real.sqrt Real.pi * Real.exp (-u ^ 2)) u := by
    intro u
    have : S.erf = fun x => 1 - S.erfc x := funext hS.erf_erfc
    rw [this]
    refine ((hS.erfc_deriv u).const_sub 1).congr_deriv ?_; ring
  have hg : ∀ u, HasDerivAt (fun u : ℝ => S.erf u - 2 * u * Real.exp (-u ^ 2) / Real.sqrt Real.pi)
      (4 * u ^ 2 * Real.exp (-u ^ 2) / Real.sqrt Real.pi) u := by
    intro u
    have e : HasDerivAt (fun u : ℝ => Real.exp (-u ^ 2)) (Real.exp (-u ^ 2) * -(2 * u)) u := by
      refine ((hasDerivAt_id u).pow 2).neg.exp.congr_deriv ?_
      simp
    refine ((herf u).sub ((((hasDerivAt_id u).const_mul 2).mul e).div_const _)).congr_deriv ?_
    simp only [id_eq]
    field_simp
    ring
  have hmono : StrictMonoOn (fun u : ℝ => S.erf u - 2 * u * Real.exp (-u ^ 2) / Real.sqrt Real.pi) (Set.Ici 0) := by
    apply strictMonoOn_of_deriv_pos (convex_Ici 0)
    · exact fun u _ => (hg u).continuousAt.continuousWithinAt
    · intro u hu
      rw [interior_Ici] at hu
      have hu' : 0 < u := hu
      rw [(hg u).deriv]
      positivity
  have h0 : S.erf 0 = 0 := by have := hS.erf_odd 0; simp at this; linarith
  have := hmono (Set.mem_Ici.2 le_rfl) (Set.mem_Ici.2 hx.le) hx
  simp only [h0] at this
  simp at this
  linarith

/-- box of size one, periodic in all directions, default table; one term of the series -/
noncomputable def cfg1 : Cfg := ⟨fun _ => true, fun _ => 1, 0, 500, 16, 1, 1 / 100000000, 5, 1⟩

theorem cfg1_ok : cfg1.OK := ⟨⟨0, rfl⟩, fun _ => by simp [cfg1], by simp [cfg1], by simp [cfg1], by norm_num [cfg1]⟩
theorem cfg1_covers : cfg1.Covers := ⟨by simp [cfg1], by simp [cfg1]⟩
theorem cfg1_per : periodicity cfg1 = 7 := by simp [periodicity, cfg1]

theorem cfg1_images : images cfg1 = {(0, 0, 0)} := by
  ext h
  rw [images_iff cfg1 cfg1_ok, Finset.mem_singleton]
  simp only [Allowed, shift, unit, cfg1, Fin.sum_univ_three, comp]
  obtain ⟨x, y, z⟩ := h
  simp
  constructor
  · intro h
    have hx : (x : ℝ) = 0 := by nlinarith [sq_nonneg (x : ℝ), sq_nonneg (y : ℝ), sq_nonneg (z : ℝ)]
    have hy : (y : ℝ) = 0 := by nlinarith [sq_nonneg (x : ℝ), sq_nonneg (y : ℝ), sq_nonneg (z : ℝ)]
    have hz : (z : ℝ) = 0 := by nlinarith [sq_nonneg (x : ℝ), sq_nonneg (y : ℝ), sq_nonneg (z : ℝ)]
    exact ⟨by exact_mod_cast hx, by exact_mod_cast hy, by exact_mod_cast hz⟩
  · rintro ⟨rfl, rfl, rfl⟩; simp

theorem cfg1_waves : waves cfg1 = {(0, 0, 0)} := by
  ext h
  rw [waves_iff cfg1 cfg1_ok (by rw [cfg1_per]; simp) (by rw [cfg1_per]; simp), Finset.mem_singleton]
  simp only [Allowed, unit, cfg1, Fin.sum_univ_three, comp]
  obtain ⟨x, y, z⟩ := h
  simp
  constructor
  · intro h
    have hx : (x : ℝ) = 0 := by nlinarith [sq_nonneg (x : ℝ), sq_nonneg (y : ℝ), sq_nonneg (z : ℝ)]
    have hy : (y : ℝ) = 0 := by nlinarith [sq_nonneg (x : ℝ), sq_nonneg (y : ℝ), sq_nonneg (z : ℝ)]
    have hz : (z : ℝ) = 0 := by nlinarith [sq_nonneg (x : ℝ), sq_nonneg (y : ℝ), sq_nonneg (z : ℝ)]
    exact ⟨by exact_mod_cast hx, by exact_mod_cast hy, by exact_mod_cast hz⟩
  · rintro ⟨rfl, rfl, rfl⟩; simp

theorem cfg1_acc (S : Special) (hS : S.OK) (p : P3) (k : Fin 3) (hp : 0 < p k) : (field S cfg1 p).acc k < 0 := by
  have h3 : p 0 ≠ 0 ∨ p 1 ≠ 0 ∨ p 2 ≠ 0 := by
    fin_cases k
    · exact Or.inl hp.ne'
    · exact Or.inr (Or.inl hp.ne')
    · exact Or.inr (Or.inr hp.ne')
  have hR : 0 < Real.sqrt (p 0 ^ 2 + p 1 ^ 2 + p 2 ^ 2) := Real.sqrt_pos.2 (sq3_pos h3)
  have ha := alpha_pos cfg1 cfg1_ok
  have hlong : (long S cfg1 (0, 0, 0) p).acc k = 0 := by simp [long, cfg1_per]
  have hs : (short S cfg1 (0, 0, 0) p).acc k = accShort S (alpha cfg1) (p k) (Real.sqrt (p 0 ^ 2 + p 1 ^ 2 + p 2 ^ 2)) := by
    simp only [short]
    fin_cases k <;> simp
  have hval : (field S cfg1 p).acc k = (short S cfg1 (0, 0, 0) p).acc k + (long S cfg1 (0, 0, 0) p).acc k -
      p k / Real.sqrt (p 0 ^ 2 + p 1 ^ 2 + p 2 ^ 2) ^ 3 := by
    simp only [field, cfg1_images, cfg1_waves, Finset.sum_singleton]
  rw [hval, hlong, hs]
  generalize Real.sqrt (p 0 ^ 2 + p 1 ^ 2 + p 2 ^ 2) = R at *
  have hg := erf_gt S hS (mul_pos ha hR)
  rw [hS.erf_erfc] at hg
  unfold accShort
  have he : -(alpha cfg1 * R) ^ 2 = -R ^ 2 * alpha cfg1 ^ 2 := by ring
  rw [he] at hg
  have hsp : 0 < Real.sqrt Real.pi := Real.sqrt_pos.2 Real.pi_pos
  have e : 2 * alpha cfg1 * p k * Real.exp (-R ^ 2 * alpha cfg1 ^ 2) / (Real.sqrt Real.pi * R ^ 2) +
      p k * S.erfc (alpha cfg1 * R) / R ^ 3 + 0 - p k / R ^ 3 =
      p k / R ^ 3 * (2 * (alpha cfg1 * R) * Real.exp (-R ^ 2 * alpha cfg1 ^ 2) / Real.sqrt Real.pi -
        (1 - S.erfc (alpha cfg1 * R))) := by
    field_simp
    ring
  rw [e]
  exact mul_neg_of_pos_of_neg (by positivity) (by linarith)

theorem cfg1_dI (k : Fin 3) : dI cfg1 k = 28 := by
  simp [dI, Ncells, Lewald, cfg1]; norm_num

theorem cfg1_lookup (S : Special) (hS : S.OK) (k : Fin 3) :
    (lookup cfg1 (table S cfg1) (fun _ => 1 / 100)).acc k < 0 := by
  have hil : il cfg1 (fun _ => 1 / 100) = fun _ => 0 := by
    funext j
    unfold il
    rw [cfg1_dI, Nat.floor_eq_zero, abs_of_pos (by norm_num)]
    norm_num
  have hfr : ∀ j, frac cfg1 (fun _ => 1 / 100) j = 28 / 100 := by
    intro j
    unfold frac
    rw [hil, cfg1_dI, abs_of_pos (by norm_num)]
    norm_num
  unfold lookup
  simp only []
  rw [sgn_pos (by norm_num), mul_one, base0_eq, interpolate_corners S cfg1 _ _ (by
    intro j; rw [hil]; simp [Ngrid, Ncells, cfg1])]
  have hst : ∀ q : Corner, stored S cfg1 (fun j => il cfg1 (fun _ => 1 / 100) j + q.step j) k ≤ 0 := by
    intro q
    unfold stored
    split_ifs with h0
    · exact le_rfl
    · by_cases hk : q.step k = 0
      · have hz : node cfg1 (fun j => il cfg1 (fun _ => 1 / 100) j + q.step j) k = 0 := by
          unfold node; rw [hil]; simp [hk]
        have := (field_abs S hS cfg1 cfg1_ok (node cfg1 fun j => il cfg1 (fun _ => 1 / 100) j + q.step j)).2 k
        rw [hz, sgn_zero, zero_mul] at this
        exact this.le
      · refine (cfg1_acc S hS _ k ?_).le
        unfold node
        rw [hil]
        have : 0 < (q.step k : ℝ) := by exact_mod_cast Nat.pos_of_ne_zero hk
        have hl := Lewald_pos cfg1 cfg1_ok cfg1_covers k
        have hn : (2 : ℝ) ≤ Ncells cfg1 k := by exact_mod_cast Ncells_ge cfg1 cfg1_covers k
        have : (0 : ℝ) < Ncells cfg1 k - 1 := by linarith
        simp only [zero_add]
        positivity
  have hlast : stored S cfg1 (fun j => il cfg1 (fun _ => 1 / 100) j + Corner.step (1, 1, 1) j) k < 0 := by
    unfold stored
    rw [if_neg (by intro h; have := congrFun h 0; rw [hil] at this; simp [Corner.step] at this)]
    refine cfg1_acc S hS _ k ?_
    unfold node
    rw [hil]
    have hs1 : Corner.step (1, 1, 1) k = 1 := by fin_cases k <;> rfl
    have hl := Lewald_pos cfg1 cfg1_ok cfg1_covers k
    have hn : (2 : ℝ) ≤ Ncells cfg1 k := by exact_mod_cast Ncells_ge cfg1 cfg1_covers k
    have : (0 : ℝ) < Ncells cfg1 k - 1 := by linarith
    simp only [zero_add, hs1]
    push_cast
    positivity
  have hw := weight_nonneg (frac cfg1 fun _ => 1 / 100) (fun j => by rw [hfr]; norm_num)
  refine Finset.sum_neg' (fun q _ => mul_nonpos_of_nonneg_of_nonpos (hw q) (hst q)) ⟨(1, 1, 1), Finset.mem_univ _, ?_⟩
  refine mul_neg_of_pos_of_neg ?_ hlast
  unfold weight
  simp only [hfr]
  norm_num

end Gandalf.Ewald
