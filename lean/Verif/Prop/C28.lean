import Verif.Proof.Hllc

/-!
# C28 – the HLLC flux is consistent, upwind, satisfies the jump conditions and is free of mass flux when asked
-/

set_option autoImplicit false
set_option linter.unusedSectionVars false

namespace Gandalf

open Hllc

variable {n : ℕ}

namespace Hllc

/-- the state between an outer wave and the contact -/
noncomputable def starSt (S : St n) (nrm : Vec n ℝ) (w vm : ℝ) : St n where
  v := fun i => S.v i + (vm - S.vline) * nrm i
  rho := S.rho * (w - S.vline) / (w - vm)
  press := S.press + S.rho * (S.vline - w) * (S.vline - vm)
  e := (starCons S nrm w vm).en
  cs := 0
  vline := vm

theorem star_rho {S : St n} {nrm : Vec n ℝ} {w vm : ℝ} (h : w ≠ vm) :
    (starSt S nrm w vm).rho * (w - vm) = S.rho * (w - S.vline) := by
  unfold starSt
  field_simp [sub_ne_zero.mpr h]

theorem star_en {S : St n} {nrm : Vec n ℝ} {w vm : ℝ} (h : w ≠ vm) (h' : w ≠ S.vline) (hr : S.rho ≠ 0) :
    (starSt S nrm w vm).e * (w - vm) = S.e * (w - S.vline) + (vm - S.vline) * (S.rho * (w - S.vline) * vm + S.press) := by
  have h1 : w - vm ≠ 0 := sub_ne_zero.mpr h
  have h2 : S.vline - w ≠ 0 := sub_ne_zero.mpr (Ne.symm h')
  simp only [starSt, starCons]
  field_simp
  ring

theorem star_jump {S : St n} {nrm : Vec n ℝ} {w vm : ℝ} (h : w ≠ vm) (h' : w ≠ S.vline) (hr : S.rho ≠ 0) :
    Jump S (starSt S nrm w vm) nrm w := by
  have hρ := star_rho (S := S) (nrm := nrm) h
  have he := star_en (S := S) (nrm := nrm) h h' hr
  refine ⟨?_, fun i => ?_, ?_⟩
  · change _ * vm - _ = _
    linear_combination (-1 : ℝ) * hρ
  · change (starSt S nrm w vm).rho * vm * (S.v i + (vm - S.vline) * nrm i)
      + (S.press + S.rho * (S.vline - w) * (S.vline - vm)) * nrm i - _ =
      w * ((starSt S nrm w vm).rho * (S.v i + (vm - S.vline) * nrm i) - _)
    linear_combination (-(S.v i + (vm - S.vline) * nrm i)) * hρ
  · change ((S.press + S.rho * (S.vline - w) * (S.vline - vm)) + (starSt S nrm w vm).e) * vm - _ = _
    linear_combination (-1 : ℝ) * he

theorem addRH_star {S : St n} {nrm : Vec n ℝ} {w vm : ℝ} (h : w ≠ vm) (h' : w ≠ S.vline) (hr : S.rho ≠ 0) :
    addRH S nrm w vm (hydroFlux S nrm) = hydroFlux (starSt S nrm w vm) nrm := by
  obtain ⟨j1, j2, j3⟩ := star_jump (S := S) (nrm := nrm) h h' hr
  ext i
  · have := j2 i
    change (S.rho * S.vline * S.v i + S.press * nrm i) + w * ((starSt S nrm w vm).rho * (starSt S nrm w vm).v i
      - S.rho * S.v i) = (starSt S nrm w vm).rho * (starSt S nrm w vm).vline * (starSt S nrm w vm).v i
      + (starSt S nrm w vm).press * nrm i
    linarith
  · change S.rho * S.vline + w * ((starSt S nrm w vm).rho - S.rho) = (starSt S nrm w vm).rho * (starSt S nrm w vm).vline
    linarith
  · change (S.press + S.e) * S.vline + w * ((starSt S nrm w vm).e - S.e) =
      ((starSt S nrm w vm).press + (starSt S nrm w vm).e) * (starSt S nrm w vm).vline
    linarith

/-- both sides of the contact have the same pressure -/
theorem pstar_eq {Sl Sr : St n} {a b : ℝ} (h : Sr.rho * (Sr.vline - b) - Sl.rho * (Sl.vline - a) ≠ 0) :
    Sl.press + Sl.rho * (Sl.vline - a) * (Sl.vline - central false Sl Sr a b) =
    Sr.press + Sr.rho * (Sr.vline - b) * (Sr.vline - central false Sl Sr a b) := by
  have hc : central false Sl Sr a b * (Sr.rho * (Sr.vline - b) - Sl.rho * (Sl.vline - a)) =
      (Sr.vline * (Sr.rho * (Sr.vline - b)) + Sr.press) - (Sl.vline * (Sl.rho * (Sl.vline - a)) + Sl.press) := by
    unfold central
    simp only [Bool.false_eq_true, if_false]
    exact div_mul_cancel₀ _ h
  linear_combination hc

theorem star_eint {S : St n} {nrm : Vec n ℝ} {w vm gamma : ℝ} (hn : dot nrm nrm = 1)
    (hS : Admissible S nrm (S.press / (gamma - 1))) (hi : IdealGas gamma S) (hg : 1 < gamma)
    (hw : S.cs ≤ |w - S.vline|) (hρ : 0 < (starSt S nrm w vm).rho) :
    (starSt S nrm w vm).rho * dot (starSt S nrm w vm).v (starSt S nrm w vm).v / 2 < (starSt S nrm w vm).e := by
  have hwv : w - S.vline ≠ 0 := by
    intro h0
    rw [h0, abs_zero] at hw
    exact absurd hS.cs_pos (not_lt.mpr hw)
  have hv : dot (starSt S nrm w vm).v (starSt S nrm w vm).v =
      dot S.v S.v + 2 * (vm - S.vline) * S.vline + (vm - S.vline) ^ 2 := by
    have e1 : dot (starSt S nrm w vm).v (starSt S nrm w vm).v =
        dot S.v S.v + 2 * (vm - S.vline) * dot S.v nrm + (vm - S.vline) ^ 2 * dot nrm nrm := by
      simp only [starSt, dot, Finset.mul_sum, ← Finset.sum_add_distrib]
      exact Finset.sum_congr rfl fun k _ => by ring
    rw [e1, hn, ← hS.line, mul_one]
  have he : (starSt S nrm w vm).e = (starSt S nrm w vm).rho *
      (S.e / S.rho + (vm - S.vline) * (vm - S.press / (S.rho * (S.vline - w)))) := rfl
  rw [hv, he]
  have hp := hS.press_pos
  have hr := hS.rho_pos
  have h2 : S.e / S.rho = dot S.v S.v / 2 + S.press / (gamma - 1) / S.rho := by
    rw [hS.energy]
    field_simp
  have h3 : S.press / (S.rho * (S.vline - w)) = -(S.press / S.rho / (w - S.vline)) := by
    have : S.vline - w ≠ 0 := by
      intro h; exact hwv (by linarith)
    field_simp
    ring
  rw [h2, h3]
  -- the quadratic form in the change of velocity is positive
  have hq : 0 < S.press / (gamma - 1) / S.rho + (vm - S.vline) ^ 2 / 2
      + (vm - S.vline) * (S.press / S.rho / (w - S.vline)) := by
    have hsq : S.cs ^ 2 ≤ (w - S.vline) ^ 2 := by
      rw [← sq_abs (w - S.vline)]
      exact pow_le_pow_left₀ hS.cs_pos.le hw 2
    have hk : S.cs ^ 2 = gamma * (S.press / S.rho) := by
      unfold IdealGas at hi
      field_simp
      linarith
    generalize hP : S.press / S.rho = P at *
    have hP0 : 0 < P := by rw [← hP]; positivity
    have e2 : S.press / (gamma - 1) / S.rho = P / (gamma - 1) := by rw [← hP]; ring
    rw [e2]
    have h4 : P / (w - S.vline) * (P / (w - S.vline)) ≤ P / gamma := by
      rw [div_mul_div_comm, div_le_div_iff₀ (mul_self_pos.mpr hwv) (by linarith)]
      nlinarith
    have h5 : P / gamma < P / (gamma - 1) := div_lt_div_of_pos_left hP0 (by linarith) (by linarith)
    have h6 : 0 < P / (gamma - 1) := div_pos hP0 (by linarith)
    generalize P / (w - S.vline) = x at *
    generalize vm - S.vline = y at *
    nlinarith [sq_nonneg (y + x)]
  have := mul_pos hρ hq
  nlinarith

theorem rev_adm {S : St n} {nrm : Vec n ℝ} {e : ℝ} (h : Admissible S nrm e) :
    Admissible (rev S) (fun i => -nrm i) e :=
  ⟨h.rho_pos, h.press_pos, h.cs_pos, by rw [dot_neg_r]; exact congrArg Neg.neg h.line, h.energy⟩

/-- the contact moves slower than the right-most wave -/
theorem central_lt_smax {Sl Sr : St n} {gamma : ℝ} (hg : 5 / 4 ≤ gamma) (hl : 0 < Sl.rho) (hr : 0 < Sr.rho)
    (cl : 0 < Sl.cs) (cr : 0 < Sr.cs) (pl : 0 < Sl.press) (pr : 0 < Sr.press) (il : IdealGas gamma Sl) :
    central false Sl Sr (smin Sl Sr) (smax Sl Sr) < smax Sl Sr := by
  have h := smin_lt_central (Sl := rev Sr) (Sr := rev Sl) hg hr hl cr cl pr pl il
  rw [smin_rev hl hr, smax_rev hl hr, central_rev] at h
  linarith

theorem iso_central_between {Sl Sr : St n} (hl : 0 < Sl.rho) (hr : 0 < Sr.rho) (cl : 0 < Sl.cs) (cr : 0 < Sr.cs) :
    smin Sl Sr < central true Sl Sr (smin Sl Sr) (smax Sl Sr) ∧
    central true Sl Sr (smin Sl Sr) (smax Sl Sr) < smax Sl Sr := by
  have h1 := smin_le Sl Sr
  have h2 := le_smax Sl Sr
  have h3 := smin_lt_smax hl hr cl
  have a : 0 < Sl.rho * (Sl.vline - smin Sl Sr) := mul_pos hl (by linarith)
  have b : 0 < -(Sr.rho * (Sr.vline - smax Sl Sr)) := by
    have : Sr.rho * (Sr.vline - smax Sl Sr) < 0 := mul_neg_of_pos_of_neg hr (by linarith)
    linarith
  unfold central
  simp only [if_true]
  generalize Sl.rho * (Sl.vline - smin Sl Sr) = x at *
  generalize Sr.rho * (Sr.vline - smax Sl Sr) = y at *
  constructor
  · rw [lt_div_iff₀ (by linarith)]; nlinarith
  · rw [div_lt_iff₀ (by linarith)]; nlinarith

theorem toLab_hydro {S : St n} {nrm vface : Vec n ℝ} {e : ℝ} (h : Admissible S nrm e) :
    toLab (hydroFlux S nrm) vface = labFlux S.rho (fun i => S.v i + vface i) S.press e nrm vface := by
  have h1 : (dot (fun i => (S.v i + vface i) - vface i) nrm) = S.vline := by
    rw [h.line]; congr 1; funext i; ring
  have h2 : dot (hydroFlux S nrm).mom vface = S.rho * S.vline * dot S.v vface + S.press * dot vface nrm := by
    simp only [hydroFlux, dot, Finset.mul_sum, ← Finset.sum_add_distrib]
    exact Finset.sum_congr rfl fun k _ => by ring
  have h3 : (dot (fun i => S.v i + vface i) fun i => S.v i + vface i) =
      dot S.v S.v + 2 * dot S.v vface + dot vface vface := by
    simp only [dot, Finset.mul_sum, ← Finset.sum_add_distrib]
    exact Finset.sum_congr rfl fun k _ => by ring
  ext i
  · simp only [toLab, labFlux, h1]
    simp only [hydroFlux]
    ring
  · simp only [toLab, labFlux, h1]
    simp only [hydroFlux]
  · simp only [toLab, labFlux, h1, h2, h3]
    rw [dot_add_l, ← h.line]
    simp only [hydroFlux, h.energy]
    ring

theorem speeds_same {S : St n} (hr : 0 < S.rho) (hc : 0 < S.cs) :
    smin S S = S.vline - S.cs ∧ smax S S = S.vline + S.cs := by
  have hw : weight S S = 1 / 2 := by unfold weight; rw [div_self hr.ne']; norm_num
  have hv : vav S S = S.vline := by unfold vav; rw [hw]; ring
  have ha : csav S S = S.cs := by
    unfold csav
    simp only [hw]
    have : (dot (fun i => S.v i - S.v i) fun i => S.v i - S.v i) = 0 := by simp [dot]
    rw [this, show 1 / 2 * S.cs * S.cs + (1 - 1 / 2) * S.cs * S.cs + 0.5 * (1 / 2) * (1 - 1 / 2) * _ * 0 = S.cs ^ 2 by ring]
    exact Real.sqrt_sq hc.le
  unfold smin smax
  rw [hv, ha]
  simp

theorem central_same (iso : Bool) {S : St n} (hr : 0 < S.rho) (hc : 0 < S.cs) :
    central iso S S (S.vline - S.cs) (S.vline + S.cs) = S.vline := by
  have h1 : S.rho * (S.vline - (S.vline - S.cs)) = S.rho * S.cs := by ring
  have h2 : S.rho * (S.vline - (S.vline + S.cs)) = -(S.rho * S.cs) := by ring
  have h3 : S.rho * S.cs ≠ 0 := (mul_pos hr hc).ne'
  unfold central
  simp only [h1, h2]
  cases iso
  · simp only [Bool.false_eq_true, if_false]
    rw [div_eq_iff (by intro h; exact h3 (by linarith))]
    ring
  · simp only [if_true]
    rw [div_eq_iff (by intro h; exact h3 (by linarith))]
    ring

theorem starSt_same {S : St n} {nrm : Vec n ℝ} {w : ℝ} (h : w ≠ S.vline) (hr : S.rho ≠ 0) :
    hydroFlux (starSt S nrm w S.vline) nrm = hydroFlux S nrm := by
  have hw : w - S.vline ≠ 0 := sub_ne_zero.mpr h
  have h1 : (starSt S nrm w S.vline).rho = S.rho := by simp only [starSt]; field_simp
  have h2 : (starSt S nrm w S.vline).v = S.v := by simp [starSt]
  have h3 : (starSt S nrm w S.vline).press = S.press := by simp [starSt]
  have h4 : (starSt S nrm w S.vline).vline = S.vline := rfl
  have h5 : (starSt S nrm w S.vline).e = S.e := by
    have := star_en (S := S) (nrm := nrm) h h hr
    rw [sub_self, zero_mul, add_zero] at this
    exact mul_right_cancel₀ hw this
  unfold hydroFlux
  rw [h1, h2, h3, h4, h5]

theorem hll_same {S : St n} {nrm : Vec n ℝ} {a b : ℝ} (h : a < b) : hllFlux S S a b nrm = hydroFlux S nrm := by
  have : b - a ≠ 0 := by linarith
  ext i <;> simp only [hllFlux, sub_self, mul_zero, add_zero] <;> rw [div_eq_iff this] <;> ring

theorem frame_same (iso : Bool) {S : St n} {nrm : Vec n ℝ} (hr : 0 < S.rho) (hc : 0 < S.cs) :
    frameFlux iso S S nrm (S.vline - S.cs) (S.vline + S.cs) S.vline = hydroFlux S nrm := by
  unfold frameFlux
  split_ifs
  · rfl
  · rfl
  · exact hll_same (by linarith)
  · rw [addRH_star (by linarith) (by linarith) hr.ne', starSt_same (by linarith) hr.ne']
  · rw [addRH_star (by linarith) (by linarith) hr.ne', starSt_same (by linarith) hr.ne']

end Hllc

/-- Identical states: the physical flux through the moving face. -/
theorem C28_consistent (iso : Bool) (S : St n) (nrm vface : Vec n ℝ) (eint : ℝ) (hS : Admissible S nrm eint) :
    solve iso false S S nrm vface = (labFlux S.rho (fun i => S.v i + vface i) S.press eint nrm vface, vface) := by
  unfold solve
  simp only [Bool.false_eq_true, if_false, (speeds_same hS.rho_pos hS.cs_pos).1, (speeds_same hS.rho_pos hS.cs_pos).2,
    central_same iso hS.rho_pos hS.cs_pos, frame_same iso hS.rho_pos hS.cs_pos, toLab_hydro hS]

/-- Identical states in zero-mass-flux mode: the face moves with the gas along the normal, and the flux is the physical
flux through that face. -/
theorem C28_consistent_zmf (iso : Bool) (S : St n) (nrm vface : Vec n ℝ) (eint : ℝ) (hn : dot nrm nrm = 1)
    (hS : Admissible S nrm eint) :
    let vf : Vec n ℝ := fun i => vface i + dot S.v nrm * nrm i
    solve iso true S S nrm vface = (labFlux S.rho (fun i => S.v i + vface i) S.press eint nrm vf, vf) := by
  intro vf
  have hshift : hydroFlux (shift S S.vline nrm) nrm = ⟨fun i => S.press * nrm i, 0, 0⟩ := by
    ext i <;> simp [hydroFlux, shift]
  have hf := frame_same iso (S := shift S S.vline nrm) (nrm := nrm) hS.rho_pos hS.cs_pos
  have e1 : (shift S S.vline nrm).vline = 0 := sub_self _
  have e2 : (shift S S.vline nrm).cs = S.cs := rfl
  rw [e1, e2, zero_sub, zero_add, hshift] at hf
  unfold solve
  simp only [if_true, (speeds_same hS.rho_pos hS.cs_pos).1, (speeds_same hS.rho_pos hS.cs_pos).2,
    central_same iso hS.rho_pos hS.cs_pos]
  rw [show S.vline - S.cs - S.vline = -S.cs by ring, show S.vline + S.cs - S.vline = S.cs by ring, hf]
  have hvf : (fun i => vface i + S.vline * nrm i) = vf := by funext i; rw [hS.line]
  rw [hvf]
  refine Prod.ext ?_ rfl
  have hrel : (dot (fun i => S.v i + vface i - vf i) nrm) = 0 := by
    have : (fun i => S.v i + vface i - vf i) = fun i => S.v i - dot S.v nrm * nrm i := by funext i; simp only [vf]; ring
    rw [this, dot_sub_l, dot_smul_l, hn]
    ring
  have hn2 : dot (fun i => S.press * nrm i) vf = S.press * dot (fun i => S.v i + vface i) nrm := by
    rw [dot_smul_l, dot_comm', dot_add_l, dot_add_l, dot_smul_l, hn]
    ring
  ext i
  · simp only [toLab, labFlux, hrel]; ring
  · simp only [toLab, labFlux, hrel]; ring
  · simp only [toLab, labFlux, hrel, hn2]; ring

/-- the left-most signal moves to the right if both normal velocities are large enough -/
theorem Hllc.smin_nonneg (Sl Sr : St n) (nrm : Vec n ℝ) (el er gamma c : ℝ) (hg : 1 ≤ gamma)
    (hL : Admissible Sl nrm el) (hR : Admissible Sr nrm er)
    (gl : Sl.rho * Sl.cs ^ 2 ≤ gamma * Sl.press) (gr : Sr.rho * Sr.cs ^ 2 ≤ gamma * Sr.press)
    (hcl : Sl.cs ≤ c) (hcr : Sr.cs ≤ c)
    (hl : √(c ^ 2 + (gamma - 1) / 8 * dot (fun i => Sl.v i - Sr.v i) fun i => Sl.v i - Sr.v i) ≤ dot Sl.v nrm)
    (hr : √(c ^ 2 + (gamma - 1) / 8 * dot (fun i => Sl.v i - Sr.v i) fun i => Sl.v i - Sr.v i) ≤ dot Sr.v nrm) :
    0 ≤ smin Sl Sr := by
  have w0 := weight_pos (Sl := Sl) (Sr := Sr)
  have w1 := weight_lt hL.rho_pos hR.rho_pos
  have hd := dot_nonneg fun i => Sl.v i - Sr.v i
  have hc0 : 0 < c := lt_of_lt_of_le hL.cs_pos hcl
  have hcs : csav Sl Sr ≤ √(c ^ 2 + (gamma - 1) / 8 * dot (fun i => Sl.v i - Sr.v i) fun i => Sl.v i - Sr.v i) := by
    unfold csav
    simp only
    have hgm : max ((Sl.rho * Sl.cs * Sl.cs + Sr.rho * Sr.cs * Sr.cs) / (Sl.press + Sr.press)) 1 ≤ gamma := by
      refine max_le ?_ hg
      rw [div_le_iff₀ (by linarith [hL.press_pos, hR.press_pos])]
      nlinarith
    have hgm1 : 1 ≤ max ((Sl.rho * Sl.cs * Sl.cs + Sr.rho * Sr.cs * Sr.cs) / (Sl.press + Sr.press)) 1 := le_max_right _ _
    refine Real.sqrt_le_sqrt ?_
    generalize max ((Sl.rho * Sl.cs * Sl.cs + Sr.rho * Sr.cs * Sr.cs) / (Sl.press + Sr.press)) 1 = g at *
    generalize weight Sl Sr = w at *
    generalize (dot (fun i => Sl.v i - Sr.v i) fun i => Sl.v i - Sr.v i) = D at *
    have h1 : w * Sl.cs * Sl.cs ≤ w * c ^ 2 := by
      rw [mul_assoc]
      refine mul_le_mul_of_nonneg_left ?_ w0.le
      nlinarith [hL.cs_pos]
    have h2 : (1 - w) * Sr.cs * Sr.cs ≤ (1 - w) * c ^ 2 := by
      rw [mul_assoc]
      refine mul_le_mul_of_nonneg_left ?_ (by linarith)
      nlinarith [hR.cs_pos]
    have h3 : w * (1 - w) ≤ 1 / 4 := by nlinarith [sq_nonneg (w - 1 / 2)]
    have h4 : w * (1 - w) * ((g - 1) * D) ≤ 1 / 4 * ((gamma - 1) * D) := by
      refine mul_le_mul h3 (mul_le_mul_of_nonneg_right (by linarith) hd) (mul_nonneg (by linarith) hd) (by norm_num)
    linarith
  have hsc : c ≤ √(c ^ 2 + (gamma - 1) / 8 * dot (fun i => Sl.v i - Sr.v i) fun i => Sl.v i - Sr.v i) := by
    refine Real.le_sqrt_of_sq_le ?_
    have : 0 ≤ (gamma - 1) / 8 * dot (fun i => Sl.v i - Sr.v i) fun i => Sl.v i - Sr.v i := mul_nonneg (by linarith) hd
    linarith
  rw [← hL.line] at hl
  rw [← hR.line] at hr
  generalize √(c ^ 2 + (gamma - 1) / 8 * dot (fun i => Sl.v i - Sr.v i) fun i => Sl.v i - Sr.v i) = M at *
  refine le_min (by linarith) ?_
  have : M ≤ vav Sl Sr := by
    unfold vav
    nlinarith [mul_le_mul_of_nonneg_left hl w0.le, mul_le_mul_of_nonneg_left hr (by linarith : 0 ≤ 1 - weight Sl Sr)]
  linarith

/-- When even the left-most signal moves to the right the flux is the one of the left state: it is enough that both normal
velocities exceed the larger sound speed enhanced by the velocity difference.  `gamma` is any bound for the adiabatic
indices of the two states. -/
theorem C28_upwind_left (iso : Bool) (Sl Sr : St n) (nrm vface : Vec n ℝ) (el er gamma c : ℝ) (hg : 1 ≤ gamma)
    (hL : Admissible Sl nrm el) (hR : Admissible Sr nrm er)
    (gl : Sl.rho * Sl.cs ^ 2 ≤ gamma * Sl.press) (gr : Sr.rho * Sr.cs ^ 2 ≤ gamma * Sr.press)
    (hcl : Sl.cs ≤ c) (hcr : Sr.cs ≤ c)
    (hl : √(c ^ 2 + (gamma - 1) / 8 * dot (fun i => Sl.v i - Sr.v i) fun i => Sl.v i - Sr.v i) ≤ dot Sl.v nrm)
    (hr : √(c ^ 2 + (gamma - 1) / 8 * dot (fun i => Sl.v i - Sr.v i) fun i => Sl.v i - Sr.v i) ≤ dot Sr.v nrm) :
    solve iso false Sl Sr nrm vface = (labFlux Sl.rho (fun i => Sl.v i + vface i) Sl.press el nrm vface, vface) := by
  have hmin := smin_nonneg Sl Sr nrm el er gamma c hg hL hR gl gr hcl hcr hl hr
  have hmax : 0 < smax Sl Sr := lt_of_le_of_lt hmin (smin_lt_smax hL.rho_pos hR.rho_pos hL.cs_pos)
  unfold solve frameFlux
  simp only [Bool.false_eq_true, if_false]
  rw [if_neg (not_le.mpr hmax), if_pos hmin, toLab_hydro hL]

/-- The mirror image: when even the right-most signal moves to the left the flux is the one of the right state. -/
theorem C28_upwind_right (iso : Bool) (Sl Sr : St n) (nrm vface : Vec n ℝ) (el er gamma c : ℝ) (hg : 1 ≤ gamma)
    (hL : Admissible Sl nrm el) (hR : Admissible Sr nrm er)
    (gl : Sl.rho * Sl.cs ^ 2 ≤ gamma * Sl.press) (gr : Sr.rho * Sr.cs ^ 2 ≤ gamma * Sr.press)
    (hcl : Sl.cs ≤ c) (hcr : Sr.cs ≤ c)
    (hl : √(c ^ 2 + (gamma - 1) / 8 * dot (fun i => Sl.v i - Sr.v i) fun i => Sl.v i - Sr.v i) ≤ -dot Sl.v nrm)
    (hr : √(c ^ 2 + (gamma - 1) / 8 * dot (fun i => Sl.v i - Sr.v i) fun i => Sl.v i - Sr.v i) ≤ -dot Sr.v nrm) :
    solve iso false Sl Sr nrm vface = (labFlux Sr.rho (fun i => Sr.v i + vface i) Sr.press er nrm vface, vface) := by
  have hd : (dot (fun i => (rev Sr).v i - (rev Sl).v i) fun i => (rev Sr).v i - (rev Sl).v i) =
      dot (fun i => Sl.v i - Sr.v i) fun i => Sl.v i - Sr.v i := by
    simp only [dot, rev]
    exact Finset.sum_congr rfl fun k _ => by ring
  have hmin := smin_nonneg (rev Sr) (rev Sl) (fun i => -nrm i) er el gamma c hg (rev_adm hR) (rev_adm hL) gr gl hcr hcl
    (by rw [hd, dot_neg_r]; exact hr) (by rw [hd, dot_neg_r]; exact hl)
  rw [smin_rev hL.rho_pos hR.rho_pos] at hmin
  unfold solve frameFlux
  simp only [Bool.false_eq_true, if_false]
  rw [if_pos (by linarith), toLab_hydro hR]

/-- The complete wave fan of the adiabatic solver: whatever the two states, the flux is the one of the state at the face in
a three-wave solution that satisfies the jump conditions across every wave; in zero-mass-flux mode the face follows the
contact, and only pressure acts. -/
theorem C28_fan (Sl Sr : St n) (nrm vface : Vec n ℝ) (gamma : ℝ) (hg : 5 / 4 ≤ gamma) (hn : dot nrm nrm = 1)
    (hL : Admissible Sl nrm (Sl.press / (gamma - 1))) (hR : Admissible Sr nrm (Sr.press / (gamma - 1)))
    (il : IdealGas gamma Sl) (ir : IdealGas gamma Sr) :
    ∃ (SL SR : St n) (s1 vm s3 pstar : ℝ), Fan Sl SL SR Sr nrm s1 vm s3 pstar ∧
      (0 ≤ s1 → solve false false Sl Sr nrm vface = (toLab (hydroFlux Sl nrm) vface, vface)) ∧
      (s1 ≤ 0 → 0 ≤ vm → solve false false Sl Sr nrm vface = (toLab (hydroFlux SL nrm) vface, vface)) ∧
      (vm ≤ 0 → 0 ≤ s3 → solve false false Sl Sr nrm vface = (toLab (hydroFlux SR nrm) vface, vface)) ∧
      (s3 ≤ 0 → solve false false Sl Sr nrm vface = (toLab (hydroFlux Sr nrm) vface, vface)) ∧
      solve false true Sl Sr nrm vface =
        (⟨fun i => pstar * nrm i, 0, pstar * dot nrm fun i => vface i + vm * nrm i⟩, fun i => vface i + vm * nrm i) := by
  have hlt := smin_lt_central (Sl := Sl) (Sr := Sr) hg hL.rho_pos hR.rho_pos hL.cs_pos hR.cs_pos hL.press_pos hR.press_pos ir
  have hgt := central_lt_smax (Sl := Sl) (Sr := Sr) hg hL.rho_pos hR.rho_pos hL.cs_pos hR.cs_pos hL.press_pos hR.press_pos il
  have hden := (den_neg hL.rho_pos hR.rho_pos hL.cs_pos hR.cs_pos (Sl := Sl) (Sr := Sr)).ne
  have hp := pstar_eq (a := smin Sl Sr) (b := smax Sl Sr) hden
  have hs1 := smin_le Sl Sr
  have hs3 := le_smax Sl Sr
  have hcl := hL.cs_pos
  have hcr := hR.cs_pos
  have hrl := hL.rho_pos
  have hrr := hR.rho_pos
  generalize hA : smin Sl Sr = A at *
  generalize hB : smax Sl Sr = B at *
  generalize hV : central false Sl Sr A B = vm at *
  have nl1 : A ≠ vm := hlt.ne
  have nl2 : A ≠ Sl.vline := by intro h; linarith
  have nr1 : B ≠ vm := hgt.ne'
  have nr2 : B ≠ Sr.vline := by intro h; linarith
  have dL : 0 < (starSt Sl nrm A vm).rho := by
    change 0 < Sl.rho * (A - Sl.vline) / (A - vm)
    exact div_pos_of_neg_of_neg (mul_neg_of_pos_of_neg hrl (by linarith)) (by linarith)
  have dR : 0 < (starSt Sr nrm B vm).rho := by
    change 0 < Sr.rho * (B - Sr.vline) / (B - vm)
    exact div_pos (mul_pos hrr (by linarith)) (by linarith)
  have jr := star_jump (S := Sr) (nrm := nrm) nr1 nr2 hrr.ne'
  have at_contact : vm = 0 → hydroFlux (starSt Sl nrm A vm) nrm = hydroFlux (starSt Sr nrm B vm) nrm := by
    intro h0
    ext i
    · simp only [hydroFlux, starSt, h0]
      rw [h0] at hp
      linear_combination (nrm i) * hp
    · simp only [hydroFlux, starSt, h0, mul_zero]
    · simp only [hydroFlux, starSt, h0, mul_zero]
  have atA : A = 0 → hydroFlux (starSt Sl nrm A vm) nrm = hydroFlux Sl nrm := by
    intro h0
    rw [← addRH_star nl1 nl2 hrl.ne']
    ext i <;> simp [addRH, h0]
  have atB : B = 0 → hydroFlux (starSt Sr nrm B vm) nrm = hydroFlux Sr nrm := by
    intro h0
    rw [← addRH_star nr1 nr2 hrr.ne']
    ext i <;> simp [addRH, h0]
  have hsolve : solve false false Sl Sr nrm vface =
      (toLab (if B ≤ 0 then hydroFlux Sr nrm else if 0 ≤ A then hydroFlux Sl nrm
        else if 0 < vm then hydroFlux (starSt Sl nrm A vm) nrm else hydroFlux (starSt Sr nrm B vm) nrm) vface, vface) := by
    unfold solve frameFlux
    simp only [Bool.false_eq_true, if_false, hA, hB, hV, addRH_star nl1 nl2 hrl.ne', addRH_star nr1 nr2 hrr.ne']
  refine ⟨starSt Sl nrm A vm, starSt Sr nrm B vm, A, vm, B,
    Sl.press + Sl.rho * (Sl.vline - A) * (Sl.vline - vm), ?_, ?_, ?_, ?_, ?_, ?_⟩
  · refine ⟨hlt, hgt, hs1, hs3, star_jump nl1 nl2 hrl.ne', ?_, ⟨rfl, rfl, rfl, hp.symm⟩, ⟨?_, ?_⟩, ⟨dL, dR⟩, ⟨?_, ?_⟩, ?_⟩
    · exact ⟨by linarith [jr.mass], fun i => by linarith [jr.mom i], by linarith [jr.en]⟩
    · change vm = dot (fun i => Sl.v i + (vm - Sl.vline) * nrm i) nrm
      rw [dot_add_l, dot_smul_l, hn, ← hL.line]
      ring
    · change vm = dot (fun i => Sr.v i + (vm - Sr.vline) * nrm i) nrm
      rw [dot_add_l, dot_smul_l, hn, ← hR.line]
      ring
    · exact star_eint hn hL il (by linarith) (by rw [abs_of_neg (by linarith)]; linarith) dL
    · exact star_eint hn hR ir (by linarith) (by rw [abs_of_pos (by linarith)]; linarith) dR
    · intro i
      constructor
      · change Sl.v i + (vm - Sl.vline) * nrm i - vm * nrm i = _
        ring
      · change Sr.v i + (vm - Sr.vline) * nrm i - vm * nrm i = _
        ring
  · intro h
    rw [hsolve, if_neg (by linarith), if_pos h]
  · intro h h'
    rw [hsolve, if_neg (by linarith)]
    rcases h.lt_or_eq with h | h
    · rw [if_neg (by linarith)]
      rcases h'.lt_or_eq with h' | h'
      · rw [if_pos h']
      · rw [if_neg (by linarith), at_contact h'.symm]
    · rw [if_pos (by linarith), atA h]
  · intro h h'
    rw [hsolve]
    rcases h'.lt_or_eq with h' | h'
    · rw [if_neg (by linarith), if_neg (by linarith), if_neg (by linarith)]
    · rw [if_pos (by linarith), atB h'.symm]
  · intro h
    rw [hsolve, if_pos h]
  · unfold solve frameFlux
    simp only [if_true, hA, hB, hV]
    rw [if_neg (by linarith), if_neg (by linarith)]
    simp only [Bool.false_eq_true, if_false, lt_irrefl]
    rw [addRH_star (S := shift Sr vm nrm) (by linarith) (by change B - vm ≠ Sr.vline - vm; intro h; exact nr2 (by linarith)) hrr.ne']
    refine Prod.ext ?_ rfl
    have hm : ∀ i, (hydroFlux (starSt (shift Sr vm nrm) nrm (B - vm) 0) nrm).mom i =
        (Sl.press + Sl.rho * (Sl.vline - A) * (Sl.vline - vm)) * nrm i := by
      intro i
      rw [hp]
      simp only [hydroFlux, starSt, shift]
      ring
    have he : (hydroFlux (starSt (shift Sr vm nrm) nrm (B - vm) 0) nrm).en = 0 := mul_zero _
    ext i
    · simp only [toLab, hm]; ring
    · simp only [toLab]
    · simp only [toLab, he]
      rw [show (hydroFlux (starSt (shift Sr vm nrm) nrm (B - vm) 0) nrm).mom = _ from funext hm, dot_smul_l]
      ring

/-- Zero-mass-flux mode sets the mass flux to zero; it was zero before, for the adiabatic solver ... -/
theorem C28_zmf_mass (Sl Sr : St n) (nrm : Vec n ℝ) (gamma el er : ℝ) (hg : 5 / 4 ≤ gamma)
    (hL : Admissible Sl nrm el) (hR : Admissible Sr nrm er) (il : IdealGas gamma Sl) (ir : IdealGas gamma Sr) :
    let vm := central false Sl Sr (smin Sl Sr) (smax Sl Sr)
    (frameFlux false (shift Sl vm nrm) (shift Sr vm nrm) nrm (smin Sl Sr - vm) (smax Sl Sr - vm) 0).mass = 0 := by
  intro vm
  have hlt := smin_lt_central (Sl := Sl) (Sr := Sr) hg hL.rho_pos hR.rho_pos hL.cs_pos hR.cs_pos hL.press_pos hR.press_pos ir
  have hgt := central_lt_smax (Sl := Sl) (Sr := Sr) hg hL.rho_pos hR.rho_pos hL.cs_pos hR.cs_pos hL.press_pos hR.press_pos il
  have hcr := hR.cs_pos
  have hs3 := le_smax Sl Sr
  change smin Sl Sr < vm at hlt
  change vm < smax Sl Sr at hgt
  unfold frameFlux
  rw [if_neg (by linarith), if_neg (by linarith)]
  simp only [Bool.false_eq_true, if_false, lt_irrefl]
  rw [addRH_star (S := shift Sr vm nrm) (by linarith)
    (by change smax Sl Sr - vm ≠ Sr.vline - vm; intro h; linarith) hR.rho_pos.ne']
  exact mul_zero _

/-- ... and for the isothermal one. -/
theorem C28_zmf_mass_iso (Sl Sr : St n) (nrm : Vec n ℝ) (el er : ℝ)
    (hL : Admissible Sl nrm el) (hR : Admissible Sr nrm er) :
    let vm := central true Sl Sr (smin Sl Sr) (smax Sl Sr)
    smin Sl Sr < vm ∧ vm < smax Sl Sr ∧
    (frameFlux true (shift Sl vm nrm) (shift Sr vm nrm) nrm (smin Sl Sr - vm) (smax Sl Sr - vm) 0).mass = 0 := by
  intro vm
  obtain ⟨hlt, hgt⟩ := iso_central_between hL.rho_pos hR.rho_pos hL.cs_pos hR.cs_pos (Sl := Sl) (Sr := Sr)
  change smin Sl Sr < vm at hlt
  change vm < smax Sl Sr at hgt
  refine ⟨hlt, hgt, ?_⟩
  unfold frameFlux
  rw [if_neg (by linarith), if_neg (by linarith)]
  simp only [if_true, hllFlux, hydroFlux, cons, shift]
  have hden : Sl.rho * (Sl.vline - smin Sl Sr) - Sr.rho * (Sr.vline - smax Sl Sr) ≠ 0 := by
    have := den_neg hL.rho_pos hR.rho_pos hL.cs_pos hR.cs_pos (Sl := Sl) (Sr := Sr)
    intro h; linarith
  have hvm : vm * (Sl.rho * (Sl.vline - smin Sl Sr) - Sr.rho * (Sr.vline - smax Sl Sr)) =
      smax Sl Sr * (Sl.rho * (Sl.vline - smin Sl Sr)) - smin Sl Sr * (Sr.rho * (Sr.vline - smax Sl Sr)) := by
    change (central true Sl Sr (smin Sl Sr) (smax Sl Sr)) * _ = _
    unfold central
    simp only [if_true]
    exact div_mul_cancel₀ _ hden
  rw [div_eq_zero_iff]
  left
  linear_combination (-1 : ℝ) * hvm

/-- Both particles of a pair see the same flux: exchanging the sides and reversing the normal reverses every flux and moves
the face in the same way.  (The vector flux `flux[i]*n[j]` is therefore the same.) -/
theorem C28_antisymmetric (iso zmf : Bool) (Sl Sr : St n) (nrm vface : Vec n ℝ) (gamma el er : ℝ)
    (hg : iso = true ∨ 5 / 4 ≤ gamma) (hL : Admissible Sl nrm el) (hR : Admissible Sr nrm er)
    (il : IdealGas gamma Sl) (ir : IdealGas gamma Sr) :
    (solve iso zmf (rev Sr) (rev Sl) (fun i => -nrm i) vface).1.Opposite (solve iso zmf Sl Sr nrm vface).1 ∧
    (solve iso zmf (rev Sr) (rev Sl) (fun i => -nrm i) vface).2 = (solve iso zmf Sl Sr nrm vface).2 := by
  have hrl := hL.rho_pos
  have hrr := hR.rho_pos
  have hss := smin_lt_smax (Sl := Sl) (Sr := Sr) hrl hrr hL.cs_pos
  have hbetween : smin Sl Sr < central iso Sl Sr (smin Sl Sr) (smax Sl Sr) ∧
      central iso Sl Sr (smin Sl Sr) (smax Sl Sr) < smax Sl Sr := by
    cases iso with
    | true => exact iso_central_between hrl hrr hL.cs_pos hR.cs_pos
    | false =>
      have hg : 5 / 4 ≤ gamma := by simpa using hg
      exact ⟨smin_lt_central hg hrl hrr hL.cs_pos hR.cs_pos hL.press_pos hR.press_pos ir,
        central_lt_smax hg hrl hrr hL.cs_pos hR.cs_pos hL.press_pos hR.press_pos il⟩
  have hden := (den_neg hL.rho_pos hR.rho_pos hL.cs_pos hR.cs_pos (Sl := Sl) (Sr := Sr)).ne
  have hp := pstar_eq (a := smin Sl Sr) (b := smax Sl Sr) hden
  have hs1 := smin_le Sl Sr
  have hs3 := le_smax Sl Sr
  have hcl := hL.cs_pos
  have hcr := hR.cs_pos
  -- reversing a physical flux
  have hyd : ∀ S : St n, (hydroFlux (rev S) fun i => -nrm i).Opposite (hydroFlux S nrm) := by
    intro S
    refine ⟨fun i => ?_, ?_, ?_⟩ <;> simp only [hydroFlux, rev] <;> ring
  have lab : ∀ f g : Flux n, ∀ w : Vec n ℝ, f.Opposite g → (toLab f w).Opposite (toLab g w) := by
    rintro f g w ⟨h1, h2, h3⟩
    refine ⟨fun i => ?_, ?_, ?_⟩
    · simp only [toLab, h1, h2]; ring
    · simp only [toLab, h2]
    · have : dot f.mom w = -dot g.mom w := by
        simp only [dot, h1, neg_mul, Finset.sum_neg_distrib]
      simp only [toLab, this, h2, h3]
      ring
  have mass0 : ∀ f g : Flux n, f.Opposite g → ({ f with mass := 0 } : Flux n).Opposite { g with mass := 0 } := by
    rintro f g ⟨h1, h2, h3⟩
    exact ⟨h1, neg_zero.symm, h3⟩
  have star : ∀ (S : St n) (w vm : ℝ), w ≠ vm → w ≠ S.vline → S.rho ≠ 0 →
      (addRH (rev S) (fun i => -nrm i) (-w) (-vm) (hydroFlux (rev S) fun i => -nrm i)).Opposite
        (hydroFlux (starSt S nrm w vm) nrm) := by
    intro S w vm h h' hr
    rw [← addRH_star h h' hr]
    obtain ⟨h1, h2, h3⟩ := hyd S
    have hw : w - vm ≠ 0 := sub_ne_zero.mpr h
    have hw' : S.vline - w ≠ 0 := sub_ne_zero.mpr (Ne.symm h')
    have er : (starCons (rev S) (fun i => -nrm i) (-w) (-vm)).mass = (starCons S nrm w vm).mass := by
      simp only [starCons, rev]
      rw [← neg_div_neg_eq]
      congr 1 <;> ring
    have em : ∀ i, (starCons (rev S) (fun i => -nrm i) (-w) (-vm)).mom i = (starCons S nrm w vm).mom i := by
      intro i
      change (starCons (rev S) (fun i => -nrm i) (-w) (-vm)).mass * _ = (starCons S nrm w vm).mass * _
      rw [er]
      simp only [rev]
      ring
    have ee : (starCons (rev S) (fun i => -nrm i) (-w) (-vm)).en = (starCons S nrm w vm).en := by
      change (starCons (rev S) (fun i => -nrm i) (-w) (-vm)).mass * _ = (starCons S nrm w vm).mass * _
      rw [er]
      congr 1
      simp only [rev]
      have : -S.vline - -w ≠ 0 := by intro h; exact hw' (by linarith)
      field_simp
      ring
    refine ⟨fun i => ?_, ?_, ?_⟩
    · simp only [addRH, h1, em]
      simp only [cons, rev]
      ring
    · simp only [addRH, h2, er]
      simp only [cons, rev]
      ring
    · simp only [addRH, h3, ee]
      simp only [cons, rev]
      ring
  have hll : ∀ (Sl Sr : St n) (a b : ℝ), (hllFlux (rev Sr) (rev Sl) (-b) (-a) fun i => -nrm i).Opposite
      (hllFlux Sl Sr a b nrm) := by
    intro Sl Sr a b
    refine ⟨fun i => ?_, ?_, ?_⟩
    · simp only [hllFlux, hydroFlux, cons, rev]
      rw [← neg_div]
      congr 1 <;> ring
    · simp only [hllFlux, hydroFlux, cons, rev]
      rw [← neg_div]
      congr 1 <;> ring
    · simp only [hllFlux, hydroFlux, cons, rev]
      rw [← neg_div]
      congr 1 <;> ring
  -- the flux in the frame of the face
  have frame : ∀ (Sl Sr : St n) (a vm b : ℝ), a < vm → vm < b → a ≠ Sl.vline → b ≠ Sr.vline → Sl.rho ≠ 0 → Sr.rho ≠ 0 →
      (iso = false → vm = 0 → Sl.press + Sl.rho * (Sl.vline - a) * Sl.vline = Sr.press + Sr.rho * (Sr.vline - b) * Sr.vline) →
      (frameFlux iso (rev Sr) (rev Sl) (fun i => -nrm i) (-b) (-a) (-vm)).Opposite (frameFlux iso Sl Sr nrm a b vm) := by
    intro Sl Sr a vm b h1 h2 ha hb hl hr htie
    unfold frameFlux
    by_cases c1 : b ≤ 0
    · rw [if_pos c1, if_neg (by linarith), if_pos (by linarith)]
      exact hyd _
    · rw [if_neg c1]
      by_cases c2 : 0 ≤ a
      · rw [if_pos c2, if_pos (by linarith)]
        exact hyd _
      · rw [if_neg c2, if_neg (by linarith), if_neg (by linarith)]
        cases iso with
        | true => simp only [if_true]; exact hll _ _ _ _
        | false =>
          simp only [Bool.false_eq_true, if_false]
          by_cases c3 : 0 < vm
          · rw [if_pos c3, if_neg (by linarith), addRH_star (S := Sl) h1.ne ha hl]
            exact star Sl a vm h1.ne ha hl
          · rw [if_neg c3, addRH_star (S := Sr) h2.ne' hb hr]
            by_cases c4 : vm = 0
            · rw [if_neg (by linarith)]
              have h := star Sl a vm h1.ne ha hl
              have e : hydroFlux (starSt Sl nrm a vm) nrm = hydroFlux (starSt Sr nrm b vm) nrm := by
                have := htie rfl c4
                ext i
                · simp only [hydroFlux, starSt, c4]
                  linear_combination (nrm i) * this
                · simp only [hydroFlux, starSt, c4, mul_zero]
                · simp only [hydroFlux, starSt, c4, mul_zero]
              rw [← e]
              exact h
            · have : vm < 0 := lt_of_le_of_ne (not_lt.mp c3) c4
              rw [if_pos (by linarith)]
              exact star Sr b vm h2.ne' hb hr
  have hp' : iso = false → Sl.press + Sl.rho * (Sl.vline - smin Sl Sr) * (Sl.vline - central iso Sl Sr (smin Sl Sr) (smax Sl Sr)) =
      Sr.press + Sr.rho * (Sr.vline - smax Sl Sr) * (Sr.vline - central iso Sl Sr (smin Sl Sr) (smax Sl Sr)) := by
    intro h; subst h; exact hp
  unfold solve
  simp only [smin_rev hrl hrr, smax_rev hrl hrr, central_rev]
  generalize central iso Sl Sr (smin Sl Sr) (smax Sl Sr) = vm at *
  generalize smin Sl Sr = A at *
  generalize smax Sl Sr = B at *
  cases zmf with
  | false =>
    simp only [Bool.false_eq_true, if_false, and_true]
    refine lab _ _ _ (frame Sl Sr A vm B hbetween.1 hbetween.2 (by intro h; linarith) (by intro h; linarith) hrl.ne' hrr.ne' ?_)
    intro hi h0
    have := hp' hi
    rw [h0, sub_zero, sub_zero] at this
    exact this
  | true =>
    simp only [if_true]
    have hvf : (fun i => vface i + -vm * -nrm i) = fun i => vface i + vm * nrm i := by funext i; ring
    rw [hvf]
    refine ⟨lab _ _ _ (mass0 _ _ ?_), rfl⟩
    have e1 : shift (rev Sr) (-vm) (fun i => -nrm i) = rev (shift Sr vm nrm) := by
      simp only [shift, rev, St.mk.injEq, true_and]
      exact ⟨by funext i; ring, by ring⟩
    have e2 : shift (rev Sl) (-vm) (fun i => -nrm i) = rev (shift Sl vm nrm) := by
      simp only [shift, rev, St.mk.injEq, true_and]
      exact ⟨by funext i; ring, by ring⟩
    rw [e1, e2, show -B - -vm = -(B - vm) by ring, show -A - -vm = -(A - vm) by ring]
    have := frame (shift Sl vm nrm) (shift Sr vm nrm) (A - vm) 0 (B - vm) (by linarith) (by linarith)
      (by change A - vm ≠ Sl.vline - vm; intro h; linarith) (by change B - vm ≠ Sr.vline - vm; intro h; linarith)
      hrl.ne' hrr.ne' (by
        intro hi _
        have := hp' hi
        simp only [shift]
        linear_combination this)
    rw [neg_zero] at this
    exact this

/-- In zero-mass-flux mode the result does not depend on the velocity first given to the face (Galilean invariance): moving
the face by `w` and measuring both states relative to it changes nothing. -/
theorem C28_zmf_frame (Sl Sr : St n) (nrm vface w : Vec n ℝ) (gamma : ℝ) (hg : 5 / 4 ≤ gamma) (hn : dot nrm nrm = 1)
    (hL : Admissible Sl nrm (Sl.press / (gamma - 1))) (hR : Admissible Sr nrm (Sr.press / (gamma - 1)))
    (il : IdealGas gamma Sl) (ir : IdealGas gamma Sr) :
    (solve false true (boost Sl nrm w (Sl.press / (gamma - 1))) (boost Sr nrm w (Sr.press / (gamma - 1))) nrm
      fun i => vface i + w i).1 = (solve false true Sl Sr nrm vface).1 := by
  have adm : ∀ S : St n, Admissible S nrm (S.press / (gamma - 1)) →
      Admissible (boost S nrm w (S.press / (gamma - 1))) nrm ((boost S nrm w (S.press / (gamma - 1))).press / (gamma - 1)) := by
    intro S h
    exact ⟨h.rho_pos, h.press_pos, h.cs_pos, by simp only [boost]; rw [dot_sub_l, h.line], rfl⟩
  have key : ∀ (Sl Sr : St n) (vface : Vec n ℝ), Admissible Sl nrm (Sl.press / (gamma - 1)) →
      Admissible Sr nrm (Sr.press / (gamma - 1)) → IdealGas gamma Sl → IdealGas gamma Sr →
      (solve false true Sl Sr nrm vface).1 =
        let vm := central false Sl Sr (smin Sl Sr) (smax Sl Sr)
        let p := Sr.press + Sr.rho * (Sr.vline - smax Sl Sr) * (Sr.vline - vm)
        ⟨fun i => p * nrm i, 0, p * (dot vface nrm + vm)⟩ := by
    intro Sl Sr vface hL hR il ir
    have hlt := smin_lt_central (Sl := Sl) (Sr := Sr) hg hL.rho_pos hR.rho_pos hL.cs_pos hR.cs_pos hL.press_pos hR.press_pos ir
    have hgt := central_lt_smax (Sl := Sl) (Sr := Sr) hg hL.rho_pos hR.rho_pos hL.cs_pos hR.cs_pos hL.press_pos hR.press_pos il
    have hcr := hR.cs_pos
    have hs3 := le_smax Sl Sr
    unfold solve frameFlux
    simp only [if_true]
    generalize central false Sl Sr (smin Sl Sr) (smax Sl Sr) = vm at *
    rw [if_neg (by linarith), if_neg (by linarith)]
    simp only [Bool.false_eq_true, if_false, lt_irrefl]
    rw [addRH_star (S := shift Sr vm nrm) (by linarith)
      (by change smax Sl Sr - vm ≠ Sr.vline - vm; intro h; linarith) hR.rho_pos.ne']
    have hm : (hydroFlux (starSt (shift Sr vm nrm) nrm (smax Sl Sr - vm) 0) nrm).mom =
        fun i => (Sr.press + Sr.rho * (Sr.vline - smax Sl Sr) * (Sr.vline - vm)) * nrm i := by
      funext i
      simp only [hydroFlux, starSt, shift]
      ring
    have he : (hydroFlux (starSt (shift Sr vm nrm) nrm (smax Sl Sr - vm) 0) nrm).en = 0 := mul_zero _
    ext i
    · simp only [toLab, hm]; ring
    · simp only [toLab]
    · simp only [toLab, he, hm]
      rw [dot_smul_l, dot_comm', dot_add_l, dot_smul_l, hn]
      ring
  rw [key _ _ _ (adm Sl hL) (adm Sr hR) il ir, key _ _ _ hL hR il ir]
  have hw : weight (boost Sl nrm w (Sl.press / (gamma - 1))) (boost Sr nrm w (Sr.press / (gamma - 1))) = weight Sl Sr := rfl
  have hv : vav (boost Sl nrm w (Sl.press / (gamma - 1))) (boost Sr nrm w (Sr.press / (gamma - 1))) = vav Sl Sr - dot w nrm := by
    unfold vav
    rw [hw]
    simp only [boost]
    ring
  have ha : csav (boost Sl nrm w (Sl.press / (gamma - 1))) (boost Sr nrm w (Sr.press / (gamma - 1))) = csav Sl Sr := by
    unfold csav
    rw [hw]
    simp only [boost]
    have : (dot (fun i => Sl.v i - w i - (Sr.v i - w i)) fun i => Sl.v i - w i - (Sr.v i - w i)) =
        dot (fun i => Sl.v i - Sr.v i) fun i => Sl.v i - Sr.v i := by
      simp only [dot]
      exact Finset.sum_congr rfl fun k _ => by ring
    rw [this]
  have hs1 : smin (boost Sl nrm w (Sl.press / (gamma - 1))) (boost Sr nrm w (Sr.press / (gamma - 1))) =
      smin Sl Sr - dot w nrm := by
    unfold smin
    rw [hv, ha, ← min_sub_sub_right]
    simp only [boost]
    congr 1 <;> ring
  have hs2 : smax (boost Sl nrm w (Sl.press / (gamma - 1))) (boost Sr nrm w (Sr.press / (gamma - 1))) =
      smax Sl Sr - dot w nrm := by
    unfold smax
    rw [hv, ha, ← max_sub_sub_right]
    simp only [boost]
    congr 1 <;> ring
  have hden := (den_neg hL.rho_pos hR.rho_pos hL.cs_pos hR.cs_pos (Sl := Sl) (Sr := Sr)).ne
  have hc : central false (boost Sl nrm w (Sl.press / (gamma - 1))) (boost Sr nrm w (Sr.press / (gamma - 1)))
      (smin Sl Sr - dot w nrm) (smax Sl Sr - dot w nrm) = central false Sl Sr (smin Sl Sr) (smax Sl Sr) - dot w nrm := by
    unfold central
    simp only [Bool.false_eq_true, if_false, boost, sub_sub_sub_cancel_right]
    rw [div_sub' hden]
    congr 1
    ring
  simp only [hs1, hs2, hc]
  simp only [boost, sub_sub_sub_cancel_right]
  ext i
  · rfl
  · rfl
  · simp only
    rw [dot_add_l]
    ring

/-! ### a concrete case: a shock tube -/

/-- density 1 and pressure 1 against density 1/8 and pressure 1/10, sound speeds rounded to make an ideal gas of index 7/5 -/
noncomputable def tubeSt (rho press : ℝ) : St 1 := ofPrim (7 / 5) false (fun _ => 0) rho press fun _ => 1

theorem tube_adm (rho press : ℝ) (hr : 0 < rho) (hp : 0 < press) :
    Admissible (tubeSt rho press) (fun _ => 1) (press / (7 / 5 - 1)) ∧ IdealGas (7 / 5) (tubeSt rho press) := by
  refine ⟨⟨hr, hp, ?_, rfl, ?_⟩, ?_⟩
  · exact Real.sqrt_pos.mpr (by positivity)
  · simp [tubeSt, ofPrim, dot]
  · unfold IdealGas
    simp only [tubeSt, ofPrim, Bool.false_eq_true, if_false]
    rw [Real.sq_sqrt (by positivity)]
    field_simp

/-- supersonic flow to the right, for which the hypotheses of `C28_upwind_left` hold -/
example : √((2 : ℝ) ^ 2 + (7 / 5 - 1) / 8 * dot (fun _ : Fin 1 => (3 : ℝ) - 4) fun _ => 3 - 4) ≤ 3 := by
  rw [Real.sqrt_le_iff]
  norm_num [dot]

example : ∃ (SL SR : St 1) (s1 vm s3 pstar : ℝ), Fan (tubeSt 1 1) SL SR (tubeSt (1 / 8) (1 / 10)) (fun _ => 1) s1 vm s3 pstar :=
  let ⟨SL, SR, s1, vm, s3, p, h, _⟩ := C28_fan (tubeSt 1 1) (tubeSt (1 / 8) (1 / 10)) (fun _ => 1) (fun _ => 0) (7 / 5)
    (by norm_num) (by simp [dot]) (tube_adm 1 1 (by norm_num) (by norm_num)).1
    (tube_adm (1 / 8) (1 / 10) (by norm_num) (by norm_num)).1 (tube_adm 1 1 (by norm_num) (by norm_num)).2
    (tube_adm (1 / 8) (1 / 10) (by norm_num) (by norm_num)).2
  ⟨SL, SR, s1, vm, s3, p, h⟩

end Gandalf
