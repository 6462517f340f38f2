import Verif.Proof.GravLoop
import Verif.Proof.MultipoleExample
import Verif.Prop.C30
import Verif.Prop.C31

/-!
# C89: the force loop with self-gravity, from the tree to the acceleration
-/

set_option autoImplicit false
set_option linter.unusedSectionVars false

namespace Gandalf

open GravLoop GravSum Sph Multipole Gravity KD

variable {n : ℕ}

/-- **C89, types.** Whatever the parameters, a type that exerts hydro forces on another also exerts gravity; only gas acts
on gas by pressure; icm and boundary particles neither feel nor exert gravity. -/
theorem C89_types (hydro dustGrav : Bool) (t s : ℕ) :
    (((register hydro dustGrav).types t).hydromask s = true ↔ hydro = true ∧ t = 0 ∧ s = 0) ∧
    (((register hydro dustGrav).types t).hydromask s = true → (register hydro dustGrav).gravmask s = true) ∧
    (((register hydro dustGrav).types t).self_gravity = true ↔ t = 0 ∨ t = 2 ∨ t = 3) ∧
    ((register hydro dustGrav).gravmask t = true ↔ t = 0 ∨ t = 2 ∨ (t = 3 ∧ dustGrav = true)) := by
  refine ⟨?_, hydromask_grav hydro dustGrav t s, ?_, ?_⟩
  · simp only [register]
    split_ifs <;> simp_all
  · simp only [register]
    split_ifs <;> simp_all
  · simp [register, or_assoc]

/-- **C89, sums.** For every correct tree over live particles, every opening criterion, every kind of multipole and every
active cell with particles `a`, in an open domain: the loop ends; it treats each active particle once, in order; the
particles of the tree split into `near`, summed one by one, and those under the cells `cs`, each of which summarises its
part; and each self-gravitating particle gets exactly
* gravity: the smoothed law (Newton's outside the kernels) summed over the gravitating particles of `near`, plus the field
  of the cells,
* acceleration: pressure and viscosity of **all** particles of the types it reacts to, plus that gravity,
* potential: the same sums, with the term for the particle itself added to begin with. -/
theorem C89_sum {E : Env n} {cfg : Cfg} {P : Parts n} (S : Setup E cfg P) (T : Tree n) (pfuel : ℕ) (f : Forest)
    (l : List ℕ) (hT : T.OK cfg P pfuel f l) (hlive : ∀ i ∈ l, P.dead i = false) (gmac : Tree.Mac) (macerror : ℝ)
    (cell : Props n) (a : List ℕ) (hcell : Summary cfg P a cell) (seen : NPart n ℝ → Fin n → Side → ℝ) (act : List ℕ)
    (hact : ∀ i ∈ act, i ∈ a) (fuel : ℕ) (hfuel : f.cells.length ≤ fuel) :
    ∃ near cs : List ℕ, ∃ parts : List (List ℕ), ∃ res : List (ℕ × Part n),
      E.updateCell T gmac macerror cfg.kernrange cell seen act pfuel fuel = some res ∧
      res.map Prod.fst = act ∧
      (near ++ parts.flatten).Perm l ∧
      List.Forall₂ (fun c lc => Summary cfg P lc (T.cell c) ∧
        (T.cell c).cdistsqd ≤ gdist 0 (T.cell c).rcell cell.rcell ^ 2 ∧
        0 < gdist 0 (T.cell c).rcell cell.rcell) cs parts ∧
      (∀ i ∈ a, ∀ j ∈ parts.flatten, ¬ Interacts E.K (E.sys i) (E.sys j)) ∧
      ∀ x ∈ res, (E.reg.types (E.part x.1).ptype).self_gravity = true →
        let i := x.1
        let c := cellField E.mp E.sm cell.r (P.r i) (cs.map fun c => ofCell (T.cell c))
        (∀ k, x.2.a k = over l (fun j => (E.reg.types (E.part i).ptype).hydromask (E.part j).ptype)
          (fun j => push E.par E.K E.sm (E.sys i) (E.sys j) k) + x.2.atree k) ∧
        (∀ k, x.2.atree k = over near P.grav (fun j => pull E.K E.sm (E.sys i) (E.sys j) k) + c.a k) ∧
        x.2.gpot = P.m i / P.h i * E.K.wpot 0 + over near P.grav (fun j => well E.K E.sm (E.sys i) (E.sys j)) +
          c.gpot := by
  obtain ⟨nb, dr, cs, parts, h, hp, h2, h3⟩ :=
    C09_gravity_partition T cfg P pfuel f l hT E.d cfg.kernrange gmac macerror cell ⟨[], [], []⟩ fuel hfuel
  simp only [List.nil_append] at h
  obtain ⟨idx, hyd, dir, hH, hidx⟩ := endSearch_holds S.periodic S.mirror cfg.kernrange E.reg.gravmask seen E.junk
    cell.target E.part nb dr
  have hrange := S.range
  have hdr : ∀ i ∈ a, ∀ j ∈ dr, ¬ Interacts E.K (E.sys i) (E.sys j) := by
    intro i hi j hj
    obtain ⟨c, lc, k1, k2, -, k3⟩ := h3 j hj
    rw [hrange] at k3
    exact far_out S hcell k1 hi k2 k3
  have hps : ∀ i ∈ a, ∀ j ∈ parts.flatten, ¬ Interacts E.K (E.sys i) (E.sys j) := by
    intro i hi j hj
    obtain ⟨lc, k1, k2⟩ := List.mem_flatten.mp hj
    obtain ⟨p, hp1, hp2⟩ : ∃ p ∈ cs.zip parts, p.2 = lc := by
      have : lc ∈ (cs.zip parts).map Prod.snd := by
        rw [List.map_snd_zip h2.length_eq.ge]; exact k1
      simpa using this
    have k3 := forall2_zip h2 p hp1
    rw [hp2, hrange] at k3
    exact far_out S hcell k3.1 hi k2 k3.2.1
  have hfar : ∀ i ∈ a, ∀ j, NM.near cfg.kernrange cell.target (E.part j) = false ∨ j ∈ dr →
      ¬ Interacts E.K (E.sys i) (E.sys j) := by
    intro i hi j hj
    rcases hj with hj | hj
    · rw [hrange] at hj
      exact far_near S hcell hi hj
    · exact hdr i hi j hj
  have hnl : ∀ i ∈ nb ++ dr, P.dead i = false := fun i hi => hlive i (hp.mem_iff.mp (List.mem_append_left _ hi))
  have hover : ∀ (ok : ℕ → Bool) (F : ℕ → ℝ), over (nb ++ dr) (fun j => !P.dead j && ok j) F = over (nb ++ dr) ok F := by
    intro ok F
    unfold over
    rw [List.filter_congr fun j hj => by rw [hnl j hj, Bool.not_false, Bool.true_and]]
  have hfull : ∀ i ∈ a, ∀ (ok : ℕ → Bool) (k : Fin n), over (nb ++ dr) ok (fun j => push E.par E.K E.sm (E.sys i) (E.sys j) k) =
      over l ok fun j => push E.par E.K E.sm (E.sys i) (E.sys j) k := by
    intro i hi ok k
    rw [← over_perm hp, over_append (nb ++ dr)]
    obtain ⟨n', hK⟩ := S.kernel
    have hh : ∀ j, 0 < (E.sys j).h := fun j => by rw [S.sys_h]; exact S.h_pos j
    have : over parts.flatten ok (fun j => push E.par E.K E.sm (E.sys i) (E.sys j) k) = 0 := by
      refine List.sum_eq_zero fun y hy => ?_
      obtain ⟨j, hj, rfl⟩ := List.mem_map.mp hy
      exact push_far hK E.par S.sm (hh i) (hh j) (hps i hi j (List.mem_filter.mp hj).1) k
    rw [this, add_zero]
  obtain ⟨e1, e2⟩ := loop_spec S.periodic cell.r (cs.map fun c => ofCell (T.cell c))
    (fun i z => (E.reg.types (E.part i).ptype).self_gravity = true →
        (∀ k, z.a k = over l (fun j => (E.reg.types (E.part i).ptype).hydromask (E.part j).ptype)
          (fun j => push E.par E.K E.sm (E.sys i) (E.sys j) k) + z.atree k) ∧
        (∀ k, z.atree k = over (nb ++ dr) P.grav (fun j => pull E.K E.sm (E.sys i) (E.sys j) k) +
          (cellField E.mp E.sm cell.r (P.r i) (cs.map fun c => ofCell (T.cell c))).a k) ∧
        z.gpot = P.m i / P.h i * E.K.wpot 0 + over (nb ++ dr) P.grav (fun j => well E.K E.sm (E.sys i) (E.sys j)) +
          (cellField E.mp E.sm cell.r (P.r i) (cs.map fun c => ofCell (T.cell c))).gpot)
    act _ hH (fun i hi v hv hs => by
      obtain ⟨g1, g2, g3⟩ := particle S hv hidx (hfar i (hact i hi)) hs cell.r (cs.map fun c => ofCell (T.cell c))
      refine ⟨fun k => ?_, fun k => ?_, ?_⟩
      · rw [g1 k, hover, hfull i (hact i hi)]
      · rw [g2 k, hover]
      · rw [g3, hover])
  refine ⟨nb ++ dr, cs, parts, _, ?_, e1, hp, ?_, hps, e2⟩
  · unfold Env.updateCell
    rw [h]
    rfl
  · refine forall2_imp h2 fun c lc _ k => ⟨k.1, ?_, ?_⟩
    · have e : cellDist E.d (T.cell c) cell = gdist 0 (T.cell c).rcell cell.rcell ^ 2 := by
        rw [← distsqd_gdist]
        simp only [cellDist, ghostNearest, S.periodic]
        rfl
      rw [← e]; exact k.2.2.1
    · have e : cellDist E.d (T.cell c) cell = gdist 0 (T.cell c).rcell cell.rcell ^ 2 := by
        rw [← distsqd_gdist]
        simp only [cellDist, ghostNearest, S.periodic]
        rfl
      have := lt_of_le_of_lt (sq_nonneg _) k.2.1.1
      rw [e] at this
      rcases (gdist_nonneg 0 (T.cell c).rcell cell.rcell).eq_or_lt with h | h
      · rw [← h] at this; norm_num at this
      · exact h

/-- gravity of the particles under the cells, as seen by a particle of the active cell, is Newton's -/
theorem GravLoop.acc_over {E : Env n} {cfg : Cfg} {P : Parts n} (S : Setup E cfg P) {i : ℕ} {ps : List ℕ}
    (h : ∀ j ∈ ps, ¬ Interacts E.K (E.sys i) (E.sys j)) :
    (∀ k, acc E.sm (masses P ps) (P.r i) k = over ps P.grav fun j => pull E.K E.sm (E.sys i) (E.sys j) k) ∧
    pot E.sm (masses P ps) (P.r i) = over ps P.grav fun j => well E.K E.sm (E.sys i) (E.sys j) := by
  obtain ⟨n', hK⟩ := S.kernel
  have hh : ∀ j, 0 < (E.sys j).h := fun j => by rw [S.sys_h]; exact S.h_pos j
  refine ⟨fun k => ?_, ?_⟩
  · unfold acc masses over
    rw [List.map_map]
    refine sum_congr_mem fun j hj => ?_
    rw [← (pull_far hK S.gravity S.sm (hh i) (hh j) (h j (List.mem_filter.mp hj).1) k).2]
    simp only [Function.comp, S.sys_r, S.sys_m]
  · unfold pot masses over
    rw [List.map_map]
    refine sum_congr_mem fun j hj => ?_
    rw [← (well_far hK S.gravity S.sm (hh i) (hh j) (h j (List.mem_filter.mp hj).1)).2]
    simp only [Function.comp, S.sys_r, S.sys_m]

/-- leaving `small_number` out of the distance of a cell changes its monopole by first order in
`small_number / distance²` -/
theorem GravLoop.softening (δ sm : ℝ) (hsm : 0 ≤ sm) (x : Vec n ℝ) (cells : List (Moment n)) (hm : ∀ c ∈ cells, 0 ≤ c.m)
    (hd : ∀ c ∈ cells, 0 < gdist 0 x c.r) (hδ : ∀ c ∈ cells, sm ≤ δ * gdist 0 x c.r ^ 2) (s : Field n) :
    |(cellMonopoleForces 0 x cells s).gpot - (cellMonopoleForces sm x cells s).gpot| ≤
      (cells.map fun c => c.m / gdist 0 x c.r).sum * (δ / 2) ∧
    ∀ k, |(cellMonopoleForces 0 x cells s).a k - (cellMonopoleForces sm x cells s).a k| ≤
      (cells.map fun c => c.m / gdist 0 x c.r ^ 2).sum * (3 * δ / 2) := by
  have key : ∀ c ∈ cells, 0 ≤ 1 - gdist 0 x c.r / gdist sm x c.r ∧
      1 - gdist 0 x c.r / gdist sm x c.r ≤ δ / 2 ∧ 0 ≤ gdist 0 x c.r / gdist sm x c.r := by
    intro c hc
    have a := hd c hc
    have b := gdist_mono hsm x c.r
    have b0 : 0 < gdist sm x c.r := a.trans_le b
    have e : gdist sm x c.r ^ 2 = gdist 0 x c.r ^ 2 + sm := by
      rw [Multipole.dist_sq hsm, Multipole.dist_sq le_rfl]; ring
    have h := hδ c hc
    generalize gdist 0 x c.r = u at *
    generalize gdist sm x c.r = v at *
    have hδ0 : 0 ≤ δ := by
      by_contra hneg
      have := mul_pos_of_neg_of_neg (not_le.mp hneg) (neg_neg_of_pos (pow_pos a 2))
      nlinarith
    refine ⟨?_, ?_, by positivity⟩
    · rw [sub_nonneg, div_le_one b0]; exact b
    · have h1 : (1 - u / v) = (v - u) / v := by field_simp
      rw [h1, div_le_iff₀ b0]
      have h2 : 2 * u * (v - u) ≤ δ * u ^ 2 := by nlinarith
      have h3 : 2 * (v - u) ≤ δ * u := by
        by_contra hc
        push Not at hc
        nlinarith
      nlinarith
  rw [monopole_field le_rfl, monopole_field hsm]
  refine ⟨?_, fun k => ?_⟩
  · rw [add_sub_add_left_eq_sub]
    refine err_list cells _ _ _ _ fun c hc => ?_
    obtain ⟨k1, k2, -⟩ := key c hc
    have a := hd c hc
    have b0 : 0 < gdist sm x c.r := a.trans_le (gdist_mono hsm x c.r)
    have e : c.m / gdist 0 x c.r - c.m / gdist sm x c.r =
        c.m / gdist 0 x c.r * (1 - gdist 0 x c.r / gdist sm x c.r) := by field_simp
    have hmc := div_nonneg (hm c hc) a.le
    rw [e, abs_of_nonneg (mul_nonneg hmc k1)]
    exact mul_le_mul_of_nonneg_left k2 hmc
  · simp only [add_sub_add_left_eq_sub]
    refine err_list cells _ _ _ _ fun c hc => ?_
    obtain ⟨k1, k2, k3⟩ := key c hc
    have a := hd c hc
    have b0 : 0 < gdist sm x c.r := a.trans_le (gdist_mono hsm x c.r)
    have e : c.m * (c.r k - x k) / gdist 0 x c.r ^ 3 - c.m * (c.r k - x k) / gdist sm x c.r ^ 3 =
        c.m / gdist 0 x c.r ^ 2 * ((c.r k - x k) / gdist 0 x c.r *
          (1 - (gdist 0 x c.r / gdist sm x c.r) ^ 3)) := by field_simp
    have hmc := div_nonneg (hm c hc) (pow_nonneg a.le 2)
    rw [e, abs_mul, abs_of_nonneg hmc]
    refine mul_le_mul_of_nonneg_left ?_ hmc
    have hx : |(c.r k - x k) / gdist 0 x c.r| ≤ 1 := by
      rw [abs_div, abs_of_pos a, div_le_one a, abs_sub_comm]
      exact comp_le le_rfl x c.r k
    rw [abs_mul]
    generalize gdist 0 x c.r / gdist sm x c.r = w at *
    have hw : 0 ≤ 1 - w ^ 3 ∧ 1 - w ^ 3 ≤ 3 * (1 - w) := by
      have e3 : 1 - w ^ 3 = (1 - w) * (1 + w + w ^ 2) := by ring
      have w1 : w ≤ 1 := by linarith
      rw [e3]
      exact ⟨by positivity, by nlinarith [mul_nonneg k3 k1]⟩
    rw [abs_of_nonneg hw.1]
    calc |(c.r k - x k) / gdist 0 x c.r| * (1 - w ^ 3) ≤ 1 * (1 - w ^ 3) := mul_le_mul_of_nonneg_right hx hw.1
      _ ≤ 3 * δ / 2 := by linarith

/-- **C89, error, partial.** The acceleration and the potential that the loop leaves in an active particle are those of
all particles of the tree, up to second (monopole) or third order (quadrupole) in `χ = 2 θ / (1 - θ - κ)`, for particles
no further from the centre of their cell than `κ < 1 - 3 θ` times the distance of the centres. With fast monopoles the
error has two more parts: second order in the ratio `ψ` of the particle's distance from the centre of mass of its cell to
the distance of that centre from the cells, and first order in `small_number / distance²`, which the fast sums leave out
while the other lists have it. Missing: the walk does not bound `κ` (`C58_cell_error_fails`) nor `ψ`, the fast
quadrupoles, periodic boxes, stars. -/
theorem C89_error_partial (hn : n = 1 ∨ n = 2 ∨ n = 3) {E : Env n} {cfg : Cfg} {P : Parts n} (S : Setup E cfg P)
    (T : Tree n) (pfuel : ℕ) (f : Forest) (l : List ℕ) (hT : T.OK cfg P pfuel f l) (hlive : ∀ i ∈ l, P.dead i = false)
    (hm : ∀ i ∈ l, 0 ≤ P.m i) (gmac : Tree.Mac) (macerror : ℝ) (cell : Props n) (a : List ℕ)
    (hcell : Summary cfg P a cell) (seen : NPart n ℝ → Fin n → Side → ℝ) (act : List ℕ) (hact : ∀ i ∈ act, i ∈ a)
    (fuel : ℕ) (hfuel : f.cells.length ≤ fuel) (θ κ : ℝ) (hθ0 : 0 < θ) (hκ : κ < 1 - 3 * θ)
    (hθ : cfg.thetamaxsqd = θ ^ 2) :
    ∃ (cs : List ℕ) (res : List (ℕ × Part n)),
      E.updateCell T gmac macerror cfg.kernrange cell seen act pfuel fuel = some res ∧ res.map Prod.fst = act ∧
      ∀ x ∈ res, (E.reg.types (E.part x.1).ptype).self_gravity = true →
        (∀ c ∈ cs, gdist 0 (P.r x.1) cell.rcell ≤ κ * gdist 0 (T.cell c).rcell cell.rcell) →
        let χ := 2 * θ / (1 - θ - κ)
        let i := x.1
        let errG := |x.2.gpot - (P.m i / P.h i * E.K.wpot 0 + over l P.grav fun j => well E.K E.sm (E.sys i) (E.sys j))|
        let errA := fun k => |x.2.a k -
          (over l (fun j => (E.reg.types (E.part i).ptype).hydromask (E.part j).ptype)
            (fun j => push E.par E.K E.sm (E.sys i) (E.sys j) k) +
           over l P.grav fun j => pull E.K E.sm (E.sys i) (E.sys j) k)|
        let near1 := (cs.map fun c => (T.cell c).m / gdist E.sm (P.r i) (T.cell c).r).sum
        let near2 := (cs.map fun c => (T.cell c).m / gdist E.sm (P.r i) (T.cell c).r ^ 2).sum
        (E.mp = .monopole → errG ≤ near1 * ((1 + 1 / (1 - χ)) * χ ^ 2) ∧
          ∀ k, errA k ≤ near2 * (21 * (1 / (1 - χ)) ^ 3 * χ ^ 2)) ∧
        (E.mp = .quadrupole → cfg.needQuad = true → ∀ δ : ℝ,
          (∀ c ∈ cs, E.sm ≤ δ * gdist E.sm (P.r i) (T.cell c).r ^ 2) →
          errG ≤ near1 * ((15 / 4 + 1 / (1 - χ)) * χ ^ 3 + δ * χ ^ 2 / 2) ∧
          ∀ k, errA k ≤ near2 * (69 * (1 / (1 - χ)) ^ 3 * χ ^ 3 + 5 * δ * χ ^ 2 / 2)) ∧
        (E.mp = .fastMonopole → ∀ ψ δ : ℝ, ψ < 1 →
          (∀ c ∈ cs, 0 < gdist 0 cell.r (T.cell c).r ∧ gdist 0 (P.r i) cell.r ≤ ψ * gdist 0 cell.r (T.cell c).r) →
          (∀ c ∈ cs, E.sm ≤ δ * gdist 0 (P.r i) (T.cell c).r ^ 2) →
          errG ≤ (cs.map fun c => (T.cell c).m / gdist 0 cell.r (T.cell c).r).sum * ((1 + 1 / (1 - ψ)) * ψ ^ 2) +
            (cs.map fun c => (T.cell c).m / gdist 0 (P.r i) (T.cell c).r).sum * (δ / 2) +
            near1 * ((1 + 1 / (1 - χ)) * χ ^ 2) ∧
          ∀ k, errA k ≤
            (cs.map fun c => (T.cell c).m / gdist 0 cell.r (T.cell c).r ^ 2).sum *
              (21 * (1 / (1 - ψ)) ^ 3 * ψ ^ 2) +
            (cs.map fun c => (T.cell c).m / gdist 0 (P.r i) (T.cell c).r ^ 2).sum * (3 * δ / 2) +
            near2 * (21 * (1 / (1 - χ)) ^ 3 * χ ^ 2)) := by
  obtain ⟨near, cs, parts, res, h1, h2, hp, h4, h5, h6⟩ :=
    C89_sum S T pfuel f l hT hlive gmac macerror cell a hcell seen act hact fuel hfuel
  refine ⟨cs, res, h1, h2, fun x hx hs hρ => ?_⟩
  intro χ i errG errA near1 near2
  have hi : i ∈ a := hact i (by rw [← h2]; exact List.mem_map_of_mem hx)
  obtain ⟨g1, g2, g3⟩ := h6 x hx hs
  obtain ⟨q1, q2⟩ := GravLoop.acc_over S (fun j hj => h5 i hi j hj)
  have hone : 0 < 1 - θ - κ := by linarith
  have hm' : ∀ i ∈ parts.flatten, 0 ≤ P.m i := fun i hi => hm i (hp.mem_iff.mp (List.mem_append_right _ hi))
  have hχ : χ < 1 := by simp only [χ]; rw [div_lt_one hone]; linarith
  have C : CellErrors T cfg P E.sm χ (P.r i) cs parts.flatten := by
    refine errors_of hn S.sm hχ hm' (forall2_imp' h4 fun c lc hc hlc h => ⟨h.1, ?_⟩)
    have hml : ∀ i ∈ lc, 0 ≤ P.m i := fun i hi => hm' i (List.mem_flatten.mpr ⟨lc, hlc, hi⟩)
    have hρc := hρ c hc
    have hD := h.2.2
    refine seen_of h.1 hml hθ0 hθ S.sm (div_nonneg (by linarith) hone.le) (P.r i) cell.rcell h.2.1 ?_ ?_
    · nlinarith
    · have : χ * ((1 - θ - κ) * gdist 0 (T.cell c).rcell cell.rcell) =
          2 * θ * gdist 0 (T.cell c).rcell cell.rcell := by
        simp only [χ]
        rw [← mul_assoc, div_mul_cancel₀ _ hone.ne']
      rw [← this]
      refine mul_le_mul_of_nonneg_left ?_ (div_nonneg (by linarith) hone.le)
      linarith
  have eG : ∀ F : Field n, cellField E.mp E.sm cell.r (P.r i) (cs.map fun c => ofCell (T.cell c)) = F →
      errG = |F.gpot - (0 + pot E.sm (masses P parts.flatten) (P.r i))| := by
    intro F hF
    simp only [errG]
    rw [g3, ← over_perm hp, over_append, q2]
    simp only [i] at hF ⊢
    rw [hF]
    congr 1
    ring
  have eA : ∀ F : Field n, cellField E.mp E.sm cell.r (P.r i) (cs.map fun c => ofCell (T.cell c)) = F →
      ∀ k, errA k = |F.a k - (0 + acc E.sm (masses P parts.flatten) (P.r i) k)| := by
    intro F hF k
    simp only [errA]
    rw [g1 k, g2 k, ← over_perm hp P.grav, over_append, q1]
    simp only [i] at hF ⊢
    rw [hF]
    congr 1
    ring
  refine ⟨?_, ?_, ?_⟩
  · intro hmp
    have hF : cellField E.mp E.sm cell.r (P.r i) (cs.map fun c => ofCell (T.cell c)) =
        cellMonopoleForces E.sm (P.r i) (cs.map fun c => ofCell (T.cell c)) ⟨0, fun _ => 0⟩ := by rw [hmp]; rfl
    obtain ⟨c1, c2⟩ := C.monopole ⟨0, fun _ => 0⟩
    exact ⟨by rw [eG _ hF]; exact c1, fun k => by rw [eA _ hF]; exact c2 k⟩
  · intro hmp hq δ hδ
    have hF : cellField E.mp E.sm cell.r (P.r i) (cs.map fun c => ofCell (T.cell c)) =
        cellQuadrupoleForces E.sm (P.r i) (cs.map fun c => ofCell (T.cell c)) ⟨0, fun _ => 0⟩ := by rw [hmp]; rfl
    obtain ⟨c1, c2⟩ := C.quadrupole hq δ hδ ⟨0, fun _ => 0⟩
    exact ⟨by rw [eG _ hF]; exact c1, fun k => by rw [eA _ hF]; exact c2 k⟩
  · intro hmp ψ δ hψ hr hδ
    have hF : cellField E.mp E.sm cell.r (P.r i) (cs.map fun c => ofCell (T.cell c)) =
        fastMonopoleForces cell.r (P.r i) (cs.map fun c => ofCell (T.cell c)) ⟨0, fun _ => 0⟩ := by rw [hmp]; rfl
    obtain ⟨c1, c2⟩ := C.monopole ⟨0, fun _ => 0⟩
    have hmass : ∀ c ∈ cs.map fun c => ofCell (T.cell c), 0 ≤ c.m := by
      intro c hc
      obtain ⟨c', hc', rfl⟩ := List.mem_map.mp hc
      obtain ⟨p, hp1, hp2⟩ : ∃ p ∈ cs.zip parts, p.1 = c' := by
        have : c' ∈ (cs.zip parts).map Prod.fst := by
          rw [List.map_fst_zip h4.length_eq.le]; exact hc'
        simpa using this
      have k := forall2_zip h4 p hp1
      rw [hp2] at k
      have hml : ∀ j ∈ p.2, 0 ≤ P.m j := fun j hj =>
        hm' j (List.mem_flatten.mpr ⟨p.2, (List.of_mem_zip hp1).2, hj⟩)
      show 0 ≤ (T.cell c').m
      rw [(summary_centre k.1 hml).mass]
      apply List.sum_nonneg
      simp only [masses, List.map_map, List.mem_map, List.mem_filter]
      rintro _ ⟨j, ⟨hj, -⟩, rfl⟩
      exact hml j hj
    have hgap : ∀ c ∈ cs, 0 < gdist 0 (P.r i) (T.cell c).r := by
      intro c hc
      have t := gdist_tri cell.r (P.r i) (T.cell c).r
      rw [dist_symm 0 cell.r (P.r i)] at t
      have := hr c hc
      nlinarith [mul_pos this.1 (sub_pos.mpr hψ)]
    obtain ⟨f1, f2⟩ := C58_fast_monopole_error hn ψ hψ cell.r (P.r i) (cs.map fun c => ofCell (T.cell c))
      ⟨0, fun _ => 0⟩ hmass
      (fun c hc => by obtain ⟨c', hc', rfl⟩ := List.mem_map.mp hc; exact (hr c' hc').1)
      (fun c hc => by obtain ⟨c', hc', rfl⟩ := List.mem_map.mp hc; exact (hr c' hc').2)
    obtain ⟨s1, s2⟩ := GravLoop.softening δ E.sm S.sm (P.r i) (cs.map fun c => ofCell (T.cell c)) hmass
      (fun c hc => by obtain ⟨c', hc', rfl⟩ := List.mem_map.mp hc; exact hgap c' hc')
      (fun c hc => by obtain ⟨c', hc', rfl⟩ := List.mem_map.mp hc; exact hδ c' hc') ⟨0, fun _ => 0⟩
    simp only [List.map_map] at f1 f2 s1 s2
    refine ⟨?_, fun k => ?_⟩
    · rw [eG _ hF]
      refine (abs_sub_le _ _ _).trans (add_le_add ((abs_sub_le _ _ _).trans (add_le_add f1 s1)) c1)
    · rw [eA _ hF]
      refine (abs_sub_le _ _ _).trans (add_le_add ((abs_sub_le _ _ _).trans (add_le_add (f2 k) (s2 k))) (c2 k))

/-- four gas particles at 0, 1, 2, 3 with the M4 kernel, quadrupoles, open boundaries -/
noncomputable def GravLoop.lineEnv : Env 1 where
  par := ⟨.mon97, .noac, .notdav, 1, 1, 2⟩
  K := m4Kernel 3
  sm := 1 / 100
  eosP := fun _ => 1
  d := ⟨fun _ => 0, fun _ => 1, fun _ => .open_, fun _ => .open_, fun _ => 1, fun _ => 1⟩
  reg := register true false
  mp := .quadrupole
  part := fun i => ⟨fun _ => i, fun _ => 0, fun _ => 0, 1, 1 / 8, (2 * (1 / 8)) ^ 2, 0, 0, 0, 0⟩
  sys := fun i => ⟨fun _ => i, fun _ => 0, 1, 1 / 8, 1, 1, 1, 1, 0, 1, 1, 1, 0, 0, fun _ => 0, fun _ => 0, 0, 0, 0, 0⟩
  junk := ⟨fun _ => 0, fun _ => 0, fun _ => 0, 0, 0, 0, 0, 0, 0, 0⟩

theorem GravLoop.lineEnv_setup (pos : ℕ → ℝ) (hpos : ∀ i, pos i = i) :
    Setup lineEnv (lineCfg 10 (1 / 4)) (linePart pos (1 / 8)) where
  periodic := by simp [lineEnv, Domain.anyPeriodic, Domain.periodicBound]
  mirror := by simp [lineEnv, Domain.anyMirror, Domain.mirrorBound]
  sm := by norm_num [lineEnv]
  kernel := ⟨3, C30_m4_valid 3 (by norm_num)⟩
  gravity := C31_m4_gravity
  range := rfl
  reg := ⟨true, false, rfl⟩
  h_pos := by intro i; norm_num [linePart]
  part_r := by intro i; funext k; exact (hpos i).symm
  part_h := fun _ => rfl
  part_range := fun _ => rfl
  part_dead := by intro i; simp [lineEnv, linePart, Flags.is_dead]
  part_grav := fun _ => rfl
  sys_r := by intro i; funext k; exact (hpos i).symm
  sys_h := fun _ => rfl
  sys_m := fun _ => rfl

/-- the hypotheses of both theorems hold for the leaf of the particles 0 and 1, both active -/
example : Setup lineEnv (lineCfg 10 (1 / 4)) (linePart (fun i => i) (1 / 8)) ∧
    (lineTree (fun i => i) (1 / 8) 10 (1 / 4)).OK (lineCfg 10 (1 / 4)) (linePart (fun i => i) (1 / 8)) 2
      (.cons 0 (.cons 1 .nil (.cons 2 .nil .nil)) .nil) [0, 1, 2, 3] ∧
    (∀ i ∈ [0, 1, 2, 3], (linePart (fun i => i) (1 / 8)).dead i = false) ∧
    Summary (lineCfg 10 (1 / 4)) (linePart (fun i => i) (1 / 8)) [0, 1] ((lineTree (fun i => i) (1 / 8) 10 (1 / 4)).cell 1) ∧
    ∃ res, lineEnv.updateCell (lineTree (fun i => i) (1 / 8) 10 (1 / 4)) .geometric 0 2
      ((lineTree (fun i => i) (1 / 8) 10 (1 / 4)).cell 1) (fun _ _ _ => 0) [0, 1] 2 3 = some res ∧ res.map Prod.fst = [0, 1] := by
  have S := GravLoop.lineEnv_setup (fun i => (i : ℝ)) fun i => rfl
  refine ⟨S, lineTree_ok _ _ _ _, by simp [linePart], line_leaf1 _ _ _ _, ?_⟩
  obtain ⟨near, cs, parts, res, h1, h2, -⟩ := C89_sum S _ 2 _ _ (lineTree_ok (fun i => (i : ℝ)) (1 / 8) 10 (1 / 4))
    (by simp [linePart]) .geometric 0 _ [0, 1] (line_leaf1 (fun i => (i : ℝ)) (1 / 8) 10 (1 / 4)) (fun _ _ _ => 0) [0, 1]
    (fun i hi => hi) 3 (by simp [Forest.cells])
  exact ⟨res, h1, h2⟩

end Gandalf
