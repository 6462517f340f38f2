import Verif.Prop.C58
import Verif.Proof.MultipoleExample

/-!
# C58: gravity of the cells chosen by the tree walks
-/

set_option autoImplicit false
set_option linter.unusedSectionVars false

namespace Gandalf

open Multipole Gravity KD

variable {n : ℕ}

/-- **C58, stocked cells.** The moments copied from a stocked cell (`MultipoleMoment(cell)`) are those of the particles
in the cell. -/
theorem C58_summary (hn : n = 1 ∨ n = 2 ∨ n = 3) (cfg : Cfg) (P : Parts n) (l : List ℕ) (c : Props n)
    (hS : Summary cfg P l c) (hm : ∀ i ∈ l, 0 ≤ P.m i) :
    IsCentre (masses P l) (ofCell c).r (ofCell c).m ∧
    (cfg.needQuad = true → IsMoment (masses P l) (ofCell c).r (ofCell c).m (ofCell c).q) :=
  ⟨summary_centre hS hm, fun hq => summary_moment hn hS hm hq⟩

/-- how large a cell beyond its opening distance from `o` looks from a point `x` near `o` -/
theorem seen_of {cfg : Cfg} {P : Parts n} {l : List ℕ} {c : Props n} (hS : Summary cfg P l c)
    (hm : ∀ i ∈ l, 0 ≤ P.m i) {θ χ eps : ℝ} (hθ0 : 0 < θ) (hθ : cfg.thetamaxsqd = θ ^ 2) (he : 0 ≤ eps)
    (hχ0 : 0 ≤ χ) (x o : Vec n ℝ) (hopen : c.cdistsqd ≤ gdist 0 c.rcell o ^ 2)
    (hfar : gdist 0 x o < (1 - θ) * gdist 0 c.rcell o)
    (hχ : 2 * θ * gdist 0 c.rcell o ≤ χ * ((1 - θ) * gdist 0 c.rcell o - gdist 0 x o)) :
    Seen eps χ x (ofCell c, masses P l) := by
  have hw : ∀ s ∈ masses P l, 0 ≤ s.1 := by
    intro s hs
    obtain ⟨i, hi, rfl⟩ := List.mem_map.mp hs
    exact hm i (List.mem_filter.mp hi).1
  have hcen := summary_centre hS hm
  have key : c.m ≠ 0 → c.rmax ≤ θ * gdist 0 c.rcell o ∧ (∀ s ∈ masses P l, gdist 0 s.2 c.rcell ≤ c.rmax) ∧
      gdist 0 c.r c.rcell ≤ c.rmax := by
    intro h0
    have hN : c.N ≠ 0 := by
      intro h
      have hl : l = [] := List.length_eq_zero_iff.mp (by rw [← hS.N, h])
      apply h0
      rw [hS.m, hl]
      rfl
    have hb : ∀ s ∈ masses P l, gdist 0 s.2 c.rcell ≤ c.rmax := by
      intro s hs
      obtain ⟨i, hi, rfl⟩ := List.mem_map.mp hs
      exact gdist_le hS.rmaxNonneg (hS.extent i (List.mem_filter.mp hi).1)
    have hm0 : 0 < c.m := lt_of_le_of_ne (by
      rw [hcen.mass]
      apply List.sum_nonneg
      simp only [List.mem_map]
      rintro _ ⟨s, hs, rfl⟩
      exact hw s hs) (Ne.symm h0)
    obtain ⟨q, hq⟩ := exists_moment hcen
    refine ⟨?_, hb, com_ball hq hw hm0 _ hb⟩
    rw [hS.cdist hN, hθ, div_le_iff₀ (by positivity)] at hopen
    have : c.rmax ^ 2 ≤ (θ * gdist 0 c.rcell o) ^ 2 := by
      rw [mul_pow, mul_comm]
      exact (le_max_left _ _).trans hopen
    exact le_of_abs_le (abs_le_of_sq_le_sq this (mul_nonneg hθ0.le (gdist_nonneg _ _ _)))
  have hdist : c.m ≠ 0 → (1 - θ) * gdist 0 c.rcell o - gdist 0 x o ≤ gdist eps x c.r := by
    intro h0
    obtain ⟨h1, _, h3⟩ := key h0
    have t1 := gdist_tri c.rcell c.r o
    have t2 := gdist_tri c.r x o
    have t3 := gdist_mono he x c.r
    rw [dist_symm 0 c.rcell c.r] at t1
    rw [dist_symm 0 c.r x] at t2
    linarith
  refine ⟨hcen, hw, fun h0 => lt_of_lt_of_le (by linarith) (hdist h0), fun h0 s hs => ?_⟩
  obtain ⟨h1, h2, h3⟩ := key h0
  have t1 := gdist_tri s.2 c.rcell c.r
  rw [dist_symm 0 c.rcell c.r] at t1
  have := mul_le_mul_of_nonneg_left (hdist h0) hχ0
  show gdist 0 s.2 c.r ≤ χ * gdist eps x c.r
  linarith [h2 s hs]

/-- cells paired with their particles -/
def paired (T : Tree n) (P : Parts n) (cs : List ℕ) (parts : List (List ℕ)) :
    List (Moment n × List (ℝ × Vec n ℝ)) :=
  (cs.zip parts).map fun p => (ofCell (T.cell p.1), masses P p.2)

theorem paired_fst (T : Tree n) (P : Parts n) {cs : List ℕ} {parts : List (List ℕ)}
    (h : cs.length = parts.length) :
    (paired T P cs parts).map Prod.fst = cs.map fun c => ofCell (T.cell c) := by
  unfold paired
  rw [List.map_map]
  have : (Prod.fst ∘ fun p : ℕ × List ℕ => (ofCell (T.cell p.1), masses P p.2)) =
      (fun c => ofCell (T.cell c)) ∘ Prod.fst := rfl
  rw [this, ← List.map_map, List.map_fst_zip h.le]

theorem paired_snd (T : Tree n) (P : Parts n) {cs : List ℕ} {parts : List (List ℕ)}
    (h : cs.length = parts.length) :
    ((paired T P cs parts).map Prod.snd).flatten = masses P parts.flatten := by
  unfold paired
  rw [List.map_map, masses_flatten]
  have : (Prod.snd ∘ fun p : ℕ × List ℕ => (ofCell (T.cell p.1), masses P p.2)) =
      masses P ∘ Prod.snd := rfl
  rw [this, ← List.map_map, List.map_snd_zip h.ge]

theorem paired_sum (T : Tree n) (P : Parts n) {cs : List ℕ} {parts : List (List ℕ)}
    (h : cs.length = parts.length) (f : Moment n → ℝ) :
    ((paired T P cs parts).map fun c => f c.1).sum = (cs.map fun c => f (ofCell (T.cell c))).sum := by
  have e : ((paired T P cs parts).map fun c => f c.1) = ((paired T P cs parts).map Prod.fst).map f := by
    rw [List.map_map]
    rfl
  rw [e, paired_fst T P h, List.map_map]
  rfl

theorem forall2_zip {α β : Type} {R : α → β → Prop} {l : List α} {m : List β} (h : List.Forall₂ R l m) :
    ∀ p ∈ l.zip m, R p.1 p.2 := by
  induction h with
  | nil => simp
  | cons h _ ih =>
    intro p hp
    rcases List.mem_cons.mp hp with rfl | hp
    · exact h
    · exact ih p hp

theorem forall2_imp' {α β : Type} {R S : α → β → Prop} {l : List α} {m : List β} (h : List.Forall₂ R l m)
    (k : ∀ a b, a ∈ l → b ∈ m → R a b → S a b) : List.Forall₂ S l m := by
  induction h with
  | nil => exact List.Forall₂.nil
  | cons h _ ih =>
    exact List.Forall₂.cons (k _ _ (by simp) (by simp) h)
      (ih fun a b ha hb => k a b (List.mem_cons_of_mem _ ha) (List.mem_cons_of_mem _ hb))

theorem forall2_imp {α β : Type} {R S : α → β → Prop} {l : List α} {m : List β} (h : List.Forall₂ R l m)
    (k : ∀ a b, b ∈ m → R a b → S a b) : List.Forall₂ S l m := forall2_imp' h fun a b _ hb => k a b hb

/-- the error bounds for the cells `cs` standing for the particles `ps`, seen from `x` under the ratio `χ` -/
structure CellErrors (T : Tree n) (cfg : Cfg) (P : Parts n) (eps χ : ℝ) (x : Vec n ℝ) (cs ps : List ℕ) : Prop where
  monopole : ∀ s : Field n,
    |(cellMonopoleForces eps x (cs.map fun c => ofCell (T.cell c)) s).gpot - (s.gpot + pot eps (masses P ps) x)| ≤
      (cs.map fun c => (T.cell c).m / gdist eps x (T.cell c).r).sum * ((1 + 1 / (1 - χ)) * χ ^ 2) ∧
    ∀ k, |(cellMonopoleForces eps x (cs.map fun c => ofCell (T.cell c)) s).a k -
        (s.a k + acc eps (masses P ps) x k)| ≤
      (cs.map fun c => (T.cell c).m / gdist eps x (T.cell c).r ^ 2).sum * (21 * (1 / (1 - χ)) ^ 3 * χ ^ 2)
  quadrupole : cfg.needQuad = true → ∀ δ : ℝ, (∀ c ∈ cs, eps ≤ δ * gdist eps x (T.cell c).r ^ 2) → ∀ s : Field n,
    |(cellQuadrupoleForces eps x (cs.map fun c => ofCell (T.cell c)) s).gpot - (s.gpot + pot eps (masses P ps) x)| ≤
      (cs.map fun c => (T.cell c).m / gdist eps x (T.cell c).r).sum *
        ((15 / 4 + 1 / (1 - χ)) * χ ^ 3 + δ * χ ^ 2 / 2) ∧
    ∀ k, |(cellQuadrupoleForces eps x (cs.map fun c => ofCell (T.cell c)) s).a k -
        (s.a k + acc eps (masses P ps) x k)| ≤
      (cs.map fun c => (T.cell c).m / gdist eps x (T.cell c).r ^ 2).sum *
        (69 * (1 / (1 - χ)) ^ 3 * χ ^ 3 + 5 * δ * χ ^ 2 / 2)

theorem errors_of (hn : n = 1 ∨ n = 2 ∨ n = 3) {T : Tree n} {cfg : Cfg} {P : Parts n} {eps χ : ℝ} (he : 0 ≤ eps)
    (hχ : χ < 1) {x : Vec n ℝ} {cs : List ℕ} {parts : List (List ℕ)} (hm : ∀ i ∈ parts.flatten, 0 ≤ P.m i)
    (h : List.Forall₂ (fun c lc => Summary cfg P lc (T.cell c) ∧ Seen eps χ x (ofCell (T.cell c), masses P lc))
      cs parts) : CellErrors T cfg P eps χ x cs parts.flatten := by
  have hz := forall2_zip h
  have hlen := h.length_eq
  have hseen : ∀ c ∈ paired T P cs parts, Seen eps χ x c := by
    intro c hc
    obtain ⟨p, hp, rfl⟩ := List.mem_map.mp hc
    exact (hz p hp).2
  constructor
  · intro s
    have := C58_monopole_error eps χ he hχ x (paired T P cs parts) hseen s
    rw [paired_fst T P hlen, paired_snd T P hlen, paired_sum T P hlen fun c => c.m / gdist eps x c.r,
      paired_sum T P hlen fun c => c.m / gdist eps x c.r ^ 2] at this
    exact this
  · intro hq δ hδ s
    have := C58_quadrupole_error hn eps χ δ he hχ x (paired T P cs parts) hseen (by
      intro c hc
      obtain ⟨p, hp, rfl⟩ := List.mem_map.mp hc
      refine summary_moment hn (hz p hp).1 (fun i hi => hm i ?_) hq
      exact List.mem_flatten.mpr ⟨p.2, (List.of_mem_zip hp).2, hi⟩) (by
      intro c hc _
      obtain ⟨p, hp, rfl⟩ := List.mem_map.mp hc
      exact hδ p.1 (List.of_mem_zip hp).1) s
    rw [paired_fst T P hlen, paired_snd T P hlen, paired_sum T P hlen fun c => c.m / gdist eps x c.r,
      paired_sum T P hlen fun c => c.m / gdist eps x c.r ^ 2] at this
    exact this

/-- **C58, stars.** With an opening angle `θ < 1/3` the gravity of the cells in the interaction list of a star is that of
the particles they stand for, up to second (monopole) or third order (quadrupole) in `2 θ / (1 - θ)`; together with the
neighbours and the particles summed directly those are all particles of the tree. -/
theorem C58_star_error (hn : n = 1 ∨ n = 2 ∨ n = 3) (T : Tree n) (cfg : Cfg) (P : Parts n) (pfuel : ℕ) (f : Forest)
    (l : List ℕ) (hT : T.OK cfg P pfuel f l) (hlive : ∀ i ∈ l, P.dead i = false) (rs : Vec n ℝ) (hs : ℝ)
    (hK : 0 ≤ cfg.kernrange) (hhs : 0 ≤ hs) (hh : ∀ i, 0 ≤ P.h i) (Nneibmax Ndirectmax Ngravcellmax : ℕ) (fuel : ℕ)
    (hfuel : f.cells.length ≤ fuel) (hm : ∀ i ∈ l, 0 ≤ P.m i) (θ eps : ℝ) (hθ0 : 0 < θ) (hθ1 : θ < 1 / 3)
    (hθ : cfg.thetamaxsqd = θ ^ 2) (he : 0 ≤ eps) (nb dr cs : List ℕ)
    (hw : T.starGravityWalk P cfg.kernrange rs hs Nneibmax Ndirectmax Ngravcellmax pfuel fuel = .done ⟨nb, dr, cs⟩) :
    ∃ ps : List ℕ, (nb ++ dr ++ ps).Perm l ∧ CellErrors T cfg P eps (2 * θ / (1 - θ)) rs cs ps := by
  rcases C09_star_partition T cfg P pfuel f l hT hlive rs hs hK hhs hh Nneibmax Ndirectmax Ngravcellmax fuel hfuel with
    h | ⟨nb', dr', cs', parts, h, _, _, _, hp, h2, _⟩
  · rw [hw] at h
    exact absurd h (by simp)
  · rw [hw] at h
    simp only [Walk.Res.done.injEq, Tree.GravLists.mk.injEq] at h
    obtain ⟨rfl, rfl, rfl⟩ := h
    have h1θ : 0 < 1 - θ := by linarith
    have hm' : ∀ i ∈ parts.flatten, 0 ≤ P.m i := fun i hi => hm i (hp.mem_iff.mp (List.mem_append_right _ hi))
    have hχ : 2 * θ / (1 - θ) < 1 := by rw [div_lt_one h1θ]; linarith
    refine ⟨parts.flatten, hp, errors_of hn he hχ hm' ?_⟩
    have key : ∀ c lc, lc ∈ parts → (Summary cfg P lc (T.cell c) ∧
        (T.cell c).cdistsqd < Tree.distsqd (T.cell c).rcell rs ∧ c ∈ f.cells) →
        Summary cfg P lc (T.cell c) ∧ Seen eps (2 * θ / (1 - θ)) rs (ofCell (T.cell c), masses P lc) := by
      intro c lc hlc hc
      refine ⟨hc.1, ?_⟩
      have hml : ∀ i ∈ lc, 0 ≤ P.m i := fun i hi => hm' i (List.mem_flatten.mpr ⟨lc, hlc, hi⟩)
      have hd := hc.2.1
      rw [distsqd_gdist] at hd
      by_cases hN : (T.cell c).N = 0
      · have hl : lc = [] := List.length_eq_zero_iff.mp (by rw [← hc.1.N, hN])
        have hm0 : (T.cell c).m = 0 := by rw [hc.1.m, hl]; rfl
        refine ⟨summary_centre hc.1 hml, ?_, fun h => absurd hm0 h, fun h => absurd hm0 h⟩
        rw [hl]
        intro s hs
        simp [masses] at hs
      · have h0 : 0 ≤ (T.cell c).cdistsqd := by
          rw [hc.1.cdist hN, hθ]
          exact div_nonneg (le_max_of_le_left (sq_nonneg _)) (sq_nonneg _)
        have hD : 0 < gdist 0 (T.cell c).rcell rs := by
          have := lt_of_le_of_lt h0 hd
          rcases (gdist_nonneg 0 (T.cell c).rcell rs).eq_or_lt with h | h
          · rw [← h] at this; norm_num at this
          · exact h
        have hx : gdist 0 rs rs = 0 := by simp [gdist]
        refine seen_of hc.1 hml hθ0 hθ he (div_nonneg (by linarith) h1θ.le) rs rs hd.le ?_ ?_
        · rw [hx]; positivity
        · rw [hx, sub_zero, ← mul_assoc, div_mul_cancel₀ _ h1θ.ne']
    exact forall2_imp h2 key

/-- four particles at 0, 1, 2, 3 and a star at 100, opening angle 1/4: the walk takes the root as one cell -/
example : (lineTree (fun i => i) 1 10 (1 / 4)).OK (lineCfg 10 (1 / 4)) (linePart (fun i => i) 1) 2
      (.cons 0 (.cons 1 .nil (.cons 2 .nil .nil)) .nil) [0, 1, 2, 3] ∧
    (lineTree (fun i => i) 1 10 (1 / 4)).starGravityWalk (linePart (fun i => i) 1) 2 (fun _ => 100) 1 10 10 5 2 3 =
      .done ⟨[], [], [0]⟩ := by
  refine ⟨lineTree_ok _ _ _ _, ?_⟩
  have S := line_root (fun i => (i : ℝ)) 1 10 (1 / 4)
  set T := lineTree (fun i => (i : ℝ)) 1 10 (1 / 4) with hT
  have g := box_of S (a := 0) (b := 3) (by simp) (by simp)
    (by simp only [List.mem_cons, List.not_mem_nil, or_false, linePart]
        rintro i (rfl | rfl | rfl | rfl) <;> norm_num)
    (by norm_num [linePart, lineCfg]) (by norm_num [linePart, lineCfg])
  norm_num [linePart] at g
  have hh : (T.cell 0).hmax ≤ 1 := by
    rcases S.hmaxTight with h | ⟨i, _, h⟩
    · rw [h]; norm_num
    · rw [h]; exact le_rfl
  have hh' := S.hmaxNonneg
  have N0 : (T.cell 0).N = 4 := S.N
  have hc : (T.cell 0).cdistsqd ≤ 36 := by
    rw [S.cdist (by rw [N0]; norm_num), lineCfg, div_le_iff₀ (by norm_num)]
    refine max_le ?_ ?_
    · rw [g.2]; norm_num
    · nlinarith
  have ed : Tree.distsqd (T.cell 0).rcell (fun _ => 100) = (197 / 2) ^ 2 := by
    simp only [Tree.distsqd, dot, Fin.sum_univ_one, g.1]
    norm_num
  have b : T.starGravityBody (linePart (fun i => i) 1) 2 (fun _ => 100) 1 10 10 5 2 0 ⟨[], [], []⟩ =
      .next ⟨[], [], [0]⟩ := by
    simp only [Tree.starGravityBody, ed]
    rw [if_neg, if_pos, if_neg, if_pos]
    · simp
    · rw [N0]; simp
    · rw [N0]; simp
    · rw [N0]
      exact ⟨by nlinarith, by norm_num⟩
    · rw [g.2, not_lt]
      exact pow_le_pow_left₀ (by norm_num; linarith) (by norm_num; linarith) 2
  have hl : T.links.cnext 0 = some 3 := rfl
  have hN : T.Ncell = 3 := rfl
  unfold Tree.starGravityWalk
  rw [hN, Walk.walk, if_pos (by norm_num), b, hl]
  simp only []
  rw [Walk.walk, if_neg (by norm_num)]

/-- **C58, cells of gas particles, partial.** For the particles of an active cell the same bound holds where they are
near the centre of their cell compared with the distance of the centres, by the ratio `κ < 1 - 3 θ`, with
`2 θ / (1 - θ - κ)` in place of the opening angle. Missing: the walk measures distances between the centres of cells and
does not bound `κ`; see `C58_cell_error_fails`. Open boundaries. -/
theorem C58_cell_error_partial (hn : n = 1 ∨ n = 2 ∨ n = 3) (T : Tree n) (cfg : Cfg) (P : Parts n) (pfuel : ℕ)
    (f : Forest) (l : List ℕ) (hT : T.OK cfg P pfuel f l) (d : Domain n ℝ) (hd : d.anyPeriodic = false) (K : ℝ)
    (gmac : Tree.Mac) (macerror : ℝ) (cell : Props n) (fuel : ℕ) (hfuel : f.cells.length ≤ fuel)
    (hm : ∀ i ∈ l, 0 ≤ P.m i) (θ κ eps : ℝ) (hθ0 : 0 < θ) (hκ : κ < 1 - 3 * θ) (hθ : cfg.thetamaxsqd = θ ^ 2)
    (he : 0 ≤ eps) :
    ∃ nb dr cs ps : List ℕ,
      T.gravityWalk d K gmac macerror cell pfuel ⟨[], [], []⟩ fuel = .done ⟨nb, dr, cs⟩ ∧ (nb ++ dr ++ ps).Perm l ∧
      ∀ x : Vec n ℝ, (∀ c ∈ cs, gdist 0 x cell.rcell ≤ κ * gdist 0 (T.cell c).rcell cell.rcell) →
        CellErrors T cfg P eps (2 * θ / (1 - θ - κ)) x cs ps := by
  obtain ⟨nb, dr, cs, parts, h, hp, h2, _⟩ :=
    C09_gravity_partition T cfg P pfuel f l hT d K gmac macerror cell ⟨[], [], []⟩ fuel hfuel
  refine ⟨nb, dr, cs, parts.flatten, by simpa using h, hp, fun x hx => ?_⟩
  have h1 : 0 < 1 - θ - κ := by linarith
  have hm' : ∀ i ∈ parts.flatten, 0 ≤ P.m i := fun i hi => hm i (hp.mem_iff.mp (List.mem_append_right _ hi))
  have hχ : 2 * θ / (1 - θ - κ) < 1 := by rw [div_lt_one h1]; linarith
  refine errors_of hn he hχ hm' (forall2_imp' h2 fun c lc hc hlc h => ⟨h.1, ?_⟩)
  have hml : ∀ i ∈ lc, 0 ≤ P.m i := fun i hi => hm' i (List.mem_flatten.mpr ⟨lc, hlc, hi⟩)
  have e : cellDist d (T.cell c) cell = gdist 0 (T.cell c).rcell cell.rcell ^ 2 := by
    rw [← distsqd_gdist]
    simp only [cellDist, ghostNearest, hd]
    rfl
  have hD : 0 < gdist 0 (T.cell c).rcell cell.rcell := by
    have := lt_of_le_of_lt (sq_nonneg _) h.2.1.1
    rw [e] at this
    rcases (gdist_nonneg 0 (T.cell c).rcell cell.rcell).eq_or_lt with h | h
    · rw [← h] at this; norm_num at this
    · exact h
  have hρ := hx c hc
  refine seen_of h.1 hml hθ0 hθ he (div_nonneg (by linarith) h1.le) x cell.rcell (by rw [← e]; exact h.2.2.1) ?_ ?_
  · nlinarith
  · have : 2 * θ / (1 - θ - κ) * ((1 - θ - κ) * gdist 0 (T.cell c).rcell cell.rcell) =
        2 * θ * gdist 0 (T.cell c).rcell cell.rcell := by
      rw [← mul_assoc, div_mul_cancel₀ _ h1.ne']
    rw [← this]
    refine mul_le_mul_of_nonneg_left ?_ (div_nonneg (by linarith) h1.le)
    linarith

/-- the same tree with opening angle 1/4 and open boundaries; the bound is at hand for the centre of every cell -/
example : ∃ nb dr cs ps : List ℕ,
    (lineTree (fun i => i) 1 10 (1 / 4)).gravityWalk ⟨fun _ => 0, fun _ => 1, fun _ => .open_, fun _ => .open_,
      fun _ => 1, fun _ => 1⟩ 2 .geometric 0 ((lineTree (fun i => i) 1 10 (1 / 4)).cell 1) 2 ⟨[], [], []⟩ 3 =
      .done ⟨nb, dr, cs⟩ ∧ (nb ++ dr ++ ps).Perm [0, 1, 2, 3] ∧
    CellErrors (lineTree (fun i => i) 1 10 (1 / 4)) (lineCfg 10 (1 / 4)) (linePart (fun i => i) 1) 0
      (2 * (1 / 4) / (1 - 1 / 4 - 0)) ((lineTree (fun i => i) 1 10 (1 / 4)).cell 1).rcell cs ps := by
  obtain ⟨nb, dr, cs, ps, h1, h2, h3⟩ := C58_cell_error_partial (Or.inl rfl) _ _ _ 2 _ _
    (lineTree_ok (fun i => (i : ℝ)) 1 10 (1 / 4))
    ⟨fun _ => 0, fun _ => 1, fun _ => .open_, fun _ => .open_, fun _ => 1, fun _ => 1⟩
    (by simp [Domain.anyPeriodic, Domain.periodicBound]) 2 .geometric 0
    ((lineTree (fun i => (i : ℝ)) 1 10 (1 / 4)).cell 1) 3 (by simp [Forest.cells]) (by simp [linePart]) (1 / 4) 0 0
    (by norm_num) (by norm_num) rfl le_rfl
  exact ⟨nb, dr, cs, ps, h1, h2, h3 _ fun c _ => by simp [gdist]⟩

theorem gdist_one (x y : Vec 1 ℝ) : gdist 0 x y = |x 0 - y 0| := by
  simp [gdist, Real.sqrt_sq_eq_abs]

theorem openDomain_anyPeriodic (a b c d : Vec 1 ℝ) :
    (⟨a, b, fun _ => .open_, fun _ => .open_, c, d⟩ : Domain 1 ℝ).anyPeriodic = false := by
  simp [Domain.anyPeriodic, Domain.periodicBound]

set_option maxHeartbeats 1000000 in
/-- **C58, the opening angle does not bound the error for gas particles.** However small the opening angle `θ` and
however large `B`, there is a tree, a leaf of it with a particle `j`, and a cell accepted by the walk for that leaf, such
that the acceleration of the cell on `j` is wrong by more than `B` times the monopole scale `m / a²`: distances are
measured from the centre of the leaf, and a large leaf may reach close to the cell. -/
theorem C58_cell_error_fails (θ B : ℝ) (hθ0 : 0 < θ) :
    ∃ (T : Tree 1) (cfg : Cfg) (P : Parts 1) (f : Forest) (l : List ℕ) (d : Domain 1 ℝ) (t c j : ℕ) (nb lt ps : List ℕ),
      T.OK cfg P 2 f l ∧ cfg.thetamaxsqd = θ ^ 2 ∧ (∀ i, 0 < P.m i ∧ 0 < P.h i ∧ P.grav i = true) ∧
      T.leafList 2 t = some lt ∧ j ∈ lt ∧ T.leafList 2 c = some ps ∧
      T.gravityWalk d cfg.kernrange .geometric 0 (T.cell t) 2 ⟨[], [], []⟩ f.cells.length = .done ⟨nb, [], [c]⟩ ∧
      B * ((T.cell c).m / gdist 0 (P.r j) (T.cell c).r ^ 2) <
        |(cellMonopoleForces 0 (P.r j) [ofCell (T.cell c)] ⟨0, fun _ => 0⟩).a 0 - acc 0 (masses P ps) (P.r j) 0| := by
  set L := 1 / θ with hL
  have hL0 : 0 < L := by positivity
  set η := 1 / (|B| + 3) with hη
  have hη0 : 0 < η := by positivity
  have hη1 : η ≤ 1 := by
    rw [hη, div_le_one (by positivity)]
    linarith [abs_nonneg B]
  set pos : ℕ → ℝ := fun i => if i = 0 then -(2 * L) else if i = 1 then 0 else if i = 2 then η else 2 + η with hpos
  have p0 : pos 0 = -(2 * L) := rfl
  have p1 : pos 1 = 0 := rfl
  have p2 : pos 2 = η := rfl
  have p3 : pos 3 = 2 + η := rfl
  clear_value pos
  set big := 2 * L + 10 with hbig
  set T := lineTree pos (η / 4) big θ with hT
  have S0 := line_root pos (η / 4) big θ
  have S1 := line_leaf1 pos (η / 4) big θ
  have S2 := line_leaf2 pos (η / 4) big θ
  rw [← hT] at S0 S1 S2
  have g0 := box_of S0 (a := 0) (b := 3) (by simp) (by simp)
    (by simp only [List.mem_cons, List.not_mem_nil, or_false, linePart]
        rintro i (rfl | rfl | rfl | rfl) <;> simp only [p0, p1, p2, p3] <;> constructor <;> linarith)
    (by simp only [linePart, lineCfg, p0]; linarith) (by simp only [linePart, lineCfg, p3]; linarith)
  have g1 := box_of S1 (a := 0) (b := 1) (by simp) (by simp)
    (by simp only [List.mem_cons, List.not_mem_nil, or_false, linePart]
        rintro i (rfl | rfl) <;> simp only [p0, p1] <;> constructor <;> linarith)
    (by simp only [linePart, lineCfg, p0]; linarith) (by simp only [linePart, lineCfg, p1]; linarith)
  have g2 := box_of S2 (a := 2) (b := 3) (by simp) (by simp)
    (by simp only [List.mem_cons, List.not_mem_nil, or_false, linePart]
        rintro i (rfl | rfl) <;> simp only [p2, p3] <;> constructor <;> linarith)
    (by simp only [linePart, lineCfg, p2]; linarith) (by simp only [linePart, lineCfg, p3]; linarith)
  simp only [linePart, p0, p1, p2, p3] at g0 g1 g2
  have hh : ∀ c ls, Summary (lineCfg big θ) (linePart pos (η / 4)) ls c → c.hmax ≤ η / 4 := by
    intro c ls hS
    rcases hS.hmaxTight with h | ⟨i, _, h⟩
    · rw [h]; linarith
    · rw [h]; exact le_rfl
  have h1 := hh _ _ S1
  have h2 := hh _ _ S2
  have h1' := S1.hmaxNonneg
  have h2' := S2.hmaxNonneg
  have N0 : (T.cell 0).N = 4 := S0.N
  have N1 : (T.cell 1).N = 2 := S1.N
  have N2 : (T.cell 2).N = 2 := S2.N
  have hm2 : (T.cell 2).m = 2 := by
    rw [S2.m]
    simp [gsum, linePart]
    norm_num
  have hr2 : (T.cell 2).r 0 = 1 + η := by
    have := S2.com (by rw [hm2]; norm_num) 0
    rw [hm2] at this
    simp [gsum, linePart, p2, p3] at this
    linarith
  have hc2 : (T.cell 2).cdistsqd ≤ (L + 1 + η) ^ 2 := by
    rw [S2.cdist (by rw [N2]; norm_num), lineCfg, div_le_iff₀ (by positivity)]
    have e : (L + 1 + η) ^ 2 * θ ^ 2 = (1 + θ * (1 + η)) ^ 2 := by
      rw [hL]
      field_simp
      ring
    rw [e]
    have : 1 ≤ (1 + θ * (1 + η)) ^ 2 := by
      have : 0 ≤ θ * (1 + η) := by positivity
      nlinarith
    refine le_trans (max_le ?_ ?_) this
    · rw [g2.2]; nlinarith
    · nlinarith
  set d : Domain 1 ℝ := ⟨fun _ => 0, fun _ => 1, fun _ => .open_, fun _ => .open_, fun _ => 1, fun _ => 1⟩ with hd
  have hop : ∀ v : Vec 1 ℝ, dot (ghostNearest d v) (ghostNearest d v) = v 0 ^ 2 := by
    intro v
    simp only [ghostNearest, hd, openDomain_anyPeriodic]
    simp [dot, sq]
  have ll1 : T.leafList 2 1 = some [0, 1] := line_list1 pos (η / 4) big θ
  have ll2 : T.leafList 2 2 = some [2, 3] := line_list2 pos (η / 4) big θ
  have b0 : ∀ s, T.gravityBody d 2 .geometric 0 (T.cell 1) 2 0 s = .open_ s := by
    intro s
    simp only [Tree.gravityBody, hop]
    rw [if_pos, if_pos]
    · simp [hT, lineTree]
    · left
      rw [g0.1, g0.2, g1.1, g1.2]
      exact pow_le_pow_left₀ (by linarith) (by linarith) 2
  have b1 : T.gravityBody d 2 .geometric 0 (T.cell 1) 2 1 ⟨[], [], []⟩ = .next ⟨[0, 1], [], []⟩ := by
    simp only [Tree.gravityBody, hop]
    rw [if_pos, if_neg, if_neg, ll1]
    · simp
    · rw [N1]; norm_num
    · simp [hT, lineTree]
    · left
      rw [sub_self, zero_pow two_ne_zero]
      exact sq_nonneg _
  have b2 : T.gravityBody d 2 .geometric 0 (T.cell 1) 2 2 ⟨[0, 1], [], []⟩ = .next ⟨[0, 1], [], [2]⟩ := by
    simp only [Tree.gravityBody, hop]
    have eD : ((T.cell 2).rcell 0 - (T.cell 1).rcell 0) ^ 2 = (L + 1 + η) ^ 2 := by
      rw [g2.1, g1.1]
      ring
    rw [eD, if_neg, if_neg, if_pos, if_neg]
    · simp
    · rw [N2]; simp
    · simp only [Tree.openCellForGravity]
      rw [if_neg (not_lt.mpr hc2)]
      rfl
    · rw [N2]; norm_num
    · rw [g2.2, g1.2, not_or, not_le, not_le]
      exact ⟨pow_lt_pow_left₀ (by linarith) (by linarith) two_ne_zero,
        pow_lt_pow_left₀ (by linarith) (by linarith) two_ne_zero⟩
  refine ⟨T, lineCfg big θ, linePart pos (η / 4), _, _, d, 1, 2, 1, [0, 1], [0, 1], [2, 3],
    lineTree_ok pos (η / 4) big θ, rfl, fun i => ⟨one_pos, by simp only [linePart]; linarith, rfl⟩, ll1, by simp, ll2,
    ?_, ?_⟩
  · have hl0 : T.links.copen 0 = some 1 := rfl
    have hl1 : T.links.cnext 1 = some 2 := rfl
    have hl2 : T.links.cnext 2 = some 3 := rfl
    have hN : T.Ncell = 3 := rfl
    show T.gravityWalk d 2 .geometric 0 (T.cell 1) 2 ⟨[], [], []⟩ 3 = _
    unfold Tree.gravityWalk
    rw [hN, Walk.walk, if_pos (by norm_num), b0, hl0]
    simp only []
    rw [Walk.walk, if_pos (by norm_num), b1, hl1]
    simp only []
    rw [Walk.walk, if_pos (by norm_num), b2, hl2]
    simp only []
    rw [Walk.walk, if_neg (by norm_num)]
  · have e1 : (linePart pos (η / 4)).r 1 = fun _ => 0 := by
      funext k
      simp [linePart, p1]
    rw [e1, monopole_field le_rfl]
    have em : masses (linePart pos (η / 4)) [2, 3] = [(1, fun _ => η), (1, fun _ => 2 + η)] := by
      simp [masses, linePart, p2, p3]
    rw [em]
    simp only [acc, ofCell, List.map_cons, List.map_nil, List.sum_cons, List.sum_nil, gdist_one, hr2, hm2, zero_sub,
      abs_neg, sub_zero, add_zero, zero_add, one_mul]
    rw [abs_of_pos (by linarith : 0 < 1 + η), abs_of_pos hη0, abs_of_pos (by linarith : 0 < 2 + η)]
    have a1 : 2 / (1 + η) ^ 2 ≤ 2 := by
      rw [div_le_iff₀ (by positivity)]
      nlinarith
    have a1' : 0 ≤ 2 / (1 + η) ^ 2 := by positivity
    have a2 : 2 * (1 + η) / (1 + η) ^ 3 = 2 / (1 + η) ^ 2 := by
      field_simp
    have a3 : η / η ^ 3 = (|B| + 3) ^ 2 := by
      rw [hη]
      field_simp
    have a4 : 0 ≤ (2 + η) / (2 + η) ^ 3 := by positivity
    rw [a2, a3]
    have a5 : B * (2 / (1 + η) ^ 2) ≤ |B| * 2 :=
      (mul_le_mul_of_nonneg_right (le_abs_self B) a1').trans (mul_le_mul_of_nonneg_left a1 (abs_nonneg B))
    have a6 := neg_le_abs (2 / (1 + η) ^ 2 - ((|B| + 3) ^ 2 + (2 + η) / (2 + η) ^ 3))
    nlinarith [abs_nonneg B]

end Gandalf
