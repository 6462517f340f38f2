import Verif.Proof.OpenCritExample
import Verif.Proof.BruteTree
import Verif.Prop.C58Tree

/-!
# C86: what the opening criteria for gravity guarantee
-/

set_option autoImplicit false
set_option linter.unusedSectionVars false

namespace Gandalf

open Multipole Gravity KD OpenCrit

variable {n : ℕ}

/-- **C86, the eigenvalue.** The number `lambda` computed from the five stored moments of point masses bounds the
quadratic form of the tensor in every direction, and is at most twice the moment of inertia about the centre of mass.
For a single mass at offset `d` it is exactly `2 m |d|²`, attained along `d`. -/
theorem C86_lambda (hn : n = 1 ∨ n = 2 ∨ n = 3) (src : List (ℝ × Vec n ℝ)) (r : Vec n ℝ) (m : ℝ) (q : Fin 5 → ℝ)
    (h : IsMoment src r m q) (hw : ∀ s ∈ src, 0 ≤ s.1) :
    (∀ R : Vec n ℝ, |qscalar n q R| ≤ lambda n q * dot R R) ∧
    lambda n q ≤ 2 * (src.map fun s => s.1 * gdist 0 s.2 r ^ 2).sum ∧
    ∀ (μ : ℝ) (d : Vec n ℝ), 0 ≤ μ → lambda n (fun e => quadTerm μ d e) = 2 * μ * dot d d ∧
      qscalar n (fun e => quadTerm μ d e) d = lambda n (fun e => quadTerm μ d e) * dot d d := by
  refine ⟨lambda_bound hn h hw, ?_, fun μ d hμ => ?_⟩
  · rw [lambda_congr hn (moment_entry hn h)]
    exact lambda_sum hn src hw r
  · refine ⟨lambda_point hn hμ d, ?_⟩
    rw [lambda_point hn hμ, qscalar_one hn]
    ring

/-- two masses 1 at `±1` on a line: `lambda` is 4 -/
example : IsMoment (n := 1) [(1, fun _ => -1), (1, fun _ => 1)] (fun _ => 0) 2 (fun _ => 4) ∧
    lambda 1 (fun _ => 4) = 4 := by
  refine ⟨⟨⟨by norm_num, fun k => by simp⟩, fun _ => ?_, ?_, ?_, ?_, ?_⟩, by simp [lambda]⟩
  · simp [tensor]; norm_num
  all_goals intro h; omega

/-- the cells accepted by the walk passed the test -/
theorem accepted_not_open (T : Tree n) (d : Domain n ℝ) (K : ℝ) (gmac : Tree.Mac) (macerror : ℝ) (cell : Props n)
    (pfuel fuel : ℕ) (s' : Tree.GravLists)
    (hw : T.gravityWalk d K gmac macerror cell pfuel ⟨[], [], []⟩ fuel = .done s') :
    ∀ c ∈ s'.cells, T.openCellForGravity gmac macerror c (cellDist d (T.cell c) cell) cell.macfactor cell.amin =
      false := by
  refine Brute.walk_inv (fun s : Tree.GravLists => ∀ c ∈ s.cells, T.openCellForGravity gmac macerror c
    (cellDist d (T.cell c) cell) cell.macfactor cell.amin = false) ?_ fuel 0 _ _ (by simp) hw
  intro c _ s hs s' h
  by_cases ho : T.openCellForGravity gmac macerror c (cellDist d (T.cell c) cell) cell.macfactor cell.amin = false
  · have : ∀ t : Tree.GravLists, T.gravityBody d K gmac macerror cell pfuel c s = .open_ t ∨
        T.gravityBody d K gmac macerror cell pfuel c s = .next t → t.cells = s.cells ∨ t.cells = s.cells ++ [c] := by
      intro t
      simp only [Tree.gravityBody]
      cases T.leafList pfuel c <;> simp only [] <;> split_ifs <;>
        · rintro (h | h) <;> first | cases h | skip
          all_goals first | exact Or.inl rfl | exact Or.inr rfl
    rcases this s' h with e | e <;> rw [e]
    · exact hs
    · intro x hx
      rcases List.mem_append.mp hx with hx | hx
      · exact hs x hx
      · rw [List.mem_singleton.mp hx]; exact ho
  · have e : s'.cells = s.cells := by
      rw [Bool.not_eq_false] at ho
      simp only [cellDist] at ho
      revert h
      simp only [Tree.gravityBody, ho]
      cases T.leafList pfuel c <;> simp only [] <;> split_ifs <;>
        · rintro (h | h) <;> first | cases h | skip
          all_goals first | rfl | simp_all
    rw [e]
    exact hs

theorem forall2_and {α β : Type} {R : α → β → Prop} {Q : α → Prop} {a : List α} {b : List β}
    (h : List.Forall₂ R a b) (hq : ∀ x ∈ a, Q x) : List.Forall₂ (fun x y => R x y ∧ Q x) a b := by
  induction h with
  | nil => exact .nil
  | cons h1 _ ih => exact .cons ⟨h1, hq _ (by simp)⟩ (ih fun x hx => hq x (by simp [hx]))

theorem cellDist_nonneg (d : Domain n ℝ) (x y : Props n) : 0 ≤ cellDist d x y := Multipole.dot_self_nonneg _

theorem masses_nonneg {P : Parts n} {l : List ℕ} (hm : ∀ i ∈ l, 0 ≤ P.m i) : ∀ s ∈ masses P l, 0 ≤ s.1 := by
  intro s hs
  obtain ⟨i, hi, rfl⟩ := List.mem_map.mp hs
  exact hm i (List.mem_filter.mp hi).1

/-- **C86, eigenvalue criterion, partial.** Let the potentials of the particles of the active cell be positive and
entered into its `macfactor`, and the `mac` of the tree's cells be stocked. For every cell accepted by the walk, every
particle `i` of the active cell, and every point `x` (the particle or an image of it) whose distance from the centre of
mass of the cell is at least `κ` times the distance used in the test: the quadrupole part of the cell's potential at
`x` is at most `macerror * gpot / κ³`; and the monopole of the cell differs from the direct sum over its particles by no
more than that and a term of third order in the ratio `χ` of cell size to distance.
Missing: that `κ` is 1; see `C86_eigenmac_fails`. -/
theorem C86_eigenmac_partial (hn : n = 1 ∨ n = 2 ∨ n = 3) (T : Tree n) (cfg : Cfg) (P : Parts n) (pfuel : ℕ)
    (f : Forest) (l : List ℕ) (hT : T.OK cfg P pfuel f l) (d : Domain n ℝ) (K macerror : ℝ) (he : 0 < macerror)
    (cell : Props n) (la : List ℕ) (hcell : Summary cfg P la cell) (hg : cfg.gadget2 = false)
    (heig : cfg.eigenmac = true) (hquad : cfg.needQuad = true)
    (hmac : ∀ c ∈ f.cells, T.mac c = macOf n .eigenmac macerror (T.cell c).q) (hm : ∀ i ∈ l, 0 ≤ P.m i)
    (gpot : ℕ → ℝ) (hpot : ∀ i ∈ la, 0 < gpot i ∧ P.gfac i = gfacOf (gpot i))
    (fuel : ℕ) (hfuel : f.cells.length ≤ fuel) (κ : ℝ) (hκ : 0 < κ) :
    ∃ nb dr cs : List ℕ, ∃ parts : List (List ℕ),
      T.gravityWalk d K .eigenmac macerror cell pfuel ⟨[], [], []⟩ fuel = .done ⟨nb, dr, cs⟩ ∧
      (nb ++ dr ++ parts.flatten).Perm l ∧
      List.Forall₂ (fun c lc => Summary cfg P lc (T.cell c) ∧
        ∀ i ∈ la, ∀ x : Vec n ℝ, 0 < gdist 0 x (T.cell c).r →
          κ * Real.sqrt (cellDist d (T.cell c) cell) ≤ gdist 0 x (T.cell c).r →
          |(cellQuadrupoleForces 0 x [ofCell (T.cell c)] ⟨0, fun _ => 0⟩).gpot -
            (cellMonopoleForces 0 x [ofCell (T.cell c)] ⟨0, fun _ => 0⟩).gpot| ≤ macerror * gpot i / κ ^ 3 ∧
          ∀ χ < 1, Seen 0 χ x (ofCell (T.cell c), masses P lc) →
            |(cellMonopoleForces 0 x [ofCell (T.cell c)] ⟨0, fun _ => 0⟩).gpot - pot 0 (masses P lc) x| ≤
              macerror * gpot i / κ ^ 3 +
                (T.cell c).m / gdist 0 x (T.cell c).r * ((15 / 4 + 1 / (1 - χ)) * χ ^ 3)) cs parts := by
  obtain ⟨nb, dr, cs, parts, h, hp, h2, _⟩ :=
    C09_gravity_partition T cfg P pfuel f l hT d K .eigenmac macerror cell ⟨[], [], []⟩ fuel hfuel
  simp only [List.nil_append] at h
  have ho := accepted_not_open T d K .eigenmac macerror cell pfuel fuel _ h
  refine ⟨nb, dr, cs, parts, h, hp, forall2_imp' (forall2_and h2 ho) fun c lc hc hlc hh => ⟨hh.1.1, ?_⟩⟩
  intro i hi x hx hκx
  have hml : ∀ j ∈ lc, 0 ≤ P.m j := fun j hj =>
    hm j (hp.mem_iff.mp (List.mem_append_right _ (List.mem_flatten.mpr ⟨lc, hlc, hj⟩)))
  have hmom := summary_moment hn hh.1.1 hml hquad
  have hw := masses_nonneg hml
  have hop := hh.2
  rw [Tree.openCellForGravity, if_neg (not_lt.mpr hh.1.2.2.1)] at hop
  simp only [decide_eq_false_iff_not] at hop
  rw [hmac c hh.1.2.2.2] at hop
  set D0 := Real.sqrt (cellDist d (T.cell c) cell) with hD0
  have hD0n : 0 ≤ D0 := Real.sqrt_nonneg _
  have e0 : cellDist d (T.cell c) cell = D0 ^ 2 := (Real.sq_sqrt (cellDist_nonneg _ _ _)).symm
  rw [e0] at hop
  have hf : gfacOf (gpot i) ≤ cell.macfactor := by
    rw [← (hpot i hi).2]
    exact hcell.macfactor hg heig i hi
  have hl0 := lambda_nonneg hn (T.cell c).q
  have ht := eigen_test hl0 he (hpot i hi).1 hf hD0n hop
  set D := gdist 0 x (T.cell c).r with hD
  have hlam : lambda n (T.cell c).q / (2 * D ^ 3) ≤ macerror * gpot i / κ ^ 3 := by
    rw [div_le_div_iff₀ (by positivity) (by positivity)]
    have h3 : (κ * D0) ^ 3 ≤ D ^ 3 := pow_le_pow_left₀ (by positivity) hκx 3
    have hp' := mul_pos he (hpot i hi).1
    have e1 : lambda n (T.cell c).q * κ ^ 3 ≤ 2 * (macerror * gpot i * D0 ^ 3) * κ ^ 3 :=
      mul_le_mul_of_nonneg_right (by linarith) (by positivity)
    rw [mul_pow] at h3
    nlinarith [mul_le_mul_of_nonneg_left h3 hp'.le]
  have hq : |qscalar n (T.cell c).q (fun k => x k - (T.cell c).r k) / (2 * D ^ 5)| ≤ macerror * gpot i / κ ^ 3 := by
    rw [abs_div, abs_of_pos (by positivity : (0 : ℝ) < 2 * D ^ 5)]
    refine le_trans ?_ hlam
    have := lambda_bound hn hmom hw (fun k => x k - (T.cell c).r k)
    have e2 : dot (fun k => x k - (T.cell c).r k) (fun k => x k - (T.cell c).r k) = D ^ 2 := by
      rw [hD, dist_sq le_rfl, add_zero]
    rw [e2] at this
    rw [div_le_div_iff₀ (by positivity) (by positivity)]
    calc _ ≤ lambda n (T.cell c).q * D ^ 2 * (2 * D ^ 3) := mul_le_mul_of_nonneg_right this (by positivity)
      _ = _ := by ring
  have eq : (cellQuadrupoleForces 0 x [ofCell (T.cell c)] ⟨0, fun _ => 0⟩).gpot -
      (cellMonopoleForces 0 x [ofCell (T.cell c)] ⟨0, fun _ => 0⟩).gpot =
      qscalar n (T.cell c).q (fun k => x k - (T.cell c).r k) / (2 * D ^ 5) := by
    rw [quadrupole_field le_rfl, monopole_field le_rfl]
    simp only [List.map_cons, List.map_nil, List.sum_cons, List.sum_nil, quadG, ofCell, ← hD]
    ring
  refine ⟨by rw [eq]; exact hq, fun χ hχ hs => ?_⟩
  have hqe := (C58_quadrupole_error hn 0 χ 0 le_rfl hχ x [(ofCell (T.cell c), masses P lc)] (by simpa using hs)
    (by simp only [List.mem_singleton]; rintro c rfl; exact hmom) (by simp) ⟨0, fun _ => 0⟩).1
  simp only [List.map_cons, List.map_nil, List.sum_cons, List.sum_nil, add_zero, zero_add, zero_mul, zero_div,
    List.flatten_cons, List.flatten_nil, List.append_nil] at hqe
  change _ ≤ (T.cell c).m / D * _ at hqe
  rw [← eq] at hq
  rw [abs_le] at hq hqe ⊢
  constructor <;> linarith [hq.1, hq.2, hqe.1, hqe.2]

/-- **C86, GADGET-2 criterion, partial.** Let the accelerations of the particles of the active cell be entered into its
`amin`. For every accepted cell, every particle `i` of the active cell and every point `x` as above, further from the
centre of mass than twice the size of the cell: each component of the acceleration by the cell's monopole differs
from the direct sum by at most `84 / ((1 - χ)³ κ⁴)` times `macerror` times the last acceleration of the particle,
`χ` being the diameter of the cell over the distance. Missing: that `κ` is 1; see `C86_gadget2_fails`. -/
theorem C86_gadget2_partial (T : Tree n) (cfg : Cfg) (P : Parts n) (pfuel : ℕ)
    (f : Forest) (l : List ℕ) (hT : T.OK cfg P pfuel f l) (d : Domain n ℝ) (K macerror : ℝ) (he : 0 ≤ macerror)
    (cell : Props n) (la : List ℕ) (hcell : Summary cfg P la cell) (hg : cfg.gadget2 = true)
    (hm : ∀ i ∈ l, 0 ≤ P.m i) (fuel : ℕ) (hfuel : f.cells.length ≤ fuel) (κ : ℝ) (hκ : 0 < κ) :
    ∃ nb dr cs : List ℕ, ∃ parts : List (List ℕ),
      T.gravityWalk d K .gadget2 macerror cell pfuel ⟨[], [], []⟩ fuel = .done ⟨nb, dr, cs⟩ ∧
      (nb ++ dr ++ parts.flatten).Perm l ∧
      List.Forall₂ (fun c lc => Summary cfg P lc (T.cell c) ∧
        ∀ i ∈ la, 0 ≤ P.anorm i → ∀ x : Vec n ℝ, 2 * (T.cell c).rmax < gdist 0 x (T.cell c).r →
          κ * Real.sqrt (cellDist d (T.cell c) cell) ≤ gdist 0 x (T.cell c).r → ∀ k,
          |(cellMonopoleForces 0 x [ofCell (T.cell c)] ⟨0, fun _ => 0⟩).a k - acc 0 (masses P lc) x k| ≤
            84 * (1 / (1 - 2 * (T.cell c).rmax / gdist 0 x (T.cell c).r)) ^ 3 *
              (macerror * P.anorm i / κ ^ 4)) cs parts := by
  obtain ⟨nb, dr, cs, parts, h, hp, h2, _⟩ :=
    C09_gravity_partition T cfg P pfuel f l hT d K .gadget2 macerror cell ⟨[], [], []⟩ fuel hfuel
  simp only [List.nil_append] at h
  have ho := accepted_not_open T d K .gadget2 macerror cell pfuel fuel _ h
  refine ⟨nb, dr, cs, parts, h, hp, forall2_imp' (forall2_and h2 ho) fun c lc hc hlc hh => ⟨hh.1.1, ?_⟩⟩
  intro i hi ha x hx hκx k
  have hml : ∀ j ∈ lc, 0 ≤ P.m j := fun j hj =>
    hm j (hp.mem_iff.mp (List.mem_append_right _ (List.mem_flatten.mpr ⟨lc, hlc, hj⟩)))
  have hcen := summary_centre hh.1.1 hml
  have hw := masses_nonneg hml
  have hop := hh.2
  rw [Tree.openCellForGravity, if_neg (not_lt.mpr hh.1.2.2.1)] at hop
  simp only [decide_eq_false_iff_not, not_lt] at hop
  set D0 := Real.sqrt (cellDist d (T.cell c) cell) with hD0
  have hD0n : 0 ≤ D0 := Real.sqrt_nonneg _
  have e0 : cellDist d (T.cell c) cell = D0 ^ 2 := (Real.sq_sqrt (cellDist_nonneg _ _ _)).symm
  rw [e0] at hop
  have hrm := hh.1.1.rmaxNonneg
  set D := gdist 0 x (T.cell c).r with hD
  have hDp : 0 < D := by linarith
  set R := (T.cell c).rmax with hR
  have hχ : 2 * R / D < 1 := by rw [div_lt_one hDp]; exact hx
  have ham : cell.amin ≤ P.anorm i := hcell.amin hg i hi
  have h4 : (κ * D0) ^ 4 ≤ D ^ 4 := pow_le_pow_left₀ (by positivity) hκx 4
  have hmass : (T.cell c).m * R ^ 2 / D ^ 4 ≤ macerror * P.anorm i / κ ^ 4 := by
    rw [div_le_div_iff₀ (by positivity) (by positivity)]
    rw [mul_pow] at h4
    have e1 : R * R * (T.cell c).m ≤ D0 ^ 4 * (macerror * P.anorm i) := by
      refine hop.trans ?_
      have : D0 ^ 4 * macerror * cell.amin ≤ D0 ^ 4 * macerror * P.anorm i :=
        mul_le_mul_of_nonneg_left ham (by positivity)
      nlinarith
    have e2 := mul_le_mul_of_nonneg_right e1 (by positivity : 0 ≤ κ ^ 4)
    have e3 := mul_le_mul_of_nonneg_left h4 (mul_nonneg he ha)
    nlinarith
  obtain ⟨q, hq⟩ := exists_moment hcen
  by_cases h0 : (T.cell c).m = 0
  · have hz := sum_zero hw (by rw [← hcen.mass, h0])
    rw [monopole_field le_rfl]
    simp only [List.map_cons, List.map_nil, List.sum_cons, List.sum_nil, ofCell, h0, (massless_field hz 0 x).2 k]
    simp only [zero_mul, zero_div, add_zero, sub_zero, abs_zero]
    have : 0 < 1 - 2 * R / D := by linarith
    positivity
  · have hm0 : 0 < (T.cell c).m := lt_of_le_of_ne (by
      rw [hcen.mass]
      apply List.sum_nonneg
      simp only [List.mem_map]
      rintro _ ⟨s, hs, rfl⟩
      exact hw s hs) (Ne.symm h0)
    have hb : ∀ s ∈ masses P lc, gdist 0 s.2 (T.cell c).rcell ≤ R := by
      intro s hs
      obtain ⟨i, hi, rfl⟩ := List.mem_map.mp hs
      exact gdist_le hrm (hh.1.1.extent i (List.mem_filter.mp hi).1)
    have hcb := com_ball hq hw hm0 _ hb
    have hd : ∀ s ∈ masses P lc, gdist 0 s.2 (T.cell c).r ≤ 2 * R / D * gdist 0 x (T.cell c).r := by
      intro s hs
      rw [← hD, div_mul_cancel₀ _ hDp.ne']
      have := gdist_tri s.2 (T.cell c).rcell (T.cell c).r
      rw [dist_symm 0 (T.cell c).rcell] at this
      linarith [hb s hs]
    have key := mono_acc_err le_rfl hq hw x hχ hDp hd k
    rw [monopole_field le_rfl]
    simp only [List.map_cons, List.map_nil, List.sum_cons, List.sum_nil, ofCell, add_zero, zero_add]
    refine key.trans ?_
    rw [← hD]
    have hc0 : 0 < 1 / (1 - 2 * R / D) := by
      have : 0 < 1 - 2 * R / D := by linarith
      positivity
    calc _ = 84 * (1 / (1 - 2 * R / D)) ^ 3 * ((T.cell c).m * R ^ 2 / D ^ 4) := by
          generalize 1 / (1 - 2 * R / D) = w
          field_simp
          ring
      _ ≤ _ := mul_le_mul_of_nonneg_left hmass (by positivity)

/-- **C86, the eigenvalue criterion does not bound the neglected potential.** For every factor `B` there is a tree of
four masses, stocked with their true potentials, a tolerance `macerror`, a leaf with a particle `j` and a cell accepted
by the walk for that leaf, such that the quadrupole part of the cell's potential at `j`, which monopoles neglect, is
more than `B` times the promised `macerror * gpot`. The walk compares the distance of the centres of the two cells, and
`j` is nearer. -/
theorem C86_eigenmac_fails (B : ℝ) :
    ∃ (T : Tree 1) (cfg : Cfg) (P : Parts 1) (f : Forest) (l : List ℕ) (d : Domain 1 ℝ) (macerror : ℝ) (gpot : ℕ → ℝ)
      (t c j : ℕ) (nb lt ps : List ℕ),
      T.OK cfg P 2 f l ∧ cfg.gadget2 = false ∧ cfg.eigenmac = true ∧ cfg.needQuad = true ∧ 0 < macerror ∧
      (∀ c ∈ f.cells, T.mac c = macOf 1 .eigenmac macerror (T.cell c).q) ∧
      (∀ i ∈ l, P.m i = 1 ∧ gpot i = pot 0 (masses P (l.erase i)) (P.r i) ∧ P.gfac i = gfacOf (gpot i)) ∧
      T.leafList 2 t = some lt ∧ j ∈ lt ∧ T.leafList 2 c = some ps ∧
      T.gravityWalk d cfg.kernrange .eigenmac macerror (T.cell t) 2 ⟨[], [], []⟩ f.cells.length = .done ⟨nb, [], [c]⟩ ∧
      B * (macerror * gpot j) <
        |(cellQuadrupoleForces 0 (P.r j) [ofCell (T.cell c)] ⟨0, fun _ => 0⟩).gpot -
          (cellMonopoleForces 0 (P.r j) [ofCell (T.cell c)] ⟨0, fun _ => 0⟩).gpot| := by
  set L := 32 * |B| + 1 with hLdef
  have hB := abs_nonneg B
  have hL : 1 ≤ L := by linarith
  have hL2 : (0 : ℝ) < L + 2 := by linarith
  have v0 := gpM_zero hL
  have v1 := gpM_one hL
  have k0 : 1 / (2 * L) ≤ gpM L 0 := by
    rw [v0]
    have : 0 ≤ 1 / (2 * L + 1) + 1 / (2 * L + 3) := by positivity
    linarith
  have k1 : 1 / (2 * L) ≤ gpM L 1 := by rw [v1]; linarith
  have k2 : gpM L 1 ≤ 2 := by
    rw [v1]
    have : 1 / (2 * L) ≤ 1 / 2 := by
      rw [div_le_div_iff₀ (by linarith) (by norm_num)]
      linarith
    linarith
  have hiL : (0 : ℝ) < 1 / (2 * L) := by positivity
  set g0 := min (gpM L 0) (gpM L 1) with hg0
  have hg : 1 / (2 * L) ≤ g0 := le_min k0 k1
  have hgp : 0 < g0 := lt_of_lt_of_le hiL hg
  set err := 2 / (g0 * (L + 2) ^ 3) with herr
  have he : 0 < err := by positivity
  obtain ⟨c1, c2, c3, c4, c5, c6, c7, c8, c9, c10, c11, c12, c13, c14, c15⟩ :=
    mac_cells hL (fun _ => 0) (gpM L) false true .eigenmac err
  have hfac := mac_factor (L := L) (fun _ => 0) (gpM L) .eigenmac err
  refine ⟨macTree (macCfg (2 * L + 10) false true) (macPart L (fun _ => 0) (gpM L)) .eigenmac err,
    macCfg (2 * L + 10) false true, macPart L (fun _ => 0) (gpM L), _, _, openDom, err, gpM L, 1, 2, 1, [0, 1], [0, 1],
    [2, 3], macTree_ok _ _ (fun _ => rfl) _ _ (fun _ => zero_le_one), rfl, rfl, rfl, he, fun c _ => rfl, fun i _ => ⟨rfl, rfl, rfl⟩, mac_list1 _ _ _ _,
    by simp, mac_list2 _ _ _ _, mac_walk hL _ _ _ _ _ _ ?_, ?_⟩
  · have hmf : max (max 0 (gfacOf (gpM L 0))) (gfacOf (gpM L 1)) ≤ gfacOf g0 := by
      refine max_le (max_le (Real.rpow_nonneg hgp.le _) ?_) ?_
      · exact Real.rpow_le_rpow_of_nonpos hgp (min_le_left _ _) (by norm_num)
      · exact Real.rpow_le_rpow_of_nonpos hgp (min_le_right _ _) (by norm_num)
    rw [hfac, Tree.openCellForGravity, c14, if_neg (not_lt.mpr (by nlinarith))]
    simp only [decide_eq_false_iff_not, not_lt]
    have hm : (macTree (macCfg (2 * L + 10) false true) (macPart L (fun _ => 0) (gpM L)) .eigenmac err).mac 2 =
        (0.5 * |((macTree (macCfg (2 * L + 10) false true) (macPart L (fun _ => 0) (gpM L)) .eigenmac err).cell 2).q 0| /
          err) ^ (2 / 3 : ℝ) := rfl
    rw [hm, c13, abs_of_pos (by norm_num)]
    have hx : (0 : ℝ) ≤ 0.5 * 4 / err := by positivity
    refine (mul_le_mul_of_nonneg_left hmf (Real.rpow_nonneg hx _)).trans (le_of_eq ?_)
    unfold gfacOf
    rw [Real.rpow_neg hgp.le, ← div_eq_mul_inv, ← Real.div_rpow hx hgp.le]
    have e1 : 0.5 * 4 / err / g0 = (L + 2) ^ 3 := by
      rw [herr]
      field_simp
      norm_num
    rw [e1, ← Real.rpow_natCast (L + 2) 3, ← Real.rpow_mul hL2.le]
    norm_num
  · have hr1 : (macPart L (fun _ => 0) (gpM L)).r 1 = fun _ => 0 := rfl
    have hD : gdist 0 (fun _ : Fin 1 => (0 : ℝ))
        ((macTree (macCfg (2 * L + 10) false true) (macPart L (fun _ => 0) (gpM L)) .eigenmac err).cell 2).r = 2 := by
      rw [gdist1, c12]
      norm_num
    rw [hr1, quadrupole_field le_rfl, monopole_field le_rfl]
    simp only [List.map_cons, List.map_nil, List.sum_cons, List.sum_nil, quadG, ofCell, hD, qscalar, c12, c13]
    norm_num
    have h1 : err * gpM L 1 ≤ 8 / (L + 2) := by
      have e1 : err * gpM L 1 ≤ err * 2 := mul_le_mul_of_nonneg_left k2 he.le
      have e2 : err ≤ 2 / (1 / (2 * L) * (L + 2) ^ 3) :=
        div_le_div_of_nonneg_left (by norm_num) (by positivity) (mul_le_mul_of_nonneg_right hg (by positivity))
      have e3 : 2 / (1 / (2 * L) * (L + 2) ^ 3) ≤ 4 / (L + 2) := by
        have : 2 / (1 / (2 * L) * (L + 2) ^ 3) = 4 * L / (L + 2) ^ 3 := by
          field_simp
          norm_num
        rw [this, div_le_div_iff₀ (by positivity) hL2]
        have : L ≤ (L + 2) ^ 2 := by nlinarith
        nlinarith
      have e4 : (8 : ℝ) / (L + 2) = 4 / (L + 2) * 2 := by ring
      rw [e4]
      linarith
    have h2 : |B| * (8 / (L + 2)) < 1 / 4 := by
      rw [← mul_div_assoc, div_lt_div_iff₀ hL2 (by norm_num)]
      linarith
    have h3 : 0 ≤ err * gpM L 1 := mul_nonneg he.le (hiL.le.trans k1)
    have h4 : B * (err * gpM L 1) ≤ |B| * (err * gpM L 1) := mul_le_mul_of_nonneg_right (le_abs_self B) h3
    have h5 : |B| * (err * gpM L 1) ≤ |B| * (8 / (L + 2)) := mul_le_mul_of_nonneg_left h1 hB
    linarith

set_option maxHeartbeats 1000000 in
/-- **C86, the GADGET-2 criterion does not bound the error.** For every `B` there is such a tree, with the true
accelerations, where the acceleration by an accepted cell is wrong by more than `B * macerror` times the acceleration
of the particle. -/
theorem C86_gadget2_fails (B : ℝ) :
    ∃ (T : Tree 1) (cfg : Cfg) (P : Parts 1) (f : Forest) (l : List ℕ) (d : Domain 1 ℝ) (macerror : ℝ)
      (t c j : ℕ) (nb lt ps : List ℕ),
      T.OK cfg P 2 f l ∧ cfg.gadget2 = true ∧ 0 < macerror ∧
      (∀ i ∈ l, P.m i = 1 ∧ P.anorm i = |acc 0 (masses P (l.erase i)) (P.r i) 0|) ∧
      T.leafList 2 t = some lt ∧ j ∈ lt ∧ T.leafList 2 c = some ps ∧
      T.gravityWalk d cfg.kernrange .gadget2 macerror (T.cell t) 2 ⟨[], [], []⟩ f.cells.length = .done ⟨nb, [], [c]⟩ ∧
      B * (macerror * P.anorm j) <
        |(cellMonopoleForces 0 (P.r j) [ofCell (T.cell c)] ⟨0, fun _ => 0⟩).a 0 - acc 0 (masses P ps) (P.r j) 0| := by
  set L := 32 * |B| + 1 with hLdef
  have hB := abs_nonneg B
  have hL : 1 ≤ L := by linarith
  have hL2 : (0 : ℝ) < L + 2 := by linarith
  have v0 := anM_zero hL
  have v1 := anM_one hL
  have hiL : (0 : ℝ) < 1 / (2 * L) ^ 2 := by positivity
  have hi4 : 1 / (2 * L) ^ 2 ≤ 1 / 4 := by
    rw [div_le_div_iff₀ (by positivity) (by norm_num)]
    nlinarith
  have k0 : 1 / (2 * L) ^ 2 ≤ anM L 0 := by
    rw [v0]
    have : 0 ≤ 1 / (2 * L + 1) ^ 2 + 1 / (2 * L + 3) ^ 2 := by positivity
    linarith
  have k1 : 1 / (2 * L) ^ 2 ≤ anM L 1 := by rw [v1]; linarith
  have k2 : anM L 1 ≤ 10 / 9 := by rw [v1]; linarith
  set a0 := min (min (2 * L + 10) (anM L 0)) (anM L 1) with ha0
  have ha : 1 / (2 * L) ^ 2 ≤ a0 := le_min (le_min (by linarith) k0) k1
  have hap : 0 < a0 := lt_of_lt_of_le hiL ha
  set err := 2 / (a0 * (L + 2) ^ 4) with herr
  have he : 0 < err := by positivity
  obtain ⟨c1, c2, c3, c4, c5, c6, c7, c8, c9, c10, c11, c12, c13, c14, c15⟩ :=
    mac_cells hL (anM L) (fun _ => 1) true false .gadget2 err
  have hfac := mac_amin (L := L) (anM L) (fun _ => 1) .gadget2 err
  refine ⟨macTree (macCfg (2 * L + 10) true false) (macPart L (anM L) fun _ => 1) .gadget2 err,
    macCfg (2 * L + 10) true false, macPart L (anM L) fun _ => 1, _, _, openDom, err, 1, 2, 1, [0, 1], [0, 1],
    [2, 3], macTree_ok _ _ (fun _ => rfl) _ _ (fun _ => zero_le_one), rfl, he, fun i _ => ⟨rfl, rfl⟩, mac_list1 _ _ _ _,
    by simp, mac_list2 _ _ _ _, mac_walk hL _ _ _ _ _ _ ?_, ?_⟩
  · rw [hfac, Tree.openCellForGravity, c14, if_neg (not_lt.mpr (by nlinarith))]
    simp only [decide_eq_false_iff_not, not_lt]
    rw [c8, c11, ← ha0, herr]
    have : (L + 2) ^ 2 * (L + 2) ^ 2 * a0 * (2 / (a0 * (L + 2) ^ 4)) = 2 := by
      field_simp
    rw [this]
    norm_num
  · have hr1 : (macPart L (anM L) fun _ => 1).r 1 = fun _ => 0 := rfl
    have hD : gdist 0 (fun _ : Fin 1 => (0 : ℝ))
        ((macTree (macCfg (2 * L + 10) true false) (macPart L (anM L) fun _ => 1) .gadget2 err).cell 2).r = 2 := by
      rw [gdist1, c12]
      norm_num
    have em : acc 0 (masses (macPart L (anM L) fun _ => 1) [2, 3]) (fun _ => 0) 0 =
        1 * (1 - 0) / gdist 0 (fun _ : Fin 1 => (0 : ℝ)) (fun _ => 1) ^ 3 +
        (1 * (3 - 0) / gdist 0 (fun _ : Fin 1 => (0 : ℝ)) (fun _ => 3) ^ 3 + 0) := rfl
    rw [hr1, em, monopole_field le_rfl, gdist1, gdist1]
    simp only [List.map_cons, List.map_nil, List.sum_cons, List.sum_nil, ofCell, hD, c11, c12]
    norm_num
    show B * (err * anM L 1) < _
    have h1 : err * anM L 1 ≤ 9 / (L + 2) := by
      have e1 : err * anM L 1 ≤ err * (10 / 9) := mul_le_mul_of_nonneg_left k2 he.le
      have e2 : err ≤ 2 / (1 / (2 * L) ^ 2 * (L + 2) ^ 4) :=
        div_le_div_of_nonneg_left (by norm_num) (by positivity) (mul_le_mul_of_nonneg_right ha (by positivity))
      have e3 : 2 / (1 / (2 * L) ^ 2 * (L + 2) ^ 4) ≤ 8 / (L + 2) := by
        have : 2 / (1 / (2 * L) ^ 2 * (L + 2) ^ 4) = 8 * L ^ 2 / (L + 2) ^ 4 := by
          field_simp
          norm_num
        rw [this, div_le_div_iff₀ (by positivity) hL2]
        have h3 : L ^ 2 ≤ (L + 2) ^ 3 := by nlinarith [sq_nonneg L]
        nlinarith
      have e4 : (0 : ℝ) < 1 / (L + 2) := by positivity
      have e5 : (8 : ℝ) / (L + 2) = 8 * (1 / (L + 2)) := by ring
      have e6 : (9 : ℝ) / (L + 2) = 9 * (1 / (L + 2)) := by ring
      rw [e6]
      rw [e5] at e3
      linarith
    have h2 : |B| * (9 / (L + 2)) < 11 / 18 := by
      rw [← mul_div_assoc, div_lt_div_iff₀ hL2 (by norm_num)]
      linarith
    have h3 : 0 ≤ err * anM L 1 := mul_nonneg he.le (hiL.le.trans k1)
    have h4 : B * (err * anM L 1) ≤ |B| * (err * anM L 1) := mul_le_mul_of_nonneg_right (le_abs_self B) h3
    have h5 : |B| * (err * anM L 1) ≤ |B| * (9 / (L + 2)) := mul_le_mul_of_nonneg_left h1 hB
    linarith

/-- the bound of `C86_eigenmac_partial` for these trees, with any tolerance and `L = 1` -/
example (err : ℝ) (he : 0 < err) : ∃ nb dr cs : List ℕ, ∃ parts : List (List ℕ),
    (macTree (macCfg (2 * 1 + 10) false true) (macPart 1 (fun _ => 0) (gpM 1)) .eigenmac err).gravityWalk openDom 2
      .eigenmac err ((macTree (macCfg (2 * 1 + 10) false true) (macPart 1 (fun _ => 0) (gpM 1)) .eigenmac err).cell 1) 2
      ⟨[], [], []⟩ 3 = .done ⟨nb, dr, cs⟩ ∧ (nb ++ dr ++ parts.flatten).Perm [0, 1, 2, 3] := by
  obtain ⟨nb, dr, cs, parts, h, hp, _⟩ := C86_eigenmac_partial (Or.inl rfl) _ _ _ 2 _ _
    (macTree_ok (macCfg (2 * 1 + 10) false true) (macPart 1 (fun _ => 0) (gpM 1)) (fun _ => rfl) .eigenmac err
      fun _ => zero_le_one) openDom 2 err he
    ((macTree (macCfg (2 * 1 + 10) false true) (macPart 1 (fun _ => 0) (gpM 1)) .eigenmac err).cell 1) [0, 1]
    (mac_leaf1 _ _ (fun _ => rfl) _ _) rfl rfl rfl (fun c _ => rfl) (by simp [macPart]) (gpM 1)
    (fun i hi => ⟨by
      have hi : i = 0 ∨ i = 1 := by simpa using hi
      rcases hi with rfl | rfl
      · rw [gpM_zero le_rfl]; norm_num
      · rw [gpM_one le_rfl]; norm_num, rfl⟩) 3 (by simp [Forest.cells]) (2 / 3) (by norm_num)
  exact ⟨nb, dr, cs, parts, h, hp⟩

/-- and of `C86_gadget2_partial` -/
example (err : ℝ) (he : 0 < err) : ∃ nb dr cs : List ℕ, ∃ parts : List (List ℕ),
    (macTree (macCfg (2 * 1 + 10) true false) (macPart 1 (anM 1) fun _ => 1) .gadget2 err).gravityWalk openDom 2
      .gadget2 err ((macTree (macCfg (2 * 1 + 10) true false) (macPart 1 (anM 1) fun _ => 1) .gadget2 err).cell 1) 2
      ⟨[], [], []⟩ 3 = .done ⟨nb, dr, cs⟩ ∧ (nb ++ dr ++ parts.flatten).Perm [0, 1, 2, 3] := by
  obtain ⟨nb, dr, cs, parts, h, hp, _⟩ := C86_gadget2_partial _ _ _ 2 _ _
    (macTree_ok (macCfg (2 * 1 + 10) true false) (macPart 1 (anM 1) fun _ => 1) (fun _ => rfl) .gadget2 err
      fun _ => zero_le_one) openDom 2 err he.le
    ((macTree (macCfg (2 * 1 + 10) true false) (macPart 1 (anM 1) fun _ => 1) .gadget2 err).cell 1) [0, 1]
    (mac_leaf1 _ _ (fun _ => rfl) _ _) rfl (by simp [macPart]) 3 (by simp [Forest.cells]) (2 / 3) (by norm_num)
  exact ⟨nb, dr, cs, parts, h, hp⟩

end Gandalf
