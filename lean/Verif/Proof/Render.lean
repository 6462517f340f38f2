import Verif.Spec.Render
import Mathlib.Analysis.SumIntegralComparisons
import Mathlib.Analysis.SpecialFunctions.Integrals.Basic
import Mathlib.MeasureTheory.Measure.Lebesgue.Integral
import Mathlib.MeasureTheory.Measure.Haar.NormedSpace
import Mathlib.MeasureTheory.Integral.IntegrableOn
import Mathlib.Tactic

set_option autoImplicit false
set_option linter.unusedSectionVars false

noncomputable section

namespace Gandalf.Render
open RenderSpec

theorem mem_loopInts (a b i : ℤ) : i ∈ loopInts a b ↔ a ≤ i ∧ i ≤ b := by
  simp only [loopInts, List.mem_map, List.mem_range]
  constructor
  · rintro ⟨k, hk, rfl⟩
    omega
  · rintro ⟨h1, h2⟩
    exact ⟨(i - a).toNat, by omega, by omega⟩

theorem nodup_loopInts (a b : ℤ) : (loopInts a b).Nodup := by
  refine List.Nodup.map ?_ List.nodup_range
  intro x y h
  simpa using h

theorem clampPix_range {n : ℕ} (hn : 0 < n) (x : ℝ) : 0 ≤ clampPix n x ∧ clampPix n x < n := by
  unfold clampPix
  omega

theorem clampPix_le {n : ℕ} {x : ℝ} {i : ℤ} (h0 : 0 ≤ i) (h : x < i) : clampPix n x ≤ i := by
  have : trunc x ≤ i := by
    unfold trunc
    by_cases hx : 0 ≤ x
    · rw [if_pos hx]
      have : (⌊x⌋ : ℝ) ≤ x := Int.floor_le x
      exact_mod_cast (this.trans h.le)
    · rw [if_neg hx]
      push Not at hx
      exact (Int.ceil_le.2 (by exact_mod_cast hx.le)).trans h0
  unfold clampPix
  omega

theorem le_clampPix {n : ℕ} {x : ℝ} {i : ℤ} (h0 : 0 ≤ i) (h1 : i < n) (h : (i : ℝ) < x) : i ≤ clampPix n x := by
  have hx : 0 ≤ x := le_trans (by exact_mod_cast h0) h.le
  have : i ≤ trunc x := by
    unfold trunc
    rw [if_pos hx]
    exact Int.le_floor.2 h.le
  unfold clampPix
  omega

theorem index_inj (v : View) {i j i' j' : ℤ} (h1 : 0 ≤ i ∧ i < v.nx) (h2 : 0 ≤ i' ∧ i' < v.nx)
    (h : v.index i j = v.index i' j') : i = i' ∧ j = j' := by
  unfold View.index at h
  have h3 : i - i' = (j - j') * v.nx := by linear_combination h
  have h4 : j = j' := by
    by_contra hne
    rcases lt_or_gt_of_ne hne with hlt | hgt
    · have : (j - j') * v.nx ≤ -1 * (v.nx : ℤ) := mul_le_mul_of_nonneg_right (by omega) (by omega)
      omega
    · have : 1 * (v.nx : ℤ) ≤ (j - j') * v.nx := mul_le_mul_of_nonneg_right (by omega) (by omega)
      omega
  subst h4
  refine ⟨?_, rfl⟩
  simp at h3
  omega

theorem index_range (v : View) {i j : ℤ} (h1 : 0 ≤ i ∧ i < v.nx) (h2 : 0 ≤ j ∧ j < v.ny) :
    0 ≤ v.index i j ∧ v.index i j < v.nx * v.ny := by
  unfold View.index
  have h3 : 0 ≤ (v.ny - j - 1) * (v.nx : ℤ) := mul_nonneg (by omega) (by omega)
  have h4 : (v.ny - j - 1) * (v.nx : ℤ) ≤ (v.ny - 1) * v.nx := mul_le_mul_of_nonneg_right (by omega) (by omega)
  have h5 : ((v.ny : ℤ) - 1) * v.nx = v.nx * v.ny - v.nx := by ring
  omega

theorem index_surj (v : View) {c : ℤ} (h0 : 0 ≤ c) (h1 : c < v.nx * v.ny) :
    ∃ i j : ℤ, (0 ≤ i ∧ i < v.nx) ∧ (0 ≤ j ∧ j < v.ny) ∧ v.index i j = c := by
  have hn : 0 < (v.nx : ℤ) := by
    by_contra h
    have : (v.nx : ℤ) = 0 := by omega
    rw [this] at h1
    omega
  have e := Int.mul_ediv_add_emod c v.nx
  have m0 := Int.emod_nonneg c hn.ne'
  have m1 := Int.emod_lt_of_pos c hn
  have d0 := Int.ediv_nonneg h0 hn.le
  have d1 : c / v.nx < v.ny := Int.ediv_lt_of_lt_mul hn (by linarith [mul_comm (v.nx : ℤ) v.ny])
  refine ⟨c % v.nx, v.ny - 1 - c / v.nx, ⟨m0, m1⟩, by omega, ?_⟩
  unfold View.index
  linear_combination e

section
variable {M : Mode} {W : ℝ → ℝ} {R : ℝ} {nd : ℕ} {v : View}

theorem foldl_bump {β : Type} (k : β → ℤ) (a b : β → ℝ) (L : List β) (I : Image) (c : ℤ) :
    L.foldl (fun I e => bump I (k e) (a e) (b e)) I c
      = ((I c).1 + (L.map fun e => if k e = c then a e else 0).sum, (I c).2 + (L.map fun e => if k e = c then b e else 0).sum) := by
  induction L generalizing I with
  | nil => simp
  | cons e L ih =>
    rw [List.foldl_cons, ih]
    by_cases h : k e = c
    · subst h
      simp [bump, add_assoc]
    · have : bump I (k e) (a e) (b e) c = I c := by
        unfold bump
        rw [Function.update_of_ne (Ne.symm h)]
      rw [this]
      simp [h]

theorem sum_one {β : Type} [DecidableEq β] (L : List β) (h : L.Nodup) (x : β) (a : β → ℝ) :
    (L.map fun e => if e = x then a e else 0).sum = if x ∈ L then a x else 0 := by
  induction L with
  | nil => simp
  | cons e L ih =>
    rw [List.nodup_cons] at h
    rw [List.map_cons, List.sum_cons, ih h.2]
    by_cases hx : e = x
    · subst hx
      simp [h.1]
    · rw [if_neg hx, zero_add]
      simp [Ne.symm hx]

theorem mem_pixels (p : Dot) (i j : ℤ) : (i, j) ∈ pixels R v p ↔
    (clampPix v.nx ((p.x - R * p.h - v.xmin) * (1 / v.dx)) ≤ i ∧ i ≤ clampPix v.nx ((p.x + R * p.h - v.xmin) * (1 / v.dx))) ∧
    (clampPix v.ny ((p.y - R * p.h - v.ymin) * (1 / v.dy)) ≤ j ∧ j ≤ clampPix v.ny ((p.y + R * p.h - v.ymin) * (1 / v.dy))) := by
  simp only [pixels, List.mem_flatMap, List.mem_map, mem_loopInts, Prod.mk.injEq]
  constructor
  · rintro ⟨j', hj, i', hi, rfl, rfl⟩
    exact ⟨hi, hj⟩
  · rintro ⟨hi, hj⟩
    exact ⟨j, hj, i, hi, rfl, rfl⟩

theorem nodup_pixels (p : Dot) : (pixels R v p).Nodup := by
  unfold pixels
  rw [List.nodup_flatMap]
  constructor
  · intro j _
    exact (nodup_loopInts _ _).map fun a b h => by simpa using h
  · refine (nodup_loopInts _ _).imp ?_
    intro a b hne
    simp only [Function.onFun]
    intro x h1 h2
    simp only [List.mem_map] at h1 h2
    obtain ⟨i, _, rfl⟩ := h1
    obtain ⟨i', _, h⟩ := h2
    exact hne (by simpa using (congrArg Prod.snd h).symm)

theorem pixels_range (hx : 0 < v.nx) (hy : 0 < v.ny) {p : Dot} {i j : ℤ} (h : (i, j) ∈ pixels R v p) :
    (0 ≤ i ∧ i < v.nx) ∧ (0 ≤ j ∧ j < v.ny) := by
  rw [mem_pixels] at h
  have h1 := clampPix_range hx ((p.x - R * p.h - v.xmin) * (1 / v.dx))
  have h2 := clampPix_range hx ((p.x + R * p.h - v.xmin) * (1 / v.dx))
  have h3 := clampPix_range hy ((p.y - R * p.h - v.ymin) * (1 / v.dy))
  have h4 := clampPix_range hy ((p.y + R * p.h - v.ymin) * (1 / v.dy))
  omega

/-- a window that is one -/
structure Fine (v : View) : Prop where
  nx : 0 < v.nx
  ny : 0 < v.ny
  x : v.xmin < v.xmax
  y : v.ymin < v.ymax

theorem Fine.dx (F : Fine v) : 0 < v.dx := div_pos (sub_pos.2 F.x) (by exact_mod_cast F.nx)
theorem Fine.dy (F : Fine v) : 0 < v.dy := div_pos (sub_pos.2 F.y) (by exact_mod_cast F.ny)

/-- the third direction only skips what the kernel does not reach -/
structure Sound (M : Mode) : Prop where
  nonneg : ∀ p, 0 ≤ M.dz2 p
  skip : ∀ p t, 0 ≤ t → M.dz2 p < t ^ 2 → M.skip t p = false

theorem sound_column : Sound column := ⟨fun _ => le_rfl, fun _ _ _ _ => rfl⟩

theorem sound_slice (z : ℝ) : Sound (slice z) := by
  refine ⟨fun p => mul_self_nonneg _, fun p t ht h => ?_⟩
  have h1 : |z - p.z| < t := by
    apply abs_lt_of_sq_lt_sq _ ht
    calc (z - p.z) ^ 2 = (z - p.z) * (z - p.z) := by ring
      _ < _ := h
  rw [abs_lt] at h1
  simp only [slice, decide_eq_false_iff_not, not_or, not_lt]
  constructor <;> linarith

/-- a pixel where the kernel does not vanish is one of the pixels of the particle -/
theorem covered (F : Fine v) (S : Sound M) (hR : 0 < R) (hW : ∀ q, R ≤ q → W q = 0) {p : Dot} (hp : 0 < p.h) {i j : ℤ}
    (hi : 0 ≤ i ∧ i < v.nx) (hj : 0 ≤ j ∧ j < v.ny) (h : wkern M W v p i j ≠ 0) :
    ¬ outside M R v p ∧ (i, j) ∈ pixels R v p := by
  have hdx := F.dx
  have hdy := F.dy
  have ht : 0 < R * p.h := mul_pos hR hp
  set X := v.xmin + v.dx * i - p.x with hX
  set Y := v.ymin + v.dy * j - p.y with hY
  have hq : √(X * X + Y * Y + M.dz2 p) * (1 / p.h) < R := by
    by_contra hq
    push Not at hq
    exact h (hW _ hq)
  have h1 : √(X * X + Y * Y + M.dz2 p) < R * p.h := by
    rw [mul_one_div, div_lt_iff₀ hp] at hq
    exact hq
  have hz := S.nonneg p
  have h2 : X * X + Y * Y + M.dz2 p < (R * p.h) ^ 2 := by
    rw [Real.sqrt_lt' ht] at h1
    exact h1
  have hx : |X| < R * p.h := by
    apply abs_lt_of_sq_lt_sq _ ht.le
    nlinarith [mul_self_nonneg Y]
  have hy : |Y| < R * p.h := by
    apply abs_lt_of_sq_lt_sq _ ht.le
    nlinarith [mul_self_nonneg X]
  have hs := S.skip p (R * p.h) ht.le (by nlinarith [mul_self_nonneg X, mul_self_nonneg Y])
  rw [abs_lt] at hx hy
  have i0 : (0 : ℝ) ≤ i := by exact_mod_cast hi.1
  have j0 : (0 : ℝ) ≤ j := by exact_mod_cast hj.1
  have i1 : (i : ℝ) ≤ v.nx := by exact_mod_cast hi.2.le
  have j1 : (j : ℝ) ≤ v.ny := by exact_mod_cast hj.2.le
  have ex : v.dx * v.nx = v.xmax - v.xmin := by
    unfold View.dx
    have : (v.nx : ℝ) ≠ 0 := by exact_mod_cast F.nx.ne'
    field_simp
  have ey : v.dy * v.ny = v.ymax - v.ymin := by
    unfold View.dy
    have : (v.ny : ℝ) ≠ 0 := by exact_mod_cast F.ny.ne'
    field_simp
  have a0 := mul_nonneg hdx.le i0
  have a1 := mul_le_mul_of_nonneg_left i1 hdx.le
  have b0 := mul_nonneg hdy.le j0
  have b1 := mul_le_mul_of_nonneg_left j1 hdy.le
  constructor
  · unfold outside
    rw [hs]
    rintro (h | h | h | h | h)
    · linarith
    · linarith
    · linarith
    · linarith
    · cases h
  · rw [mem_pixels]
    refine ⟨⟨clampPix_le hi.1 ?_, le_clampPix hi.1 hi.2 ?_⟩, clampPix_le hj.1 ?_, le_clampPix hj.1 hj.2 ?_⟩
    · rw [mul_one_div, div_lt_iff₀ hdx]
      linarith
    · rw [mul_one_div, lt_div_iff₀ hdx]
      linarith
    · rw [mul_one_div, div_lt_iff₀ hdy]
      linarith
    · rw [mul_one_div, lt_div_iff₀ hdy]
      linarith

theorem addDot_pixel (F : Fine v) (S : Sound M) (hR : 0 < R) (hW : ∀ q, R ≤ q → W q = 0) {p : Dot} (hp : 0 < p.h) {i j : ℤ}
    (hi : 0 ≤ i ∧ i < v.nx) (hj : 0 ≤ j ∧ j < v.ny) (I : Image) :
    addDot M W R nd v I p (v.index i j) = ((I (v.index i j)).1 + wnorm nd p * p.A * wkern M W v p i j,
      (I (v.index i j)).2 + wnorm nd p * wkern M W v p i j) := by
  classical
  have key := covered F S hR hW hp hi hj
  unfold addDot
  by_cases ho : outside M R v p
  · rw [if_pos ho]
    have : wkern M W v p i j = 0 := by
      by_contra h
      exact (key h).1 ho
    simp [this]
  · rw [if_neg ho, foldl_bump]
    have hsum : ∀ a : ℤ × ℤ → ℝ, ((i, j) ∉ pixels R v p → a (i, j) = 0) →
        ((pixels R v p).map fun e => if v.index e.1 e.2 = v.index i j then a e else 0).sum = a (i, j) := by
      intro a ha
      have e1 : ((pixels R v p).map fun e => if v.index e.1 e.2 = v.index i j then a e else 0)
          = (pixels R v p).map fun e => if e = (i, j) then a e else 0 := by
        apply List.map_congr_left
        intro e he
        have hr := pixels_range F.nx F.ny (i := e.1) (j := e.2) he
        by_cases h : e = (i, j)
        · rw [if_pos h, if_pos (by rw [h])]
        · rw [if_neg h, if_neg]
          intro hx
          have := index_inj v hr.1 hi hx
          exact h (Prod.ext this.1 this.2)
      rw [e1, sum_one _ (nodup_pixels p)]
      by_cases h : (i, j) ∈ pixels R v p
      · rw [if_pos h]
      · rw [if_neg h, ha h]
    have hz : (i, j) ∉ pixels R v p → wkern M W v p i j = 0 := by
      intro hn
      by_contra h
      exact hn (key h).2
    rw [hsum (fun e => wnorm nd p * p.A * wkern M W v p e.1 e.2) (fun hn => by simp [hz hn]),
      hsum (fun e => wnorm nd p * wkern M W v p e.1 e.2) (fun hn => by simp [hz hn])]

theorem sums_pixel (F : Fine v) (S : Sound M) (hR : 0 < R) (hW : ∀ q, R ≤ q → W q = 0) (ps : List Dot)
    (hp : ∀ p ∈ ps, 0 < p.h) {i j : ℤ} (hi : 0 ≤ i ∧ i < v.nx) (hj : 0 ≤ j ∧ j < v.ny) :
    sums M W R nd v ps (v.index i j) = ((ps.map fun p => wnorm nd p * p.A * wkern M W v p i j).sum,
      (ps.map fun p => wnorm nd p * wkern M W v p i j).sum) := by
  have gen : ∀ I : Image, ps.foldl (addDot M W R nd v) I (v.index i j)
      = ((I (v.index i j)).1 + (ps.map fun p => wnorm nd p * p.A * wkern M W v p i j).sum,
      (I (v.index i j)).2 + (ps.map fun p => wnorm nd p * wkern M W v p i j).sum) := by
    induction ps with
    | nil => simp
    | cons p ps ih =>
      intro I
      rw [List.foldl_cons, ih (fun q hq => hp q (List.mem_cons_of_mem _ hq)),
        addDot_pixel F S hR hW (hp p List.mem_cons_self) hi hj]
      simp [add_assoc]
  rw [sums, gen]
  simp

end

/-! ### the pixels that `rgrid` lists -/

theorem rgrid_length (v : View) : v.rgrid.length = v.ny * v.nx := by
  unfold View.rgrid
  simp [List.length_flatMap]

theorem flatMap_get {β γ : Type} (L : List β) (g : β → List γ) (n : ℕ) (hg : ∀ x, (g x).length = n) (k i : ℕ) (hi : i < n) :
    (L.flatMap g)[i + k * n]? = (L[k]?).bind fun x => (g x)[i]? := by
  induction L generalizing k with
  | nil => simp
  | cons x L ih =>
    rw [List.flatMap_cons]
    cases k with
    | zero =>
      rw [List.getElem?_append_left (by rw [hg]; omega)]
      simp
    | succ k =>
      have e : i + (k + 1) * n = (i + k * n) + n := by ring
      rw [List.getElem?_append_right (by rw [hg, e]; omega), hg, e, Nat.add_sub_cancel, ih]
      simp

theorem rgrid_get (v : View) (i j : ℕ) (hi : i < v.nx) (hj : j < v.ny) :
    v.rgrid[(v.index i j).toNat]? = some (centre v i j) := by
  have e : (v.index i j).toNat = i + (v.ny - 1 - j) * v.nx := by
    unfold View.index
    have : ((v.ny : ℤ) - j - 1) * v.nx = (((v.ny - 1 - j : ℕ) : ℤ)) * (v.nx : ℤ) := by
      congr 1
      omega
    rw [this]
    have : (i : ℤ) + ((v.ny - 1 - j : ℕ) : ℤ) * (v.nx : ℤ) = ((i + (v.ny - 1 - j) * v.nx : ℕ) : ℤ) := by
      push_cast
      ring
    rw [this, Int.toNat_natCast]
  rw [e]
  unfold View.rgrid
  rw [flatMap_get _ _ v.nx (by simp) _ _ hi]
  have hr : (List.range v.ny).reverse[v.ny - 1 - j]? = some j := by
    rw [List.getElem?_reverse (by simp; omega)]
    rw [List.getElem?_range (by simp; omega)]
    simp
    omega
  rw [hr]
  simp [hi, centre, View.dx, View.dy]

/-! ### lines of sight -/

theorem integrable_line {W : ℝ → ℝ} {R : ℝ} (hc : Continuous W) (hR : 0 < R) (hW : ∀ q, R ≤ q → W q = 0) (b z0 h : ℝ) (hh : 0 < h) :
    MeasureTheory.Integrable fun z => W (√(b + (z - z0) ^ 2) / h) := by
  by_cases hb : 0 ≤ b
  · apply Continuous.integrable_of_hasCompactSupport
    · fun_prop
    · apply HasCompactSupport.intro (isCompact_Icc (a := z0 - R * h) (b := z0 + R * h))
      intro z hz
      apply hW
      rw [le_div_iff₀ hh]
      apply Real.le_sqrt_of_sq_le
      have ht : 0 < R * h := mul_pos hR hh
      have : R * h ≤ |z - z0| := by
        by_contra hlt
        push Not at hlt
        rw [abs_lt] at hlt
        exact hz ⟨by linarith, by linarith⟩
      have h2 : (R * h) ^ 2 ≤ (z - z0) ^ 2 := by
        rw [← sq_abs (z - z0)]
        exact pow_le_pow_left₀ ht.le this 2
      linarith
  · apply Continuous.integrable_of_hasCompactSupport
    · fun_prop
    · push Not at hb
      apply HasCompactSupport.intro (isCompact_Icc (a := z0 - (R * h + √(-b))) (b := z0 + (R * h + √(-b))))
      intro z hz
      apply hW
      rw [le_div_iff₀ hh]
      apply Real.le_sqrt_of_sq_le
      have ht : 0 < R * h := mul_pos hR hh
      have hs := Real.sqrt_nonneg (-b)
      have hs2 : √(-b) ^ 2 = -b := Real.sq_sqrt (by linarith)
      have : R * h + √(-b) ≤ |z - z0| := by
        by_contra hlt
        push Not at hlt
        rw [abs_lt] at hlt
        exact hz ⟨by linarith, by linarith⟩
      have h2 : (R * h + √(-b)) ^ 2 ≤ (z - z0) ^ 2 := by
        rw [← sq_abs (z - z0)]
        exact pow_le_pow_left₀ (by positivity) this 2
      nlinarith

theorem line_integral (W : ℝ → ℝ) (b z0 h : ℝ) (hh : 0 < h) :
    ∫ z, W (√(b ^ 2 + (z - z0) ^ 2) / h) = h * sight W (b / h) := by
  have e1 : ∫ z, W (√(b ^ 2 + (z - z0) ^ 2) / h) = ∫ z, W (√(b ^ 2 + z ^ 2) / h) :=
    MeasureTheory.integral_sub_right_eq_self (fun z => W (√(b ^ 2 + z ^ 2) / h)) z0
  have e2 : (fun z => W (√(b ^ 2 + z ^ 2) / h)) = fun z => (fun s => W (√((b / h) ^ 2 + s ^ 2))) (h⁻¹ * z) := by
    funext z
    simp only
    congr 1
    rw [show (b / h) ^ 2 + (h⁻¹ * z) ^ 2 = (b ^ 2 + z ^ 2) / h ^ 2 by field_simp, Real.sqrt_div' _ (sq_nonneg h),
      Real.sqrt_sq hh.le]
  rw [e1, e2]
  refine (MeasureTheory.Measure.integral_comp_mul_left (fun s => W (√((b / h) ^ 2 + s ^ 2))) h⁻¹).trans ?_
  rw [inv_inv, abs_of_pos hh, smul_eq_mul]
  rfl

theorem column_integral {W : ℝ → ℝ} {R : ℝ} (hc : Continuous W) (hR : 0 < R) (hW : ∀ q, R ≤ q → W q = 0) (ps : List Dot)
    (hp : ∀ p ∈ ps, 0 < p.h) (f : Dot → ℝ) (X Y : ℝ) :
    ∫ Z, smooth3 W ps f X Y Z
      = (ps.map fun p => p.m / p.rho * f p * (sight W (√((X - p.x) ^ 2 + (Y - p.y) ^ 2) / p.h) / p.h ^ 2)).sum ∧
    MeasureTheory.Integrable fun Z => smooth3 W ps f X Y Z := by
  induction ps with
  | nil => simp [smooth3]
  | cons p ps ih =>
    have hh := hp p List.mem_cons_self
    have ih := ih fun q hq => hp q (List.mem_cons_of_mem _ hq)
    have hb : 0 ≤ (X - p.x) ^ 2 + (Y - p.y) ^ 2 := by positivity
    have e : (fun Z => smooth3 W (p :: ps) f X Y Z)
        = fun Z => p.m / p.rho * f p * (W (√((X - p.x) ^ 2 + (Y - p.y) ^ 2 + (Z - p.z) ^ 2) / p.h) / p.h ^ 3) + smooth3 W ps f X Y Z := by
      funext Z
      simp [smooth3]
    have hi : MeasureTheory.Integrable fun Z =>
        p.m / p.rho * f p * (W (√((X - p.x) ^ 2 + (Y - p.y) ^ 2 + (Z - p.z) ^ 2) / p.h) / p.h ^ 3) :=
      ((integrable_line hc hR hW _ p.z p.h hh).div_const _).const_mul _
    constructor
    · rw [e, MeasureTheory.integral_add hi ih.2, ih.1, MeasureTheory.integral_const_mul, MeasureTheory.integral_div]
      have h2 := line_integral W (√((X - p.x) ^ 2 + (Y - p.y) ^ 2)) p.z p.h hh
      rw [Real.sq_sqrt hb] at h2
      rw [h2, List.map_cons, List.sum_cons]
      congr 2
      field_simp
    · rw [e]
      exact hi.add ih.2

/-! ### the table -/

theorem foldl_sum (g : ℕ → ℝ) (n : ℕ) : (List.range n).foldl (fun s j => s + g j) 0 = ∑ j ∈ Finset.range n, g j := by
  induction n with
  | zero => simp
  | succ n ih => rw [List.range_succ, List.foldl_append, ih, Finset.sum_range_succ]; rfl

theorem sight_half {W : ℝ → ℝ} {R : ℝ} (hR : 0 < R) (hW : ∀ q, R ≤ q → W q = 0) (b : ℝ) (h0 : 0 ≤ b) (h1 : b < R) :
    sight W b = 2 * ∫ s in (0)..√(R ^ 2 - b ^ 2), W (√(b ^ 2 + s ^ 2)) := by
  have e1 : sight W b = ∫ s, (fun t => W (√(b ^ 2 + t ^ 2))) |s| := by
    unfold sight
    congr 1
    funext s
    simp only [sq_abs]
  rw [e1]
  refine (integral_comp_abs (f := fun t => W (√(b ^ 2 + t ^ 2)))).trans ?_
  rw [intervalIntegral.integral_of_le (Real.sqrt_nonneg _)]
  congr 1
  apply MeasureTheory.setIntegral_eq_of_subset_of_forall_diff_eq_zero measurableSet_Ioi
  · intro s hs
    exact hs.1
  · intro s hs
    apply hW
    have hs0 : 0 < s := hs.1
    have : √(R ^ 2 - b ^ 2) < s := by
      by_contra h
      push Not at h
      exact hs.2 ⟨hs0, h⟩
    apply Real.le_sqrt_of_sq_le
    have := (Real.sqrt_lt' hs0).1 this
    linarith

theorem table_bounds {W : ℝ → ℝ} {R : ℝ} (hR : 0 < R) (hW : ∀ q, R ≤ q → W q = 0) (ha : AntitoneOn W (Set.Ici 0)) (steps : ℕ)
    (hs : 0 < steps) (b : ℝ) (h0 : 0 ≤ b) (h1 : b < R) :
    sight W b ≤ tableLOS W R steps b ∧ tableLOS W R steps b ≤ sight W b + 2 * W b * (√(R ^ 2 - b ^ 2) / steps) := by
  set D := √(R ^ 2 - b ^ 2) with hD
  have hD0 : 0 < D := Real.sqrt_pos.2 (by nlinarith)
  have hsR : (0 : ℝ) < steps := by exact_mod_cast hs
  set δ := D / steps with hδ
  have hδ0 : 0 < δ := div_pos hD0 hsR
  set g : ℝ → ℝ := fun t => W (√(b ^ 2 + (δ * t) ^ 2)) with hg
  have hanti : AntitoneOn g (Set.Icc (0 : ℝ) (0 + steps)) := by
    intro x hx y hy hxy
    apply ha (Set.mem_Ici.2 (Real.sqrt_nonneg _)) (Set.mem_Ici.2 (Real.sqrt_nonneg _))
    apply Real.sqrt_le_sqrt
    have h3 : δ * x ≤ δ * y := mul_le_mul_of_nonneg_left hxy hδ0.le
    have h4 : 0 ≤ δ * x := mul_nonneg hδ0.le hx.1
    nlinarith
  have eI : sight W b = 2 * (δ * ∫ t in (0 : ℝ)..(0 + steps), g t) := by
    rw [sight_half hR hW b h0 h1, hg]
    have := intervalIntegral.mul_integral_comp_mul_left (a := 0) (b := (0 : ℝ) + steps) (f := fun s => W (√(b ^ 2 + s ^ 2))) δ
    rw [this, mul_zero, zero_add, hδ, div_mul_cancel₀ _ hsR.ne']
  have eT : tableLOS W R steps b = 2 * (δ * ∑ j ∈ Finset.range steps, g (0 + j)) := by
    unfold tableLOS
    rw [foldl_sum (fun j : ℕ => W (√(√(R ^ 2 - b ^ 2) / steps * j * (√(R ^ 2 - b ^ 2) / steps * j) + b ^ 2)) * (√(R ^ 2 - b ^ 2) / steps)),
      Finset.mul_sum (Finset.range steps) (fun j : ℕ => g (0 + j)) δ]
    congr 1
    apply Finset.sum_congr rfl
    intro j _
    rw [hg, ← hD, ← hδ]
    simp only [zero_add]
    rw [mul_comm, show δ * (j : ℝ) * (δ * j) + b ^ 2 = b ^ 2 + (δ * j) ^ 2 by ring]
  have l1 := hanti.integral_le_sum
  have l2 := hanti.sum_le_integral
  have tele : ∑ j ∈ Finset.range steps, g (0 + j) = g 0 - g steps + ∑ j ∈ Finset.range steps, g (0 + ((j + 1 : ℕ) : ℝ)) := by
    have := Finset.sum_range_sub' (fun j : ℕ => g (0 + j)) steps
    rw [Finset.sum_sub_distrib] at this
    simp only [zero_add, Nat.cast_zero] at this ⊢
    linarith
  have g0 : g 0 = W b := by
    rw [hg]
    simp [Real.sqrt_sq h0]
  have gS : g steps = 0 := by
    rw [hg]
    apply hW
    rw [hδ, div_mul_cancel₀ _ hsR.ne', hD, Real.sq_sqrt (by nlinarith)]
    rw [show b ^ 2 + (R ^ 2 - b ^ 2) = R ^ 2 by ring, Real.sqrt_sq hR.le]
  rw [eI, eT]
  constructor
  · have := mul_le_mul_of_nonneg_left l1 hδ0.le
    linarith
  · rw [tele, g0, gS]
    have := mul_le_mul_of_nonneg_left l2 hδ0.le
    nlinarith

end Gandalf.Render
