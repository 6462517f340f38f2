import Verif.Proof.LatticeSites

/-! # C66: positions of the initial conditions

The statements use Spec/Lattice.lean: `Tiles` (the box is cut into cells with one particle each), `Apart`,
`ApartPeriodic` (least separation), `within` (particles inside of a sphere). -/

set_option autoImplicit false

namespace Gandalf

open Real Lattice LatticeSpec

/-! ### lattices -/

/-- The loops write each site of the lattice to its own place in the array: every place below the number of
sites holds exactly one site, and nothing else is written. -/
theorem C66_sites {n : ℕ} (N0 N1 N2 : ℕ) (site : ℕ → ℕ → ℕ → Vec n ℝ) (r : ℕ → Vec n ℝ) :
    (∀ i < N0 * N1 * N2, ∃! x : ℕ × ℕ × ℕ, (x.1 < N0 ∧ x.2.1 < N1 ∧ x.2.2 < N2) ∧
      i = x.2.2 * (N0 * N1) + x.2.1 * N0 + x.1) ∧
    (∀ ii < N0, ∀ jj < N1, ∀ kk < N2,
      kk * (N0 * N1) + jj * N0 + ii < N0 * N1 * N2 ∧
      fill N0 N1 N2 site r (kk * (N0 * N1) + jj * N0 + ii) = site ii jj kk) ∧
    ∀ i, N0 * N1 * N2 ≤ i → fill N0 N1 N2 site r i = r i := by
  have e : ∀ kk, kk * (N0 * N1) = kk * N0 * N1 := fun kk => by ring
  refine ⟨fun i hi => ?_, fun ii h0 jj h1 kk h2 => ?_, fun i hi => fill_outside hi site r⟩
  · obtain ⟨ii, jj, kk, h0, h1, h2, h⟩ := split_index hi
    refine ⟨(ii, jj, kk), ⟨⟨h0, h1, h2⟩, by rw [h, e]⟩, ?_⟩
    rintro ⟨a, b, c⟩ ⟨⟨k0, k1, k2⟩, hk⟩
    simp only at k0 k1 k2 hk
    rw [e] at hk
    obtain ⟨_, p, q, s⟩ := index_split h0 h1 h2
    obtain ⟨_, p', q', s'⟩ := index_split k0 k1 k2
    rw [← h] at p q s
    rw [← hk] at p' q' s'
    rw [← p, ← q, ← s, ← p', ← q', ← s']
  · rw [e]; exact ⟨(index_split h0 h1 h2).1, fill_site h0 h1 h2 site r⟩

theorem spacing_false {n : ℕ} (N : Fin n → ℕ) (k0 : Fin n) (lo hi : Vec n ℝ) (k : Fin n) :
    cubicSpacing false N k0 lo hi k = (hi k - lo k) / N k := by unfold cubicSpacing; simp

theorem spacing_fits {n : ℕ} (N : Fin n → ℕ) (hN : ∀ k, 0 < N k) (k0 : Fin n) (lo hi : Vec n ℝ) (k : Fin n) :
    (N k : ℝ) * cubicSpacing false N k0 lo hi k = hi k - lo k := by
  rw [spacing_false, mul_div_cancel₀]
  exact_mod_cast (hN k).ne'

/-- **Cubic lattice in three dimensions.** The box is cut into `N0*N1*N2` equal cells of edges
`(hi k - lo k)/N k`, with exactly one particle at the centre of each; no two particles, and no particle and
periodic image, are nearer than the smallest edge. -/
theorem C66_cubic3 (N : Fin 3 → ℕ) (hN : ∀ k, 0 < N k) (lo hi : Vec 3 ℝ) (hb : ∀ k, lo k < hi k)
    (r : ℕ → Vec 3 ℝ) (d : ℝ) (h0 : 0 ≤ d) (hd : ∀ k, d ≤ (hi k - lo k) / N k) :
    Tiles (N 0 * N 1 * N 2) (addCubic3 (N 0) (N 1) (N 2) lo hi false r) lo hi
      (fun k => (hi k - lo k) / N k) ∧
    ApartPeriodic (N 0 * N 1 * N 2) (addCubic3 (N 0) (N 1) (N 2) lo hi false r)
      (fun k => hi k - lo k) d := by
  have eN : N = ![N 0, N 1, N 2] := by funext k; fin_cases k <;> rfl
  have es : cubicSpacing false ![N 0, N 1, N 2] 0 lo hi = fun k => (hi k - lo k) / N k := by
    rw [← eN]; funext k; exact spacing_false _ _ _ _ _
  have ef : (fun k => (![N 0, N 1, N 2] k : ℕ) * cubicSpacing false ![N 0, N 1, N 2] 0 lo hi k) =
      fun k => hi k - lo k := by rw [← eN]; funext k; exact spacing_fits N hN _ _ _ _
  have a := cubic3_tiles (N 0) (N 1) (N 2) lo hi false r (fun k => by
    rw [es]; exact div_pos (by linarith [hb k]) (by exact_mod_cast hN k))
  have b := cubic3_apart (N 0) (N 1) (N 2) lo hi false r d h0 (fun k => by rw [es]; exact hd k)
  rw [ef] at b
  have ef' : (fun k => lo k + (![N 0, N 1, N 2] k : ℕ) * cubicSpacing false ![N 0, N 1, N 2] 0 lo hi k) = hi := by
    funext k; have := congrFun ef k; rw [this]; ring
  rw [ef', es] at a
  exact ⟨a, b⟩

/-- two dimensions -/
theorem C66_cubic2 (N : Fin 2 → ℕ) (hN : ∀ k, 0 < N k) (lo hi : Vec 2 ℝ) (hb : ∀ k, lo k < hi k)
    (r : ℕ → Vec 2 ℝ) (d : ℝ) (h0 : 0 ≤ d) (hd : ∀ k, d ≤ (hi k - lo k) / N k) :
    Tiles (N 0 * N 1) (addCubic2 (N 0) (N 1) lo hi false r) lo hi (fun k => (hi k - lo k) / N k) ∧
    ApartPeriodic (N 0 * N 1) (addCubic2 (N 0) (N 1) lo hi false r) (fun k => hi k - lo k) d := by
  have eN : N = ![N 0, N 1] := by funext k; fin_cases k <;> rfl
  have es : cubicSpacing false ![N 0, N 1] 0 lo hi = fun k => (hi k - lo k) / N k := by
    rw [← eN]; funext k; exact spacing_false _ _ _ _ _
  have ef : (fun k => (![N 0, N 1] k : ℕ) * cubicSpacing false ![N 0, N 1] 0 lo hi k) =
      fun k => hi k - lo k := by rw [← eN]; funext k; exact spacing_fits N hN _ _ _ _
  have a := cubic2_tiles (N 0) (N 1) lo hi false r (fun k => by
    rw [es]; exact div_pos (by linarith [hb k]) (by exact_mod_cast hN k))
  have b := cubic2_apart (N 0) (N 1) lo hi false r d h0 (fun k => by rw [es]; exact hd k)
  rw [ef] at b
  have ef' : (fun k => lo k + (![N 0, N 1] k : ℕ) * cubicSpacing false ![N 0, N 1] 0 lo hi k) = hi := by
    funext k; have := congrFun ef k; rw [this]; ring
  rw [ef', es] at a
  exact ⟨a, b⟩

/-- one dimension -/
theorem C66_cubic1 (N : Fin 1 → ℕ) (hN : ∀ k, 0 < N k) (lo hi : Vec 1 ℝ) (hb : ∀ k, lo k < hi k)
    (r : ℕ → Vec 1 ℝ) (d : ℝ) (h0 : 0 ≤ d) (hd : ∀ k, d ≤ (hi k - lo k) / N k) :
    Tiles (N 0) (addCubic1 (N 0) lo hi false r) lo hi (fun k => (hi k - lo k) / N k) ∧
    ApartPeriodic (N 0) (addCubic1 (N 0) lo hi false r) (fun k => hi k - lo k) d := by
  have eN : N = ![N 0] := by funext k; fin_cases k; rfl
  have es : cubicSpacing false ![N 0] 0 lo hi = fun k => (hi k - lo k) / N k := by
    rw [← eN]; funext k; exact spacing_false _ _ _ _ _
  have ef : (fun k => (![N 0] k : ℕ) * cubicSpacing false ![N 0] 0 lo hi k) =
      fun k => hi k - lo k := by rw [← eN]; funext k; exact spacing_fits N hN _ _ _ _
  have a := cubic1_tiles (N 0) lo hi false r (fun k => by
    rw [es]; exact div_pos (by linarith [hb k]) (by exact_mod_cast hN k))
  have b := cubic1_apart (N 0) lo hi false r d h0 (fun k => by rw [es]; exact hd k)
  rw [ef] at b
  have ef' : (fun k => lo k + (![N 0] k : ℕ) * cubicSpacing false ![N 0] 0 lo hi k) = hi := by
    funext k; have := congrFun ef k; rw [this]; ring
  rw [ef', es] at a
  exact ⟨a, b⟩

/-- 4 x 2 x 3 particles in the box 2 x 1 x 3: at least 1/2 apart -/
example : ApartPeriodic (4 * 2 * 3) (addCubic3 4 2 3 (fun _ => 0) ![2, 1, 3] false (fun _ _ => 7))
    (fun k => ![2, 1, 3] k - 0) (1 / 2) :=
  (C66_cubic3 ![4, 2, 3] (by intro k; fin_cases k <;> simp) (fun _ => 0) ![2, 1, 3]
    (by intro k; fin_cases k <;> norm_num) (fun _ _ => 7) (1 / 2) (by norm_num)
    (by intro k; fin_cases k <;> norm_num)).2

/-- **Normalised cubic lattice**, as far as it is right: it fills, in cells of equal edges, the box of the
same lower corner with edges `N k` times the spacing in the first direction, and so the box given if that
fits. (Nothing checks that it fits: see `C66_normalised_fails`.) -/
theorem C66_normalised_partial (N : Fin 3 → ℕ) (hN : ∀ k, 0 < N k) (lo hi : Vec 3 ℝ) (hb : lo 0 < hi 0)
    (r : ℕ → Vec 3 ℝ) (hfit : ∀ k, hi k - lo k = N k * ((hi 0 - lo 0) / N 0)) :
    Tiles (N 0 * N 1 * N 2) (addCubic3 (N 0) (N 1) (N 2) lo hi true r) lo hi
      (fun _ => (hi 0 - lo 0) / N 0) ∧
    ApartPeriodic (N 0 * N 1 * N 2) (addCubic3 (N 0) (N 1) (N 2) lo hi true r) (fun k => hi k - lo k)
      ((hi 0 - lo 0) / N 0) := by
  have hp : 0 < (hi 0 - lo 0) / (N 0 : ℝ) := div_pos (by linarith) (by exact_mod_cast hN 0)
  have eN : N = ![N 0, N 1, N 2] := by funext k; fin_cases k <;> rfl
  have es : cubicSpacing true ![N 0, N 1, N 2] 0 lo hi = fun _ => (hi 0 - lo 0) / N 0 := by
    funext k; unfold cubicSpacing; simp
  have ef : (fun k => (![N 0, N 1, N 2] k : ℕ) * cubicSpacing true ![N 0, N 1, N 2] 0 lo hi k) =
      fun k => hi k - lo k := by rw [es, ← eN]; funext k; exact (hfit k).symm
  have a := cubic3_tiles (N 0) (N 1) (N 2) lo hi true r (fun k => by rw [es]; exact hp)
  have b := cubic3_apart (N 0) (N 1) (N 2) lo hi true r _ hp.le (fun k => by rw [es])
  rw [ef] at b
  have ef' : (fun k => lo k + (![N 0, N 1, N 2] k : ℕ) * cubicSpacing true ![N 0, N 1, N 2] 0 lo hi k) = hi := by
    funext k; have := congrFun ef k; rw [this]; ring
  rw [ef', es] at a
  exact ⟨a, b⟩

example : ∃ (N : Fin 3 → ℕ) (lo hi : Vec 3 ℝ), (∀ k, 0 < N k) ∧ lo 0 < hi 0 ∧
    ∀ k, hi k - lo k = N k * ((hi 0 - lo 0) / N 0) :=
  ⟨![4, 2, 6], fun _ => 0, ![2, 1, 3], by intro k; fin_cases k <;> simp, by norm_num,
    by intro k; fin_cases k <;> norm_num⟩

/-- The normalised lattice puts particles outside of the box when the box is shorter in another direction
than the spacing of the first requires. -/
theorem C66_normalised_fails : ∃ (lo hi : Vec 2 ℝ), (∀ k, lo k < hi k) ∧ ∀ r,
    ∃ i < 2 * 2, hi 1 < addCubic2 2 2 lo hi true r i 1 := by
  refine ⟨fun _ => 0, ![1, 1 / 2], by intro k; fin_cases k <;> norm_num, fun r => ⟨2, by norm_num, ?_⟩⟩
  have := fill_site (N0 := 2) (N1 := 2) (N2 := 1) (ii := 0) (jj := 1) (kk := 0) (by norm_num) (by norm_num)
    (by norm_num) (fun ii jj _ => cubicSite (fun _ => 0)
      (cubicSpacing true ![2, 2] 0 (fun _ => 0) ![1, 1 / 2]) ![ii, jj]) r
  norm_num at this
  rw [addCubic2, this]
  norm_num [cubicSite, cubicSpacing]

/-- **Hexagonal lattice in the plane**: no two particles are nearer than `2 rad = (hi 0 - lo 0)/N0`, whatever
the numbers of sites; with an even number of rows, neither are the images in the periodic box of the lattice;
and neighbours in a row and of successive rows touch. -/
theorem C66_hex2 (N0 N1 : ℕ) (lo hi : Vec 2 ℝ) (r : ℕ → Vec 2 ℝ) :
    let rad := (hi 0 - lo 0) / (2 * N0)
    let a := addHex2 N0 N1 lo hi true r
    Apart (N0 * N1) a ((hi 0 - lo 0) / N0) ∧
    (Even N1 → ApartPeriodic (N0 * N1) a ![N0 * (2 * rad), N1 * (sqrt 3 * rad)] (2 * rad)) ∧
    (∀ ii jj, ii + 1 < N0 → jj < N1 → gapSq (a (jj * N0 + ii)) (a (jj * N0 + (ii + 1))) = (2 * rad) ^ 2) ∧
    ∀ ii jj, ii < N0 → jj + 1 < N1 → gapSq (a (jj * N0 + ii)) (a ((jj + 1) * N0 + ii)) = (2 * rad) ^ 2 := by
  have e : ∀ ii jj, jj * N0 + ii = 0 * N0 * N1 + jj * N0 + ii := fun ii jj => by ring
  refine ⟨hex2_apart N0 N1 lo hi r, fun h => hex2_periodic N0 N1 h lo hi r _ rfl, ?_, ?_⟩
  · intro ii jj h0 h1
    rw [e ii, e (ii + 1), hex2_site N0 N1 ii jj lo hi r (by omega) h1,
      hex2_site N0 N1 (ii + 1) jj lo hi r h0 h1, hexPt2_gap]
    push_cast; ring
  · intro ii jj h0 h1
    rw [e ii jj, e ii (jj + 1), hex2_site N0 N1 ii jj lo hi r h0 (by omega),
      hex2_site N0 N1 ii (jj + 1) lo hi r h0 h1, hexPt2_gap]
    have : ((2 * (ii : ℤ) + (jj : ℤ) % 2) - (2 * (ii : ℤ) + ((jj + 1 : ℕ) : ℤ) % 2)) ^ 2 = 1 := by
      rcases Int.emod_two_eq_zero_or_one (jj : ℤ) with h | h
      · have h' : ((jj + 1 : ℕ) : ℤ) % 2 = 1 := by omega
        rw [h, h']; ring
      · have h' : ((jj + 1 : ℕ) : ℤ) % 2 = 0 := by omega
        rw [h, h']; ring
    rw [this]; push_cast; ring

example : Apart (3 * 4) (addHex2 3 4 (fun _ => 0) (fun _ => 6) true (fun _ _ => 7)) ((6 - 0) / (3 : ℕ)) :=
  (C66_hex2 3 4 (fun _ => 0) (fun _ => 6) (fun _ _ => 7)).1

/-- **Hexagonal close packing in space**: no two particles are nearer than `2 rad = (hi 0 - lo 0)/N0`; with
even numbers of rows and layers, neither are the images in the periodic box of the lattice; and neighbours
in a row, of successive rows and of successive layers touch. -/
theorem C66_hex3 (N0 N1 N2 : ℕ) (lo hi : Vec 3 ℝ) (r : ℕ → Vec 3 ℝ) :
    let rad := (hi 0 - lo 0) / (2 * N0)
    let a := addHex3 N0 N1 N2 lo hi true r
    Apart (N0 * N1 * N2) a ((hi 0 - lo 0) / N0) ∧
    (Even N1 → Even N2 → ApartPeriodic (N0 * N1 * N2) a
      ![N0 * (2 * rad), N1 * (sqrt 3 * rad), N2 * (2 * sqrt 6 / 3 * rad)] (2 * rad)) ∧
    (∀ ii jj kk, ii + 1 < N0 → jj < N1 → kk < N2 →
      gapSq (a (kk * N0 * N1 + jj * N0 + ii)) (a (kk * N0 * N1 + jj * N0 + (ii + 1))) = (2 * rad) ^ 2) ∧
    (∀ ii jj kk, ii < N0 → jj + 1 < N1 → kk < N2 →
      gapSq (a (kk * N0 * N1 + jj * N0 + ii)) (a (kk * N0 * N1 + (jj + 1) * N0 + ii)) = (2 * rad) ^ 2) ∧
    ∀ ii jj kk, ii < N0 → jj < N1 → kk + 1 < N2 →
      gapSq (a (kk * N0 * N1 + jj * N0 + ii)) (a ((kk + 1) * N0 * N1 + jj * N0 + ii)) = (2 * rad) ^ 2 := by
  refine ⟨hex3_apart N0 N1 N2 lo hi r, fun h h' => hex3_periodic N0 N1 N2 h h' lo hi r _ rfl, ?_, ?_, ?_⟩
  · intro ii jj kk h0 h1 h2
    rw [hex3_site N0 N1 N2 ii jj kk lo hi r (by omega) h1 h2,
      hex3_site N0 N1 N2 (ii + 1) jj kk lo hi r h0 h1 h2, hexPt3_gap]
    have : packSq ii jj kk ((ii + 1 : ℕ) : ℤ) jj kk = 12 := by unfold packSq; push_cast; ring
    rw [this]; push_cast; ring
  · intro ii jj kk h0 h1 h2
    rw [hex3_site N0 N1 N2 ii jj kk lo hi r h0 (by omega) h2,
      hex3_site N0 N1 N2 ii (jj + 1) kk lo hi r h0 h1 h2, hexPt3_gap]
    have : packSq ii jj kk ii ((jj + 1 : ℕ) : ℤ) kk = 12 := by
      unfold packSq
      rcases Int.emod_two_eq_zero_or_one (jj : ℤ) with h | h
      · have h' : ((jj + 1 : ℕ) : ℤ) % 2 = 1 := by omega
        rw [h, h']; push_cast; ring
      · have h' : ((jj + 1 : ℕ) : ℤ) % 2 = 0 := by omega
        rw [h, h']; push_cast; ring
    rw [this]; push_cast; ring
  · intro ii jj kk h0 h1 h2
    rw [hex3_site N0 N1 N2 ii jj kk lo hi r h0 h1 (by omega),
      hex3_site N0 N1 N2 ii jj (kk + 1) lo hi r h0 h1 h2, hexPt3_gap]
    have : packSq ii jj kk ii jj ((kk + 1 : ℕ) : ℤ) = 12 := by
      unfold packSq
      rcases Int.emod_two_eq_zero_or_one (kk : ℤ) with h | h
      · have h' : ((kk + 1 : ℕ) : ℤ) % 2 = 1 := by omega
        have h1 : ((kk : ℤ) + 1) % 2 = 1 := by omega
        have h2 : (((kk + 1 : ℕ) : ℤ) + 1) % 2 = 0 := by omega
        rw [h, h', h1, h2]; push_cast; ring
      · have h' : ((kk + 1 : ℕ) : ℤ) % 2 = 0 := by omega
        have h1 : ((kk : ℤ) + 1) % 2 = 0 := by omega
        have h2 : (((kk + 1 : ℕ) : ℤ) + 1) % 2 = 1 := by omega
        rw [h, h', h1, h2]; push_cast; ring
    rw [this]; push_cast; ring

example : Apart (3 * 4 * 2) (addHex3 3 4 2 (fun _ => 0) (fun _ => 6) true (fun _ _ => 7)) ((6 - 0) / (3 : ℕ)) :=
  (C66_hex3 3 4 2 (fun _ => 0) (fun _ => 6) (fun _ _ => 7)).1

/-- With an odd number of rows the periodic lattice does not close: a particle of the last row and the image
of one of the first are only `√3 rad` apart. -/
theorem C66_hex_odd_fails (N0 N1 : ℕ) (h0 : 0 < N0) (h1 : Odd N1) (lo hi : Vec 2 ℝ) (hb : lo 0 < hi 0)
    (r : ℕ → Vec 2 ℝ) :
    let rad := (hi 0 - lo 0) / (2 * N0)
    ¬ ApartPeriodic (N0 * N1) (addHex2 N0 N1 lo hi true r) ![N0 * (2 * rad), N1 * (sqrt 3 * rad)] (2 * rad) := by
  intro rad h
  obtain ⟨m, hm⟩ := h1
  have hp : 0 < rad := div_pos (by linarith) (by positivity)
  have i1 := (index_split (N0 := N0) (N1 := N1) (N2 := 1) (ii := 0) (jj := N1 - 1) (kk := 0) h0 (by omega)
    one_pos).1
  have i2 := (index_split (N0 := N0) (N1 := N1) (N2 := 1) (ii := 0) (jj := 0) (kk := 0) h0 (by omega)
    one_pos).1
  rw [Nat.mul_one] at i1 i2
  have := h _ _ ![0, 1] i1 i2 (Or.inr (fun e => by have := congrFun e 1; simp at this))
  rw [hex2_site N0 N1 0 (N1 - 1) lo hi r h0 (by omega), hex2_site N0 N1 0 0 lo hi r h0 (by omega)] at this
  have e1 : ((N1 - 1 : ℕ) : ℤ) % 2 = 0 := by omega
  have e2 : ((N1 - 1 : ℕ) : ℝ) = N1 - 1 := by
    rw [Nat.cast_sub (by omega)]; simp
  unfold gapSq hexPt2 at this
  rw [Fin.sum_univ_two] at this
  simp only [Matrix.cons_val_zero, Matrix.cons_val_one, e1] at this
  push_cast at this
  rw [e2] at this
  have h3 : sqrt 3 ^ 2 = 3 := Real.sq_sqrt (by norm_num)
  change (2 * rad) ^ 2 ≤ _ at this
  rw [show (hi 0 - lo 0) / (2 * (N0 : ℝ)) = rad from rfl] at this
  have hz : (((0 : ℤ) % 2 : ℤ) : ℝ) = 0 := by norm_num
  norm_num at this
  nlinarith [pow_pos hp 2]

example : ∃ (N1 : ℕ) (lo hi : Vec 2 ℝ), Odd N1 ∧ lo 0 < hi 0 :=
  ⟨3, fun _ => 0, fun _ => 1, ⟨1, by norm_num⟩, by norm_num⟩

/-- In three dimensions the last particle of the second row of the first layer lies outside of the box, by
half the radius, for every number of sites with at least two rows. -/
theorem C66_hex_outside_fails (N0 N1 N2 : ℕ) (h0 : 0 < N0) (h1 : 2 ≤ N1) (h2 : 0 < N2) (lo hi : Vec 3 ℝ)
    (hb : lo 0 < hi 0) (r : ℕ → Vec 3 ℝ) :
    ∃ i < N0 * N1 * N2, addHex3 N0 N1 N2 lo hi true r i 0 = hi 0 + 1 / 2 * ((hi 0 - lo 0) / (2 * N0)) ∧
      hi 0 < addHex3 N0 N1 N2 lo hi true r i 0 := by
  have hp : 0 < (hi 0 - lo 0) / (2 * (N0 : ℝ)) := div_pos (by linarith) (by positivity)
  have key : addHex3 N0 N1 N2 lo hi true r (0 * N0 * N1 + 1 * N0 + (N0 - 1)) 0 =
      hi 0 + 1 / 2 * ((hi 0 - lo 0) / (2 * N0)) := by
    rw [hex3_site N0 N1 N2 (N0 - 1) 1 0 lo hi r (by omega) (by omega) h2]
    have e2 : ((N0 - 1 : ℕ) : ℝ) = N0 - 1 := by rw [Nat.cast_sub (by omega)]; simp
    have hN : (N0 : ℝ) ≠ 0 := by exact_mod_cast h0.ne'
    unfold hexPt3
    simp only [Matrix.cons_val_zero, Int.cast_natCast, e2]
    norm_num
    field_simp
    ring
  refine ⟨0 * N0 * N1 + 1 * N0 + (N0 - 1), (index_split (by omega) (by omega) h2).1, key, ?_⟩
  rw [key]; linarith

example : ∃ (N0 N1 N2 : ℕ) (lo hi : Vec 3 ℝ), 0 < N0 ∧ 2 ≤ N1 ∧ 0 < N2 ∧ lo 0 < hi 0 :=
  ⟨10, 10, 10, fun _ => 0, fun _ => 1, by norm_num, by norm_num, by norm_num, by norm_num⟩

/-! ### spheres -/

/-- **Cutting out a sphere.** When the bisection has ended with the array `a` of `m` particles, there is a
radius `R` inside of the box such that `a` holds exactly the particles within `R` of the centre, each once and
in their order, divided by `R`; they are at most as many as wanted; and if they are fewer, then a radius
larger by a relative `1e-8` at most holds too many, or reaches the edge of the box. -/
theorem C66_cut {n : ℕ} (fuel : ℕ) (big : ℝ) (hbig : 0 < big) (Ns N : ℕ) (lo hi : Vec n ℝ)
    (hb : ∀ k, lo k < hi k) (r a : ℕ → Vec n ℝ) (m : ℕ)
    (h : cutSphere fuel big Ns N lo hi r = some (a, m)) :
    let c : Vec n ℝ := fun k => (lo k + hi k) / 2
    ∃ R > 0, (∀ k, R ≤ (hi k - lo k) / 2) ∧ m = (within N r c R).card ∧ m ≤ Ns ∧
      (∃ src : ℕ → ℕ, (∀ i j, i < j → j < m → src i < src j) ∧
        ∀ i < m, src i ∈ within N r c R ∧ ∀ k, a i k = r (src i) k / R) ∧
      (m = Ns ∨ ∃ R', R ≤ R' ∧ R' ≤ R * (1 + 1 / 100000000) ∧
        (Ns < (within N r c R').card ∨ R' = rHigh big lo hi)) := by
  intro c
  have ec : centre lo hi = c := by funext k; unfold centre; show _ = (lo k + hi k) / 2; ring
  unfold cutSphere at h
  rw [ec, Option.map_eq_some_iff] at h
  obtain ⟨R, hR, hc⟩ := h
  obtain ⟨h1, h2, h3, h4⟩ := bisect_sound c r N Ns fuel 0 _ _ R le_rfl (rHigh_pos big hbig lo hi hb) le_rfl
    (Or.inr rfl) hR
  have hm : m = (within N r c R).card := by
    have := compact_card c N R r; rw [hc] at this; exact this
  refine ⟨R, h1, fun k => ?_, hm, by omega, ?_, by rw [hm]; exact h4⟩
  · have := rHigh_le big lo hi k; linarith
  · obtain ⟨src, p, q⟩ := compact_src c N R r
    rw [hc] at p q
    exact ⟨src, p, fun i hi => ⟨(q i hi).1, fun k => congrFun (q i hi).2 k⟩⟩

/-- The bisection ends, exactly unless there are more particles at the very centre than wanted. -/
theorem C66_cut_terminates {n : ℕ} (big : ℝ) (hbig : 0 < big) (Ns N : ℕ) (lo hi : Vec n ℝ)
    (hb : ∀ k, lo k < hi k) (r : ℕ → Vec n ℝ) :
    (∃ fuel s, cutSphere fuel big Ns N lo hi r = some s) ↔
      (within N r (fun k => (lo k + hi k) / 2) 0).card ≤ Ns := by
  have ec : centre lo hi = fun k => (lo k + hi k) / 2 := by funext k; unfold centre; ring
  have hp := rHigh_pos big hbig lo hi hb
  unfold cutSphere
  rw [ec]
  constructor
  · rintro ⟨fuel, s, h⟩
    by_contra hc
    rw [bisect_never _ r N Ns fuel 0 _ le_rfl hp.le (by omega)] at h
    simp at h
  · intro h
    obtain ⟨fuel, R, hR⟩ := bisect_ends _ r N Ns _ hp h
    exact ⟨fuel, _, by rw [hR]; rfl⟩

/-- one particle off the centre and one wanted -/
example : ∃ fuel s, cutSphere fuel 1000 1 1 (fun _ : Fin 2 => (-2 : ℝ)) (fun _ => 2) (fun _ _ => 1) = some s := by
  rw [C66_cut_terminates 1000 (by norm_num) 1 1 _ _ (by intro k; norm_num)]
  exact (Finset.card_le_card (fun i hi => Finset.mem_range.2 (mem_within.1 hi).1)).trans (by simp)

/-- The result is not measured from the centre of the box: a particle kept from a box centred elsewhere is not
inside of the unit sphere. (The only caller has the centre 0.) -/
theorem C66_cut_centre_fails : ∃ (lo hi : Vec 1 ℝ) (r : ℕ → Vec 1 ℝ), (∀ k, lo k < hi k) ∧
    ∃ a : ℕ → Vec 1 ℝ, cutSphere 1 1000 1 1 lo hi r = some (a, 1) ∧ 1 < a 0 0 := by
  have w : within 1 (fun _ => (fun _ => 10 : Vec 1 ℝ)) (fun _ => 10) 1 = {0} := by
    ext i
    rw [mem_within, Finset.mem_singleton]
    unfold gapSq
    simp
  refine ⟨fun _ => 8, fun _ => 12, fun _ _ => 10, by intro k; norm_num,
    (compact (fun _ => 10) 1 1 (fun _ _ => 10)).1, ?_, ?_⟩
  · have ec : centre (fun _ : Fin 1 => (8 : ℝ)) (fun _ => 12) = fun _ => 10 := by
      funext k; unfold centre; norm_num
    have er : rHigh 1000 (fun _ : Fin 1 => (8 : ℝ)) (fun _ => 12) = 2 := by
      unfold rHigh; simp [List.finRange_succ]; norm_num
    unfold cutSphere
    rw [ec, er, bisect_succ]
    norm_num [w]
    have := compact_card (fun _ : Fin 1 => (10 : ℝ)) 1 1 (fun _ _ => 10)
    rw [w, Finset.card_singleton] at this
    exact Prod.ext rfl this
  · obtain ⟨src, -, q⟩ := compact_src (fun _ : Fin 1 => (10 : ℝ)) 1 1 (fun _ _ => 10)
    have hc := compact_card (fun _ : Fin 1 => (10 : ℝ)) 1 1 (fun _ _ => 10)
    rw [w, Finset.card_singleton] at hc
    rw [(q 0 (by omega)).2]
    norm_num

theorem lattice_apart2 (hex : Bool) (Nl : ℕ) (raux : ℕ → Vec 2 ℝ) :
    Apart (Nl * Nl) (sphereLattice2 hex Nl raux) (4 / Nl) := by
  unfold sphereLattice2
  cases hex
  · rw [if_neg (by simp)]
    have es : cubicSpacing true ![Nl, Nl] 0 (fun _ : Fin 2 => (-2 : ℝ)) (fun _ => 2) = fun _ => 4 / (Nl : ℝ) := by
      funext k; unfold cubicSpacing; norm_num
    exact apart_of_periodic (cubic2_apart Nl Nl _ _ true raux (4 / Nl) (by positivity) (fun k => by rw [es]))
  · rw [if_pos rfl]
    have := hex2_apart Nl Nl (fun _ => -2) (fun _ => 2) raux
    norm_num at this
    exact this

theorem lattice_apart3 (hex : Bool) (Nl : ℕ) (raux : ℕ → Vec 3 ℝ) :
    Apart (Nl * Nl * Nl) (sphereLattice3 hex Nl raux) (4 / Nl) := by
  unfold sphereLattice3
  cases hex
  · rw [if_neg (by simp)]
    have es : cubicSpacing true ![Nl, Nl, Nl] 0 (fun _ : Fin 3 => (-2 : ℝ)) (fun _ => 2) =
        fun _ => 4 / (Nl : ℝ) := by
      funext k; unfold cubicSpacing; norm_num
    exact apart_of_periodic (cubic3_apart Nl Nl Nl _ _ true raux (4 / Nl) (by positivity) (fun k => by rw [es]))
  · rw [if_pos rfl]
    have := hex3_apart Nl Nl Nl (fun _ => -2) (fun _ => 2) raux
    norm_num at this
    exact this

theorem sites_zero (ndim : ℕ) (h : 0 < ndim) : sites ndim 0 = 0 := by
  unfold sites
  rw [Nat.cast_zero, Real.zero_rpow (by positivity), mul_zero, Nat.floor_zero]

theorem centre_card {n : ℕ} (ndim N Npart : ℕ) (hn : 0 < ndim) (b : ℕ → Vec n ℝ)
    (hN : sites ndim Npart = 0 → N = 0) (h : Apart N b (4 / (sites ndim Npart : ℕ))) (c : Vec n ℝ) :
    (within N b c 0).card ≤ Npart := by
  rcases Nat.eq_zero_or_pos (sites ndim Npart) with h0 | h0
  · have : (within N b c 0) = ∅ := by
      ext i; rw [mem_within, hN h0]; simp
    rw [this]; simp
  · have hp : 0 < Npart := by
      rcases Nat.eq_zero_or_pos Npart with h1 | h1
      · rw [h1, sites_zero ndim hn] at h0; omega
      · exact h1
    have := within_zero_card N b c (4 / (sites ndim Npart : ℕ))
      (div_pos (by norm_num) (by exact_mod_cast h0)) h
    omega

/-- **Sphere of lattice particles in space.** `AddLatticeSphere` returns for every number of particles,
lattice, centre, radius and angles; the particles it returns are at most as many as asked for, all lie within
the radius of the centre, and any two are at least `2 radius / Nlattice` apart. -/
theorem C66_sphere3 (big : ℝ) (hbig : 0 < big) (hex : Bool) (Npart : ℕ) (rc : Vec 3 ℝ) (radius : ℝ)
    (phi theta psi : ℝ) (raux : ℕ → Vec 3 ℝ) :
    (∃ fuel s, latticeSphere3 fuel big hex Npart rc radius phi theta psi raux = some s) ∧
    ∀ fuel a m, latticeSphere3 fuel big hex Npart rc radius phi theta psi raux = some (a, m) →
      m ≤ Npart ∧ (∀ i < m, gapSq (a i) rc ≤ radius ^ 2) ∧
      Apart m a (2 * radius / (sites 3 Npart : ℕ)) := by
  set Nl := sites 3 Npart with hNl
  have hap := lattice_apart3 hex Nl raux
  set b := sphereLattice3 hex Nl raux with hbdef
  have ec : (fun _ : Fin 3 => ((-2 : ℝ) + 2) / 2) = fun _ => 0 := by funext k; norm_num
  constructor
  · have := (C66_cut_terminates big hbig Npart (Nl * Nl * Nl) (fun _ : Fin 3 => (-2 : ℝ)) (fun _ => 2)
      (by intro k; norm_num) b).2 (centre_card 3 _ Npart (by norm_num) b
        (fun h => by rw [hNl, h]) hap _)
    obtain ⟨fuel, s, hs⟩ := this
    exact ⟨fuel, _, by unfold latticeSphere3; rw [← hNl, ← hbdef, hs]; rfl⟩
  · intro fuel a m h
    unfold latticeSphere3 at h
    rw [← hNl, ← hbdef, Option.map_eq_some_iff] at h
    obtain ⟨⟨a', m'⟩, h1, h2⟩ := h
    rw [Prod.mk.injEq] at h2
    obtain ⟨ha, rfl⟩ := h2
    obtain ⟨R, hR, hle, -, hm, ⟨src, hs1, hs2⟩, -⟩ := C66_cut fuel big hbig Npart _ _ _
      (by intro k; norm_num) b a' m' h1
    have hR2 : R ≤ 2 := by have := hle 0; norm_num at this; exact this
    have ha' : ∀ i < m', a' i = fun k => b (src i) k / R := fun i hi => funext fun k => (hs2 i hi).2 k
    refine ⟨hm, fun i hi => ?_, fun i j hi hj hij => ?_⟩
    · have hw := (mem_within.1 (hs2 i hi).1).2
      rw [ec] at hw
      rw [← ha]
      simp only
      rw [gapSq_scaled_centre, ← rotate_zero phi theta psi, gapSq_rotate, ha' i hi]
      have e0 : (fun _ : Fin 3 => (0 : ℝ)) = fun k => (fun _ : Fin 3 => (0 : ℝ)) k / R := by funext k; simp
      rw [e0, gapSq_div R hR.ne']
      have : gapSq (b (src i)) (fun _ => 0) / R ^ 2 ≤ 1 := by
        rw [div_le_one (by positivity)]; exact hw
      nlinarith [sq_nonneg radius]
    · have hne : src i ≠ src j := by
        rcases lt_or_gt_of_ne hij with h | h
        · exact (hs1 i j h hj).ne
        · exact (hs1 j i h hi).ne'
      have hg := hap (src i) (src j) (mem_within.1 (hs2 i hi).1).1 (mem_within.1 (hs2 j hj).1).1 hne
      rw [← ha]
      simp only
      rw [gapSq_scaled, gapSq_rotate, ha' i hi, ha' j hj, gapSq_div R hR.ne']
      have h4 : R ^ 2 ≤ 4 := by nlinarith
      have h5 : (4 / (Nl : ℝ)) ^ 2 / 4 ≤ gapSq (b (src i)) (b (src j)) / R ^ 2 :=
        div_le_div₀ (gapSq_nonneg _ _) hg (by positivity) h4
      have h6 : (2 * radius / (Nl : ℝ)) ^ 2 = radius ^ 2 * ((4 / (Nl : ℝ)) ^ 2 / 4) := by ring
      rw [h6]
      exact mul_le_mul_of_nonneg_left h5 (sq_nonneg _)

/-- the same in the plane -/
theorem C66_sphere2 (big : ℝ) (hbig : 0 < big) (hex : Bool) (Npart : ℕ) (rc : Vec 2 ℝ) (radius : ℝ)
    (theta : ℝ) (raux : ℕ → Vec 2 ℝ) :
    (∃ fuel s, latticeSphere2 fuel big hex Npart rc radius theta raux = some s) ∧
    ∀ fuel a m, latticeSphere2 fuel big hex Npart rc radius theta raux = some (a, m) →
      m ≤ Npart ∧ (∀ i < m, gapSq (a i) rc ≤ radius ^ 2) ∧
      Apart m a (2 * radius / (sites 2 Npart : ℕ)) := by
  set Nl := sites 2 Npart with hNl
  have hap := lattice_apart2 hex Nl raux
  set b := sphereLattice2 hex Nl raux with hbdef
  have ec : (fun _ : Fin 2 => ((-2 : ℝ) + 2) / 2) = fun _ => 0 := by funext k; norm_num
  constructor
  · have := (C66_cut_terminates big hbig Npart (Nl * Nl) (fun _ : Fin 2 => (-2 : ℝ)) (fun _ => 2)
      (by intro k; norm_num) b).2 (centre_card 2 _ Npart (by norm_num) b
        (fun h => by rw [hNl, h]) hap _)
    obtain ⟨fuel, s, hs⟩ := this
    exact ⟨fuel, _, by unfold latticeSphere2; rw [← hNl, ← hbdef, hs]; rfl⟩
  · intro fuel a m h
    unfold latticeSphere2 at h
    rw [← hNl, ← hbdef, Option.map_eq_some_iff] at h
    obtain ⟨⟨a', m'⟩, h1, h2⟩ := h
    rw [Prod.mk.injEq] at h2
    obtain ⟨ha, rfl⟩ := h2
    obtain ⟨R, hR, hle, -, hm, ⟨src, hs1, hs2⟩, -⟩ := C66_cut fuel big hbig Npart _ _ _
      (by intro k; norm_num) b a' m' h1
    have hR2 : R ≤ 2 := by have := hle 0; norm_num at this; exact this
    have ha' : ∀ i < m', a' i = fun k => b (src i) k / R := fun i hi => funext fun k => (hs2 i hi).2 k
    refine ⟨hm, fun i hi => ?_, fun i j hi hj hij => ?_⟩
    · have hw := (mem_within.1 (hs2 i hi).1).2
      rw [ec] at hw
      rw [← ha]
      simp only
      rw [gapSq_scaled_centre, ← turn_zero theta, gapSq_turn, ha' i hi]
      have e0 : (fun _ : Fin 2 => (0 : ℝ)) = fun k => (fun _ : Fin 2 => (0 : ℝ)) k / R := by funext k; simp
      rw [e0, gapSq_div R hR.ne']
      have : gapSq (b (src i)) (fun _ => 0) / R ^ 2 ≤ 1 := by
        rw [div_le_one (by positivity)]; exact hw
      nlinarith [sq_nonneg radius]
    · have hne : src i ≠ src j := by
        rcases lt_or_gt_of_ne hij with h | h
        · exact (hs1 i j h hj).ne
        · exact (hs1 j i h hi).ne'
      have hg := hap (src i) (src j) (mem_within.1 (hs2 i hi).1).1 (mem_within.1 (hs2 j hj).1).1 hne
      rw [← ha]
      simp only
      rw [gapSq_scaled, gapSq_turn, ha' i hi, ha' j hj, gapSq_div R hR.ne']
      have h4 : R ^ 2 ≤ 4 := by nlinarith
      have h5 : (4 / (Nl : ℝ)) ^ 2 / 4 ≤ gapSq (b (src i)) (b (src j)) / R ^ 2 :=
        div_le_div₀ (gapSq_nonneg _ _) hg (by positivity) h4
      have h6 : (2 * radius / (Nl : ℝ)) ^ 2 = radius ^ 2 * ((4 / (Nl : ℝ)) ^ 2 / 4) := by ring
      rw [h6]
      exact mul_le_mul_of_nonneg_left h5 (sq_nonneg _)

/-- 100 particles about (1,2,3) -/
example : ∃ fuel s, latticeSphere3 fuel 1000 true 100 ![1, 2, 3] 5 1 2 3 (fun _ _ => 0) = some s :=
  (C66_sphere3 1000 (by norm_num) true 100 ![1, 2, 3] 5 1 2 3 (fun _ _ => 0)).1

/-! ### random positions -/

/-- **Random box**: inside of the box for random numbers between 0 and 1. -/
theorem C66_random_box {n : ℕ} (lo hi : Vec n ℝ) (hb : ∀ k, lo k < hi k) (u : ℕ → Vec n ℝ)
    (hu : ∀ i k, 0 ≤ u i k ∧ u i k < 1) (i : ℕ) (k : Fin n) :
    lo k ≤ randomBox lo hi u i k ∧ randomBox lo hi u i k < hi k := by
  have h1 := hu i k
  have h2 := hb k
  unfold randomBox
  constructor
  · have := mul_nonneg (by linarith : 0 ≤ hi k - lo k) h1.1
    linarith
  · nlinarith

example : ∃ (u : ℕ → Vec 2 ℝ), ∀ i k, 0 ≤ u i k ∧ u i k < 1 := ⟨fun _ _ => 1 / 2, fun _ _ => by norm_num⟩

/-- **Random sphere**: within the radius of the centre; the loop ends exactly if the sequence of random
vectors has one in the unit sphere. -/
theorem C66_random_sphere {n : ℕ} (rc : Vec n ℝ) (radius : ℝ) (u : ℕ → Vec n ℝ) :
    (∀ fuel x, randomSphere fuel rc radius u = some x → gapSq x rc ≤ radius ^ 2) ∧
    ((∃ j, ∑ k, (1 - 2 * u j k) ^ 2 ≤ 1) ↔ ∃ fuel x, randomSphere fuel rc radius u = some x) := by
  have hd : ∀ j, dot (fun k => 1 - 2 * u j k) (fun k => 1 - 2 * u j k) = ∑ k, (1 - 2 * u j k) ^ 2 := by
    intro j; unfold dot; exact Finset.sum_congr rfl fun k _ => by ring
  have key : ∀ fuel j x, reject u fuel j = some x →
      (∃ i, ∑ k, (1 - 2 * u i k) ^ 2 ≤ 1) ∧ dot x x ≤ 1 := by
    intro fuel
    induction fuel with
    | zero => intro j x h; simp [reject] at h
    | succ fuel ih =>
      intro j x h
      rw [reject] at h
      by_cases hc : dot (fun k => 1 - 2 * u j k) (fun k => 1 - 2 * u j k) > 1
      · rw [if_pos hc] at h; exact ih _ _ h
      · rw [if_neg hc, Option.some.injEq] at h
        subst h
        exact ⟨⟨j, by rw [← hd]; exact not_lt.1 hc⟩, not_lt.1 hc⟩
  constructor
  · intro fuel x h
    unfold randomSphere at h
    rw [Option.map_eq_some_iff] at h
    obtain ⟨y, hy, rfl⟩ := h
    rw [gapSq_scaled_centre, gapSq_zero]
    have := (key fuel 0 y hy).2
    nlinarith [sq_nonneg radius]
  · constructor
    · rintro ⟨j, hj⟩
      have : ∀ m i, i + m = j → ∃ fuel y, reject u fuel i = some y := by
        intro m
        induction m with
        | zero =>
          intro i hi
          refine ⟨1, fun k => 1 - 2 * u i k, ?_⟩
          rw [reject, if_neg]
          rw [hd, show i = j by omega]
          exact not_lt.2 hj
        | succ m ih =>
          intro i hi
          obtain ⟨fuel, y, h⟩ := ih (i + 1) (by omega)
          by_cases hc : dot (fun k => 1 - 2 * u i k) (fun k => 1 - 2 * u i k) > 1
          · exact ⟨fuel + 1, y, by rw [reject, if_pos hc, h]⟩
          · exact ⟨fuel + 1, _, by rw [reject, if_neg hc]⟩
      obtain ⟨fuel, y, h⟩ := this j 0 (by omega)
      exact ⟨fuel, _, by unfold randomSphere; rw [h]; rfl⟩
    · rintro ⟨fuel, x, h⟩
      unfold randomSphere at h
      rw [Option.map_eq_some_iff] at h
      obtain ⟨y, hy, -⟩ := h
      exact (key fuel 0 y hy).1

/-- **Sphere of density `1/r^2`**, as far as it is right: the distance from the origin is the radius times
the random number, so that the mass within `r` grows as `r`, and the directions are unit vectors. (The centre
asked for is not used: `C66_r2_fails`.) -/
theorem C66_r2_partial (rc : Vec 3 ℝ) (radius u1 u2 u3 : ℝ) (h : 0 ≤ u2 ∧ u2 ≤ 1) :
    gapSq (r2Sphere rc radius u1 u2 u3) (fun _ => 0) = (radius * u3) ^ 2 := by
  unfold r2Sphere gapSq
  rw [Fin.sum_univ_three]
  simp only [Matrix.cons_val_zero, Matrix.cons_val_one, Matrix.cons_val, Real.sin_arccos]
  have hs : sqrt (1 - (2 * u2 - 1) ^ 2) ^ 2 = 1 - (2 * u2 - 1) ^ 2 := Real.sq_sqrt (by nlinarith)
  have hc := sin_sq_add_cos_sq (2 * π * u1)
  linear_combination (radius * u3) ^ 2 * sqrt (1 - (2 * u2 - 1) ^ 2) ^ 2 * hc + (radius * u3) ^ 2 * hs

example : ∃ u2 : ℝ, 0 ≤ u2 ∧ u2 ≤ 1 := ⟨1 / 3, by norm_num⟩

/-- The sphere is about the origin whatever the centre: particles of a sphere asked for at distance from the
origin beyond twice its radius are all outside of it. -/
theorem C66_r2_fails : ∃ (rc : Vec 3 ℝ) (radius : ℝ), 0 < radius ∧ ∀ u1 u2 u3 : ℝ, 0 ≤ u2 → u2 ≤ 1 →
    0 ≤ u3 → u3 ≤ 1 → radius ^ 2 < gapSq (r2Sphere rc radius u1 u2 u3) rc := by
  refine ⟨![0, 0, 3], 1, one_pos, fun u1 u2 u3 h1 h2 h3 h4 => ?_⟩
  have hz : (r2Sphere ![0, 0, 3] 1 u1 u2 u3 2 - 3) ^ 2 ≤ gapSq (r2Sphere ![0, 0, 3] 1 u1 u2 u3) ![0, 0, 3] :=
    Finset.single_le_sum (f := fun k => (r2Sphere ![0, 0, 3] 1 u1 u2 u3 k - ![0, 0, 3] k) ^ 2)
      (fun _ _ => sq_nonneg _) (Finset.mem_univ 2)
  have hv : r2Sphere ![0, 0, 3] 1 u1 u2 u3 2 = 1 * u3 * (2 * u2 - 1) := by simp [r2Sphere]
  rw [hv] at hz
  have : 1 * u3 * (2 * u2 - 1) ≤ 1 := by nlinarith
  nlinarith

end Gandalf
