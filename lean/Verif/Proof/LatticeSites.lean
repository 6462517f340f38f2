import Verif.Proof.LatticeCut

/-! Separations of the sites of lattices and spheres. -/

set_option autoImplicit false
set_option linter.unusedSectionVars false

namespace Gandalf.Lattice

open Real LatticeSpec

variable {n : ℕ}

theorem wrap_eq {x x' N : ℕ} {s : ℤ} (hx : x < N) (hx' : x' < N) (h : (x : ℤ) = x' + N * s) :
    s = 0 ∧ x = x' := by
  have hs : s = 0 := by
    rcases lt_trichotomy s 0 with h1 | h1 | h1
    · have : (N : ℤ) * s ≤ N * (-1) := mul_le_mul_of_nonneg_left (by omega) (by omega)
      omega
    · exact h1
    · have : (N : ℤ) * 1 ≤ N * s := mul_le_mul_of_nonneg_left (by omega) (by omega)
      omega
  subst hs
  exact ⟨rfl, by omega⟩

theorem apart_of_sites3 {N0 N1 N2 : ℕ} (a : ℕ → Vec 3 ℝ) (L : Vec 3 ℝ) (d : ℝ)
    (pt : ℤ → ℤ → ℤ → Vec 3 ℝ)
    (ha : ∀ ii jj kk : ℕ, ii < N0 → jj < N1 → kk < N2 →
      a (kk * N0 * N1 + jj * N0 + ii) = pt ii jj kk)
    (hs : ∀ (ii jj kk : ℤ) (s : Fin 3 → ℤ), (fun k => pt ii jj kk k + s k * L k) =
      pt (ii + N0 * s 0) (jj + N1 * s 1) (kk + N2 * s 2))
    (hp : ∀ i j k i' j' k', (i, j, k) ≠ (i', j', k') → d ^ 2 ≤ gapSq (pt i j k) (pt i' j' k')) :
    ApartPeriodic (N0 * N1 * N2) a L d := by
  intro i j s hi hj hne
  obtain ⟨ii, jj, kk, h0, h1, h2, rfl⟩ := split_index hi
  obtain ⟨ii', jj', kk', h0', h1', h2', rfl⟩ := split_index hj
  rw [ha ii jj kk h0 h1 h2, ha ii' jj' kk' h0' h1' h2', hs]
  apply hp
  intro e
  rw [Prod.mk.injEq, Prod.mk.injEq] at e
  obtain ⟨a0, b0⟩ := wrap_eq h0 h0' e.1
  obtain ⟨a1, b1⟩ := wrap_eq h1 h1' e.2.1
  obtain ⟨a2, b2⟩ := wrap_eq h2 h2' e.2.2
  rcases hne with h | h
  · exact h (by rw [b0, b1, b2])
  · apply h
    funext k
    fin_cases k
    · exact a0
    · exact a1
    · exact a2

theorem apart_of_sites2 {N0 N1 : ℕ} (a : ℕ → Vec 2 ℝ) (L : Vec 2 ℝ) (d : ℝ) (pt : ℤ → ℤ → Vec 2 ℝ)
    (ha : ∀ ii jj : ℕ, ii < N0 → jj < N1 → a (0 * N0 * N1 + jj * N0 + ii) = pt ii jj)
    (hs : ∀ (ii jj : ℤ) (s : Fin 2 → ℤ), (fun k => pt ii jj k + s k * L k) =
      pt (ii + N0 * s 0) (jj + N1 * s 1))
    (hp : ∀ i j i' j', (i, j) ≠ (i', j') → d ^ 2 ≤ gapSq (pt i j) (pt i' j')) :
    ApartPeriodic (N0 * N1) a L d := by
  intro i j s hi hj hne
  rw [← Nat.mul_one (N0 * N1)] at hi hj
  obtain ⟨ii, jj, kk, h0, h1, h2, rfl⟩ := split_index hi
  obtain ⟨ii', jj', kk', h0', h1', h2', rfl⟩ := split_index hj
  obtain rfl : kk = 0 := by omega
  obtain rfl : kk' = 0 := by omega
  rw [ha ii jj h0 h1, ha ii' jj' h0' h1', hs]
  apply hp
  intro e
  rw [Prod.mk.injEq] at e
  obtain ⟨a0, b0⟩ := wrap_eq h0 h0' e.1
  obtain ⟨a1, b1⟩ := wrap_eq h1 h1' e.2
  rcases hne with h | h
  · exact h (by rw [b0, b1])
  · apply h
    funext k
    fin_cases k
    · exact a0
    · exact a1

theorem apart_of_sites1 {N0 : ℕ} (a : ℕ → Vec 1 ℝ) (L : Vec 1 ℝ) (d : ℝ) (pt : ℤ → Vec 1 ℝ)
    (ha : ∀ ii : ℕ, ii < N0 → a (0 * N0 * 1 + 0 * N0 + ii) = pt ii)
    (hs : ∀ (ii : ℤ) (s : Fin 1 → ℤ), (fun k => pt ii k + s k * L k) = pt (ii + N0 * s 0))
    (hp : ∀ i i', i ≠ i' → d ^ 2 ≤ gapSq (pt i) (pt i')) :
    ApartPeriodic N0 a L d := by
  intro i j s hi hj hne
  have hi' : i = 0 * N0 * 1 + 0 * N0 + i := by omega
  have hj' : j = 0 * N0 * 1 + 0 * N0 + j := by omega
  rw [hi', hj', ha i hi, ha j hj, hs]
  apply hp
  intro e
  obtain ⟨a0, b0⟩ := wrap_eq hi hj e
  rcases hne with h | h
  · exact h b0
  · apply h
    funext k
    fin_cases k
    exact a0

theorem apart_of_periodic {N : ℕ} {a : ℕ → Vec n ℝ} {L : Vec n ℝ} {d : ℝ}
    (h : ApartPeriodic N a L d) : Apart N a d := by
  intro i j hi hj hij
  have := h i j 0 hi hj (Or.inl hij)
  simpa using this

/-! ### cubic -/

/-- a site of the unbounded cubic lattice -/
noncomputable def cubicPt (lo s : Vec n ℝ) (z : Fin n → ℤ) : Vec n ℝ := fun k =>
  lo k + ((z k : ℝ) + 1 / 2) * s k

theorem cubicPt_apart (lo s : Vec n ℝ) (d : ℝ) (h0 : 0 ≤ d) (hd : ∀ k, d ≤ s k) (z z' : Fin n → ℤ)
    (h : z ≠ z') : d ^ 2 ≤ gapSq (cubicPt lo s z) (cubicPt lo s z') := by
  obtain ⟨k, hk⟩ := Function.ne_iff.1 h
  have h1 := sites_apart hk (s k)
  have h2 : (cubicPt lo s z k - cubicPt lo s z' k) ^ 2 ≤ gapSq (cubicPt lo s z) (cubicPt lo s z') :=
    Finset.single_le_sum (f := fun k => (cubicPt lo s z k - cubicPt lo s z' k) ^ 2)
      (fun _ _ => sq_nonneg _) (Finset.mem_univ k)
  have h3 : d ^ 2 ≤ s k ^ 2 := pow_le_pow_left₀ h0 (hd k) 2
  have e : cubicPt lo s z k - cubicPt lo s z' k =
      ((z k : ℝ) + 1 / 2) * s k - ((z' k : ℝ) + 1 / 2) * s k := by unfold cubicPt; ring
  rw [e] at h2
  linarith

theorem cubic3_apart (N0 N1 N2 : ℕ) (lo hi : Vec 3 ℝ) (norm : Bool) (r : ℕ → Vec 3 ℝ) (d : ℝ)
    (h0 : 0 ≤ d) (hd : ∀ k, d ≤ cubicSpacing norm ![N0, N1, N2] 0 lo hi k) :
    ApartPeriodic (N0 * N1 * N2) (addCubic3 N0 N1 N2 lo hi norm r)
      (fun k => (![N0, N1, N2] k : ℕ) * cubicSpacing norm ![N0, N1, N2] 0 lo hi k) d := by
  apply apart_of_sites3 _ _ _ (fun i j k => cubicPt lo (cubicSpacing norm ![N0, N1, N2] 0 lo hi) ![i, j, k])
  · intro ii jj kk h0 h1 h2
    rw [addCubic3, fill_site h0 h1 h2]
    funext k
    fin_cases k <;> simp [cubicSite, cubicPt]
  · intro ii jj kk s
    funext k
    fin_cases k <;> simp [cubicPt] <;> ring
  · intro i j k i' j' k' h
    apply cubicPt_apart lo _ d h0 hd
    intro e
    apply h
    have e0 := congrFun e 0
    have e1 := congrFun e 1
    have e2 := congrFun e 2
    simp at e0 e1 e2
    rw [e0, e1, e2]

theorem cubic2_apart (N0 N1 : ℕ) (lo hi : Vec 2 ℝ) (norm : Bool) (r : ℕ → Vec 2 ℝ) (d : ℝ)
    (h0 : 0 ≤ d) (hd : ∀ k, d ≤ cubicSpacing norm ![N0, N1] 0 lo hi k) :
    ApartPeriodic (N0 * N1) (addCubic2 N0 N1 lo hi norm r)
      (fun k => (![N0, N1] k : ℕ) * cubicSpacing norm ![N0, N1] 0 lo hi k) d := by
  apply apart_of_sites2 _ _ _ (fun i j => cubicPt lo (cubicSpacing norm ![N0, N1] 0 lo hi) ![i, j])
  · intro ii jj h0 h1
    rw [addCubic2, fill_site h0 h1 one_pos]
    funext k
    fin_cases k <;> simp [cubicSite, cubicPt]
  · intro ii jj s
    funext k
    fin_cases k <;> simp [cubicPt] <;> ring
  · intro i j i' j' h
    apply cubicPt_apart lo _ d h0 hd
    intro e
    apply h
    have e0 := congrFun e 0
    have e1 := congrFun e 1
    simp at e0 e1
    rw [e0, e1]

theorem cubic1_apart (N0 : ℕ) (lo hi : Vec 1 ℝ) (norm : Bool) (r : ℕ → Vec 1 ℝ) (d : ℝ)
    (h0 : 0 ≤ d) (hd : ∀ k, d ≤ cubicSpacing norm ![N0] 0 lo hi k) :
    ApartPeriodic N0 (addCubic1 N0 lo hi norm r)
      (fun k => (![N0] k : ℕ) * cubicSpacing norm ![N0] 0 lo hi k) d := by
  apply apart_of_sites1 _ _ _ (fun i => cubicPt lo (cubicSpacing norm ![N0] 0 lo hi) ![i])
  · intro ii h0
    rw [addCubic1, fill_site h0 one_pos one_pos]
    funext k
    fin_cases k
    simp [cubicSite, cubicPt]
  · intro ii s
    funext k
    fin_cases k
    simp [cubicPt]; ring
  · intro i i' h
    apply cubicPt_apart lo _ d h0 hd
    intro e
    apply h
    have e0 := congrFun e 0
    simpa using e0

theorem cubic3_tiles (N0 N1 N2 : ℕ) (lo hi : Vec 3 ℝ) (norm : Bool) (r : ℕ → Vec 3 ℝ)
    (hs : ∀ k, 0 < cubicSpacing norm ![N0, N1, N2] 0 lo hi k) :
    Tiles (N0 * N1 * N2) (addCubic3 N0 N1 N2 lo hi norm r) lo
      (fun k => lo k + (![N0, N1, N2] k : ℕ) * cubicSpacing norm ![N0, N1, N2] 0 lo hi k)
      (cubicSpacing norm ![N0, N1, N2] 0 lo hi) := by
  intro y hy
  have c0 := cell_unique (N := N0) (hs 0) rfl (hy 0).1 (hy 0).2
  have c1 := cell_unique (N := N1) (hs 1) rfl (hy 1).1 (hy 1).2
  have c2 := cell_unique (N := N2) (hs 2) rfl (hy 2).1 (hy 2).2
  obtain ⟨x0, l0, m0, u0⟩ := c0
  obtain ⟨x1, l1, m1, u1⟩ := c1
  obtain ⟨x2, l2, m2, u2⟩ := c2
  refine ⟨x2 * N0 * N1 + x1 * N0 + x0, ⟨(index_split l0 l1 l2).1, fun k => ?_⟩, ?_⟩
  · rw [addCubic3, fill_site l0 l1 l2]
    fin_cases k
    · exact m0
    · exact m1
    · exact m2
  · rintro i ⟨hi, hk⟩
    obtain ⟨ii, jj, kk, h0, h1, h2, rfl⟩ := split_index hi
    rw [addCubic3, fill_site h0 h1 h2] at hk
    rw [u0 ii (hk 0), u1 jj (hk 1), u2 kk (hk 2)]

theorem cubic2_tiles (N0 N1 : ℕ) (lo hi : Vec 2 ℝ) (norm : Bool) (r : ℕ → Vec 2 ℝ)
    (hs : ∀ k, 0 < cubicSpacing norm ![N0, N1] 0 lo hi k) :
    Tiles (N0 * N1) (addCubic2 N0 N1 lo hi norm r) lo
      (fun k => lo k + (![N0, N1] k : ℕ) * cubicSpacing norm ![N0, N1] 0 lo hi k)
      (cubicSpacing norm ![N0, N1] 0 lo hi) := by
  intro y hy
  have c0 := cell_unique (N := N0) (hs 0) rfl (hy 0).1 (hy 0).2
  have c1 := cell_unique (N := N1) (hs 1) rfl (hy 1).1 (hy 1).2
  obtain ⟨x0, l0, m0, u0⟩ := c0
  obtain ⟨x1, l1, m1, u1⟩ := c1
  refine ⟨0 * N0 * N1 + x1 * N0 + x0,
    ⟨by simpa using (index_split l0 l1 one_pos).1, fun k => ?_⟩, ?_⟩
  · rw [addCubic2, fill_site l0 l1 one_pos]
    fin_cases k
    · exact m0
    · exact m1
  · rintro i ⟨hi, hk⟩
    rw [← Nat.mul_one (N0 * N1)] at hi
    obtain ⟨ii, jj, kk, h0, h1, h2, rfl⟩ := split_index hi
    obtain rfl : kk = 0 := by omega
    rw [addCubic2, fill_site h0 h1 h2] at hk
    rw [u0 ii (hk 0), u1 jj (hk 1)]

theorem cubic1_tiles (N0 : ℕ) (lo hi : Vec 1 ℝ) (norm : Bool) (r : ℕ → Vec 1 ℝ)
    (hs : ∀ k, 0 < cubicSpacing norm ![N0] 0 lo hi k) :
    Tiles N0 (addCubic1 N0 lo hi norm r) lo
      (fun k => lo k + (![N0] k : ℕ) * cubicSpacing norm ![N0] 0 lo hi k)
      (cubicSpacing norm ![N0] 0 lo hi) := by
  intro y hy
  have c0 := cell_unique (N := N0) (hs 0) rfl (hy 0).1 (hy 0).2
  obtain ⟨x0, l0, m0, u0⟩ := c0
  have e : ∀ x, x = 0 * N0 * 1 + 0 * N0 + x := fun x => by omega
  refine ⟨x0, ⟨l0, fun k => ?_⟩, ?_⟩
  · rw [e x0, addCubic1, fill_site l0 one_pos one_pos]
    fin_cases k
    exact m0
  · rintro i ⟨hi, hk⟩
    rw [e i, addCubic1, fill_site hi one_pos one_pos] at hk
    exact u0 i (hk 0)

/-! ### close packing -/

theorem natMod2 (j : ℕ) : (((j % 2 : ℕ) : ℝ)) = (((j : ℤ) % 2 : ℤ) : ℝ) := by norm_cast

/-- sites of the unbounded hexagonal lattice with equal radii -/
noncomputable def hexPt2 (lo : Vec 2 ℝ) (R : ℝ) (i j : ℤ) : Vec 2 ℝ :=
  ![lo 0 + 1 / 2 * R + (2 * (i : ℝ) + ((j % 2 : ℤ) : ℝ)) * R,
    lo 1 + 1 / 2 * sqrt 3 * R + (j : ℝ) * sqrt 3 * R]

noncomputable def hexPt3 (lo : Vec 3 ℝ) (R : ℝ) (i j k : ℤ) : Vec 3 ℝ :=
  ![lo 0 + 1 / 2 * R + (2 * (i : ℝ) + ((j % 2 : ℤ) : ℝ) + (((k + 1) % 2 : ℤ) : ℝ)) * R,
    lo 1 + 1 / 2 * sqrt 3 * R + (j : ℝ) * sqrt 3 * R + ((k % 2 : ℤ) : ℝ) * R / sqrt 3,
    lo 2 + sqrt 6 * R / 3 + (k : ℝ) * 2 * sqrt 6 * R / 3]

theorem hexPt2_gap (lo : Vec 2 ℝ) (R : ℝ) (i j i' j' : ℤ) :
    gapSq (hexPt2 lo R i j) (hexPt2 lo R i' j') =
      R ^ 2 * ((((2 * i + j % 2) - (2 * i' + j' % 2)) ^ 2 + 3 * (j - j') ^ 2 : ℤ) : ℝ) := by
  unfold gapSq hexPt2
  rw [Fin.sum_univ_two]
  simp only [Matrix.cons_val_zero, Matrix.cons_val_one]
  have h3 : sqrt 3 ^ 2 = 3 := Real.sq_sqrt (by norm_num)
  push_cast
  linear_combination (((j : ℝ) - j') * R) ^ 2 * h3

theorem hexPt3_gap (lo : Vec 3 ℝ) (R : ℝ) (i j k i' j' k' : ℤ) :
    gapSq (hexPt3 lo R i j k) (hexPt3 lo R i' j' k') =
      R ^ 2 * (packSq i j k i' j' k' : ℝ) / 3 := by
  unfold gapSq hexPt3 packSq
  rw [Fin.sum_univ_three]
  simp only [Matrix.cons_val_zero, Matrix.cons_val_one, Matrix.cons_val]
  have h3 : sqrt 3 ^ 2 = 3 := Real.sq_sqrt (by norm_num)
  have h6 : sqrt 6 ^ 2 = 6 := Real.sq_sqrt (by norm_num)
  have hne : sqrt 3 ≠ 0 := by positivity
  push_cast
  generalize hj : (((k % 2 : ℤ) : ℝ)) = p
  generalize hj' : (((k' % 2 : ℤ) : ℝ)) = p'
  have e : ∀ q : ℝ, q * R / sqrt 3 = q * R * sqrt 3 / 3 := by
    intro q
    rw [div_eq_div_iff hne (by norm_num)]
    linear_combination (-q * R) * h3
  rw [e p, e p']
  linear_combination (((j : ℝ) - j' + (p - p') / 3) * R) ^ 2 * h3 +
    4 / 9 * (((k : ℝ) - k') * R) ^ 2 * h6

theorem hexPt2_apart (lo : Vec 2 ℝ) (R : ℝ) (i j i' j' : ℤ) (h : (i, j) ≠ (i', j')) :
    (2 * R) ^ 2 ≤ gapSq (hexPt2 lo R i j) (hexPt2 lo R i' j') := by
  rw [hexPt2_gap]
  have := pack2 i j i' j' h
  have : (4 : ℝ) ≤ ((((2 * i + j % 2) - (2 * i' + j' % 2)) ^ 2 + 3 * (j - j') ^ 2 : ℤ) : ℝ) := by
    exact_mod_cast this
  nlinarith [sq_nonneg R]

theorem hexPt3_apart (lo : Vec 3 ℝ) (R : ℝ) (i j k i' j' k' : ℤ) (h : (i, j, k) ≠ (i', j', k')) :
    (2 * R) ^ 2 ≤ gapSq (hexPt3 lo R i j k) (hexPt3 lo R i' j' k') := by
  rw [hexPt3_gap]
  have : (12 : ℝ) ≤ (packSq i j k i' j' k' : ℝ) := by exact_mod_cast pack3 i j k i' j' k' h
  nlinarith [sq_nonneg R]

theorem hexRad_true (N : Fin n → ℕ) (k0 : Fin n) (lo hi : Vec n ℝ) (k : Fin n) :
    hexRad true N k0 lo hi k = (hi k0 - lo k0) / (2 * N k0) := by
  unfold hexRad
  rw [if_pos rfl]
  rcases eq_or_ne (N k0 : ℝ) 0 with h | h
  · rw [h]; simp
  · field_simp

theorem hex2_site (N0 N1 ii jj : ℕ) (lo hi : Vec 2 ℝ) (r : ℕ → Vec 2 ℝ) (h0 : ii < N0) (h1 : jj < N1) :
    addHex2 N0 N1 lo hi true r (0 * N0 * N1 + jj * N0 + ii) =
      hexPt2 lo ((hi 0 - lo 0) / (2 * N0)) ii jj := by
  rw [addHex2, fill_site h0 h1 one_pos]
  unfold hexSite2 hexPt2
  rw [hexRad_true, hexRad_true, natMod2]
  simp

theorem hex3_site (N0 N1 N2 ii jj kk : ℕ) (lo hi : Vec 3 ℝ) (r : ℕ → Vec 3 ℝ) (h0 : ii < N0)
    (h1 : jj < N1) (h2 : kk < N2) :
    addHex3 N0 N1 N2 lo hi true r (kk * N0 * N1 + jj * N0 + ii) =
      hexPt3 lo ((hi 0 - lo 0) / (2 * N0)) ii jj kk := by
  rw [addHex3, fill_site h0 h1 h2]
  unfold hexSite3 hexPt3
  rw [hexRad_true, hexRad_true, hexRad_true, natMod2, natMod2, natMod2]
  simp

theorem hex2_apart (N0 N1 : ℕ) (lo hi : Vec 2 ℝ) (r : ℕ → Vec 2 ℝ) :
    Apart (N0 * N1) (addHex2 N0 N1 lo hi true r) ((hi 0 - lo 0) / N0) := by
  intro i j hi' hj hne
  rw [← Nat.mul_one (N0 * N1)] at hi' hj
  obtain ⟨ii, jj, kk, h0, h1, h2, rfl⟩ := split_index hi'
  obtain ⟨ii', jj', kk', h0', h1', h2', rfl⟩ := split_index hj
  obtain rfl : kk = 0 := by omega
  obtain rfl : kk' = 0 := by omega
  rw [hex2_site N0 N1 ii jj lo hi r h0 h1, hex2_site N0 N1 ii' jj' lo hi r h0' h1']
  have := hexPt2_apart lo ((hi 0 - lo 0) / (2 * N0)) ii jj ii' jj' (by
    intro e
    rw [Prod.mk.injEq] at e
    apply hne
    rw [Int.ofNat_inj.1 e.1, Int.ofNat_inj.1 e.2])
  have e : 2 * ((hi 0 - lo 0) / (2 * (N0 : ℝ))) = (hi 0 - lo 0) / N0 := by
    have : (N0 : ℝ) ≠ 0 := by exact_mod_cast (by omega : N0 ≠ 0)
    field_simp
  rwa [e] at this

theorem hex3_apart (N0 N1 N2 : ℕ) (lo hi : Vec 3 ℝ) (r : ℕ → Vec 3 ℝ) :
    Apart (N0 * N1 * N2) (addHex3 N0 N1 N2 lo hi true r) ((hi 0 - lo 0) / N0) := by
  intro i j hi' hj hne
  obtain ⟨ii, jj, kk, h0, h1, h2, rfl⟩ := split_index hi'
  obtain ⟨ii', jj', kk', h0', h1', h2', rfl⟩ := split_index hj
  rw [hex3_site N0 N1 N2 ii jj kk lo hi r h0 h1 h2, hex3_site N0 N1 N2 ii' jj' kk' lo hi r h0' h1' h2']
  have := hexPt3_apart lo ((hi 0 - lo 0) / (2 * N0)) ii jj kk ii' jj' kk' (by
    intro e
    rw [Prod.mk.injEq, Prod.mk.injEq] at e
    apply hne
    rw [Int.ofNat_inj.1 e.1, Int.ofNat_inj.1 e.2.1, Int.ofNat_inj.1 e.2.2])
  have e : 2 * ((hi 0 - lo 0) / (2 * (N0 : ℝ))) = (hi 0 - lo 0) / N0 := by
    have : (N0 : ℝ) ≠ 0 := by exact_mod_cast (by omega : N0 ≠ 0)
    field_simp
  rwa [e] at this

theorem emod_add_even (j s : ℤ) (N : ℕ) (hN : Even N) : (j + N * s) % 2 = j % 2 := by
  obtain ⟨m, rfl⟩ := hN
  have : j + ((m + m : ℕ) : ℤ) * s = j + 2 * (m * s) := by push_cast; ring
  rw [this, Int.add_mul_emod_self_left]

theorem hex2_periodic (N0 N1 : ℕ) (hN1 : Even N1) (lo hi : Vec 2 ℝ) (r : ℕ → Vec 2 ℝ) (R : ℝ)
    (hR : R = (hi 0 - lo 0) / (2 * N0)) :
    ApartPeriodic (N0 * N1) (addHex2 N0 N1 lo hi true r) ![N0 * (2 * R), N1 * (sqrt 3 * R)] (2 * R) := by
  subst hR
  apply apart_of_sites2 _ _ _ (hexPt2 lo ((hi 0 - lo 0) / (2 * N0)))
  · exact fun ii jj h0 h1 => hex2_site N0 N1 ii jj lo hi r h0 h1
  · intro ii jj s
    funext k
    fin_cases k
    · simp [hexPt2, emod_add_even jj (s 1) N1 hN1]; ring
    · simp [hexPt2]; ring
  · exact hexPt2_apart _ _

theorem hex3_periodic (N0 N1 N2 : ℕ) (hN1 : Even N1) (hN2 : Even N2) (lo hi : Vec 3 ℝ)
    (r : ℕ → Vec 3 ℝ) (R : ℝ) (hR : R = (hi 0 - lo 0) / (2 * N0)) :
    ApartPeriodic (N0 * N1 * N2) (addHex3 N0 N1 N2 lo hi true r)
      ![N0 * (2 * R), N1 * (sqrt 3 * R), N2 * (2 * sqrt 6 / 3 * R)] (2 * R) := by
  subst hR
  apply apart_of_sites3 _ _ _ (hexPt3 lo ((hi 0 - lo 0) / (2 * N0)))
  · exact fun ii jj kk h0 h1 h2 => hex3_site N0 N1 N2 ii jj kk lo hi r h0 h1 h2
  · intro ii jj kk s
    have e1 := emod_add_even jj (s 1) N1 hN1
    have e2 := emod_add_even kk (s 2) N2 hN2
    have e3 : (kk + N2 * s 2 + 1) % 2 = (kk + 1) % 2 := by omega
    funext k
    fin_cases k
    · simp [hexPt3, e1, e3]; ring
    · simp [hexPt3, e2]; ring
    · simp [hexPt3]; ring
  · exact hexPt3_apart _ _

/-! ### spheres -/

theorem gapSq_zero (x : Vec n ℝ) : gapSq x (fun _ => 0) = dot x x := by
  unfold gapSq dot
  exact Finset.sum_congr rfl fun k _ => by ring

theorem gapSq_dot (x y : Vec n ℝ) : gapSq x y = dot (fun k => x k - y k) (fun k => x k - y k) := by
  unfold gapSq dot
  exact Finset.sum_congr rfl fun k _ => by ring

theorem gapSq_scaled (c : Vec n ℝ) (R : ℝ) (x y : Vec n ℝ) :
    gapSq (scaled c R x) (scaled c R y) = R ^ 2 * gapSq x y := by
  unfold gapSq scaled
  rw [Finset.mul_sum]
  exact Finset.sum_congr rfl fun k _ => by ring

theorem gapSq_scaled_centre (c : Vec n ℝ) (R : ℝ) (x : Vec n ℝ) :
    gapSq (scaled c R x) c = R ^ 2 * gapSq x (fun _ => 0) := by
  unfold gapSq scaled
  rw [Finset.mul_sum]
  exact Finset.sum_congr rfl fun k _ => by ring

theorem gapSq_div (R : ℝ) (hR : R ≠ 0) (x y : Vec n ℝ) :
    gapSq (fun k => x k / R) (fun k => y k / R) = gapSq x y / R ^ 2 := by
  unfold gapSq
  rw [div_eq_mul_inv, Finset.sum_mul]
  refine Finset.sum_congr rfl fun k _ => ?_
  field_simp

theorem gapSq_rotate (phi theta psi : ℝ) (x y : Vec 3 ℝ) :
    gapSq (Binary.rotate phi theta psi x) (Binary.rotate phi theta psi y) = gapSq x y := by
  have e : (fun k => Binary.rotate phi theta psi x k - Binary.rotate phi theta psi y k) =
      Binary.rotate phi theta psi (fun k => x k - y k) := by
    funext k; unfold Binary.rotate; ring
  rw [gapSq_dot, gapSq_dot, e, Binary.rotate_dot]

theorem rotate_zero (phi theta psi : ℝ) : Binary.rotate phi theta psi (fun _ => 0) = fun _ => 0 := by
  funext k; unfold Binary.rotate; ring

theorem gapSq_turn (theta : ℝ) (x y : Vec 2 ℝ) : gapSq (turn theta x) (turn theta y) = gapSq x y := by
  unfold gapSq turn
  rw [Fin.sum_univ_two, Fin.sum_univ_two]
  simp only [Matrix.cons_val_zero, Matrix.cons_val_one]
  linear_combination ((x 0 - y 0) ^ 2 + (x 1 - y 1) ^ 2) * (sin_sq_add_cos_sq theta)

theorem turn_zero (theta : ℝ) : turn theta (fun _ => 0) = fun _ => 0 := by
  funext k; unfold turn; fin_cases k <;> simp

theorem rHigh_le (big : ℝ) (lo hi : Vec n ℝ) (k : Fin n) : rHigh big lo hi ≤ 1 / 2 * (hi k - lo k) := by
  unfold rHigh
  have mono : ∀ (l : List (Fin n)) (m : ℝ),
      l.foldl (fun m k => min m (1 / 2 * (hi k - lo k))) m ≤ m := by
    intro l
    induction l with
    | nil => intro m; exact le_rfl
    | cons a l ih => intro m; exact (ih _).trans (min_le_left _ _)
  have key : ∀ (l : List (Fin n)) (m : ℝ), k ∈ l →
      l.foldl (fun m k => min m (1 / 2 * (hi k - lo k))) m ≤ 1 / 2 * (hi k - lo k) := by
    intro l
    induction l with
    | nil => intro m h; simp at h
    | cons a l ih =>
      intro m h
      rcases List.mem_cons.1 h with h | h
      · subst h; exact (mono l _).trans (min_le_right _ _)
      · exact ih _ h
  exact key _ _ (List.mem_finRange k)

theorem rHigh_pos (big : ℝ) (hb : 0 < big) (lo hi : Vec n ℝ) (h : ∀ k, lo k < hi k) :
    0 < rHigh big lo hi := by
  unfold rHigh
  have key : ∀ (l : List (Fin n)) (m : ℝ), 0 < m →
      0 < l.foldl (fun m k => min m (1 / 2 * (hi k - lo k))) m := by
    intro l
    induction l with
    | nil => intro m h; exact h
    | cons a l ih => intro m hm; exact ih _ (lt_min hm (by linarith [h a]))
  exact key _ _ hb

theorem within_zero_card (N : ℕ) (a : ℕ → Vec n ℝ) (c : Vec n ℝ) (d : ℝ) (hd : 0 < d)
    (h : Apart N a d) : (within N a c 0).card ≤ 1 := by
  rw [Finset.card_le_one]
  intro i hi j hj
  rw [mem_within] at hi hj
  by_contra hne
  have h1 := h i j hi.1 hj.1 hne
  have z : ∀ i, gapSq (a i) c ≤ 0 ^ 2 → ∀ k, a i k = c k := by
    intro i hi k
    have h2 : (a i k - c k) ^ 2 ≤ gapSq (a i) c :=
      Finset.single_le_sum (f := fun k => (a i k - c k) ^ 2) (fun _ _ => sq_nonneg _) (Finset.mem_univ k)
    have : (a i k - c k) ^ 2 = 0 := le_antisymm (by rw [zero_pow two_ne_zero] at hi; linarith) (sq_nonneg _)
    exact sub_eq_zero.1 (pow_eq_zero_iff two_ne_zero |>.1 this)
  have : gapSq (a i) (a j) = 0 := by
    unfold gapSq
    apply Finset.sum_eq_zero
    intro k _
    rw [z i hi.2 k, z j hj.2 k, sub_self, zero_pow two_ne_zero]
  rw [this] at h1
  have := pow_pos hd 2
  linarith

end Gandalf.Lattice
