import Verif.Proof.EwaldSym

/-! # Reading the table -/

set_option autoImplicit false

namespace Gandalf.Ewald

/-! ### Phases of the waves -/

/-- the numbers of periods of the wave with given loop variables -/
def wave (c : Cfg) (h : ℤ × ℤ × ℤ) : ℤ × ℤ × ℤ :=
  match periodicity c with
  | 1 => (h.1, 0, 0)
  | 2 => (0, h.2.1, 0)
  | 4 => (0, 0, h.2.2)
  | 3 => (h.1, h.2.1, 0)
  | 5 => (h.2.2, 0, h.1)
  | 6 => (0, h.2.2, h.2.1)
  | _ => h

theorem long_wave (S : Special) (c : Cfg) (hc : c.OK) (h : ℤ × ℤ × ℤ) :
    IsWave c (wave c h) fun p => (long S c h p).pot := by
  have hL := fun k => (hc.L_pos k).ne'
  have h0 := hL 0
  have h1 := hL 1
  have h2 := hL 2
  obtain ⟨b1, b2, b3, b4, b5, b6, b7⟩ := per_bits c
  rcases per_cases c hc with hp | hp | hp | hp | hp | hp | hp
  · obtain ⟨p0, p1, p2⟩ := b1 hp
    refine ⟨fun p => 2 * (consts c).linv * Real.exp (-dzeta c * (h.1 : ℝ) ^ 2) *
      simpsonInt (intFPot S h.1 (dzeta c) (2 * Real.pi * (consts c).linv * hypot (p 1) (p 2))) c.ixmin c.ixmax c.simpson,
      fun p q hpq => by simp only [hpq 1 p1, hpq 2 p2], fun p => ?_⟩
    simp only [long, wave, hp, potLong1, Fin.sum_univ_three, comp]
    have e : 2 * Real.pi * (h.1 : ℝ) * p 0 * (consts c).linv =
        2 * Real.pi * ((![h.1, 0, 0] : Fin 3 → ℤ) 0 * p 0 / c.L 0 + (![h.1, 0, 0] : Fin 3 → ℤ) 1 * p 1 / c.L 1 +
          (![h.1, 0, 0] : Fin 3 → ℤ) 2 * p 2 / c.L 2) := by
      simp [consts, hp]; field_simp
    rw [e]; ring
  · obtain ⟨p0, p1, p2⟩ := b2 hp
    refine ⟨fun p => 2 * (consts c).linv * Real.exp (-dzeta c * (h.2.1 : ℝ) ^ 2) *
      simpsonInt (intFPot S h.2.1 (dzeta c) (2 * Real.pi * (consts c).linv * hypot (p 0) (p 2))) c.ixmin c.ixmax c.simpson,
      fun p q hpq => by simp only [hpq 0 p0, hpq 2 p2], fun p => ?_⟩
    simp only [long, wave, hp, potLong1, Fin.sum_univ_three, comp]
    have e : 2 * Real.pi * (h.2.1 : ℝ) * p 1 * (consts c).linv =
        2 * Real.pi * ((![0, h.2.1, 0] : Fin 3 → ℤ) 0 * p 0 / c.L 0 + (![0, h.2.1, 0] : Fin 3 → ℤ) 1 * p 1 / c.L 1 +
          (![0, h.2.1, 0] : Fin 3 → ℤ) 2 * p 2 / c.L 2) := by
      simp [consts, hp]; field_simp
    rw [e]; ring
  · obtain ⟨p0, p1, p2⟩ := b3 hp
    refine ⟨fun p => (consts c).linv * (1 / (consts c).ratio_p) * gravInt S h.1 h.2.1 (p 2) (consts c).linv (dzeta c)
      (1 / (consts c).ratio_p) (ewc1 c) (ewc2 c), fun p q hpq => by simp only [hpq 2 p2], fun p => ?_⟩
    simp only [long, wave, hp, potLong2, Fin.sum_univ_three, comp]
    have e : (consts c).linv * (2 * Real.pi) * (h.1 * p 0 + h.2.1 * p 1 * (1 / (consts c).ratio_p)) =
        2 * Real.pi * ((![h.1, h.2.1, 0] : Fin 3 → ℤ) 0 * p 0 / c.L 0 + (![h.1, h.2.1, 0] : Fin 3 → ℤ) 1 * p 1 / c.L 1 +
          (![h.1, h.2.1, 0] : Fin 3 → ℤ) 2 * p 2 / c.L 2) := by
      simp [consts, hp]; field_simp
    rw [e]; ring
  · obtain ⟨p0, p1, p2⟩ := b4 hp
    refine ⟨fun p => 2 * (consts c).linv * Real.exp (-dzeta c * (h.2.2 : ℝ) ^ 2) *
      simpsonInt (intFPot S h.2.2 (dzeta c) (2 * Real.pi * (consts c).linv * hypot (p 0) (p 1))) c.ixmin c.ixmax c.simpson,
      fun p q hpq => by simp only [hpq 0 p0, hpq 1 p1], fun p => ?_⟩
    simp only [long, wave, hp, potLong1, Fin.sum_univ_three, comp]
    have e : 2 * Real.pi * (h.2.2 : ℝ) * p 2 * (consts c).linv =
        2 * Real.pi * ((![0, 0, h.2.2] : Fin 3 → ℤ) 0 * p 0 / c.L 0 + (![0, 0, h.2.2] : Fin 3 → ℤ) 1 * p 1 / c.L 1 +
          (![0, 0, h.2.2] : Fin 3 → ℤ) 2 * p 2 / c.L 2) := by
      simp [consts, hp]; field_simp
    rw [e]; ring
  · obtain ⟨p0, p1, p2⟩ := b5 hp
    refine ⟨fun p => (consts c).linv * (1 / (consts c).ratio_p) * gravInt S h.1 h.2.2 (p 1) (consts c).linv (dzeta c)
      (1 / (consts c).ratio_p) (ewc1 c) (ewc2 c), fun p q hpq => by simp only [hpq 1 p1], fun p => ?_⟩
    simp only [long, wave, hp, potLong2, Fin.sum_univ_three, comp]
    have e : (consts c).linv * (2 * Real.pi) * (h.1 * p 2 + h.2.2 * p 0 * (1 / (consts c).ratio_p)) =
        2 * Real.pi * ((![h.2.2, 0, h.1] : Fin 3 → ℤ) 0 * p 0 / c.L 0 + (![h.2.2, 0, h.1] : Fin 3 → ℤ) 1 * p 1 / c.L 1 +
          (![h.2.2, 0, h.1] : Fin 3 → ℤ) 2 * p 2 / c.L 2) := by
      simp [consts, hp]; field_simp; ring
    rw [e]; ring
  · obtain ⟨p0, p1, p2⟩ := b6 hp
    refine ⟨fun p => (consts c).linv * (1 / (consts c).ratio_p) * gravInt S h.2.2 h.2.1 (p 0) (consts c).linv (dzeta c)
      (1 / (consts c).ratio_p) (ewc1 c) (ewc2 c), fun p q hpq => by simp only [hpq 0 p0], fun p => ?_⟩
    simp only [long, wave, hp, potLong2, Fin.sum_univ_three, comp]
    have e : (consts c).linv * (2 * Real.pi) * (h.2.2 * p 1 + h.2.1 * p 2 * (1 / (consts c).ratio_p)) =
        2 * Real.pi * ((![0, h.2.2, h.2.1] : Fin 3 → ℤ) 0 * p 0 / c.L 0 + (![0, h.2.2, h.2.1] : Fin 3 → ℤ) 1 * p 1 / c.L 1 +
          (![0, h.2.2, h.2.1] : Fin 3 → ℤ) 2 * p 2 / c.L 2) := by
      simp [consts, hp]; field_simp
    rw [e]; ring
  · refine ⟨fun _ => if (h.1 ^ 2 + h.2.1 ^ 2 + h.2.2 ^ 2 : ℤ) > 0 then
      (consts c).linv * (1 / (c.L 1 / c.L 0)) * (1 / (c.L 2 / c.L 0)) / Real.pi *
        Real.exp (-dzeta c * ((h.1 : ℝ) ^ 2 + (h.2.1 * (1 / (c.L 1 / c.L 0))) ^ 2 + (h.2.2 * (1 / (c.L 2 / c.L 0))) ^ 2)) /
        ((h.1 : ℝ) ^ 2 + (h.2.1 * (1 / (c.L 1 / c.L 0))) ^ 2 + (h.2.2 * (1 / (c.L 2 / c.L 0))) ^ 2) else 0,
      fun p q _ => rfl, fun p => ?_⟩
    simp only [long, wave, hp]
    split_ifs with hz
    · have e : 2 * Real.pi * (consts c).linv * (h.1 * p 0 + h.2.1 * p 1 * (1 / (c.L 1 / c.L 0)) +
          h.2.2 * p 2 * (1 / (c.L 2 / c.L 0))) = 2 * Real.pi * ∑ k, comp h k * p k / c.L k := by
        simp [consts, hp, Fin.sum_univ_three, comp]; field_simp
      simp only [e]; ring
    · simp

/-- a wave does not change when a whole period is added -/
theorem wave_periodic {c : Cfg} (hc : c.OK) {m : ℤ × ℤ × ℤ} {f : P3 → ℝ} (hf : IsWave c m f) (k : Fin 3)
    (hk : c.per k = true) (n : ℤ) (p : P3) : f (Function.update p k (p k + n * c.L k)) = f p := by
  obtain ⟨A, hA, hfA⟩ := hf
  rw [hfA, hfA]
  congr 1
  · apply hA
    intro j hj
    have : j ≠ k := fun e => by rw [e, hk] at hj; cases hj
    rw [Function.update_of_ne this]
  · have hL := (hc.L_pos k).ne'
    have e : ∑ j, comp m j * Function.update p k (p k + n * c.L k) j / c.L j =
        ∑ j, comp m j * p j / c.L j + (comp m k * n : ℤ) := by
      rw [← Finset.add_sum_erase _ _ (Finset.mem_univ k), ← Finset.add_sum_erase _ _ (Finset.mem_univ k)]
      have : ∑ j ∈ Finset.univ.erase k, comp m j * Function.update p k (p k + n * c.L k) j / c.L j =
          ∑ j ∈ Finset.univ.erase k, comp m j * p j / c.L j :=
        Finset.sum_congr rfl fun j hj => by rw [Function.update_of_ne (Finset.ne_of_mem_erase hj)]
      rw [this, Function.update_self]
      push_cast
      field_simp
      ring
    rw [e, mul_add]
    have : 2 * Real.pi * ((comp m k * n : ℤ) : ℝ) = (comp m k * n : ℤ) * (2 * Real.pi) := by ring
    rw [this, Real.cos_add_int_mul_two_pi]

/-! ### The table -/

/-- component of a value, the potential first -/
def PA.get (v : PA) (q : Fin 4) : ℝ := if h : q.val = 0 then v.pot else v.acc ⟨q.val - 1, by omega⟩

theorem index_lt (c : Cfg) (i : Fin 3 → ℕ) (hi : ∀ k, i k < Ngrid c k) : index c i < size c := by
  unfold index size
  have h0 := hi 0
  have h1 := hi 1
  have h2 := hi 2
  generalize Ngrid c 0 = a at *
  generalize Ngrid c 1 = b at *
  generalize Ngrid c 2 = d at *
  have e1 : i 1 * a + i 0 < b * a := by nlinarith
  have e2 : (i 2 + 1) * (b * a) ≤ d * (b * a) := Nat.mul_le_mul_right _ h2
  nlinarith

theorem table_node (S : Special) (c : Cfg) (i : Fin 3 → ℕ) (hi : ∀ k, i k < Ngrid c k) (h0 : i ≠ 0) (q : Fin 4) :
    table S c (index c i + q.val * size c) = (field S c (node c i)).get q := by
  have hlt := index_lt c i hi
  have hs : 0 < size c := lt_of_le_of_lt (Nat.zero_le _) hlt
  have hmod : (index c i + q.val * size c) % size c = index c i := by
    rw [Nat.add_mul_mod_self_right, Nat.mod_eq_of_lt hlt]
  have hdiv : (index c i + q.val * size c) / size c = q.val := by
    rw [Nat.add_mul_div_right _ _ hs, Nat.div_eq_of_lt hlt, zero_add]
  have hN : ∀ k, 0 < Ngrid c k := fun k => lt_of_le_of_lt (Nat.zero_le _) (hi k)
  have d0 : index c i % Ngrid c 0 = i 0 := by
    unfold index
    rw [show i 2 * Ngrid c 1 * Ngrid c 0 + i 1 * Ngrid c 0 + i 0 = i 0 + (i 2 * Ngrid c 1 + i 1) * Ngrid c 0 by ring,
      Nat.add_mul_mod_self_right, Nat.mod_eq_of_lt (hi 0)]
  have d1 : index c i / Ngrid c 0 = i 1 + i 2 * Ngrid c 1 := by
    unfold index
    rw [show i 2 * Ngrid c 1 * Ngrid c 0 + i 1 * Ngrid c 0 + i 0 = i 0 + (i 1 + i 2 * Ngrid c 1) * Ngrid c 0 by ring,
      Nat.add_mul_div_right _ _ (hN 0), Nat.div_eq_of_lt (hi 0), zero_add]
  have d1' : index c i / Ngrid c 0 % Ngrid c 1 = i 1 := by
    rw [d1, Nat.add_mul_mod_self_right, Nat.mod_eq_of_lt (hi 1)]
  have d2 : index c i / (Ngrid c 0 * Ngrid c 1) = i 2 := by
    rw [← Nat.div_div_eq_div_mul, d1, Nat.add_mul_div_right _ _ (hN 1), Nat.div_eq_of_lt (hi 1), zero_add]
  have hne : index c i ≠ 0 := by
    intro h
    apply h0
    funext k
    rw [h] at d0 d1' d2
    fin_cases k
    · simpa using d0.symm
    · simpa using d1'.symm
    · simpa using d2.symm
  have hv : (![i 0, i 1, i 2] : Fin 3 → ℕ) = i := by funext k; fin_cases k <;> rfl
  unfold table
  simp only [hmod, hdiv, if_neg hne, d0, d1', d2, hv]
  fin_cases q <;> simp [PA.get]

theorem table_origin (S : Special) (c : Cfg) (q : Fin 4) : table S c (q.val * size c) = 0 := by
  unfold table
  simp

theorem base0_eq (c : Cfg) (dr : P3) : base0 c dr = index c (il c dr) := by
  unfold base0 index; ring

/-! ### Which cell -/

theorem Lewald_pos (c : Cfg) (hc : c.OK) (hv : c.Covers) (k : Fin 3) : 0 < Lewald c k := by
  have := hc.L_pos k
  have := hc.L_pos (lead c)
  have := hv.half
  unfold Lewald
  split_ifs <;> nlinarith

theorem Ncells_ge (c : Cfg) (hv : c.Covers) (k : Fin 3) : 2 ≤ Ncells c k := by
  have := hv.three
  unfold Ncells; split_ifs <;> omega

theorem dI_pos (c : Cfg) (hc : c.OK) (hv : c.Covers) (k : Fin 3) : 0 < dI c k := by
  have h1 := Lewald_pos c hc hv k
  have h2 : (2 : ℝ) ≤ Ncells c k := by exact_mod_cast Ncells_ge c hv k
  unfold dI
  exact div_pos (by linarith) h1

theorem dI_node (c : Cfg) (hc : c.OK) (hv : c.Covers) (i : Fin 3 → ℕ) (k : Fin 3) : dI c k * node c i k = i k := by
  have h1 := (Lewald_pos c hc hv k).ne'
  have h2 : (2 : ℝ) ≤ Ncells c k := by exact_mod_cast Ncells_ge c hv k
  have h3 : (Ncells c k : ℝ) - 1 ≠ 0 := by linarith
  unfold dI node
  field_simp

theorem frac_range (c : Cfg) (hc : c.OK) (hv : c.Covers) (dr : P3) (k : Fin 3) : 0 ≤ frac c dr k ∧ frac c dr k < 1 := by
  have h : 0 ≤ dI c k * |dr k| := mul_nonneg (dI_pos c hc hv k).le (abs_nonneg _)
  have h1 := Nat.floor_le h
  have h2 := Nat.lt_floor_add_one (dI c k * |dr k|)
  unfold frac il
  constructor <;> linarith

/-- position of the particle within its cell -/
theorem cell_pos (c : Cfg) (hc : c.OK) (hv : c.Covers) (dr : P3) (k : Fin 3) :
    (1 - frac c dr k) * node c (il c dr) k + frac c dr k * node c (fun j => il c dr j + 1) k = |dr k| := by
  have h1 := Lewald_pos c hc hv k
  have h2 : (2 : ℝ) ≤ Ncells c k := by exact_mod_cast Ncells_ge c hv k
  have h3 : (Ncells c k : ℝ) - 1 ≠ 0 := by linarith
  have h4 := h1.ne'
  unfold frac node
  push_cast
  unfold dI
  field_simp
  ring

theorem il_periodic (c : Cfg) (hc : c.OK) (hv : c.Covers) (dr : P3) (k : Fin 3) (hk : c.per k = true)
    (hd : |dr k| ≤ c.L k / 2) : il c dr k + 1 < Ngrid c k := by
  have hL := hc.L_pos k
  have hn := Ncells_ge c hv k
  have h2 : (2 : ℝ) ≤ Ncells c k := by exact_mod_cast hn
  have hle : |dr k| ≤ Lewald c k := by
    unfold Lewald
    rw [if_pos hk]
    have := hv.half
    nlinarith
  have h : dI c k * |dr k| ≤ (Ncells c k : ℝ) - 1 := by
    unfold dI
    rw [div_mul_eq_mul_div, div_le_iff₀ (Lewald_pos c hc hv k)]
    exact mul_le_mul_of_nonneg_left hle (by linarith)
  have h' : il c dr k ≤ Ncells c k - 1 := by
    unfold il
    have : dI c k * |dr k| ≤ ((Ncells c k - 1 : ℕ) : ℝ) := by
      rw [Nat.cast_sub (by omega)]; simpa using h
    calc ⌊dI c k * |dr k|⌋₊ ≤ ⌊((Ncells c k - 1 : ℕ) : ℝ)⌋₊ := Nat.floor_le_floor this
      _ = Ncells c k - 1 := Nat.floor_natCast _
  unfold Ngrid
  omega

theorem lastRead_lt (c : Cfg) (dr : P3) (h : ∀ k, il c dr k + 1 < Ngrid c k) : lastRead c (base0 c dr) < 4 * size c := by
  have hi := index_lt c (fun k => il c dr k + 1) h
  rw [base0_eq]
  have : lastRead c (index c (il c dr)) = index c (fun k => il c dr k + 1) + 3 * size c := by
    unfold lastRead index; ring
  omega

end Gandalf.Ewald
