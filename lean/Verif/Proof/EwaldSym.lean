import Verif.Proof.EwaldField

/-! # Mirror symmetry of the tabulated field; which images and wave numbers are summed -/

set_option autoImplicit false

namespace Gandalf.Ewald

/-- mirror image of a triple of integers -/
def flip (j : Fin 3) (h : ℤ × ℤ × ℤ) : ℤ × ℤ × ℤ :=
  (if j = 0 then -h.1 else h.1, if j = 1 then -h.2.1 else h.2.1, if j = 2 then -h.2.2 else h.2.2)

theorem flip_flip (j : Fin 3) (h : ℤ × ℤ × ℤ) : flip j (flip j h) = h := by
  fin_cases j <;> simp [flip]

theorem mem_range3 (lim : Fin 3 → ℤ) (w : Fin 3 → ℝ) (n : ℕ) (h : ℤ × ℤ × ℤ) : h ∈ range3 lim w n ↔
    ((-lim 0 ≤ h.1 ∧ h.1 ≤ lim 0) ∧ (-lim 1 ≤ h.2.1 ∧ h.2.1 ≤ lim 1) ∧ (-lim 2 ≤ h.2.2 ∧ h.2.2 ≤ lim 2)) ∧
      w 0 * h.1 * h.1 + w 1 * h.2.1 * h.2.1 + w 2 * h.2.2 * h.2.2 ≤ (n * n : ℕ) := by
  unfold range3
  rw [Finset.mem_filter, Finset.mem_product, Finset.mem_product, Finset.mem_Icc, Finset.mem_Icc, Finset.mem_Icc]

theorem flip_mem (lim : Fin 3 → ℤ) (w : Fin 3 → ℝ) (n : ℕ) (j : Fin 3) (h : ℤ × ℤ × ℤ) (hh : h ∈ range3 lim w n) :
    flip j h ∈ range3 lim w n := by
  rw [mem_range3] at hh ⊢
  obtain ⟨⟨⟨a1, a2⟩, ⟨b1, b2⟩, c1, c2⟩, d⟩ := hh
  fin_cases j <;> simp only [flip] <;> simp <;> push_cast at d <;> refine ⟨⟨⟨?_, ?_⟩, ⟨?_, ?_⟩, ?_, ?_⟩, ?_⟩ <;> linarith

theorem sum_flip (lim : Fin 3 → ℤ) (w : Fin 3 → ℝ) (n : ℕ) (j : Fin 3) (f g : ℤ × ℤ × ℤ → ℝ)
    (hfg : ∀ h, f (flip j h) = g h) : ∑ h ∈ range3 lim w n, f h = ∑ h ∈ range3 lim w n, g h := by
  refine Finset.sum_nbij' (flip j) (flip j) (fun h hh => flip_mem _ _ _ j h hh) (fun h hh => flip_mem _ _ _ j h hh)
    (fun h _ => flip_flip j h) (fun h _ => flip_flip j h) fun h _ => ?_
  rw [← hfg, flip_flip]

/-- sign of a component under the reflection -/
def sg (j k : Fin 3) : ℝ := if k = j then -1 else 1

theorem short_flip (S : Special) (c : Cfg) (j : Fin 3) (h : ℤ × ℤ × ℤ) (p : P3) :
    (short S c (flip j h) (reflect j p)).pot = (short S c h p).pot ∧
    ∀ k, (short S c (flip j h) (reflect j p)).acc k = sg j k * (short S c h p).acc k := by
  have hv : ∀ k, (![reflect j p 0 + (flip j h).1 * c.L 0, reflect j p 1 + (flip j h).2.1 * c.L 1,
      reflect j p 2 + (flip j h).2.2 * c.L 2] : P3) k =
      sg j k * (![p 0 + h.1 * c.L 0, p 1 + h.2.1 * c.L 1, p 2 + h.2.2 * c.L 2] : P3) k := by
    intro k
    fin_cases j <;> fin_cases k <;> simp [flip, reflect, sg] <;> ring
  have hs : ∀ k, sg j k ^ 2 = 1 := by intro k; unfold sg; split_ifs <;> norm_num
  have hacc : ∀ s q r, accShort S (alpha c) (s * q) r = s * accShort S (alpha c) q r := by
    intro s q r; unfold accShort; ring
  unfold short
  simp only [hv, mul_pow, hs, one_mul, hacc]
  exact ⟨trivial, fun _ => trivial⟩

section
variable {S : Special} (hS : S.OK) {d : ℝ} (hd : 0 < d)
include hS hd

theorem gravInt_neg_z (l1 l2 : ℤ) (z linv rp : ℝ) :
    gravInt S l1 l2 (-z) linv d rp (1 / Real.sqrt d) (1 / 4 / d) =
      gravInt S l1 l2 z linv d rp (1 / Real.sqrt d) (1 / 4 / d) := by
  rw [gravInt_eq hS hd, gravInt_eq hS hd]
  by_cases h : l1 ≠ 0 ∨ l2 ≠ 0
  · simp only [if_pos h]
    simp only [mul_neg, neg_mul, neg_neg, neg_div, sub_neg_eq_add, ← sub_eq_add_neg]
    ring
  · simp only [if_neg h]
    have := hS.erf_odd (2 * Real.pi * z * linv / 2 * (1 / Real.sqrt d))
    have e : 2 * Real.pi * -z * linv / 2 * (1 / Real.sqrt d) = -(2 * Real.pi * z * linv / 2 * (1 / Real.sqrt d)) := by ring
    rw [e, this]
    have e2 : -(2 * Real.pi * -z * linv) ^ 2 = -(2 * Real.pi * z * linv) ^ 2 := by ring
    rw [e2]
    ring

theorem derGravInt_neg_z (l1 l2 : ℤ) (z linv rp : ℝ) :
    derGravInt S l1 l2 (-z) linv d rp (1 / Real.sqrt d) (1 / 4 / d) =
      -derGravInt S l1 l2 z linv d rp (1 / Real.sqrt d) (1 / 4 / d) := by
  rw [derGravInt_eq hS hd, derGravInt_eq hS hd]
  simp only [mul_neg, neg_mul, neg_neg, neg_div, sub_neg_eq_add, ← sub_eq_add_neg]
  ring

omit hS hd in
theorem gravInt_neg_l (l1 l2 : ℤ) (z linv rp e1 e2 : ℝ) :
    gravInt S (-l1) l2 z linv d rp e1 e2 = gravInt S l1 l2 z linv d rp e1 e2 ∧
    gravInt S l1 (-l2) z linv d rp e1 e2 = gravInt S l1 l2 z linv d rp e1 e2 ∧
    derGravInt S (-l1) l2 z linv d rp e1 e2 = derGravInt S l1 l2 z linv d rp e1 e2 ∧
    derGravInt S l1 (-l2) z linv d rp e1 e2 = derGravInt S l1 l2 z linv d rp e1 e2 := by
  unfold gravInt derGravInt
  simp [neg_mul]

/-- the four reflections of the planar terms -/
theorem plane_flip (linv rp x y z : ℝ) (l1 l2 : ℤ) :
    let P := fun x y z (l1 l2 : ℤ) => potLong2 S d linv rp x y z l1 l2 (1 / Real.sqrt d) (1 / 4 / d)
    let A := fun x y z (l1 l2 : ℤ) => accLong2Per S d linv rp x y z l1 l2 (1 / Real.sqrt d) (1 / 4 / d)
    let I := fun x y z (l1 l2 : ℤ) => accLong2Iso S d linv rp x y z l1 l2 (1 / Real.sqrt d) (1 / 4 / d)
    (P (-x) y z (-l1) l2 = P x y z l1 l2 ∧ A (-x) y z (-l1) l2 = A x y z l1 l2 ∧ I (-x) y z (-l1) l2 = I x y z l1 l2) ∧
    (P x (-y) z l1 (-l2) = P x y z l1 l2 ∧ A x (-y) z l1 (-l2) = A x y z l1 l2 ∧ I x (-y) z l1 (-l2) = I x y z l1 l2) ∧
    (P x y (-z) l1 l2 = P x y z l1 l2 ∧ A x y (-z) l1 l2 = A x y z l1 l2 ∧ I x y (-z) l1 l2 = -I x y z l1 l2) := by
  obtain ⟨g1, g2, g3, g4⟩ := gravInt_neg_l (S := S) (d := d) l1 l2 z linv rp (1 / Real.sqrt d) (1 / 4 / d)
  simp only [potLong2, accLong2Per, accLong2Iso, g1, g2, g3, g4, gravInt_neg_z hS hd, derGravInt_neg_z hS hd]
  push_cast
  simp only [neg_mul_neg]
  refine ⟨⟨trivial, trivial, trivial⟩, ⟨trivial, trivial, trivial⟩, trivial, trivial, ?_⟩
  ring

end

/-- the reflections of the axial terms -/
theorem axis_flip (S : Special) (c : Cfg) (l : ℤ) (d linv x y z : ℝ) :
    (potLong1 S c (-l) d linv (-x) y z = potLong1 S c l d linv x y z ∧
      accLong1Per S c (-l) d linv (-x) y z = -accLong1Per S c l d linv x y z ∧
      accLong1Iso S c (-l) d linv (-x) y z = accLong1Iso S c l d linv x y z) ∧
    (potLong1 S c l d linv x (-y) z = potLong1 S c l d linv x y z ∧
      accLong1Per S c l d linv x (-y) z = accLong1Per S c l d linv x y z ∧
      accLong1Iso S c l d linv x (-y) z = -accLong1Iso S c l d linv x y z) ∧
    (potLong1 S c l d linv x y (-z) = potLong1 S c l d linv x y z ∧
      accLong1Per S c l d linv x y (-z) = accLong1Per S c l d linv x y z ∧
      accLong1Iso S c l d linv x y (-z) = accLong1Iso S c l d linv x y z) := by
  have hF : ∀ e, intFPot S (-l) d e = intFPot S l d e := by
    intro e; funext u; unfold intFPot; simp
  have hA : ∀ e, intFAcc S (-l) d e = intFAcc S l d e := by
    intro e; funext u; unfold intFAcc; simp
  have h1 : hypot (-y) z = hypot y z := by unfold hypot; simp
  have h2 : hypot y (-z) = hypot y z := by unfold hypot; simp
  simp only [potLong1, accLong1Per, accLong1Iso, hF, hA, h1, h2]
  push_cast
  have c1 : 2 * Real.pi * -(l : ℝ) * -x * linv = 2 * Real.pi * l * x * linv := by ring
  have c2 : 2 * Real.pi * linv * -(l : ℝ) * -x = 2 * Real.pi * linv * l * x := by ring
  have c3 : (-(l : ℝ)) ^ 2 = (l : ℝ) ^ 2 := by ring
  simp only [c1, c2, c3]
  refine ⟨⟨trivial, by ring, trivial⟩, ⟨trivial, trivial, ?_⟩, trivial, trivial, trivial⟩
  split_ifs <;> ring

/-- the loop variable that goes with direction `j` in the waves -/
def partner (c : Cfg) (j : Fin 3) : Fin 3 :=
  match periodicity c with
  | 5 => ![2, 1, 0] j
  | 6 => ![0, 2, 1] j
  | _ => j

theorem long_flip (S : Special) (hS : S.OK) (c : Cfg) (hc : c.OK) (j : Fin 3) (h : ℤ × ℤ × ℤ) (p : P3) :
    (long S c (flip (partner c j) h) (reflect j p)).pot = (long S c h p).pot ∧
      ∀ k, (long S c (flip (partner c j) h) (reflect j p)).acc k = sg j k * (long S c h p).acc k := by
  have hd := dzeta_pos c hc
  rcases per_cases c hc with hp | hp | hp | hp | hp | hp | hp
  · have A := axis_flip S c h.1 (dzeta c) (consts c).linv (p 0) (p 1) (p 2)
    have B := axis_flip S c h.1 (dzeta c) (consts c).linv (p 0) (p 2) (p 1)
    obtain ⟨⟨a1, a2, a3⟩, ⟨b1, b2, b3⟩, c1, c2, c3⟩ := A
    obtain ⟨⟨a1', a2', a3'⟩, ⟨b1', b2', b3'⟩, c1', c2', c3'⟩ := B
    fin_cases j <;> simp only [long, partner, hp] <;> simp [flip, reflect, a1, b1, c1] <;>
      intro k <;> fin_cases k <;> simp [sg, *]
  · have A := axis_flip S c h.2.1 (dzeta c) (consts c).linv (p 1) (p 0) (p 2)
    have B := axis_flip S c h.2.1 (dzeta c) (consts c).linv (p 1) (p 2) (p 0)
    obtain ⟨⟨a1, a2, a3⟩, ⟨b1, b2, b3⟩, c1, c2, c3⟩ := A
    obtain ⟨⟨a1', a2', a3'⟩, ⟨b1', b2', b3'⟩, c1', c2', c3'⟩ := B
    fin_cases j <;> simp only [long, partner, hp] <;> simp [flip, reflect, a1, b1, c1] <;>
      intro k <;> fin_cases k <;> simp [sg, *]
  · obtain ⟨⟨a1, a2, a3⟩, ⟨b1, b2, b3⟩, c1, c2, c3⟩ :=
      plane_flip hS hd (consts c).linv (1 / (consts c).ratio_p) (p 0) (p 1) (p 2) h.1 h.2.1
    fin_cases j <;> simp only [long, partner, hp, ewc1, ewc2] <;> simp only [one_div] at * <;>
      simp [flip, reflect, a1, b1, c1] <;>
      intro k <;> fin_cases k <;> simp [sg, *]
  · have A := axis_flip S c h.2.2 (dzeta c) (consts c).linv (p 2) (p 0) (p 1)
    have B := axis_flip S c h.2.2 (dzeta c) (consts c).linv (p 2) (p 1) (p 0)
    obtain ⟨⟨a1, a2, a3⟩, ⟨b1, b2, b3⟩, c1, c2, c3⟩ := A
    obtain ⟨⟨a1', a2', a3'⟩, ⟨b1', b2', b3'⟩, c1', c2', c3'⟩ := B
    fin_cases j <;> simp only [long, partner, hp] <;> simp [flip, reflect, a1, b1, c1] <;>
      intro k <;> fin_cases k <;> simp [sg, *]
  · obtain ⟨⟨a1, a2, a3⟩, ⟨b1, b2, b3⟩, c1, c2, c3⟩ :=
      plane_flip hS hd (consts c).linv (1 / (consts c).ratio_p) (p 2) (p 0) (p 1) h.1 h.2.2
    fin_cases j <;> simp only [long, partner, hp, ewc1, ewc2] <;> simp only [one_div] at * <;>
      simp [flip, reflect, a1, b1, c1] <;>
      intro k <;> fin_cases k <;> simp [sg, *]
  · obtain ⟨⟨a1, a2, a3⟩, ⟨b1, b2, b3⟩, c1, c2, c3⟩ :=
      plane_flip hS hd (consts c).linv (1 / (consts c).ratio_p) (p 1) (p 2) (p 0) h.2.2 h.2.1
    fin_cases j <;> simp only [long, partner, hp, ewc1, ewc2] <;> simp only [one_div] at * <;>
      simp [flip, reflect, a1, b1, c1] <;>
      intro k <;> fin_cases k <;> simp [sg, *]
  · have hn : ((flip j h).1 ^ 2 + (flip j h).2.1 ^ 2 + (flip j h).2.2 ^ 2 : ℤ) = h.1 ^ 2 + h.2.1 ^ 2 + h.2.2 ^ 2 := by
      fin_cases j <;> simp [flip]
    have hw : ∀ i1 i2 : ℝ, ((flip j h).1 : ℝ) ^ 2 + ((flip j h).2.1 * i1) ^ 2 + ((flip j h).2.2 * i2) ^ 2 =
        (h.1 : ℝ) ^ 2 + (h.2.1 * i1) ^ 2 + (h.2.2 * i2) ^ 2 := by
      intro i1 i2; fin_cases j <;> simp [flip]
    have he : ∀ i1 i2 : ℝ, (flip j h).1 * reflect j p 0 + (flip j h).2.1 * reflect j p 1 * i1 +
        (flip j h).2.2 * reflect j p 2 * i2 = h.1 * p 0 + h.2.1 * p 1 * i1 + h.2.2 * p 2 * i2 := by
      intro i1 i2; fin_cases j <;> simp [flip, reflect]
    simp only [long, partner, hp, hn, hw, he]
    split_ifs
    · refine ⟨rfl, fun k => ?_⟩
      fin_cases j <;> fin_cases k <;> simp [flip, sg, accLong3] <;> ring
    · refine ⟨rfl, fun k => by simp⟩

theorem field_reflect (S : Special) (hS : S.OK) (c : Cfg) (hc : c.OK) (j : Fin 3) (p : P3) :
    (field S c (reflect j p)).pot = (field S c p).pot ∧
      ∀ k, (field S c (reflect j p)).acc k = sg j k * (field S c p).acc k := by
  have hr : reflect j p 0 ^ 2 + reflect j p 1 ^ 2 + reflect j p 2 ^ 2 = p 0 ^ 2 + p 1 ^ 2 + p 2 ^ 2 := by
    fin_cases j <;> simp [reflect]
  have hk : ∀ k, reflect j p k = sg j k * p k := by
    intro k; unfold reflect sg; split_ifs <;> ring
  refine ⟨?_, fun k => ?_⟩
  · simp only [field, hr]
    congr 2
    · exact sum_flip _ _ _ j _ _ fun h => (short_flip S c j h p).1
    · exact sum_flip _ _ _ (partner c j) _ _ fun h => (long_flip S hS c hc j h p).1
  · simp only [field, hr, mul_sub, mul_add, Finset.mul_sum]
    rw [hk k, mul_div_assoc]
    congr 2
    · exact sum_flip _ _ _ j _ _ fun h => (short_flip S c j h p).2 k
    · exact sum_flip _ _ _ (partner c j) _ _ fun h => (long_flip S hS c hc j h p).2 k

/-! ### Which images and wave numbers -/

theorem lim_ok {q : ℝ} (hq : 0 < q) (n : ℕ) (m : ℤ) (h : q ^ 2 * m * m ≤ (n * n : ℕ)) :
    -ceil1 n (1 / q) ≤ m ∧ m ≤ ceil1 n (1 / q) := by
  have h1 : (q * |(m : ℝ)|) ^ 2 ≤ (n : ℝ) ^ 2 := by
    rw [mul_pow, sq_abs]; push_cast at h; nlinarith
  have h2 : q * |(m : ℝ)| ≤ n := by
    have := abs_le_of_sq_le_sq h1 (Nat.cast_nonneg n)
    exact le_trans (le_abs_self _) this
  have h3 : |(m : ℝ)| ≤ n * (1 / q) := by
    rw [mul_one_div, le_div_iff₀ hq]; linarith
  have h4 : |m| ≤ ceil1 n (1 / q) := by
    unfold ceil1
    rw [Int.le_floor]
    push_cast
    linarith
  exact abs_le.1 h4

theorem lim_ok' {q : ℝ} (hq : 0 < q) (n : ℕ) (m : ℤ) (h : 1 / q ^ 2 * m * m ≤ (n * n : ℕ)) :
    -ceil1 n q ≤ m ∧ m ≤ ceil1 n q := by
  have := lim_ok (q := 1 / q) (by positivity) n m (by rw [div_pow, one_pow]; exact h)
  rwa [one_div_one_div] at this

theorem lim_one (n : ℕ) (m : ℤ) (h : 1 * (m : ℝ) * m ≤ (n * n : ℕ)) : -(n : ℤ) ≤ m ∧ m ≤ n := by
  have h' : m ^ 2 ≤ (n : ℤ) ^ 2 := by
    have : (m : ℝ) ^ 2 ≤ (n : ℝ) ^ 2 := by push_cast at h; nlinarith
    exact_mod_cast this
  exact abs_le_of_sq_le_sq' h' (by positivity)

theorem per_bits (c : Cfg) :
    (periodicity c = 1 → c.per 0 = true ∧ c.per 1 = false ∧ c.per 2 = false) ∧
    (periodicity c = 2 → c.per 0 = false ∧ c.per 1 = true ∧ c.per 2 = false) ∧
    (periodicity c = 3 → c.per 0 = true ∧ c.per 1 = true ∧ c.per 2 = false) ∧
    (periodicity c = 4 → c.per 0 = false ∧ c.per 1 = false ∧ c.per 2 = true) ∧
    (periodicity c = 5 → c.per 0 = true ∧ c.per 1 = false ∧ c.per 2 = true) ∧
    (periodicity c = 6 → c.per 0 = false ∧ c.per 1 = true ∧ c.per 2 = true) ∧
    (periodicity c = 7 → c.per 0 = true ∧ c.per 1 = true ∧ c.per 2 = true) := by
  unfold periodicity
  cases c.per 0 <;> cases c.per 1 <;> cases c.per 2 <;> simp

theorem allowed_iff (c : Cfg) (h : ℤ × ℤ × ℤ) : Allowed c h ↔
    (c.per 0 = false → h.1 = 0) ∧ (c.per 1 = false → h.2.1 = 0) ∧ (c.per 2 = false → h.2.2 = 0) := by
  unfold Allowed
  rw [Fin.forall_fin_succ, Fin.forall_fin_two]
  simp [comp]

/-- the loops with the test of the ellipsoid go through a whole ball -/
theorem ball_iff (c : Cfg) (s : Fin 3 → ℝ) (lim : Fin 3 → ℤ) (w : Fin 3 → ℝ) (n : ℕ)
    (hp : ∀ k, c.per k = true → w k = s k ^ 2 ∧ ∀ m : ℤ, w k * m * m ≤ (n * n : ℕ) → -lim k ≤ m ∧ m ≤ lim k)
    (ho : ∀ k, c.per k = false → lim k = 0) (h : ℤ × ℤ × ℤ) :
    h ∈ range3 lim w n ↔ Allowed c h ∧ ∑ k, (comp h k * s k) ^ 2 ≤ (n : ℝ) ^ 2 := by
  have hmem : h ∈ range3 lim w n ↔ (∀ k, -lim k ≤ comp h k ∧ comp h k ≤ lim k) ∧
      ∑ k, w k * comp h k * comp h k ≤ (n * n : ℕ) := by
    rw [mem_range3, Fin.forall_fin_succ, Fin.forall_fin_two, Fin.sum_univ_three]
    simp [comp]
  have key : Allowed c h → ∀ k, w k * comp h k * comp h k = (comp h k * s k) ^ 2 := by
    intro ha k
    cases hk : c.per k with
    | true => rw [(hp k hk).1]; ring
    | false => rw [ha k hk]; simp
  have hn : ((n * n : ℕ) : ℝ) = (n : ℝ) ^ 2 := by push_cast; ring
  rw [hmem]
  constructor
  · rintro ⟨h1, h2⟩
    have ha : Allowed c h := by
      intro k hk
      have := h1 k
      rw [ho k hk] at this
      omega
    refine ⟨ha, ?_⟩
    rw [Finset.sum_congr rfl fun k _ => key ha k, hn] at h2
    exact h2
  · rintro ⟨ha, h2⟩
    have h3 : ∑ k, w k * comp h k * comp h k ≤ (n * n : ℕ) := by
      rw [Finset.sum_congr rfl fun k _ => key ha k, hn]; exact h2
    refine ⟨fun k => ?_, h3⟩
    cases hk : c.per k with
    | true =>
      refine (hp k hk).2 _ (le_trans ?_ h3)
      refine Finset.single_le_sum (f := fun k => w k * (comp h k : ℝ) * comp h k) (fun i _ => ?_) (Finset.mem_univ k)
      have := key ha i
      simp only [this]
      positivity
    | false => rw [ha k hk, ho k hk]; simp

theorem scale_iff (x : Fin 3 → ℝ) (U : ℝ) (hU : 0 < U) (n : ℝ) :
    ∑ k, (x k / U) ^ 2 ≤ n ^ 2 ↔ ∑ k, x k ^ 2 ≤ (n * U) ^ 2 := by
  simp only [div_pow]
  have e : ∑ k, x k ^ 2 / U ^ 2 = (∑ k, x k ^ 2) / U ^ 2 := by
    rw [Fin.sum_univ_three, Fin.sum_univ_three]; ring
  rw [e, div_le_iff₀ (by positivity), mul_pow]

theorem unit_pos (c : Cfg) (hc : c.OK) : 0 < unit c := hc.L_pos _

theorem images_iff (c : Cfg) (hc : c.OK) (h : ℤ × ℤ × ℤ) : h ∈ images c ↔
    Allowed c h ∧ ∑ k, shift c h k ^ 2 ≤ (c.series * unit c) ^ 2 := by
  have hL := hc.L_pos
  have hU := unit_pos c hc
  obtain ⟨b1, b2, b3, b4, b5, b6, b7⟩ := per_bits c
  rw [← scale_iff _ _ hU]
  have e : ∀ k, shift c h k / unit c = comp h k * (c.L k / unit c) := fun k => by unfold shift; ring
  simp only [e]
  unfold images
  have o : ∀ k, c.L k / c.L k = 1 := fun k => div_self (hL k).ne'
  have q : ∀ k l, 0 < c.L k / c.L l := fun k l => div_pos (hL k) (hL l)
  refine ball_iff c _ _ _ _ ?_ ?_ h
  · intro k hk
    rcases per_cases c hc with hp | hp | hp | hp | hp | hp | hp <;>
    [obtain ⟨p0, p1, p2⟩ := b1 hp; obtain ⟨p0, p1, p2⟩ := b2 hp; obtain ⟨p0, p1, p2⟩ := b3 hp;
      obtain ⟨p0, p1, p2⟩ := b4 hp; obtain ⟨p0, p1, p2⟩ := b5 hp; obtain ⟨p0, p1, p2⟩ := b6 hp;
      obtain ⟨p0, p1, p2⟩ := b7 hp] <;>
    simp only [consts, unit, lead, hp] <;> fin_cases k <;>
    first
    | exact Bool.noConfusion (p0.symm.trans hk : false = true)
    | exact Bool.noConfusion (p1.symm.trans hk : false = true)
    | exact Bool.noConfusion (p2.symm.trans hk : false = true)
    | exact ⟨rfl, fun m => lim_ok (q _ _) _ m⟩
    | exact ⟨by simp [o], fun m => lim_one _ m⟩
  · intro k hk
    rcases per_cases c hc with hp | hp | hp | hp | hp | hp | hp <;>
    [obtain ⟨p0, p1, p2⟩ := b1 hp; obtain ⟨p0, p1, p2⟩ := b2 hp; obtain ⟨p0, p1, p2⟩ := b3 hp;
      obtain ⟨p0, p1, p2⟩ := b4 hp; obtain ⟨p0, p1, p2⟩ := b5 hp; obtain ⟨p0, p1, p2⟩ := b6 hp;
      obtain ⟨p0, p1, p2⟩ := b7 hp] <;>
    simp only [consts, hp] <;> fin_cases k <;>
    first
    | rfl
    | exact Bool.noConfusion (p0.symm.trans hk : true = false)
    | exact Bool.noConfusion (p1.symm.trans hk : true = false)
    | exact Bool.noConfusion (p2.symm.trans hk : true = false)

/-- the waves, unless the open direction is y or x and the other two are periodic -/
theorem waves_iff (c : Cfg) (hc : c.OK) (h5 : periodicity c ≠ 5) (h6 : periodicity c ≠ 6) (h : ℤ × ℤ × ℤ) :
    h ∈ waves c ↔ Allowed c h ∧ ∑ k, (comp h k / c.L k) ^ 2 ≤ (c.series / unit c) ^ 2 := by
  have hL := hc.L_pos
  have hU := unit_pos c hc
  obtain ⟨b1, b2, b3, b4, b5, b6, b7⟩ := per_bits c
  have e0 := scale_iff (fun k => comp h k / c.L k) (1 / unit c) (by positivity) c.series
  rw [mul_one_div] at e0
  rw [← e0]
  have e : ∀ k, comp h k / c.L k / (1 / unit c) = comp h k * (unit c / c.L k) := fun k => by
    have := (hL k).ne'; field_simp
  simp only [e]
  unfold waves
  have o : ∀ k, c.L k / c.L k = 1 := fun k => div_self (hL k).ne'
  have q : ∀ k l, 0 < c.L k / c.L l := fun k l => div_pos (hL k) (hL l)
  have i2 : ∀ k l, 1 / (c.L k / c.L l) ^ 2 = (c.L l / c.L k) ^ 2 := fun k l => by
    have := (hL k).ne'; have := (hL l).ne'; field_simp
  refine ball_iff c _ _ _ _ ?_ ?_ h
  · intro k hk
    rcases per_cases c hc with hp | hp | hp | hp | hp | hp | hp <;>
    [obtain ⟨p0, p1, p2⟩ := b1 hp; obtain ⟨p0, p1, p2⟩ := b2 hp; obtain ⟨p0, p1, p2⟩ := b3 hp;
      obtain ⟨p0, p1, p2⟩ := b4 hp; exact absurd hp h5; exact absurd hp h6;
      obtain ⟨p0, p1, p2⟩ := b7 hp] <;>
    simp only [consts, unit, lead, hp] <;> fin_cases k <;>
    first
    | exact Bool.noConfusion (p0.symm.trans hk : false = true)
    | exact Bool.noConfusion (p1.symm.trans hk : false = true)
    | exact Bool.noConfusion (p2.symm.trans hk : false = true)
    | exact ⟨i2 _ _, fun m => lim_ok' (q _ _) _ m⟩
    | exact ⟨by simp [o], fun m => lim_one _ m⟩
  · intro k hk
    rcases per_cases c hc with hp | hp | hp | hp | hp | hp | hp <;>
    [obtain ⟨p0, p1, p2⟩ := b1 hp; obtain ⟨p0, p1, p2⟩ := b2 hp; obtain ⟨p0, p1, p2⟩ := b3 hp;
      obtain ⟨p0, p1, p2⟩ := b4 hp; exact absurd hp h5; exact absurd hp h6;
      obtain ⟨p0, p1, p2⟩ := b7 hp] <;>
    simp only [consts, hp] <;> fin_cases k <;>
    first
    | rfl
    | exact Bool.noConfusion (p0.symm.trans hk : true = false)
    | exact Bool.noConfusion (p1.symm.trans hk : true = false)
    | exact Bool.noConfusion (p2.symm.trans hk : true = false)

end Gandalf.Ewald
