import Verif.Spec.Supernova

set_option autoImplicit false
set_option linter.unusedSectionVars false

namespace Gandalf.Sn

open Real

variable {n : ℕ}

/-! ### creation -/

theorem create_ok (c : Clock) (ptype : ℤ) (m u : ℝ) (r v : Vec n ℝ) (s : Store n) (hs : s.OK) :
    ∃ s' old, create c ptype m u r v s = some s' ∧ s'.Nhydro = s.Nhydro + 1 ∧ s'.Ntot = s.Ntot + 1 ∧ s'.OK ∧
      (∀ i < s.Nhydro, s'.part i = s.part i) ∧ s'.part s.Nhydro = newPart c s.Nhydro ptype m u r v old ∧
      (s.Nhydro < s.Nhydromax → old = s.part s.Nhydro) ∧ (s.Nhydro = s.Nhydromax → old = Part.fresh) := by
  obtain ⟨h1, h2⟩ := hs
  by_cases h : s.Nhydro < s.Nhydromax
  · have hm : makeRoom s = s := by rw [makeRoom, if_neg (by omega)]
    refine ⟨⟨Function.update s.part s.Nhydro (newPart c s.Nhydro ptype m u r v (s.part s.Nhydro)), s.Nhydro + 1,
      s.Nhydromax, s.Ntot + 1⟩, s.part s.Nhydro, by simp only [create, hm, if_pos h], rfl, rfl, ⟨?_, h2⟩, ?_, ?_,
      fun _ => rfl, ?_⟩
    · show s.Nhydro + 1 ≤ s.Nhydromax; omega
    · intro i hi; simp [Function.update_apply, show i ≠ s.Nhydro by omega]
    · simp
    · intro; omega
  · have he : s.Nhydro = s.Nhydromax := by omega
    have hg : 6 * s.Nhydromax / 5 > s.Nhydromax := by omega
    have hm : makeRoom s = { s with
        part := fun i => if i < s.Nhydromax then s.part i else Part.fresh
        Nhydromax := 6 * s.Nhydromax / 5 } := by
      rw [makeRoom, if_pos (by omega), allocate, if_pos hg]
    refine ⟨_, Part.fresh, by simp only [create, hm]; rw [if_pos (by omega)], rfl, rfl, ⟨?_, ?_⟩, ?_, ?_, ?_,
      fun _ => rfl⟩
    · show s.Nhydro + 1 ≤ 6 * s.Nhydromax / 5; omega
    · show 5 ≤ 6 * s.Nhydromax / 5; omega
    · intro i hi
      simp only [Function.update_apply, if_neg (show i ≠ s.Nhydro by omega), if_pos (show i < s.Nhydromax by omega)]
    · simp only [Function.update_self, if_neg h]
    · intro; omega

theorem createAll_ok (c : Clock) (a : Args n) (N : ℕ) : ∀ (pos : List (Vec n ℝ)) (s : Store n), s.OK →
    ∃ s', createAll c a N pos s = some s' ∧ s'.Nhydro = s.Nhydro + pos.length ∧ s'.Ntot = s.Ntot + pos.length ∧ s'.OK ∧
      (∀ i < s.Nhydro, s'.part i = s.part i) ∧
      ∀ j (hj : j < pos.length), ∃ old, s'.part (s.Nhydro + j) =
        newPart c (s.Nhydro + j) 0 a.mmean (uinj a N) pos[j] (blast a N pos[j]) old
  | [], s, hs => ⟨s, rfl, rfl, rfl, hs, fun _ _ => rfl, fun j hj => absurd hj (by simp)⟩
  | x :: xs, s, hs => by
    obtain ⟨s1, old, h1, hN, hT, hok, hkeep, hnew, _⟩ := create_ok c 0 a.mmean (uinj a N) x (blast a N x) s hs
    obtain ⟨s2, h2, hN2, hT2, hok2, hkeep2, hnew2⟩ := createAll_ok c a N xs s1 hok
    refine ⟨s2, by rw [createAll, h1]; exact h2, by rw [hN2, hN, List.length_cons]; omega,
      by rw [hT2, hT, List.length_cons]; omega, hok2, ?_, ?_⟩
    · intro i hi
      rw [hkeep2 i (by omega), hkeep i hi]
    · intro j hj
      cases j with
      | zero => exact ⟨old, by rw [Nat.add_zero, hkeep2 _ (by omega), hnew]; rfl⟩
      | succ j =>
        obtain ⟨o, ho⟩ := hnew2 j (by simpa using hj)
        refine ⟨o, ?_⟩
        rw [hN] at ho
        rw [show s.Nhydro + (j + 1) = s.Nhydro + 1 + j by omega, ho]
        rfl

/-! ### heating -/

theorem heat_foldl (a : Args n) (N : ℕ) : ∀ (neib : List ℕ) (q : ℕ → Part n), neib.Nodup → ∀ i,
    neib.foldl (fun q i => Function.update q i (heat a N (q i))) q i = if i ∈ neib then heat a N (q i) else q i
  | [], q, _, i => by simp
  | x :: xs, q, h, i => by
    rw [List.nodup_cons] at h
    rw [List.foldl_cons, heat_foldl a N xs _ h.2]
    by_cases hx : i = x
    · subst hx; simp [h.1]
    · simp [hx]

theorem heatAll_part (a : Args n) (N : ℕ) (neib : List ℕ) (s : Store n) (h : neib.Nodup) (i : ℕ) :
    (heatAll a N neib s).part i = if i ∈ neib then heat a N (s.part i) else s.part i := heat_foldl a N neib s.part h i

theorem inject_ok (c : Clock) (a : Args n) (neib : List ℕ) (pos : List (Vec n ℝ)) (s : Store n) (hs : s.OK)
    (hn : Neibs s neib) :
    ∃ s', inject c a neib pos s = some s' ∧ s'.Nhydro = s.Nhydro + pos.length ∧ s'.Ntot = s.Ntot + pos.length ∧ s'.OK ∧
      (∀ i < s.Nhydro, s'.part i = if i ∈ neib then heat a (pos.length + neib.length) (s.part i) else s.part i) ∧
      ∀ j (hj : j < pos.length), ∃ old, s'.part (s.Nhydro + j) = newPart c (s.Nhydro + j) 0 a.mmean
        (uinj a (pos.length + neib.length)) pos[j] (blast a (pos.length + neib.length) pos[j]) old := by
  obtain ⟨s', h, hN, hT, hok, hk, hnew⟩ := createAll_ok c a (pos.length + neib.length) pos
    (heatAll a (pos.length + neib.length) neib s) ⟨hs.1, hs.2⟩
  exact ⟨s', h, hN, hT, hok, fun i hi => by rw [hk i hi, heatAll_part _ _ _ _ hn.1], hnew⟩

/-! ### sums -/

theorem sum_heat (f g : ℕ → ℝ) (neib : List ℕ) (N : ℕ) (h : neib.Nodup) (hr : ∀ i ∈ neib, i < N) :
    ∑ i ∈ Finset.range N, (if i ∈ neib then g i else f i) =
      ∑ i ∈ Finset.range N, f i + (neib.map fun i => g i - f i).sum := by
  have e : ∀ i ∈ Finset.range N, (if i ∈ neib then g i else f i) = f i + if i ∈ neib.toFinset then g i - f i else 0 := by
    intro i _
    by_cases hi : i ∈ neib <;> simp [hi]
  rw [Finset.sum_congr rfl e, Finset.sum_add_distrib, Finset.sum_ite_mem,
    Finset.inter_eq_right.2 (fun i hi => by simpa using hr i (by simpa using hi)), List.sum_toFinset _ h]

theorem sum_list {β : Type*} (ψ : β → ℝ) : ∀ (l : List β) (f : ℕ → ℝ), (∀ j (hj : j < l.length), f j = ψ l[j]) →
    ∑ j ∈ Finset.range l.length, f j = (l.map ψ).sum
  | [], _, _ => by simp
  | x :: xs, f, h => by
    rw [List.length_cons, Finset.sum_range_succ', List.map_cons, List.sum_cons,
      sum_list ψ xs (fun j => f (j + 1)) (fun j hj => h (j + 1) (by simpa using hj)), h 0 (by simp), add_comm]
    rfl

theorem sum_after {c : Clock} {a : Args n} {neib : List ℕ} {pos : List (Vec n ℝ)} {s s' : Store n} (hs : s.OK)
    (hn : Neibs s neib) (h : inject c a neib pos s = some s') (φ : Part n → ℝ) (ψ : Vec n ℝ → ℝ)
    (hφ : ∀ i x old, φ (newPart c i 0 a.mmean (uinj a (pos.length + neib.length)) x
      (blast a (pos.length + neib.length) x) old) = ψ x) :
    ∑ i ∈ Finset.range s'.Nhydro, φ (s'.part i) = ∑ i ∈ Finset.range s.Nhydro, φ (s.part i) +
      (neib.map fun i => φ (heat a (pos.length + neib.length) (s.part i)) - φ (s.part i)).sum + (pos.map ψ).sum := by
  obtain ⟨s1, h1, hN, -, -, hk, hnew⟩ := inject_ok c a neib pos s hs hn
  obtain rfl : s1 = s' := by rw [h1] at h; exact Option.some.inj h
  rw [hN, Finset.sum_range_add]
  congr 1
  · rw [← sum_heat (fun i => φ (s.part i)) (fun i => φ (heat a (pos.length + neib.length) (s.part i))) neib s.Nhydro hn.1 hn.2]
    refine Finset.sum_congr rfl fun i hi => ?_
    rw [hk i (by simpa using hi)]
    by_cases hi : i ∈ neib <;> simp [hi]
  · refine sum_list ψ pos _ fun j hj => ?_
    obtain ⟨old, ho⟩ := hnew j hj
    rw [ho, hφ]

theorem sum_map_neg {β : Type*} (f : β → ℝ) : ∀ l : List β, (l.map fun i => -f i).sum = -(l.map f).sum
  | [] => by simp
  | x :: xs => by
    rw [List.map_cons, List.sum_cons, sum_map_neg f xs, List.map_cons, List.sum_cons]
    ring

/-! ### energy of one particle -/

theorem vrad_sq (a : Args n) (h : a.OK) (N : ℕ) :
    vrad a N * vrad a N = 2 / (N : ℝ) / a.mmean * a.Einj * 1 / (a.R + 1) := by
  have := h.Einj; have := h.R; have := h.mmean
  exact mul_self_sqrt (by positivity)

theorem blast_sq (a : Args n) (N : ℕ) (r : Vec n ℝ) :
    dot (blast a N r) (blast a N r) =
      dot (fun k => r k - a.pos k) (fun k => r k - a.pos k) / (drmag a r * drmag a r) * (vrad a N * vrad a N) := by
  simp only [dot, blast, div_eq_mul_inv, Finset.sum_mul]
  exact Finset.sum_congr rfl fun k _ => by ring

theorem dot_self_nonneg (x : Vec n ℝ) : 0 ≤ dot x x := Finset.sum_nonneg fun _ _ => mul_self_nonneg _

/-- the share of the kinetic energy given: below one -/
theorem share_le (a : Args n) (h : a.OK) (r : Vec n ℝ) :
    dot (fun k => r k - a.pos k) (fun k => r k - a.pos k) / (drmag a r * drmag a r) ≤ 1 := by
  have h0 := dot_self_nonneg (fun k => r k - a.pos k)
  have h1 : drmag a r = sqrt (dot (fun k => r k - a.pos k) (fun k => r k - a.pos k)) + a.small := rfl
  rw [h1]
  generalize dot (fun k => r k - a.pos k) (fun k => r k - a.pos k) = D at *
  have hq := mul_self_sqrt h0
  have hp := sqrt_nonneg D
  generalize sqrt D = q at *
  apply div_le_one_of_le₀
  · nlinarith [h.small, mul_nonneg hp h.small, mul_nonneg h.small h.small]
  · exact mul_self_nonneg _

theorem share_one (a : Args n) (hs : a.small = 0) (r : Vec n ℝ) (hr : r ≠ a.pos) :
    dot (fun k => r k - a.pos k) (fun k => r k - a.pos k) / (drmag a r * drmag a r) = 1 := by
  have h0 := dot_self_nonneg (fun k => r k - a.pos k)
  have hne : dot (fun k => r k - a.pos k) (fun k => r k - a.pos k) ≠ 0 := by
    intro h
    apply hr
    rw [dot, Finset.sum_eq_zero_iff_of_nonneg fun k _ => mul_self_nonneg _] at h
    funext k
    have := h k (Finset.mem_univ k)
    nlinarith [mul_self_eq_zero.1 this]
  rw [drmag, hs, add_zero, mul_self_sqrt h0, div_self hne]

/-- energy per mass of what explodes -/
theorem per_mass (a : Args n) (h : a.OK) (N : ℕ) (hN : 0 < N) :
    1 / 2 * (2 / (N : ℝ) / a.mmean * a.Einj * 1 / (a.R + 1)) + uinj a N = a.Einj / (N * a.mmean) := by
  have h1 := h.R; have h2 := h.mmean
  have h3 : (N : ℝ) ≠ 0 := by positivity
  have h4 : a.R + 1 ≠ 0 := by positivity
  have h5 := h1.ne'
  have h6 := h2.ne'
  have h7 : 1 + 1 / a.R = (a.R + 1) / a.R := by field_simp
  rw [uinj, etherm, h7]
  field_simp
  ring

theorem uinj_eq (a : Args n) (h : a.OK) (N : ℕ) (hN : 0 < N) :
    uinj a N = a.R / (a.R + 1) * a.Einj / (N * a.mmean) := by
  have h1 := h.R; have h2 := h.mmean
  have h3 : (N : ℝ) ≠ 0 := by positivity
  have h4 : a.R + 1 ≠ 0 := by positivity
  have h5 := h1.ne'
  have h6 := h2.ne'
  have h7 : 1 + 1 / a.R = (a.R + 1) / a.R := by field_simp
  rw [uinj, etherm, h7]
  field_simp

theorem vrad_eq (a : Args n) (h : a.OK) (N : ℕ) (hN : 0 < N) :
    1 / 2 * (N * a.mmean) * (vrad a N * vrad a N) = 1 / (a.R + 1) * a.Einj := by
  have h1 := h.R; have h2 := h.mmean
  have h3 : (N : ℝ) ≠ 0 := by positivity
  have h4 : a.R + 1 ≠ 0 := by positivity
  have h6 := h2.ne'
  rw [vrad_sq a h]
  field_simp

theorem blast_le (a : Args n) (h : a.OK) (N : ℕ) (hN : 0 < N) (r : Vec n ℝ) :
    1 / 2 * dot (blast a N r) (blast a N r) + uinj a N ≤ a.Einj / (N * a.mmean) := by
  have h0 := vrad_sq a h N
  have h1 := blast_sq a N r
  have h2 := share_le a h r
  have h3 := per_mass a h N hN
  have h4 : 0 ≤ vrad a N * vrad a N := mul_self_nonneg _
  rw [← h0] at h3
  rw [h1]
  nlinarith [mul_le_mul_of_nonneg_right h2 h4]

theorem blast_eq (a : Args n) (h : a.OK) (hs : a.small = 0) (N : ℕ) (hN : 0 < N) (r : Vec n ℝ) (hr : r ≠ a.pos) :
    1 / 2 * dot (blast a N r) (blast a N r) + uinj a N = a.Einj / (N * a.mmean) := by
  rw [blast_sq, share_one a hs r hr, one_mul, vrad_sq a h, per_mass a h N hN]

end Gandalf.Sn
