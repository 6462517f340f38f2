import Verif.Proof.HGuess

set_option autoImplicit false

namespace Gandalf

noncomputable section

open HGuess

namespace C99

variable {n : ℕ}

/-- Two particles at opposite corners of a unit cube -/
def pair (n : ℕ) : List (Part n) := [⟨fun _ => 0, 0, 0⟩, ⟨fun _ => 1, 0, 0⟩]

theorem pair_inside : Inside (pair n) := by
  intro p hp k
  simp only [pair, List.mem_cons, List.not_mem_nil, or_false] at hp
  rcases hp with rfl | rfl <;> norm_num [big]

theorem pair_volume : volume (pair n) = 1 := by
  obtain ⟨e1, e2⟩ := box_unique (pair n) _ _ (fun _ => 0) (fun _ => 1)
    (isBox _ (by simp [pair]) pair_inside) (by
      refine ⟨fun p hp k => ?_, fun k => ⟨⟨_, List.mem_cons_self, rfl⟩,
        ⟨_, List.mem_cons_of_mem _ List.mem_cons_self, rfl⟩⟩⟩
      simp only [pair, List.mem_cons, List.not_mem_nil, or_false] at hp
      rcases hp with rfl | rfl <;> norm_num)
  simp [volume, e1, e2]

end C99

variable {n : ℕ}

/-- Every particle gets the same smoothing length and the square of the range that belongs to it, and
stays where it is. -/
theorem C99_all (range h_fac : ℝ) (ps : List (Part n)) :
    (guess range h_fac ps).length = ps.length ∧
      ∀ i (hi : i < ps.length) (hi' : i < (guess range h_fac ps).length),
        (guess range h_fac ps)[i].r = ps[i].r ∧
        (guess range h_fac ps)[i].h = hguess range h_fac ps ∧
        (guess range h_fac ps)[i].hrangesqd = (range * (guess range h_fac ps)[i].h) ^ 2 := by
  refine ⟨by simp [guess], fun i hi hi' => ?_⟩
  have e : (guess range h_fac ps)[i] =
      { ps[i] with
        h := hguess range h_fac ps
        hrangesqd := range ^ 2 * hguess range h_fac ps * hguess range h_fac ps } := by
    simp only [guess, List.getElem_map]
  rw [e]
  exact ⟨rfl, rfl, by show range ^ 2 * _ * _ = _; ring⟩

example : ((guess 2 1 (C99.pair 3)).map fun p => p.r 0) = [0, 1] := by
  simp [guess, C99.pair]

/-- The box used for the volume is the smallest one about the particles. -/
theorem C99_box (ps : List (Part n)) (hne : ps ≠ []) (hin : Inside ps) :
    IsBox ps (rmin ps) (rmax ps) := isBox ps hne hin

example : IsBox (C99.pair 3) (rmin (C99.pair 3)) (rmax (C99.pair 3)) :=
  C99_box _ (by simp [C99.pair]) C99.pair_inside

/-- In one and three dimensions the guess is such that the ball of twice its size has `Ngather`
particles, if they are spread evenly over the box. -/
theorem C99_count (hn : n = 1 ∨ n = 3) (range h_fac : ℝ) (ps : List (Part n)) (hne : ps ≠ [])
    (hv : 0 < volume ps) :
    inBall n ps.length (volume ps) (2 * hguess range h_fac ps) = ngather n range h_fac := by
  have hN : (0 : ℝ) < ps.length := by exact_mod_cast List.length_pos_iff.mpr hne
  have hn' : 1 ≤ n ∧ n ≤ 3 := by omega
  have hb := ball_pos hn' 2 two_pos
  unfold inBall
  rw [mul_comm 2, ball_pow hn', hguess, hOf_pow hn _ _ _ hv.le (Nat.cast_nonneg _) hN]
  field_simp

example : inBall 3 (2 : ℕ) (volume (C99.pair 3)) (2 * hguess 2 1 (C99.pair 3)) = ngather 3 2 1 :=
  C99_count (Or.inr rfl) 2 1 (C99.pair 3) (by simp [C99.pair])
    (by rw [C99.pair_volume]; exact one_pos)

/-- In two dimensions `π` is missing: the circle of twice the guess has `π` times as many. -/
theorem C99_count_2d (range h_fac : ℝ) (ps : List (Part 2)) (hne : ps ≠ []) (hv : 0 < volume ps) :
    inBall 2 ps.length (volume ps) (2 * hguess range h_fac ps) =
      Real.pi * ngather 2 range h_fac := by
  have hN : (0 : ℝ) < ps.length := by exact_mod_cast List.length_pos_iff.mpr hne
  have hb := ball_pos (n := 2) (by omega) 2 two_pos
  unfold inBall
  rw [mul_comm 2, ball_pow (by omega), hguess, hOf_sq _ _ _ hv.le (Nat.cast_nonneg _) hN]
  field_simp

/-- So what holds in one and three dimensions fails in two. -/
theorem C99_count_2d_fails : ∃ ps : List (Part 2), ps ≠ [] ∧ 0 < volume ps ∧
    3 * (ngather 2 2 1 : ℝ) < inBall 2 ps.length (volume ps) (2 * hguess 2 1 ps) := by
  refine ⟨C99.pair 2, by simp [C99.pair], by rw [C99.pair_volume]; exact one_pos, ?_⟩
  rw [C99_count_2d 2 1 _ (by simp [C99.pair]) (by rw [C99.pair_volume]; exact one_pos)]
  have h3 := Real.pi_gt_three
  have hg : (0 : ℝ) < ngather 2 2 1 := by
    have : 0 < ngather 2 2 1 := by
      show 0 < ⌊Real.pi * (2 * 1) ^ 2⌋₊
      exact Nat.floor_pos.mpr (by linarith)
    exact_mod_cast this
  exact mul_lt_mul_of_pos_right h3 hg

/-- Kernels of range 2, one and three dimensions: the guess is never larger than the smoothing length
of an even distribution over the box, and their powers differ by less than what one neighbour
takes. -/
theorem C99_bracket (hn : n = 1 ∨ n = 3) (h_fac : ℝ) (hf : 0 < h_fac) (ps : List (Part n))
    (hne : ps ≠ []) (hin : Inside ps) :
    0 ≤ hguess 2 h_fac ps ∧ hguess 2 h_fac ps ≤ even n h_fac ps.length (volume ps) ∧
      (0 < volume ps → even n h_fac ps.length (volume ps) ^ n <
        hguess 2 h_fac ps ^ n + volume ps / ps.length / ball n 2) := by
  have hN : (0 : ℝ) < ps.length := by exact_mod_cast List.length_pos_iff.mpr hne
  have hn' : 1 ≤ n ∧ n ≤ 3 := by omega
  have hb := ball_pos hn' 2 two_pos
  have hv := volume_nonneg ps hne hin
  have hg0 : (0 : ℝ) ≤ ngather n 2 h_fac := Nat.cast_nonneg _
  have e := hOf_pow hn (volume ps) ps.length (ngather n 2 h_fac) hv hg0 hN
  have e2 := even_pow hn'.1 h_fac ps.length (volume ps) hv hN
  have hbf : ball n (2 * h_fac) = ball n 2 * h_fac ^ n := by
    rw [mul_comm, ball_pow hn']
  have hle : (ngather n 2 h_fac : ℝ) ≤ ball n 2 * h_fac ^ n := by
    rw [ngather_floor hn', hbf]
    exact Nat.floor_le (by positivity)
  have hlt : ball n 2 * h_fac ^ n < ngather n 2 h_fac + 1 := by
    rw [ngather_floor hn', hbf]
    exact Nat.lt_floor_add_one _
  have h0 : 0 ≤ hguess 2 h_fac ps := hOf_nonneg _ _ _ hv hg0 hN
  have hev : 0 ≤ even n h_fac ps.length (volume ps) := by
    unfold even
    positivity
  refine ⟨h0, ?_, fun hvp => ?_⟩
  · refine le_of_pow_le_pow_left₀ (n := n) (by omega) hev ?_
    rw [e2]
    unfold hguess
    rw [e, div_le_iff₀ (by positivity)]
    have : h_fac ^ n * (volume ps / ps.length) * (ps.length * ball n 2) =
        volume ps * (ball n 2 * h_fac ^ n) := by
      field_simp
    rw [this]
    exact mul_le_mul_of_nonneg_left hle hv
  · rw [e2]
    unfold hguess
    rw [e]
    have : volume ps * (ngather n 2 h_fac : ℝ) / (ps.length * ball n 2) +
        volume ps / ps.length / ball n 2 =
        volume ps * (ngather n 2 h_fac + 1) / (ps.length * ball n 2) := by
      field_simp
    rw [this, lt_div_iff₀ (by positivity)]
    have : h_fac ^ n * (volume ps / ps.length) * (ps.length * ball n 2) =
        volume ps * (ball n 2 * h_fac ^ n) := by
      field_simp
    rw [this]
    exact mul_lt_mul_of_pos_left hlt hvp

example : hguess 2 (6 / 5) (C99.pair 3) ≤ even 3 (6 / 5) (2 : ℕ) (volume (C99.pair 3)) :=
  (C99_bracket (Or.inr rfl) (6 / 5) (by norm_num) (C99.pair 3) (by simp [C99.pair])
    C99.pair_inside).2.1

/-- In two dimensions the guess is more than half as large again as the smoothing length of an even
distribution. -/
theorem C99_2d_fails (h_fac : ℝ) (hf : 1 ≤ h_fac) (ps : List (Part 2)) (hne : ps ≠ [])
    (hv : 0 < volume ps) :
    3 / 2 * even 2 h_fac ps.length (volume ps) < hguess 2 h_fac ps := by
  have hN : (0 : ℝ) < ps.length := by exact_mod_cast List.length_pos_iff.mpr hne
  have hn' : 1 ≤ 2 ∧ 2 ≤ 3 := by omega
  have hg0 : (0 : ℝ) ≤ ngather 2 2 h_fac := Nat.cast_nonneg _
  have hpi := Real.pi_gt_three
  have e := hOf_sq (volume ps) ps.length (ngather 2 2 h_fac) hv.le hg0 hN
  have e2 := even_pow (n := 2) (by omega) h_fac ps.length (volume ps) hv.le hN
  have hlt : Real.pi * (2 * h_fac) ^ 2 < ngather 2 2 h_fac + 1 := Nat.lt_floor_add_one _
  refine lt_of_pow_lt_pow_left₀ 2 (hOf_nonneg _ _ _ hv.le hg0 hN) ?_
  unfold hguess
  rw [mul_pow, e2, e]
  have : Real.pi * (volume ps * (ngather 2 2 h_fac : ℝ) / (ps.length * ball 2 2)) =
      volume ps / ps.length * (ngather 2 2 h_fac / 4) := by
    simp only [ball]
    field_simp
    ring
  rw [this]
  have hq : 0 < volume ps / ps.length := by positivity
  have hsq : 1 ≤ h_fac ^ 2 := one_le_pow₀ hf
  have : (3 / 2) ^ 2 * h_fac ^ 2 < (ngather 2 2 h_fac : ℝ) / 4 := by nlinarith
  calc (3 / 2) ^ 2 * (h_fac ^ 2 * (volume ps / ps.length))
      = volume ps / ps.length * ((3 / 2) ^ 2 * h_fac ^ 2) := by ring
    _ < _ := mul_lt_mul_of_pos_left this hq

example : 3 / 2 * even 2 1 (2 : ℕ) (volume (C99.pair 2)) < hguess 2 1 (C99.pair 2) :=
  C99_2d_fails 1 le_rfl (C99.pair 2) (by simp [C99.pair]) (by rw [C99.pair_volume]; exact one_pos)

/-- The guess takes the range of the kernel to be 2 whatever it is: within the range of the kernel the
number is another one. -/
theorem C99_range (hn : n = 1 ∨ n = 3) (range h_fac : ℝ) (ps : List (Part n)) (hne : ps ≠ [])
    (hv : 0 < volume ps) :
    inBall n ps.length (volume ps) (range * hguess range h_fac ps) =
      (range / 2) ^ n * ngather n range h_fac := by
  rw [← C99_count hn range h_fac ps hne hv]
  have hn' : 1 ≤ n ∧ n ≤ 3 := by omega
  have : range * hguess range h_fac ps = range / 2 * (2 * hguess range h_fac ps) := by ring
  unfold inBall
  rw [this, ball_pow hn']
  ring

/-- Quintic kernel, range 3, three dimensions: more than three times the number meant. -/
theorem C99_quintic_fails (h_fac : ℝ) (hf : 1 ≤ h_fac) (ps : List (Part 3)) (hne : ps ≠ [])
    (hv : 0 < volume ps) :
    3 * (ngather 3 3 h_fac : ℝ) <
      inBall 3 ps.length (volume ps) (3 * hguess 3 h_fac ps) := by
  rw [C99_range (Or.inr rfl) 3 h_fac ps hne hv]
  have hpi := Real.pi_gt_three
  have hg : (0 : ℝ) < ngather 3 3 h_fac := by
    have : 0 < ngather 3 3 h_fac := by
      show 0 < ⌊4 * Real.pi * (3 * h_fac) ^ 3 / 3⌋₊
      refine Nat.floor_pos.mpr ?_
      have : 1 ≤ (3 * h_fac) ^ 3 := one_le_pow₀ (by linarith)
      nlinarith
    exact_mod_cast this
  exact mul_lt_mul_of_pos_right (by norm_num) hg

example : 3 * (ngather 3 3 1 : ℝ) <
    inBall 3 (2 : ℕ) (volume (C99.pair 3)) (3 * hguess 3 1 (C99.pair 3)) :=
  C99_quintic_fails 1 le_rfl (C99.pair 3) (by simp [C99.pair])
    (by rw [C99.pair_volume]; exact one_pos)

/-- Stretching and shifting the particles stretches the guess. -/
theorem C99_scale (hn : 1 ≤ n ∧ n ≤ 3) (range h_fac l : ℝ) (hl : 0 < l) (c : Vec n ℝ)
    (ps : List (Part n)) (hne : ps ≠ []) (hin : Inside ps) (hin' : Inside (move l c ps)) :
    hguess range h_fac (move l c ps) = l * hguess range h_fac ps := by
  have hN : (0 : ℝ) < ps.length := by exact_mod_cast List.length_pos_iff.mpr hne
  have hv := volume_nonneg ps hne hin
  have hlen : (move l c ps).length = ps.length := by simp [move]
  have hg0 : (0 : ℝ) ≤ ngather n range h_fac := Nat.cast_nonneg _
  have hb := ball_pos hn 2 two_pos
  unfold hguess
  rw [volume_move l hl c ps hne hin hin', hlen]
  have hv' : 0 ≤ l ^ n * volume ps := by positivity
  have h0 := hOf_nonneg (n := n) (volume ps) ps.length _ hv hg0 hN
  refine (pow_left_inj₀ (n := n) (hOf_nonneg _ _ _ hv' hg0 hN) (by positivity) (by omega)).mp ?_
  rw [mul_pow]
  by_cases h2 : n = 2
  · subst h2
    rw [hOf_sq _ _ _ hv' hg0 hN, hOf_sq _ _ _ hv hg0 hN]
    ring
  · have h13 : n = 1 ∨ n = 3 := by omega
    rw [hOf_pow h13 _ _ _ hv' hg0 hN, hOf_pow h13 _ _ _ hv hg0 hN]
    ring

example : hguess 2 1 (move 2 (fun _ => 1) (C99.pair 2)) = 2 * hguess 2 1 (C99.pair 2) :=
  C99_scale (by omega) 2 1 2 two_pos _ _ (by simp [C99.pair]) C99.pair_inside (by
    intro p hp k
    simp only [move, C99.pair, List.map_cons, List.map_nil, List.mem_cons, List.not_mem_nil,
      or_false] at hp
    rcases hp with rfl | rfl <;> norm_num [big])

/-- Particles in a line or a plane along the axes, or a single particle, get the smoothing length
zero. -/
theorem C99_flat_fails (hn : 1 ≤ n ∧ n ≤ 3) (range h_fac : ℝ) (ps : List (Part n)) (hne : ps ≠ [])
    (hin : Inside ps) (k : Fin n) (x : ℝ) (hk : ∀ p ∈ ps, p.r k = x) :
    ∀ p ∈ guess range h_fac ps, p.h = 0 ∧ p.hrangesqd = 0 := by
  have h0 : hguess range h_fac ps = 0 := by
    unfold hguess
    rw [volume_flat ps hne hin k x hk]
    obtain ⟨h1, h3⟩ := hn
    interval_cases n
    · simp [hOf]
    · simp [hOf]
    · simp [hOf]
  intro p hp
  obtain ⟨q, _, rfl⟩ := List.mem_map.mp hp
  exact ⟨h0, by show range ^ 2 * _ * _ = 0; rw [h0]; ring⟩

example : ∀ p ∈ guess 2 1 ([⟨fun _ => 5, 1, 4⟩] : List (Part 3)), p.h = 0 ∧ p.hrangesqd = 0 :=
  C99_flat_fails (by omega) 2 1 _ (by simp) (by
    intro p hp k
    simp only [List.mem_cons, List.not_mem_nil, or_false] at hp
    subst hp
    norm_num [big]) 0 5 (by simp)

/-- Otherwise it is positive, as soon as the ball of the kernel takes one neighbour. -/
theorem C99_positive (hn : 1 ≤ n ∧ n ≤ 3) (range h_fac : ℝ) (ps : List (Part n)) (hne : ps ≠ [])
    (hv : 0 < volume ps) (hb : 1 ≤ ball n (range * h_fac)) : 0 < hguess range h_fac ps := by
  have hN : (0 : ℝ) < ps.length := by exact_mod_cast List.length_pos_iff.mpr hne
  have hg : (0 : ℝ) < ngather n range h_fac := by
    have : 0 < ngather n range h_fac := by
      rw [ngather_floor hn]
      exact Nat.floor_pos.mpr hb
    exact_mod_cast this
  have hpi := Real.pi_pos
  unfold hguess
  obtain ⟨h1, h3⟩ := hn
  interval_cases n
  · simp only [hOf]; positivity
  · exact Real.sqrt_pos.mpr (by positivity)
  · exact Real.rpow_pos_of_pos (by positivity) _

example : 0 < hguess 2 1 (C99.pair 1) :=
  C99_positive (by omega) 2 1 _ (by simp [C99.pair]) (by rw [C99.pair_volume]; exact one_pos)
    (by norm_num [ball])

/-- SPH knows `Ngather` when the tree sizes its buffers. -/
theorem C99_ngather (provided : Bool) (range h_fac : ℝ) :
    ngatherAtBuild .sph provided n range h_fac = some (ngather n range h_fac) := by
  cases provided <;> rfl

/-- The meshless schemes read it without having set it if the smoothing lengths are given. -/
theorem C99_ngather_fails (range h_fac : ℝ) :
    ngatherAtBuild .meshless true n range h_fac = none := rfl

end

end Gandalf
