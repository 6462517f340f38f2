import Verif.Proof.EwaldUse

/-! # C64: periodic gravity (src/Common/Ewald.cpp)

Theorems about the table built by the constructor and about `CalculatePeriodicCorrection`. They hold for every
choice of functions with the properties `Special.OK`; `exactSpecial_ok` shows that the error function and the Bessel functions
have them. -/

set_option autoImplicit false

namespace Gandalf
open Ewald Field

/-- Away from the images the tabulated acceleration is minus the gradient of the tabulated potential, for each of the seven
combinations of periodic directions. -/
theorem C64_gradient (S : Special) (hS : S.OK) (c : Cfg) (hc : c.OK) (p : P3) (hp : OffLattice c p) :
    Gradient (field S c p).acc (fun q => (field S c q).pot) p := field_grad S hS c hc p hp

/-- Mirror symmetry: the potential is even, the acceleration odd in the reflected direction and even in the others. Only one
octant has to be kept. -/
theorem C64_mirror (S : Special) (hS : S.OK) (c : Cfg) (hc : c.OK) (j : Fin 3) (p : P3) :
    (field S c (reflect j p)).pot = (field S c p).pot ∧
      (field S c (reflect j p)).acc j = -(field S c p).acc j ∧
      ∀ k, k ≠ j → (field S c (reflect j p)).acc k = (field S c p).acc k := by
  obtain ⟨h1, h2⟩ := field_reflect S hS c hc j p
  refine ⟨h1, ?_, fun k hk => ?_⟩
  · rw [h2]; unfold sg; simp
  · rw [h2]; unfold sg; simp [hk]

/-- The images that are summed are those in the periodic directions within `gr_bhewaldseriesn` lengths. -/
theorem C64_images (c : Cfg) (hc : c.OK) (h : ℤ × ℤ × ℤ) :
    h ∈ images c ↔ Allowed c h ∧ ∑ k, shift c h k ^ 2 ≤ (c.series * unit c) ^ 2 := images_iff c hc h

/-- Each long-range term is a plane wave that fits into the box, so adding whole periods does not change the sum. -/
theorem C64_waves_periodic (S : Special) (c : Cfg) (hc : c.OK) (k : Fin 3) (hk : c.per k = true) (n : ℤ) (p : P3) :
    ∑ h ∈ waves c, (long S c h (Function.update p k (p k + n * c.L k))).pot = ∑ h ∈ waves c, (long S c h p).pot :=
  Finset.sum_congr rfl fun h _ => wave_periodic hc (long_wave S c hc h) k hk n p

/-- Unless exactly x and z, or exactly y and z, are periodic, the waves that are summed are all those up to a given wave
number. (Missing: those two cases, where it is false.) -/
theorem C64_waves_partial (S : Special) (c : Cfg) (hc : c.OK) (h5 : periodicity c ≠ 5) (h6 : periodicity c ≠ 6)
    (m : ℤ × ℤ × ℤ) :
    (m ∈ waves c ↔ Allowed c m ∧ ∑ k, (comp m k / c.L k) ^ 2 ≤ (c.series / unit c) ^ 2) ∧
      (Allowed c m → IsWave c m fun p => (long S c m p).pot) := by
  refine ⟨waves_iff c hc h5 h6 m, fun ha => ?_⟩
  have h := long_wave S c hc m
  have e : wave c m = m := by
    obtain ⟨b1, b2, b3, b4, b5, b6, b7⟩ := per_bits c
    obtain ⟨a0, a1, a2⟩ := (allowed_iff c m).1 ha
    obtain ⟨x, y, z⟩ := m
    rcases per_cases c hc with hp | hp | hp | hp | hp | hp | hp
    · obtain ⟨_, p1, p2⟩ := b1 hp; simp only [wave, hp]; have e1 := a1 p1; have e2 := a2 p2; dsimp only at e1 e2; rw [e1, e2]
    · obtain ⟨p0, _, p2⟩ := b2 hp; simp only [wave, hp]; have e1 := a0 p0; have e2 := a2 p2; dsimp only at e1 e2; rw [e1, e2]
    · obtain ⟨_, _, p2⟩ := b3 hp; simp only [wave, hp]; have e2 := a2 p2; dsimp only at e2; rw [e2]
    · obtain ⟨p0, p1, _⟩ := b4 hp; simp only [wave, hp]; have e1 := a0 p0; have e2 := a1 p1; dsimp only at e1 e2; rw [e1, e2]
    · exact absurd hp h5
    · exact absurd hp h6
    · simp only [wave, hp]
  rwa [e] at h

/-- box that is ten times longer in x than in z, periodic in x and z -/
noncomputable def C64_long : Cfg := ⟨![true, false, true], ![10, 1, 1], 10, 500, 16, 1, 1 / 100000000, 5, 1⟩

/-- box that is ten times longer in z than in y, periodic in y and z -/
noncomputable def C64_tall : Cfg := ⟨![false, true, true], ![1, 1, 10], 10, 500, 16, 1, 1 / 100000000, 5, 1⟩

theorem C64_long_ok : C64_long.OK := by
  refine ⟨⟨0, rfl⟩, fun k => ?_, by simp [C64_long], by simp [C64_long], by norm_num [C64_long]⟩
  fin_cases k <;> simp [C64_long]

theorem C64_tall_ok : C64_tall.OK := by
  refine ⟨⟨1, rfl⟩, fun k => ?_, by simp [C64_tall], by simp [C64_tall], by norm_num [C64_tall]⟩
  fin_cases k <;> simp [C64_tall]

/-- In the two other cases the limits belong to the wrong directions. With the default length of the series and a box ten times
longer in x than in z, the wave with 11 periods along x is left out, although its wave number is 1.1/Lz and the limit 10/Lz,
whereas the wave with 100 periods along z is included. In the box ten times longer in z than in y the wave with
11 periods along z is left out. -/
theorem C64_waves_fails (S : Special) :
    (∀ h ∈ waves C64_long, wave C64_long h ≠ (11, 0, 0)) ∧
    (∃ h ∈ waves C64_long, wave C64_long h = (0, 0, 100)) ∧
    (∀ h ∈ waves C64_tall, wave C64_tall h ≠ (0, 0, 11)) ∧
    (∀ h, IsWave C64_long (wave C64_long h) fun p => (long S C64_long h p).pot) ∧
    (∀ h, IsWave C64_tall (wave C64_tall h) fun p => (long S C64_tall h p).pot) ∧
    ∑ k, (comp (11, 0, 0) k / C64_long.L k) ^ 2 ≤ (C64_long.series / unit C64_long) ^ 2 ∧
    ¬ ∑ k, (comp (0, 0, 100) k / C64_long.L k) ^ 2 ≤ (C64_long.series / unit C64_long) ^ 2 ∧
    ∑ k, (comp (0, 0, 11) k / C64_tall.L k) ^ 2 ≤ (C64_tall.series / unit C64_tall) ^ 2 := by
  have p5 : periodicity C64_long = 5 := by simp [periodicity, C64_long]
  have p6 : periodicity C64_tall = 6 := by simp [periodicity, C64_tall]
  have u5 : unit C64_long = 1 := by simp only [unit, lead, p5]; simp [C64_long]
  have u6 : unit C64_tall = 1 := by simp only [unit, lead, p6]; simp [C64_tall]
  refine ⟨?_, ⟨(100, 0, 0), ?_, ?_⟩, ?_, fun h => long_wave S _ C64_long_ok h, fun h => long_wave S _ C64_tall_ok h, ?_, ?_, ?_⟩
  · rintro ⟨x, y, z⟩ hh hw
    simp only [wave, p5, Prod.mk.injEq] at hw
    obtain ⟨rfl, _, rfl⟩ := hw
    unfold waves at hh
    rw [mem_range3] at hh
    have := hh.1.2.2.2
    simp only [consts, p5] at this
    simp [C64_long] at this
  · unfold waves
    rw [mem_range3]
    have hce : ceil1 10 10 = 101 := by
      unfold ceil1; rw [Int.floor_eq_iff]; norm_num
    simp only [consts, p5]
    simp [C64_long, hce]
    norm_num
  · simp [wave, p5]
  · rintro ⟨x, y, z⟩ hh hw
    simp only [wave, p6, Prod.mk.injEq] at hw
    obtain ⟨_, rfl, rfl⟩ := hw
    unfold waves at hh
    rw [mem_range3] at hh
    have := hh.1.2.1.2
    simp only [consts, p6] at this
    simp [C64_tall] at this
  · rw [u5]; simp [Fin.sum_univ_three, comp, C64_long]; norm_num
  · rw [u5]; simp [Fin.sum_univ_three, comp, C64_long]; norm_num
  · rw [u6]; simp [Fin.sum_univ_three, comp, C64_tall]; norm_num

/-- Layout of the table: each point has its own place, and the places hold potential and acceleration at that point; the origin
holds zeros. -/
theorem C64_table (S : Special) (c : Cfg) (i : Fin 3 → ℕ) (hi : ∀ k, i k < Ngrid c k) (h0 : i ≠ 0) :
    table S c (index c i) = (field S c (node c i)).pot ∧
      (∀ k : Fin 3, table S c (index c i + (k.val + 1) * size c) = (field S c (node c i)).acc k) ∧
      (∀ q : Fin 4, table S c (q.val * size c) = 0) := by
  refine ⟨?_, fun k => ?_, table_origin S c⟩
  · have := table_node S c i hi h0 0
    simpa [PA.get] using this
  · rw [table_stored S c i hi k]
    unfold stored
    rw [if_neg h0]

/-- At the points of the table, and at their mirror images, the reading gives the exact values of the sums. -/
theorem C64_nodes (S : Special) (hS : S.OK) (c : Cfg) (hc : c.OK) (hv : c.Covers) (i : Fin 3 → ℕ)
    (hi : ∀ k, i k < Ncells c k) (h0 : i ≠ 0) (dr : P3) (hd : ∀ k, |dr k| = node c i k) :
    (lookup c (table S c) dr).pot = (field S c dr).pot ∧
      ∀ k, (lookup c (table S c) dr).acc k = (field S c dr).acc k := by
  have habs : (fun k => |dr k|) = node c i := funext hd
  have hil : il c dr = i := by
    funext k
    unfold il
    rw [hd, dI_node c hc hv, Nat.floor_natCast]
  have hfr : frac c dr = fun _ => 0 := by
    funext k
    unfold frac
    rw [hil, hd, dI_node c hc hv, sub_self]
  obtain ⟨f1, f2⟩ := field_abs S hS c hc dr
  rw [habs] at f1 f2
  have hN : ∀ k, i k < Ngrid c k := fun k => by have := hi k; unfold Ngrid; omega
  obtain ⟨t1, t2, _⟩ := C64_table S c i hN h0
  unfold lookup
  simp only [base0_eq, hil, hfr]
  refine ⟨t1.trans f1.symm, fun k => ?_⟩
  rw [f2 k, ← t2 k]
  unfold interpolate
  ring

/-- Between the points the acceleration is interpolated linearly: weights that are not negative and add up to one, with which the
corners of the cell average to the place of the particle, average the accelerations at the corners. -/
theorem C64_interpolation (S : Special) (c : Cfg) (hc : c.OK) (hv : c.Covers) (dr : P3)
    (hr : ∀ k, il c dr k + 1 < Ngrid c k) :
    ∃ (w : Corner → ℝ) (b : Fin 3 → ℕ), (∀ q, 0 ≤ w q) ∧ ∑ q, w q = 1 ∧
      (∀ k, ∑ q, w q * node c (fun j => b j + Corner.step q j) k = |dr k|) ∧
      ∀ k, (lookup c (table S c) dr).acc k = sgn (dr k) * ∑ q, w q *
        (if (fun j => b j + Corner.step q j) = 0 then 0 else (field S c (node c fun j => b j + Corner.step q j)).acc k) := by
  refine ⟨weight (frac c dr), il c dr, weight_nonneg _ (frac_range c hc hv dr), weight_sum _, weight_node c hc hv dr,
    fun k => ?_⟩
  unfold lookup
  simp only [base0_eq]
  rw [interpolate_corners S c _ _ hr, mul_comm]
  rfl

/-- A vector no longer than one and a half periods in the periodic directions and within half of the box in the open ones is replaced
by the nearest, and the force that the caller has computed for it is exchanged for the force of the nearest image. (Missing: larger
distances in the open directions, where it is false.) -/
theorem C64_wrap_partial (c : Cfg) (hc : c.OK) (tab : ℕ → ℝ) (m : ℝ) (dr : P3) (hd : ∀ k, |dr k| ≤ 3 / 2 * c.L k)
    (ho : ∀ k, c.per k = false → |dr k| ≤ c.L k / 2) :
    ∃ e : P3, Nearest c dr e ∧ ∃ v : PA, (v = far c tab e ∨ v = lookup c tab e) ∧
      (plain m dr).pot + (correction c tab m dr).pot = (plain m e).pot + m * v.pot ∧
      ∀ k, (plain m dr).acc k + (correction c tab m dr).acc k = (plain m e).acc k + m * v.acc k := by
  obtain ⟨w1, w2⟩ := wrapStep_plain c m dr
  refine ⟨(wrapStep c m dr).1, wrapStep_nearest c hc m dr hd ho, ?_⟩
  by_cases h : farTest c (wrapStep c m dr).1
  · refine ⟨_, Or.inl rfl, ?_, fun k => ?_⟩
    · rw [correction_far c tab m dr h, ← w1]; ring
    · rw [correction_far c tab m dr h, ← w2]; ring
  · refine ⟨_, Or.inr rfl, ?_, fun k => ?_⟩
    · rw [correction_near c tab m dr h, ← w1]; ring
    · rw [correction_near c tab m dr h, ← w2]; ring

/-- The open directions are wrapped as well: the force on a body farther than half of the box in an open direction is that of a
body one length of the box away from it, on the other side. At the distance of one length the force in that direction vanishes.
(With the default box of 2e31 this does not happen; it does if the box is set, as for initial conditions.) -/
theorem C64_wrap_open_fails (c : Cfg) (hc : c.OK) (tab : ℕ → ℝ) (m : ℝ) (dr : P3) (k : Fin 3) (_hk : c.per k = false)
    (h1 : c.L k / 2 < dr k) (h2 : dr k ≤ 3 / 2 * c.L k) :
    ((plain m dr).pot + (correction c tab m dr).pot =
      (plain m (Function.update dr k (dr k - c.L k))).pot + (correction c tab m (Function.update dr k (dr k - c.L k))).pot) ∧
    (∀ j, (plain m dr).acc j + (correction c tab m dr).acc j =
      (plain m (Function.update dr k (dr k - c.L k))).acc j + (correction c tab m (Function.update dr k (dr k - c.L k))).acc j) ∧
    (dr k = c.L k → (plain m dr).acc k + (correction c tab m dr).acc k = 0) := by
  set e := Function.update dr k (dr k - c.L k) with he
  have hw : (wrapStep c m e).1 = (wrapStep c m dr).1 := by
    rw [wrapStep_val c hc, wrapStep_val c hc]
    funext j
    by_cases hj : j = k
    · subst hj
      rw [he, Function.update_self]
      have hs : |dr j - c.L j| ≤ c.L j / 2 := abs_le.2 ⟨by linarith, by linarith⟩
      rw [wrap1_small hs]
      unfold wrap1
      rw [if_pos (by linarith)]
      ring
    · rw [he, Function.update_of_ne hj]
  obtain ⟨w1, w2⟩ := wrapStep_plain c m dr
  obtain ⟨u1, u2⟩ := wrapStep_plain c m e
  rw [hw] at u1 u2
  have hsame : ((plain m dr).pot + (correction c tab m dr).pot = (plain m e).pot + (correction c tab m e).pot) ∧
      ∀ j, (plain m dr).acc j + (correction c tab m dr).acc j = (plain m e).acc j + (correction c tab m e).acc j := by
    by_cases h : farTest c (wrapStep c m dr).1
    · have h' : farTest c (wrapStep c m e).1 := by rwa [hw]
      rw [correction_far c tab m dr h, correction_far c tab m e h', hw]
      refine ⟨?_, fun j => ?_⟩
      · dsimp only; linarith
      · have a := w2 j; have b := u2 j; dsimp only; linarith
    · have h' : ¬farTest c (wrapStep c m e).1 := by rwa [hw]
      rw [correction_near c tab m dr h, correction_near c tab m e h', hw]
      refine ⟨?_, fun j => ?_⟩
      · dsimp only; linarith
      · have a := w2 j; have b := u2 j; dsimp only; linarith
  refine ⟨hsame.1, hsame.2, fun hL => ?_⟩
  rw [hsame.2 k]
  have hz : e k = 0 := by rw [he, Function.update_self, hL, sub_self]
  have hz' : (wrapStep c m e).1 k = 0 := by
    rw [wrapStep_val c hc]
    dsimp only
    rw [hz]
    exact wrap1_small (by rw [abs_zero]; linarith [hc.L_pos k])
  have v2 := u2 k
  have hp : (plain m (wrapStep c m e).1).acc k = 0 := by unfold plain; simp [hz']
  rw [hw] at hp
  have hgoal : (plain m e).acc k + (wrapStep c m e).2.acc k = 0 := by rw [v2, hp]
  by_cases h : farTest c (wrapStep c m e).1
  · rw [correction_far c tab m e h]
    have hf : (far c tab (wrapStep c m e).1).acc k = 0 := by
      unfold far
      rcases per_cases c hc with hp | hp | hp | hp | hp | hp | hp <;> simp only [hp] <;>
        fin_cases k <;> simp_all [sgn]
    dsimp only
    rw [hf]; linarith
  · rw [correction_near c tab m e h]
    have hf : (lookup c tab (wrapStep c m e).1).acc k = 0 := by
      unfold lookup
      dsimp only
      rw [hz']
      simp [sgn]
    dsimp only
    rw [hf]; linarith

/-- With `EFratio` of one or more the table is read within its bounds; the formula for large distances is used only beyond twice
the length of the box in an open direction. -/
theorem C64_in_range_partial (c : Cfg) (hc : c.OK) (hv : c.Covers) (dr : P3)
    (hd : ∀ k, c.per k = true → |dr k| ≤ c.L k / 2) :
    (farTest c dr ∧ ∃ k, c.per k = false ∧ 2 * unit c < |dr k|) ∨
      (¬farTest c dr ∧ (∀ k, il c dr k + 1 < Ngrid c k) ∧ lastRead c (base0 c dr) < 4 * size c) := by
  by_cases h : farTest c dr
  · exact Or.inl ⟨h, far_open c hc hv dr hd h⟩
  · have hr := near_range c hc hv dr hd h
    exact Or.inr ⟨h, hr, lastRead_lt c dr hr⟩

/-- The constructor refuses only `EFratio > 1.5`. With a value below one the nearest image can lie outside of the table, and
the table is read beyond its end. -/
theorem C64_in_range_fails : ∃ c : Cfg, c.OK ∧ 3 ≤ c.grid ∧ c.ratio ≤ 3 / 2 ∧
    ∃ dr : P3, (∀ k, |dr k| ≤ c.L k / 2) ∧ ¬farTest c dr ∧ 4 * size c ≤ lastRead c (base0 c dr) := by
  let c : Cfg := ⟨fun _ => true, fun _ => 1, 10, 500, 16, 1, 1 / 100000000, 5, 1 / 2⟩
  have hdI : ∀ k, dI c k = 56 := by
    intro k; simp [dI, Ncells, Lewald, c]; norm_num
  have hil : ∀ k, il c (fun _ => 1 / 2) k = 28 := by
    intro k
    unfold il
    rw [hdI, abs_of_pos (by norm_num), Nat.floor_eq_iff (by norm_num)]
    norm_num
  have hN : ∀ k, Ngrid c k = 16 := by intro k; simp [Ngrid, Ncells, c]
  refine ⟨c, ⟨⟨0, rfl⟩, fun _ => by simp [c], by simp [c], by simp [c], by norm_num [c]⟩, by simp [c], by norm_num [c],
    fun _ => 1 / 2, fun k => by simp [c], ?_, ?_⟩
  · intro h
    exact h.1 (by simp [periodicity, c])
  · unfold lastRead size base0
    simp only [hN, hil]
    norm_num

/-- The two bodies of a pair get opposite forces and the same potential, whichever way their vector is taken. -/
theorem C64_opposite (c : Cfg) (hc : c.OK) (tab : ℕ → ℝ) (m : ℝ) (dr : P3) :
    (correction c tab m fun k => -dr k).pot = (correction c tab m dr).pot ∧
      ∀ k, (correction c tab m fun k => -dr k).acc k = -(correction c tab m dr).acc k := by
  obtain ⟨w1, w2, w3⟩ := wrapStep_neg c hc m dr
  have hil : il c (wrapStep c m fun k => -dr k).1 = il c (wrapStep c m dr).1 := by
    rw [w1]; funext k; unfold il; simp
  by_cases h : farTest c (wrapStep c m dr).1
  · have h' : farTest c (wrapStep c m fun k => -dr k).1 := by unfold farTest at h ⊢; rwa [hil]
    rw [correction_far c tab m dr h, correction_far c tab m _ h', w1]
    obtain ⟨f1, f2⟩ := far_neg c tab (wrapStep c m dr).1
    exact ⟨by simp only [w2, f1], fun k => by simp only [w3, f2]; ring⟩
  · have h' : ¬farTest c (wrapStep c m fun k => -dr k).1 := by unfold farTest at h ⊢; rwa [hil]
    rw [correction_near c tab m dr h, correction_near c tab m _ h', w1]
    obtain ⟨f1, f2⟩ := lookup_neg c tab (wrapStep c m dr).1
    exact ⟨by simp only [w2, f1], fun k => by simp only [w3, f2]; ring⟩

/-- The formulas for large distances belong together: acceleration is minus the gradient of the potential. -/
theorem C64_far (c : Cfg) (hc : c.OK) (tab : ℕ → ℝ) (dr : P3) (h : ∃ k, c.per k = false ∧ dr k ≠ 0) :
    Gradient (far c tab dr).acc (fun q => (far c tab q).pot) dr := far_grad c hc tab dr h

/-- the six orders of the three directions -/
theorem Ewald.three (P : Fin 3 → Fin 3 → Fin 3 → Prop) (p1 : P 0 1 2) (p2 : P 0 2 1) (p3 : P 1 0 2) (p4 : P 1 2 0) (p5 : P 2 0 1)
    (p6 : P 2 1 0) (i j k : Fin 3) (hij : i ≠ j) (hjk : j ≠ k) (hik : i ≠ k) : P i j k := by
  have : ∀ i j k : Fin 3, i ≠ j → j ≠ k → i ≠ k → (i, j, k) ∈ [((0, 1, 2) : Fin 3 × Fin 3 × Fin 3), (0, 2, 1), (1, 0, 2), (1, 2, 0),
      (2, 0, 1), (2, 1, 0)] := by decide
  have h := this i j k hij hjk hik
  simp only [List.mem_cons, Prod.mk.injEq, List.not_mem_nil, or_false] at h
  rcases h with ⟨rfl, rfl, rfl⟩ | ⟨rfl, rfl, rfl⟩ | ⟨rfl, rfl, rfl⟩ | ⟨rfl, rfl, rfl⟩ | ⟨rfl, rfl, rfl⟩ | ⟨rfl, rfl, rfl⟩ <;> assumption

/-- Far away the images act as a line or a sheet with one mass per period (Gauss: attraction `2 λ / d` at the distance `d` from a line of
density `λ = 1/L`, `2 π σ` towards a sheet of density `σ = 1/(L L')`), instead of the single mass. -/
theorem C64_far_strength (c : Cfg) (hc : c.OK) (tab : ℕ → ℝ) (dr : P3) :
    let acc := fun k => (far c tab dr).acc k + dr k * (1 / Real.sqrt (dr 0 ^ 2 + dr 1 ^ 2 + dr 2 ^ 2)) ^ 3
    (∀ i j k : Fin 3, i ≠ j → j ≠ k → i ≠ k → c.per i = true → c.per j = false → c.per k = false → ∀ d, 0 < d →
      d ^ 2 = dr j ^ 2 + dr k ^ 2 → acc i = 0 ∧ acc j = 2 * (1 / c.L i) / d * (dr j / d) ∧ acc k = 2 * (1 / c.L i) / d * (dr k / d)) ∧
    (∀ i j k : Fin 3, i ≠ j → j ≠ k → i ≠ k → c.per i = true → c.per j = true → c.per k = false →
      acc i = 0 ∧ acc j = 0 ∧ (0 < dr k → acc k = 2 * Real.pi * (1 / (c.L i * c.L j))) ∧
      (dr k < 0 → acc k = -(2 * Real.pi * (1 / (c.L i * c.L j))))) := by
  have h0 := (hc.L_pos 0).ne'
  have h1 := (hc.L_pos 1).ne'
  have h2 := (hc.L_pos 2).ne'
  intro acc
  have line : ∀ L d x I q : ℝ, L ≠ 0 → 0 < d → d ^ 2 = q → x * (2 / (L * q)) - x * I ^ 3 + x * I ^ 3 = 2 * (1 / L) / d * (x / d) := by
    rintro L d x I q hL hd rfl
    field_simp
    ring
  have l0 : c.per 0 = true → c.per 1 = false → c.per 2 = false → ∀ d, 0 < d → d ^ 2 = dr 1 ^ 2 + dr 2 ^ 2 →
      acc 0 = 0 ∧ acc 1 = 2 * (1 / c.L 0) / d * (dr 1 / d) ∧ acc 2 = 2 * (1 / c.L 0) / d * (dr 2 / d) := by
    intro p0 p1 p2 d hd hq
    have hp : periodicity c = 1 := by simp [periodicity, p0, p1, p2]
    simp only [acc, far, hp]
    exact ⟨neg_add_cancel _, line _ _ _ _ _ h0 hd hq, line _ _ _ _ _ h0 hd hq⟩
  have l1 : c.per 0 = false → c.per 1 = true → c.per 2 = false → ∀ d, 0 < d → d ^ 2 = dr 0 ^ 2 + dr 2 ^ 2 →
      acc 1 = 0 ∧ acc 0 = 2 * (1 / c.L 1) / d * (dr 0 / d) ∧ acc 2 = 2 * (1 / c.L 1) / d * (dr 2 / d) := by
    intro p0 p1 p2 d hd hq
    have hp : periodicity c = 2 := by simp [periodicity, p0, p1, p2]
    simp only [acc, far, hp]
    exact ⟨neg_add_cancel _, line _ _ _ _ _ h1 hd hq, line _ _ _ _ _ h1 hd hq⟩
  have l2 : c.per 0 = false → c.per 1 = false → c.per 2 = true → ∀ d, 0 < d → d ^ 2 = dr 0 ^ 2 + dr 1 ^ 2 →
      acc 2 = 0 ∧ acc 0 = 2 * (1 / c.L 2) / d * (dr 0 / d) ∧ acc 1 = 2 * (1 / c.L 2) / d * (dr 1 / d) := by
    intro p0 p1 p2 d hd hq
    have hp : periodicity c = 4 := by simp [periodicity, p0, p1, p2]
    simp only [acc, far, hp]
    exact ⟨neg_add_cancel _, line _ _ _ _ _ h2 hd hq, line _ _ _ _ _ h2 hd hq⟩
  have up : ∀ A x I : ℝ, 0 < x → A * sgn x - I ^ 3 * x + x * I ^ 3 = A := by
    intro A x I hx
    simp only [sgn, if_pos hx, if_neg (not_lt.2 hx.le)]
    ring
  have down : ∀ A x I : ℝ, x < 0 → A * sgn x - I ^ 3 * x + x * I ^ 3 = -A := by
    intro A x I hx
    simp only [sgn, if_pos hx, if_neg (not_lt.2 hx.le)]
    ring
  have s2 : c.per 0 = true → c.per 1 = true → c.per 2 = false → acc 0 = 0 ∧ acc 1 = 0 ∧
      (0 < dr 2 → acc 2 = 2 * Real.pi * (1 / (c.L 0 * c.L 1))) ∧ (dr 2 < 0 → acc 2 = -(2 * Real.pi * (1 / (c.L 0 * c.L 1)))) := by
    intro p0 p1 p2
    have hp : periodicity c = 3 := by simp [periodicity, p0, p1, p2]
    have hA : accPlane c = 2 * Real.pi * (1 / (c.L 0 * c.L 1)) := by
      simp only [accPlane, consts, hp]
      field_simp
    simp only [acc, far, hp, ← hA]
    exact ⟨neg_add_cancel _, neg_add_cancel _, up _ _ _, down _ _ _⟩
  have s1 : c.per 0 = true → c.per 1 = false → c.per 2 = true → acc 0 = 0 ∧ acc 2 = 0 ∧
      (0 < dr 1 → acc 1 = 2 * Real.pi * (1 / (c.L 0 * c.L 2))) ∧ (dr 1 < 0 → acc 1 = -(2 * Real.pi * (1 / (c.L 0 * c.L 2)))) := by
    intro p0 p1 p2
    have hp : periodicity c = 5 := by simp [periodicity, p0, p1, p2]
    have hA : accPlane c = 2 * Real.pi * (1 / (c.L 0 * c.L 2)) := by
      simp only [accPlane, consts, hp]
      field_simp
    simp only [acc, far, hp, ← hA]
    exact ⟨neg_add_cancel _, neg_add_cancel _, up _ _ _, down _ _ _⟩
  have s0 : c.per 0 = false → c.per 1 = true → c.per 2 = true → acc 1 = 0 ∧ acc 2 = 0 ∧
      (0 < dr 0 → acc 0 = 2 * Real.pi * (1 / (c.L 1 * c.L 2))) ∧ (dr 0 < 0 → acc 0 = -(2 * Real.pi * (1 / (c.L 1 * c.L 2)))) := by
    intro p0 p1 p2
    have hp : periodicity c = 6 := by simp [periodicity, p0, p1, p2]
    have hA : accPlane c = 2 * Real.pi * (1 / (c.L 1 * c.L 2)) := by
      simp only [accPlane, consts, hp]
      field_simp
    simp only [acc, far, hp, ← hA]
    exact ⟨neg_add_cancel _, neg_add_cancel _, up _ _ _, down _ _ _⟩
  refine ⟨Ewald.three _ ?_ ?_ ?_ ?_ ?_ ?_, Ewald.three _ ?_ ?_ ?_ ?_ ?_ ?_⟩
  · exact l0
  · intro pi pj pk d hd hq
    obtain ⟨u, v, w⟩ := l0 pi pk pj d hd (by rw [hq, add_comm])
    exact ⟨u, w, v⟩
  · exact fun pi pj pk d hd hq => l1 pj pi pk d hd hq
  · intro pi pj pk d hd hq
    obtain ⟨u, v, w⟩ := l1 pk pi pj d hd (by rw [hq, add_comm])
    exact ⟨u, w, v⟩
  · exact fun pi pj pk d hd hq => l2 pj pk pi d hd hq
  · intro pi pj pk d hd hq
    obtain ⟨u, v, w⟩ := l2 pk pj pi d hd (by rw [hq, add_comm])
    exact ⟨u, w, v⟩
  · exact s2
  · exact fun pi pj pk => s1 pi pk pj
  · intro pi pj pk
    obtain ⟨u, v, w⟩ := s2 pj pi pk
    rw [mul_comm (c.L 1)]
    exact ⟨v, u, w⟩
  · exact fun pi pj pk => s0 pk pi pj
  · intro pi pj pk
    obtain ⟨u, v, w⟩ := s1 pj pk pi
    rw [mul_comm (c.L 2)]
    exact ⟨v, u, w⟩
  · intro pi pj pk
    obtain ⟨u, v, w⟩ := s0 pk pj pi
    rw [mul_comm (c.L 2)]
    exact ⟨v, u, w⟩

/-- With one periodic direction the constant of the potential is chosen so that the formula agrees with the table at the distance
of two lengths of the box. -/
theorem C64_far_joins (S : Special) (c : Cfg) (hc : c.OK) (hv : c.Covers) :
    (periodicity c = 1 → (far c (table S c) ![0, 2 * c.L 0, 0]).pot = (field S c ![0, 2 * c.L 0, 0]).pot) ∧
    (periodicity c = 2 → (far c (table S c) ![2 * c.L 1, 0, 0]).pot = (field S c ![2 * c.L 1, 0, 0]).pot) ∧
    (periodicity c = 4 → (far c (table S c) ![2 * c.L 2, 0, 0]).pot = (field S c ![2 * c.L 2, 0, 0]).pot) := by
  obtain ⟨b1, b2, b3, b4, b5, b6, b7⟩ := per_bits c
  have h3 := hv.three
  have hlog : ∀ L : ℝ, 0 < L → Real.log ((2 * L) ^ 2) = 2 * Real.log (2 * L) := fun L _ => by rw [Real.log_pow]; norm_num
  have hsq : ∀ L : ℝ, 0 < L → Real.sqrt ((2 * L) ^ 2) = 2 * L := fun L hL => Real.sqrt_sq (by linarith)
  -- the place in the table
  have place : ∀ j : Fin 3, c.per j = false → ∀ p : P3, (∀ k, p k = if k = j then 2 * unit c else 0) →
      table S c (index c fun k => if k = j then Ngrid c j - 2 else 0) = (field S c p).pot := by
    intro j hj p hp
    have hNc : Ncells c j = 4 * (c.grid - 2) + 1 := by unfold Ncells; simp [hj]
    have hNg : Ngrid c j = 4 * (c.grid - 2) + 2 := by unfold Ngrid; omega
    have hnode : node c (fun k => if k = j then Ngrid c j - 2 else 0) = p := by
      funext k
      rw [hp k]
      unfold node
      by_cases hk : k = j
      · subst hk
        simp only [if_true]
        have hl : Lewald c k = 2 * unit c := by unfold Lewald unit; simp only [hj]; simp; ring
        have h2 : (2 : ℝ) ≤ Ncells c k := by exact_mod_cast Ncells_ge c hv k
        have h4 : ((Ngrid c k - 2 : ℕ) : ℝ) = Ncells c k - 1 := by
          have : Ngrid c k - 2 = Ncells c k - 1 := by unfold Ngrid; omega
          rw [this, Nat.cast_sub (by omega)]; simp
        rw [hl, h4]
        have : (Ncells c k : ℝ) - 1 ≠ 0 := by linarith
        field_simp
      · simp [hk]
    have := (C64_table S c (fun k => if k = j then Ngrid c j - 2 else 0) (fun k => by
      by_cases hk : k = j
      · subst hk; simp; omega
      · simp only [if_neg hk]; unfold Ngrid; omega) (by
      intro h
      have := congrFun h j
      simp at this
      omega)).1
    rw [this, hnode]
  refine ⟨fun hp => ?_, fun hp => ?_, fun hp => ?_⟩
  · have hL := hc.L_pos 0
    have hu : unit c = c.L 0 := by simp [unit, lead, hp]
    have := place 1 (b1 hp).2.1 ![0, 2 * c.L 0, 0] (fun k => by rw [hu]; fin_cases k <;> simp)
    rw [← this]
    simp only [far, potC, hp]
    have hi : index c (fun k => if k = 1 then Ngrid c 1 - 2 else 0) = Ngrid c 0 * (Ngrid c 1 - 2) := by
      unfold index; simp; ring
    rw [hi]
    simp only [consts, hp]
    simp [hlog _ hL, hsq _ hL]
    field_simp
    ring
  · have hL := hc.L_pos 1
    have hu : unit c = c.L 1 := by simp [unit, lead, hp]
    have := place 0 (b2 hp).1 ![2 * c.L 1, 0, 0] (fun k => by rw [hu]; fin_cases k <;> simp)
    rw [← this]
    simp only [far, potC, hp]
    have hi : index c (fun k => if k = 0 then Ngrid c 0 - 2 else 0) = Ngrid c 0 - 2 := by
      unfold index; simp
    rw [hi]
    simp only [consts, hp]
    simp [hlog _ hL, hsq _ hL]
    field_simp
    ring
  · have hL := hc.L_pos 2
    have hu : unit c = c.L 2 := by simp [unit, lead, hp]
    have := place 0 (b4 hp).1 ![2 * c.L 2, 0, 0] (fun k => by rw [hu]; fin_cases k <;> simp)
    rw [← this]
    simp only [far, potC, hp]
    have hi : index c (fun k => if k = 0 then Ngrid c 0 - 2 else 0) = Ngrid c 0 - 2 := by
      unfold index; simp
    rw [hi]
    simp only [consts, hp]
    simp [hlog _ hL, hsq _ hL]
    field_simp
    ring

/-- The potential is not interpolated: line 654 adds the value at the lowest corner instead of `grEwald[0]`. Inside a cell it is
constant, so an acceleration that is not zero is not its gradient, and in the cell at the origin it is zero. -/
theorem C64_potential_fails (S : Special) (hS : S.OK) :
    (∀ (c : Cfg), c.OK → c.Covers → ∀ (tab : ℕ → ℝ) (dr : P3), (∀ k, 0 < frac c dr k) → (lookup c tab dr).acc ≠ 0 →
      ¬Gradient (lookup c tab dr).acc (fun q => (lookup c tab q).pot) dr) ∧
    (∀ (c : Cfg) (dr : P3), (∀ k, il c dr k = 0) → (lookup c (table S c) dr).pot = 0) ∧
    ∃ (c : Cfg) (dr : P3), c.OK ∧ c.Covers ∧ ¬farTest c dr ∧ (∀ k, 0 < frac c dr k) ∧ (∀ k, (lookup c (table S c) dr).acc k < 0) ∧
      ¬Gradient (lookup c (table S c) dr).acc (fun q => (lookup c (table S c) q).pot) dr := by
  have main : ∀ (c : Cfg), c.OK → c.Covers → ∀ (tab : ℕ → ℝ) (dr : P3), (∀ k, 0 < frac c dr k) →
      (lookup c tab dr).acc ≠ 0 → ¬Gradient (lookup c tab dr).acc (fun q => (lookup c tab q).pot) dr :=
    fun c hc hv tab dr hg hne hG => hne (pot_flat c hc hv tab dr hg _ hG)
  refine ⟨main, fun c dr h => ?_, cfg1, fun _ => 1 / 100, cfg1_ok, cfg1_covers, fun h => h.1 cfg1_per, ?_, cfg1_lookup S hS, ?_⟩
  · have hb : base0 c dr = 0 := by unfold base0; simp [h]
    have := table_origin S c 0
    unfold lookup
    simp only [hb]
    simpa using this
  all_goals
    have hfr : ∀ k, 0 < frac cfg1 (fun _ => 1 / 100) k := by
      intro k
      unfold frac il
      rw [cfg1_dI, abs_of_pos (by norm_num), Nat.floor_eq_zero.2 (by norm_num)]
      norm_num
  · exact hfr
  · refine main cfg1 cfg1_ok cfg1_covers _ _ hfr fun h => ?_
    have := cfg1_lookup S hS 0
    rw [h] at this
    simp at this

/-! ### Cases that meet the hypotheses -/

example : exactSpecial.OK := exactSpecial_ok
example : C64_long.OK ∧ C64_tall.OK ∧ cfg1.OK ∧ cfg1.Covers := ⟨C64_long_ok, C64_tall_ok, cfg1_ok, cfg1_covers⟩
example : OffLattice cfg1 fun _ => 1 / 100 := by
  intro h
  refine ⟨0, ?_⟩
  intro e
  simp [shift, comp, cfg1] at e
  have : (100 * h.1 : ℝ) = -1 := by linarith
  have h' : (100 * h.1 : ℤ) = -1 := by exact_mod_cast this
  omega
example : Gradient (field exactSpecial C64_long ![1, 1, 1 / 3]).acc (fun q => (field exactSpecial C64_long q).pot) ![1, 1, 1 / 3] :=
  C64_gradient _ exactSpecial_ok _ C64_long_ok _ (by
    intro h
    refine ⟨2, ?_⟩
    intro e
    simp [shift, comp, C64_long] at e
    have : (3 * h.2.2 : ℝ) = -1 := by linarith
    have h' : (3 * h.2.2 : ℤ) = -1 := by exact_mod_cast this
    omega)
example : periodicity cfg1 ≠ 5 ∧ periodicity cfg1 ≠ 6 := by rw [cfg1_per]; simp
/-- in the long box, with one mass per area of ten, the attraction is 2π/10 -/
example (tab : ℕ → ℝ) : (far C64_long tab ![0, 3, 0]).acc 1 + 3 * (1 / Real.sqrt ((0 : ℝ) ^ 2 + 3 ^ 2 + 0 ^ 2)) ^ 3 = 2 * Real.pi * (1 / 10) := by
  have h := ((C64_far_strength C64_long C64_long_ok tab ![0, 3, 0]).2 0 2 1 (by decide) (by decide) (by decide) rfl rfl rfl).2.2.1
    (by norm_num)
  simpa [C64_long] using h
example : ∃ k, C64_long.per k = false ∧ (![0, 3, 0] : P3) k ≠ 0 := ⟨1, rfl, by simp⟩
example : ∀ k, |(fun _ => 14 / 10 : P3) k| ≤ 3 / 2 * cfg1.L k := fun k => by
  rw [abs_of_pos] <;> norm_num [cfg1]
example : C64_long.per 1 = false ∧ C64_long.L 1 / 2 < (![0, 1, 0] : P3) 1 ∧ (![0, 1, 0] : P3) 1 ≤ 3 / 2 * C64_long.L 1 := by
  refine ⟨rfl, ?_, ?_⟩ <;> norm_num [C64_long]
example : ∀ k, (![3, 0, 5] : Fin 3 → ℕ) k < Ncells cfg1 k := fun k => by fin_cases k <;> simp [Ncells, cfg1]

end Gandalf
