import Verif.Proof.Smoothing
import Verif.Prop.C30
import Verif.Prop.C31

/-!
# C50 – the smoothing length iteration
-/

set_option autoImplicit false

namespace Gandalf
open Smoothing

/-! ## Grad-h SPH -/

section
variable {n : ℕ}

/-- **C50, grad-h SPH.** For every kernel, neighbour list that contains the particle, starting value and rule `mid` for the
midpoint that stays between the bounds (so also a rounded one): if `ComputeH` returns 1, the smoothing length is
positive, at least the sink bound and at most `hmax`; the density is positive and is the sum over the neighbours
at some `h'`; and either `h`, `h'` and the smoothing length of that density agree within the tolerance, or the
density is too high for the sink bound and `h` is that bound, or `h` is exactly `hmax`, or the bracket
cannot be halved any more. -/
theorem C50_gradh {K : Kernel} (hK : K.Valid n) {r : Vec n ℝ} {ngbs : List (Ngb n)} {s : Ngb n} (hs : s ∈ ngbs)
    (hsr : s.r = r) (hm : ∀ b ∈ ngbs, 0 ≤ b.m) (hsm : 0 < s.m) {hfac small tol hmax h0 rho0 lo0 h rho : ℝ}
    {mid : ℝ → ℝ → ℝ} (hmid : ∀ l u, l ≤ u → l ≤ mid l u ∧ mid l u ≤ u) (hfac0 : 0 < hfac) (h00 : 0 < h0) (hlo0 : 0 ≤ lo0)
    (hc : gradhComputeH (density K r ngbs) (hRho n hfac s.m) mid small tol hmax h0 rho0 lo0 = some ⟨1, h, rho⟩) :
    0 < h ∧ lo0 ≤ h ∧ h ≤ hmax ∧ 0 < rho ∧ ∃ h', 0 < h' ∧ rho = density K r ngbs h' ∧
      ((|h' - hRho n hfac s.m rho| < tol * h' ∧ |h' - h| < tol * h') ∨
       (hRho n hfac s.m rho ≤ lo0 ∧ h = lo0) ∨
       (hRho n hfac s.m rho = hmax ∧ h = hmax) ∨
       (∃ lo up, lo0 ≤ lo ∧ lo < up ∧ up ≤ hmax ∧ lo ≤ h' ∧ h' ≤ up ∧ lo ≤ h ∧ (mid lo up = lo ∨ mid lo up = up) ∧
        (lo = lo0 ∨ lo ≤ hRho n hfac s.m (density K r ngbs lo)) ∧
        (up = hmax ∨ density K r ngbs up < small ∨ hRho n hfac s.m (density K r ngbs up) < up))) := by
  have hpos : ∀ x, 0 < x → 0 < density K r ngbs x := fun x hx =>
    lt_of_lt_of_le (by have := hK.positive; positivity) (density_pos hK hm hs hsr hx)
  obtain ⟨a, b, h', lo, rfl, e, hl, cs⟩ := computeH_success (by exact hmid) hc
  have h'pos : 0 < h' := by
    rcases cs with ⟨up, br, hin, -⟩ | ⟨-, hin, -⟩ | ⟨up, -, -, -, -, hp, -⟩
    · rcases hin with rfl | hin
      · exact h00
      · linarith [hin.1, br.lower]
    · rcases hin with rfl | hin
      · exact h00
      · linarith [hin.1]
    · linarith
  have hr := hpos h' h'pos
  have he := hRho_pos (n := n) hfac0 hsm hr
  change h = max (hRho n hfac s.m (density K r ngbs h')) lo at e
  have hlo : lo ≤ h := by rw [e]; exact le_max_right _ _
  have hes : hRho n hfac s.m (density K r ngbs h') ≤ h := by rw [e]; exact le_max_left _ _
  refine ⟨he.trans_le hes, hl.trans hlo, a, hr, h', h'pos, rfl, ?_⟩
  rcases cs with ⟨up, br, hin, hn⟩ | ⟨hl', hin, hx⟩ | ⟨up, br, h1, h2, h3, h4, h5⟩
  · left
    have hn' : 0 < density K r ngbs h' ∧ lo < h' ∧ |h' - hRho n hfac s.m (density K r ngbs h')| * (1 / h') < tol :=
      of_decide_eq_true hn
    have h1 : |h' - hRho n hfac s.m (density K r ngbs h')| < tol * h' := by
      have := hn'.2.2
      rwa [mul_one_div, div_lt_iff₀ h'pos] at this
    refine ⟨h1, ?_⟩
    rcases le_total (hRho n hfac s.m (density K r ngbs h')) lo with hle | hle
    · rw [e, max_eq_right hle]
      rw [abs_lt] at h1 ⊢
      constructor <;> linarith [hn'.2.1, h1.1, h1.2]
    · rw [e, max_eq_left hle]; exact h1
  · right
    rcases hx with hx | hx
    · left
      change hRho n hfac s.m (density K r ngbs h') ≤ lo0 at hx
      exact ⟨hx, by rw [e, hl', max_eq_right hx]⟩
    · right; left
      change hRho n hfac s.m (density K r ngbs h') = hmax at hx
      change lo0 ≤ hmax at b
      refine ⟨hx, ?_⟩
      rw [e, hl', hx, max_eq_left b]
  · right; right; right
    refine ⟨lo, up, br.lower, h1, br.upper, h2, h3, hlo, h5, ?_, ?_⟩
    · refine br.below.imp id fun h => ?_
      have h : decide (density K r ngbs lo < small ∨ hRho n hfac s.m (density K r ngbs lo) < lo) = false := h
      rw [decide_eq_false_iff_not] at h
      push Not at h
      exact h.2
    · refine br.above.imp id fun h => ?_
      exact of_decide_eq_true (p := density K r ngbs up < small ∨ hRho n hfac s.m (density K r ngbs up) < up) h

/-- With the exact midpoint the bracket can always be halved: the first three cases are the only ones. -/
theorem C50_gradh_exact {K : Kernel} (hK : K.Valid n) {r : Vec n ℝ} {ngbs : List (Ngb n)} {s : Ngb n} (hs : s ∈ ngbs)
    (hsr : s.r = r) (hm : ∀ b ∈ ngbs, 0 ≤ b.m) (hsm : 0 < s.m) {hfac small tol hmax h0 rho0 lo0 h rho : ℝ}
    (hfac0 : 0 < hfac) (h00 : 0 < h0) (hlo0 : 0 ≤ lo0)
    (hc : gradhComputeH (density K r ngbs) (hRho n hfac s.m) half small tol hmax h0 rho0 lo0 = some ⟨1, h, rho⟩) :
    ∃ h', 0 < h' ∧ rho = density K r ngbs h' ∧
      ((|h' - hRho n hfac s.m rho| < tol * h' ∧ |h' - h| < tol * h') ∨
       (hRho n hfac s.m rho ≤ lo0 ∧ h = lo0) ∨ (hRho n hfac s.m rho = hmax ∧ h = hmax)) := by
  obtain ⟨-, -, -, -, h', h1, h2, hx⟩ := C50_gradh hK hs hsr hm hsm half_between hfac0 h00 hlo0 hc
  refine ⟨h', h1, h2, ?_⟩
  rcases hx with hx | hx | hx | ⟨lo, up, -, h3, -, -, -, -, h4, -⟩
  · exact Or.inl hx
  · exact Or.inr (Or.inl hx)
  · exact Or.inr (Or.inr hx)
  · exact absurd h4 (half_strict h3)

/-- a particle alone, in one dimension -/
def exSelf : Ngb 1 := ⟨1, fun _ => 0, 0⟩

theorem exSelf_density {h : ℝ} : density (m4Kernel 1) (fun _ => 0) [exSelf] h = 2 / 3 / h := by
  simp [density, ssqd, drsqd, dot, exSelf, m4Kernel, M4.w0, M4.kernnorm]
  ring

theorem hRho_one {hfac m rho : ℝ} : hRho 1 hfac m rho = hfac * (m / rho) := by
  simp [hRho]

/-- `ComputeH` succeeds for a particle alone and `h_fac = 2/3`, where every `h` is consistent -/
example : gradhComputeH (density (m4Kernel 1) (fun _ => 0) [exSelf]) (hRho 1 (2 / 3) 1) half 0 (1 / 100) 2 1 0 0
    = some ⟨1, 1, 2 / 3⟩ := by
  have h1 : hRho 1 (2 / 3) 1 (2 / 3) = 1 := by rw [hRho_one]; norm_num
  have h2 : loop (gradh (density (m4Kernel 1) (fun _ => 0) [exSelf]) (hRho 1 (2 / 3) 1) half 0 (1 / 100) 2) 150 1 1 0 2
      = .conv 1 (2 / 3) 0 := by
    unfold loop step
    simp only [gradh, exSelf_density, div_one, h1]
    norm_num
  unfold gradhComputeH
  rw [computeH_conv (by norm_num [gradh]) h2 (by norm_num [h1, gradh])]
  norm_num [h1]

/-- **C50.** The bisection test of the grad-h scheme and those of the other two, written with powers, are the same. -/
theorem C50_bisection_tests (hn : 1 ≤ n) {hfac m rho h : ℝ} (h1 : 0 < hfac) (h2 : 0 < m) (h3 : 0 < rho) (h4 : 0 < h) :
    (hRho n hfac m rho < h ↔ hfac ^ n * m < rho * h ^ n) ∧ (hVol n hfac rho < h ↔ hfac ^ n < rho * h ^ n) := by
  refine ⟨hRho_lt_iff hn h1 h2 h3 h4, ?_⟩
  have := hRho_lt_iff hn h1 one_pos h3 h4
  rw [mul_one] at this
  exact this

/-- **C50.** Neighbours are gathered within the kernel radius for `hmax`.  For every `h` whose kernel reaches less far, the
density and its correction are those of all particles, however many. -/
theorem C50_density_complete {K : Kernel} (hK : K.Valid n) (hω : ∀ s, K.kernrange ≤ s → K.womega s = 0) {small hmax h : ℝ}
    (r : Vec n ℝ) (all : List (Ngb n)) (hh : 0 < h)
    (hh' : K.kernrangesqd * h ^ 2 + small ≤ K.kernrangesqd * hmax ^ 2) :
    density K r (gather small K.kernrangesqd hmax r all) h = density K r all h ∧
    omegaSum K r (gather small K.kernrangesqd hmax r all) h = omegaSum K r all h :=
  ⟨density_gather hK r hh hh' all, omegaSum_gather hω hK.rangesqd r hh hh' all⟩

/-- the hypotheses hold for the M4 kernel, `hmax = 1.05` and every `h` up to 1 -/
example (h : ℝ) (h0 : 0 < h) (h1 : h ≤ 1) : (m4Kernel 3).Valid 3 ∧
    (∀ s, (m4Kernel 3).kernrange ≤ s → (m4Kernel 3).womega s = 0) ∧
    (m4Kernel 3).kernrangesqd * h ^ 2 + 1 / 10 ^ 20 ≤ (m4Kernel 3).kernrangesqd * 1.05 ^ 2 := by
  refine ⟨C30_m4_valid 3 (by norm_num), ?_, ?_⟩
  · intro s hs
    have hs : (2 : ℝ) ≤ s := hs
    simp only [m4Kernel, M4.womega]
    rw [if_neg (by linarith), if_neg (by linarith)]
  · have : h ^ 2 ≤ 1 := by nlinarith
    simp only [m4Kernel]
    norm_num
    linarith

/-- **C50.** The density is at least the particle's own contribution (the assertion in the loop). -/
theorem C50_self_contribution {K : Kernel} (hK : K.Valid n) {r : Vec n ℝ} {ngbs : List (Ngb n)} {s : Ngb n}
    (hs : s ∈ ngbs) (hsr : s.r = r) (hm : ∀ b ∈ ngbs, 0 ≤ b.m) {h : ℝ} (hh : 0 < h) :
    s.m * (1 / h) ^ n * K.w0 0 ≤ density K r ngbs h :=
  density_pos hK hm hs hsr hh

example : exSelf.m * (1 / 2) ^ 1 * (m4Kernel 1).w0 0 ≤ density (m4Kernel 1) (fun _ => 0) [exSelf] 2 :=
  C50_self_contribution (C30_m4_valid 1 (by norm_num)) (by simp) rfl (by simp [exSelf]) (by norm_num)

/-- **C50.** The neighbour sum behind `invomega` is the derivative of the density with respect to `h`, `h_rho_deriv` that
of `h_rho_func`, and at a solution `invomega` is one over the derivative of the equation solved. -/
theorem C50_invomega (hn : 1 ≤ n) {K : Kernel} (hO : K.OmegaOK n) {hfac m : ℝ} (r : Vec n ℝ) (l : List (Ngb n))
    (hm : 0 < m) {h : ℝ} (hh : 0 < h) (hrho : 0 < density K r l h) (hsol : h = hRho n hfac m (density K r l h)) :
    HasDerivAt (density K r l) (omegaSum K r l h) h ∧
    HasDerivAt (hRho n hfac m) (hRhoDeriv n h (density K r l h)) (density K r l h) ∧
    ∃ d, HasDerivAt (fun x => x - hRho n hfac m (density K r l x)) d h ∧
      invomega K r l h h (density K r l h) = 1 / d := by
  have h1 := hasDerivAt_hRho (hfac := hfac) hn hm hrho
  have h2 := hasDerivAt_residual (hfac := hfac) hn hO r l hm hh hrho
  rw [← hsol] at h1 h2
  exact ⟨hasDerivAt_density hO r hh l, h1, _, h2, rfl⟩

example : (1 : ℝ) = hRho 1 (2 / 3) 1 (density (m4Kernel 1) (fun _ => 0) [exSelf] 1) := by
  rw [exSelf_density, hRho_one]; norm_num

end

/-! ## The exception -/

/-- **C50.** With exact arithmetic: if the sink bound is not above and `hmax` not below the smoothing length of their
densities, and that smoothing length changes at most `K` times as fast as `h`, with a tolerance above
`(1 + K) (hmax - lo0) / 2^119`, the iteration does not raise "Problem with convergence". -/
theorem C50_no_exception {α : Type*} [Field α] [LinearOrder α] [IsStrictOrderedRing α] {dens est : α → α}
    {small tol hmax lo0 K : α} (h0 rho0 : α) (hK : 0 ≤ K) (hlo0 : 0 < lo0)
    (hLip : ∀ a b, lo0 ≤ a → a ≤ b → b ≤ hmax → |est (dens a) - est (dens b)| ≤ K * (b - a))
    (hs : 0 < small) (hsm : ∀ h, lo0 ≤ h → h ≤ hmax → small ≤ dens h) (hlo : lo0 ≤ est (dens lo0)) (hup : est (dens hmax) ≤ hmax)
    (htol : (1 + K) * ((hmax - lo0) / 2 ^ 119) < tol * lo0) :
    gradhComputeH dens est half small tol hmax h0 rho0 lo0 ≠ none := by
  refine computeH_no_raise (F := gradh dens est half small tol hmax) (K := K) (tol := tol * lo0) rfl hK hLip ?_ hlo hup htol
    ?_ _ _ _
  · intro h h1 h2
    have : ¬ dens h < small := not_lt.mpr (hsm h h1 h2)
    simp [gradh, this]
  · intro h lo h1 h2 h3 h4
    have h5 : lo0 < h := h1.trans_lt h2
    have h6 : 0 < h := hlo0.trans h5
    have h7 : 0 < tol := by
      have := (abs_nonneg _).trans_lt h4
      exact pos_of_mul_pos_left this hlo0.le
    simp only [gradh, decide_eq_true_eq]
    refine ⟨hs.trans_le (hsm h h5.le h3.le), h2, ?_⟩
    rw [mul_one_div, div_lt_iff₀ h6]
    exact h4.trans_le (mul_le_mul_of_nonneg_left h5.le h7.le)

/-- a density falling with `h`, one solution `h = 1` -/
example : gradhComputeH (fun h : ℚ => 1 / (1 + h)) (fun rho => 1 / (4 * rho) + 1 / 2) half (1 / 10) (1 / 100) 2 (3 / 2) 0 (1 / 2)
    ≠ none := by
  refine C50_no_exception (K := 1 / 4) _ _ (by norm_num) (by norm_num) ?_ (by norm_num) ?_ (by norm_num) (by norm_num)
    (by norm_num)
  · intro a b h1 h2 h3
    have ha : 1 + a ≠ 0 := by linarith
    have hb : 1 + b ≠ 0 := by linarith
    have e : 1 / (4 * (1 / (1 + a))) + 1 / 2 - (1 / (4 * (1 / (1 + b))) + 1 / 2) = -(1 / 4 * (b - a)) := by
      field_simp; ring
    rw [e, abs_neg, abs_of_nonneg (by linarith)]
  · intro h h1 h2
    rw [div_le_div_iff₀ (by norm_num) (by linarith)]
    linarith

/-! ## The caller -/

/-- **C50.** What is written back for a cell is, for each active particle, the result of `ComputeH` for one common `hmax`
that is the cell's times a power of the growth factor, and none of them is 0 ("neighbour list too small"). -/
theorem C50_cell {α : Type*} [LinearOrder α] [Monoid α] {grow : α} {compute : α → ℕ → Option (Out α)} {active : List ℕ}
    (f : ℕ) (hmax : α) (outs : List (Out α)) (h : cellLoop grow compute active f hmax = some outs) :
    ∃ k, 1 ≤ k ∧ List.Forall₂ (fun i o => compute (grow ^ k * hmax) i = some o ∧ o.flag ≠ 0) active outs := by
  obtain ⟨k, hk, e⟩ := cellLoop_spec f hmax outs h
  refine ⟨k, hk, ?_⟩
  have : ∀ k, (fun x => grow * x)^[k] hmax = grow ^ k * hmax := by
    intro k
    induction k with
    | zero => simp
    | succ k ih => rw [Function.iterate_succ_apply', ih, pow_succ', mul_assoc]
  rwa [this] at e

/-- two passes are needed here -/
example : cellLoop (2 : ℚ) (fun hmax i => some ⟨if hmax < i then 0 else 1, i, 1⟩) [1, 3] 5 1
    = some [⟨1, 1, 1⟩, ⟨1, 3, 1⟩] := by
  norm_num [cellLoop, cellPass]

/-- **C50, negation.** The caller accepts -1 too, the return value for "`hmax` is below the sink bound": smoothing length
and density then stay what they were before. -/
theorem C50_error_accepted {α : Type*} [Field α] [LinearOrder α] [IsStrictOrderedRing α] (dens est : α → α) (mid : α → α → α)
    (small tol grow hmax lo0 h0 rho0 : α) (f : ℕ) (h : grow * hmax < lo0) :
    cellLoop grow (fun hmax _ => gradhComputeH dens est mid small tol hmax h0 rho0 lo0) [0] (f + 1) hmax
      = some [⟨-1, h0, rho0⟩] := by
  have h' : (gradh dens est mid small tol (grow * hmax)).hmax < lo0 := h
  simp [cellLoop, cellPass, gradhComputeH, computeH, h']

example : (1.05 : ℚ) * 1 < 2 := by norm_num

/-- **C50, negation.** A particle held at the sink bound does not get the density at its smoothing length: here `h = 3/2`
and the density is that at `h = 2`. -/
theorem C50_bound_density_stale : gradhComputeH (density (m4Kernel 1) (fun _ => 0) [exSelf]) (hRho 1 (1 / 3) 1) half 0 (1 / 100)
    4 2 0 (3 / 2) = some ⟨1, 3 / 2, 1 / 3⟩ ∧ density (m4Kernel 1) (fun _ => 0) [exSelf] (3 / 2) = 4 / 9 := by
  refine ⟨?_, by rw [exSelf_density]; norm_num⟩
  have h1 : hRho 1 (1 / 3) 1 (1 / 3) = 1 := by rw [hRho_one]; norm_num
  have h3 : (2 : ℝ) / 3 / 2 = 1 / 3 := by norm_num
  have h2 : loop (gradh (density (m4Kernel 1) (fun _ => 0) [exSelf]) (hRho 1 (1 / 3) 1) half 0 (1 / 100) 4) 150 1 2 (3 / 2) 4
      = .left 2 (1 / 3) (3 / 2) 4 1 := by
    unfold loop step newH
    simp only [gradh, exSelf_density, h1, h3]
    norm_num
  unfold gradhComputeH
  rw [computeH_left (by norm_num [gradh]) h2 (by norm_num [h1, gradh])]
  norm_num [h1]

/-! ## Saitoh & Makino SPH -/

/-- **C50, Saitoh & Makino SPH.** The same with an absolute tolerance; there is no sink bound. -/
theorem C50_sm2012 {dens est : ℝ → ℝ} {n : ℕ} {hfac m small tol hmax h0 rho0 h rho : ℝ} (hd : ∀ x, 0 < x → 0 < dens x)
    (he : ∀ x, 0 < x → 0 < est x) (h00 : 0 < h0)
    (hc : sm2012ComputeH dens est half n hfac m small tol hmax h0 rho0 = some ⟨1, h, rho⟩) :
    0 < h ∧ h ≤ hmax ∧ ∃ h', 0 < h' ∧ rho = dens h' ∧
      ((|h' - est rho| < tol ∧ |h' - h| < tol) ∨ (est rho = hmax ∧ h = hmax)) := by
  obtain ⟨a, b, h', lo, rfl, e, hl, cs⟩ := computeH_success (by exact half_between) hc
  have h'pos : 0 < h' := by
    rcases cs with ⟨up, br, hin, -⟩ | ⟨-, hin, -⟩ | ⟨up, -, -, -, -, hp, -⟩
    · rcases hin with rfl | hin
      · exact h00
      · linarith [hin.1, br.lower]
    · rcases hin with rfl | hin
      · exact h00
      · exact hin.1
    · exact hp
  change h = max (est (dens h')) lo at e
  have hr := he _ (hd h' h'pos)
  have hes : est (dens h') ≤ h := by rw [e]; exact le_max_left _ _
  refine ⟨hr.trans_le hes, a, h', h'pos, rfl, ?_⟩
  rcases cs with ⟨up, br, hin, hn⟩ | ⟨hl', hin, hx⟩ | ⟨up, br, h1, h2, h3, h4, h5⟩
  · left
    have hn' : 0 < dens h' ∧ lo < h' ∧ |h' - est (dens h')| < tol := of_decide_eq_true hn
    have h1 := hn'.2.2
    refine ⟨h1, ?_⟩
    rcases le_total (est (dens h')) lo with hle | hle
    · rw [e, max_eq_right hle]
      rw [abs_lt] at h1 ⊢
      constructor <;> linarith [hn'.2.1, h1.1, h1.2]
    · rw [e, max_eq_left hle]; exact h1
  · right
    rcases hx with hx | hx
    · change est (dens h') ≤ 0 at hx
      linarith
    · change est (dens h') = hmax at hx
      refine ⟨hx, ?_⟩
      change 0 ≤ hmax at b
      rw [e, hl', hx, max_eq_left b]
  · exact absurd h5 (half_strict h1)

/-- the hypotheses hold for an isolated particle -/
example : (∀ x : ℝ, 0 < x → 0 < density (m4Kernel 1) (fun _ => 0) [exSelf] x) ∧ (∀ x, 0 < x → 0 < hRho 1 (2 / 3) 1 x) := by
  refine ⟨fun x hx => ?_, fun x hx => hRho_pos (by norm_num) one_pos hx⟩
  rw [exSelf_density]; positivity

/-! ## Meshless -/

/-- **C50, meshless, what holds.** On success the smoothing length is positive, at most `hmax`, and is that of the number
density returned, which is the number density at some `h'`.  Missing: the sink bound, and that `h` and `h'` agree
within the tolerance (both fail, see below). -/
theorem C50_mfv_partial {dens est : ℝ → ℝ} {n : ℕ} {hfac small tol hmax h0 rho0 lo0 h ndens : ℝ} {mid : ℝ → ℝ → ℝ}
    (hmid : ∀ l u, l ≤ u → l ≤ mid l u ∧ mid l u ≤ u) (hd : ∀ x, 0 < x → 0 < dens x)
    (he : ∀ x, 0 < x → 0 < est x) (h00 : 0 < h0) (hlo0 : 0 ≤ lo0)
    (hc : mfvComputeH dens est mid n hfac small tol hmax h0 rho0 lo0 = some ⟨1, h, ndens⟩) :
    0 < h ∧ h ≤ hmax ∧ h = est ndens ∧ ∃ h', 0 < h' ∧ ndens = dens h' := by
  obtain ⟨a, b, h', lo, rfl, e, hl, cs⟩ := computeH_success (by exact hmid) hc
  have h'pos : 0 < h' := by
    rcases cs with ⟨up, br, hin, -⟩ | ⟨-, hin, -⟩ | ⟨up, -, -, -, -, hp, -⟩
    · rcases hin with rfl | hin
      · exact h00
      · linarith [hin.1, br.lower]
    · rcases hin with rfl | hin
      · exact h00
      · linarith [hin.1]
    · linarith
  exact ⟨by rw [e]; exact he _ (hd _ h'pos), a, e, h', h'pos, rfl⟩

theorem exAlone_ndens {h : ℝ} : numberDensity (m4Kernel 1) 1 [0] h = 2 / 3 / h := by
  simp [numberDensity, m4Kernel, M4.w0, M4.kernnorm]
  ring

theorem hVol_one {hfac x : ℝ} : hVol 1 hfac x = hfac * (1 / x) := by simp [hVol]

/-- **C50, negation.** A meshless particle in a sink can get a smoothing length below the sink bound: the bound
stops the iteration but is not applied to the result. -/
theorem C50_mfv_below_bound : mfvComputeH (numberDensity (m4Kernel 1) 1 [0]) (hVol 1 (1 / 3)) half 1 (1 / 3) 0 (1 / 100)
    4 2 1 (3 / 2) = some ⟨1, 1, 1 / 3⟩ := by
  have h1 : hVol 1 (1 / 3) (1 / 3) = 1 := by rw [hVol_one]; norm_num
  have h3 : (2 : ℝ) / 3 / 2 = 1 / 3 := by norm_num
  have h2 : loop (mfv (numberDensity (m4Kernel 1) 1 [0]) (hVol 1 (1 / 3)) half 1 (1 / 3) 0 (1 / 100) 4 2 1) 150 1 2 (3 / 2) 4
      = .left 2 (1 / 3) (3 / 2) 4 1 := by
    unfold loop step newH
    simp only [mfv, exAlone_ndens, h1, h3]
    norm_num
  unfold mfvComputeH
  rw [computeH_left (by norm_num [mfv]) h2 (by norm_num [h1, mfv])]
  norm_num [h1]

/-- squared distances: the particle itself and seven at distance 3/2 -/
noncomputable def exSeven : List ℝ := [0, 9 / 4, 9 / 4, 9 / 4, 9 / 4, 9 / 4, 9 / 4, 9 / 4]

theorem exSeven_ndens {h : ℝ} (hh : 0 < h) :
    numberDensity (m4Kernel 1) 1 exSeven h = (2 / 3 + 7 * (m4Kernel 1).w0 (3 / 2 / h)) / h := by
  have h0 : (m4Kernel 1).w0 0 = 2 / 3 := by norm_num [m4Kernel, M4.w0, M4.kernnorm]
  have h1 : √(9 / 4 * (1 / h * (1 / h))) = 3 / 2 / h := by
    rw [show 9 / 4 * (1 / h * (1 / h)) = (3 / 2 / h) * (3 / 2 / h) by ring]
    exact Real.sqrt_mul_self (by positivity)
  simp only [numberDensity, exSeven, List.map_cons, List.map_nil, List.sum_cons, List.sum_nil, h1, zero_mul, Real.sqrt_zero, h0]
  ring

/-- **C50, negation.** The meshless exit test compares with the smoothing length the particle came with, not the one the
density was just computed for.  Here the iteration jumps from 1 to 3/2 and back to 351/352, which is close to where
it started, and stops; but the smoothing length belonging to the density at 351/352 is above 7/5. -/
theorem C50_mfv_false_convergence :
    mfvComputeH (numberDensity (m4Kernel 1) 1 exSeven) (hVol 1 (39 / 32)) half 1 (39 / 32) 0 (1 / 100) 2 1 1 0
      = some ⟨1, 351 / 352, 11 / 9⟩ ∧
    7 / 5 < hVol 1 (39 / 32) (numberDensity (m4Kernel 1) 1 exSeven (351 / 352)) := by
  have n1 : numberDensity (m4Kernel 1) 1 exSeven 1 = 13 / 16 := by
    rw [exSeven_ndens one_pos]; norm_num [m4Kernel, M4.w0, M4.kernnorm]
  have n2 : numberDensity (m4Kernel 1) 1 exSeven (3 / 2) = 11 / 9 := by
    rw [exSeven_ndens (by norm_num)]; norm_num [m4Kernel, M4.w0, M4.kernnorm]
  have e1 : hVol 1 (39 / 32) (13 / 16) = 3 / 2 := by rw [hVol_one]; norm_num
  have e2 : hVol 1 (39 / 32) (11 / 9) = 351 / 352 := by rw [hVol_one]; norm_num
  constructor
  · have h2 : loop (mfv (numberDensity (m4Kernel 1) 1 exSeven) (hVol 1 (39 / 32)) half 1 (39 / 32) 0 (1 / 100) 2 1 1) 150 1 1 0 2
        = .conv (3 / 2) (11 / 9) 0 := by
      unfold loop step newH
      simp only [mfv, n1, e1]
      norm_num
      unfold loop step
      simp only [n2, e2]
      norm_num [abs_of_pos]
    unfold mfvComputeH
    rw [computeH_conv (by norm_num [mfv]) h2 (by norm_num [e2, mfv])]
    norm_num [e2]
  · rw [hVol_one, exSeven_ndens (by norm_num)]
    norm_num [m4Kernel, M4.w0, M4.kernnorm]

/-- **C50, negation.** The meshless correction term is made from the particle's old correction term, not from the
neighbour sum computed for it.  It is what it should be (one over the derivative of the equation solved, with `s` the
derivative of the number density) only if the old value happened to be that sum. -/
theorem C50_mfv_invomega_stale {n : ℕ} (hn : 1 ≤ n) {h ndens : ℝ} (hh : 0 < h) (hd : 0 < ndens) (old s : ℝ) :
    mfvInvomega n h ndens old s = 1 / (1 + 1 / (n : ℝ) * h * s / ndens) ↔ old = s := by
  have hn' : (0 : ℝ) < n := by exact_mod_cast hn
  unfold mfvInvomega
  rw [one_div, one_div (1 + _ / _), inv_inj, add_right_inj, div_left_inj' hd.ne', mul_right_inj' (by positivity)]

example : mfvInvomega 1 1 1 1 (-1 / 2) ≠ 1 / (1 + 1 / ((1 : ℕ) : ℝ) * 1 * (-1 / 2) / 1) := by
  rw [ne_eq, C50_mfv_invomega_stale le_rfl one_pos one_pos]; norm_num

/-! ## The potential minimum flag -/

/-- what the flag should say: no neighbour within the kernel radius has a (1 + 1e-9 times) deeper potential -/
def PotentialMinimum {n : ℕ} (kernrangesqd invhsqd gpot : ℝ) (r : Vec n ℝ) (ngbs : List (Ngb n)) : Prop :=
  ∀ b ∈ ngbs, drsqd r b * invhsqd < kernrangesqd → b.gpot ≤ 1.000000001 * gpot

/-- **C50, negation.** The flag compares each neighbour's potential using the distance of the neighbour before it: a
neighbour out of reach unsets the flag of a particle that is the minimum, and one within reach does not unset it. -/
theorem C50_potmin_wrong :
    (let ngbs : List (Ngb 1) := [⟨1, fun _ => 0, 1⟩, ⟨1, fun _ => 3, 2⟩]
     potmin 4 1 1 (fun _ => 0) ngbs = false ∧ PotentialMinimum 4 1 1 (fun _ => 0) ngbs) ∧
    (let ngbs : List (Ngb 1) := [⟨1, fun _ => 1, 2⟩, ⟨1, fun _ => 0, 1⟩, ⟨1, fun _ => 3, 1⟩]
     potmin 4 1 1 (fun _ => 0) ngbs = true ∧ ¬ PotentialMinimum 4 1 1 (fun _ => 0) ngbs) := by
  refine ⟨⟨?_, ?_⟩, ?_, ?_⟩
  · norm_num [potmin, potminLoop, drsqd, dot]
  · intro b hb hd
    simp only [List.mem_cons, List.not_mem_nil, or_false] at hb
    rcases hb with rfl | rfl
    · norm_num
    · norm_num [drsqd, dot] at hd
  · norm_num [potmin, potminLoop, drsqd, dot]
  · intro h
    have := h ⟨1, fun _ => 1, 2⟩ (by simp) (by norm_num [drsqd, dot])
    norm_num at this

end Gandalf
