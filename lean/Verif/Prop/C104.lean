import Verif.Model.ShockTube
import Verif.Prop.C56

/-!
# C104 – the exact curve drawn over a shock tube
-/

set_option autoImplicit false
set_option linter.unusedSectionVars false

namespace Gandalf

open Exact Tube

namespace Tube

/-- Gas on both sides. -/
structure Tube.Gas (T : Tube) : Prop where
  gamma : 1 < T.gamma
  rhol : 0 < T.rhol
  rhor : 0 < T.rhor
  pl : 0 < T.pl
  pr : 0 < T.pr

theorem Tube.Gas.left {T : Tube} (h : T.Gas) : Good T.gamma T.left := by
  have := h.gamma
  have := h.rhol
  have := h.pl
  have e : 0 < T.gamma * T.pl / T.rhol := by positivity
  refine ⟨h.pl, h.rhol, Real.sqrt_pos.mpr e, ?_⟩
  simp only [Tube.left]
  rw [Real.sq_sqrt e.le]
  field_simp

theorem Tube.Gas.right {T : Tube} (h : T.Gas) : Good T.gamma T.right := by
  have := h.gamma
  have := h.rhor
  have := h.pr
  have e : 0 < T.gamma * T.pr / T.rhor := by positivity
  refine ⟨h.pr, h.rhor, Real.sqrt_pos.mpr e, ?_⟩
  simp only [Tube.right]
  rw [Real.sq_sqrt e.le]
  field_simp

theorem leftWave_pos {γ : ℝ} {a b : Sample} {w : ℝ → Sample} {m : ℝ} (h : LeftWave γ a b w m) (hd : 0 < a.d) (hp : 0 < a.p)
    (hm : b.u = m) (s : ℝ) (hs : s ≤ m) : 0 < (w s).d ∧ 0 < (w s).p := by
  cases h with
  | shock s0 below above jump compress lax behind =>
    rcases le_or_gt s s0 with h | h
    · rw [below s h]; exact ⟨hd, hp⟩
    · rw [above s h hs]; exact ⟨hd.trans compress.2, hp.trans compress.1⟩
  | fan head tail le behind below above expand fan inside euler invariant =>
    have key : ∀ s, head ≤ s → s ≤ tail → 0 < (w s).d ∧ 0 < (w s).p := by
      intro s h1 h2
      obtain ⟨i1, -, -, i4⟩ := invariant s h1 h2
      rw [inside s h1 h2]
      refine ⟨i1, ?_⟩
      have : 0 < (fan s).p / (fan s).d ^ γ := by
        rw [i4]
        exact div_pos hp (Real.rpow_pos_of_pos hd γ)
      exact (div_pos_iff_of_pos_right (Real.rpow_pos_of_pos i1 γ)).mp this
    rcases le_or_gt s head with h | h
    · rw [below s h]; exact ⟨hd, hp⟩
    · rcases le_or_gt s tail with h' | h'
      · exact key s h.le h'
      · have k := key tail le le_rfl
        rw [above tail le_rfl (by rw [← hm]; exact behind.le)] at k
        rw [above s h'.le hs]
        exact k

theorem leftWave_head {γ : ℝ} {a b : Sample} {w : ℝ → Sample} {m : ℝ} (h : LeftWave γ a b w m) (hm : b.u = m) :
    ∃ s0 < m, ∀ s ≤ s0, w s = a := by
  cases h with
  | shock s0 below above jump compress lax behind => exact ⟨s0, hm ▸ behind, below⟩
  | fan head tail le behind below above expand fan inside euler invariant =>
    exact ⟨head, hm ▸ (le.trans_lt behind), below⟩

theorem curve_get {T : Tube} {star : ℝ × ℝ} {q : String} {N i : ℕ} (hi : i < N) :
    (T.curve star q N)[i]? = some (if q = "x" then T.x N i
    else if q = "rho" then (T.state star N i).d
    else if q = "vx" then (T.state star N i).u
    else if q = "press" then (T.state star N i).p
    else if q = "u" then (T.state star N i).p / (T.state star N i).d / (T.gamma - 1)
    else 0) := by
  unfold Tube.curve
  rw [List.getElem?_map, List.getElem?_range hi]
  rfl

end Tube

/-- The `N` points are evenly spaced from the left end to the right end. -/
theorem C104_grid (T : Tube) (star : ℝ × ℝ) (N : ℕ) (hN : 2 ≤ N) :
    (T.curve star "x" N).length = N ∧ (T.curve star "x" N)[0]? = some T.xl ∧ (T.curve star "x" N)[N - 1]? = some T.xr ∧
    ∀ i a b, (T.curve star "x" N)[i]? = some a → (T.curve star "x" N)[i + 1]? = some b → (b - a) * ((N : ℝ) - 1) = T.xr - T.xl := by
  have h2 : (2 : ℝ) ≤ N := by exact_mod_cast hN
  have hne : (N : ℝ) - 1 ≠ 0 := by linarith
  have hlen : (T.curve star "x" N).length = N := by simp [Tube.curve]
  refine ⟨hlen, ?_, ?_, ?_⟩
  · rw [curve_get (by omega), if_pos rfl]
    simp [Tube.x]
  · rw [curve_get (by omega), if_pos rfl, Tube.x, Nat.cast_sub (by omega), Nat.cast_one, mul_div_assoc, div_self hne]
    congr 1
    ring
  · intro i a b ha hb
    have hb' : i + 1 < N := by
      by_contra hc
      rw [List.getElem?_eq_none (by omega)] at hb
      cases hb
    rw [curve_get (by omega), if_pos rfl] at ha hb
    cases ha
    cases hb
    unfold Tube.x
    push_cast
    field_simp
    ring

/-- With the balanced pressure and the speed of the contact, all densities and pressures of the curve are positive, and
so are the internal energies; with `press` they satisfy the equation of state of the ideal gas. -/
theorem C104_positive (T : Tube) (hT : T.Gas) (ps us : ℝ) (hps : Balanced T.gamma T.left T.right ps)
    (hus : us = T.left.u - waveFn T.gamma T.left ps) (N i : ℕ) (rho p u : ℝ)
    (h1 : (T.curve (ps, us) "rho" N)[i]? = some rho) (h2 : (T.curve (ps, us) "press" N)[i]? = some p)
    (h3 : (T.curve (ps, us) "u" N)[i]? = some u) :
    0 < rho ∧ 0 < p ∧ 0 < u ∧ p = (T.gamma - 1) * rho * u := by
  have hi : i < N := by
    by_contra hc
    rw [List.getElem?_eq_none (by simp [Tube.curve]; omega)] at h1
    cases h1
  rw [curve_get hi] at h1 h2 h3
  simp only [String.reduceEq, if_false, if_true, Option.some.injEq] at h1 h2 h3
  have key : 0 < (T.state (ps, us) N i).d ∧ 0 < (T.state (ps, us) N i).p := by
    obtain ⟨SL, SR, e1, e2, e3, e4, wl, wr, sl, sr⟩ := C56_solution hT.gamma hT.left hT.right ps us hps hus
    unfold Tube.state
    generalize (T.x N i - T.x0) / T.t = s
    rcases le_or_gt s us with h | h
    · simp only
      rw [sl s h]
      exact leftWave_pos wl hT.left.d hT.left.p e1 s h
    · simp only
      rw [sr s h]
      have := leftWave_pos wr hT.right.d hT.right.p (by simp [Sample.flip, e2]) (-s) (by linarith)
      simpa [Sample.flip] using this
  rw [h1, h2] at key
  rw [h1, h2] at h3
  have hg : 0 < T.gamma - 1 := by linarith [hT.gamma]
  obtain ⟨k1, k2⟩ := key
  refine ⟨k1, k2, ?_, ?_⟩
  · rw [← h3]; positivity
  · rw [← h3]; field_simp

namespace Tube

variable {γ : ℝ} {L R : Side}

theorem sampleL_pos (hγ : 1 < γ) (hL : Good γ L) {ps us s : ℝ} (hps : 0 < ps) (hus : us < L.u + g4 γ * L.c) (hs : s ≤ us) :
    0 < (sampleL γ ps us s L).d ∧ 0 < (sampleL γ ps us s L).p := by
  have hp := hL.p
  have hd := hL.d
  have hc := hL.c
  have h5 := g5_pos hγ
  have h6 := g6_pos hγ
  have h7 := g7_pos hγ
  have h47 := g47 hγ
  unfold sampleL
  dsimp only
  split_ifs with h1 h2 h3 h4
  · exact ⟨hd, hp⟩
  · exact ⟨mul_pos hd (Real.rpow_pos_of_pos (by positivity) _), hps⟩
  · have : 0 < g5 γ * (L.c + g7 γ * (L.u - s)) / L.c := by
      apply div_pos _ hc
      apply mul_pos h5
      have e : g7 γ * (s - L.u) < g7 γ * (g4 γ * L.c) := mul_lt_mul_of_pos_left (by linarith) h7
      have e2 : g7 γ * (g4 γ * L.c) = L.c := by linear_combination L.c * h47
      linarith
    exact ⟨mul_pos hd (Real.rpow_pos_of_pos this _), mul_pos hp (Real.rpow_pos_of_pos this _)⟩
  · exact ⟨hd, hp⟩
  · exact ⟨by positivity, hps⟩

theorem sampleR_pos (hγ : 1 < γ) (hR : Good γ R) {ps us s : ℝ} (hps : 0 < ps) (hus : R.u - g4 γ * R.c < us) (hs : us < s) :
    0 < (sampleR γ ps us s R).d ∧ 0 < (sampleR γ ps us s R).p := by
  have hp := hR.p
  have hd := hR.d
  have hc := hR.c
  have h5 := g5_pos hγ
  have h6 := g6_pos hγ
  have h7 := g7_pos hγ
  have h47 := g47 hγ
  unfold sampleR
  dsimp only
  split_ifs with h1 h2 h3 h4
  · exact ⟨hd, hp⟩
  · exact ⟨by positivity, hps⟩
  · exact ⟨hd, hp⟩
  · exact ⟨mul_pos hd (Real.rpow_pos_of_pos (by positivity) _), hps⟩
  · have : 0 < g5 γ * (R.c - g7 γ * (R.u - s)) / R.c := by
      apply div_pos _ hc
      apply mul_pos h5
      have e : g7 γ * (R.u - s) < g7 γ * (g4 γ * R.c) := mul_lt_mul_of_pos_left (by linarith) h7
      have e2 : g7 γ * (g4 γ * R.c) = R.c := by linear_combination R.c * h47
      linarith
    exact ⟨mul_pos hd (Real.rpow_pos_of_pos this _), mul_pos hp (Real.rpow_pos_of_pos this _)⟩

/-- the pressure before the last round is not above the balanced one -/
theorem pold_le (hγ : 1 < γ) (hL : Good γ L) (hR : Good γ R) {small tol : ℝ} (hs : 0 < small) {ps : ℝ}
    (hps : Balanced γ L R ps) (hle : small ≤ ps) : ∀ (k : ℕ) (p : ℝ), 0 < p → p ≤ ps →
    0 < (iter γ small tol L R k p).1 ∧ 0 < (iter γ small tol L R k p).2 ∧ (iter γ small tol L R k p).2 ≤ ps := by
  intro k p hp h
  obtain ⟨j, -, e⟩ := iter_spec γ small tol L R k p
  rw [e]
  have key : ∀ j, 0 < (clamped γ small L R)^[j] p ∧ (clamped γ small L R)^[j] p ≤ ps := by
    intro j
    induction j with
    | zero => exact ⟨hp, h⟩
    | succ j ih =>
      rw [Function.iterate_succ_apply']
      exact ⟨lt_of_lt_of_le hs (le_max_left _ _), max_le hle (C55_newton hγ hL hR ps _ hps ih.1).1⟩
  exact ⟨(key (j + 1)).1, key j⟩

end Tube

/-- The same for the pressure and speed the code itself finds, after any number of rounds: without a vacuum the curve is
positive and satisfies the equation of state, if the first guess is not above the balanced pressure or the iteration does
not end with its first round. -/
theorem C104_positive_run (T : Tube) (hT : T.Gas) (small tol : ℝ) (hs : 0 < small) (Nit : ℕ) (ps : ℝ)
    (hps : Balanced T.gamma T.left T.right ps) (hle : small ≤ ps) (g : ℝ) (hg : g = guess T.gamma small T.left T.right)
    (hstart : g ≤ ps ∨ 2 ≤ Nit ∧ tol ≤ 2 * |newton T.gamma T.left T.right g - g| / (newton T.gamma T.left T.right g + g))
    (N i : ℕ) (rho p u : ℝ) (h1 : (T.curve (T.star small tol Nit) "rho" N)[i]? = some rho)
    (h2 : (T.curve (T.star small tol Nit) "press" N)[i]? = some p) (h3 : (T.curve (T.star small tol Nit) "u" N)[i]? = some u) :
    0 < rho ∧ 0 < p ∧ 0 < u ∧ p = (T.gamma - 1) * rho * u := by
  have hγ := hT.gamma
  have hL := hT.left
  have hR := hT.right
  have hv : ¬ Vacuum T.gamma T.left T.right := by
    rw [C55_vacuum_test hγ hL hR]
    refine ⟨ps, hps, fun q hq => ?_⟩
    by_contra hne
    obtain ⟨a1, a2⟩ := balanced_iff.mp hps
    obtain ⟨b1, b2⟩ := balanced_iff.mp hq
    rcases lt_or_gt_of_ne hne with h | h
    · have := total_mono hγ hL hR b1 h; linarith
    · have := total_mono hγ hL hR a1 h; linarith
  have hi : i < N := by
    by_contra hc
    rw [List.getElem?_eq_none (by simp [Tube.curve]; omega)] at h1
    cases h1
  have hgp : 0 < g := by rw [hg]; exact lt_of_lt_of_le hs guess_pos
  have hr : 0 < (iter T.gamma small tol T.left T.right (Nit - 1) g).1 ∧
      0 < (iter T.gamma small tol T.left T.right (Nit - 1) g).2 ∧
      (iter T.gamma small tol T.left T.right (Nit - 1) g).2 ≤ ps := by
    rcases hstart with h | ⟨hN, h⟩
    · exact pold_le hγ hL hR hs hps hle _ g hgp h
    · obtain ⟨k, rfl⟩ : ∃ k, Nit = k + 2 := ⟨Nit - 2, by omega⟩
      rw [show k + 2 - 1 = k + 1 by omega]
      simp only [iter]
      split_ifs with c1 c2
      · exact pold_le hγ hL hR hs hps hle k small hs hle
      · linarith
      · exact pold_le hγ hL hR hs hps hle k _ (by linarith) (C55_newton hγ hL hR ps g hps hgp).1
  obtain ⟨r1, r2, r3⟩ := hr
  have hst : T.star small tol Nit = ((iter T.gamma small tol T.left T.right (Nit - 1) g).1,
      0.5 * (T.left.u + T.right.u) + 0.5 * (waveFn T.gamma T.right (iter T.gamma small tol T.left T.right (Nit - 1) g).2
        - waveFn T.gamma T.left (iter T.gamma small tol T.left T.right (Nit - 1) g).2)) := by
    unfold Tube.star starRegion
    rw [if_neg hv, hg]
  generalize iter T.gamma small tol T.left T.right (Nit - 1) g = r at *
  have htot : total T.gamma T.left T.right r.2 ≤ 0 := by
    obtain ⟨-, a2⟩ := balanced_iff.mp hps
    rcases r3.lt_or_eq with h | h
    · have := total_mono hγ hL hR r2 h; linarith
    · rw [h, a2]
  unfold total at htot
  have w1 := waveFn_gt hγ hL r2
  have w2 := waveFn_gt hγ hR r2
  rw [curve_get hi] at h1 h2 h3
  simp only [String.reduceEq, if_false, if_true, Option.some.injEq] at h1 h2 h3
  have key : 0 < (T.state (T.star small tol Nit) N i).d ∧ 0 < (T.state (T.star small tol Nit) N i).p := by
    rw [hst]
    unfold Tube.state sample
    generalize (T.x N i - T.x0) / T.t = s
    split_ifs with h
    · exact sampleL_pos hγ hL r1 (by norm_num; linarith) h
    · exact sampleR_pos hγ hR r1 (by norm_num; linarith) (not_le.mp h)
  rw [h1, h2] at key
  rw [h1, h2] at h3
  have hg : 0 < T.gamma - 1 := by linarith
  obtain ⟨k1, k2⟩ := key
  refine ⟨k1, k2, ?_, ?_⟩
  · rw [← h3]; positivity
  · rw [← h3]; field_simp

/-- The two waves run apart from the interface: there are speeds `a < us < b` such that at all times all points further
left than `a t` from `x0` have the left state, and all points further right than `b t` the right one. -/
theorem C104_outside (T : Tube) (hT : T.Gas) (ps us : ℝ) (hps : Balanced T.gamma T.left T.right ps)
    (hus : us = T.left.u - waveFn T.gamma T.left ps) :
    ∃ a b : ℝ, a < us ∧ us < b ∧ ∀ t > 0, ∀ (N i : ℕ) (x : ℝ) (T' : Tube), T' = { T with t := t } →
      (T'.curve (ps, us) "x" N)[i]? = some x →
      (x ≤ T.x0 + a * t → (T'.curve (ps, us) "rho" N)[i]? = some T.rhol ∧ (T'.curve (ps, us) "vx" N)[i]? = some T.vl ∧
        (T'.curve (ps, us) "press" N)[i]? = some T.pl) ∧
      (T.x0 + b * t ≤ x → (T'.curve (ps, us) "rho" N)[i]? = some T.rhor ∧ (T'.curve (ps, us) "vx" N)[i]? = some T.vr ∧
        (T'.curve (ps, us) "press" N)[i]? = some T.pr) := by
  obtain ⟨SL, SR, e1, e2, e3, e4, wl, wr, sl, sr⟩ := C56_solution hT.gamma hT.left hT.right ps us hps hus
  obtain ⟨a, ha, hl⟩ := leftWave_head wl e1
  obtain ⟨b, hb, hr⟩ := leftWave_head wr (by simp [Sample.flip, e2])
  refine ⟨a, -b, ha, by linarith, ?_⟩
  rintro t ht N i x T' rfl hx
  have hi : i < N := by
    by_contra hc
    rw [List.getElem?_eq_none (by simp [Tube.curve]; omega)] at hx
    cases hx
  rw [curve_get hi, if_pos rfl, Option.some.injEq] at hx
  rw [curve_get hi, curve_get hi, curve_get hi]
  simp only [String.reduceEq, if_false, if_true, Option.some.injEq]
  have hst : Tube.state { T with t := t } (ps, us) N i = sample T.gamma ps us ((x - T.x0) / t) T.left T.right := by
    unfold Tube.state
    rw [hx]
    rfl
  rw [hst]
  constructor
  · intro hxa
    have hs : (x - T.x0) / t ≤ a := by rw [div_le_iff₀ ht]; linarith
    rw [sl _ (by linarith), hl _ hs]
    exact ⟨rfl, rfl, rfl⟩
  · intro hxb
    have hs : -b ≤ (x - T.x0) / t := by rw [le_div_iff₀ ht]; linarith
    rw [sr _ (by linarith)]
    have h := hr (-((x - T.x0) / t)) (by linarith)
    simp only [neg_neg] at h
    generalize sampleR T.gamma ps us ((x - T.x0) / t) T.right = w at h
    have hd := congrArg Sample.d h
    have hu := congrArg Sample.u h
    have hp := congrArg Sample.p h
    simp only [Sample.flip, Side.state, mirror] at hd hu hp
    exact ⟨hd, neg_injective hu, hp⟩

/-- The flow is self-similar: `k` times later, at points `k` times as far from `x0`, the curve is the same. -/
theorem C104_similar (T : Tube) (star : ℝ × ℝ) (k : ℝ) (hk : 0 < k) (q : String) (hq : q ≠ "x") (N : ℕ) (T' : Tube)
    (hT' : T' = { T with t := k * T.t, xl := T.x0 + k * (T.xl - T.x0), xr := T.x0 + k * (T.xr - T.x0) }) :
    T'.curve star q N = T.curve star q N := by
  have hs : ∀ i, T'.state star N i = T.state star N i := by
    intro i
    subst hT'
    unfold Tube.state
    have : ((Tube.x { T with t := k * T.t, xl := T.x0 + k * (T.xl - T.x0), xr := T.x0 + k * (T.xr - T.x0) } N i) - T.x0)
        / (k * T.t) = (T.x N i - T.x0) / T.t := by
      rw [show Tube.x { T with t := k * T.t, xl := T.x0 + k * (T.xl - T.x0), xr := T.x0 + k * (T.xr - T.x0) } N i - T.x0
        = k * (T.x N i - T.x0) by unfold Tube.x; simp only; ring]
      exact mul_div_mul_left _ _ hk.ne'
    simp only [this]
    rfl
  unfold Tube.curve
  apply List.map_congr_left
  intro i _
  have hg : T'.gamma = T.gamma := by subst hT'; rfl
  simp only [hs, hg, if_neg hq]

/-- A tube with the same gas everywhere: the code's own star region gives that gas at all points and times. -/
theorem C104_uniform (T : Tube) (hT : T.Gas) (hr : T.rhor = T.rhol) (hv : T.vr = T.vl) (hp : T.pr = T.pl) (small tol : ℝ)
    (hs : small ≤ T.pl) (ht : 0 < tol) (Nit N i : ℕ) (hi : i < N) :
    (T.curve (T.star small tol Nit) "rho" N)[i]? = some T.rhol ∧ (T.curve (T.star small tol Nit) "vx" N)[i]? = some T.vl ∧
    (T.curve (T.star small tol Nit) "press" N)[i]? = some T.pl := by
  have hlr : T.right = T.left := by unfold Tube.right Tube.left; rw [hr, hv, hp]
  have hst : T.star small tol Nit = (T.pl, T.vl) := by
    unfold Tube.star
    rw [hlr]
    exact C55_identical T.left hT.left small tol hs ht Nit
  rw [curve_get hi, curve_get hi, curve_get hi]
  simp only [String.reduceEq, if_false, if_true, Option.some.injEq]
  rw [hst]
  have hg := hT.gamma
  have h0 := hT.pl
  have h1 : T.pl / T.pl = 1 := div_self h0.ne'
  have hc : 0 < T.left.c := hT.left.c
  have hgs : g2 T.gamma + g1 T.gamma = 1 := by
    unfold g1 g2
    have : T.gamma ≠ 0 := by linarith
    field_simp
    ring
  have hg6 : 1 + g6 T.gamma ≠ 0 := by
    unfold g6
    have : 0 < (T.gamma - 1) / (T.gamma + 1) := by apply div_pos <;> linarith
    linarith
  have : T.state (T.pl, T.vl) N i = ⟨T.rhol, T.vl, T.pl⟩ := by
    unfold Tube.state sample
    rw [hlr]
    generalize (T.x N i - T.x0) / T.t = s
    split_ifs with h
    · unfold sampleL
      rw [if_pos (show (T.pl, T.vl).1 ≤ T.left.p from le_rfl)]
      split_ifs with h2 h3
      · rfl
      · simp only [Tube.left, h1, Real.one_rpow, mul_one]
      · exfalso
        simp only [Tube.left, h1, Real.one_rpow, mul_one] at h2 h3
        linarith
    · unfold sampleR
      rw [if_pos (show T.left.p ≤ (T.pl, T.vl).1 from le_rfl)]
      simp only [Tube.left, h1, mul_one, one_mul]
      split_ifs with h2
      · rfl
      · rw [mul_div_assoc, show g6 T.gamma + 1 = 1 + g6 T.gamma by ring, div_self hg6, mul_one]
  rw [this]
  exact ⟨rfl, rfl, rfl⟩

/-- The wrapper does not look at the answer of the vacuum test, as the fluxes do.  When the gas of ratio 5/3 is pulled
apart so fast that a vacuum opens, points in it on the left of `x0` get a negative density. -/
theorem C104_vacuum_fails (T : Tube) (hT : T.Gas) (hg : T.gamma = 5 / 3) (hv : Vacuum T.gamma T.left T.right)
    (small tol : ℝ) (Nit N i : ℕ) (rho : ℝ) (h : (T.curve (T.star small tol Nit) "rho" N)[i]? = some rho)
    (h1 : T.left.u + 3 * T.left.c < (T.x N i - T.x0) / T.t) (h2 : (T.x N i - T.x0) / T.t ≤ 0) : rho < 0 := by
  have hi : i < N := by
    by_contra hc
    rw [List.getElem?_eq_none (by simp [Tube.curve]; omega)] at h
    cases h
  have hst : T.star small tol Nit = (0, 0) := by unfold Tube.star starRegion; rw [if_pos hv]
  rw [curve_get hi] at h
  simp only [String.reduceEq, if_false, if_true, Option.some.injEq] at h
  rw [hst] at h
  unfold Tube.state at h
  generalize (T.x N i - T.x0) / T.t = s at h h1 h2
  have hp := hT.left.p
  have hc := hT.left.c
  have hd := hT.left.d
  unfold sample sampleL at h
  rw [if_pos h2, if_pos hp.le, if_neg (by linarith), zero_div, Real.zero_rpow (g1_pos hT.gamma).ne', mul_zero, sub_zero,
    if_neg (by linarith)] at h
  rw [← h]
  have e4 : g4 T.gamma = ((3 : ℕ) : ℝ) := by rw [hg]; unfold g4; norm_num
  have e5 : g5 T.gamma = 3 / 4 := by rw [hg]; unfold g5; norm_num
  have e7 : g7 T.gamma = 1 / 3 := by rw [hg]; unfold g7; norm_num
  simp only
  rw [e4, Real.rpow_natCast, e5, e7]
  apply mul_neg_of_pos_of_neg hd
  apply Odd.pow_neg (by decide)
  apply div_neg_of_neg_of_pos _ hc
  linarith

/-- Sod's shock tube, with the two gases moving apart at speed `v` -/
noncomputable def C104.sod (v g : ℝ) : Tube :=
  { rhol := 1, rhor := 1 / 8, vl := -v, vr := v, pl := 1, pr := 1 / 10, xl := 0, x0 := 1 / 2, xr := 1, t := 1 / 5, gamma := g }

theorem C104.sod_gas (v g : ℝ) (hg : 1 < g) : (C104.sod v g).Gas := by
  constructor <;> norm_num [C104.sod]
  exact hg

/-- Equal gases meet the hypotheses of the run. -/
example : guess (7 / 5) (1 / 1000) ⟨1, 7 / 5, 1, 0⟩ ⟨1, 7 / 5, 1, 0⟩ = 1 ∧ Balanced (7 / 5) ⟨1, 7 / 5, 1, 0⟩ ⟨1, 7 / 5, 1, 0⟩ 1 := by
  constructor
  · norm_num [guess, ppv]
  · constructor <;> norm_num [waveFn]

/-- Sod's problem meets the hypotheses. -/
example : (C104.sod 0 (7 / 5)).Gas ∧ ∃ ps, Balanced (7 / 5) (C104.sod 0 (7 / 5)).left (C104.sod 0 (7 / 5)).right ps := by
  have hg := C104.sod_gas 0 (7 / 5) (by norm_num)
  refine ⟨hg, ((C55_vacuum_test hg.gamma hg.left hg.right).mp ?_).exists⟩
  have h1 := hg.left.c
  have h2 := hg.right.c
  unfold Vacuum
  have : (C104.sod 0 (7 / 5)).right.u - (C104.sod 0 (7 / 5)).left.u = 0 := by simp [C104.sod, Tube.right, Tube.left]
  rw [this, mul_zero, sub_zero, not_le]
  linarith

/-- A vacuum between streams of speed 10; the points at `x0 - 1/5 ≤ x ≤ x0` lie in it. -/
example : Vacuum (5 / 3) (C104.sod 10 (5 / 3)).left (C104.sod 10 (5 / 3)).right ∧
    (C104.sod 10 (5 / 3)).left.u + 3 * (C104.sod 10 (5 / 3)).left.c < -1 := by
  have h1 : √((5 : ℝ) / 3) ≤ 2 := by rw [Real.sqrt_le_left (by norm_num)]; norm_num
  have h2 : √((4 : ℝ) / 3) ≤ 2 := by rw [Real.sqrt_le_left (by norm_num)]; norm_num
  have e1 : (C104.sod 10 (5 / 3)).left.c = √(5 / 3) := by norm_num [C104.sod, Tube.left]
  have e2 : (C104.sod 10 (5 / 3)).right.c = √(4 / 3) := by norm_num [C104.sod, Tube.right]
  unfold Vacuum
  rw [e1, e2]
  generalize √((5 : ℝ) / 3) = a at h1
  generalize √((4 : ℝ) / 3) = b at h2
  constructor
  · norm_num [C104.sod, Tube.left, Tube.right, g7]
    linarith
  · norm_num [C104.sod, Tube.left]
    linarith

end Gandalf
