import Verif.Model.SlopeLimiter
import Mathlib.Algebra.Order.Chebyshev

/-!
# C27 – limited reconstructions create no new extrema
-/

set_option autoImplicit false
set_option linter.unusedSectionVars false

namespace Gandalf

open Limiter

variable {n nv : ℕ}

namespace Limiter

theorem toFace_eq (p q : Part n nv) : toFace p q = fun k => 0.5 * (q.r k - p.r k) := by
  funext k; unfold toFace; ring

theorem dot_toFace (p q : Part n nv) (v : Fin nv) : dot (p.grad v) (toFace p q) = 0.5 * slope p q v := by
  rw [toFace_eq]
  simp only [dot, slope, Finset.mul_sum]
  exact Finset.sum_congr rfl fun k _ => by ring

theorem edge_pos {b : Bool} {x : ℝ} : 0 < edge b x ↔ 0 < x := by
  unfold edge; cases b <;> simp <;> norm_num

theorem edge_neg {b : Bool} {x : ℝ} : edge b x < 0 ↔ x < 0 := by
  unfold edge
  cases b
  · simp
  · simp only [if_true]
    constructor <;> intro h <;> linarith

theorem edge_zero {b : Bool} {x : ℝ} : edge b x = 0 ↔ x = 0 := by
  unfold edge
  cases b
  · simp
  · simp only [if_true]
    constructor <;> intro h <;> linarith

/-- half the slope is no more than the slope the limiter looks at -/
theorem half_edge (b : Bool) (x : ℝ) : ∃ c, 0 ≤ c ∧ c ≤ 1 ∧ 0.5 * x = c * edge b x := by
  cases b
  · exact ⟨0.5, by norm_num, by norm_num, by simp [edge]⟩
  · exact ⟨0.5 / 0.51, by norm_num, by norm_num, by simp only [edge, if_true]; ring⟩

/-- a value `x` times a factor in `[0,1]` stays between 0 and `x` -/
theorem scaled_between {c x lo hi : ℝ} (h0 : 0 ≤ c) (h1 : c ≤ 1) (hlo : lo ≤ 0) (hhi : 0 ≤ hi) (hx : lo ≤ x)
    (hx' : x ≤ hi) : lo ≤ c * x ∧ c * x ≤ hi := by
  constructor
  · nlinarith [mul_nonneg h0 (sub_nonneg.mpr hx), mul_nonneg (sub_nonneg.mpr h1) (neg_nonneg.mpr hlo)]
  · nlinarith [mul_nonneg h0 (sub_nonneg.mpr hx'), mul_nonneg (sub_nonneg.mpr h1) hhi]

theorem tvd_fold (b : Bool) (p : Part n nv) (v : Fin nv) (nb : List (Part n nv)) : ∀ a : ℝ, 0 ≤ a →
    let al := nb.foldl (fun al q =>
      if edge b (slope p q v) ≠ 0 then min al (max 0 (min 1 ((q.W v - p.W v) / edge b (slope p q v)))) else al) a
    0 ≤ al ∧ al ≤ a ∧ ∀ q ∈ nb, edge b (slope p q v) ≠ 0 →
      al ≤ max 0 (min 1 ((q.W v - p.W v) / edge b (slope p q v))) := by
  induction nb with
  | nil => intro a ha; simp [ha]
  | cons q nb ih =>
    intro a ha
    simp only [List.foldl_cons]
    by_cases h : edge b (slope p q v) ≠ 0
    · rw [if_pos h]
      obtain ⟨h1, h2, h3⟩ := ih (min a (max 0 (min 1 ((q.W v - p.W v) / edge b (slope p q v)))))
        (le_min ha (le_max_left _ _))
      refine ⟨h1, le_trans h2 (min_le_left _ _), fun x hx hne => ?_⟩
      rcases List.mem_cons.mp hx with rfl | hx
      · exact le_trans h2 (min_le_right _ _)
      · exact h3 x hx hne
    · rw [if_neg h]
      obtain ⟨h1, h2, h3⟩ := ih a ha
      refine ⟨h1, h2, fun x hx hne => ?_⟩
      rcases List.mem_cons.mp hx with rfl | hx
      · exact absurd hne h
      · exact h3 x hx hne

theorem wmax_spec (p : Part n nv) (v : Fin nv) (nb : List (Part n nv)) : ∀ a : ℝ,
    a ≤ nb.foldl (fun w q => max w (q.W v)) a ∧ (∀ q ∈ nb, q.W v ≤ nb.foldl (fun w q => max w (q.W v)) a) ∧
    ∀ b, a ≤ b → (∀ q ∈ nb, q.W v ≤ b) → nb.foldl (fun w q => max w (q.W v)) a ≤ b := by
  induction nb with
  | nil => intro a; simp
  | cons q nb ih =>
    intro a
    obtain ⟨h1, h2, h3⟩ := ih (max a (q.W v))
    refine ⟨le_trans (le_max_left _ _) h1, fun x hx => ?_, fun b ha hb => ?_⟩
    · rcases List.mem_cons.mp hx with rfl | hx
      · exact le_trans (le_max_right _ _) h1
      · exact h2 x hx
    · exact h3 b (max_le ha (hb q (by simp))) fun x hx => hb x (by simp [hx])

theorem wmin_spec (p : Part n nv) (v : Fin nv) (nb : List (Part n nv)) : ∀ a : ℝ,
    nb.foldl (fun w q => min w (q.W v)) a ≤ a ∧ (∀ q ∈ nb, nb.foldl (fun w q => min w (q.W v)) a ≤ q.W v) ∧
    ∀ b, b ≤ a → (∀ q ∈ nb, b ≤ q.W v) → b ≤ nb.foldl (fun w q => min w (q.W v)) a := by
  induction nb with
  | nil => intro a; simp
  | cons q nb ih =>
    intro a
    obtain ⟨h1, h2, h3⟩ := ih (min a (q.W v))
    refine ⟨le_trans h1 (min_le_left _ _), fun x hx => ?_, fun b ha hb => ?_⟩
    · rcases List.mem_cons.mp hx with rfl | hx
      · exact le_trans h1 (min_le_right _ _)
      · exact h2 x hx
    · exact h3 b (le_min ha (hb q (by simp))) fun x hx => hb x (by simp [hx])

theorem springel_fold (b : Bool) (p : Part n nv) (v : Fin nv) (hi lo : ℝ) (hhi : 0 ≤ hi) (hlo : lo ≤ 0)
    (nb : List (Part n nv)) : ∀ a : ℝ, 0 ≤ a →
    let al := nb.foldl (fun al q =>
      if 0 < edge b (slope p q v) then min al (hi / edge b (slope p q v))
      else if edge b (slope p q v) < 0 then min al (lo / edge b (slope p q v)) else al) a
    0 ≤ al ∧ al ≤ a ∧ ∀ q ∈ nb, (0 < edge b (slope p q v) → al ≤ hi / edge b (slope p q v)) ∧
      (edge b (slope p q v) < 0 → al ≤ lo / edge b (slope p q v)) := by
  induction nb with
  | nil => intro a ha; simp [ha]
  | cons q nb ih =>
    intro a ha
    simp only [List.foldl_cons]
    by_cases h : 0 < edge b (slope p q v)
    · rw [if_pos h]
      obtain ⟨h1, h2, h3⟩ := ih (min a (hi / edge b (slope p q v))) (le_min ha (div_nonneg hhi h.le))
      refine ⟨h1, le_trans h2 (min_le_left _ _), fun x hx => ?_⟩
      rcases List.mem_cons.mp hx with rfl | hx
      · exact ⟨fun _ => le_trans h2 (min_le_right _ _), fun hn => absurd hn (not_lt.mpr h.le)⟩
      · exact h3 x hx
    · by_cases h' : edge b (slope p q v) < 0
      · rw [if_neg h, if_pos h']
        obtain ⟨h1, h2, h3⟩ := ih (min a (lo / edge b (slope p q v)))
          (le_min ha (div_nonneg_of_nonpos hlo h'.le))
        refine ⟨h1, le_trans h2 (min_le_left _ _), fun x hx => ?_⟩
        rcases List.mem_cons.mp hx with rfl | hx
        · exact ⟨fun hp => absurd hp h, fun _ => le_trans h2 (min_le_right _ _)⟩
        · exact h3 x hx
      · rw [if_neg h, if_neg h']
        obtain ⟨h1, h2, h3⟩ := ih a ha
        refine ⟨h1, h2, fun x hx => ?_⟩
        rcases List.mem_cons.mp hx with rfl | hx
        · exact ⟨fun hp => absurd hp h, fun hn => absurd hn h'⟩
        · exact h3 x hx

theorem cauchy (a b : Vec n ℝ) : |dot a b| ≤ √(dot a a) * √(dot b b) := by
  have h : dot a b ^ 2 ≤ dot a a * dot b b := by
    have := Finset.sum_mul_sq_le_sq_mul_sq Finset.univ a b
    simpa [dot, sq] using this
  have h0 : 0 ≤ dot a a := Finset.sum_nonneg fun k _ => mul_self_nonneg _
  rw [← Real.sqrt_mul h0, ← Real.sqrt_sq_eq_abs]
  exact Real.sqrt_le_sqrt h

theorem drmax_spec (b : Bool) (p : Part n nv) (nb : List (Part n nv)) :
    (∀ q ∈ nb, edge b √(dot (fun k => q.r k - p.r k) fun k => q.r k - p.r k) ≤ drmax b p nb) ∧ 0 ≤ drmax b p nb := by
  have key : ∀ (l : List (Part n nv)) (a : ℝ),
      a ≤ l.foldl (fun d q => max d (dot (fun k => q.r k - p.r k) fun k => q.r k - p.r k)) a ∧
      ∀ q ∈ l, (dot (fun k => q.r k - p.r k) fun k => q.r k - p.r k) ≤
        l.foldl (fun d q => max d (dot (fun k => q.r k - p.r k) fun k => q.r k - p.r k)) a := by
    intro l
    induction l with
    | nil => intro a; simp
    | cons q l ih =>
      intro a
      obtain ⟨h1, h2⟩ := ih (max a (dot (fun k => q.r k - p.r k) fun k => q.r k - p.r k))
      refine ⟨le_trans (le_max_left _ _) h1, fun x hx => ?_⟩
      rcases List.mem_cons.mp hx with rfl | hx
      · exact le_trans (le_max_right _ _) h1
      · exact h2 x hx
  have mono : ∀ x y : ℝ, x ≤ y → edge b x ≤ edge b y := by
    intro x y h
    unfold edge
    cases b
    · simpa using h
    · simp only [if_true]; linarith
  have e0 : edge b 0 = 0 := edge_zero.mpr rfl
  refine ⟨fun q hq => mono _ _ (le_trans (Real.sqrt_le_sqrt ((key nb 0).2 q hq)) (le_max_left _ _)), ?_⟩
  rw [← e0]
  exact mono _ _ (le_trans (Real.sqrt_nonneg _) (le_max_left _ _))

theorem face_len (p q : Part n nv) : √(dot (toFace p q) (toFace p q)) =
    0.5 * √(dot (fun k => q.r k - p.r k) fun k => q.r k - p.r k) := by
  have : dot (toFace p q) (toFace p q) = 0.5 * 0.5 * (dot (fun k => q.r k - p.r k) fun k => q.r k - p.r k) := by
    rw [toFace_eq]
    simp only [dot, Finset.mul_sum]
    exact Finset.sum_congr rfl fun k _ => by ring
  rw [this, Real.sqrt_mul (by norm_num), Real.sqrt_mul_self (by norm_num)]

theorem sgn_eq_one {x : ℝ} (h : 0 < x) : sgn x = 1 := by simp [sgn, h, not_lt.mpr h.le]
theorem sgn_zero : sgn 0 = 0 := by simp [sgn]
theorem sgn_eq_neg {x : ℝ} (h : x < 0) : sgn x = -1 := by simp [sgn, h, not_lt.mpr h.le]

theorem sgn_cases (x : ℝ) : (0 < x ∧ sgn x = 1) ∨ (x = 0 ∧ sgn x = 0) ∨ (x < 0 ∧ sgn x = -1) := by
  rcases lt_trichotomy 0 x with h | h | h
  · exact Or.inl ⟨h, sgn_eq_one h⟩
  · subst h; exact Or.inr (Or.inl ⟨rfl, sgn_zero⟩)
  · exact Or.inr (Or.inr ⟨h, sgn_eq_neg h⟩)

theorem phiminus_le {x d : ℝ} (hd : 0 ≤ d) : phiminus x d ≤ x := by
  unfold phiminus
  split_ifs with h
  · linarith
  · rcases sgn_cases x with ⟨hx, e⟩ | ⟨hx, e⟩ | ⟨hx, e⟩
    · rw [abs_of_pos hx]
      exact div_le_self hx.le (by have := div_nonneg hd hx.le; linarith)
    · subst hx; simp
    · exact absurd (by rw [e, sgn_eq_neg (by linarith : x - d < 0)]) h

theorem phiminus_pos {x d : ℝ} (hd : 0 ≤ d) (hx : 0 < x) : 0 < phiminus x d := by
  unfold phiminus
  split_ifs with h
  · rw [sgn_eq_one hx] at h
    rcases sgn_cases (x - d) with ⟨h1, _⟩ | ⟨_, h1⟩ | ⟨_, h1⟩
    · exact h1
    · rw [h1] at h; exact absurd h (by decide)
    · rw [h1] at h; exact absurd h (by decide)
  · have := div_nonneg hd (abs_nonneg x)
    exact div_pos hx (by linarith)

theorem le_phiplus {x d : ℝ} (hd : 0 ≤ d) : x ≤ phiplus x d := by
  unfold phiplus
  split_ifs with h
  · linarith
  · rcases sgn_cases x with ⟨hx, e⟩ | ⟨hx, e⟩ | ⟨hx, e⟩
    · exact absurd (by rw [e, sgn_eq_one (by linarith : 0 < x + d)]) h
    · subst hx; simp
    · have h1 : 0 ≤ d / |x| := div_nonneg hd (abs_nonneg x)
      rw [le_div_iff₀ (by linarith)]
      nlinarith

end Limiter

/-- The limiting factor lies in `[0,1]`: all three cell limiters. -/
theorem C27_factor (b : Bool) (p : Part n nv) (nb : List (Part n nv)) (v : Fin nv) :
    (0 ≤ tvd b p nb v ∧ tvd b p nb v ≤ 1) ∧ (0 ≤ scalar b p nb v ∧ scalar b p nb v ≤ 1) ∧
    (0 ≤ springel b p nb v ∧ springel b p nb v ≤ 1) := by
  refine ⟨⟨(tvd_fold b p v nb 1 zero_le_one).1, (tvd_fold b p v nb 1 zero_le_one).2.1⟩, ?_, ?_⟩
  · unfold scalar
    simp only
    split_ifs
    · exact ⟨le_max_left _ _, max_le zero_le_one (min_le_left _ _)⟩
    · exact ⟨zero_le_one, le_rfl⟩
  · have hhi : 0 ≤ wmax p nb v - p.W v := sub_nonneg.mpr (wmax_spec p v nb (p.W v)).1
    have hlo : wmin p nb v - p.W v ≤ 0 := sub_nonpos.mpr (wmin_spec p v nb (p.W v)).1
    exact ⟨(springel_fold b p v _ _ hhi hlo nb 1 zero_le_one).1, (springel_fold b p v _ _ hhi hlo nb 1 zero_le_one).2.1⟩

/-- `TVDScalarLimiter`: the reconstruction at the face to a neighbour lies between the two cell values. -/
theorem C27_tvd (b : Bool) (p : Part n nv) (nb : List (Part n nv)) (q : Part n nv) (hq : q ∈ nb) (v : Fin nv) :
    min (p.W v) (q.W v) ≤ p.W v + limited (tvd b p nb v) p (toFace p q) v ∧
    p.W v + limited (tvd b p nb v) p (toFace p q) v ≤ max (p.W v) (q.W v) := by
  obtain ⟨h1, _, h3⟩ := tvd_fold b p v nb 1 zero_le_one
  have h3 := h3 q hq
  change 0 ≤ tvd b p nb v at h1
  change edge b (slope p q v) ≠ 0 → tvd b p nb v ≤ _ at h3
  obtain ⟨c, c0, c1, hc⟩ := half_edge b (slope p q v)
  have e : limited (tvd b p nb v) p (toFace p q) v = c * (tvd b p nb v * edge b (slope p q v)) := by
    unfold limited
    rw [dot_toFace, hc]
    ring
  have key : min 0 (q.W v - p.W v) ≤ tvd b p nb v * edge b (slope p q v) ∧
      tvd b p nb v * edge b (slope p q v) ≤ max 0 (q.W v - p.W v) := by
    by_cases hz : edge b (slope p q v) = 0
    · rw [hz, mul_zero]; exact ⟨min_le_left _ _, le_max_left _ _⟩
    have h3 := h3 hz
    generalize tvd b p nb v = al at *
    generalize edge b (slope p q v) = dW at *
    generalize q.W v - p.W v = d at *
    rcases le_or_gt (d / dW) 0 with hr | hr
    · have : al = 0 := by
        have : max 0 (min 1 (d / dW)) = 0 := max_eq_left (le_trans (min_le_right _ _) hr)
        linarith
      rw [this, zero_mul]
      exact ⟨min_le_left _ _, le_max_left _ _⟩
    · have hle : al ≤ d / dW := by
        have : max 0 (min 1 (d / dW)) ≤ d / dW := max_le hr.le (min_le_right _ _)
        linarith
      rcases lt_or_gt_of_ne hz with hn | hp
      · have hd : d < 0 := by
          by_contra hc
          push Not at hc
          exact absurd (div_nonpos_of_nonneg_of_nonpos hc hn.le) (not_le.mpr hr)
        have hm : d ≤ al * dW := by
          have := mul_le_mul_of_nonpos_right hle hn.le
          rwa [div_mul_cancel₀ _ hz] at this
        refine ⟨le_trans (min_le_right _ _) hm, le_trans (mul_nonpos_of_nonneg_of_nonpos h1 hn.le) (le_max_left _ _)⟩
      · have hm : al * dW ≤ d := by
          have := mul_le_mul_of_nonneg_right hle hp.le
          rwa [div_mul_cancel₀ _ hz] at this
        exact ⟨le_trans (min_le_left _ _) (mul_nonneg h1 hp.le), le_trans hm (le_max_right _ _)⟩
  have := scaled_between c0 c1 (min_le_left 0 (q.W v - p.W v)) (le_max_left 0 (q.W v - p.W v)) key.1 key.2
  rw [e]
  constructor
  · have h := this.1
    rcases le_total (p.W v) (q.W v) with hh | hh
    · rw [min_eq_left hh]; rw [min_eq_left (by linarith)] at h; linarith
    · rw [min_eq_right hh]; rw [min_eq_right (by linarith)] at h; linarith
  · have h := this.2
    rcases le_total (p.W v) (q.W v) with hh | hh
    · rw [max_eq_right hh]; rw [max_eq_right (by linarith)] at h; linarith
    · rw [max_eq_left hh]; rw [max_eq_left (by linarith)] at h; linarith

/-- `ScalarLimiter`: the reconstruction at every point as far away as the farthest face lies within the range of the
values of the particle and its neighbours. -/
theorem C27_scalar_ball (b : Bool) (p : Part n nv) (nb : List (Part n nv)) (v : Fin nv) (d : Vec n ℝ)
    (hd : √(dot d d) ≤ drmax b p nb) (lo hi : ℝ) (h : ∀ q ∈ p :: nb, lo ≤ q.W v ∧ q.W v ≤ hi) :
    lo ≤ p.W v + limited (scalar b p nb v) p d v ∧ p.W v + limited (scalar b p nb v) p d v ≤ hi := by
  have hmax : wmax p nb v ≤ hi := (wmax_spec p v nb _).2.2 hi (h p (by simp)).2 fun q hq => (h q (by simp [hq])).2
  have hmin : lo ≤ wmin p nb v := (wmin_spec p v nb _).2.2 lo (h p (by simp)).1 fun q hq => (h q (by simp [hq])).1
  have h0 := (C27_factor b p nb v).2.1.1
  have key : |limited (scalar b p nb v) p d v| ≤ min (wmax p nb v - p.W v) (p.W v - wmin p nb v) := by
    have hb1 : 0 ≤ wmax p nb v - p.W v := sub_nonneg.mpr (wmax_spec p v nb (p.W v)).1
    have hb2 : 0 ≤ p.W v - wmin p nb v := sub_nonneg.mpr (wmin_spec p v nb (p.W v)).1
    have hle : |dot (p.grad v) d| ≤ drmax b p nb * √(dot (p.grad v) (p.grad v)) := by
      refine le_trans (cauchy _ _) ?_
      rw [mul_comm]
      exact mul_le_mul_of_nonneg_right hd (Real.sqrt_nonneg _)
    unfold limited
    rw [abs_mul, abs_of_nonneg h0]
    unfold scalar at h0 ⊢
    simp only at h0 ⊢
    generalize hdW : drmax b p nb * √(dot (p.grad v) (p.grad v)) = dW at *
    by_cases hz : dW ≠ 0
    · rw [if_pos hz]
      have hp : 0 < dW := lt_of_le_of_ne (le_trans (abs_nonneg _) hle) (Ne.symm hz)
      have hnn : 0 ≤ min 1 (min ((wmax p nb v - p.W v) / dW) ((p.W v - wmin p nb v) / dW)) :=
        le_min zero_le_one (le_min (div_nonneg hb1 hp.le) (div_nonneg hb2 hp.le))
      rw [max_eq_right hnn]
      refine le_trans (mul_le_mul_of_nonneg_left hle hnn) ?_
      refine le_min ?_ ?_
      · have : min 1 (min ((wmax p nb v - p.W v) / dW) ((p.W v - wmin p nb v) / dW)) ≤ (wmax p nb v - p.W v) / dW :=
          le_trans (min_le_right _ _) (min_le_left _ _)
        have := mul_le_mul_of_nonneg_right this hp.le
        rwa [div_mul_cancel₀ _ hz] at this
      · have : min 1 (min ((wmax p nb v - p.W v) / dW) ((p.W v - wmin p nb v) / dW)) ≤ (p.W v - wmin p nb v) / dW :=
          le_trans (min_le_right _ _) (min_le_right _ _)
        have := mul_le_mul_of_nonneg_right this hp.le
        rwa [div_mul_cancel₀ _ hz] at this
    · rw [if_neg hz, one_mul]
      push Not at hz
      rw [hz] at hle
      exact le_trans hle (le_min hb1 hb2)
  have k1 := le_trans key (min_le_left _ _)
  have k2 := le_trans key (min_le_right _ _)
  have a1 := le_abs_self (limited (scalar b p nb v) p d v)
  have a2 := neg_abs_le (limited (scalar b p nb v) p d v)
  constructor <;> linarith

theorem Limiter.face_in_ball (b : Bool) (p : Part n nv) (nb : List (Part n nv)) (q : Part n nv) (hq : q ∈ nb) :
    √(dot (toFace p q) (toFace p q)) ≤ drmax b p nb := by
  refine le_trans ?_ ((drmax_spec b p nb).1 q hq)
  rw [face_len]
  have := Real.sqrt_nonneg (dot (fun k => q.r k - p.r k) fun k => q.r k - p.r k)
  unfold edge
  cases b
  · simp only [Bool.false_eq_true, if_false]; linarith
  · simp only [if_true]; linarith

/-- `ScalarLimiter` at the faces. -/
theorem C27_scalar (b : Bool) (p : Part n nv) (nb : List (Part n nv)) (q : Part n nv) (hq : q ∈ nb) (v : Fin nv)
    (lo hi : ℝ) (h : ∀ q ∈ p :: nb, lo ≤ q.W v ∧ q.W v ≤ hi) :
    lo ≤ p.W v + limited (scalar b p nb v) p (toFace p q) v ∧ p.W v + limited (scalar b p nb v) p (toFace p q) v ≤ hi :=
  C27_scalar_ball b p nb v _ (face_in_ball b p nb q hq) lo hi h

/-- `Springel2009Limiter` at the faces. -/
theorem C27_springel (b : Bool) (p : Part n nv) (nb : List (Part n nv)) (q : Part n nv) (hq : q ∈ nb) (v : Fin nv)
    (lo hi : ℝ) (h : ∀ q ∈ p :: nb, lo ≤ q.W v ∧ q.W v ≤ hi) :
    lo ≤ p.W v + limited (springel b p nb v) p (toFace p q) v ∧
    p.W v + limited (springel b p nb v) p (toFace p q) v ≤ hi := by
  have hmax : wmax p nb v ≤ hi := (wmax_spec p v nb _).2.2 hi (h p (by simp)).2 fun q hq => (h q (by simp [hq])).2
  have hmin : lo ≤ wmin p nb v := (wmin_spec p v nb _).2.2 lo (h p (by simp)).1 fun q hq => (h q (by simp [hq])).1
  have hhi : 0 ≤ wmax p nb v - p.W v := sub_nonneg.mpr (wmax_spec p v nb (p.W v)).1
  have hlo : wmin p nb v - p.W v ≤ 0 := sub_nonpos.mpr (wmin_spec p v nb (p.W v)).1
  obtain ⟨h1, _, h3⟩ := springel_fold b p v _ _ hhi hlo nb 1 zero_le_one
  obtain ⟨hp, hn⟩ := h3 q hq
  change 0 ≤ springel b p nb v at h1
  change 0 < edge b (slope p q v) → springel b p nb v ≤ _ at hp
  change edge b (slope p q v) < 0 → springel b p nb v ≤ _ at hn
  obtain ⟨c, c0, c1, hc⟩ := half_edge b (slope p q v)
  have e : limited (springel b p nb v) p (toFace p q) v = c * (springel b p nb v * edge b (slope p q v)) := by
    unfold limited
    rw [dot_toFace, hc]
    ring
  have key : wmin p nb v - p.W v ≤ springel b p nb v * edge b (slope p q v) ∧
      springel b p nb v * edge b (slope p q v) ≤ wmax p nb v - p.W v := by
    rcases lt_trichotomy (edge b (slope p q v)) 0 with hz | hz | hz
    · have := mul_le_mul_of_nonpos_right (hn hz) hz.le
      rw [div_mul_cancel₀ _ hz.ne] at this
      exact ⟨this, le_trans (mul_nonpos_of_nonneg_of_nonpos h1 hz.le) hhi⟩
    · rw [hz, mul_zero]; exact ⟨hlo, hhi⟩
    · have := mul_le_mul_of_nonneg_right (hp hz) hz.le
      rw [div_mul_cancel₀ _ hz.ne'] at this
      exact ⟨le_trans hlo (mul_nonneg h1 hz.le), this⟩
  have := scaled_between c0 c1 hlo hhi key.1 key.2
  rw [e]
  constructor <;> linarith [this.1, this.2]

/-- `GizmoLimiter` at the faces: within the range of all values; it never overshoots the neighbour's value; and it is
positive if both values are. -/
theorem C27_gizmo (b : Bool) (p : Part n nv) (nb : List (Part n nv)) (q : Part n nv) (hq : q ∈ nb) (v : Fin nv)
    (hr : p.r ≠ q.r) (lo hi : ℝ) (h : ∀ q ∈ p :: nb, lo ≤ q.W v ∧ q.W v ≤ hi) :
    (lo ≤ p.W v + gizmo (scalar b p nb v) p q (toFace p q) v ∧
      p.W v + gizmo (scalar b p nb v) p q (toFace p q) v ≤ hi) ∧
    (p.W v ≤ q.W v → p.W v + gizmo (scalar b p nb v) p q (toFace p q) v ≤ q.W v) ∧
    (q.W v ≤ p.W v → q.W v ≤ p.W v + gizmo (scalar b p nb v) p q (toFace p q) v) ∧
    (0 < p.W v → 0 < q.W v → 0 < p.W v + gizmo (scalar b p nb v) p q (toFace p q) v) := by
  have hs := C27_scalar b p nb q hq v lo hi h
  have hpl := h p (by simp)
  have hql := h q (by simp [hq])
  have hdpos : 0 < √(dot (fun k => q.r k - p.r k) fun k => q.r k - p.r k) := by
    rw [Real.sqrt_pos]
    obtain ⟨k, hk⟩ := Function.ne_iff.mp hr
    exact Finset.sum_pos' (fun k _ => mul_self_nonneg _) ⟨k, Finset.mem_univ _, mul_self_pos.mpr (sub_ne_zero.mpr (Ne.symm hk))⟩
  have hbar : p.W v + (q.W v - p.W v) * √(dot (toFace p q) (toFace p q)) /
      √(dot (fun k => q.r k - p.r k) fun k => q.r k - p.r k) = p.W v + 0.5 * (q.W v - p.W v) := by
    rw [face_len]
    field_simp
  have e : p.W v + gizmo (scalar b p nb v) p q (toFace p q) v =
      if p.W v < q.W v then max (phiminus (min (p.W v) (q.W v)) (0.5 * |p.W v - q.W v|))
        (min (p.W v + 0.5 * (q.W v - p.W v) + 0.375 * |p.W v - q.W v|)
          (p.W v + limited (scalar b p nb v) p (toFace p q) v))
      else if q.W v < p.W v then min (phiplus (max (p.W v) (q.W v)) (0.5 * |p.W v - q.W v|))
        (max (p.W v + 0.5 * (q.W v - p.W v) - 0.375 * |p.W v - q.W v|)
          (p.W v + limited (scalar b p nb v) p (toFace p q) v))
      else p.W v := by
    unfold gizmo
    simp only [hbar]
    ring
  rw [e]
  generalize p.W v + limited (scalar b p nb v) p (toFace p q) v = m at *
  generalize p.W v = a at *
  generalize q.W v = c at *
  by_cases h1 : a < c
  · rw [if_pos h1, min_eq_left h1.le, abs_of_neg (by linarith)]
    have hm := phiminus_le (x := a) (d := 0.5 * -(a - c)) (by linarith)
    refine ⟨⟨?_, ?_⟩, fun _ => ?_, fun hh => absurd h1 (not_lt.mpr hh), fun ha _ => ?_⟩
    · refine le_trans ?_ (le_max_right _ _)
      refine le_min ?_ hs.1
      linarith
    · exact max_le (by linarith) (le_trans (min_le_right _ _) hs.2)
    · exact max_le (by linarith) (le_trans (min_le_left _ _) (by linarith))
    · exact lt_of_lt_of_le (phiminus_pos (by linarith) ha) (le_max_left _ _)
  · rw [if_neg h1]
    by_cases h2 : c < a
    · rw [if_pos h2, max_eq_left h2.le, abs_of_pos (by linarith)]
      have hp := le_phiplus (x := a) (d := 0.5 * (a - c)) (by linarith)
      refine ⟨⟨?_, ?_⟩, fun hh => absurd h2 (not_lt.mpr hh), fun _ => ?_, fun _ hc => ?_⟩
      · exact le_min (by linarith) (le_trans hs.1 (le_max_right _ _))
      · refine le_trans (min_le_right _ _) ?_
        exact max_le (by linarith) hs.2
      · exact le_min (by linarith) (le_trans (by linarith) (le_max_left _ _))
      · exact lt_min (by linarith) (lt_of_lt_of_le (by linarith) (le_max_left _ _))
    · rw [if_neg h2]
      have : a = c := le_antisymm (not_lt.mp h2) (not_lt.mp h1)
      subst this
      exact ⟨hpl, fun _ => le_rfl, fun _ => le_rfl, fun ha _ => ha⟩

/-- A linear field is not limited by the two limiters that look at the neighbours one by one: second order is kept. -/
theorem C27_linear (b : Bool) (p : Part n nv) (nb : List (Part n nv)) (v : Fin nv)
    (hlin : ∀ q ∈ nb, q.W v = p.W v + dot (p.grad v) fun k => q.r k - p.r k) :
    tvd b p nb v = 1 ∧ springel b p nb v = 1 := by
  have edge_ratio : ∀ x : ℝ, edge b x ≠ 0 → 1 ≤ x / edge b x := by
    intro x hx
    have hx0 : x ≠ 0 := fun h => hx (edge_zero.mpr h)
    unfold edge
    cases b
    · simp [div_self hx0]
    · simp only [if_true]
      rw [div_mul_eq_div_div, div_self hx0]
      norm_num
  constructor
  · unfold tvd
    have key : ∀ l : List (Part n nv), (∀ q ∈ l, q.W v = p.W v + dot (p.grad v) fun k => q.r k - p.r k) →
        l.foldl (fun al q =>
          if edge b (slope p q v) ≠ 0 then min al (max 0 (min 1 ((q.W v - p.W v) / edge b (slope p q v)))) else al) 1 =
          (1 : ℝ) := by
      intro l
      induction l with
      | nil => intro _; rfl
      | cons q l ih =>
        intro hl
        rw [List.foldl_cons]
        have : (if edge b (slope p q v) ≠ 0 then
            min 1 (max 0 (min 1 ((q.W v - p.W v) / edge b (slope p q v)))) else 1) = (1 : ℝ) := by
          split_ifs with h
          · have hd : q.W v - p.W v = slope p q v := by rw [hl q (by simp)]; unfold slope; ring
            rw [hd, min_eq_left (edge_ratio _ h)]
            norm_num
          · rfl
        rw [this]
        exact ih fun q hq => hl q (by simp [hq])
    exact key nb hlin
  · unfold springel
    have key : ∀ l : List (Part n nv), (∀ q ∈ l, q ∈ nb) →
        l.foldl (fun al q =>
          if 0 < edge b (slope p q v) then min al ((wmax p nb v - p.W v) / edge b (slope p q v))
          else if edge b (slope p q v) < 0 then min al ((wmin p nb v - p.W v) / edge b (slope p q v))
          else al) 1 = (1 : ℝ) := by
      intro l
      induction l with
      | nil => intro _; rfl
      | cons q l ih =>
        intro hl
        rw [List.foldl_cons]
        have hqn := hl q (by simp)
        have hd : q.W v - p.W v = slope p q v := by rw [hlin q hqn]; unfold slope; ring
        have h1 : (if 0 < edge b (slope p q v) then min 1 ((wmax p nb v - p.W v) / edge b (slope p q v))
            else if edge b (slope p q v) < 0 then min 1 ((wmin p nb v - p.W v) / edge b (slope p q v)) else 1) = (1 : ℝ) := by
          split_ifs with h h'
          · refine min_eq_left (le_trans (edge_ratio _ h.ne') ?_)
            refine div_le_div_of_nonneg_right ?_ h.le
            have := (wmax_spec p v nb (p.W v)).2.1 q hqn
            unfold wmax
            linarith
          · refine min_eq_left (le_trans (edge_ratio _ h'.ne) ?_)
            refine div_le_div_of_nonpos_of_le h'.le ?_
            have := (wmin_spec p v nb (p.W v)).2.1 q hqn
            unfold wmin
            linarith
          · rfl
        rw [h1]
        exact ih fun q hq => hl q (by simp [hq])
    exact key nb fun _ h => h

/-- The scalar limiter leaves the slope alone when the values around vary by more than the slope can produce. -/
theorem C27_scalar_unlimited (b : Bool) (p : Part n nv) (nb : List (Part n nv)) (v : Fin nv) (q q' : Part n nv)
    (hq : q ∈ nb) (hq' : q' ∈ nb)
    (hup : p.W v + drmax b p nb * √(dot (p.grad v) (p.grad v)) ≤ q.W v)
    (hdn : q'.W v ≤ p.W v - drmax b p nb * √(dot (p.grad v) (p.grad v))) :
    scalar b p nb v = 1 := by
  unfold scalar
  simp only
  have h1 := (wmax_spec p v nb (p.W v)).2.1 q hq
  have h2 := (wmin_spec p v nb (p.W v)).2.1 q' hq'
  change q.W v ≤ wmax p nb v at h1
  change wmin p nb v ≤ q'.W v at h2
  have h0 : 0 ≤ drmax b p nb * √(dot (p.grad v) (p.grad v)) := mul_nonneg (drmax_spec b p nb).2 (Real.sqrt_nonneg _)
  generalize drmax b p nb * √(dot (p.grad v) (p.grad v)) = dW at *
  split_ifs with hz
  · have hp : 0 < dW := lt_of_le_of_ne h0 (Ne.symm hz)
    have a1 : 1 ≤ (wmax p nb v - p.W v) / dW := by rw [le_div_iff₀ hp]; linarith
    have a2 : 1 ≤ (p.W v - wmin p nb v) / dW := by rw [le_div_iff₀ hp]; linarith
    rw [min_eq_left (le_min a1 a2)]
    norm_num
  · rfl

/-! ### a concrete case: a particle between a lower and a higher neighbour in one dimension, slope too steep -/

/-- particles on a line with slope 4 -/
noncomputable def linePart (x w : ℝ) : Part 1 1 := ⟨fun _ => x, 1, fun _ => w, fun _ _ => 4⟩

example : tvd true (linePart 0 1) [linePart 1 2, linePart (-1) 0] 0 = 1 / (4 * 0.51) := by
  norm_num [tvd, edge, slope, linePart, dot]

end Gandalf
