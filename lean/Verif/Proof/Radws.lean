import Verif.Model.Radws
import Verif.Spec.Radws
import Mathlib.Analysis.Complex.ExponentialBounds
import Mathlib.Tactic.Linarith
import Mathlib.Tactic.FieldSimp
import Mathlib.Tactic.Positivity

/-!
# Lemmas on the radiative cooling scheme
-/

set_option autoImplicit false

namespace Gandalf

namespace Radws

open Real

/-! ### search in tables -/

theorem lowerBound_spec (a : ℕ → ℝ) (v : ℝ) : ∀ (len first : ℕ),
    (∀ j k, first ≤ j → j ≤ k → k < first + len → a j ≤ a k) →
    let r := lowerBound a v first len
    first ≤ r ∧ r ≤ first + len ∧ (∀ j, first ≤ j → j < r → a j < v) ∧ ∀ j, r ≤ j → j < first + len → v ≤ a j := by
  intro len
  induction len using Nat.strong_induction_on with
  | _ len ih =>
    intro first hm
    rw [lowerBound]
    by_cases h0 : len = 0
    · subst h0
      rw [if_pos rfl]
      refine ⟨le_refl _, by simp, fun j h1 h2 => by omega, fun j h1 h2 => by omega⟩
    rw [if_neg h0]
    by_cases hv : a (first + len / 2) < v
    · rw [if_pos hv]
      obtain ⟨h1, h2, h3, h4⟩ := ih (len - len / 2 - 1) (by omega) (first + len / 2 + 1)
        (fun j k p q r => hm j k (by omega) q (by omega))
      refine ⟨by omega, by omega, fun j hj hj2 => ?_, fun j hj hj2 => h4 j hj (by omega)⟩
      by_cases hc : first + len / 2 + 1 ≤ j
      · exact h3 j hc hj2
      · exact lt_of_le_of_lt (hm j (first + len / 2) hj (by omega) (by omega)) hv
    · rw [if_neg hv]
      obtain ⟨h1, h2, h3, h4⟩ := ih (len / 2) (by omega) first (fun j k p q r => hm j k p q (by omega))
      refine ⟨h1, by omega, h3, fun j hj hj2 => ?_⟩
      by_cases hc : j < first + len / 2
      · exact h4 j hj hc
      · exact le_trans (not_lt.mp hv) (hm (first + len / 2) j (by omega) (by omega) hj2)

theorem closest_spec (a : ℕ → ℝ) (n : ℕ) (v : ℝ) (hn : 0 < n) (hm : ∀ j k, j ≤ k → k < n → a j ≤ a k) :
    closest a n v < n ∧ ∀ j, j < n → |a (closest a n v) - v| ≤ |a j - v| := by
  obtain ⟨_, h2, h3, h4⟩ := lowerBound_spec a v n 0 (fun j k _ q r => hm j k q (by omega))
  simp only [zero_add, Nat.zero_le, true_implies] at h2 h3 h4
  rw [closest]
  set b := lowerBound a v 0 n
  by_cases hb : b = 0
  · rw [if_pos hb]
    refine ⟨hn, fun j hj => ?_⟩
    have e0 := h4 0 (by omega) hn
    have e1 := hm 0 j (by omega) hj
    rw [abs_of_nonneg (by linarith), abs_of_nonneg (by linarith)]
    linarith
  rw [if_neg hb]
  by_cases hbn : b = n
  · rw [if_pos hbn]
    refine ⟨by omega, fun j hj => ?_⟩
    have e0 := h3 (n - 1) (by omega)
    have e1 := hm j (n - 1) (by omega) (by omega)
    rw [abs_of_nonpos (by linarith), abs_of_nonpos (by linarith)]
    linarith
  rw [if_neg hbn]
  have e0 := h3 (b - 1) (by omega)
  have e1 := h4 b (le_refl _) (by omega)
  have lo : ∀ j, j ≤ b - 1 → v - a (b - 1) ≤ |a j - v| := by
    intro j hj
    have := hm j (b - 1) hj (by omega)
    rw [abs_of_nonpos (by linarith)]; linarith
  have hi : ∀ j, b ≤ j → j < n → a b - v ≤ |a j - v| := by
    intro j hj hj2
    have := hm b j hj hj2
    rw [abs_of_nonneg (by linarith)]; linarith
  by_cases hc : a b - v < v - a (b - 1)
  · rw [if_pos hc]
    refine ⟨by omega, fun j hj => ?_⟩
    rw [abs_of_nonneg (by linarith)]
    by_cases hj2 : b ≤ j
    · exact hi j hj2 hj
    · have := lo j (by omega); linarith
  · rw [if_neg hc]
    refine ⟨by omega, fun j hj => ?_⟩
    rw [abs_of_nonpos (by linarith)]
    by_cases hj2 : b ≤ j
    · have := hi j hj2 hj; linarith
    · have := lo j (by omega); linarith

/-- the entry before the closest one is below the value -/
theorem closest_prev (a : ℕ → ℝ) (n : ℕ) (v : ℝ) (hn : 0 < n) (hm : ∀ j k, j < k → k < n → a j < a k)
    (hc : closest a n v ≠ 0) : a (closest a n v - 1) < v := by
  obtain ⟨h1, h2⟩ := closest_spec a n v hn (fun j k p q => by
    rcases Nat.eq_or_lt_of_le p with h | h
    · rw [h]
    · exact (hm j k h q).le)
  by_contra hcon
  push Not at hcon
  set c := closest a n v
  have e1 := hm (c - 1) c (by omega) h1
  have e2 := h2 (c - 1) (by omega)
  rw [abs_of_nonneg (by linarith), abs_of_nonneg (by linarith)] at e2
  linarith

/-- a value is always above its decimal logarithm -/
theorem logb_lt (x : ℝ) (hx : 0 < x) : logb 10 x < x := by
  have h10 : 1 < log 10 := by
    rw [Real.lt_log_iff_exp_lt (by norm_num)]
    have := Real.exp_one_lt_d9
    linarith
  have h1 := Real.log_le_sub_one_of_pos hx
  rw [Real.logb, div_lt_iff₀ (by linarith)]
  nlinarith

theorem bisectIdx_spec (f : ℕ → ℝ) (P : ℝ) : ∀ (d l u : ℕ), u - l = d → l < u → f l ≤ P →
    let r := bisectIdx f P l u
    l ≤ r ∧ r + 1 ≤ u ∧ f r ≤ P ∧ (r + 1 = u ∨ P < f (r + 1)) := by
  intro d
  induction d using Nat.strong_induction_on with
  | _ d ih =>
    intro l u hd hlu hl
    rw [bisectIdx]
    by_cases h : l + 1 < u
    · rw [if_pos h]
      by_cases hp : f ((l + u) / 2) > P
      · rw [if_pos hp]
        obtain ⟨h1, h2, h3, h4⟩ := ih ((l + u) / 2 - l) (by omega) l ((l + u) / 2) rfl (by omega) hl
        refine ⟨h1, by omega, h3, Or.inr ?_⟩
        rcases h4 with h4 | h4
        · rw [h4]; exact hp
        · exact h4
      · rw [if_neg hp]
        obtain ⟨h1, h2, h3, h4⟩ := ih (u - (l + u) / 2) (by omega) ((l + u) / 2) u rfl (by omega) (not_lt.mp hp)
        exact ⟨by omega, h2, h3, h4⟩
    · rw [if_neg h]
      exact ⟨le_refl _, by omega, hl, Or.inl (by omega)⟩

/-! ### the balance of heating and cooling -/

/-- the gas is as opaque at every temperature -/
def Flat (t : Table) (i : ℕ) (k kp : ℝ) : Prop := ∀ c, t.kappa i c = k ∧ t.kappap i c = kp

/-- radiation has an effect -/
structure Rad (E : Env) (k kp : ℝ) : Prop where
  rad : 0 < E.rad
  D : 0 < E.col2 * k + 1 / kp

theorem ebal_sub (E : Env) (x T T' k kp : ℝ) :
    ebal E x T k kp - ebal E x T' k kp = 4 * E.rad / (E.col2 * k + 1 / kp) * (T' ^ 4 - T ^ 4) := by
  simp only [ebal]
  generalize E.col2 * k + 1 / kp = D
  ring

theorem ebal_lt {E : Env} {k kp : ℝ} (h : Rad E k kp) (x : ℝ) {T T' : ℝ} (h0 : 0 ≤ T) (hT : T < T') :
    ebal E x T' k kp < ebal E x T k kp := by
  have e := ebal_sub E x T T' k kp
  have h1 : 0 < 4 * E.rad / (E.col2 * k + 1 / kp) := div_pos (by have := h.rad; linarith) h.D
  have h2 : T ^ 4 < T' ^ 4 := pow_lt_pow_left₀ hT h0 (by norm_num)
  nlinarith [mul_pos h1 (sub_pos.mpr h2)]

theorem ebal_pos {E : Env} {k kp : ℝ} (h : Rad E k kp) {Ts T : ℝ} (hs : 0 < Ts) (hb : ebal E E.dudt Ts k kp = 0)
    (h0 : 0 ≤ T) : 0 < ebal E E.dudt T k kp ↔ T < Ts := by
  constructor
  · intro hp
    by_contra hc
    rcases eq_or_lt_of_le (not_lt.mp hc) with e | e
    · rw [← e, hb] at hp; exact lt_irrefl _ hp
    · have := ebal_lt h E.dudt hs.le e; linarith
  · intro hc
    have := ebal_lt h E.dudt h0 hc; linarith

theorem ebal_neg {E : Env} {k kp : ℝ} (h : Rad E k kp) {Ts T : ℝ} (hs : 0 < Ts) (hb : ebal E E.dudt Ts k kp = 0)
    (h0 : 0 ≤ T) : ebal E E.dudt T k kp < 0 ↔ Ts < T := by
  constructor
  · intro hp
    by_contra hc
    rcases eq_or_lt_of_le (not_lt.mp hc) with e | e
    · rw [e, hb] at hp; exact lt_irrefl _ hp
    · have := ebal_lt h E.dudt h0 e; linarith
  · intro hc
    have := ebal_lt h E.dudt hs.le hc; linarith

theorem ebal_split (E : Env) (T k kp : ℝ) : ebal E E.dudt T k kp = E.dudt + ebal E 0 T k kp := by
  simp only [ebal]; ring

/-- the equilibrium lies between the ends -/
structure Good (E : Env) (k kp Ts : ℝ) (B : Br) : Prop where
  pos : 0 < B.Tl
  lo : B.Tl < Ts
  hi : Ts ≤ B.Th
  bl : B.bl = ebal E E.dudt B.Tl k kp
  kh : B.kh = k
  kph : B.kph = kp

theorem refine_spec {E : Env} {k kp Ts : ℝ} (h : Rad E k kp) (hs : 0 < Ts) (hb : ebal E E.dudt Ts k kp = 0) :
    ∀ (fuel : ℕ) (B : Br), Good E k kp Ts B → B.Th - B.Tl ≤ 2 ^ fuel * (B.Tl / 1000) →
    refine E k kp (fuel + 1) B k kp = some Ts ∨
    ∃ T', |T' - Ts| ≤ T' / 2000 ∧ refine E k kp (fuel + 1) B k kp = some (max T' E.tamb) := by
  intro fuel
  induction fuel with
  | zero =>
    intro B hB hw
    right
    have hp := hB.pos
    have hlo := hB.lo
    have hhi := hB.hi
    have hn : ¬(B.Th - B.Tl ≠ 0 ∧ |2 * (B.Th - B.Tl) / (B.Th + B.Tl)| > 1 / 1000) := by
      rintro ⟨_, h2⟩
      rw [abs_of_nonneg (div_nonneg (by linarith) (by linarith)), gt_iff_lt, lt_div_iff₀ (by linarith)] at h2
      simp only [pow_zero, one_mul] at hw
      linarith
    refine ⟨(B.Tl + B.Th) / 2, ?_, ?_⟩
    · rw [abs_le]; simp only [pow_zero, one_mul] at hw; constructor <;> linarith
    · rw [refine, if_neg hn]
  | succ fuel ih =>
    intro B hB hw
    have hp := hB.pos
    have hlo := hB.lo
    have hhi := hB.hi
    rw [refine]
    by_cases hc : B.Th - B.Tl ≠ 0 ∧ |2 * (B.Th - B.Tl) / (B.Th + B.Tl)| > 1 / 1000
    · rw [if_pos hc]
      have hTc : 0 ≤ (B.Tl + B.Th) / 2 := by linarith
      have hlb : 0 < B.bl := by rw [hB.bl]; exact (ebal_pos h hs hb hp.le).mpr hlo
      by_cases hz : ebal E E.dudt ((B.Tl + B.Th) / 2) k kp = 0
      · left
        have hh : halve E k kp B k kp = none := by simp only [halve]; rw [if_pos hz]
        rw [hh]
        simp only
        congr 1
        rcases lt_trichotomy ((B.Tl + B.Th) / 2) Ts with e | e | e
        · have := (ebal_pos h hs hb hTc).mpr e; linarith
        · exact e
        · have := (ebal_neg h hs hb hTc).mpr e; linarith
      · have hhalf : (B.Th - B.Tl) / 2 ≤ 2 ^ fuel * (B.Tl / 1000) := by
          rw [pow_succ] at hw; linarith
        by_cases hn : B.bl * ebal E E.dudt ((B.Tl + B.Th) / 2) k kp < 0
        · have hneg : ebal E E.dudt ((B.Tl + B.Th) / 2) k kp < 0 := by
            by_contra hcon
            have := mul_nonneg hlb.le (not_lt.mp hcon)
            linarith
          have hh : halve E k kp B k kp = some ({ Tl := B.Tl, Th := (B.Tl + B.Th) / 2, kl := k, kh := k, kpl := kp, kph := kp, bl := B.bl, bh := ebal E E.dudt ((B.Tl + B.Th) / 2) k kp }, (k + k) / 2, (kp + kp) / 2) := by
            simp only [halve]; rw [if_neg hz, if_pos hn]
          rw [hh]
          simp only
          rw [show (k + k) / 2 = k by ring, show (kp + kp) / 2 = kp by ring]
          refine ih _ ⟨hp, hlo, ((ebal_neg h hs hb hTc).mp hneg).le, hB.bl, rfl, rfl⟩ ?_
          simp only
          linarith
        · have hpos : 0 < ebal E E.dudt ((B.Tl + B.Th) / 2) k kp := by
            rcases lt_trichotomy (ebal E E.dudt ((B.Tl + B.Th) / 2) k kp) 0 with e | e | e
            · exact absurd (mul_neg_of_pos_of_neg hlb e) hn
            · exact absurd e hz
            · exact e
          have hh : halve E k kp B k kp = some ({ Tl := (B.Tl + B.Th) / 2, Th := B.Th, kl := k, kh := B.kh, kpl := kp, kph := B.kph, bl := ebal E E.dudt ((B.Tl + B.Th) / 2) k kp, bh := B.bh }, (B.kh + k) / 2, (B.kph + kp) / 2) := by
            simp only [halve]; rw [if_neg hz, if_neg hn]
          rw [hh]
          simp only
          rw [hB.kh, hB.kph, show (k + k) / 2 = k by ring, show (kp + kp) / 2 = kp by ring]
          refine ih _ ⟨by simp only; linarith, (ebal_pos h hs hb hTc).mp hpos, hhi, rfl, rfl, rfl⟩ ?_
          simp only
          have : 2 ^ fuel * (B.Tl / 1000) ≤ 2 ^ fuel * ((B.Tl + B.Th) / 2 / 1000) := by
            apply mul_le_mul_of_nonneg_left _ (by positivity)
            linarith
          linarith
    · rw [if_neg hc]
      right
      refine ⟨(B.Tl + B.Th) / 2, ?_, rfl⟩
      by_cases hz : B.Th - B.Tl = 0
      · rw [abs_le]; constructor <;> linarith
      · have h2 : |2 * (B.Th - B.Tl) / (B.Th + B.Tl)| ≤ 1 / 1000 := by
          by_contra hcon
          exact hc ⟨hz, not_le.mp hcon⟩
        rw [abs_of_nonneg (div_nonneg (by linarith) (by linarith)), div_le_iff₀ (by linarith)] at h2
        rw [abs_le]; constructor <;> linarith

theorem T_pos (t : Table) (c : ℕ) : 0 < t.T c := Real.rpow_pos_of_pos (by norm_num) _

theorem T_lt {t : Table} {c d : ℕ} (h : t.temp c < t.temp d) : t.T c < t.T d :=
  Real.rpow_lt_rpow_of_exponent_lt (by norm_num) h

theorem T_lt_of {t : Table} {c : ℕ} {x : ℝ} (hx : 0 < x) (h : t.temp c < logb 10 x) : t.T c < x := by
  have : (10 : ℝ) ^ t.temp c < 10 ^ logb 10 x := Real.rpow_lt_rpow_of_exponent_lt (by norm_num) h
  rwa [Real.rpow_logb (by norm_num) (by norm_num) hx] at this

theorem up_spec {t : Table} {i : ℕ} {E : Env} {k kp Ts : ℝ} (hf : Flat t i k kp) (h : Rad E k kp) (hs : 0 < Ts)
    (hb : ebal E E.dudt Ts k kp = 0) : ∀ (n ih : ℕ) (B : Br), 0 < B.Tl → B.Tl < Ts → 0 < B.Th →
    B.bl = ebal E E.dudt B.Tl k kp → B.bh = ebal E E.dudt B.Th k kp → B.kh = k → B.kph = kp → B.Th = t.T ih →
    Ts ≤ t.T (ih + n) → ∃ B' jh, up t i E n ih B = some (B', jh) ∧ Good E k kp Ts B' := by
  intro n
  induction n with
  | zero =>
    intro ih B h1 h2 h3 h4 h5 h6 h7 h8 h9
    have : ¬B.bl * B.bh > 0 := by
      intro hc
      have p1 : 0 < B.bl := by rw [h4]; exact (ebal_pos h hs hb h1.le).mpr h2
      have p2 : 0 < B.bh := (pos_iff_pos_of_mul_pos hc).mp p1
      rw [h5] at p2
      have := (ebal_pos h hs hb h3.le).mp p2
      rw [h8] at this
      simp only [add_zero] at h9
      linarith
    exact ⟨B, ih, by rw [up, if_neg this], ⟨h1, h2, by rw [h8]; simpa using h9, h4, h6, h7⟩⟩
  | succ n IH =>
    intro ih B h1 h2 h3 h4 h5 h6 h7 h8 h9
    have p1 : 0 < B.bl := by rw [h4]; exact (ebal_pos h hs hb h1.le).mpr h2
    rw [up]
    by_cases hc : B.bl * B.bh > 0
    · rw [if_pos hc]
      have p2 : 0 < B.bh := by
        by_contra hcon
        have := mul_nonpos_of_nonneg_of_nonpos p1.le (not_lt.mp hcon)
        linarith
      rw [h5] at p2
      have p3 := (ebal_pos h hs hb h3.le).mp p2
      refine IH (ih + 1) _ h3 p3 (T_pos t _) h5 ?_ (hf _).1 (hf _).2 rfl ?_
      · simp only [(hf _).1, (hf _).2]
      · rw [show ih + 1 + n = ih + (n + 1) by ring]; exact h9
    · rw [if_neg hc]
      refine ⟨B, ih, rfl, ⟨h1, h2, ?_, h4, h6, h7⟩⟩
      by_contra hcon
      have : 0 < B.bh := by rw [h5]; exact (ebal_pos h hs hb h3.le).mpr (not_le.mp hcon)
      exact hc (mul_pos p1 this)

/-- where both ends are below the equilibrium the search towards lower entries leaves the table -/
theorem down_outside {t : Table} {i : ℕ} {E : Env} {k kp Ts : ℝ} (hf : Flat t i k kp) (h : Rad E k kp) (hs : 0 < Ts)
    (hb : ebal E E.dudt Ts k kp = 0) : ∀ (n : ℕ) (B : Br), 0 < B.bl → 0 < B.bh → (∀ c, c < n → t.T c < Ts) →
    down t i E n B = none := by
  intro n
  induction n with
  | zero => intro B h1 h2 _; rw [down, if_pos (mul_pos h1 h2)]
  | succ n IH =>
    intro B h1 h2 h3
    rw [down, if_pos (mul_pos h1 h2)]
    refine IH _ ?_ h1 fun c hc => h3 c (by omega)
    simp only [(hf _).1, (hf _).2]
    exact (ebal_pos h hs hb (T_pos t _).le).mpr (h3 n (by omega))

theorem down_stop {t : Table} {i : ℕ} {E : Env} (n : ℕ) (B : Br) (h : ¬B.bl * B.bh > 0) : down t i E n B = some (B, n) := by
  cases n with
  | zero => rw [down, if_neg h]
  | succ n => rw [down, if_neg h]

/-! ### the implicit update -/

/-- the gas is as opaque at every temperature, and an ideal gas -/
def Ideal (t : Table) (i : ℕ) (k kp g mu : ℝ) : Prop := ∀ c, t.gas i c = ⟨t.T c, k, kp, g, mu⟩

theorem balance_le {E : Env} {k kp : ℝ} (h : Rad E k kp) (u : ℝ) {dt g mu : ℝ} (hdt : 0 ≤ dt)
    {T T' : ℝ} (h0 : 0 ≤ T) (hT : T ≤ T') :
    (T' - T) / (mu * (g - 1)) ≤ Gas.balance E u dt ⟨T', k, kp, g, mu⟩ - Gas.balance E u dt ⟨T, k, kp, g, mu⟩ := by
  have hb : ebal E E.dudt T' k kp ≤ ebal E E.dudt T k kp := by
    rcases eq_or_lt_of_le hT with e | e
    · rw [e]
    · exact (ebal_lt h E.dudt h0 e).le
  simp only [Gas.balance, Gas.heating]
  have := mul_le_mul_of_nonneg_right hb hdt
  rw [sub_div]
  linarith

theorem balance_lt {E : Env} {k kp : ℝ} (h : Rad E k kp) (u : ℝ) {dt g mu : ℝ} (hdt : 0 ≤ dt) (hg : 0 < mu * (g - 1))
    {T T' : ℝ} (h0 : 0 ≤ T) (hT : T < T') :
    Gas.balance E u dt ⟨T, k, kp, g, mu⟩ < Gas.balance E u dt ⟨T', k, kp, g, mu⟩ := by
  have := balance_le h u (g := g) (mu := mu) hdt h0 hT.le
  have h2 := div_pos (sub_pos.mpr hT) hg
  linarith

section Implicit

variable {E : Env} {k kp g mu u dt Ts : ℝ} (h : Rad E k kp) (hdt : 0 ≤ dt) (hg : 0 < mu * (g - 1)) (hs : 0 < Ts)
  (hb : Gas.balance E u dt ⟨Ts, k, kp, g, mu⟩ = 0)

include h hdt hg hs hb

theorem balance_neg_iff {T : ℝ} (h0 : 0 ≤ T) : Gas.balance E u dt ⟨T, k, kp, g, mu⟩ < 0 ↔ T < Ts := by
  constructor
  · intro hp
    by_contra hc
    rcases eq_or_lt_of_le (not_lt.mp hc) with e | e
    · rw [← e, hb] at hp; exact lt_irrefl _ hp
    · have := balance_lt h u hdt hg hs.le e; linarith
  · intro hc
    have := balance_lt h u hdt hg h0 hc; linarith

theorem balance_pos_iff {T : ℝ} (h0 : 0 ≤ T) : 0 < Gas.balance E u dt ⟨T, k, kp, g, mu⟩ ↔ Ts < T := by
  constructor
  · intro hp
    by_contra hc
    rcases eq_or_lt_of_le (not_lt.mp hc) with e | e
    · rw [e, hb] at hp; exact lt_irrefl _ hp
    · have := balance_lt h u hdt hg h0 e; linarith
  · intro hc
    have := balance_lt h u hdt hg hs.le hc; linarith

theorem implUp_spec {t : Table} {i : ℕ} (hf : Ideal t i k kp g mu) : ∀ (n c : ℕ), t.T c < Ts → Ts ≤ t.T (c + 1 + n) →
    ∃ Tl Th, implUp t i E u dt n c = some (⟨Tl, k, kp, g, mu⟩, ⟨Th, k, kp, g, mu⟩) ∧ 0 ≤ Tl ∧ Tl < Ts ∧ Ts ≤ Th := by
  intro n
  have key : ∀ c, t.T c < Ts → ((t.gas i c).balance E u dt * (t.gas i (c + 1)).balance E u dt > 0 ↔ t.T (c + 1) < Ts) := by
    intro c hc
    rw [hf, hf]
    have h1 := (balance_neg_iff h hdt hg hs hb (T_pos t c).le).mpr hc
    constructor
    · intro h2
      refine (balance_neg_iff h hdt hg hs hb (T_pos t _).le).mp ?_
      by_contra hcon
      have := mul_nonpos_of_nonpos_of_nonneg h1.le (not_lt.mp hcon)
      linarith
    · intro h2
      exact mul_pos_of_neg_of_neg h1 ((balance_neg_iff h hdt hg hs hb (T_pos t _).le).mpr h2)
  induction n with
  | zero =>
    intro c h1 h2
    rw [implUp, if_neg (by rw [key c h1]; simpa using h2)]
    exact ⟨_, _, by rw [hf, hf], (T_pos t c).le, h1, h2⟩
  | succ n ih =>
    intro c h1 h2
    rw [implUp]
    by_cases hc : t.T (c + 1) < Ts
    · rw [if_pos ((key c h1).mpr hc)]
      exact ih (c + 1) hc (by rw [show c + 1 + 1 + n = c + 1 + (n + 1) by ring]; exact h2)
    · rw [if_neg (by rw [key c h1]; exact hc)]
      exact ⟨_, _, by rw [hf, hf], (T_pos t c).le, h1, not_lt.mp hc⟩

theorem implDown_spec {t : Table} {i : ℕ} (hf : Ideal t i k kp g mu) (hne : ∀ c, t.T c ≠ Ts) : ∀ c : ℕ, Ts < t.T (c + 1) →
    ∃ Tl Th, implDown t i E u dt c = (⟨Tl, k, kp, g, mu⟩, ⟨Th, k, kp, g, mu⟩) ∧ 0 ≤ Tl ∧ Tl < Ts ∧ Ts ≤ Th := by
  have key : ∀ c, Ts < t.T (c + 1) → ((t.gas i c).balance E u dt * (t.gas i (c + 1)).balance E u dt > 0 ↔ Ts < t.T c) := by
    intro c hc
    rw [hf, hf]
    have h1 := (balance_pos_iff h hdt hg hs hb (T_pos t _).le).mpr hc
    constructor
    · intro h2
      refine (balance_pos_iff h hdt hg hs hb (T_pos t _).le).mp ?_
      by_contra hcon
      have := mul_nonpos_of_nonpos_of_nonneg (not_lt.mp hcon) h1.le
      linarith
    · intro h2
      exact mul_pos ((balance_pos_iff h hdt hg hs hb (T_pos t _).le).mpr h2) h1
  intro c
  induction c with
  | zero =>
    intro h1
    rw [implDown]
    by_cases hc : Ts < t.T 0
    · rw [if_pos ((key 0 h1).mpr hc)]
      exact ⟨0, t.T 0, by rw [hf], le_refl _, hs, hc.le⟩
    · rw [if_neg (by rw [key 0 h1]; exact hc)]
      exact ⟨t.T 0, t.T 1, by rw [hf, hf], (T_pos t 0).le, lt_of_le_of_ne (not_lt.mp hc) (hne 0), h1.le⟩
  | succ c ih =>
    intro h1
    rw [implDown]
    by_cases hc : Ts < t.T (c + 1)
    · rw [if_pos ((key (c + 1) h1).mpr hc)]
      exact ih hc
    · rw [if_neg (by rw [key (c + 1) h1]; exact hc)]
      exact ⟨_, _, by rw [hf, hf], (T_pos t _).le, lt_of_le_of_ne (not_lt.mp hc) (hne _), h1.le⟩

theorem implRefine_spec {tol : ℝ} (ht : 0 < tol) (ht1 : tol ≤ 1) (Tlo Thi : ℝ) : ∀ (fuel : ℕ) (Tl Th bl : ℝ), 0 ≤ Tl → Tl < Ts →
    Ts ≤ Th → bl < 0 → Th - Tl ≤ 2 ^ fuel * (tol * Ts) →
    ∃ T, implRefine E u dt tol ⟨Tlo, k, kp, g, mu⟩ ⟨Thi, k, kp, g, mu⟩ (fuel + 1) Tl Th bl = some ⟨T, k, kp, g, mu⟩ ∧
      0 < T ∧ |T - Ts| ≤ tol * max T Ts := by
  intro fuel
  have hbt : ∀ Tc, between ⟨Tlo, k, kp, g, mu⟩ ⟨Thi, k, kp, g, mu⟩ Tc = ⟨Tc, k, kp, g, mu⟩ := by
    intro Tc
    simp only [between]
    congr 1 <;> ring
  -- one turn
  have step : ∀ (f : ℕ) (Tl Th bl : ℝ), 0 ≤ Tl → Tl < Ts → Ts ≤ Th → bl < 0 →
      (∃ T, implRefine E u dt tol ⟨Tlo, k, kp, g, mu⟩ ⟨Thi, k, kp, g, mu⟩ (f + 1) Tl Th bl = some ⟨T, k, kp, g, mu⟩ ∧
        0 < T ∧ |T - Ts| ≤ tol * max T Ts) ∨
      ∃ Tl' Th' bl', implRefine E u dt tol ⟨Tlo, k, kp, g, mu⟩ ⟨Thi, k, kp, g, mu⟩ (f + 1) Tl Th bl =
        implRefine E u dt tol ⟨Tlo, k, kp, g, mu⟩ ⟨Thi, k, kp, g, mu⟩ f Tl' Th' bl' ∧ 0 ≤ Tl' ∧ Tl' < Ts ∧ Ts ≤ Th' ∧ bl' < 0 ∧
        Th' - Tl' = (Th - Tl) / 2 ∧ tol * Tl' < Th' - Tl' := by
    intro f Tl Th bl h0 h1 h2 h3
    have hTc : 0 < (Tl + Th) / 2 := by linarith
    have hm0 : 0 ≤ tol * max ((Tl + Th) / 2) Ts := mul_nonneg ht.le (le_trans hs.le (le_max_right _ _))
    rw [implRefine]
    simp only [hbt]
    set b := Gas.balance E u dt ⟨(Tl + Th) / 2, k, kp, g, mu⟩ with hbd
    by_cases hz : b = 0
    · left
      rw [if_pos hz]
      refine ⟨_, rfl, hTc, ?_⟩
      have : (Tl + Th) / 2 = Ts := by
        rcases lt_trichotomy ((Tl + Th) / 2) Ts with e | e | e
        · have := (balance_neg_iff h hdt hg hs hb hTc.le).mpr e; linarith
        · exact e
        · have := (balance_pos_iff h hdt hg hs hb hTc.le).mpr e; linarith
      rw [this, sub_self, abs_zero]
      rw [this] at hm0
      exact hm0
    rw [if_neg hz]
    have small : ∀ Tl' Th', Tl' < Ts → Ts ≤ Th' → |(Tl + Th) / 2 - Ts| ≤ Th' - Tl' →
        ¬(|b| > tol * ((Tl + Th) / 2 / (mu * (g - 1))) ∧ Th' - Tl' > tol * Tl') →
        |(Tl + Th) / 2 - Ts| ≤ tol * max ((Tl + Th) / 2) Ts := by
      intro Tl' Th' g1 g2 g3 g4
      by_cases g5 : Th' - Tl' > tol * Tl'
      · have g6 : |b| ≤ tol * ((Tl + Th) / 2 / (mu * (g - 1))) := by
          by_contra hc
          exact g4 ⟨not_le.mp hc, g5⟩
        have g7 : |(Tl + Th) / 2 - Ts| / (mu * (g - 1)) ≤ |b| := by
          rcases le_total Ts ((Tl + Th) / 2) with e | e
          · have := balance_le h u (g := g) (mu := mu) hdt hs.le e
            rw [hb, ← hbd] at this
            rw [abs_of_nonneg (by linarith)]
            linarith [le_abs_self b]
          · have := balance_le h u (g := g) (mu := mu) hdt hTc.le e
            rw [hb, ← hbd] at this
            rw [abs_of_nonpos (by linarith)]
            have e2 := neg_le_abs b
            have e3 : -((Tl + Th) / 2 - Ts) = Ts - (Tl + Th) / 2 := by ring
            rw [e3]; linarith
        have g8 : |(Tl + Th) / 2 - Ts| ≤ tol * ((Tl + Th) / 2) := by
          have := le_trans g7 g6
          rw [div_le_iff₀ hg] at this
          have e : tol * ((Tl + Th) / 2 / (mu * (g - 1))) * (mu * (g - 1)) = tol * ((Tl + Th) / 2) := by
            rw [mul_assoc, div_mul_cancel₀ _ hg.ne']
          rwa [e] at this
        exact le_trans g8 (mul_le_mul_of_nonneg_left (le_max_left _ _) ht.le)
      · have : tol * Tl' ≤ tol * max ((Tl + Th) / 2) Ts :=
          mul_le_mul_of_nonneg_left (le_trans g1.le (le_max_right _ _)) ht.le
        linarith [not_lt.mp g5]
    by_cases hn : b * bl < 0
    · have hpos : 0 < b := by
        by_contra hc
        have := mul_nonneg_of_nonpos_of_nonpos (not_lt.mp hc) h3.le
        linarith
      have e := (balance_pos_iff h hdt hg hs hb hTc.le).mp hpos
      simp only [if_pos hn]
      by_cases hw : |b| > tol * ((Tl + Th) / 2 / (mu * (g - 1))) ∧ (Tl + Th) / 2 - Tl > tol * Tl
      · right
        exact ⟨Tl, (Tl + Th) / 2, bl, by rw [if_pos hw], h0, h1, e.le, h3, by ring, hw.2⟩
      · left
        refine ⟨_, by rw [if_neg hw], hTc, small Tl ((Tl + Th) / 2) h1 e.le ?_ hw⟩
        rw [abs_of_nonneg (by linarith)]; linarith
    · have hneg : b < 0 := by
        rcases lt_trichotomy b 0 with e | e | e
        · exact e
        · exact absurd e hz
        · exact absurd (mul_neg_of_pos_of_neg e h3) hn
      have e := (balance_neg_iff h hdt hg hs hb hTc.le).mp hneg
      simp only [if_neg hn]
      by_cases hw : |b| > tol * ((Tl + Th) / 2 / (mu * (g - 1))) ∧ Th - (Tl + Th) / 2 > tol * ((Tl + Th) / 2)
      · right
        exact ⟨(Tl + Th) / 2, Th, b, by rw [if_pos hw], hTc.le, e, h2, hneg, by ring, hw.2⟩
      · left
        refine ⟨_, by rw [if_neg hw], hTc, small ((Tl + Th) / 2) Th e h2 ?_ hw⟩
        rw [abs_of_nonpos (by linarith)]; linarith
  induction fuel with
  | zero =>
    intro Tl Th bl h0 h1 h2 h3 hw
    rcases step 0 Tl Th bl h0 h1 h2 h3 with hh | ⟨Tl', Th', bl', _, g1, g2, g3, g4, g5, g6⟩
    · exact hh
    · exfalso
      rw [pow_zero, one_mul] at hw
      have : Ts - Tl' ≤ tol * Ts / 2 := by linarith
      nlinarith
  | succ fuel ih =>
    intro Tl Th bl h0 h1 h2 h3 hw
    rcases step (fuel + 1) Tl Th bl h0 h1 h2 h3 with hh | ⟨Tl', Th', bl', g0, g1, g2, g3, g4, g5, g6⟩
    · exact hh
    · rw [g0]
      refine ih Tl' Th' bl' g1 g2 g3 g4 ?_
      rw [pow_succ] at hw
      linarith

end Implicit

end Radws

end Gandalf
