import Verif.Model.Hermite
import Verif.Spec.Hermite
import Verif.Proof.StarForces
import Mathlib.Analysis.Calculus.Deriv.MeanValue
import Mathlib.Analysis.Calculus.Deriv.Shift

/-! Helper lemmas for C46. -/

set_option autoImplicit false
set_option linter.unusedSectionVars false

namespace Gandalf.Hermite

variable {n N : ℕ}

/-! ### Taylor remainders -/

theorem grow {f f' : ℝ → ℝ} {t0 h C : ℝ} (m : ℕ) (hf : ∀ t, HasDerivAt f (f' t) t) (h0 : f t0 = 0)
    (hb : ∀ s, 0 ≤ s → s ≤ h → |f' (t0 + s)| ≤ C * s ^ m) :
    ∀ s, 0 ≤ s → s ≤ h → |f (t0 + s)| ≤ C / (m + 1) * s ^ (m + 1) := by
  have hm : (m : ℝ) + 1 ≠ 0 := by positivity
  have hp : ∀ s, HasDerivAt (fun s : ℝ => C / (m + 1) * s ^ (m + 1)) (C * s ^ m) s := by
    intro s
    refine ((hasDerivAt_pow (m + 1) s).const_mul (C / (m + 1))).congr_deriv ?_
    push_cast
    field_simp
  have hs : ∀ s, HasDerivAt (fun s : ℝ => f (t0 + s)) (f' (t0 + s)) s := by
    intro s
    exact HasDerivAt.comp_const_add t0 s (hf (t0 + s))
  have mono : ∀ e : ℝ, (e = 1 ∨ e = -1) → ∀ s, 0 ≤ s → s ≤ h →
      0 ≤ C / (m + 1) * s ^ (m + 1) - e * f (t0 + s) := by
    intro e he s hs0 hsh
    have hd : ∀ u, HasDerivAt (fun s : ℝ => C / (m + 1) * s ^ (m + 1) - e * f (t0 + s))
        (C * u ^ m - e * f' (t0 + u)) u := fun u => (hp u).sub ((hs u).const_mul e)
    have hmono : MonotoneOn (fun s : ℝ => C / (m + 1) * s ^ (m + 1) - e * f (t0 + s)) (Set.Icc 0 h) := by
      refine monotoneOn_of_deriv_nonneg (convex_Icc 0 h)
        (fun u _ => (hd u).continuousAt.continuousWithinAt) (fun u _ => (hd u).differentiableAt.differentiableWithinAt)
        ?_
      intro u hu
      rw [interior_Icc] at hu
      rw [(hd u).deriv]
      have hbu := abs_le.mp (hb u hu.1.le hu.2.le)
      rcases he with rfl | rfl <;> linarith [hbu.1, hbu.2]
    have := hmono ⟨le_refl 0, hs0.trans hsh⟩ ⟨hs0, hsh⟩ hs0
    simpa [h0] using this
  intro s hs0 hsh
  rw [abs_le]
  constructor
  · have := mono (-1) (Or.inr rfl) s hs0 hsh; linarith
  · have := mono 1 (Or.inl rfl) s hs0 hsh; linarith

/-- Taylor remainders of a trajectory whose fourth derivative of the acceleration is bounded -/
theorem remainders {x v g g1 g2 g3 g4 : ℝ → ℝ} (hP : Path x v g) (hS : Smooth4 g g1 g2 g3 g4) {t0 h M : ℝ}
    (hh : 0 ≤ h) (hM : ∀ s, 0 ≤ s → s ≤ h → |g4 (t0 + s)| ≤ M) :
    |g1 (t0 + h) - (g1 t0 + g2 t0 * h + g3 t0 * h ^ 2 / 2)| ≤ M / 6 * h ^ 3 ∧
    |g (t0 + h) - (g t0 + g1 t0 * h + g2 t0 * h ^ 2 / 2 + g3 t0 * h ^ 3 / 6)| ≤ M / 24 * h ^ 4 ∧
    |v (t0 + h) - (v t0 + g t0 * h + g1 t0 * h ^ 2 / 2 + g2 t0 * h ^ 3 / 6 + g3 t0 * h ^ 4 / 24)| ≤
      M / 120 * h ^ 5 ∧
    |x (t0 + h) - (x t0 + v t0 * h + g t0 * h ^ 2 / 2 + g1 t0 * h ^ 3 / 6 + g2 t0 * h ^ 4 / 24 +
      g3 t0 * h ^ 5 / 120)| ≤ M / 720 * h ^ 6 := by
  have pw : ∀ (c : ℝ) (m : ℕ) (t : ℝ), HasDerivAt (fun t : ℝ => c * (t - t0) ^ (m + 1)) (c * (m + 1) * (t - t0) ^ m) t := by
    intro c m t
    have := (((hasDerivAt_id t).sub_const t0).fun_pow (m + 1)).const_mul c
    refine this.congr_deriv ?_
    simp only [id, Nat.add_sub_cancel]
    push_cast
    ring
  have r3 := grow (f := fun t => g3 t - g3 t0) (f' := g4) (t0 := t0) (h := h) (C := M) 0
    (fun t => (hS.d4 t).sub_const _) (by simp) (fun s a b => by simpa using hM s a b)
  have r2 := grow (f := fun t => g2 t - (g2 t0 + g3 t0 * (t - t0) ^ (0 + 1))) (f' := fun t => g3 t - g3 t0)
    (t0 := t0) (h := h) 1
    (fun t => ((hS.d3 t).sub (((pw (g3 t0) 0 t)).const_add (g2 t0))).congr_deriv (by simp)) (by simp)
    (fun s a b => by simpa using r3 s a b)
  have r1 := grow (f := fun t => g1 t - (g1 t0 + (g2 t0 * (t - t0) ^ (0 + 1) + g3 t0 / 2 * (t - t0) ^ (1 + 1))))
    (f' := fun t => g2 t - (g2 t0 + g3 t0 * (t - t0) ^ (0 + 1))) (t0 := t0) (h := h) 2
    (fun t => ((hS.d2 t).sub (((pw (g2 t0) 0 t).add (pw (g3 t0 / 2) 1 t)).const_add (g1 t0))).congr_deriv
      (by push_cast; ring)) (by simp) (fun s a b => by simpa using r2 s a b)
  have r0 := grow (f := fun t => g t - (g t0 + (g1 t0 * (t - t0) ^ (0 + 1) + g2 t0 / 2 * (t - t0) ^ (1 + 1) +
      g3 t0 / 6 * (t - t0) ^ (2 + 1))))
    (f' := fun t => g1 t - (g1 t0 + (g2 t0 * (t - t0) ^ (0 + 1) + g3 t0 / 2 * (t - t0) ^ (1 + 1)))) (t0 := t0) (h := h) 3
    (fun t => ((hS.d1 t).sub ((((pw (g1 t0) 0 t).add (pw (g2 t0 / 2) 1 t)).add (pw (g3 t0 / 6) 2 t)).const_add
      (g t0))).congr_deriv (by push_cast; ring)) (by simp) (fun s a b => by simpa using r1 s a b)
  have rv := grow (f := fun t => v t - (v t0 + (g t0 * (t - t0) ^ (0 + 1) + g1 t0 / 2 * (t - t0) ^ (1 + 1) +
      g2 t0 / 6 * (t - t0) ^ (2 + 1) + g3 t0 / 24 * (t - t0) ^ (3 + 1))))
    (f' := fun t => g t - (g t0 + (g1 t0 * (t - t0) ^ (0 + 1) + g2 t0 / 2 * (t - t0) ^ (1 + 1) +
      g3 t0 / 6 * (t - t0) ^ (2 + 1)))) (t0 := t0) (h := h) 4
    (fun t => ((hP.vel t).sub (((((pw (g t0) 0 t).add (pw (g1 t0 / 2) 1 t)).add (pw (g2 t0 / 6) 2 t)).add
      (pw (g3 t0 / 24) 3 t)).const_add (v t0))).congr_deriv (by push_cast; ring)) (by simp)
    (fun s a b => by simpa using r0 s a b)
  have rx := grow (f := fun t => x t - (x t0 + (v t0 * (t - t0) ^ (0 + 1) + g t0 / 2 * (t - t0) ^ (1 + 1) +
      g1 t0 / 6 * (t - t0) ^ (2 + 1) + g2 t0 / 24 * (t - t0) ^ (3 + 1) + g3 t0 / 120 * (t - t0) ^ (4 + 1))))
    (f' := fun t => v t - (v t0 + (g t0 * (t - t0) ^ (0 + 1) + g1 t0 / 2 * (t - t0) ^ (1 + 1) +
      g2 t0 / 6 * (t - t0) ^ (2 + 1) + g3 t0 / 24 * (t - t0) ^ (3 + 1)))) (t0 := t0) (h := h) 5
    (fun t => ((hP.pos t).sub ((((((pw (v t0) 0 t).add (pw (g t0 / 2) 1 t)).add (pw (g1 t0 / 6) 2 t)).add
      (pw (g2 t0 / 24) 3 t)).add (pw (g3 t0 / 120) 4 t)).const_add (x t0))).congr_deriv (by push_cast; ring)) (by simp)
    (fun s a b => by simpa using rv s a b)
  refine ⟨?_, ?_, ?_, ?_⟩
  · have := r1 h hh le_rfl
    convert this using 2 <;> push_cast <;> ring
  · have := r0 h hh le_rfl
    convert this using 2 <;> push_cast <;> ring
  · have := rv h hh le_rfl
    convert this using 2 <;> push_cast <;> ring
  · have := rx h hh le_rfl
    convert this using 2 <;> push_cast <;> ring

/-- corrected velocity, in closed form -/
noncomputable def vel4 (h v0 a0 a j0 j : ℝ) : ℝ := v0 + (a0 + a) / 2 * h - (j - j0) / 12 * h ^ 2

/-- corrected position, in closed form -/
noncomputable def pos4 (h r0 v0 a0 a j0 j : ℝ) : ℝ :=
  r0 + v0 * h + (7 * a0 + 3 * a) / 20 * h ^ 2 + (3 * j0 - 2 * j) / 60 * h ^ 3

/-- position of the time-symmetric scheme -/
noncomputable def pos4TS (h r0 v0 v a0 a : ℝ) : ℝ := r0 + (v0 + v) / 2 * h - (a - a0) / 12 * h ^ 2

/-! ### The result of a turn with one round -/

section
variable (F : ℝ → (Fin N → Vec n ℝ) → (Fin N → Vec n ℝ) → Fin N → Vec n ℝ × Vec n ℝ × Vec n ℝ)

/-- predicted positions and velocities -/
noncomputable def predR (m : ℤ) (t : ℝ) (s : Fin N → Body n) : Fin N → Vec n ℝ := fun i => (advance4 m t (s i)).r
noncomputable def predV (m : ℤ) (t : ℝ) (s : Fin N → Body n) : Fin N → Vec n ℝ := fun i => (advance4 m t (s i)).v

theorem force_advance4 {m : ℤ} {t : ℝ} {s : Fin N → Body n} {i : Fin N} (hi : m - (s i).nlast = (s i).nstep) :
    force F t (fun i => advance4 m t (s i)) i =
      { advance4 m t (s i) with
        a := (F t (predR m t s) (predV m t s) i).1
        adot := (F t (predR m t s) (predV m t s) i).2.1
        a2dot := (F t (predR m t s) (predV m t s) i).2.2
        a3dot := fun _ => 0 } := by
  have : (advance4 m t (s i)).active = true := by simp [advance4, hi]
  simp only [force, this, if_true]
  rfl

theorem turn4 {m : ℤ} {t : ℝ} {s : Fin N → Body n} {i : Fin N} (hi : m - (s i).nlast = (s i).nstep)
    (ht : t - (s i).tlast ≠ 0) (k : Fin n) :
    (turn advance4 correct4 1 F m t s i).v k = vel4 (t - (s i).tlast) ((s i).v0 k) ((s i).a0 k)
      ((F t (predR m t s) (predV m t s) i).1 k) ((s i).adot0 k) ((F t (predR m t s) (predV m t s) i).2.1 k) ∧
    (turn advance4 correct4 1 F m t s i).r k = pos4 (t - (s i).tlast) ((s i).r0 k) ((s i).v0 k) ((s i).a0 k)
      ((F t (predR m t s) (predV m t s) i).1 k) ((s i).adot0 k) ((F t (predR m t s) (predV m t s) i).2.1 k) ∧
    (turn advance4 correct4 1 F m t s i).a2dot k = interp2 (t - (s i).tlast) ((s i).a0 k)
      ((F t (predR m t s) (predV m t s) i).1 k) ((s i).adot0 k) ((F t (predR m t s) (predV m t s) i).2.1 k) ∧
    (turn advance4 correct4 1 F m t s i).a3dot k = interp3 (t - (s i).tlast) ((s i).a0 k)
      ((F t (predR m t s) (predV m t s) i).1 k) ((s i).adot0 k) ((F t (predR m t s) (predV m t s) i).2.1 k) := by
  simp only [turn, pec, force_advance4 F hi]
  generalize F t (predR m t s) (predV m t s) i = f
  have h1 : (advance4 m t (s i)).nlast = (s i).nlast := rfl
  have h2 : (advance4 m t (s i)).nstep = (s i).nstep := rfl
  simp only [correct4, h1, h2, if_pos hi]
  simp only [advance4, interp2, interp3, vel4, pos4]
  refine ⟨?_, ?_, trivial, trivial⟩
  · field_simp; ring
  · field_simp; ring

end

/-! ### Exactness and error of the closed forms -/

theorem vel4_error {x v g g1 g2 g3 g4 : ℝ → ℝ} (hP : Path x v g) (hS : Smooth4 g g1 g2 g3 g4) {t0 h M a j ea ej : ℝ}
    (hh : 0 ≤ h) (hM : ∀ s, 0 ≤ s → s ≤ h → |g4 (t0 + s)| ≤ M) (ha : |a - g (t0 + h)| ≤ ea)
    (hj : |j - g1 (t0 + h)| ≤ ej) :
    |vel4 h (v t0) (g t0) a (g1 t0) j - v (t0 + h)| ≤ 31 / 720 * M * h ^ 5 + ea / 2 * h + ej / 12 * h ^ 2 := by
  obtain ⟨r1, r0, rv, -⟩ := remainders hP hS hh hM
  generalize hA : g1 (t0 + h) - (g1 t0 + g2 t0 * h + g3 t0 * h ^ 2 / 2) = A at r1
  generalize hB : g (t0 + h) - (g t0 + g1 t0 * h + g2 t0 * h ^ 2 / 2 + g3 t0 * h ^ 3 / 6) = B at r0
  generalize hC : v (t0 + h) - (v t0 + g t0 * h + g1 t0 * h ^ 2 / 2 + g2 t0 * h ^ 3 / 6 + g3 t0 * h ^ 4 / 24) = C at rv
  generalize hD : a - g (t0 + h) = D at ha
  generalize hE : j - g1 (t0 + h) = E at hj
  have e : vel4 h (v t0) (g t0) a (g1 t0) j - v (t0 + h) = B * h / 2 - A * h ^ 2 / 12 - C + D * h / 2 - E * h ^ 2 / 12 := by
    rw [← hA, ← hB, ← hC, ← hD, ← hE]; simp only [vel4]; ring
  rw [e]
  have b1 : |B * h / 2| ≤ M / 24 * h ^ 4 * h / 2 := by
    rw [abs_div, abs_mul, abs_of_nonneg hh, abs_of_pos (by norm_num : (0 : ℝ) < 2)]; gcongr
  have b2 : |A * h ^ 2 / 12| ≤ M / 6 * h ^ 3 * h ^ 2 / 12 := by
    rw [abs_div, abs_mul, abs_of_nonneg (pow_nonneg hh 2), abs_of_pos (by norm_num : (0 : ℝ) < 12)]; gcongr
  have b4 : |D * h / 2| ≤ ea * h / 2 := by
    rw [abs_div, abs_mul, abs_of_nonneg hh, abs_of_pos (by norm_num : (0 : ℝ) < 2)]; gcongr
  have b5 : |E * h ^ 2 / 12| ≤ ej * h ^ 2 / 12 := by
    rw [abs_div, abs_mul, abs_of_nonneg (pow_nonneg hh 2), abs_of_pos (by norm_num : (0 : ℝ) < 12)]; gcongr
  rw [abs_le] at b1 b2 b4 b5 rv ⊢
  constructor <;> nlinarith [b1.1, b1.2, b2.1, b2.2, b4.1, b4.2, b5.1, b5.2, rv.1, rv.2]

theorem pos4_error {x v g g1 g2 g3 g4 : ℝ → ℝ} (hP : Path x v g) (hS : Smooth4 g g1 g2 g3 g4) {t0 h M a j ea ej : ℝ}
    (hh : 0 ≤ h) (hM : ∀ s, 0 ≤ s → s ≤ h → |g4 (t0 + s)| ≤ M) (ha : |a - g (t0 + h)| ≤ ea)
    (hj : |j - g1 (t0 + h)| ≤ ej) :
    |pos4 h (x t0) (v t0) (g t0) a (g1 t0) j - x (t0 + h)| ≤
      19 / 1440 * M * h ^ 6 + 3 * ea / 20 * h ^ 2 + ej / 30 * h ^ 3 := by
  obtain ⟨r1, r0, -, rx⟩ := remainders hP hS hh hM
  generalize hA : g1 (t0 + h) - (g1 t0 + g2 t0 * h + g3 t0 * h ^ 2 / 2) = A at r1
  generalize hB : g (t0 + h) - (g t0 + g1 t0 * h + g2 t0 * h ^ 2 / 2 + g3 t0 * h ^ 3 / 6) = B at r0
  generalize hC : x (t0 + h) - (x t0 + v t0 * h + g t0 * h ^ 2 / 2 + g1 t0 * h ^ 3 / 6 + g2 t0 * h ^ 4 / 24 +
    g3 t0 * h ^ 5 / 120) = C at rx
  generalize hD : a - g (t0 + h) = D at ha
  generalize hE : j - g1 (t0 + h) = E at hj
  have e : pos4 h (x t0) (v t0) (g t0) a (g1 t0) j - x (t0 + h) = B * h ^ 2 * (3 / 20) - A * h ^ 3 * (1 / 30) - C +
      D * h ^ 2 * (3 / 20) - E * h ^ 3 * (1 / 30) := by
    rw [← hA, ← hB, ← hC, ← hD, ← hE]; simp only [pos4]; ring
  rw [e]
  have ab : ∀ (X b : ℝ) (m : ℕ) (c : ℝ), 0 ≤ c → |X| ≤ b → |X * h ^ m * c| ≤ b * h ^ m * c := by
    intro X b m c hc hX
    rw [abs_mul, abs_mul, abs_of_nonneg (pow_nonneg hh m), abs_of_nonneg hc]; gcongr
  have b1 := ab B _ 2 (3 / 20) (by norm_num) r0
  have b2 := ab A _ 3 (1 / 30) (by norm_num) r1
  have b4 := ab D _ 2 (3 / 20) (by norm_num) ha
  have b5 := ab E _ 3 (1 / 30) (by norm_num) hj
  rw [abs_le] at b1 b2 b4 b5 rx ⊢
  constructor <;> nlinarith [b1.1, b1.2, b2.1, b2.2, b4.1, b4.2, b5.1, b5.2, rx.1, rx.2]

/-- errors of the predictor -/
theorem pred_error {x v g g1 g2 g3 g4 : ℝ → ℝ} (hP : Path x v g) (hS : Smooth4 g g1 g2 g3 g4) {t0 h M : ℝ}
    (hh : 0 ≤ h) (hM : ∀ s, 0 ≤ s → s ≤ h → |g2 (t0 + s)| ≤ M) :
    |v t0 + g t0 * h + g1 t0 * h ^ 2 / 2 - v (t0 + h)| ≤ M / 6 * h ^ 3 ∧
    |x t0 + v t0 * h + g t0 * h ^ 2 / 2 + g1 t0 * h ^ 3 / 6 - x (t0 + h)| ≤ M / 24 * h ^ 4 := by
  have pw : ∀ (c : ℝ) (m : ℕ) (t : ℝ), HasDerivAt (fun t : ℝ => c * (t - t0) ^ (m + 1)) (c * (m + 1) * (t - t0) ^ m) t := by
    intro c m t
    have := (((hasDerivAt_id t).sub_const t0).fun_pow (m + 1)).const_mul c
    refine this.congr_deriv ?_
    simp only [id, Nat.add_sub_cancel]
    push_cast
    ring
  have r1 := grow (f := fun t => g1 t - g1 t0) (f' := g2) (t0 := t0) (h := h) (C := M) 0
    (fun t => (hS.d2 t).sub_const _) (by simp) (fun s a b => by simpa using hM s a b)
  have r0 := grow (f := fun t => g t - (g t0 + g1 t0 * (t - t0) ^ (0 + 1))) (f' := fun t => g1 t - g1 t0)
    (t0 := t0) (h := h) 1
    (fun t => ((hS.d1 t).sub (((pw (g1 t0) 0 t)).const_add (g t0))).congr_deriv (by simp)) (by simp)
    (fun s a b => by simpa using r1 s a b)
  have rv := grow (f := fun t => v t - (v t0 + (g t0 * (t - t0) ^ (0 + 1) + g1 t0 / 2 * (t - t0) ^ (1 + 1))))
    (f' := fun t => g t - (g t0 + g1 t0 * (t - t0) ^ (0 + 1))) (t0 := t0) (h := h) 2
    (fun t => ((hP.vel t).sub (((pw (g t0) 0 t).add (pw (g1 t0 / 2) 1 t)).const_add (v t0))).congr_deriv
      (by push_cast; ring)) (by simp) (fun s a b => by simpa using r0 s a b)
  have rx := grow (f := fun t => x t - (x t0 + (v t0 * (t - t0) ^ (0 + 1) + g t0 / 2 * (t - t0) ^ (1 + 1) +
      g1 t0 / 6 * (t - t0) ^ (2 + 1))))
    (f' := fun t => v t - (v t0 + (g t0 * (t - t0) ^ (0 + 1) + g1 t0 / 2 * (t - t0) ^ (1 + 1)))) (t0 := t0) (h := h) 3
    (fun t => ((hP.pos t).sub ((((pw (v t0) 0 t).add (pw (g t0 / 2) 1 t)).add (pw (g1 t0 / 6) 2 t)).const_add
      (x t0))).congr_deriv (by push_cast; ring)) (by simp) (fun s a b => by simpa using rv s a b)
  constructor
  · have := rv h hh le_rfl
    rw [abs_sub_comm]
    convert this using 2 <;> push_cast <;> ring
  · have := rx h hh le_rfl
    rw [abs_sub_comm]
    convert this using 2 <;> push_cast <;> ring

/-! ### Polynomials -/

theorem hasDerivAt_polyD (p : Polynomial ℝ) (j : ℕ) (t : ℝ) : HasDerivAt (polyD p j) (polyD p (j + 1) t) t := by
  simp only [polyD, Function.iterate_succ', Function.comp]
  exact Polynomial.hasDerivAt _ t

theorem polyD_zero (p : Polynomial ℝ) (t : ℝ) : polyD p 0 t = p.eval t := rfl

theorem polyD_one (p : Polynomial ℝ) (t : ℝ) : polyD p 1 t = p.derivative.eval t := rfl

theorem polyD_large {p : Polynomial ℝ} {j : ℕ} (h : p.natDegree < j) (t : ℝ) : polyD p j t = 0 := by
  simp [polyD, Polynomial.iterate_derivative_eq_zero h]

theorem poly_smooth4 (p : Polynomial ℝ) : Smooth4 (polyD p 0) (polyD p 1) (polyD p 2) (polyD p 3) (polyD p 4) :=
  ⟨hasDerivAt_polyD p 0, hasDerivAt_polyD p 1, hasDerivAt_polyD p 2, hasDerivAt_polyD p 3⟩

/-- a function with zero derivative -/
theorem const_of {f f' g g' : ℝ → ℝ} (hf : ∀ t, HasDerivAt f (f' t) t) (hg : ∀ t, HasDerivAt g (g' t) t)
    (he : ∀ t, f' t = g' t) (t0 t : ℝ) : f t = f t0 + (g t - g t0) := by
  have h : ∀ t, HasDerivAt (fun t => f t - g t) 0 t := fun t => ((hf t).sub (hg t)).congr_deriv (by rw [he]; ring)
  have := is_const_of_deriv_eq_zero (fun t => (h t).differentiableAt) (fun t => (h t).deriv) t t0
  linarith

/-- values at the end of a step of an acceleration of degree five -/
theorem exact6 {p : Polynomial ℝ} {x v : ℝ → ℝ} (hP : Path x v (polyD p 0)) (hp : p.natDegree ≤ 5) (t0 h : ℝ) :
    polyD p 2 (t0 + h) = polyD p 2 t0 + polyD p 3 t0 * h + polyD p 4 t0 * h ^ 2 / 2 + polyD p 5 t0 * h ^ 3 / 6 ∧
    polyD p 1 (t0 + h) = polyD p 1 t0 + polyD p 2 t0 * h + polyD p 3 t0 * h ^ 2 / 2 + polyD p 4 t0 * h ^ 3 / 6 +
      polyD p 5 t0 * h ^ 4 / 24 ∧
    polyD p 0 (t0 + h) = polyD p 0 t0 + polyD p 1 t0 * h + polyD p 2 t0 * h ^ 2 / 2 + polyD p 3 t0 * h ^ 3 / 6 +
      polyD p 4 t0 * h ^ 4 / 24 + polyD p 5 t0 * h ^ 5 / 120 ∧
    v (t0 + h) = v t0 + polyD p 0 t0 * h + polyD p 1 t0 * h ^ 2 / 2 + polyD p 2 t0 * h ^ 3 / 6 +
      polyD p 3 t0 * h ^ 4 / 24 + polyD p 4 t0 * h ^ 5 / 120 + polyD p 5 t0 * h ^ 6 / 720 ∧
    x (t0 + h) = x t0 + v t0 * h + polyD p 0 t0 * h ^ 2 / 2 + polyD p 1 t0 * h ^ 3 / 6 + polyD p 2 t0 * h ^ 4 / 24 +
      polyD p 3 t0 * h ^ 5 / 120 + polyD p 4 t0 * h ^ 6 / 720 + polyD p 5 t0 * h ^ 7 / 5040 := by
  have pw : ∀ (c : ℝ) (m : ℕ) (t : ℝ), HasDerivAt (fun t : ℝ => c * (t - t0) ^ (m + 1)) (c * (m + 1) * (t - t0) ^ m) t := by
    intro c m t
    have := (((hasDerivAt_id t).sub_const t0).fun_pow (m + 1)).const_mul c
    refine this.congr_deriv ?_
    simp only [id, Nat.add_sub_cancel]
    push_cast
    ring
  have e5 : ∀ t, polyD p 5 t = polyD p 5 t0 := by
    intro t
    have := const_of (hasDerivAt_polyD p 5) (fun t => hasDerivAt_const t (0 : ℝ))
      (fun t => polyD_large (by omega) t) t0 t
    simpa using this
  have e4 : ∀ t, polyD p 4 t = polyD p 4 t0 + polyD p 5 t0 * (t - t0) := by
    intro t
    have := const_of (hasDerivAt_polyD p 4) (fun t => pw (polyD p 5 t0) 0 t)
      (fun t => by rw [e5 t]; simp) t0 t
    rw [this]; simp
  have e3 : ∀ t, polyD p 3 t = polyD p 3 t0 + (polyD p 4 t0 * (t - t0) + polyD p 5 t0 / 2 * (t - t0) ^ 2) := by
    intro t
    have := const_of (hasDerivAt_polyD p 3) (fun t => (pw (polyD p 4 t0) 0 t).add (pw (polyD p 5 t0 / 2) 1 t))
      (fun t => by rw [e4 t]; push_cast; ring) t0 t
    rw [this]; simp
  have e2 : ∀ t, polyD p 2 t = polyD p 2 t0 + (polyD p 3 t0 * (t - t0) + polyD p 4 t0 / 2 * (t - t0) ^ 2 +
      polyD p 5 t0 / 6 * (t - t0) ^ 3) := by
    intro t
    have := const_of (hasDerivAt_polyD p 2) (fun t => ((pw (polyD p 3 t0) 0 t).add (pw (polyD p 4 t0 / 2) 1 t)).add
      (pw (polyD p 5 t0 / 6) 2 t)) (fun t => by rw [e3 t]; push_cast; ring) t0 t
    rw [this]; simp
  have e1 : ∀ t, polyD p 1 t = polyD p 1 t0 + (polyD p 2 t0 * (t - t0) + polyD p 3 t0 / 2 * (t - t0) ^ 2 +
      polyD p 4 t0 / 6 * (t - t0) ^ 3 + polyD p 5 t0 / 24 * (t - t0) ^ 4) := by
    intro t
    have := const_of (hasDerivAt_polyD p 1) (fun t => (((pw (polyD p 2 t0) 0 t).add (pw (polyD p 3 t0 / 2) 1 t)).add
      (pw (polyD p 4 t0 / 6) 2 t)).add (pw (polyD p 5 t0 / 24) 3 t)) (fun t => by rw [e2 t]; push_cast; ring) t0 t
    rw [this]; simp
  have e0 : ∀ t, polyD p 0 t = polyD p 0 t0 + (polyD p 1 t0 * (t - t0) + polyD p 2 t0 / 2 * (t - t0) ^ 2 +
      polyD p 3 t0 / 6 * (t - t0) ^ 3 + polyD p 4 t0 / 24 * (t - t0) ^ 4 + polyD p 5 t0 / 120 * (t - t0) ^ 5) := by
    intro t
    have := const_of (hasDerivAt_polyD p 0) (fun t => ((((pw (polyD p 1 t0) 0 t).add (pw (polyD p 2 t0 / 2) 1 t)).add
      (pw (polyD p 3 t0 / 6) 2 t)).add (pw (polyD p 4 t0 / 24) 3 t)).add (pw (polyD p 5 t0 / 120) 4 t))
      (fun t => by rw [e1 t]; push_cast; ring) t0 t
    rw [this]; simp
  have ev : ∀ t, v t = v t0 + (polyD p 0 t0 * (t - t0) + polyD p 1 t0 / 2 * (t - t0) ^ 2 +
      polyD p 2 t0 / 6 * (t - t0) ^ 3 + polyD p 3 t0 / 24 * (t - t0) ^ 4 + polyD p 4 t0 / 120 * (t - t0) ^ 5 +
      polyD p 5 t0 / 720 * (t - t0) ^ 6) := by
    intro t
    have := const_of hP.vel (fun t => (((((pw (polyD p 0 t0) 0 t).add (pw (polyD p 1 t0 / 2) 1 t)).add
      (pw (polyD p 2 t0 / 6) 2 t)).add (pw (polyD p 3 t0 / 24) 3 t)).add (pw (polyD p 4 t0 / 120) 4 t)).add
      (pw (polyD p 5 t0 / 720) 5 t)) (fun t => by rw [e0 t]; push_cast; ring) t0 t
    rw [this]; simp
  have ex : ∀ t, x t = x t0 + (v t0 * (t - t0) + polyD p 0 t0 / 2 * (t - t0) ^ 2 + polyD p 1 t0 / 6 * (t - t0) ^ 3 +
      polyD p 2 t0 / 24 * (t - t0) ^ 4 + polyD p 3 t0 / 120 * (t - t0) ^ 5 + polyD p 4 t0 / 720 * (t - t0) ^ 6 +
      polyD p 5 t0 / 5040 * (t - t0) ^ 7) := by
    intro t
    have := const_of hP.pos (fun t => ((((((pw (v t0) 0 t).add (pw (polyD p 0 t0 / 2) 1 t)).add
      (pw (polyD p 1 t0 / 6) 2 t)).add (pw (polyD p 2 t0 / 24) 3 t)).add (pw (polyD p 3 t0 / 120) 4 t)).add
      (pw (polyD p 4 t0 / 720) 5 t)).add (pw (polyD p 5 t0 / 5040) 6 t)) (fun t => by rw [ev t]; push_cast; ring) t0 t
    rw [this]; simp
  have ht : t0 + h - t0 = h := by ring
  refine ⟨?_, ?_, ?_, ?_, ?_⟩
  · rw [e2 (t0 + h), ht]; ring
  · rw [e1 (t0 + h), ht]; ring
  · rw [e0 (t0 + h), ht]; ring
  · rw [ev (t0 + h), ht]; ring
  · rw [ex (t0 + h), ht]; ring

/-! ### The time-symmetric scheme -/

/-- what a round of the time-symmetric scheme leaves alone -/
theorem ts_round (G : ℝ → Fin N → Vec n ℝ × Vec n ℝ × Vec n ℝ) {m : ℤ} {t : ℝ} (s : Fin N → Body n) {i : Fin N}
    (hi : m - (s i).nlast = (s i).nstep) (hact : (s i).active = true) :
    let q := correct4TS m t (force (fun t _ _ => G t) t s i)
    m - q.nlast = q.nstep ∧ q.active = true ∧ q.tlast = (s i).tlast ∧ q.r0 = (s i).r0 ∧ q.v0 = (s i).v0 ∧
    q.a0 = (s i).a0 ∧ q.adot0 = (s i).adot0 ∧
    ∀ k, q.v k = vel4 (t - (s i).tlast) ((s i).v0 k) ((s i).a0 k) ((G t i).1 k) ((s i).adot0 k) ((G t i).2.1 k) ∧
      q.r k = pos4TS (t - (s i).tlast) ((s i).r0 k) ((s i).v0 k)
        (vel4 (t - (s i).tlast) ((s i).v0 k) ((s i).a0 k) ((G t i).1 k) ((s i).adot0 k) ((G t i).2.1 k))
        ((s i).a0 k) ((G t i).1 k) := by
  intro q
  have hq : q = correct4TS m t { s i with
      a := (G t i).1
      adot := (G t i).2.1
      a2dot := (G t i).2.2
      a3dot := fun _ => 0 } := by
    simp only [q, force, hact, if_true]
  rw [hq]
  simp only [correct4TS, if_pos hi, hact, true_and]
  refine ⟨hi, fun k => ?_⟩
  simp only [vel4, pos4TS]
  constructor <;> ring

theorem ts_rounds (G : ℝ → Fin N → Vec n ℝ × Vec n ℝ × Vec n ℝ) {m : ℤ} {t : ℝ} {i : Fin N} (k : Fin n) :
    ∀ (npec : ℕ) (s : Fin N → Body n), m - (s i).nlast = (s i).nstep → (s i).active = true →
    (pec correct4TS (fun t _ _ => G t) m t (npec + 1) s i).v k =
      vel4 (t - (s i).tlast) ((s i).v0 k) ((s i).a0 k) ((G t i).1 k) ((s i).adot0 k) ((G t i).2.1 k) ∧
    (pec correct4TS (fun t _ _ => G t) m t (npec + 1) s i).r k =
      pos4TS (t - (s i).tlast) ((s i).r0 k) ((s i).v0 k)
        (vel4 (t - (s i).tlast) ((s i).v0 k) ((s i).a0 k) ((G t i).1 k) ((s i).adot0 k) ((G t i).2.1 k))
        ((s i).a0 k) ((G t i).1 k) := by
  intro npec
  induction npec with
  | zero =>
    intro s hi hact
    obtain ⟨-, -, -, -, -, -, -, h⟩ := ts_round G (t := t) s hi hact
    exact h k
  | succ npec ih =>
    intro s hi hact
    obtain ⟨h1, h2, h3, h4, h5, h6, h7, -⟩ := ts_round G (t := t) s hi hact
    have := ih (fun i => correct4TS m t (force (fun t _ _ => G t) t s i)) h1 h2
    rw [h3, h4, h5, h6, h7] at this
    exact this

theorem turn4TS (G : ℝ → Fin N → Vec n ℝ × Vec n ℝ × Vec n ℝ) (npec : ℕ) {m : ℤ} {t : ℝ} {s : Fin N → Body n} {i : Fin N}
    (hi : m - (s i).nlast = (s i).nstep) (k : Fin n) :
    (turn advance4 correct4TS (npec + 1) (fun t _ _ => G t) m t s i).v k =
      vel4 (t - (s i).tlast) ((s i).v0 k) ((s i).a0 k) ((G t i).1 k) ((s i).adot0 k) ((G t i).2.1 k) ∧
    (turn advance4 correct4TS (npec + 1) (fun t _ _ => G t) m t s i).r k =
      pos4TS (t - (s i).tlast) ((s i).r0 k) ((s i).v0 k)
        (vel4 (t - (s i).tlast) ((s i).v0 k) ((s i).a0 k) ((G t i).1 k) ((s i).adot0 k) ((G t i).2.1 k))
        ((s i).a0 k) ((G t i).1 k) :=
  ts_rounds G k npec (fun i => advance4 m t (s i)) hi (by simp [advance4, hi])

/-! ### Derivatives at start-up -/

section
variable {dr dv da dj : ℝ → Vec n ℝ} {t sm : ℝ}

theorem dot_comm' (x y : Vec n ℝ) : dot x y = dot y x := Finset.sum_congr rfl fun _ _ => mul_comm _ _

theorem hasDerivAt_invd (hr : ∀ k, HasDerivAt (fun τ => dr τ k) (dv t k) t) (hpos : 0 < dot (dr t) (dr t) + sm) :
    HasDerivAt (fun τ => invd sm (dr τ)) (-(afac sm (dr t) (dv t) * invd sm (dr t))) t := by
  have h1 := ((hasDerivAt_dot hr hr).add_const sm).fun_inv hpos.ne'
  have hp : 0 < (dot (dr t) (dr t) + sm)⁻¹ := inv_pos.mpr hpos
  have h2 := h1.sqrt hp.ne'
  have e : (fun τ => invd sm (dr τ)) = fun τ => √((dot (dr τ) (dr τ) + sm)⁻¹) := by
    funext τ; simp [invd]
  rw [e]
  refine h2.congr_deriv ?_
  have e2 : invd sm (dr t) = √((dot (dr t) (dr t) + sm)⁻¹) := by simp [invd]
  rw [e2, dot_comm' (dr t) (dv t)]
  have hs : √((dot (dr t) (dr t) + sm)⁻¹) ≠ 0 := (Real.sqrt_pos.mpr hp).ne'
  have hq : √((dot (dr t) (dr t) + sm)⁻¹) ^ 2 = (dot (dr t) (dr t) + sm)⁻¹ := Real.sq_sqrt hp.le
  simp only [afac]
  generalize √((dot (dr t) (dr t) + sm)⁻¹) = q at *
  have hd := hpos.ne'
  have hq' : q ^ 2 * (dot (dr t) (dr t) + sm) = 1 := by rw [hq]; field_simp
  field_simp
  linear_combination (2 * dot (dv t) (dr t)) * hq'

theorem invd_sq (hpos : 0 < dot (dr t) (dr t) + sm) : 1 / (dot (dr t) (dr t) + sm) = invd sm (dr t) ^ 2 := by
  rw [invd, Real.sq_sqrt (by positivity)]

/-- the jerk of a pair is the derivative of its acceleration -/
theorem hasDerivAt_pairA (m : ℝ) (hr : ∀ k, HasDerivAt (fun τ => dr τ k) (dv t k) t)
    (hpos : 0 < dot (dr t) (dr t) + sm) (k : Fin n) :
    HasDerivAt (fun τ => pairA sm m (dr τ) k) (pairJ sm m (dr t) (dv t) k) t := by
  have h1 := ((hr k).const_mul m).mul ((hasDerivAt_invd hr hpos).fun_pow 3)
  refine h1.congr_deriv ?_
  simp only [pairJ, afac, invd_sq hpos]
  norm_num
  ring

theorem hasDerivAt_afac (hr : ∀ k, HasDerivAt (fun τ => dr τ k) (dv t k) t)
    (hv : ∀ k, HasDerivAt (fun τ => dv τ k) (da t k) t) (hpos : 0 < dot (dr t) (dr t) + sm) :
    HasDerivAt (fun τ => afac sm (dr τ) (dv τ))
      (bfac sm (dr t) (dv t) (da t) - 3 * afac sm (dr t) (dv t) ^ 2) t := by
  have h1 := ((hasDerivAt_dot hr hr).add_const sm).fun_inv hpos.ne'
  have h2 := (hasDerivAt_dot hv hr).mul h1
  have e : (fun τ => afac sm (dr τ) (dv τ)) = fun τ => dot (dv τ) (dr τ) * (dot (dr τ) (dr τ) + sm)⁻¹ := by
    funext τ; simp [afac]
  rw [e]
  refine h2.congr_deriv ?_
  simp only [bfac, afac, dot_comm' (dr t) (dv t)]
  have hd := hpos.ne'
  field_simp
  ring

/-- the second derivative of a pair is the derivative of its jerk -/
theorem hasDerivAt_pairJ (m : ℝ) (hr : ∀ k, HasDerivAt (fun τ => dr τ k) (dv t k) t)
    (hv : ∀ k, HasDerivAt (fun τ => dv τ k) (da t k) t) (hpos : 0 < dot (dr t) (dr t) + sm) (k : Fin n) :
    HasDerivAt (fun τ => pairJ sm m (dr τ) (dv τ) k) (pairA2 sm m (dr t) (dv t) (da t) k) t := by
  have hI := hasDerivAt_invd hr hpos
  have h1 := ((hI.fun_pow 3).const_mul m).mul (((hv k)).sub
    (((((hasDerivAt_dot hv hr).mul hI).const_mul 3).mul hI).mul (hr k)))
  refine h1.congr_deriv ?_
  simp only [pairA2, pairJ, pairA, bfac, afac, invd_sq hpos]
  norm_num
  ring

theorem hasDerivAt_bfac (hr : ∀ k, HasDerivAt (fun τ => dr τ k) (dv t k) t)
    (hv : ∀ k, HasDerivAt (fun τ => dv τ k) (da t k) t) (ha : ∀ k, HasDerivAt (fun τ => da τ k) (dj t k) t)
    (hpos : 0 < dot (dr t) (dr t) + sm) :
    HasDerivAt (fun τ => bfac sm (dr τ) (dv τ) (da τ))
      (3 * dot (dv t) (da t) * (1 / (dot (dr t) (dr t) + sm)) + dot (dj t) (dr t) * (1 / (dot (dr t) (dr t) + sm)) -
        2 * afac sm (dr t) (dv t) * (bfac sm (dr t) (dv t) (da t) - afac sm (dr t) (dv t) ^ 2) +
        2 * afac sm (dr t) (dv t) * (bfac sm (dr t) (dv t) (da t) - 3 * afac sm (dr t) (dv t) ^ 2)) t := by
  have h1 := ((hasDerivAt_dot hr hr).add_const sm).fun_inv hpos.ne'
  have hA := hasDerivAt_afac hr hv hpos
  have h2 := (((hasDerivAt_dot hv hv).mul h1).add (hA.mul hA)).add ((hasDerivAt_dot ha hr).mul h1)
  have e : (fun τ => bfac sm (dr τ) (dv τ) (da τ)) = fun τ => dot (dv τ) (dv τ) * (dot (dr τ) (dr τ) + sm)⁻¹ +
      afac sm (dr τ) (dv τ) * afac sm (dr τ) (dv τ) + dot (da τ) (dr τ) * (dot (dr τ) (dr τ) + sm)⁻¹ := by
    funext τ; simp [bfac]
  rw [e]
  refine h2.congr_deriv ?_
  simp only [bfac, afac, dot_comm' (dr t) (dv t), dot_comm' (da t) (dv t)]
  have hd := hpos.ne'
  field_simp
  ring

/-- the third derivative of a pair is the derivative of its second -/
theorem hasDerivAt_pairA2 (m : ℝ) (hr : ∀ k, HasDerivAt (fun τ => dr τ k) (dv t k) t)
    (hv : ∀ k, HasDerivAt (fun τ => dv τ k) (da t k) t) (ha : ∀ k, HasDerivAt (fun τ => da τ k) (dj t k) t)
    (hpos : 0 < dot (dr t) (dr t) + sm) (k : Fin n) :
    HasDerivAt (fun τ => pairA2 sm m (dr τ) (dv τ) (da τ) k)
      (pairA3 sm m (dr t) (dv t) (da t) (dj t) k) t := by
  have hI := hasDerivAt_invd hr hpos
  have h1 := ((hasDerivAt_dot hr hr).add_const sm).fun_inv hpos.ne'
  have hA := hasDerivAt_afac hr hv hpos
  have hB := hasDerivAt_bfac hr hv ha hpos
  have hJ := hasDerivAt_pairJ m hr hv hpos k
  have hP := hasDerivAt_pairA m hr hpos k
  have h2 := (((((ha k).const_mul m).mul h1).mul hI).sub ((hA.const_mul 6).mul hJ)).sub ((hB.const_mul 3).mul hP)
  have e : (fun τ => pairA2 sm m (dr τ) (dv τ) (da τ) k) = fun τ => m * da τ k * (dot (dr τ) (dr τ) + sm)⁻¹ * invd sm (dr τ) -
      6 * afac sm (dr τ) (dv τ) * pairJ sm m (dr τ) (dv τ) k -
      3 * bfac sm (dr τ) (dv τ) (da τ) * pairA sm m (dr τ) k := by
    funext τ; simp [pairA2]
  rw [e]
  refine h2.congr_deriv ?_
  simp only [pairA3, cfac, pairA2]
  have e1 : (dot (dr t) (dr t) + sm)⁻¹ = 1 / (dot (dr t) (dr t) + sm) := by simp
  have e2 : -(dot (dv t) (dr t) + dot (dr t) (dv t)) / (dot (dr t) (dr t) + sm) ^ 2 =
      -(2 * afac sm (dr t) (dv t) * (1 / (dot (dr t) (dr t) + sm))) := by
    simp only [afac, dot_comm' (dr t) (dv t)]
    have hd := hpos.ne'
    field_simp
    ring
  simp only [e1, e2, dot_comm' (dr t) (dj t), Pi.mul_apply]
  generalize bfac sm (dr t) (dv t) (da t) = B
  generalize afac sm (dr t) (dv t) = A
  ring

end

end Gandalf.Hermite

namespace Gandalf.Hermite

variable {n N : ℕ}

/-- values at the end of a step of a cubic acceleration -/
theorem exact4 {p : Polynomial ℝ} {x v : ℝ → ℝ} (hP : Path x v (polyD p 0)) (hp : p.natDegree ≤ 3) (t0 h : ℝ) :
    polyD p 1 (t0 + h) = polyD p 1 t0 + polyD p 2 t0 * h + polyD p 3 t0 * h ^ 2 / 2 ∧
    polyD p 0 (t0 + h) = polyD p 0 t0 + polyD p 1 t0 * h + polyD p 2 t0 * h ^ 2 / 2 + polyD p 3 t0 * h ^ 3 / 6 ∧
    v (t0 + h) = v t0 + polyD p 0 t0 * h + polyD p 1 t0 * h ^ 2 / 2 + polyD p 2 t0 * h ^ 3 / 6 +
      polyD p 3 t0 * h ^ 4 / 24 ∧
    x (t0 + h) = x t0 + v t0 * h + polyD p 0 t0 * h ^ 2 / 2 + polyD p 1 t0 * h ^ 3 / 6 + polyD p 2 t0 * h ^ 4 / 24 +
      polyD p 3 t0 * h ^ 5 / 120 := by
  have h4 := polyD_large (show p.natDegree < 4 by omega)
  have h5 := polyD_large (show p.natDegree < 5 by omega)
  obtain ⟨-, b, c, d, e⟩ := exact6 hP (by omega : p.natDegree ≤ 5) t0 h
  rw [h4, h5] at b c d e
  refine ⟨?_, ?_, ?_, ?_⟩
  · rw [b]; ring
  · rw [c]; ring
  · rw [d]; ring
  · rw [e]; ring

end Gandalf.Hermite
