import Verif.Model.StarGas
import Verif.Spec.StarGas
import Verif.Proof.StarForces
import Verif.Proof.MultipoleDeriv
import Mathlib.Data.List.Perm.Basic

/-! # Sums of the gravity of gas on a star -/

set_option autoImplicit false
set_option linter.unusedSectionVars false

namespace Gandalf.StarGas

open Stars KD Gravity

variable {n : ℕ}

/-- the correction of one particle -/
noncomputable def corr (ew : Option (ℝ → Vec n ℝ → Vec n ℝ × ℝ)) (d : Domain n ℝ) (s g : Star n) : Vec n ℝ × ℝ :=
  match ew with
  | none => (fun _ => 0, 0)
  | some f => f g.m (sep d s.r g.r)

theorem ewald_eq (ew : Option (ℝ → Vec n ℝ → Vec n ℝ × ℝ)) (d : Domain n ℝ) (s g : Star n) :
    ewald ew d s g = add s (corr ew d s g).2 (corr ew d s g).1 fun _ => 0 := by
  cases ew with
  | none => simp [ewald, corr, add]
  | some f => rfl

theorem add_add (s : Star n) (g g' : ℝ) (a a' j j' : Fin n → ℝ) :
    add (add s g a j) g' a' j' = add s (g + g') (fun k => a k + a' k) fun k => j k + j' k := by
  simp [add, add_assoc]

theorem foldl_add {step : Star n → ℕ → Star n} {G : Star n → ℕ → ℝ} {A J : Star n → ℕ → Fin n → ℝ}
    (hs : ∀ s j, step s j = add s (G s j) (A s j) (J s j))
    (hG : ∀ s j g a b, G (add s g a b) j = G s j) (hA : ∀ s j g a b, A (add s g a b) j = A s j)
    (hJ : ∀ s j g a b, J (add s g a b) j = J s j) (l : List ℕ) (s : Star n) :
    l.foldl step s = add s (l.map (G s)).sum (fun k => (l.map fun j => A s j k).sum)
      fun k => (l.map fun j => J s j k).sum := by
  induction l generalizing s with
  | nil => simp [add]
  | cons j l ih =>
    rw [List.foldl_cons, ih, hs, add_add]
    have e1 : G (add s (G s j) (A s j) (J s j)) = G s := funext fun i => hG s i _ _ _
    have e2 : A (add s (G s j) (A s j) (J s j)) = A s := funext fun i => hA s i _ _ _
    have e3 : J (add s (G s j) (A s j) (J s j)) = J s := funext fun i => hJ s i _ _ _
    simp only [e1, e2, e3, List.map_cons, List.sum_cons]

/-- the two loops as sums -/
theorem hydroForces_eq (herm : Bool) (K : Kernel) (d : Domain n ℝ) (ew : Option (ℝ → Vec n ℝ → Vec n ℝ × ℝ))
    (P : Parts n) (nb dr : List ℕ) (s : Star n) :
    hydroForces herm K d ew P nb dr s = add s
      ((nb.map fun j => smoothPot K 0 d s (gas P j) + (corr ew d s (gas P j)).2).sum +
        (dr.map fun j => directPot d s (gas P j) + (corr ew d s (gas P j)).2).sum)
      (fun k => (nb.map fun j => smoothAcc K 0 d s (gas P j) k + (corr ew d s (gas P j)).1 k).sum +
        (dr.map fun j => directAcc d s (gas P j) k + (corr ew d s (gas P j)).1 k).sum)
      fun k => (nb.map fun j => if herm then smoothJerk K 0 d s (gas P j) k else 0).sum +
        (dr.map fun j => if herm then directJerk d s (gas P j) k else 0).sum := by
  have c1 : ∀ s g a j (x : Star n), corr ew d (add s g a j) x = corr ew d s x := fun s g a j x => by
    cases ew <;> rfl
  have hn := foldl_add (step := near herm K d ew P)
    (G := fun s j => smoothPot K 0 d s (gas P j) + (corr ew d s (gas P j)).2)
    (A := fun s j k => smoothAcc K 0 d s (gas P j) k + (corr ew d s (gas P j)).1 k)
    (J := fun s j k => if herm then smoothJerk K 0 d s (gas P j) k else 0)
    (fun s j => by
      simp only [near, ewald_eq, add_add, c1, add_zero]
      congr 1
      funext k
      split <;> rfl)
    (fun s j g a b => by simp only [c1]; rfl) (fun s j g a b => by simp only [c1]; rfl) (fun s j g a b => rfl) nb s
  have hd := foldl_add (step := direct herm d ew P)
    (G := fun s j => directPot d s (gas P j) + (corr ew d s (gas P j)).2)
    (A := fun s j k => directAcc d s (gas P j) k + (corr ew d s (gas P j)).1 k)
    (J := fun s j k => if herm then directJerk d s (gas P j) k else 0)
    (fun s j => by
      simp only [direct, ewald_eq, add_add, c1, add_zero]
      congr 1
      funext k
      split <;> rfl)
    (fun s j g a b => by simp only [c1]; rfl) (fun s j g a b => by simp only [c1]; rfl) (fun s j g a b => rfl) dr
  rw [hydroForces, hd, hn, add_add]
  simp only [c1]
  rfl

theorem gdist_dot (x y : Vec n ℝ) : gdist 0 x y = √(dot (fun k => y k - x k) (fun k => y k - x k)) := by
  rw [gdist, add_zero, dot]
  congr 1
  exact Finset.sum_congr rfl fun k _ => by ring

theorem gdist_comm (x y : Vec n ℝ) : gdist 0 x y = gdist 0 y x := by
  rw [gdist, gdist]
  congr 2
  exact Finset.sum_congr rfl fun k _ => by ring

theorem sep_open' {d : Domain n ℝ} (hd : ∀ k, ¬Per d k) (x y : Vec n ℝ) : sep d x y = fun k => y k - x k :=
  funext fun k => sep_open hd x y k

theorem smoothAcc_soft (K : Kernel) {d : Domain n ℝ} (hd : ∀ k, ¬Per d k) (s g : Star n) (k : Fin n) :
    smoothAcc K 0 d s g k = softAcc K s.r s.h g.r g.h g.m k := by
  simp only [smoothAcc, paux, drmag, add_zero, sep_open' hd, softAcc, invhmean, ← gdist_dot]
  rw [← inv_div (s.h + g.h) 2]
  generalize (s.h + g.h) / 2 = q
  rw [← div_eq_mul_inv (gdist 0 s.r g.r) q]
  generalize K.wgrav (gdist 0 s.r g.r / q) = w
  ring

theorem smoothPot_soft (K : Kernel) {d : Domain n ℝ} (hd : ∀ k, ¬Per d k) (s g : Star n) :
    smoothPot K 0 d s g = Gravity.softPot K s.r s.h g.r g.h g.m := by
  simp only [smoothPot, drmag, add_zero, sep_open' hd, Gravity.softPot, invhmean, ← gdist_dot]
  rw [← inv_div (s.h + g.h) 2]
  generalize (s.h + g.h) / 2 = q
  rw [← div_eq_mul_inv (gdist 0 s.r g.r) q]
  ring

theorem directAcc_open {d : Domain n ℝ} (hd : ∀ k, ¬Per d k) (s g : Star n) (k : Fin n) :
    directAcc d s g k = g.m * (g.r k - s.r k) / gdist 0 s.r g.r ^ 3 := by
  simp only [directAcc, sep_open' hd, ← gdist_dot]
  ring

theorem directPot_open {d : Domain n ℝ} (hd : ∀ k, ¬Per d k) (s g : Star n) :
    directPot d s g = g.m / gdist 0 s.r g.r := by
  simp only [directPot, sep_open' hd, ← gdist_dot]
  ring

/-- beyond the kernels the softened force is Newton's -/
theorem soft_newton {K : Kernel} (hG : K.GravityOK) (hK : 0 < K.kernrange) {x y : Vec n ℝ} {hx hy : ℝ} (m : ℝ)
    (hh : 0 < hx + hy) (hfar : K.kernrange * (1 / 2 * (hx + hy)) ≤ gdist 0 x y) :
    softAcc K x hx y hy m = (fun k => m * (y k - x k) / gdist 0 x y ^ 3) ∧
      Gravity.softPot K x hx y hy m = m / gdist 0 x y := by
  have hρ : 0 < gdist 0 x y := lt_of_lt_of_le (by positivity) hfar
  have h2 : 0 < (hx + hy) / 2 := by linarith
  have h1 : K.kernrange ≤ gdist 0 x y / ((hx + hy) / 2) := by
    rw [le_div_iff₀ h2]
    linarith
  obtain ⟨e1, e2⟩ := hG.newton _ h1
  constructor
  · funext k
    rw [softAcc, e1]
    have := hρ.ne'
    have := h2.ne'
    field_simp
  · rw [Gravity.softPot, e2]
    have := hρ.ne'
    have := h2.ne'
    field_simp

/-- what the constant added to the squared distance does -/
theorem eps_inv {eps ρ ρe : ℝ} (he : 0 ≤ eps) (hρ : 0 < ρ) (hρe : 0 < ρe) (h : ρe ^ 2 = ρ ^ 2 + eps) :
    0 ≤ 1 / ρ - 1 / ρe ∧ 1 / ρ - 1 / ρe ≤ 1 / ρ ^ 3 * (eps / 2) := by
  have hle : ρ ≤ ρe := by
    by_contra hc
    push Not at hc
    nlinarith
  have e : 1 / ρ - 1 / ρe = eps / (ρ * ρe * (ρe + ρ)) := by
    have e1 : eps = (ρe - ρ) * (ρe + ρ) := by linear_combination -h
    rw [e1]
    field_simp
  rw [e]
  refine ⟨by positivity, ?_⟩
  have e2 : 1 / ρ ^ 3 * (eps / 2) = eps / (ρ * ρ * (ρ + ρ)) := by
    field_simp
    ring
  rw [e2]
  refine div_le_div_of_nonneg_left he (by positivity) ?_
  have h1 : ρ * ρ ≤ ρ * ρe := mul_le_mul_of_nonneg_left hle hρ.le
  exact mul_le_mul h1 (by linarith) (by linarith) (by positivity)

theorem gdist_eps {eps : ℝ} (he : 0 ≤ eps) (x y : Vec n ℝ) : gdist eps x y ^ 2 = gdist 0 x y ^ 2 + eps := by
  have h0 : 0 ≤ ∑ k, (x k - y k) ^ 2 := Finset.sum_nonneg fun k _ => sq_nonneg _
  rw [gdist, gdist, Real.sq_sqrt (by linarith), Real.sq_sqrt (by linarith)]
  ring

theorem gdist_eps_pos {eps : ℝ} (he : 0 ≤ eps) {x y : Vec n ℝ} (hρ : 0 < gdist 0 x y) : 0 < gdist eps x y := by
  rcases (Real.sqrt_nonneg (∑ k, (x k - y k) ^ 2 + eps)).eq_or_lt with h | h
  · have := gdist_eps he x y
    rw [show gdist eps x y = 0 from h.symm] at this
    nlinarith
  · exact h

theorem eps_pot {eps : ℝ} (he : 0 ≤ eps) {x y : Vec n ℝ} (hρ : 0 < gdist 0 x y) {m : ℝ} (hm : 0 ≤ m) :
    |m / gdist eps x y - m / gdist 0 x y| ≤ m / gdist 0 x y ^ 3 * (eps / 2) := by
  obtain ⟨h1, h2⟩ := eps_inv he hρ (gdist_eps_pos he hρ) (gdist_eps he x y)
  rw [abs_sub_comm, abs_of_nonneg]
  · have := mul_le_mul_of_nonneg_left h2 hm
    calc m / gdist 0 x y - m / gdist eps x y = m * (1 / gdist 0 x y - 1 / gdist eps x y) := by ring
      _ ≤ _ := this
      _ = _ := by ring
  · have := mul_nonneg hm h1
    calc (0 : ℝ) ≤ _ := this
      _ = _ := by ring

theorem comp_le (x y : Vec n ℝ) (k : Fin n) : |y k - x k| ≤ gdist 0 x y := by
  rw [gdist, add_zero]
  refine Real.abs_le_sqrt ?_
  rw [show (y k - x k) ^ 2 = (x k - y k) ^ 2 by ring]
  exact Finset.single_le_sum (f := fun k => (x k - y k) ^ 2) (fun k _ => sq_nonneg _) (Finset.mem_univ k)

theorem eps_acc {eps : ℝ} (he : 0 ≤ eps) {x y : Vec n ℝ} (hρ : 0 < gdist 0 x y) {m : ℝ} (hm : 0 ≤ m) (k : Fin n) :
    |m * (y k - x k) / gdist eps x y ^ 3 - m * (y k - x k) / gdist 0 x y ^ 3| ≤
      m / gdist 0 x y ^ 4 * (3 * eps / 2) := by
  obtain ⟨h1, h2⟩ := eps_inv he hρ (gdist_eps_pos he hρ) (gdist_eps he x y)
  have hb : 0 < 1 / gdist eps x y := by
    have := gdist_eps_pos he hρ
    positivity
  have hk := comp_le x y k
  have e : m * (y k - x k) / gdist eps x y ^ 3 - m * (y k - x k) / gdist 0 x y ^ 3 =
      -(m * (y k - x k) * ((1 / gdist 0 x y) ^ 3 - (1 / gdist eps x y) ^ 3)) := by ring
  rw [e, abs_neg, abs_mul, abs_mul, abs_of_nonneg hm]
  generalize hρ' : gdist 0 x y = ρ at *
  generalize 1 / gdist eps x y = b at *
  have ha : 0 < 1 / ρ := by positivity
  have h3 : 0 ≤ (1 / ρ) ^ 3 - b ^ 3 := by
    have : b ^ 3 ≤ (1 / ρ) ^ 3 := pow_le_pow_left₀ hb.le (by linarith) 3
    linarith
  have h4 : (1 / ρ) ^ 3 - b ^ 3 ≤ (1 / ρ ^ 3 * (eps / 2)) * (3 * (1 / ρ) ^ 2) := by
    have e1 : (1 / ρ) ^ 3 - b ^ 3 = (1 / ρ - b) * ((1 / ρ) ^ 2 + 1 / ρ * b + b ^ 2) := by ring
    rw [e1]
    refine mul_le_mul h2 ?_ (by positivity) (by positivity)
    nlinarith
  rw [abs_of_nonneg h3]
  calc m * |y k - x k| * ((1 / ρ) ^ 3 - b ^ 3) ≤ m * ρ * ((1 / ρ ^ 3 * (eps / 2)) * (3 * (1 / ρ) ^ 2)) :=
        mul_le_mul (mul_le_mul_of_nonneg_left hk hm) h4 h3 (by positivity)
    _ = _ := by
        have := hρ.ne'
        field_simp

theorem findLists_mono {T : Tree n} {P : Parts n} {K : ℝ} {rs : Vec n ℝ} {hs : ℝ} {Ntot pfuel fuel : ℕ}
    {L : Tree.GravLists} : ∀ {t t' M : ℕ}, t ≤ t' → findLists T P K rs hs Ntot pfuel fuel t M = some L →
    findLists T P K rs hs Ntot pfuel fuel t' M = some L
  | 0, _, _, _, h => by simp [findLists] at h
  | t + 1, 0, _, h, _ => by omega
  | t + 1, t' + 1, M, h, h1 => by
    rw [findLists] at h1 ⊢
    cases e : T.starGravityWalk P K rs hs Ntot Ntot M pfuel fuel with
    | done L' => rw [e] at h1; exact h1
    | stuck => rw [e] at h1; exact h1
    | fail =>
      rw [e] at h1
      exact findLists_mono (by omega) h1

/-- the lists found come from one walk -/
theorem findLists_walk {T : Tree n} {P : Parts n} {K : ℝ} {rs : Vec n ℝ} {hs : ℝ} {Ntot pfuel fuel : ℕ}
    {L : Tree.GravLists} : ∀ {t M : ℕ}, findLists T P K rs hs Ntot pfuel fuel t M = some L →
    ∃ M', T.starGravityWalk P K rs hs Ntot Ntot M' pfuel fuel = .done L
  | 0, _, h => by simp [findLists] at h
  | t + 1, M, h => by
    rw [findLists] at h
    cases e : T.starGravityWalk P K rs hs Ntot Ntot M pfuel fuel with
    | done L' =>
      rw [e] at h
      exact ⟨M, by rw [e, Option.some.inj h]⟩
    | stuck => rw [e] at h; simp at h
    | fail =>
      rw [e] at h
      exact findLists_walk h

/-- the loop does not end if no room for cells is enough -/
theorem findLists_none {T : Tree n} {P : Parts n} {K : ℝ} {rs : Vec n ℝ} {hs : ℝ} {Ntot pfuel fuel : ℕ}
    (h : ∀ M, T.starGravityWalk P K rs hs Ntot Ntot M pfuel fuel = .fail) (t M : ℕ) :
    findLists T P K rs hs Ntot pfuel fuel t M = none := by
  induction t generalizing M with
  | zero => rfl
  | succ t ih => rw [findLists, h, ih]

/-- it ends once there is enough -/
theorem findLists_some {T : Tree n} {P : Parts n} {K : ℝ} {rs : Vec n ℝ} {hs : ℝ} {Ntot pfuel fuel C : ℕ}
    (h : ∀ M, C ≤ M → ∃ L, T.starGravityWalk P K rs hs Ntot Ntot M pfuel fuel = .done L)
    (hs' : ∀ M, T.starGravityWalk P K rs hs Ntot Ntot M pfuel fuel ≠ .stuck) (t M : ℕ) (hM : C ≤ M * 2 ^ t) :
    ∃ L, findLists T P K rs hs Ntot pfuel fuel (t + 1) M = some L := by
  induction t generalizing M with
  | zero =>
    obtain ⟨L, e⟩ := h M (by simpa using hM)
    exact ⟨L, by rw [findLists, e]⟩
  | succ t ih =>
    rw [findLists]
    cases e : T.starGravityWalk P K rs hs Ntot Ntot M pfuel fuel with
    | done L => exact ⟨L, rfl⟩
    | stuck => exact absurd e (hs' M)
    | fail => exact ih (2 * M) (by rw [pow_succ] at hM; linarith)

end Gandalf.StarGas
