import Verif.Spec.InnerMotion
import Verif.Proof.StarForces
import Mathlib.Tactic

/-!
# The inner motion of sub-systems: lemmas
-/

set_option autoImplicit false
set_option linter.unusedSectionVars false

namespace Gandalf.Inner

open Stars

variable {n N P : ℕ}

/-! ## `UpdateChildStars` -/

theorem sum_shift {m x : Fin N → ℝ} (X : ℝ) (hm : ∑ i, m i ≠ 0) :
    ∑ i, m i * (x i + (X - (∑ i, m i * x i) / ∑ i, m i)) = (∑ i, m i) * X := by
  simp only [mul_add, Finset.sum_add_distrib, ← Finset.sum_mul]
  field_simp
  ring

theorem centred_shift (c : Fin N → Child n) (R V A : Vec n ℝ) (hm : ∑ i, (c i).m ≠ 0) :
    CentredOn (fun i => shift R V A (mean c (·.r)) (mean c (·.v)) (mean c (·.a)) (c i)) R V A := by
  intro k
  simp only [shift, mean]
  exact ⟨sum_shift _ hm, sum_shift _ hm, sum_shift _ hm⟩

theorem settle_top (f : Child n → Child n) (x : Node n) : (settle f x).top = f x.top := by
  cases x <;> simp [settle, Node.top]

theorem Massed.pos {x : Node n} (h : Massed x) : 0 < x.top.m := by
  induction h with
  | star b hb => exact hb
  | sys b N c hN hm _ ih =>
    simp only [Node.top]
    rw [hm]
    haveI : Nonempty (Fin N) := ⟨⟨0, hN⟩⟩
    exact Finset.sum_pos (fun i _ => ih i) Finset.univ_nonempty

theorem Massed.total {b : Child n} {N : ℕ} {c : Fin N → Node n} (h : Massed (.sys b N c)) :
    ∑ i, (c i).top.m ≠ 0 := by
  have h0 := h.pos
  cases h with
  | sys _ _ _ hN hm hc => simp only [Node.top] at h0; rw [hm] at h0; exact h0.ne'

/-- functions that keep the mass -/
def Keeps (f : Child n → Child n) : Prop := ∀ b, (f b).m = b.m

theorem keeps_shift (R V A R' V' A' : Vec n ℝ) : Keeps (shift R V A R' V' A') := fun _ => rfl

theorem settle_coherent {x : Node n} (h : Massed x) (f : Child n → Child n) : Coherent (settle f x) := by
  induction h generalizing f with
  | star b hb => exact .star _
  | sys b N c hN hm hc ih =>
    have ht : ∑ i, (c i).top.m ≠ 0 := (Massed.sys b N c hN hm hc).total
    rw [settle]
    refine .sys _ _ _ ?_ fun i => ih i _
    simp only [settle_top]
    exact centred_shift (fun i => (c i).top) _ _ _ ht

theorem settle_alike (x : Node n) (f : Child n → Child n) (hf : Keeps f) : Alike x (settle f x) := by
  induction x generalizing f with
  | star b => exact .star _ _ (hf b).symm
  | sys b N c ih =>
    rw [settle]
    refine .sys _ _ _ _ _ (hf b).symm ?_ ?_ fun i => ih i _ (keeps_shift _ _ _ _ _ _)
    · intro i j k; simp only [settle_top, shift]; ring
    · intro i j k; simp only [settle_top, shift]; ring

theorem settle_massed {x : Node n} (h : Massed x) (f : Child n → Child n) (hf : Keeps f) : Massed (settle f x) := by
  induction h generalizing f with
  | star b hb => exact .star _ (by rw [hf]; exact hb)
  | sys b N c hN hm hc ih =>
    rw [settle]
    refine .sys _ _ _ hN ?_ fun i => ih i _ (keeps_shift _ _ _ _ _ _)
    simp only [settle_top, hf b, hm]
    rfl

theorem coherent_sum {x : Node n} (hm : Massed x) (h : Coherent x) (k : Fin n) :
    starSum (fun b => b.m * b.r k) x = x.top.m * x.top.r k ∧
    starSum (fun b => b.m * b.v k) x = x.top.m * x.top.v k := by
  induction hm with
  | star b hb => simp [starSum, Node.top]
  | sys b N c hN hm hc ih =>
    cases h with
    | sys _ _ _ hce hco =>
      simp only [starSum, Node.top]
      rw [hm, ← (hce k).1, ← (hce k).2.1]
      exact ⟨Finset.sum_congr rfl fun i _ => (ih i (hco i)).1, Finset.sum_congr rfl fun i _ => (ih i (hco i)).2⟩

/-! ## The fields a sub-step leaves alone -/

theorem pulled_keep (d : Domain n ℝ) (p : Fin P → Pert n) (t : ℝ) (c : Fin N → Child n) (i : Fin N) :
    (pulled d p t c i).m = (c i).m ∧ (pulled d p t c i).r = (c i).r ∧ (pulled d p t c i).v = (c i).v ∧
    (pulled d p t c i).a0 = (c i).a0 ∧ (pulled d p t c i).tlast = (c i).tlast ∧
    (pulled d p t c i).ended = (c i).ended ∧ (pulled d p t c i).active = (c i).active ∧
    (pulled d p t c i).r0 = (c i).r0 ∧ (pulled d p t c i).v0 = (c i).v0 ∧ (pulled d p t c i).h = (c i).h := by
  simp only [pulled, pertForces]
  split_ifs <;> simp

theorem direct_keep (d : Domain n ℝ) (c : Fin N → Child n) (i : Fin N) :
    (direct d c i).m = (c i).m ∧ (direct d c i).r = (c i).r ∧ (direct d c i).v = (c i).v ∧
    (direct d c i).a0 = (c i).a0 ∧ (direct d c i).tlast = (c i).tlast ∧
    (direct d c i).ended = (c i).ended ∧ (direct d c i).active = (c i).active ∧
    (direct d c i).r0 = (c i).r0 ∧ (direct d c i).v0 = (c i).v0 ∧ (direct d c i).gpePert = (c i).gpePert ∧
    (direct d c i).h = (c i).h := by
  simp only [direct, directForces, sumForces]
  split_ifs <;> simp

theorem direct_a (d : Domain n ℝ) (c : Fin N → Child n) (i : Fin N) (h : (c i).active = true) (k : Fin n) :
    (direct d c i).a k = (c i).a k + ∑ j, if i = j then 0 else directAcc d (c i).toStar (c j).toStar k := by
  simp [direct, directForces, sumForces, h]

theorem direct_gpot (d : Domain n ℝ) (c : Fin N → Child n) (i : Fin N) (h : (c i).active = true) :
    (direct d c i).gpot = (c i).gpot + ∑ j, if i = j then 0 else directPot d (c i).toStar (c j).toStar := by
  simp [direct, directForces, sumForces, h]

theorem pulled_a (d : Domain n ℝ) (p : Fin P → Pert n) (t : ℝ) (c : Fin N → Child n) (i : Fin N)
    (h : (c i).active = true) (k : Fin n) :
    (pulled d p t c i).a k = (c i).a k + ∑ j, (p j).m * sep d (c i).r (pertR (copyPert (p j)) t) k *
      invd (sep d (c i).r (pertR (copyPert (p j)) t)) ^ 3 := by
  simp [pulled, pertForces, h]

theorem pulled_gpot (d : Domain n ℝ) (p : Fin P → Pert n) (t : ℝ) (c : Fin N → Child n) (i : Fin N)
    (h : (c i).active = true) :
    (pulled d p t c i).gpot = (c i).gpot + ∑ j, (p j).m * invd (sep d (c i).r (pertR (copyPert (p j)) t)) := by
  simp [pulled, pertForces, h]

theorem pulled_gpePert (d : Domain n ℝ) (p : Fin P → Pert n) (t : ℝ) (c : Fin N → Child n) (i : Fin N)
    (h : (c i).active = true) :
    (pulled d p t c i).gpePert = (c i).gpePert +
      (c i).m * ∑ j, (p j).m * invd (sep d (c i).r (pertR (copyPert (p j)) t)) := by
  simp only [pulled, pertForces, h, if_true, Finset.mul_sum]
  congr 1
  exact Finset.sum_congr rfl fun j _ => by ring

/-! ## The start -/

theorem start_sum {d : Domain n ℝ} (hd : ∀ k, Per d k → 0 ≤ d.half k) (S : Sys n) (p : Fin P → Pert n) (t : ℝ)
    (c : Fin N → Child n) (hS : S.m = ∑ i, (c i).m) (hm : S.m ≠ 0) (k : Fin n) :
    ∑ i, (c i).m * (start d S p t c i).a k = S.m * S.a0 k := by
  have hact : ∀ i, (pulled d p t (cleared c) i).active = true := fun i => by
    rw [(pulled_keep d p t (cleared c) i).2.2.2.2.2.2.1]; rfl
  have hr : ∀ i, (pulled d p t (cleared c) i).r = (c i).r := fun i => by
    rw [(pulled_keep d p t (cleared c) i).2.1]; rfl
  have hmm : ∀ i, (pulled d p t (cleared c) i).m = (c i).m := fun i => by
    rw [(pulled_keep d p t (cleared c) i).1]; rfl
  have h0 := sum_force hd (fun i => (c i).m) (fun i => (c i).r) (fun _ _ => newton) (fun _ _ _ => rfl) k
  have e : ∀ i, (start d S p t c i).a k = (pulled d p t (cleared c) i).a k +
      (∑ j, if i = j then 0 else (c j).m * (newton (√(dot (sep d (c i).r (c j).r) (sep d (c i).r (c j).r))) *
        sep d (c i).r (c j).r k)) + aext d S p t c k := by
    intro i
    simp only [start, withExt]
    rw [direct_a _ _ _ (hact i)]
    simp only [directAcc_eq, hr, hmm]
  simp only [e, mul_add, Finset.sum_add_distrib]
  rw [h0, ← Finset.sum_mul, ← hS]
  simp only [aext]
  rw [mul_div_cancel₀ _ hm]
  ring

theorem start_keep (d : Domain n ℝ) (S : Sys n) (p : Fin P → Pert n) (t : ℝ) (c : Fin N → Child n) (i : Fin N) :
    (start d S p t c i).m = (c i).m ∧ (start d S p t c i).r = (c i).r ∧ (start d S p t c i).v = (c i).v ∧
    (start d S p t c i).tlast = (c i).tlast ∧ (start d S p t c i).ended = (c i).ended ∧
    (start d S p t c i).r0 = (c i).r0 ∧ (start d S p t c i).v0 = (c i).v0 ∧
    (start d S p t c i).a0 = (start d S p t c i).a ∧ (start d S p t c i).h = (c i).h := by
  have h1 := direct_keep d (pulled d p t (cleared c)) i
  have h2 := pulled_keep d p t (cleared c) i
  simp only [start, withExt]
  refine ⟨h1.1.trans h2.1, h1.2.1.trans h2.2.1, h1.2.2.1.trans h2.2.2.1, h1.2.2.2.2.1.trans h2.2.2.2.2.1,
    h1.2.2.2.2.2.1.trans h2.2.2.2.2.2.1, h1.2.2.2.2.2.2.2.1.trans h2.2.2.2.2.2.2.2.1,
    h1.2.2.2.2.2.2.2.2.1.trans h2.2.2.2.2.2.2.2.2.1, trivial, h1.2.2.2.2.2.2.2.2.2.2.trans h2.2.2.2.2.2.2.2.2.2⟩

/-! ## One sub-step -/

theorem endStep_keep (t : ℝ) (c : Child n) : (endStep t c).r = c.r ∧ (endStep t c).v = c.v ∧ (endStep t c).a = c.a ∧
    (endStep t c).m = c.m ∧ (endStep t c).gpot = c.gpot ∧ (endStep t c).gpePert = c.gpePert ∧
    (endStep t c).h = c.h := by
  simp only [endStep]; split_ifs <;> simp

theorem substep_m (d : Domain n ℝ) (S : Sys n) (p : Fin P → Pert n) (ae : Vec n ℝ) (ge t : ℝ) (c : Fin N → Child n)
    (i : Fin N) : (substep d S p ae ge t c i).m = (c i).m ∧ (substep d S p ae ge t c i).h = (c i).h := by
  simp only [substep]
  rw [(endStep_keep t _).2.2.2.1, (endStep_keep t _).2.2.2.2.2.2]
  simp only [update, shift, correct, forced]
  rw [(pulled_keep d p t _ i).1, (direct_keep d _ i).1, (pulled_keep d p t _ i).2.2.2.2.2.2.2.2.2,
    (direct_keep d _ i).2.2.2.2.2.2.2.2.2.2]
  exact ⟨rfl, rfl⟩

theorem substep_clock (d : Domain n ℝ) (S : Sys n) (p : Fin P → Pert n) (ae : Vec n ℝ) (ge t : ℝ) (c : Fin N → Child n)
    (i : Fin N) (h : (c i).ended = false) : (substep d S p ae ge t c i).tlast = (c i).tlast ∧
    (substep d S p ae ge t c i).ended = false ∧ (substep d S p ae ge t c i).r0 = (substep d S p ae ge t c i).r ∧
    (substep d S p ae ge t c i).v0 = (substep d S p ae ge t c i).v ∧
    (substep d S p ae ge t c i).a0 = (substep d S p ae ge t c i).a := by
  have h1 : (forced d p ae ge t (fun i => advance t (c i)) i).tlast = (c i).tlast := by
    simp only [forced]
    rw [(pulled_keep d p t _ i).2.2.2.2.1, (direct_keep d _ i).2.2.2.2.1]
    rfl
  have h2 : (forced d p ae ge t (fun i => advance t (c i)) i).ended = false := by
    simp only [forced]
    rw [(pulled_keep d p t _ i).2.2.2.2.2.1, (direct_keep d _ i).2.2.2.2.2.1]
    exact h
  simp only [substep, endStep, update, shift, correct, h2, Bool.false_eq_true, if_false]
  exact ⟨h1, trivial, trivial, trivial, trivial⟩

theorem substep_centred (d : Domain n ℝ) (S : Sys n) (p : Fin P → Pert n) (ae : Vec n ℝ) (ge t : ℝ)
    (c : Fin N → Child n) (hm : ∑ i, (c i).m ≠ 0) : CentredOn (substep d S p ae ge t c) S.r S.v S.a := by
  set g : Fin N → Child n := fun i => correct t (forced d p ae ge t (fun i => advance t (c i)) i) with hg
  have hgm : ∀ i, (g i).m = (c i).m := fun i => by
    simp only [hg, correct, forced]
    rw [(pulled_keep d p t _ i).1, (direct_keep d _ i).1]
    rfl
  have h := centred_shift g S.r S.v S.a (by simpa only [hgm] using hm)
  intro k
  have hk := h k
  have e : ∀ i, substep d S p ae ge t c i = endStep t (update S.r S.v S.a g i) := fun i => rfl
  simp only [e, (endStep_keep t _).1, (endStep_keep t _).2.1, (endStep_keep t _).2.2.1, (endStep_keep t _).2.2.2.1]
  exact hk

/-- separations do not see a common displacement -/
theorem sep_shift (d : Domain n ℝ) (x y s : Vec n ℝ) : sep d (fun k => x k + s k) (fun k => y k + s k) = sep d x y := by
  simp only [sep]
  congr 2
  funext k
  ring

theorem dot_sub (x y : Vec n ℝ) : dot (fun k => y k - x k) (fun k => y k - x k) = ∑ l, (y l - x l) ^ 2 := by
  simp only [dot]
  exact Finset.sum_congr rfl fun l _ => by ring

theorem directAcc_open {d : Domain n ℝ} (hd : OpenBox d) (s s' : Star n) (k : Fin n) :
    directAcc d s s' k = s'.m * (s'.r k - s.r k) / √(∑ l, (s'.r l - s.r l) ^ 2) ^ 3 := by
  have e : sep d s.r s'.r = fun k => s'.r k - s.r k := funext fun k => sep_open hd _ _ k
  rw [directAcc, e, dot_sub]
  simp only [one_div, inv_pow]
  rw [div_eq_mul_inv]

theorem directPot_open {d : Domain n ℝ} (hd : OpenBox d) (s s' : Star n) :
    directPot d s s' = s'.m / √(∑ l, (s'.r l - s.r l) ^ 2) := by
  have e : sep d s.r s'.r = fun k => s'.r k - s.r k := funext fun k => sep_open hd _ _ k
  rw [directPot, e, dot_sub]
  simp only [one_div]
  rw [div_eq_mul_inv]

theorem grav_shift (m : Fin N → ℝ) (r : Fin N → Vec n ℝ) (s : Vec n ℝ) :
    grav m (fun i k => r i k + s k) = grav m r := by
  funext i k
  simp only [grav]
  refine Finset.sum_congr rfl fun j _ => ?_
  have : ∀ l, r j l + s l - (r i l + s l) = r j l - r i l := fun l => by ring
  simp only [this]

theorem pairEnergy_shift (m : Fin N → ℝ) (r : Fin N → Vec n ℝ) (s : Vec n ℝ) :
    pairEnergy m (fun i k => r i k + s k) = pairEnergy m r := by
  simp only [pairEnergy]
  have : ∀ i j l, r j l + s l - (r i l + s l) = r j l - r i l := fun i j l => by ring
  simp only [this]

/-- where the drift takes a member -/
noncomputable def drift (t : ℝ) (c : Child n) : Vec n ℝ := fun k =>
  c.r0 k + c.v0 k * (t - c.tlast) + 1 / 2 * c.a0 k * (t - c.tlast) * (t - c.tlast)

/-- the displacement to the centre of mass of the system -/
noncomputable def off (S : Sys n) (t : ℝ) (c : Fin N → Child n) : Vec n ℝ := fun k =>
  S.r k - (∑ i, (c i).m * drift t (c i) k) / ∑ i, (c i).m

theorem forced_r (d : Domain n ℝ) (p : Fin P → Pert n) (ae : Vec n ℝ) (ge t : ℝ) (c : Fin N → Child n) (i : Fin N) :
    (forced d p ae ge t c i).r = (c i).r ∧ (forced d p ae ge t c i).m = (c i).m ∧
    (forced d p ae ge t c i).v = (c i).v ∧ (forced d p ae ge t c i).a0 = (c i).a0 ∧
    (forced d p ae ge t c i).tlast = (c i).tlast := by
  simp only [forced]
  rw [(pulled_keep d p t _ i).2.1, (direct_keep d _ i).2.1, (pulled_keep d p t _ i).1, (direct_keep d _ i).1,
    (pulled_keep d p t _ i).2.2.1, (direct_keep d _ i).2.2.1, (pulled_keep d p t _ i).2.2.2.1, (direct_keep d _ i).2.2.2.1,
    (pulled_keep d p t _ i).2.2.2.2.1, (direct_keep d _ i).2.2.2.2.1]
  exact ⟨rfl, rfl, rfl, rfl, rfl⟩

theorem substep_r (d : Domain n ℝ) (S : Sys n) (p : Fin P → Pert n) (ae : Vec n ℝ) (ge t : ℝ) (c : Fin N → Child n)
    (i : Fin N) : (substep d S p ae ge t c i).r = fun k => drift t (c i) k + off S t c k := by
  funext k
  simp only [substep]
  rw [(endStep_keep t _).1]
  simp only [update, shift, correct, mean, off]
  simp only [(forced_r d p ae ge t _ _).1, (forced_r d p ae ge t _ _).2.1]
  rfl

theorem forced_a {d : Domain n ℝ} (hd : OpenBox d) (p : Fin 0 → Pert n) (ae : Vec n ℝ) (ge t : ℝ) (c : Fin N → Child n)
    (i : Fin N) (k : Fin n) :
    (forced d p ae ge t c i).a k = ae k + grav (fun i => (c i).m) (fun i => (c i).r) i k := by
  simp only [forced]
  rw [pulled_a _ _ _ _ _ (by rw [(direct_keep d _ i).2.2.2.2.2.2.1]; rfl), Finset.univ_eq_empty, Finset.sum_empty, add_zero,
    direct_a _ _ _ rfl]
  simp only [directAcc_open hd]
  rfl

theorem forced_pot {d : Domain n ℝ} (hd : OpenBox d) (p : Fin P → Pert n) (ae : Vec n ℝ) (ge t : ℝ)
    (c : Fin N → Child n) (i : Fin N) : ∃ x,
    (forced d p ae ge t c i).gpot = ge + (∑ j, if i = j then 0 else (c j).m / √(∑ l, ((c j).r l - (c i).r l) ^ 2)) + x ∧
    (forced d p ae ge t c i).gpePert = (c i).m * ge + (c i).m * x := by
  refine ⟨∑ j, (p j).m * invd (sep d (c i).r (pertR (copyPert (p j)) t)), ?_, ?_⟩
  · simp only [forced]
    rw [pulled_gpot _ _ _ _ _ (by rw [(direct_keep d _ i).2.2.2.2.2.2.1]; rfl), direct_gpot _ _ _ rfl,
      (direct_keep d _ i).2.1]
    simp only [directPot_open hd]
    rfl
  · simp only [forced]
    rw [pulled_gpePert _ _ _ _ _ (by rw [(direct_keep d _ i).2.2.2.2.2.2.1]; rfl), (direct_keep d _ i).2.1,
      (direct_keep d _ i).1, (direct_keep d _ i).2.2.2.2.2.2.2.2.2.1]
    rfl

theorem substep_rel {d : Domain n ℝ} (hd : OpenBox d) (S : Sys n) (p : Fin 0 → Pert n) (ae : Vec n ℝ) (ge t t0 : ℝ)
    (c : Fin N → Child n) (h0 : ∀ i, (c i).tlast = t0) : RelStep (t - t0) c (substep d S p ae ge t c) := by
  intro i j k
  have ha : ∀ i, (substep d S p ae ge t c i).a k = ae k + grav (fun i => (c i).m) (fun i => drift t (c i)) i k +
      (S.a k - mean (fun i => correct t (forced d p ae ge t (fun i => advance t (c i)) i)) (·.a) k) := by
    intro i
    simp only [substep]
    rw [(endStep_keep t _).2.2.1]
    simp only [update, shift]
    congr 1
    simp only [correct]
    rw [forced_a hd]
    rfl
  have hv : ∀ i, (substep d S p ae ge t c i).v k = (c i).v0 k + (c i).a0 k * (t - t0) +
      1 / 2 * (ae k + grav (fun i => (c i).m) (fun i => drift t (c i)) i k - (c i).a0 k) * (t - t0) +
      (S.v k - mean (fun i => correct t (forced d p ae ge t (fun i => advance t (c i)) i)) (·.v) k) := by
    intro i
    simp only [substep]
    rw [(endStep_keep t _).2.1]
    simp only [update, shift]
    congr 1
    simp only [correct]
    rw [forced_a hd, (forced_r d p ae ge t _ i).2.2.1, (forced_r d p ae ge t _ i).2.2.2.1,
      (forced_r d p ae ge t _ i).2.2.2.2]
    have hdr : (fun i => drift t (c i)) = fun i k => (c i).r0 k + (c i).v0 k * (t - t0) +
        1 / 2 * (c i).a0 k * (t - t0) * (t - t0) := funext fun i => funext fun k => by simp only [drift, h0]
    rw [hdr]
    simp only [advance, h0]
  refine ⟨?_, ?_, ?_⟩
  · rw [substep_r, substep_r]
    simp only [drift, h0]
    ring
  · rw [hv, hv, ha, ha]
    ring
  · rw [ha, ha]
    have : (fun i => (substep d S p ae ge t c i).r) = fun i k => drift t (c i) k + off S t c k :=
      funext fun i => substep_r d S p ae ge t c i
    rw [this, grav_shift]
    ring

theorem substep_energy {d : Domain n ℝ} (hd : OpenBox d) (S : Sys n) (p : Fin P → Pert n) (ae : Vec n ℝ) (ge t : ℝ)
    (c : Fin N → Child n) (hm : ∀ i, (c i).m ≠ 0) :
    gpeInternal ge (substep d S p ae ge t c) =
      pairEnergy (fun i => (c i).m) (fun i => (substep d S p ae ge t c i).r) - 1 / 2 * (∑ i, (c i).m) * ge := by
  have hr : (fun i => (substep d S p ae ge t c i).r) = fun i k => drift t (c i) k + off S t c k :=
      funext fun i => substep_r d S p ae ge t c i
  rw [hr, pairEnergy_shift]
  have key : ∀ i, 1 / 2 * (substep d S p ae ge t c i).m * ((substep d S p ae ge t c i).gpot -
      (substep d S p ae ge t c i).gpePert / (substep d S p ae ge t c i).m - ge) =
      1 / 2 * ((c i).m * ∑ j, if i = j then 0 else (c j).m / √(∑ l, (drift t (c j) l - drift t (c i) l) ^ 2)) -
        1 / 2 * (c i).m * ge := by
    intro i
    rw [(substep_m d S p ae ge t c i).1]
    obtain ⟨x, h1, h2⟩ := forced_pot hd p ae ge t (fun i => advance t (c i)) i
    have e1 : (substep d S p ae ge t c i).gpot = (forced d p ae ge t (fun i => advance t (c i)) i).gpot := by
      simp only [substep]
      rw [(endStep_keep t _).2.2.2.2.1]
      rfl
    have e2 : (substep d S p ae ge t c i).gpePert = (forced d p ae ge t (fun i => advance t (c i)) i).gpePert := by
      simp only [substep]
      rw [(endStep_keep t _).2.2.2.2.2.1]
      rfl
    rw [e1, e2, h1, h2]
    have hmi := hm i
    change 1 / 2 * (c i).m * (ge + (∑ j, if i = j then 0 else (c j).m / √(∑ l, (drift t (c j) l - drift t (c i) l) ^ 2)) + x -
      ((c i).m * ge + (c i).m * x) / (c i).m - ge) = _
    have : ((c i).m * ge + (c i).m * x) / (c i).m = ge + x := by field_simp
    rw [this]
    ring
  simp only [gpeInternal, key, pairEnergy]
  rw [Finset.sum_sub_distrib, ← Finset.mul_sum, ← Finset.sum_mul, ← Finset.mul_sum]

/-! ## The loop -/

theorem foldl_min_le (l : List (Fin N)) (f : Fin N → ℝ) (x : ℝ) :
    l.foldl (fun dt i => min dt (f i)) x ≤ x ∧ (∀ i ∈ l, l.foldl (fun dt i => min dt (f i)) x ≤ f i) ∧
    (∀ y, y ≤ x → (∀ i ∈ l, y ≤ f i) → y ≤ l.foldl (fun dt i => min dt (f i)) x) := by
  induction l generalizing x with
  | nil => simp
  | cons a l ih =>
    obtain ⟨h1, h2, h3⟩ := ih (min x (f a))
    refine ⟨h1.trans (min_le_left _ _), ?_, ?_⟩
    · intro i hi
      rcases List.mem_cons.1 hi with rfl | hi
      · exact h1.trans (min_le_right _ _)
      · exact h2 i hi
    · intro y hy hyl
      exact h3 y (le_min hy (hyl a (by simp))) fun i hi => hyl i (List.mem_cons_of_mem _ hi)

theorem dtOf_le (big tend : ℝ) (ts : Child n → ℝ) (s : State n N) :
    dtOf big tend ts s ≤ big ∧ dtOf big tend ts s ≤ 1.00000000000001 * (tend - s.t) ∧
    ∀ i, dtOf big tend ts s ≤ ts (s.c i) := by
  obtain ⟨h1, h2, _⟩ := foldl_min_le (List.finRange N) (fun i => ts (s.c i)) (min big (1.00000000000001 * (tend - s.t)))
  exact ⟨h1.trans (min_le_left _ _), h1.trans (min_le_right _ _), fun i => h2 i (List.mem_finRange i)⟩

theorem le_dtOf {big tend y : ℝ} {ts : Child n → ℝ} {s : State n N} (h1 : y ≤ big)
    (h2 : y ≤ 1.00000000000001 * (tend - s.t)) (h3 : ∀ i, y ≤ ts (s.c i)) : y ≤ dtOf big tend ts s :=
  (foldl_min_le (List.finRange N) (fun i => ts (s.c i)) _).2.2 y (le_min h1 h2) fun i _ => h3 i

variable (d : Domain n ℝ) (S : Sys n) (p : Fin P → Pert n) (ae : Vec n ℝ) (ge big tend : ℝ) (ts : Child n → ℝ)

theorem loop_spec (fuel : ℕ) (s s' : State n N) (h : loop d S p ae ge big tend ts fuel s = some s') :
    ∃ k, k < fuel ∧ (∀ j, 0 < j → j ≤ k → ((round d S p ae ge big tend ts)^[j] s).t < tend) ∧
      s' = (round d S p ae ge big tend ts)^[k + 1] s ∧ tend ≤ s'.t := by
  induction fuel generalizing s with
  | zero => simp [loop] at h
  | succ fuel ih =>
    rw [loop] at h
    by_cases hlt : (round d S p ae ge big tend ts s).t < tend
    · rw [if_pos hlt] at h
      obtain ⟨k, hk, hj, he, ht⟩ := ih _ h
      refine ⟨k + 1, by omega, ?_, by rw [he, Function.iterate_succ_apply, Function.iterate_succ_apply,
        Function.iterate_succ_apply], ht⟩
      intro j h0 hjk
      obtain ⟨j, rfl⟩ : ∃ i, j = i + 1 := ⟨j - 1, by omega⟩
      rw [Function.iterate_succ_apply]
      by_cases hj0 : j = 0
      · subst hj0; exact hlt
      · exact hj j (by omega) (by omega)
    · rw [if_neg hlt] at h
      refine ⟨0, by omega, fun j h0 hj => by omega, ?_, ?_⟩
      · simpa using (Option.some.inj h).symm
      · rw [← Option.some.inj h]; exact not_lt.1 hlt

theorem loop_ends (fuel : ℕ) (s : State n N) (k : ℕ) (hk : k < fuel)
    (h : tend ≤ ((round d S p ae ge big tend ts)^[k + 1] s).t) :
    ∃ s', loop d S p ae ge big tend ts fuel s = some s' := by
  induction fuel generalizing s k with
  | zero => omega
  | succ fuel ih =>
    rw [loop]
    by_cases hlt : (round d S p ae ge big tend ts s).t < tend
    · rw [if_pos hlt]
      cases k with
      | zero => exact absurd h (not_le.2 hlt)
      | succ k => exact ih _ k (by omega) (by rwa [← Function.iterate_succ_apply])
    · rw [if_neg hlt]; exact ⟨_, rfl⟩

end Gandalf.Inner

namespace Gandalf.Inner

open Stars

variable {n N P : ℕ}

theorem foldl_min_pos (l : List (Fin N)) (f : Fin N → ℝ) (x : ℝ) (hx : 0 < x) (hf : ∀ i, 0 < f i) :
    0 < l.foldl (fun dt i => min dt (f i)) x := by
  induction l generalizing x with
  | nil => exact hx
  | cons a l ih => exact ih _ (lt_min hx (hf a))

theorem dtOf_pos {big tend : ℝ} {ts : Child n → ℝ} {s : State n N} (h1 : 0 < big) (h2 : s.t < tend)
    (h3 : ∀ i, 0 < ts (s.c i)) : 0 < dtOf big tend ts s :=
  foldl_min_pos _ _ _ (lt_min h1 (mul_pos (by norm_num) (sub_pos.2 h2))) h3

section
variable (d : Domain n ℝ) (S : Sys n) (p : Fin P → Pert n) (ae : Vec n ℝ) (ge big tend : ℝ) (ts : Child n → ℝ)

theorem iter_m (k : ℕ) (s : State n N) (i : Fin N) :
    (((round d S p ae ge big tend ts)^[k] s).c i).m = (s.c i).m ∧
    (((round d S p ae ge big tend ts)^[k] s).c i).h = (s.c i).h := by
  induction k with
  | zero => simp
  | succ k ih =>
    rw [Function.iterate_succ_apply']
    exact ⟨(substep_m d S p ae ge _ _ i).1.trans ih.1, (substep_m d S p ae ge _ _ i).2.trans ih.2⟩

theorem iter_clock (k : ℕ) (s : State n N) (i : Fin N) (h : (s.c i).ended = false) :
    (((round d S p ae ge big tend ts)^[k] s).c i).tlast = (s.c i).tlast ∧
    (((round d S p ae ge big tend ts)^[k] s).c i).ended = false := by
  induction k with
  | zero => simp [h]
  | succ k ih =>
    rw [Function.iterate_succ_apply']
    have := substep_clock d S p ae ge
      (((round d S p ae ge big tend ts)^[k] s).t + dtOf big tend ts ((round d S p ae ge big tend ts)^[k] s))
      ((round d S p ae ge big tend ts)^[k] s).c i ih.2
    exact ⟨this.1.trans ih.1, this.2.1⟩

theorem iter_mono (hts : ∀ x, 0 ≤ ts x) (hbig : 0 ≤ big) (k : ℕ) (s : State n N)
    (h : ∀ j, j ≤ k → ((round d S p ae ge big tend ts)^[j] s).t ≤ tend) :
    s.t ≤ ((round d S p ae ge big tend ts)^[k] s).t := by
  induction k with
  | zero => simp
  | succ k ih =>
    rw [Function.iterate_succ_apply']
    have h1 := ih fun j hj => h j (by omega)
    have h2 : 0 ≤ dtOf big tend ts ((round d S p ae ge big tend ts)^[k] s) :=
      le_dtOf hbig (mul_nonneg (by norm_num) (sub_nonneg.2 (h k (by omega)))) fun i => hts _
    change s.t ≤ ((round d S p ae ge big tend ts)^[k] s).t + _
    linarith

theorem iter_progress {τ : ℝ} (hτ : 0 < τ) (hbig : τ ≤ big) (s : State n N) (hlt : s.t < tend)
    (hts : ∀ k i, τ ≤ ts (((round d S p ae ge big tend ts)^[k] s).c i)) (k : ℕ) :
    (∃ j, j < k ∧ tend ≤ ((round d S p ae ge big tend ts)^[j + 1] s).t) ∨
      s.t + k * τ ≤ ((round d S p ae ge big tend ts)^[k] s).t := by
  induction k with
  | zero => right; simp
  | succ k ih =>
    rcases ih with ⟨j, hj, h⟩ | h
    · exact .inl ⟨j, by omega, h⟩
    · set s' := (round d S p ae ge big tend ts)^[k] s with hs'
      have e : ((round d S p ae ge big tend ts)^[k + 1] s) = round d S p ae ge big tend ts s' :=
        Function.iterate_succ_apply' _ _ _
      by_cases hc : τ ≤ 1.00000000000001 * (tend - s'.t)
      · right
        have : τ ≤ dtOf big tend ts s' := le_dtOf hbig hc (hts k)
        rw [e]
        change _ ≤ s'.t + dtOf big tend ts s'
        push_cast
        linarith
      · by_cases ht : tend ≤ s'.t
        · rcases Nat.eq_zero_or_pos k with h0 | h0
          · subst h0
            exact absurd ht (not_le.2 hlt)
          · exact .inl ⟨k - 1, by omega, by rw [Nat.sub_add_cancel h0]; exact ht⟩
        · left
          refine ⟨k, by omega, ?_⟩
          rw [e]
          change _ ≤ s'.t + dtOf big tend ts s'
          have h2 : 1.00000000000001 * (tend - s'.t) ≤ dtOf big tend ts s' :=
            le_dtOf (by linarith) le_rfl fun i => by linarith [hts k i]
          have : (0:ℝ) ≤ 0.00000000000001 * (tend - s'.t) := mul_nonneg (by norm_num) (by linarith)
          linarith
end

/-! ## A binary -/

theorem start_rel {d : Domain n ℝ} (hd : OpenBox d) (S : Sys n) (p : Fin 0 → Pert n) (t : ℝ) (c : Fin N → Child n)
    (i : Fin N) (k : Fin n) : (start d S p t c i).a k =
      grav (fun i => (c i).m) (fun i => (c i).r) i k + aext d S p t c k := by
  have hact : ∀ i, (pulled d p t (cleared c) i).active = true := fun i => by
    rw [(pulled_keep d p t (cleared c) i).2.2.2.2.2.2.1]; rfl
  have hr : ∀ i, (pulled d p t (cleared c) i).r = (c i).r := fun i => by
    rw [(pulled_keep d p t (cleared c) i).2.1]; rfl
  have hmm : ∀ i, (pulled d p t (cleared c) i).m = (c i).m := fun i => by
    rw [(pulled_keep d p t (cleared c) i).1]; rfl
  simp only [start, withExt]
  rw [direct_a _ _ _ (hact i), pulled_a _ _ _ _ _ rfl, Finset.univ_eq_empty, Finset.sum_empty]
  simp only [directAcc_open hd, hr, hmm, cleared, grav]
  ring

theorem aext_none (d : Domain n ℝ) (S : Sys n) (p : Fin 0 → Pert n) (t : ℝ) (c : Fin N → Child n) (h : S.m ≠ 0)
    (k : Fin n) : aext d S p t c k = S.a0 k := by
  have : ∀ i, (pulled d p t (cleared c) i).a k = 0 := fun i => by
    rw [pulled_a _ _ _ _ _ rfl, Finset.univ_eq_empty, Finset.sum_empty]; simp [cleared]
  simp only [aext, this, mul_zero, Finset.sum_const_zero, sub_zero]
  field_simp

theorem gpotext_none (d : Domain n ℝ) (S : Sys n) (p : Fin 0 → Pert n) (t : ℝ) (c : Fin N → Child n) (h : S.m ≠ 0) :
    gpotext d S p t c = S.gpot := by
  have : ∀ i, (pulled d p t (cleared c) i).gpePert = 0 := fun i => by
    rw [pulled_gpePert _ _ _ _ _ rfl, Finset.univ_eq_empty, Finset.sum_empty]; simp [cleared]
  simp only [gpotext, this, Finset.sum_const_zero, sub_zero]
  field_simp

theorem grav_two (r : Fin 2 → Vec 1 ℝ) (h : 0 < r 1 0 - r 0 0) :
    grav (fun _ => 1) r 0 0 = 1 / (r 1 0 - r 0 0) ^ 2 ∧ grav (fun _ => 1) r 1 0 = -(1 / (r 1 0 - r 0 0) ^ 2) := by
  have e1 : √((r 1 0 - r 0 0) ^ 2) = r 1 0 - r 0 0 := Real.sqrt_sq h.le
  have e2 : √((r 0 0 - r 1 0) ^ 2) = r 1 0 - r 0 0 := by
    rw [show (r 0 0 - r 1 0) ^ 2 = (r 1 0 - r 0 0) ^ 2 by ring]; exact e1
  have e3 : r 0 0 - r 1 0 = -(r 1 0 - r 0 0) := by ring
  constructor
  · simp [grav, Fin.sum_univ_two]
    rw [e1]
    generalize r 1 0 - r 0 0 = x at *
    field_simp
  · simp [grav, Fin.sum_univ_two]
    rw [e2, e3]
    generalize r 1 0 - r 0 0 = x at *
    field_simp

theorem grav_two_diff (r : Fin 2 → Vec 1 ℝ) (h : 1 ≤ r 1 0 - r 0 0) :
    -2 ≤ grav (fun _ => 1) r 1 0 - grav (fun _ => 1) r 0 0 ∧
    grav (fun _ => 1) r 1 0 - grav (fun _ => 1) r 0 0 ≤ 0 := by
  obtain ⟨h0, h1⟩ := grav_two r (by linarith)
  rw [h0, h1]
  generalize r 1 0 - r 0 0 = x at *
  have hx : 1 ≤ x ^ 2 := one_le_pow₀ h
  have : 1 / x ^ 2 ≤ 1 := by rw [div_le_one (by positivity)]; exact hx
  have : 0 ≤ 1 / x ^ 2 := by positivity
  constructor <;> linarith

/-- two stars of mass one at distance one along a line, moving apart with velocity `W`; their centre of mass
moves with `V` -/
noncomputable def binary (h V W : ℝ) (i : Fin 2) : Child 1 where
  r := fun _ => if i = 0 then -1 / 2 else 1 / 2
  v := fun _ => V + if i = 0 then -W / 2 else W / 2
  a := fun _ => 0
  adot := fun _ => 0
  m := 1
  h := h
  gpot := 0
  active := true
  r0 := fun _ => if i = 0 then -1 / 2 else 1 / 2
  v0 := fun _ => V + if i = 0 then -W / 2 else W / 2
  a0 := fun _ => 0
  gpePert := 0
  tlast := 0
  ended := false

/-- the system of the two, free of other forces, at the time `tend` -/
noncomputable def binarySys (V gpot tend : ℝ) : Sys 1 where
  r := fun _ => V * tend
  v := fun _ => V
  a := fun _ => 0
  a0 := fun _ => 0
  m := 2
  gpot := gpot

theorem kdkStep_bounds {mult small big h : ℝ} (hm : 0 < mult) (hs : 0 < small) (hb : 0 < big) (hh : 0 < h)
    (c : Child n) (hc : c.h = h) : 0 < kdkStep mult small big c ∧ kdkStep mult small big c ≤ mult * √(h / small) := by
  have ha := Real.sqrt_nonneg (dot c.a c.a)
  rw [kdkStep, hc]
  refine ⟨lt_min (mul_pos hm (Real.sqrt_pos.2 (by positivity))) hb, (min_le_left _ _).trans ?_⟩
  refine mul_le_mul_of_nonneg_left (Real.sqrt_le_sqrt ?_) hm.le
  exact div_le_div_of_nonneg_left hh.le hs (by linarith)

theorem integrate_energy {d : Domain n ℝ} (hd : OpenBox d) (S : Sys n) (p : Fin P → Pert n) (big tstart tend : ℝ)
    (ts : Child n → ℝ) (fuel : ℕ) (c : Fin N → Child n) (hm : ∀ i, (c i).m ≠ 0) (s : State n N) (e : ℝ)
    (h : integrate d S p big tstart tend ts fuel c = some (s, e)) :
    e = pairEnergy (fun i => (c i).m) (fun i => (s.c i).r) - 1 / 2 * (∑ i, (c i).m) * gpotext d S p tstart c := by
  simp only [integrate, Option.map_eq_some_iff] at h
  obtain ⟨s1, hl, he⟩ := h
  obtain ⟨rfl, rfl⟩ := Prod.mk.inj he
  obtain ⟨k, _, _, he, _⟩ := loop_spec d S p _ _ big tend ts fuel _ s1 hl
  rw [Function.iterate_succ_apply'] at he
  set ge := gpotext d S p tstart c
  set s' := (round d S p (aext d S p tstart c) ge big tend ts)^[k] ⟨tstart, start d S p tstart c⟩ with hs'
  have hmm : ∀ i, (s'.c i).m = (c i).m := fun i =>
    (iter_m d S p _ _ big tend ts k _ i).1.trans (start_keep d S p tstart c i).1
  have hfun : (fun i => (s'.c i).m) = fun i => (c i).m := funext hmm
  have key := substep_energy hd S p (aext d S p tstart c) ge (s'.t + dtOf big tend ts s') s'.c
    (fun i => by rw [hmm]; exact hm i)
  rw [hfun] at key
  rw [he]
  exact key

end Gandalf.Inner
