import Verif.Spec.Sinks
import Verif.Proof.AccretionAll

/-!
# Search for new sinks
-/

set_option autoImplicit false

namespace Gandalf.Sinks

open Real

variable {n : ℕ}

theorem excluded_iff (prm : CPrm) (p : Gas n ℝ) (sk : Sink n ℝ) :
    excluded prm p sk = false ↔
      (prm.sink_radius * p.h + sk.radius) ^ 2 ≤ ∑ k, (p.r k - sk.star.r k) ^ 2 ∧
      -(∑ k, (p.r k - sk.star.r k) * (p.a k - sk.star.a k)) /
        (∑ k, (p.r k - sk.star.r k) ^ 2) ≤ p.rho ∧
      (0 < ∑ k, (p.r k - sk.star.r k) * (p.v k - sk.star.v k) →
        1 / (2 * Real.sqrt p.rho) ≤
          (∑ k, (p.r k - sk.star.r k) ^ 2) / ∑ k, (p.r k - sk.star.r k) * (p.v k - sk.star.v k)) := by
  have e : dot (fun k => p.r k - sk.star.r k) (fun k => p.r k - sk.star.r k) =
      ∑ k, (p.r k - sk.star.r k) ^ 2 := by
    unfold dot
    exact Finset.sum_congr rfl fun k _ => (sq _).symm
  have e2 : (1 / 2 : ℝ) / sqrt p.rho = 1 / (2 * sqrt p.rho) := by
    rw [div_div]
  simp only [excluded, e, e2, Bool.or_eq_false_iff, decide_eq_false_iff_not, not_lt, Bool.and_eq_false_iff]
  simp only [dot, gt_iff_lt, not_lt]
  constructor
  · rintro ⟨⟨h1, h2⟩, h3⟩
    refine ⟨h3, h2, fun h => ?_⟩
    rcases h1 with h1 | h1
    · exact h1
    · exact absurd h (not_lt.mpr h1)
  · rintro ⟨h3, h2, h1⟩
    refine ⟨⟨?_, h2⟩, h3⟩
    by_cases h : 0 < ∑ k, (p.r k - sk.star.r k) * (p.v k - sk.star.v k)
    · exact Or.inl (h1 h)
    · exact Or.inr (not_lt.mp h)

theorem eligible_iff (prm : CPrm) (N : ℕ) (sinks : List (Sink n ℝ)) (p : Gas n ℝ) :
    Eligible prm N sinks p ↔ p.dead = false ∧ p.potmin = true ∧ prm.rho_sink ≤ p.rho ∧ N % p.nstep = 0 ∧
      sinks.any (excluded prm p) = false := by
  rw [List.any_eq_false]
  constructor
  · intro h
    refine ⟨h.live, h.minimum, h.dense, h.due, fun sk hsk => ?_⟩
    rw [Bool.not_eq_true, excluded_iff]
    exact ⟨h.apart sk hsk, h.hill sk hsk, h.slow sk hsk⟩
  · rintro ⟨h1, h2, h3, h4, h5⟩
    have h6 : ∀ sk ∈ sinks, _ := fun sk hsk => (excluded_iff prm p sk).mp (by simpa using h5 sk hsk)
    exact ⟨h1, h2, h3, h4, fun sk hsk => (h6 sk hsk).1, fun sk hsk => (h6 sk hsk).2.1,
      fun sk hsk => (h6 sk hsk).2.2⟩

theorem candidate_eq (prm : CPrm) (N : ℕ) (sinks : List (Sink n ℝ)) (g : ℕ → Gas n ℝ) (c : Option ℕ × ℝ)
    (i : ℕ) : (Eligible prm N sinks (g i) ∧ c.2 < (g i).rho ∧
      candidate prm N sinks g c i = (some i, (g i).rho)) ∨
    ((Eligible prm N sinks (g i) → (g i).rho ≤ c.2) ∧ candidate prm N sinks g c i = c) := by
  simp only [candidate]
  by_cases h1 : (g i).dead = true
  · rw [if_pos h1]
    refine Or.inr ⟨fun h => ?_, rfl⟩
    have := h.live
    rw [h1] at this
    cases this
  rw [if_neg h1]
  by_cases h2 : (g i).potmin = true
  swap
  · rw [if_pos (by simpa using h2)]
    exact Or.inr ⟨fun h => absurd h.minimum h2, rfl⟩
  rw [if_neg (by simpa using h2)]
  by_cases h3 : (g i).rho < prm.rho_sink ∨ (g i).rho < c.2
  · rw [if_pos h3]
    refine Or.inr ⟨fun h => ?_, rfl⟩
    rcases h3 with h3 | h3
    · exact absurd h.dense (not_le.mpr h3)
    · exact h3.le
  rw [if_neg h3]
  push Not at h3
  by_cases h4 : N % (g i).nstep ≠ 0
  · rw [if_pos h4]
    exact Or.inr ⟨fun h => absurd h.due h4, rfl⟩
  rw [if_neg h4]
  push Not at h4
  by_cases h5 : sinks.any (excluded prm (g i)) = true
  · rw [if_pos h5]
    refine Or.inr ⟨fun h => ?_, rfl⟩
    have := ((eligible_iff ..).mp h).2.2.2.2
    rw [h5] at this
    cases this
  rw [if_neg h5]
  by_cases h6 : (g i).rho > c.2
  · rw [if_pos h6]
    refine Or.inl ⟨?_, h6, rfl⟩
    rw [eligible_iff]
    exact ⟨by simpa using h1, h2, h3.1, h4, by simpa using h5⟩
  · rw [if_neg h6]
    exact Or.inr ⟨fun _ => not_lt.mp h6, rfl⟩

/-- running choice over a prefix of the particles -/
theorem choose_fold (prm : CPrm) (N : ℕ) (sinks : List (Sink n ℝ)) (g : ℕ → Gas n ℝ) (m : ℕ) :
    let c := (List.range m).foldl (candidate prm N sinks g) (none, 0)
    (∀ j < m, Eligible prm N sinks (g j) → (g j).rho ≤ c.2) ∧ 0 ≤ c.2 ∧
    (c.1 = none → c.2 = 0) ∧
    ∀ i, c.1 = some i → i < m ∧ Eligible prm N sinks (g i) ∧ c.2 = (g i).rho ∧ 0 < (g i).rho ∧
      ∀ j < i, Eligible prm N sinks (g j) → (g j).rho < (g i).rho := by
  induction m with
  | zero =>
    refine ⟨fun j hj => by omega, le_rfl, fun _ => rfl, fun i h => ?_⟩
    simp at h
  | succ m ih =>
    obtain ⟨h1, h2, h3, h4⟩ := ih
    simp only [List.range_succ, List.foldl_append, List.foldl_cons, List.foldl_nil]
    set c := (List.range m).foldl (candidate prm N sinks g) (none, 0) with hc
    rcases candidate_eq prm N sinks g c m with ⟨e, hlt, hcd⟩ | ⟨e, hcd⟩
    · rw [hcd]
      refine ⟨fun j hj hel => ?_, by simp only; linarith, fun h => by (simp at h), fun i hi => ?_⟩
      · rcases Nat.lt_succ_iff_lt_or_eq.mp hj with h | h
        · simp only; linarith [h1 j h hel]
        · rw [h]
      · simp only [Option.some.injEq] at hi
        subst hi
        exact ⟨by omega, e, rfl, by linarith, fun j hj hel => by linarith [h1 j hj hel]⟩
    · rw [hcd]
      refine ⟨fun j hj hel => ?_, h2, h3, fun i hi => ?_⟩
      · rcases Nat.lt_succ_iff_lt_or_eq.mp hj with h | h
        · exact h1 j h hel
        · rw [h] at hel ⊢
          exact e hel
      · obtain ⟨a, b⟩ := h4 i hi
        exact ⟨by omega, b⟩

theorem choose_some {prm : CPrm} {N : ℕ} {s : SState n} {i : ℕ} (h : choose prm N s = some i) :
    i < s.Nhydro ∧ Eligible prm N s.sinks (s.gas i) ∧ 0 < (s.gas i).rho ∧
    (∀ j < s.Nhydro, Eligible prm N s.sinks (s.gas j) → (s.gas j).rho ≤ (s.gas i).rho) ∧
    ∀ j < i, Eligible prm N s.sinks (s.gas j) → (s.gas j).rho < (s.gas i).rho := by
  obtain ⟨h1, h2, h3, h4⟩ := choose_fold prm N s.sinks s.gas s.Nhydro
  obtain ⟨a, b, c, d, e⟩ := h4 i h
  exact ⟨a, b, d, fun j hj hel => c ▸ h1 j hj hel, e⟩

theorem choose_none {prm : CPrm} {N : ℕ} {s : SState n} (h : choose prm N s = none) :
    ∀ j < s.Nhydro, Eligible prm N s.sinks (s.gas j) → (s.gas j).rho ≤ 0 := by
  obtain ⟨h1, h2, h3, h4⟩ := choose_fold prm N s.sinks s.gas s.Nhydro
  intro j hj hel
  have := h1 j hj hel
  rw [h3 h] at this
  exact this

/-- one sink made out of particle `i` -/
noncomputable def made (prm : CPrm) (t : ℝ) (s : SState n) (i : ℕ) : SState n :=
  { s with
    gas := Function.update s.gas i (removed (s.gas i))
    sinks := s.sinks ++ [{ newSink prm t (s.gas i) with
      mmax := enclosed s.Nhydro (Function.update s.gas i (removed (s.gas i))) (newSink prm t (s.gas i)) }]
    Nstar := s.Nstar + 1 }

theorem create_eq (prm : CPrm) (t : ℝ) (s : SState n) (i : ℕ) :
    (¬(s.sinks.length = prm.Nsinkmax ∨ s.Nstar = prm.Nstarmax) ∧ create prm t s i = .done (made prm t s i)) ∨
    ((s.sinks.length = prm.Nsinkmax ∨ s.Nstar = prm.Nstarmax) ∧ create prm t s i = .error s) := by
  unfold create
  by_cases h : s.sinks.length = prm.Nsinkmax ∨ s.Nstar = prm.Nstarmax
  · rw [if_pos h]
    exact Or.inr ⟨h, rfl⟩
  · rw [if_neg h]
    exact Or.inl ⟨h, rfl⟩

/-- the states the loop runs through -/
inductive Steps (prm : CPrm) (N : ℕ) (t : ℝ) : SState n → SState n → Prop where
  | refl (s : SState n) : Steps prm N t s s
  | tail {s s' : SState n} (i : ℕ) : Steps prm N t s s' → choose prm N s' = some i →
      s'.sinks.length ≠ prm.Nsinkmax → s'.Nstar ≠ prm.Nstarmax → Steps prm N t s (made prm t s' i)

theorem Steps.head {prm : CPrm} {N : ℕ} {t : ℝ} {s s' : SState n} {i : ℕ} (hc : choose prm N s = some i)
    (h1 : s.sinks.length ≠ prm.Nsinkmax) (h2 : s.Nstar ≠ prm.Nstarmax)
    (h : Steps prm N t (made prm t s i) s') : Steps prm N t s s' := by
  induction h with
  | refl => exact .tail i (.refl s) hc h1 h2
  | tail j _ hc' h1' h2' ih => exact .tail j ih hc' h1' h2'

/-- number of live particles -/
def liveCount (s : SState n) : ℕ := (List.range s.Nhydro).countP fun i => !(s.gas i).dead

theorem countP_update (l : List ℕ) (hl : l.Nodup) (g : ℕ → Gas n ℝ) {i : ℕ} (hi : i ∈ l)
    (hd : (g i).dead = false) :
    l.countP (fun j => !(Function.update g i (removed (g i)) j).dead) + 1 = l.countP fun j => !(g j).dead := by
  induction l with
  | nil => cases hi
  | cons a l ih =>
    rw [List.nodup_cons] at hl
    rw [List.countP_cons, List.countP_cons]
    by_cases ha : a = i
    · subst ha
      have e : l.countP (fun j => !(Function.update g a (removed (g a)) j).dead) =
          l.countP fun j => !(g j).dead := by
        apply List.countP_congr
        intro j hj
        rw [Function.update_of_ne (fun e : j = a => hl.1 (e ▸ hj))]
      rw [e, Function.update_self, hd]
      simp [removed]
    · have hi' : i ∈ l := by
        rcases List.mem_cons.mp hi with h | h
        · exact absurd h.symm ha
        · exact h
      rw [Function.update_of_ne ha, ← ih hl.2 hi']
      omega

theorem liveCount_made {prm : CPrm} {N : ℕ} {t : ℝ} {s : SState n} {i : ℕ} (hc : choose prm N s = some i) :
    liveCount (made prm t s i) + 1 = liveCount s := by
  obtain ⟨h1, h2, -⟩ := choose_some hc
  exact countP_update _ List.nodup_range _ (List.mem_range.mpr h1) h2.live

theorem searchLoop_spec (prm : CPrm) (N : ℕ) (t : ℝ) : ∀ (fuel : ℕ) (s : SState n), liveCount s < fuel →
    (∃ s', searchLoop prm N t fuel s = .done s' ∧ Steps prm N t s s' ∧ choose prm N s' = none) ∨
    ∃ s' i, searchLoop prm N t fuel s = .error s' ∧ Steps prm N t s s' ∧ choose prm N s' = some i ∧
      (s'.sinks.length = prm.Nsinkmax ∨ s'.Nstar = prm.Nstarmax) := by
  intro fuel
  induction fuel with
  | zero => intro s h; omega
  | succ fuel ih =>
    intro s h
    simp only [searchLoop]
    cases hc : choose prm N s with
    | none => exact Or.inl ⟨s, rfl, .refl s, hc⟩
    | some i =>
      rcases create_eq prm t s i with ⟨hcap, e⟩ | ⟨hcap, e⟩
      · simp only [e]
        push Not at hcap
        have hlt : liveCount (made prm t s i) < fuel := by
          have := liveCount_made (t := t) hc
          omega
        rcases ih (made prm t s i) hlt with ⟨s', a, b, c⟩ | ⟨s', j, a, b, c, d⟩
        · exact Or.inl ⟨s', a, .head hc hcap.1 hcap.2 b, c⟩
        · exact Or.inr ⟨s', j, a, .head hc hcap.1 hcap.2 b, c, d⟩
      · simp only [e]
        exact Or.inr ⟨s, i, rfl, .refl s, hc, hcap⟩

theorem sum_removed {M : Type*} [AddCommGroup M] [Module ℝ M] {N i : ℕ} (hi : i < N) (g : ℕ → Gas n ℝ)
    (f : Gas n ℝ → M) (hf : ∀ p, f (removed p) = f p) :
    ∑ j ∈ Finset.range N, (Function.update g i (removed (g i)) j).m •
      f (Function.update g i (removed (g i)) j) + (g i).m • f (g i) = ∑ j ∈ Finset.range N, (g j).m • f (g j) := by
  have e : ∀ j, f (Function.update g i (removed (g i)) j) = f (g j) := by
    intro j
    by_cases h : j = i
    · subst h
      rw [Function.update_self, hf]
    · rw [Function.update_of_ne h]
  simp only [e]
  have := sum_update hi g (removed (g i)) (fun j => f (g j))
  rw [this]
  have e0 : (removed (g i)).m = 0 := rfl
  rw [e0, zero_sub, neg_smul, neg_add_cancel_right]

/-- totals kept when a sink is made: all but the thermal energy -/
structure SameMechanics (N : ℕ) (g : ℕ → Gas n ℝ) (sinks : List (Sink n ℝ)) (g' : ℕ → Gas n ℝ)
    (sinks' : List (Sink n ℝ)) : Prop where
  mass : totalMass N g' sinks' = totalMass N g sinks
  moment : totalMoment N g' sinks' = totalMoment N g sinks
  momentum : totalMomentum N g' sinks' = totalMomentum N g sinks
  force : totalForce N g' sinks' = totalForce N g sinks
  angMom : totalAngMom N g' sinks' = totalAngMom N g sinks

theorem made_totals {prm : CPrm} {t : ℝ} {s : SState n} {i : ℕ} (hi : i < s.Nhydro) :
    SameMechanics s.Nhydro s.gas s.sinks (made prm t s i).gas (made prm t s i).sinks := by
  refine ⟨?_, ?_, ?_, ?_, ?_⟩
  · have h := sum_removed hi s.gas (fun _ => (1 : ℝ)) (fun _ => rfl)
    simp only [smul_eq_mul, mul_one] at h
    simp only [totalMass, made, List.map_append, List.sum_append, List.map_cons, List.map_nil, List.sum_cons,
      List.sum_nil, newSink]
    linarith
  · funext k
    have h := sum_removed hi s.gas (fun p => p.r k) (fun _ => rfl)
    simp only [smul_eq_mul] at h
    simp only [totalMoment, made, List.map_append, List.sum_append, List.map_cons, List.map_nil, List.sum_cons,
      List.sum_nil, newSink]
    linarith
  · funext k
    have h := sum_removed hi s.gas (fun p => p.v k) (fun _ => rfl)
    simp only [smul_eq_mul] at h
    simp only [totalMomentum, made, List.map_append, List.sum_append, List.map_cons, List.map_nil, List.sum_cons,
      List.sum_nil, newSink]
    linarith
  · funext k
    have h := sum_removed hi s.gas (fun p => p.a k) (fun _ => rfl)
    simp only [smul_eq_mul] at h
    simp only [totalForce, made, List.map_append, List.sum_append, List.map_cons, List.map_nil, List.sum_cons,
      List.sum_nil, newSink]
    linarith
  · have h := sum_removed hi s.gas (fun p => crossProduct (embed p.r) (embed p.v)) (fun _ => rfl)
    simp only [totalAngMom, made, List.map_append, List.sum_append, List.map_cons, List.map_nil, List.sum_cons,
      List.sum_nil, newSink, add_zero]
    rw [← h]
    abel

theorem made_thermal {prm : CPrm} {t : ℝ} {s : SState n} {i : ℕ} (hi : i < s.Nhydro) :
    totalThermal s.Nhydro (made prm t s i).gas (made prm t s i).sinks =
      totalThermal s.Nhydro s.gas s.sinks - (s.gas i).m * (s.gas i).u := by
  have h := sum_removed hi s.gas (fun p => p.u) (fun _ => rfl)
  simp only [smul_eq_mul] at h
  simp only [totalThermal, made, List.map_append, List.sum_append, List.map_cons, List.map_nil, List.sum_cons,
    List.sum_nil, newSink]
  linarith

/-- what the loop keeps -/
theorem Steps.spec {prm : CPrm} {N : ℕ} {t : ℝ} {s s' : SState n} (h : Steps prm N t s s') :
    s'.Nhydro = s.Nhydro ∧
    (∃ is : List ℕ, is.Nodup ∧ (∀ i ∈ is, i < s.Nhydro ∧ (s.gas i).dead = false) ∧
      (∀ i, s'.gas i = if i ∈ is then removed (s.gas i) else s.gas i) ∧
      s'.Nstar = s.Nstar + is.length ∧
      ∃ new : List (Sink n ℝ), s'.sinks = s.sinks ++ new ∧
        List.Forall₂ (fun i sk => ∃ mm, sk = { newSink prm t (s.gas i) with mmax := mm }) is new) ∧
    SameMechanics s.Nhydro s.gas s.sinks s'.gas s'.sinks ∧
    (s.sinks.length ≤ prm.Nsinkmax → s'.sinks.length ≤ prm.Nsinkmax) ∧
    (s.Nstar ≤ prm.Nstarmax → s'.Nstar ≤ prm.Nstarmax) := by
  induction h with
  | refl =>
    refine ⟨rfl, ⟨[], List.nodup_nil, by simp, by simp, rfl, [], by simp, List.Forall₂.nil⟩,
      ⟨rfl, rfl, rfl, rfl, rfl⟩, id, id⟩
  | @tail s' i _ hc h1 h2 ih =>
    obtain ⟨a1, ⟨is, b1, b2, b3, b4, new, b5, b6⟩, a3, a4, a5⟩ := ih
    obtain ⟨c1, c2, -⟩ := choose_some hc
    have hin : i ∉ is := by
      intro hi
      have := c2.live
      rw [b3, if_pos hi] at this
      cases this
    have hgi : s'.gas i = s.gas i := by rw [b3, if_neg hin]
    refine ⟨a1, ⟨is ++ [i], ?_, ?_, ?_, ?_, new ++ [{ newSink prm t (s'.gas i) with
      mmax := enclosed s'.Nhydro (Function.update s'.gas i (removed (s'.gas i))) (newSink prm t (s'.gas i)) }],
      ?_, ?_⟩, ?_, ?_, ?_⟩
    · rw [List.nodup_append]
      refine ⟨b1, List.nodup_singleton _, ?_⟩
      intro a ha b hb
      rw [List.mem_singleton] at hb
      rintro rfl
      exact hin (hb ▸ ha)
    · intro j hj
      rcases List.mem_append.mp hj with h | h
      · exact b2 j h
      · rw [List.mem_singleton] at h
        subst h
        exact ⟨a1 ▸ c1, hgi ▸ c2.live⟩
    · intro j
      by_cases hj : j = i
      · subst hj
        simp only [made, Function.update_self]
        rw [if_pos (by simp), hgi]
      · simp only [made, Function.update_of_ne hj]
        rw [b3]
        simp [hj]
    · simp only [made, b4, List.length_append, List.length_cons, List.length_nil]
      omega
    · simp only [made, b5, List.append_assoc]
    · apply List.rel_append b6
      refine List.Forall₂.cons ⟨enclosed s'.Nhydro (Function.update s'.gas i (removed (s'.gas i)))
        (newSink prm t (s'.gas i)), ?_⟩ List.Forall₂.nil
      rw [hgi]
    · have := made_totals (prm := prm) (t := t) c1
      rw [a1] at this
      exact ⟨this.mass.trans a3.mass, this.moment.trans a3.moment, this.momentum.trans a3.momentum,
        this.force.trans a3.force, this.angMom.trans a3.angMom⟩
    · intro h
      have := a4 h
      simp only [made, List.length_append, List.length_cons, List.length_nil]
      omega
    · intro h
      have := a5 h
      simp only [made]
      omega

end Gandalf.Sinks
