import Verif.Prop.C78
import Verif.Prop.C74Flux
import Mathlib.Analysis.Calculus.Deriv.Pow
import Mathlib.Analysis.Calculus.Deriv.Mul

/-!
# C78 and C74, more: perturbers between their steps, flags of the members, rates of pairs
-/

set_option autoImplicit false

namespace Gandalf

open Stars Inner

section inner
variable {n N P : ℕ}

/-- **C78 (perturbers between steps).** A perturber is put on a path that starts, when its clock was set, at its place with
its velocity and acceleration; `pertV` is the velocity on this path, and its acceleration changes with the jerk. -/
theorem C78_path (p : Inner.Pert n) (t : ℝ) (k : Fin n) :
    pertR p p.tlast = p.r0 ∧ pertV p p.tlast = p.v0 ∧ HasDerivAt (fun s => pertR p s k) (pertV p t k) t ∧
    HasDerivAt (fun s => pertV p s k) (p.a0 k + p.adot0 k * (t - p.tlast)) t := by
  have h1 : HasDerivAt (fun s : ℝ => s - p.tlast) 1 t := (hasDerivAt_id t).sub_const _
  refine ⟨?_, ?_, ?_, ?_⟩
  · funext k
    simp [pertR]
  · funext k
    simp [pertV]
  · have h := ((((hasDerivAt_const t (p.r0 k)).fun_add (h1.const_mul (p.v0 k))).fun_add
      (((h1.const_mul (1 / 2 * p.a0 k)).fun_mul h1))).fun_add (((h1.const_mul (1 / 6 * p.adot0 k)).fun_mul h1).fun_mul h1))
    refine h.congr_deriv ?_
    simp only [pertV]
    ring
  · have h := ((hasDerivAt_const t (p.v0 k)).fun_add (h1.const_mul (p.a0 k))).fun_add
      (((h1.const_mul (1 / 2 * p.adot0 k)).fun_mul h1))
    refine h.congr_deriv ?_
    ring

/-- **C78 (pull on perturbers).** The point from which `apert` is reckoned is the centre of mass of the members. -/
theorem C78_com (c : Fin N → Child n) (hm : ∑ i, (c i).m ≠ 0) (k : Fin n) : ∑ i, (c i).m * ((c i).r k - rcom c k) = 0 := by
  simp only [mul_sub, Finset.sum_sub_distrib, ← Finset.sum_mul]
  simp only [rcom]
  rw [mul_div_cancel₀ _ hm, sub_self]

example : ∑ i, (binary 1 0 2 i).m ≠ 0 := by norm_num [binary, Fin.sum_univ_two]

theorem Inner.substep_flag (d : Domain n ℝ) (S : Sys n) (p : Fin P → Inner.Pert n) (ae : Vec n ℝ) (ge t : ℝ)
    (c : Fin N → Child n) (i : Fin N) (h : (c i).ended = true) :
    (substep d S p ae ge t c i).tlast = t ∧ (substep d S p ae ge t c i).ended = false := by
  have h2 : (forced d p ae ge t (fun i => advance t (c i)) i).ended = true := by
    simp only [forced]
    rw [(pulled_keep d p t _ i).2.2.2.2.2.1, (direct_keep d _ i).2.2.2.2.2.1]
    exact h
  simp only [substep, endStep, update, shift, correct, h2, if_true, and_self]

/-- **C78 (flags).** If the flags are up when the loop begins, the first two sub-steps have the right length, and the third
one again starts when the second did: the flags are lowered with the first and nothing raises them. -/
theorem C78_flag (d : Domain n ℝ) (S : Sys n) (ae : Vec n ℝ) (ge big tend : ℝ) (ts : Child n → ℝ) (hd : OpenBox d)
    (p : Fin 0 → Inner.Pert n) (s0 s1 s2 s3 : State n N) (h : ∀ i, (s0.c i).tlast = s0.t)
    (he : ∀ i, (s0.c i).ended = true) (e1 : s1 = Inner.round d S p ae ge big tend ts s0)
    (e2 : s2 = Inner.round d S p ae ge big tend ts s1) (e3 : s3 = Inner.round d S p ae ge big tend ts s2) :
    RelStep (s1.t - s0.t) s0.c s1.c ∧ RelStep (s2.t - s1.t) s1.c s2.c ∧ RelStep (s3.t - s1.t) s2.c s3.c := by
  have k1 : ∀ i, (s1.c i).tlast = s1.t ∧ (s1.c i).ended = false := by
    intro i
    rw [e1]
    exact Inner.substep_flag d S p ae ge _ s0.c i (he i)
  have k2 : ∀ i, (s2.c i).tlast = s1.t := by
    intro i
    rw [e2]
    exact ((substep_clock d S p ae ge _ s1.c i (k1 i).2).1).trans (k1 i).1
  refine ⟨?_, ?_, ?_⟩
  · rw [e1]
    exact substep_rel hd S p ae ge _ s0.t s0.c h
  · have := substep_rel hd S p ae ge s2.t s1.t s1.c fun i => (k1 i).1
    rw [e2] at this ⊢
    exact this
  · have := substep_rel hd S p ae ge s3.t s1.t s2.c k2
    rw [e3] at this ⊢
    exact this

example : ∃ s : State 1 2, (∀ i, (s.c i).tlast = s.t) ∧ ∀ i, (s.c i).ended = true :=
  ⟨⟨0, fun i => { binary 1 0 2 i with ended := true, tlast := 0 }⟩, fun _ => rfl, fun _ => rfl⟩

end inner

open FvStep

variable {n N : ℕ} {α : Type*} [Field α] [CharZero α]

theorem FvStep.step_of_rate (G H : Gain n α) (dt : α) (h1 : G.dQ = Cons.smul dt G.dQdt) (h2 : H.dQ = Cons.smul dt H.dQdt) :
    (G.add H).dQ = Cons.smul dt (G.add H).dQdt := by
  simp only [Gain.add, h1, h2, Cons.smul, Cons.add]
  congr 1
  · funext k
    ring
  · ring
  · ring

/-- **C74, rates of pairs.** What one particle of a pair loses per time the other gains: the rates of all particles have no
sum either, and with steps of one length the change over the step is the rate times the step. -/
theorem C74_pair_rates (r : Fin N → Vec n α) (L : List (FvStep.Pair N n α)) :
    (∑ i, (pairGains r L i).dQdt.mass = 0 ∧ (∀ k, ∑ i, (pairGains r L i).dQdt.mom k = 0) ∧
      ∑ i, (pairGains r L i).dQdt.en = 0) ∧
    ∀ (dt : α), (∀ e ∈ L, e.dt = dt) → ∀ i, (pairGains r L i).dQ = Cons.smul dt (pairGains r L i).dQdt := by
  refine ⟨⟨?_, fun k => ?_, ?_⟩, ?_⟩
  · rw [FvStep.sum_foldl (fun _ G => G.dQdt.mass) (fun _ => rfl) (fun _ _ _ => rfl)]
    simp [Pair.own, Pair.other, Cons.smul]
  · rw [FvStep.sum_foldl (fun _ G => G.dQdt.mom k) (fun _ => rfl) (fun _ _ _ => rfl)]
    simp [Pair.own, Pair.other, Cons.smul]
  · rw [FvStep.sum_foldl (fun _ G => G.dQdt.en) (fun _ => rfl) (fun _ _ _ => rfl)]
    simp [Pair.own, Pair.other, Cons.smul]
  · intro dt
    induction L using List.reverseRecOn with
    | nil =>
      intro _ i
      simp [pairGains, Gain.zero, Cons.smul, Cons.zero]
    | append_singleton L e ih =>
      intro h i
      have h1 := ih (fun e he => h e (List.mem_append_left _ he)) i
      have h2 := h e (by simp)
      have ho : (e.own r).dQ = Cons.smul dt (e.own r).dQdt := by
        simp only [Pair.own, Cons.smul, h2]
        congr 1
        · funext k
          ring
        · ring
        · ring
      have ht : (e.other r).dQ = Cons.smul dt (e.other r).dQdt := by simp only [Pair.other, h2]
      rw [pairGains, List.foldl_append]
      change (addPair r i (pairGains r L i) e).dQ = Cons.smul dt (addPair r i (pairGains r L i) e).dQdt
      simp only [addPair]
      by_cases a : i = e.i
      · rw [if_pos a]
        by_cases b : i = e.j
        · rw [if_pos b]
          exact FvStep.step_of_rate _ _ _ (FvStep.step_of_rate _ _ _ h1 ho) ht
        · rw [if_neg b]
          exact FvStep.step_of_rate _ _ _ h1 ho
      · rw [if_neg a]
        by_cases b : i = e.j
        · rw [if_pos b]
          exact FvStep.step_of_rate _ _ _ h1 ht
        · rw [if_neg b]
          exact h1

example : (pairGains (fun _ : Fin 2 => fun _ : Fin 1 => (0 : ℚ)) [⟨0, 1, ⟨fun _ => 3, 2, 5⟩, 1 / 2⟩] 0).dQ.mass = -1 := by
  norm_num [pairGains, addPair, Gain.add, Gain.zero, Pair.own, Cons.add, Cons.zero, Cons.smul]

end Gandalf
