import Verif.Proof.Ghost
import Verif.Proof.Periodic

/-!
# C16 – on-the-fly mirror ghosts: number, validity and completeness
-/

set_option autoImplicit false
set_option linter.unusedSectionVars false

namespace Gandalf

variable {n : ℕ} {α : Type*} [Field α] [LinearOrder α] [IsStrictOrderedRing α]

/-- **C16, all ghosts.** If any wall is needed, `ConstructAllGhosts` returns exactly `MaxNumGhosts`
entries: the (periodically moved) particle first and then its reflections, one for every choice of at
most one reflecting wall per dimension and no other; for a particle strictly inside the box they are at
pairwise different places. -/
theorem C16_all_ghosts (d : Domain n α) (c : TargetCell n α) (p : NPart n α)
    (hneed : d.needMirrors c = true) :
    ∃ cs : List (Fin n → Option Side), cs.Nodup ∧ (∀ σ, σ ∈ cs ↔ d.MirrorChoice σ) ∧
      cs.head? = some (fun _ => none) ∧ cs.length = d.maxNumGhosts ∧
      List.Forall₂ (fun σ q => IsReflection d σ (p.nearestGhost d c.rcell) q) cs
        (constructAllGhosts d c p) ∧
      (constructAllGhosts d c p).length = d.maxNumGhosts ∧
      ((∀ k, d.min k < (p.nearestGhost d c.rcell).r k ∧ (p.nearestGhost d c.rcell).r k < d.max k) →
        ((constructAllGhosts d c p).map NPart.r).Nodup) := by
  have hF : List.Forall₂ (fun σ q => IsReflection d σ (p.nearestGhost d c.rcell) q)
      (allChoices d.mirrorBound) (constructAllGhosts d c p) := by
    unfold constructAllGhosts
    simp only [hneed, if_true]
    exact reflected_allChoices d _ _ _ fun _ _ _ _ => rfl
  refine ⟨allChoices d.mirrorBound, nodup_allChoices _, ?_, head_allChoices _,
    (maxNumGhosts_eq d).symm, hF, ?_, ?_⟩
  · intro σ; rw [mem_allChoices, mirrorBound_iff]
  · rw [maxNumGhosts_eq, hF.length_eq]
  · intro hin
    have e : (constructAllGhosts d c p).map NPart.r =
        (allChoices d.mirrorBound).map fun σ => d.mirrorPos σ (p.nearestGhost d c.rcell).r := by
      have : ∀ {cs : List (Fin n → Option Side)} {gs : List (NPart n α)},
          List.Forall₂ (fun σ q => IsReflection d σ (p.nearestGhost d c.rcell) q) cs gs →
          gs.map NPart.r = cs.map fun σ => d.mirrorPos σ (p.nearestGhost d c.rcell).r := by
        intro cs gs h
        induction h with
        | nil => rfl
        | cons h _ ih => rw [List.map_cons, List.map_cons, ih, h.r]
      exact this hF
    rw [e]
    refine (nodup_allChoices _).map ?_
    intro σ τ hst
    funext k
    have h := congrFun hst k
    have hk := hin k
    simp only [Domain.mirrorPos] at h
    rcases h1 : σ k with _ | s <;> rcases h2 : τ k with _ | t <;> rw [h1, h2] at h
    · simp only at h
      fin_cases t <;> simp at h <;> linarith
    · simp only at h
      fin_cases s <;> simp at h <;> linarith
    · fin_cases s <;> fin_cases t <;> simp at h <;> first | rfl | linarith

/-- **C16, buffer.** None of the constructors ever writes more than `MaxNumGhosts` entries (the size
of the arrays the callers allocate, Tree.cpp:996), whatever is read through the dangling reference. -/
theorem C16_at_most_max (d : Domain n α) (c : TargetCell n α) (p : NPart n α)
    (seen : NPart n α → Fin n → Side → α) :
    (constructAllGhosts d c p).length ≤ d.maxNumGhosts ∧
    (constructGhostsGather d c p).length ≤ d.maxNumGhosts ∧
    (constructGhostsScatterGather d c seen p).length ≤ d.maxNumGhosts := by
  have hone : 1 ≤ d.maxNumGhosts := by
    rw [maxNumGhosts_eq]
    exact List.length_pos_iff.mpr (List.ne_nil_of_mem
      ((mem_allChoices d.mirrorBound (fun _ => none)).mpr (by simp)))
  refine ⟨?_, ?_, ?_⟩
  · by_cases h : d.needMirrors c = true
    · obtain ⟨_, _, _, _, _, _, h, _⟩ := C16_all_ghosts d c p h
      exact h.le
    · simp only [constructAllGhosts, h]; simpa using hone
  · by_cases h : d.needMirrors c = true
    · simp only [constructGhostsGather, h, if_true]
      refine reflected_length_le d _ _ (fun k s => d.needMirror c k s &&
        (if s = 0 then decide (2 * d.min k - (p.nearestGhost d c.rcell).r k > c.hbox.min k)
         else decide (2 * d.max k - (p.nearestGhost d c.rcell).r k < c.hbox.max k)))
        (fun k s q hq => by simp only [hq]) ?_
      intro k s h
      simp only [Domain.needMirror, Bool.and_eq_true] at h
      exact h.1.2.1
    · simp only [constructGhostsGather, h]; simpa using hone
  · by_cases h : d.anyMirror = true
    · simp only [constructGhostsScatterGather, h, if_true]
      refine reflected_length_le d _ _ _ (fun k s q _ => rfl) ?_
      intro k s h
      simp only [Bool.and_eq_true] at h
      exact h.1
    · simp only [constructGhostsScatterGather, h]; simpa using hone

/-- **C16, gather.** For a particle inside the walls, the gather constructor returns reflections of it,
each choice at most once, and every reflection about reflecting walls that lies inside the smoothing
box of the cell is among them. -/
theorem C16_gather_complete (d : Domain n α) (c : TargetCell n α) (p : NPart n α)
    (hin : ∀ k, d.min k ≤ (p.nearestGhost d c.rcell).r k ∧ (p.nearestGhost d c.rcell).r k ≤ d.max k) :
    ∃ cs : List (Fin n → Option Side), cs.Nodup ∧ (∀ σ ∈ cs, d.MirrorChoice σ) ∧
      List.Forall₂ (fun σ q => IsReflection d σ (p.nearestGhost d c.rcell) q) cs
        (constructGhostsGather d c p) ∧
      ∀ σ, d.MirrorChoice σ →
        (∀ k, c.hbox.min k < d.mirrorPos σ (p.nearestGhost d c.rcell).r k ∧
          d.mirrorPos σ (p.nearestGhost d c.rcell).r k < c.hbox.max k) → σ ∈ cs := by
  set q := p.nearestGhost d c.rcell with hq
  have need_of : ∀ σ : Fin n → Option Side, d.MirrorChoice σ →
      (∀ k, c.hbox.min k < d.mirrorPos σ q.r k ∧ d.mirrorPos σ q.r k < c.hbox.max k) →
      ∀ k s, σ k = some s → (d.needMirror c k s &&
        (if s = 0 then decide (2 * d.min k - q.r k > c.hbox.min k)
         else decide (2 * d.max k - q.r k < c.hbox.max k))) = true := by
    intro σ hσ hb k s hs
    have hmb := (mirrorBound_iff d σ).mpr hσ k s hs
    have hb := hb k
    have hi := hin k
    simp only [Domain.mirrorPos, hs] at hb
    have ha := (anyMirror_iff d).mpr ⟨k, s, hmb⟩
    simp only [Domain.needMirror, ha, hmb, Bool.true_and, Bool.and_eq_true]
    fin_cases s
    · simp only [Fin.zero_eta, if_true] at hb ⊢
      rw [decide_eq_true_eq, decide_eq_true_eq]
      exact ⟨by linarith [hb.1], hb.1⟩
    · simp at hb ⊢
      exact ⟨by linarith [hb.2], hb.2⟩
  by_cases h : d.needMirrors c = true
  · refine ⟨allChoices fun k s => d.needMirror c k s &&
        (if s = 0 then decide (2 * d.min k - q.r k > c.hbox.min k)
         else decide (2 * d.max k - q.r k < c.hbox.max k)), nodup_allChoices _, ?_, ?_, ?_⟩
    · intro σ hσ
      rw [mem_allChoices] at hσ
      rw [← mirrorBound_iff]
      intro k s e
      have := hσ k s e
      simp only [Domain.needMirror, Bool.and_eq_true] at this
      exact this.1.2.1
    · simp only [constructGhostsGather, h, if_true, ← hq]
      exact reflected_allChoices d q _ _ (fun k s q' hq' => by simp only [hq'])
    · intro σ hσ hb
      rw [mem_allChoices]
      exact need_of σ hσ hb
  · refine ⟨[fun _ => none], List.nodup_singleton _, ?_, ?_, ?_⟩
    · simp [Domain.MirrorChoice]
    · simp only [constructGhostsGather, h, ← hq]
      exact .cons (isReflection_refl d q) .nil
    · intro σ hσ hb
      have hno : ∀ k, σ k = none := by
        intro k
        rcases e : σ k with _ | s
        · rfl
        · exfalso
          have := need_of σ hσ hb k s e
          rw [Bool.and_eq_true] at this
          apply h
          unfold Domain.needMirrors
          rw [List.any_eq_true]
          refine ⟨k, List.mem_finRange k, ?_⟩
          fin_cases s
          · simp only [Fin.zero_eta] at this; rw [this.1]; rfl
          · simp only [Fin.mk_one] at this; rw [this.1]; simp
      rw [List.mem_singleton]; funext k; exact hno k

/-- **C16, scatter-gather.** Let the reference stay valid. For a particle `q` (periodically moved) with
kernel radius `R` and a cell whose smoothing box properly contains its bounding box, the constructor
returns reflections of `q`, each choice at most once, among them every reflection that lies in the
kernel of a particle at `x` of the cell (radius `Rx`, covered by the smoothing box) or has `x` in its
own kernel (only the reflected dimensions matter). -/
theorem C16_scatter_gather_complete (d : Domain n α) (c : TargetCell n α) (p : NPart n α)
    (seen : NPart n α → Fin n → Side → α)
    (hseen : ∀ k s, seen (p.nearestGhost d c.rcell) k s = (p.nearestGhost d c.rcell).r k)
    (R : α) (hR : 0 ≤ R) (hRp : p.hrangesqd = R ^ 2)
    (hbox : ∀ k, c.hbox.min k < c.bb.min k ∧ c.bb.max k < c.hbox.max k) :
    ∃ cs : List (Fin n → Option Side), cs.Nodup ∧ (∀ σ ∈ cs, d.MirrorChoice σ) ∧
      (fun _ => none) ∈ cs ∧
      List.Forall₂ (fun σ q => IsReflection d σ (p.nearestGhost d c.rcell) q) cs
        (constructGhostsScatterGather d c seen p) ∧
      ∀ σ, d.MirrorChoice σ → ∀ (x : Vec n α) (Rx : α),
        (∀ k, c.bb.min k ≤ x k ∧ x k ≤ c.bb.max k) →
        (∀ k, c.hbox.min k ≤ x k - Rx ∧ x k + Rx ≤ c.hbox.max k) →
        ((∀ k, σ k ≠ none → |d.mirrorPos σ (p.nearestGhost d c.rcell).r k - x k| < Rx) ∨
          ∀ k, σ k ≠ none → |d.mirrorPos σ (p.nearestGhost d c.rcell).r k - x k| < R) → σ ∈ cs := by
  set q := p.nearestGhost d c.rcell with hq
  have hqh : q.hrangesqd = R ^ 2 := by
    rw [hq, NPart.nearestGhost]; split_ifs <;> exact hRp
  by_cases h : d.anyMirror = true
  · set ok : Fin n → Side → Bool := fun k s => d.mirrorBound k s &&
      (if s = 0 then
        let x := 2 * d.min k - seen q k 0
        decide ((x - c.bb.min k) * (x - c.bb.min k) < q.hrangesqd) || decide (x > c.hbox.min k)
       else
        let x := 2 * d.max k - seen q k 1
        decide ((x - c.bb.max k) * (x - c.bb.max k) < q.hrangesqd) || decide (x < c.hbox.max k))
      with hok
    refine ⟨allChoices ok, nodup_allChoices _, ?_, (mem_allChoices _ _).mpr (by simp), ?_, ?_⟩
    · intro σ hσ
      rw [mem_allChoices] at hσ
      rw [← mirrorBound_iff]
      intro k s e
      have := hσ k s e
      simp only [hok, Bool.and_eq_true] at this
      exact this.1
    · simp only [constructGhostsScatterGather, h, if_true, ← hq]
      exact reflected_allChoices d q _ _ (fun k s q' _ => rfl)
    · intro σ hσ x Rx hbb hhb hx
      rw [mem_allChoices]
      intro k s hs
      have hmb := (mirrorBound_iff d σ).mpr hσ k s hs
      simp only [hok, hmb, Bool.true_and, hseen]
      have hxk : |d.mirrorPos σ q.r k - x k| < Rx ∨ |d.mirrorPos σ q.r k - x k| < R :=
        hx.imp (fun h => h k (by simp [hs])) fun h => h k (by simp [hs])
      have b1 := hbb k
      have b2 := hhb k
      have b3 := hbox k
      simp only [Domain.mirrorPos, hs] at hxk
      fin_cases s
      · simp only [Fin.zero_eta, if_true] at hxk ⊢
        rw [Bool.or_eq_true, decide_eq_true_eq, decide_eq_true_eq, hqh]
        rcases hxk with h1 | h1
        · right; have := abs_lt.mp h1; linarith
        · have h2 := abs_lt.mp h1
          by_cases hc : 2 * d.min k - q.r k < c.bb.min k
          · left
            nlinarith
          · right; linarith
      · simp at hxk ⊢
        rw [hqh]
        rcases hxk with h1 | h1
        · right; have := abs_lt.mp h1; linarith
        · have h2 := abs_lt.mp h1
          by_cases hc : c.bb.max k < 2 * d.max k - q.r k
          · left
            nlinarith
          · right; linarith
  · refine ⟨[fun _ => none], List.nodup_singleton _, by simp [Domain.MirrorChoice], by simp, ?_, ?_⟩
    · simp only [constructGhostsScatterGather, h, ← hq]
      exact .cons (isReflection_refl d q) .nil
    · intro σ hσ _ _ _ _ _
      rw [List.mem_singleton]
      funext k
      rcases e : σ k with _ | s
      · rfl
      · exact absurd ((anyMirror_iff d).mpr ⟨k, s, (mirrorBound_iff d σ).mpr hσ k s e⟩) h

/-- a square box with four mirrors -/
def exBox16 : Domain 2 ℚ := ⟨fun _ => 0, fun _ => 4, fun _ => .mirror, fun _ => .mirror,
  fun _ => 4, fun _ => 2⟩
/-- a cell near the lower left corner -/
def exCell16 : TargetCell 2 ℚ := ⟨fun _ => 1, ⟨fun _ => 1 / 2, fun _ => 3 / 2⟩,
  ⟨fun _ => -1 / 2, fun _ => 5 / 2⟩, 1, 1 / 2⟩
/-- a particle in that corner with kernel radius 1 -/
def exPart16 : NPart 2 ℚ := ⟨fun _ => 1 / 4, fun _ => 1, fun _ => 1, 1, 1 / 2, 1, 0, 0, 0, 0⟩

/-- hypotheses hold and give 9 images (all) -/
example : exBox16.needMirrors exCell16 = true ∧
    (constructAllGhosts exBox16 exCell16 exPart16).length = 9 := by decide +kernel
/-- the corner cell sees the particle and its three images across the two near walls -/
example : (constructGhostsGather exBox16 exCell16 exPart16).map (fun q => (q.r 0, q.r 1)) =
    [(1/4, 1/4), (-1/4, 1/4), (1/4, -1/4), (-1/4, -1/4)] := by decide +kernel
example : (constructGhostsScatterGather exBox16 exCell16 (fun q k _ => q.r k) exPart16).length = 4 ∧
    (∀ k, exBox16.min k ≤ (exPart16.nearestGhost exBox16 exCell16.rcell).r k ∧
      (exPart16.nearestGhost exBox16 exCell16.rcell).r k ≤ exBox16.max k) ∧
    (∀ k, exCell16.hbox.min k < exCell16.bb.min k ∧ exCell16.bb.max k < exCell16.hbox.max k) := by
  decide +kernel

/-- **C16, defect.** The reference `real_particle` (GhostNeighbours.hpp:414) points into the vector
that is extended by `push_back`; once the vector reallocates, the tests of the following sides read
freed memory. There is a particle, a cell and a content of that memory (in the second dimension, after
the reflections of the first were appended) for which an image inside the cell's smoothing box is not
generated. -/
theorem C16_dangling_reference_defect : ∃ (d : Domain 2 ℚ) (c : TargetCell 2 ℚ) (p : NPart 2 ℚ)
    (seen : NPart 2 ℚ → Fin 2 → Side → ℚ),
    (∀ q s, seen q 0 s = q.r 0) ∧
    (∃ σ, d.MirrorChoice σ ∧ (∀ k, c.hbox.min k < d.mirrorPos σ p.r k ∧
        d.mirrorPos σ p.r k < c.hbox.max k) ∧
      d.mirrorPos σ p.r ∈ (constructGhostsScatterGather d c (fun q k _ => q.r k) p).map NPart.r ∧
      d.mirrorPos σ p.r ∉ (constructGhostsScatterGather d c seen p).map NPart.r) := by
  refine ⟨exBox16, exCell16, exPart16, fun q k _ => if k = 0 then q.r 0 else 100, ?_,
    fun _ => some 0, ?_, ?_, ?_, ?_⟩
  · intro q s; simp
  · intro k; simp [exBox16]
  · decide +kernel
  · decide +kernel
  · decide +kernel

end Gandalf
