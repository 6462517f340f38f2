import Verif.Model.Sinks

/-!
# Removal of dead particles: the loop invariant
-/

set_option autoImplicit false

namespace Gandalf.Sinks

variable {P : Type*}

/-- live entries among the first `N`, in order -/
def liveOf (isDead : P → Bool) (N : ℕ) (p : ℕ → P) : List P :=
  ((List.range N).map p).filter fun x => !isDead x

theorem liveOf_succ (isDead : P → Bool) (N : ℕ) (p : ℕ → P) :
    liveOf isDead (N + 1) p = liveOf isDead N p ++ (if isDead (p N) then [] else [p N]) := by
  simp only [liveOf, List.range_succ, List.map_append, List.filter_append, List.map_cons, List.map_nil]
  congr 1
  by_cases h : isDead (p N) = true <;> simp [h]

theorem liveOf_congr {isDead : P → Bool} {N : ℕ} {p q : ℕ → P} (h : ∀ i < N, p i = q i) :
    liveOf isDead N p = liveOf isDead N q := by
  unfold liveOf
  congr 1
  exact List.map_congr_left fun i hi => h i (List.mem_range.mp hi)

/-- filling a dead place adds one live entry -/
theorem liveOf_update {isDead : P → Bool} {N i : ℕ} {p : ℕ → P} {x : P} (hi : i < N)
    (hd : isDead (p i) = true) :
    (liveOf isDead N (Function.update p i x)).Perm
      (liveOf isDead N p ++ (if isDead x then [] else [x])) := by
  induction N with
  | zero => omega
  | succ N ih =>
    rw [liveOf_succ, liveOf_succ]
    rcases Nat.lt_succ_iff_lt_or_eq.mp hi with h | h
    · rw [Function.update_of_ne (by omega)]
      refine ((ih h).append_right _).trans ?_
      rw [List.append_assoc, List.append_assoc]
      exact (List.perm_append_comm).append_left _
    · subst h
      rw [Function.update_self, hd, if_pos rfl, List.append_nil]
      rw [liveOf_congr (q := p) fun j hj => Function.update_of_ne (by omega) _ _]

/-- state of the loops: `il` places in use, the first `i` of them live -/
structure Inv (isDead : P → Bool) (N : ℕ) (p0 : ℕ → P) (i : ℕ) (s : (ℕ → P) × ℕ × ℕ) : Prop where
  count : s.2.2 + s.2.1 = N
  le : i ≤ s.2.2
  pre : ∀ j < i, isDead (s.1 j) = false
  live : (liveOf isDead s.2.2 s.1).Perm (liveOf isDead N p0)
  tail : ∀ j, s.2.2 ≤ j → j < N → isDead (s.1 j) = true
  rest : ∀ j, N ≤ j → s.1 j = p0 j

theorem fill_inv {isDead : P → Bool} {bury : P → P} (hb : ∀ x, isDead (bury x) = true) {N : ℕ} {p0 : ℕ → P}
    {i : ℕ} :
    ∀ (fuel : ℕ) (s : (ℕ → P) × ℕ × ℕ), Inv isDead N p0 i s → i < s.2.2 → s.2.2 < fuel →
    let s' := fill isDead bury i fuel s
    Inv isDead N p0 i s' ∧ (s'.2.2 = i ∨ (i < s'.2.2 ∧ isDead (s'.1 i) = false)) := by
  intro fuel
  induction fuel with
  | zero => intro s _ _ h; omega
  | succ fuel ih =>
    rintro ⟨p, nd, il⟩ hs hi hf
    have hc := hs.count
    have hle := hs.le
    have hpre := hs.pre
    have hlive := hs.live
    have hrest := hs.rest
    have htail := hs.tail
    simp only at hc hle hpre hlive hi hf hrest htail
    obtain ⟨M, rfl⟩ : ∃ M, il = M + 1 := ⟨il - 1, by omega⟩
    rw [liveOf_succ] at hlive
    simp only [fill, Nat.add_sub_cancel]
    by_cases hd : isDead (p i) = true
    · rw [if_pos hd]
      by_cases hM : i < M
      · rw [if_pos hM]
        apply ih
        · refine ⟨by simp only; omega, by simp only; omega, ?_, ?_, ?_, ?_⟩
          · intro j hj
            simp only
            rw [Function.update_of_ne (by omega), Function.update_of_ne (by omega)]
            exact hpre j hj
          · simp only
            rw [liveOf_congr (q := Function.update p i (p M))
              fun j hj => Function.update_of_ne (by omega) _ _]
            exact (liveOf_update hM hd).trans hlive
          · intro j hj hjN
            simp only at hj ⊢
            by_cases hjM : j = M
            · rw [hjM, Function.update_self]
              exact hb _
            · rw [Function.update_of_ne hjM, Function.update_of_ne (by omega)]
              exact htail j (by omega) hjN
          · intro j hj
            simp only
            rw [Function.update_of_ne (by omega), Function.update_of_ne (by omega)]
            exact hrest j hj
        · exact hM
        · simp only; omega
      · rw [if_neg hM]
        have e : M = i := by omega
        subst e
        rw [hd, if_pos rfl, List.append_nil] at hlive
        refine ⟨⟨by simp only; omega, le_rfl, hpre, hlive, ?_, hrest⟩, Or.inl rfl⟩
        intro j hj hjN
        rcases Nat.eq_or_lt_of_le hj with h | h
        · rw [← h]
          exact hd
        · exact htail j h hjN
    · rw [if_neg hd]
      exact ⟨hs, Or.inr ⟨hi, by simpa using hd⟩⟩

theorem liveOf_all {isDead : P → Bool} {N : ℕ} {p : ℕ → P} (h : ∀ i < N, isDead (p i) = false) :
    liveOf isDead N p = (List.range N).map p := by
  unfold liveOf
  rw [List.filter_eq_self]
  intro x hx
  obtain ⟨i, hi, rfl⟩ := List.mem_map.mp hx
  rw [h i (List.mem_range.mp hi)]
  rfl

/-- state at the end of the loops -/
structure Done (isDead : P → Bool) (N : ℕ) (p0 : ℕ → P) (s : (ℕ → P) × ℕ × ℕ) : Prop where
  count : s.2.2 + s.2.1 = N
  alive : ∀ j < s.2.2, isDead (s.1 j) = false
  live : ((List.range s.2.2).map s.1).Perm (liveOf isDead N p0)
  tail : ∀ j, s.2.2 ≤ j → j < N → isDead (s.1 j) = true
  rest : ∀ j, N ≤ j → s.1 j = p0 j

theorem Inv.done {isDead : P → Bool} {N : ℕ} {p0 : ℕ → P} {i : ℕ} {s : (ℕ → P) × ℕ × ℕ}
    (h : Inv isDead N p0 i s) (hi : s.2.2 ≤ i) : Done isDead N p0 s := by
  have ha : ∀ j < s.2.2, isDead (s.1 j) = false := fun j hj => h.pre j (by omega)
  exact ⟨h.count, ha, liveOf_all ha ▸ h.live, h.tail, h.rest⟩

theorem compact_done {isDead : P → Bool} {bury : P → P} (hb : ∀ x, isDead (bury x) = true) {N : ℕ} {p0 : ℕ → P} :
    ∀ (k i : ℕ) (s : (ℕ → P) × ℕ × ℕ), Inv isDead N p0 i s → i + k = N → (i < s.2.2 ∨ k = 0) →
    Done isDead N p0 (compact isDead bury i k s) := by
  intro k
  induction k with
  | zero =>
    intro i s h hk _
    exact h.done (by have := h.count; omega)
  | succ k ih =>
    intro i s h hk hi
    have hi : i < s.2.2 := by omega
    obtain ⟨h1, h2⟩ := fill_inv hb (s.2.2 + 1) s h hi (by omega)
    simp only [compact]
    by_cases hc : (fill isDead bury i (s.2.2 + 1) s).2.2 - 1 ≤ i
    · rw [if_pos hc]
      rcases h2 with h2 | ⟨h2, h3⟩
      · exact h1.done (by omega)
      · refine Inv.done (i := i + 1) ⟨h1.count, by omega, ?_, h1.live, h1.tail, h1.rest⟩ (by omega)
        intro j hj
        rcases Nat.lt_succ_iff_lt_or_eq.mp hj with hj | rfl
        · exact h1.pre j hj
        · exact h3
    · rw [if_neg hc]
      rcases h2 with h2 | ⟨h2, h3⟩
      · omega
      refine ih (i + 1) _ ⟨h1.count, by omega, ?_, h1.live, h1.tail, h1.rest⟩ (by omega) (by omega)
      intro j hj
      rcases Nat.lt_succ_iff_lt_or_eq.mp hj with hj | rfl
      · exact h1.pre j hj
      · exact h3

theorem deleteDead_done (isDead : P → Bool) (bury : P → P) (hb : ∀ x, isDead (bury x) = true) (N : ℕ) (p : ℕ → P) :
    Done isDead N p (compact isDead bury 0 N (p, 0, N)) := by
  refine compact_done hb N 0 (p, 0, N) ⟨rfl, Nat.zero_le _, ?_, List.Perm.refl _, ?_, fun _ _ => rfl⟩ (by omega)
    (by simp only; omega)
  · intro j hj; omega
  · intro j h1 h2
    simp only at h1
    omega

end Gandalf.Sinks
