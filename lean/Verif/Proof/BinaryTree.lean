import Verif.Spec.BinaryTree
import Mathlib.Data.List.Lattice
import Mathlib.Data.List.Sort

/-! Walking over the nodes of a binary tree in the order of their numbers. -/

set_option autoImplicit false

namespace Gandalf.BinTree

variable {N nnode : ℕ} {child : ℕ → Option (ℕ × ℕ)} {parent : ℕ → Option ℕ}

theorem Leaves.unique {c : ℕ} {l m : List ℕ} (h : Leaves child c l) (h' : Leaves child c m) : l = m := by
  induction h generalizing m with
  | star c hc =>
    cases h' with
    | star => rfl
    | node c a b l m h1 => rw [hc] at h1; exact absurd h1 (by simp)
  | node c a b l m h1 _ _ ih1 ih2 =>
    cases h' with
    | star _ hc => rw [h1] at hc; exact absurd hc (by simp)
    | node c a' b' l' m' h1' h2' h3' =>
      rw [h1] at h1'
      simp only [Option.some.injEq, Prod.mk.injEq] at h1'
      obtain ⟨rfl, rfl⟩ := h1'
      rw [ih1 h2', ih2 h3']

/-- nodes before `c` whose parent does not come before `c` -/
def frontier (parent : ℕ → Option ℕ) (c : ℕ) : List ℕ :=
  (List.range c).filter fun d => (parent d).elim true fun p => decide (c ≤ p)

theorem mem_frontier {c d : ℕ} :
    d ∈ frontier parent c ↔ d < c ∧ ∀ p, parent d = some p → c ≤ p := by
  unfold frontier
  rw [List.mem_filter, List.mem_range]
  cases parent d <;> simp

theorem nodup_frontier (c : ℕ) : (frontier parent c).Nodup := (List.nodup_range).filter _

theorem Shape.lt_parent (h : Shape N nnode child parent) {d p : ℕ} (hd : d < nnode)
    (hp : parent d = some p) : d < p := by
  obtain ⟨h1, h2, a, b, h3, h4⟩ := h.parent_some d p hd hp
  obtain ⟨a', b', h5, h6, h7, -⟩ := h.inner p h1 h2
  rw [h3] at h5
  simp only [Option.some.injEq, Prod.mk.injEq] at h5
  obtain ⟨rfl, rfl⟩ := h5
  rcases h4 with rfl | rfl <;> assumption

theorem frontier_star (h : Shape N nnode child parent) {c : ℕ} (hc : c < N) (hn : c < nnode) :
    (frontier parent (c + 1)).Perm (c :: frontier parent c) := by
  have hnd : (c :: frontier parent c).Nodup :=
    List.nodup_cons.2 ⟨fun h => absurd (mem_frontier.1 h).1 (lt_irrefl _), nodup_frontier c⟩
  refine (List.perm_ext_iff_of_nodup (nodup_frontier _) hnd).2 fun d => ?_
  rw [List.mem_cons, mem_frontier, mem_frontier]
  constructor
  · rintro ⟨h1, h2⟩
    rcases Nat.lt_succ_iff_lt_or_eq.1 h1 with h3 | h3
    · exact Or.inr ⟨h3, fun p hp => (Nat.le_succ c).trans (h2 p hp)⟩
    · exact Or.inl h3
  · rintro (rfl | ⟨h1, h2⟩)
    · exact ⟨Nat.lt_succ_self _, fun p hp => h.lt_parent hn hp⟩
    · refine ⟨Nat.lt_succ_of_lt h1, fun p hp => ?_⟩
      have := (h.parent_some d p (h1.trans hn) hp).1
      omega

theorem frontier_node (h : Shape N nnode child parent) {c a b : ℕ} (hc : N ≤ c) (hn : c < nnode)
    (hab : child c = some (a, b)) :
    ∃ G, (frontier parent c).Perm (a :: b :: G) ∧ (frontier parent (c + 1)).Perm (c :: G) := by
  obtain ⟨a', b', h1, h2, h3, h4, h5, h6⟩ := h.inner c hc hn
  rw [hab] at h1
  simp only [Option.some.injEq, Prod.mk.injEq] at h1
  obtain ⟨rfl, rfl⟩ := h1
  set G := (frontier parent c).filter fun d => decide (d ≠ a ∧ d ≠ b) with hG
  have mG : ∀ d, d ∈ G ↔ (d < c ∧ ∀ p, parent d = some p → c ≤ p) ∧ d ≠ a ∧ d ≠ b := fun d => by
    rw [hG, List.mem_filter, mem_frontier, decide_eq_true_iff]
  have nG : G.Nodup := (nodup_frontier c).filter _
  refine ⟨G, (List.perm_ext_iff_of_nodup (nodup_frontier _) ?_).2 fun d => ?_,
    (List.perm_ext_iff_of_nodup (nodup_frontier _) ?_).2 fun d => ?_⟩
  · rw [List.nodup_cons, List.nodup_cons, List.mem_cons]
    refine ⟨?_, fun hh => ((mG b).1 hh).2.2 rfl, nG⟩
    rintro (hh | hh)
    · exact h4 hh
    · exact ((mG a).1 hh).2.1 rfl
  · rw [List.mem_cons, List.mem_cons, mG, mem_frontier]
    constructor
    · intro hh
      by_cases e1 : d = a
      · exact Or.inl e1
      · by_cases e2 : d = b
        · exact Or.inr (Or.inl e2)
        · exact Or.inr (Or.inr ⟨hh, e1, e2⟩)
    · rintro (rfl | rfl | hh)
      · exact ⟨h2, fun p hp => by rw [h5] at hp; exact (Option.some.inj hp).le⟩
      · exact ⟨h3, fun p hp => by rw [h6] at hp; exact (Option.some.inj hp).le⟩
      · exact hh.1
  · exact List.nodup_cons.2 ⟨fun hh => absurd ((mG c).1 hh).1.1 (lt_irrefl _), nG⟩
  · rw [List.mem_cons, mG, mem_frontier]
    constructor
    · rintro ⟨e1, e2⟩
      rcases Nat.lt_succ_iff_lt_or_eq.1 e1 with e3 | e3
      · refine Or.inr ⟨⟨e3, fun p hp => (Nat.le_succ c).trans (e2 p hp)⟩, ?_, ?_⟩
        · rintro rfl; have := e2 c h5; omega
        · rintro rfl; have := e2 c h6; omega
      · exact Or.inl e3
    · rintro (rfl | ⟨⟨e1, e2⟩, e3, e4⟩)
      · exact ⟨Nat.lt_succ_self _, fun p hp => h.lt_parent hn hp⟩
      · refine ⟨Nat.lt_succ_of_lt e1, fun p hp => ?_⟩
        have := e2 p hp
        rcases this.lt_or_eq with e5 | e5
        · exact e5
        · exfalso
          obtain ⟨-, -, a', b', e6, e7⟩ := h.parent_some d p (e1.trans hn) hp
          rw [← e5, hab] at e6
          simp only [Option.some.injEq, Prod.mk.injEq] at e6
          obtain ⟨rfl, rfl⟩ := e6
          rcases e7 with e7 | e7
          · exact e3 e7
          · exact e4 e7

theorem frontier_root {N : ℕ} (hN : 0 < N) (h : Complete N child parent) :
    (frontier parent (2 * N - 1)).Perm [2 * N - 2] := by
  refine (List.perm_ext_iff_of_nodup (nodup_frontier _) (List.nodup_singleton _)).2 fun d => ?_
  rw [List.mem_singleton, mem_frontier]
  constructor
  · rintro ⟨h1, h2⟩
    refine (h.root d h1).1 ?_
    cases hp : parent d with
    | none => rfl
    | some p =>
      have := h.shape.parent_some d p h1 hp
      have := h2 p hp
      omega
  · rintro rfl
    have : 2 * N - 2 < 2 * N - 1 := by omega
    refine ⟨this, fun p hp => ?_⟩
    rw [(h.root _ this).2 rfl] at hp
    exact absurd hp (by simp)

theorem Shape.leaves (h : Shape N nnode child parent) : ∀ c, c < nnode → ∃ l, Leaves child c l := by
  intro c
  induction c using Nat.strong_induction_on with
  | _ c ih =>
    intro hc
    by_cases hN : c < N
    · exact ⟨_, Leaves.star c (h.star c hN)⟩
    · obtain ⟨a, b, h1, h2, h3, -⟩ := h.inner c (not_lt.1 hN) hc
      obtain ⟨l, hl⟩ := ih a h2 (h2.trans hc)
      obtain ⟨m, hm⟩ := ih b h3 (h3.trans hc)
      exact ⟨_, Leaves.node c a b l m h1 hl hm⟩

/-- the frontier before node `c` holds the stars before `c` -/
theorem Shape.frontier_leaves (h : Shape N nnode child parent) (L : ℕ → List ℕ)
    (hL : ∀ c, c < nnode → Leaves child c (L c)) :
    ∀ c, c ≤ nnode → ((frontier parent c).flatMap L).Perm (List.range (min c N)) := by
  intro c
  induction c with
  | zero => intro _; simp [frontier]
  | succ c ih =>
    intro hc
    have ih := ih (Nat.le_of_succ_le hc)
    by_cases hN : c < N
    · have e : L c = [c] := (hL c hc).unique (Leaves.star c (h.star c hN))
      have h1 := (frontier_star h hN hc).flatMap_right L
      rw [List.flatMap_cons, e] at h1
      rw [show min (c + 1) N = c + 1 by omega, List.range_succ]
      rw [show min c N = c by omega] at ih
      exact h1.trans ((List.Perm.append_left [c] ih).trans List.perm_append_comm)
    · push Not at hN
      obtain ⟨a, b, h1, h2, h3, -⟩ := h.inner c hN hc
      have e : L c = L a ++ L b := (hL c hc).unique
        (Leaves.node c a b _ _ h1 (hL a (h2.trans hc)) (hL b (h3.trans hc)))
      obtain ⟨G, g1, g2⟩ := frontier_node h hN hc h1
      have g1 := g1.flatMap_right L
      have g2 := g2.flatMap_right L
      rw [List.flatMap_cons, List.flatMap_cons] at g1
      rw [List.flatMap_cons, e, List.append_assoc] at g2
      rw [show min (c + 1) N = min c N by omega]
      exact g2.trans (g1.symm.trans ih)

/-- every star is below the root, once -/
theorem Complete.leaves {N : ℕ} (hN : 0 < N) (h : Complete N child parent) :
    ∃ l, Leaves child (2 * N - 2) l ∧ l.Perm (List.range N) := by
  choose! L hL using h.shape.leaves
  refine ⟨L (2 * N - 2), hL _ (by omega), ?_⟩
  have h1 := h.shape.frontier_leaves L hL _ le_rfl
  have h2 := (frontier_root hN h).flatMap_right L
  rw [show min (2 * N - 1) N = N by omega] at h1
  rw [List.flatMap_cons, List.flatMap_nil, List.append_nil] at h2
  exact h2.symm.trans h1

end Gandalf.BinTree
