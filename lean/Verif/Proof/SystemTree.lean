import Verif.Model.SystemTree
import Verif.Proof.BinaryTree

/-! The construction of the nearest-neighbour tree. -/

set_option autoImplicit false
set_option linter.unusedSectionVars false

namespace Gandalf.SysTree

open Function BinTree

section Build
variable {n : ℕ} {α : Type} [Field α] [LinearOrder α]

/-- squared distance of two nodes -/
def dd (s : State n α) (i j : ℕ) : α := distSq (s.node i).rpos (s.node j).rpos

theorem distSq_comm (a b : Vec n α) : distSq a b = distSq b a := by
  unfold distSq dot
  exact Finset.sum_congr rfl fun k _ => by ring

theorem dd_comm (s : State n α) (i j : ℕ) : dd s i j = dd s j i := distSq_comm _ _

/-! ### the nearest node -/

/-- what is known about the nearest node of `i` in `f` -/
def Near (big : α) (s : State n α) (f : List ℕ) (i : ℕ) (o : Option ℕ × α) : Prop :=
  (o = (none, big) ∧ ∀ k ∈ f, k ≠ i → big ≤ dd s i k) ∨
  ∃ j ∈ f, j ≠ i ∧ o = (some j, dd s i j) ∧ dd s i j < big ∧ (∀ k ∈ f, k ≠ i → dd s i j ≤ dd s i k) ∧
    ∀ k ∈ f, k ≠ i → dd s i k = dd s i j → j ≤ k

theorem near_nearestOf (big : α) (s : State n α) (i : ℕ) (f : List ℕ) (hf : f.Pairwise (· < ·)) :
    Near big s f i (nearestOf big s f i) := by
  induction f using List.reverseRecOn with
  | nil => exact Or.inl ⟨rfl, fun k hk => absurd hk (by simp)⟩
  | append_singleton f x ih =>
    rw [List.pairwise_append] at hf
    obtain ⟨hf1, -, hf2⟩ := hf
    have ih := ih hf1
    have e : nearestOf big s (f ++ [x]) i = closer s i (nearestOf big s f i) x := by
      unfold nearestOf; rw [List.foldl_append]; rfl
    rw [e]
    unfold closer
    by_cases hx : i = x
    · rw [if_pos hx]
      subst hx
      have key : ∀ k, k ∈ f ++ [i] → k ≠ i → k ∈ f := fun k hk hki => by
        rw [List.mem_append, List.mem_singleton] at hk
        exact hk.resolve_right hki
      rcases ih with ⟨h1, h2⟩ | ⟨j, h1, h2, h3, h4, h5, h6⟩
      · exact Or.inl ⟨h1, fun k hk hki => h2 k (key k hk hki) hki⟩
      · exact Or.inr ⟨j, List.mem_append_left _ h1, h2, h3, h4,
          fun k hk hki => h5 k (key k hk hki) hki, fun k hk hki => h6 k (key k hk hki) hki⟩
    · rw [if_neg hx]
      have spl : ∀ k, k ∈ f ++ [x] → k ∈ f ∨ k = x := fun k hk => by
        rwa [List.mem_append, List.mem_singleton] at hk
      have hxm : x ∈ f ++ [x] := List.mem_append_right _ (List.mem_singleton.2 rfl)
      by_cases hd : distSq (s.node i).rpos (s.node x).rpos < (nearestOf big s f i).2
      · rw [if_pos hd]
        change dd s i x < _ at hd
        refine Or.inr ⟨x, hxm, Ne.symm hx, rfl, ?_, ?_, ?_⟩
        · rcases ih with ⟨h1, h2⟩ | ⟨j, h1, h2, h3, h4, h5, h6⟩
          · rwa [h1] at hd
          · rw [h3] at hd; exact hd.trans h4
        · intro k hk hki
          rcases spl k hk with h | rfl
          · rcases ih with ⟨h1, h2⟩ | ⟨j, h1, h2, h3, h4, h5, h6⟩
            · rw [h1] at hd; exact hd.le.trans (h2 k h hki)
            · rw [h3] at hd; exact hd.le.trans (h5 k h hki)
          · exact le_rfl
        · intro k hk hki hdk
          rcases spl k hk with h | rfl
          · exfalso
            rw [← hdk] at hd
            rcases ih with ⟨h1, h2⟩ | ⟨j, h1, h2, h3, h4, h5, h6⟩
            · rw [h1] at hd; exact absurd (h2 k h hki) (not_le.2 hd)
            · rw [h3] at hd; exact absurd (h5 k h hki) (not_le.2 hd)
          · exact le_rfl
      · rw [if_neg hd]
        change ¬ dd s i x < _ at hd
        rw [not_lt] at hd
        rcases ih with ⟨h1, h2⟩ | ⟨j, h1, h2, h3, h4, h5, h6⟩
        · refine Or.inl ⟨h1, fun k hk hki => ?_⟩
          rcases spl k hk with h | rfl
          · exact h2 k h hki
          · rwa [h1] at hd
        · rw [h3] at hd
          refine Or.inr ⟨j, List.mem_append_left _ h1, h2, h3, h4, fun k hk hki => ?_, fun k hk hki hdk => ?_⟩
          · rcases spl k hk with h | rfl
            · exact h5 k h hki
            · exact hd
          · rcases spl k hk with h | rfl
            · exact h6 k h hki hdk
            · exact (hf2 j h1 k (List.mem_singleton.2 rfl)).le

/-! ### the pairs of a list -/

theorem mem_pairs {β : Type} {r : β → β → Prop} {l : List β} (hl : l.Pairwise r) {p : β × β}
    (h : p ∈ pairs l) : p.1 ∈ l ∧ p.2 ∈ l ∧ r p.1 p.2 := by
  induction l with
  | nil => exact absurd h (by simp [pairs])
  | cons i l ih =>
    rw [List.pairwise_cons] at hl
    rw [pairs, List.mem_append, List.mem_map] at h
    rcases h with ⟨j, hj, rfl⟩ | h
    · exact ⟨List.mem_cons_self, List.mem_cons_of_mem _ hj, hl.1 j hj⟩
    · obtain ⟨h1, h2, h3⟩ := ih hl.2 h
      exact ⟨List.mem_cons_of_mem _ h1, List.mem_cons_of_mem _ h2, h3⟩

theorem pairs_mem {l : List ℕ} (hl : l.Pairwise (· < ·)) {i j : ℕ} (hi : i ∈ l) (hj : j ∈ l)
    (h : i < j) : (i, j) ∈ pairs l := by
  induction l with
  | nil => exact absurd hi (by simp)
  | cons x l ih =>
    rw [List.pairwise_cons] at hl
    rw [pairs, List.mem_append, List.mem_map]
    rcases List.mem_cons.1 hi with rfl | hi
    · rcases List.mem_cons.1 hj with rfl | hj
      · exact absurd h (lt_irrefl _)
      · exact Or.inl ⟨j, hj, rfl⟩
    · rcases List.mem_cons.1 hj with rfl | hj
      · exact absurd (hl.1 i ‹i ∈ l›) (by omega)
      · exact Or.inr (ih hl.2 hi hj)

theorem nodup_pairs {l : List ℕ} (hl : l.Pairwise (· < ·)) : (pairs l).Nodup := by
  induction l with
  | nil => exact List.nodup_nil
  | cons x l ih =>
    rw [List.pairwise_cons] at hl
    rw [pairs]
    refine List.Nodup.append ?_ (ih hl.2) ?_
    · exact (hl.2.imp fun h => ne_of_lt h).map _ (fun a b hab h => hab (Prod.mk.inj h).2)
    · intro p h1 h2
      obtain ⟨j, -, rfl⟩ := List.mem_map.1 h1
      exact absurd (hl.1 x (mem_pairs hl.2 h2).1) (lt_irrefl _)

/-! ### free nodes -/

theorem mem_freeList {s : State n α} {i : ℕ} :
    i ∈ freeList s ↔ i < s.nnode ∧ (s.node i).parent = none := by
  unfold freeList
  rw [List.mem_filter, List.mem_range, Option.isNone_iff_eq_none]

theorem sorted_freeList (s : State n α) : (freeList s).Pairwise (· < ·) :=
  (List.pairwise_lt_range).filter _

theorem nodup_freeList (s : State n α) : (freeList s).Nodup :=
  (sorted_freeList s).imp fun h => ne_of_lt h

theorem merge_i {s : State n α} {i j : ℕ} (hi : i < s.nnode) (hij : i < j) :
    (merge s i j).node i = { s.node i with parent := some s.nnode } := by
  unfold merge
  simp only
  rw [update_of_ne (ne_of_lt hi), update_of_ne (ne_of_lt hij), update_self]

theorem merge_j {s : State n α} {i j : ℕ} (hj : j < s.nnode) :
    (merge s i j).node j = { s.node j with parent := some s.nnode } := by
  unfold merge
  simp only
  rw [update_of_ne (ne_of_lt hj), update_self]

theorem merge_new {s : State n α} {i j : ℕ} :
    (merge s i j).node s.nnode = { s.node s.nnode with
      child := some (i, j)
      nstar := (s.node i).nstar + (s.node j).nstar
      ncomp := (s.node i).ncomp + (s.node j).ncomp
      rpos := fun k => 1 / 2 * ((s.node i).rpos k + (s.node j).rpos k) } := by
  unfold merge
  simp only
  try simp only
  rw [update_self]

theorem merge_ne {s : State n α} {i j k : ℕ} (h1 : k ≠ i) (h2 : k ≠ j) (h3 : k ≠ s.nnode) :
    (merge s i j).node k = s.node k := by
  unfold merge
  simp only
  rw [update_of_ne h3, update_of_ne h2, update_of_ne h1]

/-- members other than the parent of an old node do not change -/
theorem merge_old {s : State n α} {i j k : ℕ} (hk : k < s.nnode) :
    ((merge s i j).node k).nearest = (s.node k).nearest ∧
    ((merge s i j).node k).child = (s.node k).child ∧
    ((merge s i j).node k).rpos = (s.node k).rpos ∧
    ((merge s i j).node k).nstar = (s.node k).nstar ∧
    ((merge s i j).node k).ncomp = (s.node k).ncomp := by
  unfold merge
  simp only
  rw [update_of_ne (ne_of_lt hk)]
  by_cases h2 : k = j
  · subst h2; rw [update_self]; exact ⟨rfl, rfl, rfl, rfl, rfl⟩
  · rw [update_of_ne h2]
    by_cases h1 : k = i
    · subst h1; rw [update_self]; exact ⟨rfl, rfl, rfl, rfl, rfl⟩
    · rw [update_of_ne h1]; exact ⟨rfl, rfl, rfl, rfl, rfl⟩

/-! ### the invariant -/

/-- the tree under construction -/
structure Inv (N : ℕ) (B : α) (s : State n α) : Prop where
  ge : N ≤ s.nnode
  shape : Shape N s.nnode (fun c => (s.node c).child) (fun c => (s.node c).parent)
  blank : ∀ c, s.nnode ≤ c → (s.node c).parent = none
  count : (freeList s).length + s.nnode = 2 * N
  close : ∀ c d, c < s.nnode → d < s.nnode → dd s c d < B
  leafs : ∀ c, c < N → (s.node c).nstar = 1
  sums : ∀ c a b, c < s.nnode → (s.node c).child = some (a, b) →
    (s.node c).nstar = (s.node a).nstar + (s.node b).nstar
  same : ∀ c, c < s.nnode → (s.node c).ncomp = (s.node c).nstar
  near : ∀ c a b, c < s.nnode → (s.node c).child = some (a, b) →
    (s.node a).nearest = some b ∧ (s.node b).nearest = some a

theorem free_merge {s : State n α} {i j : ℕ} (hi : i < s.nnode) (hj : j < s.nnode) (hij : i < j)
    (pi : (s.node i).parent = none) (pj : (s.node j).parent = none)
    (hb : (s.node s.nnode).parent = none) :
    (freeList (merge s i j)).length + 1 = (freeList s).length := by
  set G := (freeList s).filter fun d => decide (d ≠ i ∧ d ≠ j) with hG
  have mG : ∀ d, d ∈ G ↔ (d < s.nnode ∧ (s.node d).parent = none) ∧ d ≠ i ∧ d ≠ j := fun d => by
    rw [hG, List.mem_filter, mem_freeList, decide_eq_true_iff]
  have nG : G.Nodup := (nodup_freeList s).filter _
  have p1 : (freeList s).Perm (i :: j :: G) := by
    refine (List.perm_ext_iff_of_nodup (nodup_freeList _) ?_).2 fun d => ?_
    · rw [List.nodup_cons, List.nodup_cons, List.mem_cons]
      refine ⟨?_, fun hh => ((mG j).1 hh).2.2 rfl, nG⟩
      rintro (hh | hh)
      · omega
      · exact ((mG i).1 hh).2.1 rfl
    · rw [List.mem_cons, List.mem_cons, mG, mem_freeList]
      constructor
      · intro hh
        by_cases e1 : d = i
        · exact Or.inl e1
        · by_cases e2 : d = j
          · exact Or.inr (Or.inl e2)
          · exact Or.inr (Or.inr ⟨hh, e1, e2⟩)
      · rintro (rfl | rfl | hh)
        · exact ⟨hi, pi⟩
        · exact ⟨hj, pj⟩
        · exact hh.1
  have p2 : (freeList (merge s i j)).Perm (s.nnode :: G) := by
    refine (List.perm_ext_iff_of_nodup (nodup_freeList _) ?_).2 fun d => ?_
    · exact List.nodup_cons.2 ⟨fun hh => absurd ((mG _).1 hh).1.1 (lt_irrefl _), nG⟩
    · rw [List.mem_cons, mG, mem_freeList]
      change (d < s.nnode + 1 ∧ _) ↔ _
      by_cases e0 : d = s.nnode
      · subst e0
        rw [merge_new]
        simp [hb]
      · by_cases e1 : d = i
        · subst e1; rw [merge_i hi hij]; simp [e0]
        · by_cases e2 : d = j
          · subst e2; rw [merge_j hj]; simp [e0]
          · rw [merge_ne e1 e2 e0]
            constructor
            · rintro ⟨h1, h2⟩; exact Or.inr ⟨⟨by omega, h2⟩, e1, e2⟩
            · rintro (h | ⟨⟨h1, h2⟩, -⟩)
              · exact absurd h e0
              · exact ⟨by omega, h2⟩
  rw [p1.length_eq, p2.length_eq]
  simp

end Build

section Order
variable {n : ℕ} {α : Type} [Field α] [LinearOrder α] [IsStrictOrderedRing α]

theorem distSq_nonneg (a b : Vec n α) : 0 ≤ distSq a b := by
  unfold distSq dot
  exact Finset.sum_nonneg fun k _ => mul_self_nonneg (a k - b k)

/-- the middle of two points is no farther from a third point than the farther of the two -/
theorem distSq_mid (a b c : Vec n α) :
    distSq (fun k => 1 / 2 * (a k + b k)) c ≤ 1 / 2 * distSq a c + 1 / 2 * distSq b c := by
  unfold distSq dot
  rw [Finset.mul_sum, Finset.mul_sum, ← Finset.sum_add_distrib]
  refine Finset.sum_le_sum fun k _ => ?_
  nlinarith [mul_self_nonneg (a k - b k)]

theorem distSq_self (a : Vec n α) : distSq a a = 0 := by
  unfold distSq dot; simp

theorem Inv.merge {N : ℕ} {B : α} {s : State n α} (hI : Inv N B s) {i j : ℕ} (hi : i < s.nnode)
    (hj : j < s.nnode) (hij : i < j) (pi : (s.node i).parent = none) (pj : (s.node j).parent = none)
    (hB : 0 < B)
    (ni : (s.node i).nearest = some j) (nj : (s.node j).nearest = some i) :
    Inv N B (merge s i j) := by
  have hnew : (SysTree.merge s i j).nnode = s.nnode + 1 := rfl
  refine ⟨?_, ⟨?_, ?_, ?_⟩, ?_, ?_, ?_, ?_, ?_, ?_, ?_⟩
  · rw [hnew]; exact hI.ge.trans (Nat.le_succ _)
  · intro c hc
    try simp only
    rw [(merge_old (hc.trans_le hI.ge)).2.1]
    exact hI.shape.star c hc
  · intro c hc hcn
    rw [hnew] at hcn
    try simp only
    rcases Nat.lt_succ_iff_lt_or_eq.1 hcn with h | rfl
    · obtain ⟨a, b, h1, h2, h3, h4, h5, h6⟩ := hI.shape.inner c hc h
      try simp only at h1 h5 h6
      refine ⟨a, b, ?_, h2, h3, h4, ?_, ?_⟩
      · rw [(merge_old h).2.1]; exact h1
      · rw [merge_ne ?_ ?_ ?_]
        · exact h5
        · rintro rfl; rw [pi] at h5; exact absurd h5 (by simp)
        · rintro rfl; rw [pj] at h5; exact absurd h5 (by simp)
        · omega
      · rw [merge_ne ?_ ?_ ?_]
        · exact h6
        · rintro rfl; rw [pi] at h6; exact absurd h6 (by simp)
        · rintro rfl; rw [pj] at h6; exact absurd h6 (by simp)
        · omega
    · refine ⟨i, j, ?_, hi, hj, ne_of_lt hij, ?_, ?_⟩
      · rw [merge_new]
      · rw [merge_i hi hij]
      · rw [merge_j hj]
  · intro d p hd hp
    try simp only at hp ⊢
    rw [hnew] at hd ⊢
    by_cases e0 : d = s.nnode
    · subst e0; rw [merge_new] at hp; rw [hI.blank _ le_rfl] at hp; exact absurd hp (by simp)
    · have hd : d < s.nnode := by omega
      by_cases e1 : d = i
      · subst e1
        rw [merge_i hi hij] at hp
        obtain rfl := Option.some.inj hp
        exact ⟨hI.ge, Nat.lt_succ_self _, d, j, by rw [merge_new], Or.inl rfl⟩
      · by_cases e2 : d = j
        · subst e2
          rw [merge_j hj] at hp
          obtain rfl := Option.some.inj hp
          exact ⟨hI.ge, Nat.lt_succ_self _, i, d, by rw [merge_new], Or.inr rfl⟩
        · rw [merge_ne e1 e2 e0] at hp
          obtain ⟨h1, h2, a, b, h3, h4⟩ := hI.shape.parent_some d p hd hp
          try simp only at h3
          exact ⟨h1, Nat.lt_succ_of_lt h2, a, b, by rw [(merge_old h2).2.1]; exact h3, h4⟩
  · intro c hc
    rw [hnew] at hc
    rw [merge_ne (by omega) (by omega) (by omega)]
    exact hI.blank c (by omega)
  · have h1 := free_merge hi hj hij pi pj (hI.blank _ le_rfl)
    have h2 := hI.count
    rw [hnew]; omega
  · intro c d hc hd
    rw [hnew] at hc hd
    have key : ∀ x, x < s.nnode → distSq (fun k => 1 / 2 * ((s.node i).rpos k + (s.node j).rpos k))
        (s.node x).rpos < B := fun x hx => by
      have h0 := distSq_mid (s.node i).rpos (s.node j).rpos (s.node x).rpos
      have h1 := hI.close i x hi hx
      have h2 := hI.close j x hj hx
      unfold dd at h1 h2
      linarith
    unfold dd
    rcases Nat.lt_succ_iff_lt_or_eq.1 hc with h | rfl
    · rcases Nat.lt_succ_iff_lt_or_eq.1 hd with h' | rfl
      · rw [(merge_old h).2.2.1, (merge_old h').2.2.1]; exact hI.close c d h h'
      · rw [(merge_old h).2.2.1, merge_new, distSq_comm]; exact key c h
    · rcases Nat.lt_succ_iff_lt_or_eq.1 hd with h' | rfl
      · rw [merge_new, (merge_old h').2.2.1]; exact key d h'
      · rw [distSq_self]; exact hB
  · intro c hc
    rw [(merge_old (hc.trans_le hI.ge)).2.2.2.1]; exact hI.leafs c hc
  · intro c a b hc hab
    rw [hnew] at hc
    rcases Nat.lt_succ_iff_lt_or_eq.1 hc with h | rfl
    · rw [(merge_old h).2.1] at hab
      have hcN : N ≤ c := by
        by_contra hh
        rw [hI.shape.star c (not_le.1 hh)] at hab; exact absurd hab (by simp)
      obtain ⟨a', b', h1, h2, h3, -⟩ := hI.shape.inner c hcN h
      simp only [hab, Option.some.injEq, Prod.mk.injEq] at h1
      obtain ⟨rfl, rfl⟩ := h1
      rw [(merge_old h).2.2.2.1, (merge_old (h2.trans h)).2.2.2.1, (merge_old (h3.trans h)).2.2.2.1]
      exact hI.sums c a b h hab
    · rw [merge_new] at hab
      simp only [Option.some.injEq, Prod.mk.injEq] at hab
      obtain ⟨rfl, rfl⟩ := hab
      rw [merge_new, (merge_old hi).2.2.2.1, (merge_old hj).2.2.2.1]
  · intro c hc
    rw [hnew] at hc
    rcases Nat.lt_succ_iff_lt_or_eq.1 hc with h | rfl
    · rw [(merge_old h).2.2.2.1, (merge_old h).2.2.2.2]; exact hI.same c h
    · rw [merge_new]; simp only; rw [hI.same i hi, hI.same j hj]
  · intro c a b hc hab
    rw [hnew] at hc
    rcases Nat.lt_succ_iff_lt_or_eq.1 hc with h | rfl
    · rw [(merge_old h).2.1] at hab
      have hcN : N ≤ c := by
        by_contra hh
        rw [hI.shape.star c (not_le.1 hh)] at hab; exact absurd hab (by simp)
      obtain ⟨a', b', h1, h2, h3, -⟩ := hI.shape.inner c hcN h
      simp only [hab, Option.some.injEq, Prod.mk.injEq] at h1
      obtain ⟨rfl, rfl⟩ := h1
      rw [(merge_old (h2.trans h)).1, (merge_old (h3.trans h)).1]
      exact hI.near c a b h hab
    · rw [merge_new] at hab
      simp only [Option.some.injEq, Prod.mk.injEq] at hab
      obtain ⟨rfl, rfl⟩ := hab
      rw [(merge_old hi).1, (merge_old hj).1]
      exact ⟨ni, nj⟩

/-- a pair is mutually nearest -/
def Mutual (s : State n α) (p : ℕ × ℕ) : Prop :=
  (s.node p.1).nearest = some p.2 ∧ (s.node p.2).nearest = some p.1

/-- what the loop over the pairs needs -/
def Ready (s : State n α) (ps : List (ℕ × ℕ)) : Prop :=
  ps.Nodup ∧ ∀ p ∈ ps, p.1 < p.2 ∧ p.2 < s.nnode ∧
    (Mutual s p → (s.node p.1).parent = none ∧ (s.node p.2).parent = none)

theorem mutual_merge {s : State n α} {i j : ℕ} {p : ℕ × ℕ} (h1 : p.1 < s.nnode)
    (h2 : p.2 < s.nnode) : Mutual (merge s i j) p ↔ Mutual s p := by
  unfold Mutual
  rw [(merge_old h1).1, (merge_old h2).1]

theorem Ready.merge {s : State n α} {i j : ℕ} {ps : List (ℕ × ℕ)} (h : Ready s ((i, j) :: ps))
    (hm : Mutual s (i, j)) : Ready (merge s i j) ps := by
  obtain ⟨hn, hp⟩ := h
  obtain ⟨hij, hj, -⟩ := hp (i, j) List.mem_cons_self
  simp only at hij hj
  rw [List.nodup_cons] at hn
  refine ⟨hn.2, fun p hpm => ?_⟩
  obtain ⟨h1, h2, h3⟩ := hp p (List.mem_cons_of_mem _ hpm)
  refine ⟨h1, h2.trans (Nat.lt_succ_self _), fun hmu => ?_⟩
  rw [mutual_merge (h1.trans h2) h2] at hmu
  obtain ⟨h4, h5⟩ := h3 hmu
  obtain ⟨m1, m2⟩ := hm
  obtain ⟨u1, u2⟩ := hmu
  simp only at m1 m2
  have ne : p ≠ (i, j) := fun e => hn.1 (e ▸ hpm)
  have q1 : p.1 ≠ i := fun e => by
    rw [e, m1] at u1
    exact ne (Prod.ext e (Option.some.inj u1).symm)
  have q2 : p.1 ≠ j := fun e => by
    rw [e, m2] at u1
    have := Option.some.inj u1
    omega
  have q3 : p.2 ≠ i := fun e => by
    rw [e, m1] at u2
    have := Option.some.inj u2
    omega
  have q4 : p.2 ≠ j := fun e => by
    rw [e, m2] at u2
    exact ne (Prod.ext (Option.some.inj u2).symm e)
  rw [merge_ne q1 q2 (by omega), merge_ne q3 q4 (by omega)]
  exact ⟨h4, h5⟩

theorem foldl_tryMerge {N : ℕ} {B : α} (hB : 0 < B) (ps : List (ℕ × ℕ)) :
    ∀ s : State n α, Inv N B s → Ready s ps →
      Inv N B (ps.foldl tryMerge s) ∧ s.nnode ≤ (ps.foldl tryMerge s).nnode ∧
      ((∃ p ∈ ps, Mutual s p) → s.nnode < (ps.foldl tryMerge s).nnode) ∧
      (∀ k, k < s.nnode → ((ps.foldl tryMerge s).node k).rpos = (s.node k).rpos ∧
        ((ps.foldl tryMerge s).node k).child = (s.node k).child) ∧
      (∀ p ∈ ps, Mutual s p → ∃ c, c < (ps.foldl tryMerge s).nnode ∧
        ((ps.foldl tryMerge s).node c).child = some p) := by
  induction ps with
  | nil =>
    intro s hI _
    exact ⟨hI, le_rfl, fun ⟨p, hp, _⟩ => absurd hp (by simp), fun k _ => ⟨rfl, rfl⟩,
      fun p hp => absurd hp (by simp)⟩
  | cons p ps ih =>
    intro s hI hR
    rw [List.foldl_cons]
    unfold tryMerge
    by_cases hm : Mutual s p
    · have e : (if (s.node p.1).nearest = some p.2 ∧ (s.node p.2).nearest = some p.1 then
          merge s p.1 p.2 else s) = merge s p.1 p.2 := if_pos hm
      rw [e]
      obtain ⟨h1, h2, h3⟩ := hR.2 p List.mem_cons_self
      have hI' := hI.merge (h1.trans h2) h2 h1 (h3 hm).1 (h3 hm).2 hB hm.1 hm.2
      have hR' : Ready (merge s p.1 p.2) ps := Ready.merge hR hm
      obtain ⟨a1, a2, a3, a4, a5⟩ := ih _ hI' hR'
      have hlt : s.nnode < (merge s p.1 p.2).nnode := Nat.lt_succ_self _
      refine ⟨a1, hlt.le.trans a2, fun _ => hlt.trans_le a2, fun k hk => ?_, fun q hq hqm => ?_⟩
      · obtain ⟨b1, b2⟩ := a4 k (hk.trans hlt)
        exact ⟨b1.trans (merge_old hk).2.2.1, b2.trans (merge_old hk).2.1⟩
      · rcases List.mem_cons.1 hq with rfl | hq
        · refine ⟨s.nnode, hlt.trans_le a2, (a4 _ hlt).2.trans ?_⟩
          rw [merge_new]
        · obtain ⟨b1, b2, -⟩ := hR.2 q (List.mem_cons_of_mem _ hq)
          exact a5 q hq ((mutual_merge (b1.trans b2) b2).2 hqm)
    · have e : (if (s.node p.1).nearest = some p.2 ∧ (s.node p.2).nearest = some p.1 then
          merge s p.1 p.2 else s) = s := if_neg hm
      rw [e]
      have hR' : Ready s ps := ⟨(List.nodup_cons.1 hR.1).2, fun q hq => hR.2 q (List.mem_cons_of_mem _ hq)⟩
      obtain ⟨a1, a2, a3, a4, a5⟩ := ih s hI hR'
      refine ⟨a1, a2, fun ⟨q, hq, hqm⟩ => ?_, a4, fun q hq hqm => ?_⟩
      · rcases List.mem_cons.1 hq with rfl | hq
        · exact absurd hqm hm
        · exact a3 ⟨q, hq, hqm⟩
      · rcases List.mem_cons.1 hq with rfl | hq
        · exact absurd hqm hm
        · exact a5 q hq hqm

/-! ### one round -/

theorem set_old (big : α) (s : State n α) (f : List ℕ) (k : ℕ) :
    ((setNearest big s f).node k).child = (s.node k).child ∧
    ((setNearest big s f).node k).parent = (s.node k).parent ∧
    ((setNearest big s f).node k).rpos = (s.node k).rpos ∧
    ((setNearest big s f).node k).nstar = (s.node k).nstar ∧
    ((setNearest big s f).node k).ncomp = (s.node k).ncomp := by
  unfold setNearest
  simp only
  by_cases h : k ∈ f
  · rw [if_pos h]; exact ⟨rfl, rfl, rfl, rfl, rfl⟩
  · rw [if_neg h]; exact ⟨rfl, rfl, rfl, rfl, rfl⟩

theorem set_near_mem {big : α} {s : State n α} {f : List ℕ} {k : ℕ} (h : k ∈ f) :
    ((setNearest big s f).node k).nearest = (nearestOf big s f k).1 := by
  unfold setNearest; simp only; rw [if_pos h]

theorem set_near_ne {big : α} {s : State n α} {f : List ℕ} {k : ℕ} (h : k ∉ f) :
    ((setNearest big s f).node k).nearest = (s.node k).nearest := by
  unfold setNearest; simp only; rw [if_neg h]

theorem set_free (big : α) (s : State n α) (f : List ℕ) :
    freeList (setNearest big s f) = freeList s := by
  unfold freeList
  exact List.filter_congr fun k _ => by rw [(set_old big s f k).2.1]

theorem Inv.set {N : ℕ} {B : α} {s : State n α} (big : α) (hI : Inv N B s) :
    Inv N B (setNearest big s (freeList s)) := by
  have e1 : (fun c => ((setNearest big s (freeList s)).node c).child) = fun c => (s.node c).child :=
    funext fun c => (set_old big s _ c).1
  have e2 : (fun c => ((setNearest big s (freeList s)).node c).parent) = fun c => (s.node c).parent :=
    funext fun c => (set_old big s _ c).2.1
  refine ⟨hI.ge, ?_, fun c hc => ?_, ?_, fun c d hc hd => ?_, fun c hc => ?_, fun c a b hc hab => ?_,
    fun c hc => ?_, fun c a b hc hab => ?_⟩
  · rw [e1, e2]; exact hI.shape
  · rw [(set_old big s _ c).2.1]; exact hI.blank c hc
  · rw [set_free]; exact hI.count
  · unfold dd
    rw [(set_old big s _ c).2.2.1, (set_old big s _ d).2.2.1]; exact hI.close c d hc hd
  · rw [(set_old big s _ c).2.2.2.1]; exact hI.leafs c hc
  · rw [(set_old big s _ c).1] at hab
    rw [(set_old big s _ c).2.2.2.1, (set_old big s _ a).2.2.2.1, (set_old big s _ b).2.2.2.1]
    exact hI.sums c a b hc hab
  · rw [(set_old big s _ c).2.2.2.1, (set_old big s _ c).2.2.2.2]; exact hI.same c hc
  · rw [(set_old big s _ c).1] at hab
    have hcN : N ≤ c := by
      by_contra hh
      rw [hI.shape.star c (not_le.1 hh)] at hab; exact absurd hab (by simp)
    obtain ⟨a', b', h1, h2, h3, -, h4, h5⟩ := hI.shape.inner c hcN hc
    simp only [hab, Option.some.injEq, Prod.mk.injEq] at h1
    obtain ⟨rfl, rfl⟩ := h1
    try simp only at h4 h5
    rw [set_near_ne, set_near_ne]
    · exact hI.near c a b hc hab
    · rw [mem_freeList, h5]; simp
    · rw [mem_freeList, h4]; simp

theorem ready_set (big : α) (s : State n α) :
    Ready (setNearest big s (freeList s)) (pairs (freeList s)) := by
  refine ⟨nodup_pairs (sorted_freeList s), fun p hp => ?_⟩
  obtain ⟨h1, h2, h3⟩ := mem_pairs (sorted_freeList s) hp
  have h1 := mem_freeList.1 h1
  have h2 := mem_freeList.1 h2
  refine ⟨h3, h2.1, fun _ => ?_⟩
  rw [(set_old big s _ _).2.1, (set_old big s _ _).2.1]
  exact ⟨h1.2, h2.2⟩

/-- two free nodes: some pair is mutually nearest -/
theorem exists_mutual {N : ℕ} {big : α} {s : State n α} (hI : Inv N big s)
    (h2 : 2 ≤ (freeList s).length) :
    ∃ p ∈ pairs (freeList s), Mutual (setNearest big s (freeList s)) p := by
  set f := freeList s with hf
  have hs := sorted_freeList s
  rw [← hf] at hs
  -- every free node has a nearest node
  have hnear : ∀ i ∈ f, ∃ j ∈ f, j ≠ i ∧ nearestOf big s f i = (some j, dd s i j) ∧
      (∀ k ∈ f, k ≠ i → dd s i j ≤ dd s i k) ∧ ∀ k ∈ f, k ≠ i → dd s i k = dd s i j → j ≤ k := by
    intro i hi
    have hi' := mem_freeList.1 (hf ▸ hi)
    rcases near_nearestOf big s i f hs with ⟨-, h⟩ | ⟨j, a1, a2, a3, -, a4, a5⟩
    · exfalso
      have : ∃ k ∈ f, k ≠ i := by
        by_contra hh
        push Not at hh
        have hsub : f ⊆ [i] := fun k hk => List.mem_singleton.2 (hh k hk)
        have := (List.subperm_of_subset (nodup_freeList s) hsub).length_le
        rw [← hf] at this
        simp only [List.length_singleton] at this
        omega
      obtain ⟨k, hk, hki⟩ := this
      exact absurd (hI.close i k hi'.1 (mem_freeList.1 (hf ▸ hk)).1) (not_lt.2 (h k hk hki))
    · exact ⟨j, a1, a2, a3, a4, a5⟩
  choose! nn n1 n2 n3 n4 n5 using hnear
  -- the smallest distance
  have hne : f.toFinset.Nonempty := by
    rw [List.toFinset_nonempty_iff]; intro e; rw [e] at h2; simp at h2
  obtain ⟨x, hx, hmin⟩ := Finset.exists_min_image f.toFinset (fun i => dd s i (nn i)) hne
  simp only [List.mem_toFinset] at hx hmin
  -- the first node with this distance
  have hMne : (f.toFinset.filter fun i => dd s i (nn i) = dd s x (nn x)).Nonempty :=
    ⟨x, Finset.mem_filter.2 ⟨List.mem_toFinset.2 hx, rfl⟩⟩
  obtain ⟨i, hi, himin⟩ := Finset.exists_min_image _ (fun i => i) hMne
  rw [Finset.mem_filter, List.mem_toFinset] at hi
  obtain ⟨hi, hid⟩ := hi
  have hj := n1 i hi
  have hji := n2 i hi
  -- its nearest node has it as nearest node
  have hk := n1 (nn i) hj
  have hkj := n2 (nn i) hj
  have e1 : dd s (nn i) (nn (nn i)) = dd s x (nn x) := by
    refine le_antisymm ?_ (hmin _ hj)
    exact (n4 (nn i) hj i hi (Ne.symm hji)).trans (by rw [dd_comm, hid])
  have e2 : dd s (nn (nn i)) (nn (nn (nn i))) = dd s x (nn x) := by
    refine le_antisymm ?_ (hmin _ hk)
    exact (n4 _ hk (nn i) hj (Ne.symm hkj)).trans (by rw [dd_comm, e1])
  have e3 : i ≤ nn (nn i) := himin _ (Finset.mem_filter.2 ⟨List.mem_toFinset.2 hk, e2⟩)
  have e4 : nn (nn i) ≤ i := n5 (nn i) hj i hi (Ne.symm hji) (by rw [dd_comm, hid, e1])
  have e5 : nn (nn i) = i := le_antisymm e4 e3
  have m1 : ((setNearest big s f).node i).nearest = some (nn i) := by rw [set_near_mem hi, n3 i hi]
  have m2 : ((setNearest big s f).node (nn i)).nearest = some i := by
    rw [set_near_mem hj, n3 _ hj, e5]
  rcases lt_or_gt_of_ne hji with h | h
  · exact ⟨(nn i, i), pairs_mem hs hj hi h, m2, m1⟩
  · exact ⟨(i, nn i), pairs_mem hs hi hj h, m1, m2⟩

theorem Inv.pass {N : ℕ} {big : α} (hb : 0 < big) {s : State n α} (hI : Inv N big s) :
    Inv N big (pass big s) ∧ (2 ≤ (freeList s).length → s.nnode < (pass big s).nnode) ∧
    (∀ k, k < s.nnode → ((SysTree.pass big s).node k).child = (s.node k).child) ∧ s.nnode ≤ (SysTree.pass big s).nnode := by
  obtain ⟨h1, h2, h3, h4, -⟩ := foldl_tryMerge hb (pairs (freeList s)) _ (hI.set big) (ready_set big s)
  exact ⟨h1, fun h => h3 (exists_mutual hI h), fun k hk => ((h4 k hk).2).trans (set_old big s _ k).1, h2⟩

theorem freeList_pos {N : ℕ} {B : α} {s : State n α} (hN : 0 < N) (hI : Inv N B s) :
    1 ≤ (freeList s).length := by
  have h : s.nnode - 1 ∈ freeList s := by
    have hge := hI.ge
    refine mem_freeList.2 ⟨by omega, ?_⟩
    cases hp : (s.node (s.nnode - 1)).parent with
    | none => rfl
    | some p =>
      have h1 := hI.shape.lt_parent (d := s.nnode - 1) (p := p) (by omega) hp
      have h2 := (hI.shape.parent_some (s.nnode - 1) p (by omega) hp).2.1
      omega
  exact List.length_pos_of_mem h

theorem loop_ends {N : ℕ} {big : α} (hb : 0 < big) (hN : 0 < N) {nmax : ℕ} (hm : 2 * N ≤ nmax) :
    ∀ (fuel : ℕ) (s : State n α), Inv N big s → (freeList s).length ≤ fuel →
      ∃ s', loop big nmax fuel s = some s' ∧ Inv N big s' ∧ (freeList s').length = 1 ∧
        ∀ k, k < s.nnode → (s'.node k).child = (s.node k).child := by
  intro fuel
  induction fuel with
  | zero =>
    intro s hI hf
    have := freeList_pos hN hI
    omega
  | succ fuel ih =>
    intro s hI hf
    have h1 := freeList_pos hN hI
    have h2 := hI.count
    rw [loop, if_pos (by omega)]
    by_cases h3 : (freeList s).length = 1
    · rw [if_pos h3]; exact ⟨s, rfl, hI, h3, fun k _ => rfl⟩
    · rw [if_neg h3]
      obtain ⟨hI', hlt, hch, hle⟩ := hI.pass hb
      have h4 := hlt (by omega)
      have h5 := hI'.count
      obtain ⟨s', a1, a2, a3, a4⟩ := ih _ hI' (by omega)
      exact ⟨s', a1, a2, a3, fun k hk => (a4 k (hk.trans h4)).trans (hch k hk)⟩

theorem free_init (big : α) (N : ℕ) (r : ℕ → Vec n α) : freeList (init big N r) = List.range N := by
  unfold freeList init
  exact List.filter_eq_self.2 fun _ _ => rfl

theorem inv_init {big : α} {N : ℕ} {r : ℕ → Vec n α}
    (hr : ∀ i j, i < N → j < N → distSq (r i) (r j) < big) : Inv N big (init big N r) := by
  refine ⟨le_rfl, ⟨fun c _ => rfl, fun c h1 h2 => absurd h2 (not_lt.2 h1), ?_⟩, fun c _ => rfl, ?_, hr,
    fun c hc => ?_, ?_, fun c hc => rfl, ?_⟩
  · intro d p _ hp; exact absurd hp (by simp [init])
  · rw [free_init]; simp [init]; omega
  · simp [init, hc]
  · intro c a b _ h; exact absurd h (by simp [init])
  · intro c a b _ h; exact absurd h (by simp [init])

theorem Inv.complete {N : ℕ} {B : α} {s : State n α} (hN : 0 < N) (hI : Inv N B s)
    (h1 : (freeList s).length = 1) :
    s.nnode = 2 * N - 1 ∧ Complete N (fun c => (s.node c).child) (fun c => (s.node c).parent) := by
  have hn : s.nnode = 2 * N - 1 := by have := hI.count; omega
  have hroot : (s.node (2 * N - 2)).parent = none := by
    cases hp : (s.node (2 * N - 2)).parent with
    | none => rfl
    | some p =>
      have h1 := hI.shape.lt_parent (d := 2 * N - 2) (p := p) (by omega) hp
      have h2 := (hI.shape.parent_some (2 * N - 2) p (by omega) hp).2.1
      omega
  refine ⟨hn, ⟨hn ▸ hI.shape, fun d hd => ⟨fun hp => ?_, fun e => e ▸ hroot⟩⟩⟩
  obtain ⟨x, hx⟩ := List.length_eq_one_iff.1 h1
  have m1 : d ∈ freeList s := mem_freeList.2 ⟨by omega, hp⟩
  have m2 : 2 * N - 2 ∈ freeList s := mem_freeList.2 ⟨by omega, hroot⟩
  rw [hx, List.mem_singleton] at m1 m2
  rw [m1, m2]

/-- the number of stars of a node is the number of leaves below it -/
theorem Inv.nstar {N : ℕ} {B : α} {s : State n α} (hI : Inv N B s) {c : ℕ} {l : List ℕ}
    (h : Leaves (fun c => (s.node c).child) c l) : c < s.nnode → (s.node c).nstar = l.length := by
  induction h with
  | star c hc =>
    intro h
    by_cases hN : c < N
    · exact hI.leafs c hN
    · obtain ⟨a, b, h1, -⟩ := hI.shape.inner c (not_lt.1 hN) h
      simp only [hc] at h1
      exact absurd h1 (by simp)
  | node c a b l m h1 _ _ ih1 ih2 =>
    intro h
    have hcN : N ≤ c := by
      by_contra hh
      have := hI.shape.star c (not_le.1 hh)
      try simp only at h1 this
      rw [this] at h1; exact absurd h1 (by simp)
    obtain ⟨a', b', e1, h2, h3, -⟩ := hI.shape.inner c hcN h
    try simp only at h1 e1
    rw [h1] at e1
    simp only [Option.some.injEq, Prod.mk.injEq] at e1
    obtain ⟨rfl, rfl⟩ := e1
    rw [hI.sums c a b h h1, ih1 (h2.trans h), ih2 (h3.trans h), List.length_append]

end Order

/-! ### a loop that does not end -/

section Far
variable {n : ℕ} {α : Type} [Field α] [LinearOrder α] [IsStrictOrderedRing α]

theorem foldl_none (s : State n α) (ps : List (ℕ × ℕ)) (h : ∀ p ∈ ps, (s.node p.1).nearest = none) :
    ps.foldl tryMerge s = s := by
  induction ps with
  | nil => rfl
  | cons p ps ih =>
    rw [List.foldl_cons]
    have e : tryMerge s p = s := by
      unfold tryMerge
      rw [if_neg]
      rintro ⟨h1, -⟩
      rw [h p List.mem_cons_self] at h1
      exact absurd h1 (by simp)
    rw [e]
    exact ih fun q hq => h q (List.mem_cons_of_mem _ hq)

theorem loop_far {big : α} {N nmax : ℕ} (hN : N ≠ 1) (hm : N < nmax) (r : ℕ → Vec n α)
    (hr : ∀ i j, i < N → j < N → i ≠ j → big ≤ distSq (r i) (r j)) :
    ∀ (fuel : ℕ) (s : State n α), s.nnode = N → (∀ i, i < N → (s.node i).parent = none) →
      (∀ i, i < N → (s.node i).rpos = r i) → loop big nmax fuel s = none := by
  intro fuel
  induction fuel with
  | zero => intro s _ _ _; rfl
  | succ fuel ih =>
    intro s h1 h2 h3
    have hf : freeList s = List.range N := by
      unfold freeList
      rw [h1]
      exact List.filter_eq_self.2 fun i hi => by rw [h2 i (List.mem_range.1 hi)]; rfl
    rw [loop, if_pos (by omega), if_neg (by rw [hf, List.length_range]; exact hN)]
    have hnear : ∀ i ∈ freeList s, ((setNearest big s (freeList s)).node i).nearest = none := by
      intro i hi
      rw [set_near_mem hi]
      have hi' : i < N := by rw [hf] at hi; exact List.mem_range.1 hi
      rcases near_nearestOf big s i (freeList s) (sorted_freeList s) with ⟨h, -⟩ | ⟨j, a1, a2, -, a4, -⟩
      · rw [h]
      · exfalso
        have hj' : j < N := by rw [hf] at a1; exact List.mem_range.1 a1
        unfold dd at a4
        rw [h3 i hi', h3 j hj'] at a4
        exact absurd (hr i j hi' hj' (Ne.symm a2)) (not_le.2 a4)
    have e : pass big s = setNearest big s (freeList s) := by
      unfold pass
      exact foldl_none _ _ fun p hp => hnear _ (mem_pairs (sorted_freeList s) hp).1
    rw [e]
    exact ih _ h1 (fun i hi => (set_old big s _ i).2.1.trans (h2 i hi))
      fun i hi => (set_old big s _ i).2.2.1.trans (h3 i hi)

end Far

end Gandalf.SysTree
