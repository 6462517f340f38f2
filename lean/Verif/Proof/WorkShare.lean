import Verif.Model.WorkShare
import Verif.Spec.WorkShare
import Verif.Proof.TreeWalk
import Verif.Proof.OctNodes
import Verif.Proof.KDStructure
import Mathlib.Algebra.Order.BigOperators.Ring.Finset
import Mathlib.Algebra.Order.BigOperators.Group.List
import Mathlib.Tactic.Linarith
import Mathlib.Tactic.FieldSimp
import Mathlib.Tactic.Ring

/-! Lemmas on the division of work. -/

set_option autoImplicit false
set_option linter.unusedSectionVars false

namespace Gandalf.Work

variable {n : ℕ} {α : Type*} [Field α] [LinearOrder α] [IsStrictOrderedRing α]

/-! ### Intervals -/

theorem part_nonneg {a b h g : α} (hg : h < g) : 0 ≤ part a b h g :=
  div_nonneg (le_max_left _ _) (by linarith)

theorem part_le_one {a b h g : α} (hg : h < g) : part a b h g ≤ 1 := by
  unfold part
  rw [div_le_one (by linarith)]
  refine max_le (by linarith) ?_
  have := min_le_right b g
  have := le_max_right a h
  linarith

theorem overlap1_eq {a b h g : α} (hab : a ≤ b) (hg : h < g) (h1 : h ≠ a) (h2 : g ≠ b) :
    overlap1 a b h g = part a b h g * (g - h) := by
  unfold part
  rw [div_mul_cancel₀ _ (by linarith)]
  unfold overlap1
  rcases lt_or_gt_of_ne h1 with c1 | c1 <;> rcases lt_or_gt_of_ne h2 with c2 | c2
  · by_cases c : g ≤ a ∨ h ≥ b
    · rw [if_pos c, min_eq_right c2.le, max_eq_left c1.le]
      rcases c with c | c
      · exact (max_eq_left (by linarith)).symm
      · exact (max_eq_left (by linarith)).symm
    · rw [if_neg c]
      push Not at c
      rw [if_neg (by rintro ⟨x, _⟩; linarith), if_neg (by rintro ⟨_, x⟩; linarith), if_pos ⟨c1, c2⟩, min_eq_right c2.le,
        max_eq_left c1.le]
      exact (max_eq_right (by linarith [c.1])).symm
  · by_cases c : g ≤ a ∨ h ≥ b
    · rw [if_pos c, min_eq_left c2.le, max_eq_left c1.le]
      rcases c with c | c
      · exact (max_eq_left (by linarith)).symm
      · exact (max_eq_left (by linarith)).symm
    · rw [if_neg c, if_neg (by rintro ⟨x, _⟩; linarith), if_pos ⟨c1, c2⟩, min_eq_left c2.le, max_eq_left c1.le]
      exact (max_eq_right (by linarith)).symm
  · by_cases c : g ≤ a ∨ h ≥ b
    · rw [if_pos c, min_eq_right c2.le, max_eq_right c1.le]
      rcases c with c | c
      · exact (max_eq_left (by linarith)).symm
      · exact (max_eq_left (by linarith)).symm
    · rw [if_neg c, if_pos ⟨c1, c2⟩, min_eq_right c2.le, max_eq_right c1.le]
      exact (max_eq_right (by linarith)).symm
  · by_cases c : g ≤ a ∨ h ≥ b
    · rw [if_pos c, min_eq_left c2.le, max_eq_right c1.le]
      rcases c with c | c
      · exact (max_eq_left (by linarith)).symm
      · exact (max_eq_left (by linarith)).symm
    · rw [if_neg c]
      push Not at c
      rw [if_neg (by rintro ⟨_, x⟩; linarith), if_neg (by rintro ⟨x, _⟩; linarith), if_neg (by rintro ⟨x, _⟩; linarith),
        if_pos ⟨c1, c2⟩, min_eq_left c2.le, max_eq_right c1.le]
      exact (max_eq_right (by linarith [c.2])).symm

theorem part_add {a b h g r : α} (h1 : a ≤ r) (h2 : r ≤ b) (hg : h < g) : part a r h g + part r b h g = part a b h g := by
  unfold part
  rw [← add_div]
  congr 1
  rcases le_total r h with c | c
  · have e1 : min r g = r := min_eq_left (by linarith)
    have e2 : max a h = h := max_eq_right (by linarith)
    rw [e1, e2, max_eq_right c, max_eq_left (by linarith : r - h ≤ 0), zero_add]
  · rcases le_total r g with d | d
    · rw [min_eq_left d, max_eq_left c]
      have e1 : 0 ≤ r - max a h := by linarith [max_le h1 c]
      have e2 : 0 ≤ min b g - r := by linarith [le_min h2 d]
      rw [max_eq_right e1, max_eq_right e2, max_eq_right (show (0 : α) ≤ min b g - max a h by linarith)]
      ring
    · have e1 : min b g = g := min_eq_right (by linarith)
      rw [e1, min_eq_right d, max_eq_left c, max_eq_left (by linarith : g - r ≤ 0), add_zero]

theorem part_empty (a h g : α) : part a a h g = 0 := by
  unfold part
  rw [max_eq_left, zero_div]
  have := min_le_left a g
  have := le_max_left a h
  linarith

theorem part_mono {a h g r s : α} (hrs : r ≤ s) (hg : h < g) : part a r h g ≤ part a s h g := by
  unfold part
  apply div_le_div_of_nonneg_right _ (by linarith)
  apply max_le_max le_rfl
  have := min_le_min_right g hrs
  linarith

theorem part_lip {a h g r s : α} (hrs : r ≤ s) (hg : h < g) : part a s h g ≤ part a r h g + (s - r) / (g - h) := by
  unfold part
  rw [← add_div]
  apply div_le_div_of_nonneg_right _ (by linarith)
  have e : min s g ≤ min r g + (s - r) := by
    rcases le_total r g with c | c
    · rw [min_eq_left c]
      linarith [min_le_left s g]
    · rw [min_eq_right c, min_eq_right (by linarith)]
      linarith
  refine max_le ?_ ?_
  · linarith [le_max_left 0 (min r g - max a h)]
  · linarith [le_max_right 0 (min r g - max a h)]

theorem part_one_iff {a b h g : α} (hg : h < g) : part a b h g = 1 ↔ a ≤ h ∧ g ≤ b := by
  unfold part
  rw [div_eq_one_iff_eq (by linarith)]
  constructor
  · intro e
    have h0 : 0 < min b g - max a h := by
      by_contra hc
      rw [max_eq_left (not_lt.mp hc)] at e
      linarith
    rw [max_eq_right h0.le] at e
    have := min_le_left b g
    have := min_le_right b g
    have := le_max_left a h
    have := le_max_right a h
    exact ⟨by linarith, by linarith⟩
  · rintro ⟨c, d⟩
    rw [min_eq_right d, max_eq_right c]
    exact max_eq_right (by linarith)

theorem part_zero_sub {a b h g h' g' : α} (hg : h < g) (hg' : h' < g') (c1 : h ≤ h') (c2 : g' ≤ g) (e : part a b h g = 0) :
    part a b h' g' = 0 := by
  unfold part at e ⊢
  rcases div_eq_zero_iff.mp e with e | e
  · rw [max_eq_left, zero_div]
    have := le_max_right 0 (min b g - max a h)
    have := min_le_min_left b c2
    have := max_le_max_left a c1
    linarith
  · linarith

/-! ### Boxes -/

theorem share_nonneg {b h : Box n α} (hh : ∀ k, h.min k < h.max k) : 0 ≤ share b h :=
  Finset.prod_nonneg fun k _ => part_nonneg (hh k)

theorem share_le_one {b h : Box n α} (hh : ∀ k, h.min k < h.max k) : share b h ≤ 1 :=
  Finset.prod_le_one (fun k _ => part_nonneg (hh k)) fun k _ => part_le_one (hh k)

theorem frac_eq {b h : Box n α} (hb : ∀ k, b.min k ≤ b.max k) (hh : ∀ k, h.min k < h.max k)
    (ha : ∀ k, h.min k ≠ b.min k ∧ h.max k ≠ b.max k) : fracOverlap b h = share b h := by
  unfold fracOverlap share
  have hpos : 0 < ∏ k, (h.max k - h.min k) := Finset.prod_pos fun k _ => by linarith [hh k]
  rw [if_pos hpos, div_eq_iff hpos.ne', ← Finset.prod_mul_distrib]
  exact Finset.prod_congr rfl fun k _ => overlap1_eq (hb k) (hh k) (ha k).1 (ha k).2

theorem share_one_iff {b h : Box n α} (hh : ∀ k, h.min k < h.max k) :
    share b h = 1 ↔ ∀ k, b.min k ≤ h.min k ∧ h.max k ≤ b.max k := by
  constructor
  · intro e k
    rw [← part_one_iff (hh k)]
    by_contra hne
    have hlt := lt_of_le_of_ne (part_le_one (a := b.min k) (b := b.max k) (hh k)) hne
    have : share b h < 1 := by
      unfold share
      rw [← Finset.mul_prod_erase Finset.univ _ (Finset.mem_univ k)]
      have h1 : ∏ x ∈ Finset.univ.erase k, part (b.min x) (b.max x) (h.min x) (h.max x) ≤ 1 :=
        Finset.prod_le_one (fun j _ => part_nonneg (hh j)) fun j _ => part_le_one (hh j)
      have h0 : 0 ≤ part (b.min k) (b.max k) (h.min k) (h.max k) := part_nonneg (hh k)
      exact (mul_le_of_le_one_right h0 h1).trans_lt hlt
    exact this.ne e
  · intro hk
    exact Finset.prod_eq_one fun k _ => (part_one_iff (hh k)).mpr (hk k)

theorem share_zero_sub {b h h' : Box n α} (hh : ∀ k, h.min k < h.max k) (hh' : ∀ k, h'.min k < h'.max k)
    (hs : ∀ k, h.min k ≤ h'.min k ∧ h'.max k ≤ h.max k) (e : share b h = 0) : share b h' = 0 := by
  obtain ⟨k, _, hk⟩ := Finset.prod_eq_zero_iff.mp e
  exact Finset.prod_eq_zero (Finset.mem_univ k) (part_zero_sub (hh k) (hh' k) (hs k).1 (hs k).2 hk)

theorem share_one_sub {b h h' : Box n α} (hh : ∀ k, h.min k < h.max k) (hh' : ∀ k, h'.min k < h'.max k)
    (hs : ∀ k, h.min k ≤ h'.min k ∧ h'.max k ≤ h.max k) (e : share b h = 1) : share b h' = 1 := by
  rw [share_one_iff hh] at e
  rw [share_one_iff hh']
  exact fun k => ⟨(e k).1.trans (hs k).1, (hs k).2.trans (e k).2⟩

/-- the share splits into the factor of one dimension and the rest -/
theorem share_split (b h : Box n α) (k : Fin n) :
    share b h = part (b.min k) (b.max k) (h.min k) (h.max k) *
      ∏ j ∈ Finset.univ.erase k, part (b.min j) (b.max j) (h.min j) (h.max j) :=
  (Finset.mul_prod_erase Finset.univ _ (Finset.mem_univ k)).symm

theorem share_left (b h : Box n α) (k : Fin n) (r : α) :
    share (Mpi.leftBox b k r) h = part (b.min k) r (h.min k) (h.max k) *
      ∏ j ∈ Finset.univ.erase k, part (b.min j) (b.max j) (h.min j) (h.max j) := by
  rw [share_split _ h k]
  simp only [Mpi.leftBox, Function.update_self]
  congr 1
  refine Finset.prod_congr rfl fun j hj => ?_
  rw [Function.update_of_ne (Finset.ne_of_mem_erase hj)]

theorem share_right (b h : Box n α) (k : Fin n) (r : α) :
    share (Mpi.rightBox b k r) h = part r (b.max k) (h.min k) (h.max k) *
      ∏ j ∈ Finset.univ.erase k, part (b.min j) (b.max j) (h.min j) (h.max j) := by
  rw [share_split _ h k]
  simp only [Mpi.rightBox, Function.update_self]
  congr 1
  refine Finset.prod_congr rfl fun j hj => ?_
  rw [Function.update_of_ne (Finset.ne_of_mem_erase hj)]

theorem rest_bounds {b h : Box n α} (hh : ∀ k, h.min k < h.max k) (k : Fin n) :
    0 ≤ ∏ j ∈ Finset.univ.erase k, part (b.min j) (b.max j) (h.min j) (h.max j) ∧
      ∏ j ∈ Finset.univ.erase k, part (b.min j) (b.max j) (h.min j) (h.max j) ≤ 1 :=
  ⟨Finset.prod_nonneg fun j _ => part_nonneg (hh j),
    Finset.prod_le_one (fun j _ => part_nonneg (hh j)) fun j _ => part_le_one (hh j)⟩

theorem share_add {b h : Box n α} (hh : ∀ k, h.min k < h.max k) {k : Fin n} {r : α} (h1 : b.min k ≤ r) (h2 : r ≤ b.max k) :
    share (Mpi.leftBox b k r) h + share (Mpi.rightBox b k r) h = share b h := by
  rw [share_left, share_right, ← add_mul, part_add h1 h2 (hh k), ← share_split]

theorem share_empty {b h : Box n α} (hh : ∀ k, h.min k < h.max k) (k : Fin n) : share (Mpi.leftBox b k (b.min k)) h = 0 := by
  rw [share_left, part_empty, zero_mul]

theorem share_mono {b h : Box n α} (hh : ∀ k, h.min k < h.max k) (k : Fin n) {r s : α} (hrs : r ≤ s) :
    share (Mpi.leftBox b k r) h ≤ share (Mpi.leftBox b k s) h := by
  rw [share_left, share_left]
  exact mul_le_mul_of_nonneg_right (part_mono hrs (hh k)) (rest_bounds hh k).1

theorem share_lip {b h : Box n α} (hh : ∀ k, h.min k < h.max k) (k : Fin n) {r s : α} (hrs : r ≤ s) :
    share (Mpi.leftBox b k s) h ≤ share (Mpi.leftBox b k r) h + (s - r) / (h.max k - h.min k) := by
  rw [share_left, share_left]
  obtain ⟨h0, h1⟩ := rest_bounds (b := b) hh k
  have e := mul_le_mul_of_nonneg_right (part_lip (a := b.min k) hrs (hh k)) h0
  have hq : 0 ≤ (s - r) / (h.max k - h.min k) := div_nonneg (by linarith) (by linarith [hh k])
  have := mul_le_of_le_one_right hq h1
  rw [add_mul] at e
  linarith

/-! ### Trees -/

theorem inBox_append (b : Box n α) (l m : List (Box n α × α)) : inBox b (l ++ m) = inBox b l + inBox b m := by
  simp [inBox]

theorem items_cons (hbox : ℕ → Box n α) (work : ℕ → α) (b : Box n α) (c : ℕ) (ch rest : Forest) :
    inBox b (leafItems hbox work (.cons c ch rest)) =
      inBox b (leafItems hbox work (.cons c ch .nil)) + inBox b (leafItems hbox work rest) := by
  unfold leafItems
  rw [Forest.leaves_cons, List.map_append, inBox_append]

theorem items_leaf (hbox : ℕ → Box n α) (work : ℕ → α) (b : Box n α) (c : ℕ) :
    inBox b (leafItems hbox work (.cons c .nil .nil)) = share b (hbox c) * work c := by
  simp [leafItems, Forest.leaves, inBox]

theorem items_inner (hbox : ℕ → Box n α) (work : ℕ → α) (b : Box n α) (c : ℕ) {ch : Forest} (h : ch ≠ .nil) :
    inBox b (leafItems hbox work (.cons c ch .nil)) = inBox b (leafItems hbox work ch) := by
  unfold leafItems
  rw [Forest.leaves_inner c h]

theorem none_below {hbox : ℕ → Box n α} {work : ℕ → α} {b : Box n α} : ∀ f : Forest, Sums hbox work f →
    Tops (fun c => share b (hbox c) = 0) f → inBox b (leafItems hbox work f) = 0 := by
  intro f
  induction f with
  | nil => intros; simp [leafItems, Forest.leaves, inBox]
  | cons c ch rest ih1 ih2 =>
    rintro ⟨hc, hw, hsub, hch, hrest⟩ ⟨h0, htop⟩
    rw [items_cons, ih2 hrest htop, add_zero]
    by_cases hn : ch = .nil
    · subst hn
      rw [items_leaf, h0, zero_mul]
    · rw [items_inner _ _ _ _ hn]
      refine ih1 hch ?_
      clear ih1 ih2 hn hw
      induction ch with
      | nil => trivial
      | cons d g r _ ih => exact ⟨share_zero_sub hc hch.1 hsub.1 h0, ih hsub.2 hch.2.2.2.2⟩

theorem all_below {hbox : ℕ → Box n α} {work : ℕ → α} {b : Box n α} : ∀ f : Forest, Sums hbox work f →
    Tops (fun c => share b (hbox c) = 1) f → inBox b (leafItems hbox work f) = topWork work f := by
  intro f
  induction f with
  | nil => intros; simp [leafItems, Forest.leaves, inBox, topWork]
  | cons c ch rest ih1 ih2 =>
    rintro ⟨hc, hw, hsub, hch, hrest⟩ ⟨h0, htop⟩
    rw [items_cons, ih2 hrest htop]
    simp only [topWork]
    congr 1
    by_cases hn : ch = .nil
    · subst hn
      rw [items_leaf, h0, one_mul]
    · rw [items_inner _ _ _ _ hn, hw hn]
      refine ih1 hch ?_
      clear ih1 ih2 hn hw
      induction ch with
      | nil => trivial
      | cons d g r _ ih => exact ⟨share_one_sub hc hch.1 hsub.1 h0, ih hsub.2 hch.2.2.2.2⟩

theorem fold_work {T : Tol α} {P : Pruned n α} {b : Box n α} (hT : T.full ≤ T.last) (hb : ∀ k, b.min k ≤ b.max k) :
    ∀ (f : Forest) (next : ℕ) (s : α), f.Linked P.links next → Sums P.hbox P.work f → (∀ c ∈ f.cells, Clear T P.hbox b c) →
      f.fold (body T P b) s = some (s + inBox b (leafItems P.hbox P.work f)) := by
  intro f
  induction f with
  | nil => intros; simp [Forest.fold, leafItems, Forest.leaves, inBox]
  | cons c ch rest ih1 ih2 =>
    rintro next s ⟨hl1, hl2, hl3, hl4⟩ ⟨hc, hw, hsub, hch, hrest⟩ hcl
    have hcc := hcl c (by simp [Forest.cells])
    have hcl1 : ∀ d ∈ ch.cells, Clear T P.hbox b d := fun d hd => hcl d (by simp [Forest.cells, hd])
    have hcl2 : ∀ d ∈ rest.cells, Clear T P.hbox b d := fun d hd => hcl d (by simp [Forest.cells, hd])
    have hf : fracOverlap b (P.hbox c) = share b (P.hbox c) := frac_eq hb hc hcc.1
    have hnext : ∀ x, x = inBox b (leafItems P.hbox P.work (.cons c ch .nil)) →
        rest.fold (body T P b) (s + x) = some (s + inBox b (leafItems P.hbox P.work (.cons c ch rest))) := by
      intro x hx
      rw [ih2 next _ hl4 hrest hcl2, items_cons, hx, add_assoc]
    simp only [Forest.fold, body, hf]
    by_cases h1 : share b (P.hbox c) < T.small ∨ share b (P.hbox c) > T.full
    · rw [if_pos h1]
      refine hnext _ ?_
      by_cases hn : ch = .nil
      · subst hn
        rw [items_leaf]
      rw [items_inner _ _ _ _ hn]
      rcases h1 with h1 | h1
      · have h0 := hcc.2.1.resolve_right (not_le.mpr h1)
        rw [h0, zero_mul]
        refine (none_below ch hch ?_).symm
        clear ih1 ih2 hn hw hl2 hl3 hcl1 hcl hnext
        induction ch with
        | nil => trivial
        | cons d g r _ ih => exact ⟨share_zero_sub hc hch.1 hsub.1 h0, ih hsub.2 hch.2.2.2.2⟩
      · have h0 := hcc.2.2.resolve_right (not_le.mpr h1)
        rw [h0, one_mul, hw hn]
        refine (all_below ch hch ?_).symm
        clear ih1 ih2 hn hw hl2 hl3 hcl1 hcl hnext
        induction ch with
        | nil => trivial
        | cons d g r _ ih => exact ⟨share_one_sub hc hch.1 hsub.1 h0, ih hsub.2 hch.2.2.2.2⟩
    · rw [if_neg h1]
      push Not at h1
      by_cases hn : ch = .nil
      · subst hn
        rw [hl2]
        simp only [Option.isSome_none, Bool.false_eq_true, if_false]
        rw [if_pos ⟨h1.1, h1.2.trans hT⟩]
        exact hnext _ (items_leaf _ _ _ _).symm
      · have ho : (P.links.copen c).isSome = true := by
          rw [hl2]
          cases ch with
          | nil => exact absurd rfl hn
          | cons d g r => rfl
        rw [if_pos ho]
        simp only
        rw [ih1 _ s hl3 hch hcl1, Option.bind_some]
        exact hnext _ (items_inner _ _ _ _ hn).symm

theorem leaves_closed {T : Tol α} {P : Pruned n α} {b : Box n α} : ∀ (f : Forest) (next : ℕ), f.Linked P.links next →
    f.AllLeaves (fun c => ∀ s s', body T P b c s ≠ .open_ s') := by
  intro f
  induction f with
  | nil => intros; trivial
  | cons c ch rest ih1 ih2 =>
    rintro next ⟨_, hl2, hl3, hl4⟩
    refine ⟨fun hn s s' => ?_, ih1 _ hl3, ih2 _ hl4⟩
    subst hn
    simp only [body, hl2, Option.isSome_none, Bool.false_eq_true, if_false]
    split_ifs <;> simp

theorem workInBox_eq {T : Tol α} {P : Pruned n α} {f : Forest} {b : Box n α} (hT : T.full ≤ T.last)
    (hb : ∀ k, b.min k ≤ b.max k) (hP : Fits P f) (hcl : ∀ c ∈ f.cells, Clear T P.hbox b c) :
    workInBox T P b = some (inBox b (leafItems P.hbox P.work f)) := by
  have hw := walk_eq_fold P.links P.Ncell (body T P b) f hP.linked hP.cells (leaves_closed f _ hP.linked) 0 P.Ncell hP.size
  rw [hP.entry, fold_work hT hb f _ 0 hP.linked hP.sums hcl] at hw
  unfold workInBox
  rw [hw]
  simp

theorem foldl_work {T : Tol α} {b : Box n α} (hT : T.full ≤ T.last) (hb : ∀ k, b.min k ≤ b.max k) :
    ∀ (l : List (Pruned n α × Forest)) (s : α), (∀ x ∈ l, Fits x.1 x.2 ∧ ∀ c ∈ x.2.cells, Clear T x.1.hbox b c) →
      (l.map Prod.fst).foldl (fun s P => s.bind fun s => (workInBox T P b).map fun w => s + w) (some s) =
        some (s + inBox b (allItems l)) := by
  intro l
  induction l with
  | nil => intros; simp [allItems, inBox]
  | cons x l ih =>
    intro s h
    obtain ⟨hx, hcl⟩ := h x (by simp)
    rw [List.map_cons, List.foldl_cons, Option.bind_some, workInBox_eq hT hb hx hcl, Option.map_some,
      ih _ fun y hy => h y (by simp [hy])]
    simp only [allItems, List.flatMap_cons, inBox_append, add_assoc]

theorem sumWork_eq {T : Tol α} {b : Box n α} (hT : T.full ≤ T.last) (hb : ∀ k, b.min k ≤ b.max k)
    (l : List (Pruned n α × Forest)) (h : ∀ x ∈ l, Fits x.1 x.2 ∧ ∀ c ∈ x.2.cells, Clear T x.1.hbox b c) :
    sumWork T (l.map Prod.fst) b = some (inBox b (allItems l)) := by
  unfold sumWork
  rw [foldl_work hT hb l 0 h, zero_add]

/-! ### Sums of works -/

theorem inBox_add {b : Box n α} {k : Fin n} {r : α} (h1 : b.min k ≤ r) (h2 : r ≤ b.max k) : ∀ l : List (Box n α × α),
    (∀ x ∈ l, ∀ j, x.1.min j < x.1.max j) → inBox (Mpi.leftBox b k r) l + inBox (Mpi.rightBox b k r) l = inBox b l := by
  intro l
  induction l with
  | nil => intro _; simp [inBox]
  | cons x l ih =>
    intro h
    have e := share_add (b := b) (h x (by simp)) h1 h2
    have i := ih fun y hy => h y (by simp [hy])
    simp only [inBox, List.map_cons, List.sum_cons] at i ⊢
    rw [← e, ← i]
    ring

theorem inBox_mono {b : Box n α} {k : Fin n} {r s : α} (hrs : r ≤ s) : ∀ l : List (Box n α × α),
    (∀ x ∈ l, (∀ j, x.1.min j < x.1.max j) ∧ 0 ≤ x.2) → inBox (Mpi.leftBox b k r) l ≤ inBox (Mpi.leftBox b k s) l ∧
      inBox (Mpi.leftBox b k s) l ≤ inBox (Mpi.leftBox b k r) l + (s - r) * (l.map fun x => x.2 / (x.1.max k - x.1.min k)).sum := by
  intro l
  induction l with
  | nil => intro _; simp [inBox]
  | cons x l ih =>
    intro h
    obtain ⟨hx, hx0⟩ := h x (by simp)
    obtain ⟨i1, i2⟩ := ih fun y hy => h y (by simp [hy])
    have m1 := mul_le_mul_of_nonneg_right (share_mono (b := b) hx k hrs) hx0
    have m2 := mul_le_mul_of_nonneg_right (share_lip (b := b) hx k hrs) hx0
    have e : (share (Mpi.leftBox b k r) x.1 + (s - r) / (x.1.max k - x.1.min k)) * x.2 =
        share (Mpi.leftBox b k r) x.1 * x.2 + (s - r) * (x.2 / (x.1.max k - x.1.min k)) := by ring
    rw [e] at m2
    simp only [inBox, List.map_cons, List.sum_cons] at i1 i2 ⊢
    rw [mul_add]
    exact ⟨add_le_add m1 i1, by linarith⟩

theorem inBox_empty {b : Box n α} (k : Fin n) (l : List (Box n α × α)) (h : ∀ x ∈ l, ∀ j, x.1.min j < x.1.max j) :
    inBox (Mpi.leftBox b k (b.min k)) l = 0 := by
  unfold inBox
  refine List.sum_eq_zero fun y hy => ?_
  obtain ⟨x, hx, rfl⟩ := List.mem_map.mp hy
  rw [share_empty (h x hx) k, zero_mul]

theorem leftBox_self (b : Box n α) (k : Fin n) : Mpi.leftBox b k (b.max k) = b := by
  simp [Mpi.leftBox]

theorem sums_leaves {hbox : ℕ → Box n α} {work : ℕ → α} : ∀ f : Forest, Sums hbox work f →
    ∀ c ∈ f.cells, ∀ k, (hbox c).min k < (hbox c).max k := by
  intro f
  induction f with
  | nil => intro _ c hc; simp [Forest.cells] at hc
  | cons d ch rest ih1 ih2 =>
    rintro ⟨hd, _, _, h1, h2⟩ c hc
    simp only [Forest.cells, List.mem_cons, List.mem_append] at hc
    rcases hc with rfl | hc | hc
    · exact hd
    · exact ih1 h1 c hc
    · exact ih2 h2 c hc

theorem leaves_sub : ∀ f : Forest, ∀ c ∈ f.leaves, c ∈ f.cells := by
  intro f
  induction f with
  | nil => intro c hc; simp [Forest.leaves] at hc
  | cons d ch rest ih1 ih2 =>
    intro c hc
    rw [Forest.leaves_cons, List.mem_append] at hc
    simp only [Forest.cells, List.mem_cons, List.mem_append]
    rcases hc with hc | hc
    · by_cases hn : ch = .nil
      · subst hn
        simp [Forest.leaves] at hc
        exact Or.inl hc
      · rw [Forest.leaves_inner d hn] at hc
        exact Or.inr (Or.inl (ih1 c hc))
    · exact Or.inr (Or.inr (ih2 c hc))

theorem allItems_wide (l : List (Pruned n α × Forest)) (h : ∀ x ∈ l, Fits x.1 x.2) :
    ∀ y ∈ allItems l, ∀ j, y.1.min j < y.1.max j := by
  intro y hy
  unfold allItems at hy
  rw [List.mem_flatMap] at hy
  obtain ⟨x, hx, hy⟩ := hy
  unfold leafItems at hy
  obtain ⟨c, hc, rfl⟩ := List.mem_map.mp hy
  exact sums_leaves x.2 (h x hx).sums c (leaves_sub x.2 c hc)

/-! ### Bisection -/

theorem looks_between : ∀ (m : ℕ) {rmin rmax r x : α}, Looks m rmin rmax r x → rmin < r → r < rmax → rmin < x ∧ x < rmax := by
  intro m
  induction m with
  | zero => intro _ _ _ _ h; exact h.elim
  | succ m ih =>
    rintro rmin rmax r x (rfl | h | h) a b
    · exact ⟨a, b⟩
    · have := ih h (by linarith) (by linarith)
      exact ⟨by linarith [this.1], this.2⟩
    · have := ih h (by linarith) (by linarith)
      exact ⟨this.1, by linarith [this.2]⟩

/-- one turn -/
theorem loop_turn {wl wr : α → Option α} {tol A Tt : α} (hT : 0 < Tt) (fuel : ℕ) (rmin rmax r : α) (hl : wl r = some A)
    (hr : wr r = some (Tt - A)) :
    loop wl wr tol (fuel + 1) rmin rmax r =
      if A < (1 / 2 - tol) * Tt then
        if |A / Tt - 1 / 2| > tol then loop wl wr tol fuel r rmax (1 / 2 * (r + rmax)) else some (1 / 2 * (r + rmax))
      else if A > (1 / 2 + tol) * Tt then
        if |A / Tt - 1 / 2| > tol then loop wl wr tol fuel rmin r (1 / 2 * (rmin + r)) else some (1 / 2 * (rmin + r))
      else some r := by
  have e : A + (Tt - A) = Tt := by ring
  simp only [loop, hl, hr, e, if_neg hT.ne', div_lt_iff₀ hT, gt_iff_lt, lt_div_iff₀ hT]

theorem loop_mid {wl wr : α → Option α} {tol Tt L : α} {A : α → α} (hT : 0 < Tt) (htol : 0 < tol) : ∀ (m : ℕ) (rmin rmax r : α),
    rmin < rmax → r = 1 / 2 * (rmin + rmax) → A rmin < (1 / 2 - tol) * Tt → (1 / 2 + tol) * Tt < A rmax →
    (∀ x y, rmin ≤ x → x ≤ y → y ≤ rmax → A y ≤ A x + (y - x) * L) → (rmax - rmin) * L ≤ 2 * tol * Tt * 2 ^ m →
    (∀ x, Looks m rmin rmax r x → wl x = some (A x) ∧ wr x = some (Tt - A x)) →
    ∃ z, loop wl wr tol m rmin rmax r = some z ∧ rmin < z ∧ z < rmax ∧ (1 / 2 - tol) * Tt ≤ A z ∧ A z ≤ (1 / 2 + tol) * Tt := by
  intro m
  induction m with
  | zero =>
    intro rmin rmax r h1 _ h3 h4 h5 h6 _
    have := h5 rmin rmax le_rfl h1.le le_rfl
    rw [pow_zero, mul_one] at h6
    exfalso
    have e : (1 / 2 + tol) * Tt = (1 / 2 - tol) * Tt + 2 * tol * Tt := by ring
    linarith
  | succ m ih =>
    intro rmin rmax r h1 h2 h3 h4 h5 h6 h7
    obtain ⟨hl, hr⟩ := h7 r (Or.inl rfl)
    rw [loop_turn hT m rmin rmax r hl hr]
    have hrm : rmin < r := by rw [h2]; linarith
    have hrM : r < rmax := by rw [h2]; linarith
    have hp : 2 * tol * Tt * 2 ^ (m + 1) = 2 * (2 * tol * Tt * 2 ^ m) := by ring
    rw [hp] at h6
    by_cases c1 : A r < (1 / 2 - tol) * Tt
    · rw [if_pos c1]
      have habs : |A r / Tt - 1 / 2| > tol := by
        have : A r / Tt < 1 / 2 - tol := (div_lt_iff₀ hT).mpr c1
        rw [abs_of_neg (by linarith)]
        linarith
      rw [if_pos habs]
      have hw : (rmax - r) * L ≤ 2 * tol * Tt * 2 ^ m := by
        have : (rmax - r) * L = 1 / 2 * ((rmax - rmin) * L) := by rw [h2]; ring
        rw [this]; linarith
      obtain ⟨z, a, b, c, d, e⟩ := ih r rmax _ hrM rfl c1 h4 (fun x y hx hxy hy => h5 x y (hrm.le.trans hx) hxy hy) hw
        (fun x hx => h7 x (Or.inr (Or.inl hx)))
      exact ⟨z, a, hrm.trans b, c, d, e⟩
    · rw [if_neg c1]
      by_cases c2 : A r > (1 / 2 + tol) * Tt
      · rw [if_pos c2]
        have habs : |A r / Tt - 1 / 2| > tol := by
          have : 1 / 2 + tol < A r / Tt := (lt_div_iff₀ hT).mpr c2
          rw [abs_of_pos (by linarith)]
          linarith
        rw [if_pos habs]
        have hw : (r - rmin) * L ≤ 2 * tol * Tt * 2 ^ m := by
          have : (r - rmin) * L = 1 / 2 * ((rmax - rmin) * L) := by rw [h2]; ring
          rw [this]; linarith
        obtain ⟨z, a, b, c, d, e⟩ := ih rmin r _ hrm rfl h3 c2 (fun x y hx hxy hy => h5 x y hx hxy (hy.trans hrM.le)) hw
          (fun x hx => h7 x (Or.inr (Or.inr hx)))
        exact ⟨z, a, b, c.trans hrM, d, e⟩
      · rw [if_neg c2]
        exact ⟨r, rfl, hrm, hrM, not_lt.mp c1, not_lt.mp c2⟩

theorem loop_ends {wl wr : α → Option α} {tol Tt L : α} {A : α → α} (hT : 0 < Tt) (htol : 0 < tol) (hL : 0 ≤ L) (m : ℕ)
    (rmin rmax r : α) (hrm : rmin < r) (hrM : r < rmax) (h3 : A rmin < (1 / 2 - tol) * Tt) (h4 : (1 / 2 + tol) * Tt < A rmax)
    (h5 : ∀ x y, rmin ≤ x → x ≤ y → y ≤ rmax → A y ≤ A x + (y - x) * L) (h6 : (rmax - rmin) * L ≤ 2 * tol * Tt * 2 ^ m)
    (h7 : ∀ x, Looks (m + 1) rmin rmax r x → wl x = some (A x) ∧ wr x = some (Tt - A x)) :
    ∃ z, loop wl wr tol (m + 1) rmin rmax r = some z ∧ rmin < z ∧ z < rmax ∧ (1 / 2 - tol) * Tt ≤ A z ∧
      A z ≤ (1 / 2 + tol) * Tt := by
  obtain ⟨hl, hr⟩ := h7 r (Or.inl rfl)
  rw [loop_turn hT m rmin rmax r hl hr]
  by_cases c1 : A r < (1 / 2 - tol) * Tt
  · rw [if_pos c1]
    have habs : |A r / Tt - 1 / 2| > tol := by
      have : A r / Tt < 1 / 2 - tol := (div_lt_iff₀ hT).mpr c1
      rw [abs_of_neg (by linarith)]
      linarith
    rw [if_pos habs]
    have hw : (rmax - r) * L ≤ 2 * tol * Tt * 2 ^ m :=
      (mul_le_mul_of_nonneg_right (by linarith) hL).trans h6
    obtain ⟨z, a, b, c, d, e⟩ := loop_mid hT htol m r rmax _ hrM rfl c1 h4 (fun x y hx hxy hy => h5 x y (hrm.le.trans hx) hxy hy)
      hw (fun x hx => h7 x (Or.inr (Or.inl hx)))
    exact ⟨z, a, hrm.trans b, c, d, e⟩
  · rw [if_neg c1]
    by_cases c2 : A r > (1 / 2 + tol) * Tt
    · rw [if_pos c2]
      have habs : |A r / Tt - 1 / 2| > tol := by
        have : 1 / 2 + tol < A r / Tt := (lt_div_iff₀ hT).mpr c2
        rw [abs_of_pos (by linarith)]
        linarith
      rw [if_pos habs]
      have hw : (r - rmin) * L ≤ 2 * tol * Tt * 2 ^ m :=
        (mul_le_mul_of_nonneg_right (by linarith) hL).trans h6
      obtain ⟨z, a, b, c, d, e⟩ := loop_mid hT htol m rmin r _ hrm rfl h3 c2 (fun x y hx hxy hy => h5 x y hx hxy (hy.trans hrM.le))
        hw (fun x hx => h7 x (Or.inr (Or.inr hx)))
      exact ⟨z, a, b, c.trans hrM, d, e⟩
    · rw [if_neg c2]
      exact ⟨r, rfl, hrm, hrM, not_lt.mp c1, not_lt.mp c2⟩

/-! ### Cost of cells -/

theorem addWork_fold (q : ℕ → α) : ∀ (l : List (ℕ × ℕ)) (w : ℕ → α), (l.map Prod.fst).Nodup →
    ∀ c, l.foldl (fun w x => Function.update w x.1 (w x.1 + q x.1)) w c = w c + if c ∈ l.map Prod.fst then q c else 0 := by
  intro l
  induction l with
  | nil => intros; simp
  | cons x l ih =>
    intro w hn c
    rw [List.map_cons, List.nodup_cons] at hn
    rw [List.foldl_cons, ih _ hn.2]
    by_cases hc : c = x.1
    · subst hc
      rw [if_neg hn.1]
      simp
    · rw [Function.update_of_ne hc]
      have e : (c ∈ (x :: l).map Prod.fst) ↔ c ∈ l.map Prod.fst := by
        rw [List.map_cons, List.mem_cons]
        exact ⟨fun h => h.resolve_left hc, Or.inr⟩
      simp only [e]

/-! ### Counters of the tree -/

/-- in the complete binary tree of depth `d` from cell `c` each inner cell has the sum of its children -/
def Kids (w : ℕ → α) : (d c : ℕ) → Prop
  | 0, _ => True
  | d + 1, c => w c = w (c + 1) + w (c + 1 + KD.fullSize d) ∧ Kids w d (c + 1) ∧ Kids w d (c + 1 + KD.fullSize d)

theorem Kids.congr {w v : ℕ → α} : ∀ (d c : ℕ), (∀ x, c ≤ x → x < c + KD.fullSize d → v x = w x) → Kids w d c → Kids v d c := by
  intro d
  induction d with
  | zero => intros; trivial
  | succ d ih =>
    rintro c h ⟨h1, h2, h3⟩
    have hs := KD.fullSize_succ d
    have hp : 0 < KD.fullSize d := by
      have := KD.fullSize_add_one d
      have : 2 ≤ 2 ^ (d + 1) := by
        calc 2 = 2 ^ 1 := rfl
          _ ≤ 2 ^ (d + 1) := Nat.pow_le_pow_right (by omega) (by omega)
      omega
    refine ⟨?_, ih _ (fun x a b => h x (by omega) (by omega)) h2, ih _ (fun x a b => h x (by omega) (by omega)) h3⟩
    rw [h c (by omega) (by omega), h (c + 1) (by omega) (by omega), h (c + 1 + KD.fullSize d) (by omega) (by omega), h1]

theorem fullTree_leaves_succ (d c : ℕ) : (KD.fullTree (d + 1) c .nil).leaves =
    (KD.fullTree d (c + 1) .nil).leaves ++ (KD.fullTree d (c + 1 + KD.fullSize d) .nil).leaves := by
  have h : ∀ (d c : ℕ) (rest : Forest), (KD.fullTree d c rest).leaves = (KD.fullTree d c .nil).leaves ++ rest.leaves := by
    intro d c rest
    cases d with
    | zero => exact Forest.leaves_cons _ _ _
    | succ d => exact Forest.leaves_cons _ _ _
  have h1 : (KD.fullTree (d + 1) c .nil).leaves =
      (KD.fullTree d (c + 1) (KD.fullTree d (c + 1 + KD.fullSize d) .nil)).leaves :=
    Forest.leaves_inner c (by cases d <;> simp [KD.fullTree])
  rw [h1, h]

theorem updateWork_spec {t : KD.Links} {L : ℕ} {N : ℕ → ℕ}
    (hN : ∀ x a b, t.c1 x = some a → t.c2 x = some b → N x = N a + N b) : ∀ (d c g : ℕ) (w : ℕ → α), KD.LaidOut t L d c g →
      (∀ x, t.level x = L → N x = 0 → w x = 0) →
      ∃ v, updateWork t L N (d + 1) c w = some v ∧ (∀ x, x < c ∨ c + KD.fullSize d ≤ x → v x = w x) ∧
        (∀ x, t.level x = L → v x = w x) ∧ (N c = 0 → v c = 0) ∧ Kids v d c ∧
        v c = ((KD.fullTree d c .nil).leaves.map w).sum := by
  intro d
  induction d with
  | zero =>
    intro c g w hl h0
    refine ⟨w, ?_, fun _ _ => rfl, fun _ _ => rfl, h0 c hl.1, trivial, ?_⟩
    · unfold updateWork
      rw [if_neg (by rw [hl.1]; exact lt_irrefl _)]
    · simp [KD.fullTree, Forest.leaves]
  | succ d ih =>
    rintro c g w ⟨hlev, _, hc1, hc2, _, hl1, hl2⟩ h0
    have hs := KD.fullSize_succ d
    have hp : 0 < KD.fullSize d := by
      have := KD.fullSize_add_one d
      have : 2 ≤ 2 ^ (d + 1) := by
        calc 2 = 2 ^ 1 := rfl
          _ ≤ 2 ^ (d + 1) := Nat.pow_le_pow_right (by omega) (by omega)
      omega
    obtain ⟨v1, e1, o1, l1, z1, k1, s1⟩ := ih (c + 1) g w hl1 h0
    obtain ⟨v2, e2, o2, l2, z2, k2, s2⟩ := ih (c + 1 + KD.fullSize d) _ v1 hl2 fun x hx hn => (l1 x hx).trans (h0 x hx hn)
    have hlt : t.level c < L := by omega
    have ea : (if N (c + 1) > 0 then v2 (c + 1) else 0) = v2 (c + 1) := by
      split_ifs with hn
      · rfl
      · rw [o2 _ (by omega), z1 (by omega)]
    have eb : (if N (c + 1 + KD.fullSize d) > 0 then v2 (c + 1 + KD.fullSize d) else 0) = v2 (c + 1 + KD.fullSize d) := by
      split_ifs with hn
      · rfl
      · rw [z2 (by omega)]
    have hsplit := hN c _ _ hc1 hc2
    have hv : ∀ x, x ≠ c → Function.update v2 c (v2 (c + 1) + v2 (c + 1 + KD.fullSize d)) x = v2 x :=
      fun x hx => Function.update_of_ne hx _ _
    refine ⟨Function.update v2 c (v2 (c + 1) + v2 (c + 1 + KD.fullSize d)), ?_, ?_, ?_, ?_, ⟨?_, ?_, ?_⟩, ?_⟩
    · rw [updateWork, if_pos hlt, hc1, hc2]
      simp only [e1, Option.bind_some, e2, Option.map_some, ea, eb]
    · intro x hx
      rw [hv x (by omega), o2 x (by omega), o1 x (by omega)]
    · intro x hx
      rw [hv x (by rintro rfl; omega), l2 x hx, l1 x hx]
    · intro hn
      rw [Function.update_self, o2 (c + 1) (by omega), z1 (by omega), z2 (by omega), add_zero]
    · rw [Function.update_self, hv _ (by omega), hv _ (by omega)]
    · exact Kids.congr d _ (fun x a b => (hv x (by omega)).trans (o2 x (by omega))) k1
    · exact Kids.congr d _ (fun x a b => hv x (by omega)) k2
    · rw [Function.update_self, o2 (c + 1) (by omega), s1, s2, fullTree_leaves_succ, List.map_append, List.sum_append]
      congr 2
      refine List.map_congr_left fun x hx => ?_
      have hm := leaves_sub _ x hx
      rw [KD.fullTree_cells] at hm
      simp only [Forest.cells, List.append_nil, List.mem_range'_1] at hm
      exact o1 x (by omega)

theorem kids_node {w : ℕ → α} : ∀ (d c : ℕ), Kids w d c → ∀ x g, (KD.fullTree d c .nil).Node x g → g ≠ .nil →
    w x = topWork w g := by
  have top : ∀ (d c : ℕ) (rest : Forest), topWork w (KD.fullTree d c rest) = w c + topWork w rest := by
    intro d c rest
    cases d <;> rfl
  have node : ∀ (d c : ℕ) (rest : Forest) (x : ℕ) (g : Forest), (KD.fullTree d c rest).Node x g →
      (KD.fullTree d c .nil).Node x g ∨ rest.Node x g := by
    intro d c rest x g h
    cases d with
    | zero =>
      rcases h with h | h | h
      · exact Or.inl (Or.inl h)
      · exact h.elim
      · exact Or.inr h
    | succ d =>
      rcases h with h | h | h
      · exact Or.inl (Or.inl h)
      · exact Or.inl (Or.inr (Or.inl h))
      · exact Or.inr h
  intro d
  induction d with
  | zero =>
    rintro c _ x g (⟨_, rfl⟩ | h | h) hg
    · exact absurd rfl hg
    · exact h.elim
    · exact h.elim
  | succ d ih =>
    rintro c ⟨h1, h2, h3⟩ x g (⟨rfl, rfl⟩ | h | h) hg
    · rw [top, top, h1]
      simp [topWork]
    · rcases node _ _ _ _ _ h with h | h
      · exact ih _ h2 x g h hg
      · exact ih _ h3 x g h hg
    · exact h.elim

end Gandalf.Work
