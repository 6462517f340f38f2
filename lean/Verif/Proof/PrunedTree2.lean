import Verif.Proof.PrunedTree
import Verif.Proof.KDStock
import Verif.Prop.C09
import Verif.Prop.C12

/-! Lemmas about the use of pruned trees. -/

set_option autoImplicit false
set_option linter.unusedSectionVars false

namespace Gandalf
open Walk

namespace Forest

/-- number of cells a tree cut at `lmax` can have -/
theorem visited_le (level : ℕ → ℕ) (b : ℕ) (opn : ℕ → Bool) (lmax : ℕ)
    (hopn : ∀ c, opn c = true → level c ≠ lmax) : ∀ (f : Forest) (L : ℕ), f.Leveled level b L → L ≤ lmax →
    (f.visited opn).length ≤ f.roots * ∑ i ∈ Finset.range (lmax - L + 1), b ^ i := by
  intro f
  induction f with
  | nil => intro L _ _; simp [visited]
  | cons c ch rest h1 h2 =>
    rintro L ⟨a1, a2, a3, a4⟩ hL
    have hr := h2 L a4 hL
    simp only [visited, roots, List.length_cons, List.length_append]
    have key : 1 + (if opn c = true then ch.visited opn else []).length ≤
        ∑ i ∈ Finset.range (lmax - L + 1), b ^ i := by
      rw [Finset.sum_range_succ']
      by_cases ho : opn c = true
      · have hne := hopn c ho
        rw [a1] at hne
        have hch := h1 (L + 1) a3 (by omega)
        rw [show lmax - (L + 1) + 1 = lmax - L by omega] at hch
        rw [if_pos ho]
        have : (ch.visited opn).length ≤ ∑ k ∈ Finset.range (lmax - L), b ^ (k + 1) := by
          refine hch.trans ((Nat.mul_le_mul_right _ a2).trans (le_of_eq ?_))
          rw [Finset.mul_sum]
          exact Finset.sum_congr rfl fun i _ => (pow_succ' b i).symm
        simp only [pow_zero]
        omega
      · rw [if_neg ho]; simp
    have : (rest.roots + 1) * ∑ i ∈ Finset.range (lmax - L + 1), b ^ i =
        rest.roots * (∑ i ∈ Finset.range (lmax - L + 1), b ^ i) +
          ∑ i ∈ Finset.range (lmax - L + 1), b ^ i := by ring
    rw [this]
    omega

theorem geom_two (m : ℕ) : ∑ i ∈ Finset.range m, 2 ^ i = 2 ^ m - 1 := by
  induction m with
  | zero => simp
  | succ m ih =>
    rw [Finset.sum_range_succ, ih, pow_succ]
    have := Nat.one_le_two_pow (n := m)
    omega

theorem leaves_sublist : ∀ f : Forest, f.leaves.Sublist f.cells := by
  intro f
  induction f with
  | nil => exact .slnil
  | cons c ch rest h1 h2 =>
    by_cases h : ch = nil
    · subst h
      simp only [leaves_cons_nil, cells, List.nil_append]
      exact h2.cons_cons _
    · rw [leaves_cons_ne h]
      simp only [cells]
      exact (h1.append h2).cons _

/-- the leaves of the numbered forest, scanned from the table -/
theorem filter_leaves (L : Links) : ∀ (f : Forest) (k next : ℕ), (f.number k).Linked L next →
    (List.range' k f.size).filter (fun c => (L.copen c).isNone) = (f.number k).leaves := by
  intro f
  induction f with
  | nil => intro k next _; rfl
  | cons c ch rest h1 h2 =>
    rintro k next ⟨a1, a2, a3, a4⟩
    simp only [number] at a2 ⊢
    have e : List.range' k (cons c ch rest).size =
        k :: (List.range' (k + 1) ch.size ++ List.range' (k + 1 + ch.size) rest.size) := by
      have := cells_number (cons c ch rest) k
      simp only [number, cells, cells_number] at this
      exact this.symm
    rw [e]
    by_cases h : ch = nil
    · subst h
      have a2' : L.copen k = none := a2
      rw [List.filter_cons_of_pos (by rw [a2']; rfl)]
      simp only [number, leaves_cons_nil, size, List.range'_zero, List.nil_append]
      rw [show k + 1 + 0 = k + 1 from rfl]
      congr 1
      exact h2 (k + 1) next a4
    · rw [leaves_cons_ne (by rw [Ne, number_eq_nil]; exact h), List.filter_cons_of_neg,
        List.filter_append]
      · congr 1
        · exact h1 _ _ a3
        · exact h2 _ _ a4
      · cases ch with
        | nil => exact absurd rfl h
        | cons d x y =>
          have a2' : L.copen k = some (k + 1) := a2
          rw [a2']; simp

theorem forall2_leaves {R : ℕ → ℕ → Prop} : ∀ (f : Forest) (k : ℕ), AlignL R k f.cells →
    List.Forall₂ R (f.number k).leaves f.leaves := by
  intro f
  induction f with
  | nil => intro k _; exact .nil
  | cons c ch rest h1 h2 =>
    intro k h
    simp only [cells] at h
    rw [alignL_cons, alignL_append, ← size_eq_length] at h
    obtain ⟨b1, b2, b3⟩ := h
    by_cases hc : ch = nil
    · subst hc
      simp only [number, leaves_cons_nil]
      exact .cons b1 (h2 _ b3)
    · simp only [number]
      rw [leaves_cons_ne (by rw [Ne, number_eq_nil]; exact hc), leaves_cons_ne hc]
      exact List.rel_append (h1 _ b2) (h2 _ b3)

end Forest

namespace Pruned

variable {β : Type*} {n : ℕ}

/-! ### Walks -/

theorem fold_none_abort {σ : Type*} (body : ℕ → σ → Act σ) : ∀ (f : Forest) (s : σ),
    f.fold body s = none → ∃ c ∈ f.cells, ∃ s, body c s = .abort := by
  intro f
  induction f with
  | nil => intro s h; simp [Forest.fold] at h
  | cons c ch rest h1 h2 =>
    intro s h
    simp only [Forest.fold] at h
    cases e : body c s with
    | abort => exact ⟨c, by simp [Forest.cells], s, e⟩
    | next s' =>
      rw [e] at h
      obtain ⟨d, hd, t, ht⟩ := h2 s' h
      exact ⟨d, by simp [Forest.cells, hd], t, ht⟩
    | open_ s' =>
      rw [e] at h
      simp only [] at h
      cases e1 : ch.fold body s' with
      | none =>
        obtain ⟨d, hd, t, ht⟩ := h1 s' e1
        exact ⟨d, by simp [Forest.cells, hd], t, ht⟩
      | some u =>
        rw [e1, Option.bind_some] at h
        obtain ⟨d, hd, t, ht⟩ := h2 u h
        exact ⟨d, by simp [Forest.cells, hd], t, ht⟩

theorem distant_fold (L : Links) (Q : ℕ → List ℕ → Prop) (far : ℕ → Prop)
    (body : ℕ → List ℕ → Act (List ℕ))
    (hbody : ∀ c l1 s, Q c l1 → body c s = .abort ∨ (body c s = .open_ s ∧ L.copen c ≠ none) ∨
      (body c s = .next s ∧ l1 = []) ∨ (body c s = .next (s ++ [c]) ∧ far c)) :
    ∀ (f : Forest) (next : ℕ) (l s : List ℕ), f.Linked L next → f.Accounts Q l →
    f.fold body s = none ∨ ∃ (cs : List ℕ) (parts : List (List ℕ)), f.fold body s = some (s ++ cs) ∧
      parts.flatten = l ∧ List.Forall₂ (fun c lc => Q c lc ∧ far c ∧ c ∈ f.cells) cs parts := by
  intro f
  induction f with
  | nil =>
    intro next l s _ h
    exact Or.inr ⟨[], [], by simp [Forest.fold], by rw [show l = [] from h]; rfl, .nil⟩
  | cons c ch rest h1 h2 =>
    rintro next l s ⟨k1, k2, k3, k4⟩ ⟨l1, l2, rfl, q, a, b⟩
    have cont : ∀ (cs1 : List ℕ) (p1 : List (List ℕ)), p1.flatten = l1 →
        List.Forall₂ (fun c' lc => Q c' lc ∧ far c' ∧ c' ∈ (Forest.cons c ch rest).cells) cs1 p1 →
        rest.fold body (s ++ cs1) = none ∨ ∃ (cs : List ℕ) (parts : List (List ℕ)),
          rest.fold body (s ++ cs1) = some (s ++ cs) ∧ parts.flatten = l1 ++ l2 ∧
          List.Forall₂ (fun c' lc => Q c' lc ∧ far c' ∧ c' ∈ (Forest.cons c ch rest).cells) cs parts := by
      intro cs1 p1 hp hf
      rcases h2 next l2 (s ++ cs1) k4 b with e | ⟨cs, parts, e, e2, e3⟩
      · exact Or.inl e
      · refine Or.inr ⟨cs1 ++ cs, p1 ++ parts, by rw [e, List.append_assoc], by
          rw [List.flatten_append, hp, e2], List.rel_append hf (e3.imp fun c' lc h => ⟨h.1, h.2.1, ?_⟩)⟩
        simp [Forest.cells, h.2.2]
    simp only [Forest.fold]
    rcases hbody c l1 s q with e | ⟨e, hc⟩ | ⟨e, hnil⟩ | ⟨e, hfar⟩
    · rw [e]; exact Or.inl rfl
    · rw [e]
      simp only []
      have hne : ch ≠ .nil := by
        rintro rfl
        exact hc k2
      rcases h1 _ l1 s k3 (a hne) with e1 | ⟨cs1, p1, e1, e2, e3⟩
      · rw [e1]; exact Or.inl rfl
      · rw [e1, Option.bind_some]
        refine cont cs1 p1 e2 (e3.imp fun c' lc h => ⟨h.1, h.2.1, ?_⟩)
        simp [Forest.cells, h.2.2]
    · rw [e]
      have := cont [] [] (by rw [hnil]; rfl) .nil
      rwa [List.append_nil] at this
    · rw [e]
      exact cont [c] [l1] (by simp) (.cons ⟨q, hfar, by simp [Forest.cells]⟩ .nil)

theorem overlap_fold (L : Links) (Q : ℕ → List ℕ → Prop) (far : ℕ → Prop) (body : ℕ → Unit → Act Unit)
    (hbody : ∀ c l1 s, Q c l1 → body c s = .abort ∨ (body c s = .open_ s ∧ L.copen c ≠ none) ∨
      (body c s = .next s ∧ (l1 = [] ∨ far c))) :
    ∀ (f : Forest) (next : ℕ) (l : List ℕ), f.Linked L next → f.Accounts Q l →
    f.fold body () = some () → ∀ j ∈ l, ∃ c lc, Q c lc ∧ j ∈ lc ∧ far c ∧ ∀ x ∈ lc, x ∈ l := by
  intro f
  induction f with
  | nil => intro next l _ h _ j hj; rw [show l = [] from h] at hj; simp at hj
  | cons c ch rest h1 h2 =>
    rintro next l ⟨k1, k2, k3, k4⟩ ⟨l1, l2, rfl, q, a, b⟩ hf j hj
    simp only [Forest.fold] at hf
    have second : rest.fold body () = some () → j ∈ l2 →
        ∃ c lc, Q c lc ∧ j ∈ lc ∧ far c ∧ ∀ x ∈ lc, x ∈ l1 ++ l2 := by
      intro hr hj2
      obtain ⟨d, ld, g1, g2, g3, g4⟩ := h2 next l2 k4 b hr j hj2
      exact ⟨d, ld, g1, g2, g3, fun x hx => List.mem_append_right _ (g4 x hx)⟩
    rcases hbody c l1 () q with e | ⟨e, hc⟩ | ⟨e, hnil⟩
    · rw [e] at hf; simp at hf
    · rw [e] at hf
      simp only [] at hf
      have hne : ch ≠ .nil := by
        rintro rfl
        exact hc k2
      cases e1 : ch.fold body () with
      | none => rw [e1] at hf; simp at hf
      | some u =>
        rw [e1, Option.bind_some] at hf
        rcases List.mem_append.mp hj with hj1 | hj2
        · obtain ⟨d, ld, g1, g2, g3, g4⟩ := h1 _ l1 k3 (a hne) e1 j hj1
          exact ⟨d, ld, g1, g2, g3, fun x hx => List.mem_append_left _ (g4 x hx)⟩
        · exact second hf hj2
    · rw [e] at hf
      rcases List.mem_append.mp hj with hj1 | hj2
      · rcases hnil with hnil | hfar
        · rw [hnil] at hj1; simp at hj1
        · exact ⟨c, l1, q, hj1, hfar, fun x hx => List.mem_append_left _ hx⟩
      · exact second hf hj2

open KD in
/-- a particle below a cell out of range cannot interact -/
theorem outOfRange_absurd {cfg : Cfg} {P : Parts n} {a lc l : List ℕ} {cell x : Props n}
    {d : Domain n ℝ} (hd : d.WF) (hcell : Summary cfg P a cell) (hS : Summary cfg P lc x)
    (hK : 0 ≤ cfg.kernrange) (hh : ∀ i, 0 ≤ P.h i)
    (hdom : ∀ i ∈ a ++ l, ∀ k, d.lhs k = .periodic → d.min k ≤ P.r i k ∧ P.r i k ≤ d.max k)
    (hbig : ∀ k, d.lhs k = .periodic → -cfg.big ≤ d.min k ∧ d.max k ≤ cfg.big)
    {i j : ℕ} (hi : i ∈ a) (hjc : j ∈ lc) (hsub : ∀ x ∈ lc, x ∈ l) {y : Vec n ℝ}
    (hy : d.IsImage (P.r j) y) (hx : Interact cfg.kernrange P i y (P.h j))
    (hfar : OutOfRange cfg.kernrange (cellDist d x cell) x cell) : False := by
  obtain ⟨m, hm⟩ := hy
  have hmin : cellDist d x cell ≤
      dot (fun k => x.rcell k + m k * d.size k - cell.rcell k)
        (fun k => x.rcell k + m k * d.size k - cell.rcell k) := by
    refine dot_le_dot fun k => ?_
    rw [ghostNearest_eq d hd]
    split_ifs with hk
    · have c1 := centre_mem hcell (List.ne_nil_of_mem hi) (hd.pos k)
        (fun x hx => hdom x (List.mem_append_left _ hx) k hk) (hbig k hk)
      have c2 := centre_mem hS (List.ne_nil_of_mem hjc) (hd.pos k)
        (fun x hx => hdom x (List.mem_append_right _ (hsub x hx)) k hk) (hbig k hk)
      have hs : 0 < d.size k := by rw [hd.size k]; linarith [hd.pos k]
      have := wrap1_min (size := d.size k) (x := x.rcell k - cell.rcell k) hs.le (by
        have := hd.size k
        rw [abs_le]; constructor <;> linarith) (m k)
      rw [show x.rcell k + m k * d.size k - cell.rcell k =
        x.rcell k - cell.rcell k + m k * d.size k by ring]
      exact this
    · rw [(hm k).1 hk]; simp
  have split : (fun k => x.rcell k + m k * d.size k - cell.rcell k) =
      fun k => ((y k - P.r i k) + (P.r i k - cell.rcell k)) + -(P.r j k - x.rcell k) := by
    funext k; rw [(hm k).2]; ring
  rw [split] at hmin
  have neg : dot (fun k => -(P.r j k - x.rcell k)) (fun k => -(P.r j k - x.rcell k)) ≤ x.rmax ^ 2 := by
    have := hS.extent j hjc
    simpa only [dot, neg_mul_neg] using this
  have bound : ∀ R : ℝ, 0 ≤ R → Tree.distsqd y (P.r i) < R ^ 2 →
      cellDist d x cell < (R + cell.rmax + x.rmax) ^ 2 := by
    intro R hR hlt
    refine lt_of_le_of_lt hmin ?_
    exact dot_add_lt (x := fun k => (y k - P.r i k) + (P.r i k - cell.rcell k))
      (add_nonneg hR hcell.rmaxNonneg) hS.rmaxNonneg
      (dot_add_lt hR hcell.rmaxNonneg hlt (hcell.extent i hi)) neg
  unfold Interact at hx
  rcases le_total (P.h j) (P.h i) with hle | hle
  · rw [max_eq_left hle] at hx
    have h4 : cfg.kernrange * P.h i ≤ cfg.kernrange * cell.hmax :=
      mul_le_mul_of_nonneg_left (hcell.hmax i hi) hK
    have h5 := bound _ (mul_nonneg hK hcell.hmaxNonneg)
      (lt_of_lt_of_le hx (pow_le_pow_left₀ (mul_nonneg hK (hh i)) h4 2))
    have h6 := hfar.1
    rw [show x.rmax + cell.rmax + cfg.kernrange * cell.hmax =
      cfg.kernrange * cell.hmax + cell.rmax + x.rmax by ring] at h6
    linarith
  · rw [max_eq_right hle] at hx
    have h4 : cfg.kernrange * P.h j ≤ cfg.kernrange * x.hmax :=
      mul_le_mul_of_nonneg_left (hS.hmax j hjc) hK
    have h5 := bound _ (mul_nonneg hK hS.hmaxNonneg)
      (lt_of_lt_of_le hx (pow_le_pow_left₀ (mul_nonneg hK (hh j)) h4 2))
    have h6 := hfar.2
    rw [show cell.rmax + x.rmax + cfg.kernrange * x.hmax =
      cfg.kernrange * x.hmax + cell.rmax + x.rmax by ring] at h6
    linarith

/-! ### Leaves -/

theorem updateLeaves_spec (localcells : ℕ → Cell β) : ∀ (l : List (ℕ × ℕ)) (cells : ℕ → Cell β),
    (l.map Prod.fst).Nodup →
    (∀ x ∈ l, updateLeaves localcells cells l x.1 =
      { localcells x.2 with copen := (cells x.1).copen, cnext := (cells x.1).cnext }) ∧
    ∀ i, i ∉ l.map Prod.fst → updateLeaves localcells cells l i = cells i := by
  intro l
  induction l with
  | nil => intro cells _; exact ⟨by simp, fun _ _ => rfl⟩
  | cons a l ih =>
    intro cells hn
    rw [List.map_cons, List.nodup_cons] at hn
    obtain ⟨ileaf, ilocal⟩ := a
    obtain ⟨h1, h2⟩ := ih (Function.update cells ileaf
      { localcells ilocal with copen := (cells ileaf).copen, cnext := (cells ileaf).cnext }) hn.2
    refine ⟨?_, ?_⟩
    · intro x hx
      rw [updateLeaves]
      rcases List.mem_cons.mp hx with rfl | hx
      · rw [h2 _ hn.1, Function.update_self]
      · have hne : x.1 ≠ ileaf := fun h => by
          refine hn.1 ?_
          have := List.mem_map_of_mem (f := Prod.fst) hx
          rw [h] at this; exact this
        rw [h1 x hx, Function.update_of_ne hne]
    · intro i hi
      rw [List.map_cons, List.mem_cons, not_or] at hi
      rw [updateLeaves, h2 i hi.2, Function.update_of_ne hi.1]

theorem leavesIn_spec : ∀ (l : List ℕ) (src cells : ℕ → Cell β), l.Nodup →
    ∃ out, leavesIn l (leavesOut src l) cells = some (out, []) ∧ (∀ j ∈ l, out j = src j) ∧
      ∀ j, j ∉ l → out j = cells j := by
  intro l
  induction l with
  | nil => intro src cells _; exact ⟨cells, rfl, by simp, fun _ _ => rfl⟩
  | cons a l ih =>
    intro src cells hn
    rw [List.nodup_cons] at hn
    obtain ⟨out, e, h1, h2⟩ := ih src (Function.update cells a (src a)) hn.2
    refine ⟨out, ?_, ?_, ?_⟩
    · rw [leavesOut, List.map_cons, leavesIn]; exact e
    · intro j hj
      rcases List.mem_cons.mp hj with rfl | hj
      · rw [h2 j hn.1, Function.update_self]
      · exact h1 j hj
    · intro j hj
      rw [List.mem_cons, not_or] at hj
      rw [h2 j hj.2, Function.update_of_ne hj.1]

/-! ### Stocking the cells above the leaves -/

open KD

variable {cfg : Cfg} {P : Parts n}

/-- stock the trees of a forest one after the other -/
noncomputable def stockRoots (cfg : Cfg) (P : Parts n) (t : KD.Links) (ltot pfuel fuel : ℕ) :
    Forest → TState n → Option (TState n)
  | .nil, s => some s
  | .cons c _ rest, s => (stockTree cfg P t ltot false pfuel fuel c s).bind
      (stockRoots cfg P t ltot pfuel fuel rest)

theorem Accounts.imp' {Q Q' : ℕ → List ℕ → Prop} : ∀ {f : Forest} {l : List ℕ},
    (∀ c ∈ f.cells, ∀ l', (∀ x ∈ l', x ∈ l) → Q c l' → Q' c l') → f.Accounts Q l → f.Accounts Q' l := by
  intro f
  induction f with
  | nil => intro l _ h; exact h
  | cons c ch rest h1 h2 =>
    rintro l h ⟨l1, l2, rfl, q, a, b⟩
    refine ⟨l1, l2, rfl, h c (by simp [Forest.cells]) l1 (fun x hx => by simp [hx]) q, fun hne =>
      h1 (fun d hd l' hs => h d (by simp [Forest.cells, hd]) l' fun x hx => by simp [hs x hx]) (a hne),
      h2 (fun d hd l' hs => h d (by simp [Forest.cells, hd]) l' fun x hx => by simp [hs x hx]) b⟩

theorem stockRoots_spec (t : KD.Links) (ltot pfuel : ℕ) : ∀ (f : Forest) (next : ℕ) (l : List ℕ)
    (s : TState n), f.Linked t.walkLinks next → f.Binary → f.cells.Nodup → (∀ i ∈ l, 0 ≤ P.m i) →
    f.Accounts (fun c l' => t.copen c = none → Summary cfg P l' (s.cell c)) l →
    ∃ s', (∀ fuel, f.height ≤ fuel → stockRoots cfg P t ltot pfuel fuel f s = some s') ∧
      f.Accounts (fun c l' => Summary cfg P l' (s'.cell c)) l ∧
      (∀ c, c ∉ f.cells → s'.cell c = s.cell c) ∧
      (∀ c, t.copen c = none → s'.cell c = s.cell c) := by
  intro f
  induction f with
  | nil => intro next l s _ _ _ _ h; exact ⟨s, fun _ _ => rfl, h, fun _ _ => rfl, fun _ _ => rfl⟩
  | cons c ch rest h1 h2 =>
    rintro next l s ⟨a1, a2, a3, a4⟩ ⟨b1, b2, b3⟩ hnd hm ⟨l1, l2, rfl, q, u, v⟩
    simp only [Forest.cells, List.nodup_cons, List.nodup_append, List.mem_append, not_or] at hnd
    obtain ⟨⟨n1, n2⟩, n3, n4, n5⟩ := hnd
    have hm1 : ∀ i ∈ l1, 0 ≤ P.m i := fun i hi => hm i (List.mem_append_left _ hi)
    have hm2 : ∀ i ∈ l2, 0 ≤ P.m i := fun i hi => hm i (List.mem_append_right _ hi)
    -- the tree of `c`
    obtain ⟨s1, e1, hs1, ha1, fr1, fr2⟩ : ∃ s1,
        (∀ fuel, ch.height + 1 ≤ fuel → stockTree cfg P t ltot false pfuel fuel c s = some s1) ∧
        Summary cfg P l1 (s1.cell c) ∧
        (ch ≠ .nil → ch.Accounts (fun c l' => Summary cfg P l' (s1.cell c)) l1) ∧
        (∀ d, d ≠ c → d ∉ ch.cells → s1.cell d = s.cell d) ∧
        (∀ d, t.copen d = none → s1.cell d = s.cell d) := by
      cases ch with
      | nil =>
        have ho : t.copen c = none := a2
        refine ⟨s, ?_, q ho, fun h => absurd rfl h, fun _ _ _ => rfl, fun _ _ => rfl⟩
        intro fuel hf
        obtain ⟨fuel, rfl⟩ : ∃ k, fuel = k + 1 := ⟨fuel - 1, by omega⟩
        rw [stockTree, ho]
        simp only [stockCell, ho]
        rw [if_neg (by simp)]
      | cons c1 x y =>
        have ho : t.copen c = some c1 := a2
        have hr : (Forest.cons c1 x y).roots = 2 := b1.resolve_left (by simp)
        obtain ⟨c2, x2, rfl⟩ : ∃ c2 x2, y = .cons c2 x2 .nil := by
          cases y with
          | nil => simp [Forest.roots] at hr
          | cons c2 x2 z =>
            cases z with
            | nil => exact ⟨c2, x2, rfl⟩
            | cons _ _ _ => simp [Forest.roots] at hr
        have hcn : t.cnext c1 = some c2 := a3.1
        obtain ⟨s1, e1, g1, g2, g3⟩ := h1 _ l1 s a3 b2 n3 hm1 (u (by simp))
        obtain ⟨la, lb, rfl, qa, ua, ⟨lb1, lb2, rfl, qb, ub, hlb2⟩⟩ := g1
        obtain rfl : lb2 = [] := hlb2
        have hsum : Summary cfg P (la ++ (lb1 ++ [])) (stockInternalProps cfg (s1.cell c1)
            (s1.cell c2) (s1.cell c)) := by
          rw [List.append_nil]
          rw [List.append_nil] at hm1
          exact stockInternal_summary cfg P _ _ _ _ _ hm1 qa qb
        refine ⟨{ s1 with cell := Function.update s1.cell c (stockInternalProps cfg (s1.cell c1)
          (s1.cell c2) (s1.cell c)) }, ?_, ?_, ?_, ?_, ?_⟩
        · intro fuel hf
          obtain ⟨fuel, rfl⟩ : ∃ k, fuel = k + 1 := ⟨fuel - 1, by omega⟩
          have := e1 fuel (by omega)
          simp only [stockRoots] at this
          rw [stockTree, ho]
          simp only [hcn]
          cases e : stockTree cfg P t ltot false pfuel fuel c1 s with
          | none => rw [e] at this; simp at this
          | some w =>
            rw [e, Option.bind_some] at this
            cases e' : stockTree cfg P t ltot false pfuel fuel c2 w with
            | none => rw [e'] at this; simp at this
            | some z =>
              rw [e', Option.bind_some] at this
              obtain rfl : z = s1 := Option.some.inj this
              simp only [Option.bind_eq_bind, Option.bind_some, e', stockCell, ho, hcn]
              rw [if_neg (by simp)]
        · simp only [Function.update_self]; exact hsum
        · intro _
          have hcc : ∀ d ∈ (Forest.cons c1 x (.cons c2 x2 .nil)).cells, d ≠ c := fun d hd h => n1 (h ▸ hd)
          refine Accounts.imp' (Q := fun c l' => Summary cfg P l' (s1.cell c)) ?_
            ⟨la, lb1 ++ [], rfl, qa, ua, lb1, [], rfl, qb, ub, rfl⟩
          intro d hd l' _ hq
          simp only [Function.update_of_ne (hcc d hd)]
          exact hq
        · intro d hd1 hd2
          simp only [Function.update_of_ne hd1]
          exact g2 d hd2
        · intro d hd
          have : d ≠ c := fun h => by rw [h, ho] at hd; simp at hd
          simp only [Function.update_of_ne this]
          exact g3 d hd
    -- the rest
    have hv : rest.Accounts (fun c l' => t.copen c = none → Summary cfg P l' (s1.cell c)) l2 := by
      refine Accounts.imp' ?_ v
      intro d hd l' _ hq
      intro ho
      rw [fr2 d ho]; exact hq ho
    obtain ⟨s2, e2, k1, k2, k3⟩ := h2 next l2 s1 a4 b3 n4 hm2 hv
    have keep : ∀ d, d ∉ rest.cells → s2.cell d = s1.cell d := k2
    refine ⟨s2, ?_, ⟨l1, l2, rfl, ?_, ?_, k1⟩, ?_, ?_⟩
    · intro fuel hf
      simp only [Forest.height] at hf
      rw [stockRoots, e1 fuel (le_trans (le_max_left _ _) hf), Option.bind_some,
        e2 fuel (le_trans (le_max_right _ _) hf)]
    · show Summary cfg P l1 (s2.cell c)
      rw [keep c n2]; exact hs1
    · intro hne
      refine Accounts.imp' ?_ (ha1 hne)
      intro d hd l' _ hq
      show Summary cfg P l' (s2.cell d)
      rw [keep d fun h => n5 d hd d h rfl]
      exact hq
    · intro d hd
      simp only [Forest.cells, List.mem_cons, List.mem_append, not_or] at hd
      rw [keep d hd.2.2, fr1 d hd.1 hd.2.1]
    · intro d hd
      rw [k3 d hd, fr2 d hd]

end Pruned
end Gandalf
