import Verif.Model.PrunedTree
import Verif.Spec.PrunedTree
import Verif.Proof.MpiPack
import Verif.Proof.GravityWalk
import Verif.Proof.TreeWalk
import Mathlib.Algebra.BigOperators.Intervals

/-! Lemmas about pruned trees. -/

set_option autoImplicit false
set_option linter.unusedSectionVars false

namespace Gandalf
open Walk

namespace Forest

theorem cells_prune (opn : ℕ → Bool) : ∀ f : Forest, (f.prune opn).cells = f.visited opn := by
  intro f
  induction f with
  | nil => rfl
  | cons c ch rest h1 h2 =>
    simp only [prune, cells, visited, h2]
    split_ifs <;> simp [h1, cells]

theorem size_prune (opn : ℕ → Bool) (f : Forest) : (f.prune opn).size = (f.visited opn).length := by
  rw [size_eq_length, cells_prune]

theorem size_number : ∀ (f : Forest) (k : ℕ), (f.number k).size = f.size := by
  intro f
  induction f with
  | nil => intro k; rfl
  | cons c ch rest h1 h2 => intro k; simp [number, size, h1, h2]

theorem cells_number : ∀ (f : Forest) (k : ℕ), (f.number k).cells = List.range' k f.size := by
  intro f
  induction f with
  | nil => intro k; rfl
  | cons c ch rest h1 h2 =>
    intro k
    simp only [number, cells, size, h1, h2]
    rw [show ch.size + rest.size + 1 = 1 + ch.size + rest.size by omega, List.range'_append_1.symm,
      List.range'_append_1.symm]
    simp [Nat.add_assoc]

theorem number_eq_nil {f : Forest} {k : ℕ} : f.number k = nil ↔ f = nil := by
  cases f <;> simp [number]

theorem prune_eq_nil {f : Forest} {opn : ℕ → Bool} : f.prune opn = nil ↔ f = nil := by
  cases f <;> simp [prune]

theorem leaves_cons_ne {c : ℕ} {ch rest : Forest} (h : ch ≠ nil) :
    (cons c ch rest).leaves = ch.leaves ++ rest.leaves := by
  cases ch with
  | nil => exact absurd rfl h
  | cons _ _ _ => rfl

theorem leaves_cons_nil {c : ℕ} {rest : Forest} : (cons c nil rest).leaves = c :: rest.leaves := rfl

theorem roots_number : ∀ (f : Forest) (k : ℕ), (f.number k).roots = f.roots := by
  intro f
  induction f with
  | nil => intro k; rfl
  | cons c ch rest _ h2 => intro k; simp [number, roots, h2]

theorem roots_prune (opn : ℕ → Bool) : ∀ (f : Forest), (f.prune opn).roots = f.roots := by
  intro f
  induction f with
  | nil => rfl
  | cons c ch rest _ h2 => simp [prune, roots, h2]

end Forest

/-- the list stands in the table from `k` on, in the sense of `R` -/
def AlignL {A : Type*} (R : ℕ → A → Prop) (k : ℕ) (l : List A) : Prop :=
  ∀ j (h : j < l.length), R (k + j) l[j]

theorem alignL_cons {A : Type*} {R : ℕ → A → Prop} {k : ℕ} {a : A} {l : List A} :
    AlignL R k (a :: l) ↔ R k a ∧ AlignL R (k + 1) l := by
  constructor
  · intro h
    refine ⟨h 0 (by simp), fun j hj => ?_⟩
    have := h (j + 1) (by simpa using hj)
    rw [show k + 1 + j = k + (j + 1) by omega]
    simpa using this
  · rintro ⟨h1, h2⟩ j hj
    cases j with
    | zero => exact h1
    | succ j =>
      have := h2 j (by simpa using hj)
      rw [show k + (j + 1) = k + 1 + j by omega]
      simpa using this

theorem alignL_append {A : Type*} {R : ℕ → A → Prop} {k : ℕ} {l m : List A} :
    AlignL R k (l ++ m) ↔ AlignL R k l ∧ AlignL R (k + l.length) m := by
  induction l generalizing k with
  | nil => simp [AlignL]
  | cons a l ih =>
    rw [List.cons_append, alignL_cons, alignL_cons, ih, and_assoc, List.length_cons,
      show k + 1 + l.length = k + (l.length + 1) by omega]

namespace Pruned

variable {β : Type*} {n : ℕ}

/-- `newCellIds` after the cells of a list got consecutive numbers -/
def assignIds : ℕ → List ℕ → (ℕ → Option ℕ) → (ℕ → Option ℕ)
  | _, [], ids => ids
  | N, c :: l, ids => assignIds (N + 1) l (Function.update ids c (some N))

theorem assignIds_append (N : ℕ) (l m : List ℕ) (ids : ℕ → Option ℕ) :
    assignIds N (l ++ m) ids = assignIds (N + l.length) m (assignIds N l ids) := by
  induction l generalizing N ids with
  | nil => rfl
  | cons a l ih =>
    rw [List.cons_append, assignIds, ih, assignIds, List.length_cons,
      show N + 1 + l.length = N + (l.length + 1) by omega]

theorem assignIds_of_notMem (l : List ℕ) : ∀ (N : ℕ) (ids : ℕ → Option ℕ) (c : ℕ), c ∉ l →
    assignIds N l ids c = ids c := by
  induction l with
  | nil => intro N ids c _; rfl
  | cons a l ih =>
    intro N ids c hc
    rw [List.mem_cons, not_or] at hc
    rw [assignIds, ih _ _ _ hc.2, Function.update_of_ne hc.1]

theorem assignIds_align (l : List ℕ) : ∀ (N : ℕ) (ids : ℕ → Option ℕ), l.Nodup →
    AlignL (fun k c => assignIds N l ids c = some k) N l := by
  induction l with
  | nil => intro N ids _ j h; simp at h
  | cons a l ih =>
    intro N ids h
    rw [List.nodup_cons] at h
    rw [alignL_cons]
    refine ⟨?_, ?_⟩
    · rw [assignIds, assignIds_of_notMem _ _ _ _ h.1, Function.update_self]
    · exact ih (N + 1) _ h.2

/-- the cell as it is put into the pruned table -/
def cutCell (celldata : ℕ → Cell β) (opn : ℕ → Bool) (c : ℕ) : Cell β :=
  if opn c then celldata c else { celldata c with copen := none }

theorem prune_fold (celldata : ℕ → Cell β) (opn : ℕ → Bool) (Nmax : ℕ) :
    ∀ (f : Forest) (s : State β), f.AllLeaves (fun c => opn c = false) → s.N ≤ Nmax →
    f.fold (pruneBody celldata opn Nmax) s =
      if s.N + (f.visited opn).length ≤ Nmax then
        some ⟨assignIds s.N (f.visited opn) s.newIds,
          Pack.overlay (fun a _ => a) s.N ((f.visited opn).map (cutCell celldata opn)) s.cells,
          s.N + (f.visited opn).length, s.leaves ++ ((f.prune opn).number s.N).leaves,
          s.localLeaves ++ (f.prune opn).leaves⟩
      else none := by
  intro f
  induction f with
  | nil =>
    intro s _ hs
    simp only [Forest.fold, Forest.visited, List.length_nil, Nat.add_zero, if_pos hs, assignIds,
      List.map_nil, Pack.overlay_nil, Forest.prune, Forest.number, Forest.leaves, List.append_nil]
  | cons c ch rest h1 h2 =>
    intro s hl hs
    obtain ⟨l1, l2, l3⟩ := hl
    simp only [Forest.fold, pruneBody]
    by_cases hN : s.N = Nmax
    · rw [if_pos hN, if_neg (by simp only [Forest.visited, List.length_cons]; omega)]
    · rw [if_neg hN]
      have hlt : s.N + 1 ≤ Nmax := by omega
      by_cases ho : opn c = true
      · have hne : ch ≠ .nil := fun h => by rw [l1 h] at ho; simp at ho
        rw [if_pos ho]
        simp only []
        rw [h1 _ l2 hlt]
        simp only [Forest.visited, if_pos ho, List.length_cons, List.length_append]
        by_cases hc : s.N + 1 + (ch.visited opn).length ≤ Nmax
        · rw [if_pos hc, Option.bind_some, h2 _ l3 hc]
          simp only []
          by_cases hr : s.N + 1 + (ch.visited opn).length + (rest.visited opn).length ≤ Nmax
          · rw [if_pos hr, if_pos (by omega)]
            simp only [Option.some.injEq, State.mk.injEq]
            refine ⟨?_, ?_, by omega, ?_, ?_⟩
            · rw [assignIds, assignIds_append]
            · rw [List.map_cons, Pack.overlay_cons, List.map_append, Pack.overlay_append,
                List.length_map]
              simp only [cutCell, if_pos ho]
            · simp only [Forest.prune, if_pos ho, Forest.number]
              rw [Forest.leaves_cons_ne (by rw [Ne, Forest.number_eq_nil, Forest.prune_eq_nil]; exact hne),
                Forest.size_prune, List.append_assoc]
            · simp only [Forest.prune, if_pos ho]
              rw [Forest.leaves_cons_ne (by rw [Ne, Forest.prune_eq_nil]; exact hne), List.append_assoc]
          · rw [if_neg hr, if_neg (by omega)]
        · rw [if_neg hc, if_neg (by omega)]; rfl
      · rw [if_neg ho]
        simp only []
        rw [h2 _ l3 hlt]
        simp only [Forest.visited, if_neg ho, List.nil_append, List.length_cons]
        by_cases hr : s.N + 1 + (rest.visited opn).length ≤ Nmax
        · rw [if_pos hr, if_pos (by omega)]
          simp only [Option.some.injEq, State.mk.injEq]
          refine ⟨rfl, ?_, by omega, ?_, ?_⟩
          · rw [List.map_cons, Pack.overlay_cons]
            simp only [cutCell, if_neg ho]
          · simp only [Forest.prune, if_neg ho, Forest.number, Forest.leaves_cons_nil, Forest.size,
              Nat.add_zero, List.append_assoc, List.singleton_append]
          · simp only [Forest.prune, if_neg ho, Forest.leaves_cons_nil, List.append_assoc,
              List.singleton_append]
        · rw [if_neg hr, if_neg (by omega)]

theorem entry_number (f : Forest) (k : ℕ) : (f.number k).entry (k + f.size) = k := by
  cases f <;> simp [Forest.number, Forest.entry, Forest.size]

/-- the new links encode the pruned forest -/
theorem linked_number (celldata : ℕ → Cell β) (opn : ℕ → Bool) (ids : ℕ → Option ℕ) (tab : ℕ → Cell β) :
    ∀ (f : Forest) (next k : ℕ),
    f.Linked ⟨fun c => (celldata c).copen, fun c => (celldata c).cnext⟩ next →
    f.AllLeaves (fun c => opn c = false) →
    AlignL (fun k c => ids c = some k ∧ tab k = relink ids (cutCell celldata opn c)) k (f.visited opn) →
    ids next = some (k + (f.visited opn).length) →
    ((f.prune opn).number k).Linked ⟨fun c => (tab c).copen, fun c => (tab c).cnext⟩
      (k + (f.visited opn).length) := by
  intro f
  induction f with
  | nil => intro next k _ _ _ _; trivial
  | cons c ch rest h1 h2 =>
    rintro next k ⟨a1, a2, a3, a4⟩ ⟨b1, b2, b3⟩ hal hnext
    simp only [Forest.visited, List.length_cons, List.length_append] at hal hnext ⊢
    rw [alignL_cons, alignL_append] at hal
    obtain ⟨⟨c1, c2⟩, c3, c4⟩ := hal
    set m := (if opn c = true then ch.visited opn else []).length with hm
    have hsz : (if opn c = true then ch.prune opn else Forest.nil).size = m := by
      rw [hm]; split_ifs
      · exact Forest.size_prune opn ch
      · rfl
    -- the number given to the cell after this one
    have hidr : ids (rest.entry next) = some (k + 1 + m) := by
      cases rest with
      | nil =>
        simp only [Forest.entry, Forest.visited, List.length_nil] at hnext ⊢
        rw [hnext]; congr 1; omega
      | cons d _ _ =>
        simp only [Forest.visited] at c4
        rw [alignL_cons] at c4
        exact c4.1.1
    have hent : ((rest.prune opn).number (k + 1 + m)).entry (k + (m + (rest.visited opn).length + 1)) =
        k + 1 + m := by
      rw [show k + (m + (rest.visited opn).length + 1) = (k + 1 + m) + (rest.prune opn).size by
        rw [Forest.size_prune]; omega]
      exact entry_number _ _
    simp only [Forest.prune, Forest.number, hsz]
    refine ⟨?_, ?_, ?_, ?_⟩
    · rw [hent]
      simp only [c2]
      have : (cutCell celldata opn c).cnext = (celldata c).cnext := by unfold cutCell; split_ifs <;> rfl
      unfold relink
      simp only [this]
      rw [show (celldata c).cnext = some (rest.entry next) from a1, Option.bind_some, hidr]
    · simp only [c2]
      unfold relink cutCell
      by_cases ho : opn c = true
      · simp only [if_pos ho]
        rw [show (celldata c).copen = _ from a2]
        cases ch with
        | nil => rw [b1 rfl] at ho; simp at ho
        | cons d x y =>
          simp only [Forest.prune, Forest.number, Option.bind_some]
          simp only [if_pos ho, Forest.visited] at c3
          rw [alignL_cons] at c3
          exact c3.1.1
      · simp only [if_neg ho, Option.bind_none, Forest.number]
    · rw [hent]
      by_cases ho : opn c = true
      · simp only [if_pos ho] at c3 hm ⊢
        have := h1 (rest.entry next) (k + 1) a3 b2 c3 (by rw [hidr, hm])
        rwa [← hm] at this
      · simp only [if_neg ho, Forest.number]; trivial
    · have := h2 next (k + 1 + m) a4 b3 c4 (by rw [hnext]; congr 1; omega)
      rwa [show k + 1 + m + (rest.visited opn).length = k + (m + (rest.visited opn).length + 1) by omega]
        at this

/-- in a numbered forest opening leads to the next cell, and skipping leads further -/
theorem numbered_links (L : Links) : ∀ (f : Forest) (k next : ℕ), (f.number k).Linked L next →
    k + f.size ≤ next →
    ∀ c ∈ List.range' k f.size, ∃ x, L.cnext c = some x ∧ c < x ∧
      ∀ y, L.copen c = some y → y = c + 1 ∧ y < x := by
  intro f
  induction f with
  | nil => intro k next _ _ c hc; simp [Forest.size] at hc
  | cons a ch rest h1 h2 =>
    rintro k next ⟨a1, a2, a3, a4⟩ hn c hc
    simp only [Forest.size] at hc hn
    have hent : k + 1 + ch.size ≤ (rest.number (k + 1 + ch.size)).entry next := by
      cases rest with
      | nil => simp only [Forest.number, Forest.entry]; simp only [Forest.size] at hn; omega
      | cons _ _ _ => exact le_rfl
    have hent2 : rest = .nil ∨ (rest.number (k + 1 + ch.size)).entry next = k + 1 + ch.size := by
      cases rest with
      | nil => exact Or.inl rfl
      | cons _ _ _ => exact Or.inr rfl
    rw [List.mem_range'_1] at hc
    by_cases e : c = k
    · subst e
      refine ⟨_, a1, by omega, ?_⟩
      intro y hy
      rw [a2] at hy
      cases ch with
      | nil => simp [Forest.number] at hy
      | cons d x z =>
        simp only [Forest.number, Option.some.injEq] at hy
        subst hy
        refine ⟨rfl, ?_⟩
        have : 0 < (Forest.cons d x z).size := by simp only [Forest.size]; omega
        omega
    · by_cases h : c < k + 1 + ch.size
      · exact h1 (k + 1) _ a3 hent c (by rw [List.mem_range'_1]; omega)
      · exact h2 (k + 1 + ch.size) next a4 (by omega) c (by rw [List.mem_range'_1]; omega)

theorem Accounts.number (opn : ℕ → Bool) (Q Q' : ℕ → List ℕ → Prop) : ∀ (f : Forest) (k : ℕ) (l : List ℕ),
    f.AllLeaves (fun c => opn c = false) →
    AlignL (fun k c => ∀ l', Q c l' → Q' k l') k (f.visited opn) → f.Accounts Q l →
    ((f.prune opn).number k).Accounts Q' l := by
  intro f
  induction f with
  | nil => intro k l _ _ h; exact h
  | cons c ch rest h1 h2 =>
    rintro k l ⟨b1, b2, b3⟩ hal ⟨l1, l2, rfl, q, a, b⟩
    simp only [Forest.visited] at hal
    rw [alignL_cons, alignL_append] at hal
    obtain ⟨c1, c3, c4⟩ := hal
    have hsz : (if opn c = true then ch.prune opn else Forest.nil).size =
        (if opn c = true then ch.visited opn else []).length := by
      split_ifs
      · exact Forest.size_prune opn ch
      · rfl
    simp only [Forest.prune, Forest.number, hsz]
    refine ⟨l1, l2, rfl, c1 _ q, ?_, h2 _ l2 b3 c4 b⟩
    intro hne
    by_cases ho : opn c = true
    · simp only [if_pos ho] at c3 ⊢
      refine h1 _ l1 b2 c3 (a ?_)
      rintro rfl
      rw [b1 rfl] at ho
      simp at ho
    · simp only [if_neg ho, Forest.number] at hne; exact absurd rfl hne

theorem _root_.Gandalf.Forest.Covers.accounts {leaf : ℕ → Option (List ℕ)} {Q : ℕ → List ℕ → Prop} :
    ∀ {f : Forest} {l : List ℕ}, f.Covers leaf Q l → f.Accounts Q l := by
  intro f
  induction f with
  | nil => intro l h; exact h
  | cons c ch rest h1 h2 =>
    rintro l ⟨l1, l2, e, q, _, b, d⟩
    exact ⟨l1, l2, e, q, fun hc => h1 (b hc), h2 d⟩

/-- `create` on a well linked tree -/
theorem create_spec (celldata : ℕ → Cell β) (Ncell Ncellmax Nend : ℕ) (hmax : Ncell ≤ Ncellmax)
    (hend : Nend = Ncell ∨ Nend = Ncellmax)
    (opn : ℕ → Bool) (Nmax : ℕ) (old : ℕ → Cell β) (fuel : ℕ) (f : Forest)
    (hlink : f.Linked ⟨fun c => (celldata c).copen, fun c => (celldata c).cnext⟩ Nend)
    (hroot : f.entry Nend = 0) (hcells : ∀ c ∈ f.cells, c < Ncell) (hnd : f.cells.Nodup)
    (hleaf : f.AllLeaves (fun c => opn c = false)) (hfuel : f.cells.length ≤ fuel) :
    (Nmax < (f.visited opn).length → create celldata Ncell Ncellmax opn Nmax old fuel = .full) ∧
    ((f.visited opn).length ≤ Nmax → ∃ tab,
      create celldata Ncell Ncellmax opn Nmax old fuel = .ok tab (f.visited opn).length
        ((f.prune opn).number 0).leaves (f.prune opn).leaves ∧
      ((f.prune opn).number 0).Linked ⟨fun c => (tab c).copen, fun c => (tab c).cnext⟩
        (f.visited opn).length ∧
      (∀ j (h : j < (f.visited opn).length), (tab j).level = (celldata (f.visited opn)[j]).level ∧
        (tab j).data = (celldata (f.visited opn)[j]).data) ∧
      ∀ j, (f.visited opn).length ≤ j → tab j = old j) := by
  have hw := walk_eq_fold_end ⟨fun c => (celldata c).copen, fun c => (celldata c).cnext⟩ Ncell Nend
    (by omega) (pruneBody celldata opn Nmax) f hlink hcells
    (hleaf.imp fun c hc s s' => by
      unfold pruneBody
      rw [hc]
      by_cases h : s.N = Nmax <;> simp [h]) ⟨fun _ => none, old, 0, [], []⟩ fuel
    (by rw [Forest.size_eq_length]; exact hfuel)
  rw [hroot, prune_fold celldata opn Nmax f _ hleaf (Nat.zero_le _)] at hw
  simp only [Nat.zero_add, List.nil_append] at hw
  constructor
  · intro h
    rw [if_neg (by omega)] at hw
    unfold create
    rw [hw]
  · intro h
    rw [if_pos h] at hw
    simp only [] at hw
    set ids := Function.update (Function.update (assignIds 0 (f.visited opn) fun _ => none) Ncell
      (some (f.visited opn).length)) Ncellmax (some (f.visited opn).length) with hids
    set cs := Pack.overlay (fun a _ => a) 0 ((f.visited opn).map (cutCell celldata opn)) old with hcs
    set tab : ℕ → Cell β := fun c => if c < (f.visited opn).length then relink ids (cs c) else cs c
      with htab
    have hvnd : (f.visited opn).Nodup := hnd.sublist (Forest.visited_subset opn f)
    have hvlt : ∀ c ∈ f.visited opn, c < Ncell := fun c hc =>
      hcells c ((Forest.visited_subset opn f).subset hc)
    have hidc : ∀ c ∈ f.visited opn, ids c = assignIds 0 (f.visited opn) (fun _ => none) c := by
      intro c hc
      have := hvlt c hc
      rw [hids, Function.update_of_ne (by omega), Function.update_of_ne (by omega)]
    have hcs1 : ∀ j (hj : j < (f.visited opn).length), cs j = cutCell celldata opn (f.visited opn)[j] := by
      intro j hj
      have := Pack.overlay_get (fun (a : Cell β) (_ : Cell β) => a) 0
        ((f.visited opn).map (cutCell celldata opn)) old j (by simpa using hj)
      rw [Nat.zero_add] at this
      rw [hcs, this, List.getElem_map]
    have hal : AlignL (fun k c => ids c = some k ∧ tab k = relink ids (cutCell celldata opn c)) 0
        (f.visited opn) := by
      intro j hj
      simp only [Nat.zero_add]
      refine ⟨?_, ?_⟩
      · rw [hidc _ (List.getElem_mem hj)]
        have := assignIds_align (f.visited opn) 0 (fun _ => none) hvnd j hj
        simpa using this
      · rw [htab]
        simp only [if_pos hj, hcs1 j hj]
    have hidn : ids Nend = some (0 + (f.visited opn).length) := by
      rw [hids, Nat.zero_add]
      by_cases e : Nend = Ncellmax
      · rw [← e, Function.update_self]
      · rw [Function.update_of_ne e, hend.resolve_right e, Function.update_self]
    have hL := linked_number celldata opn ids tab f Nend 0 hlink hleaf hal hidn
    rw [Nat.zero_add] at hL
    refine ⟨tab, ?_, hL, ?_, ?_⟩
    · unfold create
      rw [hw]
      simp only []
      rw [if_neg]
      rw [List.any_eq_true]
      rintro ⟨c, hc, hbad⟩
      rw [List.mem_range] at hc
      obtain ⟨x, e1, e2, e3⟩ := numbered_links _ (f.prune opn) 0 _ hL (by
        rw [Forest.size_prune, Nat.zero_add]) c (by
        rw [Forest.size_prune, List.mem_range'_1]; omega)
      have htc : relink ids (cs c) = tab c := by rw [htab]; simp only [if_pos hc]
      rw [htc] at hbad
      unfold badLinks at hbad
      simp only [] at e1 e3
      rw [e1] at hbad
      simp only [Bool.or_eq_true, decide_eq_true_eq] at hbad
      rcases hbad with hbad | hbad
      · omega
      · cases hop : (tab c).copen with
        | none => rw [hop] at hbad; simp at hbad
        | some y =>
          rw [hop] at hbad
          have := e3 y hop
          simp only [decide_eq_true_eq] at hbad
          omega
    · intro j hj
      rw [htab]
      simp only [if_pos hj, hcs1 j hj, relink, cutCell]
      split_ifs <;> exact ⟨rfl, rfl⟩
    · intro j hj
      rw [htab]
      simp only [if_neg (not_lt.mpr hj), hcs]
      exact Pack.overlay_other _ _ _ _ _ (by simp; omega)

end Pruned
end Gandalf
