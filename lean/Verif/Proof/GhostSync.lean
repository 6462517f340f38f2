import Verif.Spec.GhostSync
import Mathlib.Algebra.Order.BigOperators.Group.Finset
import Mathlib.Tactic.Ring
import Mathlib.Tactic.Linarith

set_option autoImplicit false
set_option linter.unusedSectionVars false

namespace Gandalf

namespace GhostSync

variable {α β : Type}

theorem flatten_get : ∀ (L : List (List β)) (i j : ℕ) (hi : i < L.length) (_ : j < L[i].length),
    L.flatten[((L.take i).map List.length).sum + j]? = L[i][j]?
  | [], i, _, hi, _ => absurd hi (by simp)
  | l :: L, 0, j, _, hj => by
    simp only [List.flatten_cons, List.take_zero, List.map_nil, List.sum_nil, Nat.zero_add,
      List.getElem_cons_zero]
    exact List.getElem?_append_left hj
  | l :: L, i + 1, j, hi, hj => by
    simp only [List.flatten_cons, List.take_succ_cons, List.map_cons, List.sum_cons,
      List.getElem_cons_succ]
    rw [List.getElem?_append_right (by omega)]
    have := flatten_get L i j (by simpa using hi) hj
    rw [← this]
    congr 1
    omega

theorem flatten_slice : ∀ (L : List (List β)) (i : ℕ) (hi : i < L.length),
    (L.flatten.drop ((L.take i).map List.length).sum).take L[i].length = L[i]
  | [], i, hi => absurd hi (by simp)
  | l :: L, 0, _ => by simp
  | l :: L, i + 1, hi => by
    simp only [List.flatten_cons, List.take_succ_cons, List.map_cons, List.sum_cons,
      List.getElem_cons_succ]
    rw [← List.drop_drop, List.drop_left]
    exact flatten_slice L i (by simpa using hi)

theorem take_sum (N q : ℕ) (hq : q ≤ N) (b : ℕ → List β) :
    ((((List.range N).map b).take q).map List.length).sum = displ (fun q => (b q).length) q := by
  rw [← List.map_take, List.take_range, Nat.min_eq_left hq, List.map_map]
  rfl

theorem alltoall_blocks (N : ℕ) (b : ℕ → ℕ → List β) (q : ℕ) (hq : q < N) :
    alltoall N (fun p q => (b p q).length) (fun p => ((List.range N).map (b p)).flatten) q =
      ((List.range N).map fun p => b p q).flatten := by
  unfold alltoall
  congr 1
  refine List.map_congr_left fun p _ => ?_
  have h : q < ((List.range N).map (b p)).length := by simpa using hq
  have := flatten_slice ((List.range N).map (b p)) q h
  rw [take_sum N q hq.le] at this
  simpa using this

theorem displ_sum (cnt : ℕ → ℕ) (q : ℕ) : displ cnt q = ∑ p ∈ Finset.range q, cnt p := by
  unfold displ
  induction q with
  | zero => simp
  | succ q ih => rw [List.range_succ, List.map_append, List.sum_append, ih, Finset.sum_range_succ]; simp

theorem received_eq (W : World) (mem : ℕ → ℕ → Part α) (q : ℕ) (hq : q < W.N) :
    received W mem q = ((List.range W.N).map fun p => (W.ids p q).map fun i =>
      { mem p i with
        iorig := i }).flatten := by
  have := alltoall_blocks W.N (fun p q => (W.ids p q).map fun i =>
    ({ mem p i with
      iorig := i } : Part α)) q hq
  simp only [List.length_map] at this
  exact this

theorem received_get (W : World) (mem : ℕ → ℕ → Part α) (q : ℕ) (hq : q < W.N) (p : ℕ) (hp : p < W.N)
    (j : ℕ) (hj : j < (W.ids p q).length) :
    (received W mem q)[(∑ p' ∈ Finset.range p, (W.ids p' q).length) + j]? =
      some { mem p (W.ids p q)[j] with
        iorig := (W.ids p q)[j] } := by
  rw [received_eq W mem q hq]
  have h : p < ((List.range W.N).map fun p => (W.ids p q).map fun i =>
      ({ mem p i with
        iorig := i } : Part α)).length := by simpa using hp
  have := flatten_get ((List.range W.N).map fun p => (W.ids p q).map fun i =>
      ({ mem p i with
        iorig := i } : Part α)) p j h (by simpa using hj)
  rw [take_sum W.N p hp.le, displ_sum] at this
  simp only [List.length_map, List.getElem_map, List.getElem_range] at this
  rw [this, List.getElem?_map, List.getElem?_eq_getElem hj]
  rfl

theorem received_length (W : World) (mem : ℕ → ℕ → Part α) (q : ℕ) (hq : q < W.N) :
    (received W mem q).length = ∑ p ∈ Finset.range W.N, (W.ids p q).length := by
  rw [received_eq W mem q hq, List.length_flatten, List.map_map, ← displ_sum]
  unfold displ
  congr 1
  exact List.map_congr_left fun p _ => by simp

theorem upperBound_eq : ∀ (l : List ℕ) (x p : ℕ) (hp : p < l.length)
    (_ : ∀ i (_ : i < p) (hi' : i < l.length), l[i] ≤ x) (_ : x < l[p]), upperBound l x = p
  | [], _, p, hp, _, _ => absurd hp (by simp)
  | e :: l, x, 0, _, _, h => by
    have h' : ¬e ≤ x := by simpa using h
    simp [upperBound, h']
  | e :: l, x, p + 1, hp, hle, h => by
    have h0 : e ≤ x := hle 0 (by omega) (by simp)
    have ih := upperBound_eq l x p (by simpa using hp)
      (fun i hi hi' => hle (i + 1) (by omega) (by simpa using hi')) (by simpa using h)
    unfold upperBound at ih ⊢
    rw [List.takeWhile_cons, if_pos (by simpa using h0), List.length_cons, ih]

theorem sum_mono (cnt : ℕ → ℕ) {a b : ℕ} (h : a ≤ b) :
    ∑ p ∈ Finset.range a, cnt p ≤ ∑ p ∈ Finset.range b, cnt p :=
  Finset.sum_le_sum_of_subset (Finset.range_mono h)

theorem procOf_slot (W : World) (q p j : ℕ) (hp : p < W.N) (hj : j < (W.ids p q).length) :
    procOf W q (slot W q p j) = p := by
  unfold procOf
  refine upperBound_eq _ _ p (by simpa [ends] using hp) ?_ ?_
  · intro i hi hi'
    simp only [ends, List.getElem_map, List.getElem_range, displ_sum, slot]
    have := sum_mono (fun p => (W.ids p q).length) (show i + 1 ≤ p by omega)
    beta_reduce at this
    omega
  · simp only [ends, List.getElem_map, List.getElem_range, displ_sum, slot, Finset.sum_range_succ]
    omega

theorem backReceived_eq (W : World) (mem : ℕ → ℕ → Part α) (chg : ℕ → List ℕ) (p : ℕ) (hp : p < W.N) :
    backReceived W mem chg p = ((List.range W.N).map fun q => backTo W mem chg q p).flatten :=
  alltoall_blocks W.N (fun q p => backTo W mem chg q p) p hp

theorem parent_congr (Nhydro : ℕ) (m m' : ℕ → Part α) (h : ∀ i, (m i).iorig = (m' i).iorig) :
    ∀ (fuel j : ℕ), parent Nhydro m fuel j = parent Nhydro m' fuel j
  | 0, _ => rfl
  | fuel + 1, j => by
    simp only [parent, h j, parent_congr Nhydro m m' h fuel]

theorem updateAll_get (Nhydro fuel : ℕ) (upd : Part α → Part α → Part α)
    (hupd : ∀ x y, (upd x y).iorig = y.iorig) : ∀ (xs : List (Part α)) (m : ℕ → Part α) (j : ℕ),
    updateAll Nhydro fuel upd m xs j =
      (xs.filter fun x => decide (parent Nhydro m fuel x.iorig = j)).foldl (fun y x => upd x y) (m j)
  | [], _, _ => rfl
  | x :: xs, m, j => by
    have hm : ∀ i, (Function.update m (parent Nhydro m fuel x.iorig)
        (upd x (m (parent Nhydro m fuel x.iorig))) i).iorig = (m i).iorig := by
      intro i
      by_cases hi : i = parent Nhydro m fuel x.iorig
      · subst hi
        rw [Function.update_self, hupd]
      · rw [Function.update_of_ne hi]
    show updateAll Nhydro fuel upd (Function.update m _ _) xs j = _
    rw [updateAll_get Nhydro fuel upd hupd xs]
    simp only [parent_congr Nhydro _ m hm]
    by_cases hj : parent Nhydro m fuel x.iorig = j
    · rw [List.filter_cons_of_pos (by simpa using hj), List.foldl_cons, ← hj, Function.update_self]
    · rw [List.filter_cons_of_neg (by simpa using hj), Function.update_of_ne (fun h => hj h.symm)]

theorem root_unique {Nhydro : ℕ} {m : ℕ → Part α} {j k k' : ℕ} (h : Root Nhydro m j k)
    (h' : Root Nhydro m j k') : k = k' := by
  induction h with
  | own j hj =>
    cases h' with
    | own => rfl
    | ghost _ _ hg => omega
  | ghost j k hg _ ih =>
    cases h' with
    | own _ hj => omega
    | ghost _ _ _ h2 => exact ih h2

theorem parent_root (Nhydro n : ℕ) (m : ℕ → Part α)
    (h : ∀ j, Nhydro ≤ j → j < n → (m j).iorig < j) :
    ∀ (fuel j : ℕ), j < fuel → j < n → Root Nhydro m j (parent Nhydro m fuel j)
  | 0, _, hj, _ => absurd hj (by omega)
  | fuel + 1, j, hj, hn => by
    unfold parent
    split
    · next hlt => exact .own j hlt
    · next hge =>
      have hlt := h j (by omega) hn
      exact .ghost j _ (by omega) (parent_root Nhydro n m h fuel _ (by omega) (by omega))

theorem parent_iff (Nhydro n : ℕ) (m : ℕ → Part α)
    (h : ∀ j, Nhydro ≤ j → j < n → (m j).iorig < j) (j i : ℕ) (hj : j < n) :
    parent Nhydro m n j = i ↔ Root Nhydro m j i := by
  have hr := parent_root Nhydro n m h n j hj hj
  constructor
  · rintro rfl
    exact hr
  · exact fun h' => root_unique hr h'

theorem backReceived_filter (W : World) (mem : ℕ → ℕ → Part α) (chg : ℕ → List ℕ) (h : Synced W mem)
    (hc : OnlyCopies W chg) (p : ℕ) (hp : p < W.N) (i : ℕ) :
    (backReceived W mem chg p).filter
      (fun x => decide (parent (W.nhydro p) (mem p) (W.start p) x.iorig = i)) =
      changed W mem chg p i := by
  classical
  rw [backReceived_eq W mem chg p hp, List.filter_flatten, List.map_map]
  unfold changed
  congr 1
  refine List.map_congr_left fun q hq => ?_
  have hq' : q < W.N := List.mem_range.mp hq
  simp only [Function.comp, backTo, List.filter_map, List.filter_filter]
  congr 1
  refine List.filter_congr fun s hs => ?_
  obtain ⟨p', hp', j, hj, rfl⟩ := hc q hq' s hs
  rw [Bool.eq_iff_iff]
  simp only [Bool.and_eq_true, decide_eq_true_eq, procOf_slot W q p' j hp' hj]
  have hroot : ∀ j (hj : j < (W.ids p q).length),
      parent (W.nhydro p) (mem p) (W.start p) (W.ids p q)[j] = i ↔
        Root (W.nhydro p) (mem p) (W.ids p q)[j] i := fun j hj =>
    parent_iff _ _ _ (h.images p hp) _ _ (h.sent p hp q hq' _ (List.getElem_mem hj))
  constructor
  · rintro ⟨hpar, rfl⟩
    rw [h.copies p' hp' q hq' j hj] at hpar
    exact ⟨j, hj, rfl, (hroot j hj).mp hpar⟩
  · rintro ⟨j', hj', hs', hr⟩
    have e := procOf_slot W q p' j hp' hj
    rw [hs', procOf_slot W q p j' hp hj'] at e
    refine ⟨?_, e.symm⟩
    rw [hs', h.copies p hp q hq' j' hj']
    exact (hroot j' hj').mpr hr

end GhostSync

end Gandalf
