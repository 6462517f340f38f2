import Verif.Model.MpiForces
import Mathlib.Tactic.Linarith
import Mathlib.Tactic.Ring

/-!
# Forces from other processes: lemmas
-/

set_option autoImplicit false
set_option linter.unusedSectionVars false

namespace Gandalf.Export

variable {P S R : Type}

theorem place_out (H : Handler P S R) : ∀ (l : List S) (o : ℕ) (mem : ℕ → P) (s : ℕ), (s < o ∨ o + l.length ≤ s) →
    place H l o mem s = mem s
  | [], _, _, _, _ => rfl
  | x :: xs, o, mem, s, h => by
    change place H xs (o + 1) _ s = _
    simp only [List.length_cons] at h
    rw [place_out H xs (o + 1) _ s (by omega), Function.update_of_ne (by omega)]

theorem place_in (H : Handler P S R) : ∀ (l : List S) (o : ℕ) (mem : ℕ → P) (k : ℕ) (hk : k < l.length),
    place H l o mem (o + k) = H.receive l[k] (mem (o + k))
  | x :: xs, o, mem, 0, _ => by
    change place H xs (o + 1) _ (o + 0) = _
    rw [place_out H xs (o + 1) _ _ (by omega)]
    simp
  | x :: xs, o, mem, k + 1, hk => by
    change place H xs (o + 1) _ (o + (k + 1)) = _
    have h := place_in H xs (o + 1) (Function.update mem o (H.receive x (mem o))) k (by simpa using hk)
    rw [show o + (k + 1) = o + 1 + k by ring, h, Function.update_of_ne (by omega)]
    rfl

theorem accAll_out (H : Handler P S R) : ∀ (ids : List ℕ) (xs : List R) (mem : ℕ → P) (i : ℕ), i ∉ ids →
    accAll H ids xs mem i = mem i
  | [], _, _, _, _ => by cases ‹List R› <;> rfl
  | _ :: _, [], _, _, _ => rfl
  | j :: is, x :: xs, mem, i, h => by
    change accAll H is xs _ i = _
    rw [List.mem_cons, not_or] at h
    rw [accAll_out H is xs _ i h.2, Function.update_of_ne h.1]

theorem accAll_in (H : Handler P S R) : ∀ (ids : List ℕ) (xs : List R) (mem : ℕ → P) (k : ℕ) (hk : k < ids.length)
    (hx : k < xs.length), ids.Nodup → accAll H ids xs mem ids[k] = H.acc xs[k] (mem ids[k])
  | j :: is, x :: xs, mem, 0, _, _, hn => by
    change accAll H is xs _ j = _
    rw [accAll_out H is xs _ j (List.nodup_cons.mp hn).1]
    simp
  | j :: is, x :: xs, mem, k + 1, hk, hx, hn => by
    have hk' : k < is.length := by simpa using hk
    change accAll H is xs _ is[k] = _
    rw [accAll_in H is xs _ k hk' (by simpa using hx) (List.nodup_cons.mp hn).2]
    rw [Function.update_of_ne]
    · rfl
    · intro e
      exact (List.nodup_cons.mp hn).1 (e ▸ List.getElem_mem hk')

theorem offset_ge (base : ℕ) (cnt : ℕ → ℕ) (q : ℕ) : base ≤ offset base cnt q := Nat.le_add_right _ _

theorem offset_succ (base : ℕ) (cnt : ℕ → ℕ) (q : ℕ) : offset base cnt (q + 1) = offset base cnt q + cnt q := by
  unfold offset
  rw [List.range_succ, List.map_append, List.sum_append]
  simp
  ring

theorem offset_mono (base : ℕ) (cnt : ℕ → ℕ) {p q : ℕ} (h : p ≤ q) : offset base cnt p ≤ offset base cnt q := by
  induction h with
  | refl => exact le_rfl
  | step _ ih => exact ih.trans (by rw [Nat.succ_eq_add_one, offset_succ]; omega)

theorem blocks (base : ℕ) (cnt : ℕ → ℕ) {p q s : ℕ} (h : p ≠ q) (h1 : offset base cnt p ≤ s)
    (h2 : s < offset base cnt p + cnt p) : s < offset base cnt q ∨ offset base cnt q + cnt q ≤ s := by
  rcases Nat.lt_or_gt_of_ne h with h | h
  · have := offset_mono base cnt (show p + 1 ≤ q by omega)
    rw [offset_succ] at this
    omega
  · have := offset_mono base cnt (show q + 1 ≤ p by omega)
    rw [offset_succ] at this
    omega

/-- one message of `imported` -/
def World.unpack (W : World P) (H : Handler P S R) (q : ℕ) (mem : ℕ → P) (p : ℕ) : ℕ → P :=
  place H ((W.ids p q).map fun i => H.stream (W.mem p i)) (offset (W.base q) (W.cnt q) p) mem

theorem fold_own (W : World P) (H : Handler P S R) (q s : ℕ) (hs : s < W.base q) : ∀ (l : List ℕ) (mem : ℕ → P),
    l.foldl (W.unpack H q) mem s = mem s
  | [], _ => rfl
  | p :: l, mem => by
    rw [List.foldl_cons, fold_own W H q s hs l]
    exact place_out H _ _ _ _ (Or.inl (lt_of_lt_of_le hs (offset_ge _ _ _)))

theorem imported_own (W : World P) (H : Handler P S R) (q s : ℕ) (hs : s < W.base q) :
    W.imported H q s = W.mem q s := fold_own W H q s hs _ _

theorem fold_out (W : World P) (H : Handler P S R) (q p k : ℕ) (hpq : p ≠ q) (hk : k < (W.ids p q).length) :
    ∀ (l : List ℕ) (mem : ℕ → P), p ∉ l → q ∉ l →
    l.foldl (W.unpack H q) mem (offset (W.base q) (W.cnt q) p + k) = mem (offset (W.base q) (W.cnt q) p + k)
  | [], _, _, _ => rfl
  | a :: l, mem, h, h' => by
    rw [List.mem_cons, not_or] at h h'
    rw [List.foldl_cons, fold_out W H q p k hpq hk l _ h.2 h'.2]
    refine place_out H _ _ _ _ ?_
    have c : W.cnt q p = (W.ids p q).length := if_neg hpq
    have c' : W.cnt q a = (W.ids a q).length := if_neg (fun e => h'.1 e.symm)
    have := blocks (W.base q) (W.cnt q) (s := offset (W.base q) (W.cnt q) p + k) h.1 (by omega) (by omega)
    rw [List.length_map, ← c']
    exact this

theorem fold_in (W : World P) (H : Handler P S R) (q p k : ℕ) (hpq : p ≠ q) (hk : k < (W.ids p q).length) :
    ∀ (l : List ℕ) (mem : ℕ → P), p ∈ l → l.Nodup → q ∉ l →
    l.foldl (W.unpack H q) mem (offset (W.base q) (W.cnt q) p + k) =
      H.receive (H.stream (W.mem p (W.ids p q)[k])) (mem (offset (W.base q) (W.cnt q) p + k))
  | a :: l, mem, h, hn, hq => by
    rw [List.nodup_cons] at hn
    rw [List.mem_cons, not_or] at hq
    rw [List.foldl_cons]
    by_cases e : p = a
    · subst e
      rw [fold_out W H q p k hpq hk l _ hn.1 hq.2]
      unfold World.unpack
      rw [place_in H _ _ _ k (by rw [List.length_map]; exact hk), List.getElem_map]
    · have hm : p ∈ l := (List.mem_cons.mp h).resolve_left e
      rw [fold_in W H q p k hpq hk l _ hm hn.2 hq.2]
      congr 1
      refine place_out H _ _ _ _ ?_
      have c : W.cnt q p = (W.ids p q).length := if_neg hpq
      have c' : W.cnt q a = (W.ids a q).length := if_neg (fun e => hq.1 e.symm)
      have := blocks (W.base q) (W.cnt q) (s := offset (W.base q) (W.cnt q) p + k) e (by omega) (by omega)
      rw [List.length_map, ← c']
      exact this

/-- adding up over the messages back -/
theorem fold_sum {T : Type} (acc : R → T → T) (f : T → ℝ) (g : R → ℝ) (h : ∀ r x, f (acc r x) = f x + g r) (c : ℕ → Bool)
    (res : ℕ → R) : ∀ (l : List ℕ) (x : T),
    f (l.foldl (fun x q => if c q then acc (res q) x else x) x) = f x + ((l.filter c).map fun q => g (res q)).sum
  | [], x => by simp
  | q :: l, x => by
    rw [List.foldl_cons, fold_sum acc f g h c res l]
    by_cases e : c q = true
    · rw [if_pos e, h, List.filter_cons_of_pos e, List.map_cons, List.sum_cons]
      ring
    · rw [if_neg e, List.filter_cons_of_neg e]

theorem sum_others {N p : ℕ} {l : List ℕ} (hn : l.Nodup) (hl : ∀ q, q ∈ l ↔ q < N ∧ q ≠ p) (c : ℕ → Bool)
    (f : ℕ → ℝ) :
    ((l.filter c).map f).sum = ∑ q ∈ (Finset.range N).filter (fun q => q ≠ p ∧ c q = true), f q := by
  rw [← List.sum_toFinset _ (hn.filter _)]
  refine Finset.sum_congr ?_ fun _ _ => rfl
  ext q
  simp [hl, and_assoc]

end Gandalf.Export
