import Verif.Proof.OctDist
import Verif.Proof.OctForest
import Mathlib.Tactic.Linarith
import Mathlib.Tactic.Ring
import Mathlib.Tactic.Abel
import Mathlib.Data.Nat.Bitwise

/-! Invariant of the oct-tree build. -/

set_option autoImplicit false
set_option linter.unusedSectionVars false

namespace Gandalf.Oct
open LeafList

section octant
variable {n : ℕ} {α : Type*} [Field α] [LinearOrder α]

theorem octant_bits : ∀ {n : ℕ} (x c : Vec n α), octant x c < 2 ^ n ∧
    ∀ k : Fin n, (octant x c).testBit k.val = decide (x k > c k) := by
  intro n
  induction n with
  | zero => intro x c; exact ⟨by simp [octant], fun k => k.elim0⟩
  | succ n ih =>
    intro x c
    have e : octant x c = 2 ^ n * (if x (Fin.last n) > c (Fin.last n) then 1 else 0) +
        octant (fun k => x k.castSucc) (fun k => c k.castSucc) := by
      simp only [octant, Fin.sum_univ_castSucc, Fin.val_castSucc, Fin.val_last]
      split_ifs <;> omega
    obtain ⟨h1, h2⟩ := ih (fun k => x k.castSucc) (fun k => c k.castSucc)
    refine ⟨?_, ?_⟩
    · rw [e, pow_succ]; split_ifs <;> omega
    · intro k
      rw [e, Nat.testBit_two_pow_mul_add _ h1]
      refine Fin.lastCases ?_ (fun j => ?_) k
      · simp only [Fin.val_last, lt_irrefl, if_false, Nat.sub_self]
        split_ifs with h <;> simp [h]
      · simp only [Fin.val_castSucc, j.isLt, if_true]
        exact h2 j

end octant

theorem buckets_perm (kid : ℕ → ℕ) (l : List ℕ) : ∀ m,
    ((List.range m).flatMap fun k => l.filter fun i => decide (kid i = k)).Perm
      (l.filter fun i => decide (kid i < m)) := by
  intro m
  induction m with
  | zero => simp
  | succ m ih =>
    rw [List.range_succ, List.flatMap_append]
    refine (ih.append_right _).trans ?_
    have h := List.filter_append_perm (fun i => decide (kid i < m)) (l.filter fun i => decide (kid i < m + 1))
    refine List.Perm.trans ?_ h
    simp only [List.filter_filter, List.flatMap_cons, List.flatMap_nil, List.append_nil]
    refine List.Perm.of_eq ?_
    congr 1
    · congr 1
      funext i
      by_cases h : kid i < m
      · simp [h]; omega
      · simp [h]
    · congr 1
      funext i
      by_cases h : kid i = m
      · simp [h]
      · simp [h]; omega

variable {n : ℕ} {α : Type*} [Field α] [LinearOrder α] [IsStrictOrderedRing α]

/-- what holds while cells are being divided; `top` cells are in use -/
structure Inv (r : ℕ → Vec n α) (ctr0 : Vec n α) (S : α) (Ncellmax top : ℕ) (l : List ℕ) (s : State n α)
    (f : Forest) (lst : ℕ → List ℕ) : Prop where
  linked : f.Linked s.links Ncellmax
  root : f.entry Ncellmax = 0
  cells : f.cells.Perm (List.range top)
  held : ∀ c ∈ f.leaves, Held s.lists c (lst c)
  perm : (f.leaves.flatMap lst).Perm l
  fresh : ∀ c, top ≤ c → c < Ncellmax → Held s.lists c [] ∧ s.copen c = none
  levels : f.Levels s.level 0
  nodup : l.Nodup
  cube : (∀ i ∈ l, ∀ k, |r i k - ctr0 k| ≤ S) →
    ∀ c ∈ f.leaves, ∀ i ∈ lst c, ∀ k, |r i k - s.rcentre c k| ≤ S * (1 / 2) ^ s.level c

theorem Inv.nodupCells {r : ℕ → Vec n α} {ctr0 : Vec n α} {S : α} {Ncellmax top : ℕ} {l : List ℕ} {s : State n α}
    {f : Forest} {lst : ℕ → List ℕ} (h : Inv r ctr0 S Ncellmax top l s f lst) : f.cells.Nodup :=
  h.cells.nodup_iff.mpr List.nodup_range

theorem Inv.lt {r : ℕ → Vec n α} {ctr0 : Vec n α} {S : α} {Ncellmax top : ℕ} {l : List ℕ} {s : State n α}
    {f : Forest} {lst : ℕ → List ℕ} (h : Inv r ctr0 S Ncellmax top l s f lst) {c : ℕ} (hc : c ∈ f.cells) : c < top :=
  List.mem_range.mp (h.cells.mem_iff.mp hc)

theorem Inv.sub {r : ℕ → Vec n α} {ctr0 : Vec n α} {S : α} {Ncellmax top : ℕ} {l : List ℕ} {s : State n α}
    {f : Forest} {lst : ℕ → List ℕ} (h : Inv r ctr0 S Ncellmax top l s f lst) {c : ℕ} (hc : c ∈ f.leaves) {i : ℕ}
    (hi : i ∈ lst c) : i ∈ l :=
  h.perm.mem_iff.mp (List.mem_flatMap.mpr ⟨c, hc, hi⟩)

theorem mem_split {l : List ℕ} (f : ℕ → List ℕ) {c : ℕ} (hc : c ∈ l) : ∃ a b, l.flatMap f = a ++ f c ++ b := by
  obtain ⟨u, v, rfl⟩ := List.append_of_mem hc
  exact ⟨u.flatMap f, v.flatMap f, by simp⟩

theorem disj_of_nodup {l : List ℕ} (f : ℕ → List ℕ) (hn : (l.flatMap f).Nodup) {c d : ℕ}
    (hc : c ∈ l) (hd : d ∈ l) (hne : c ≠ d) : ∀ x ∈ f c, x ∉ f d := by
  intro x h1 h2
  rw [List.nodup_flatMap] at hn
  have hp := (List.pairwise_iff_getElem.mp hn.2)
  obtain ⟨i, hi, rfl⟩ := List.mem_iff_getElem.mp hc
  obtain ⟨j, hj, rfl⟩ := List.mem_iff_getElem.mp hd
  rcases lt_trichotomy i j with h | h | h
  · exact hp i j hi hj h h1 h2
  · subst h; exact hne rfl
  · exact hp j i hj hi h h2 h1

/-- lists after the division of `c` into the cells from `base` -/
def newLst (r : ℕ → Vec n α) (ctr : Vec n α) (c base : ℕ) (lst : ℕ → List ℕ) : ℕ → List ℕ :=
  fun d => if base ≤ d ∧ d < base + 2 ^ n then (lst c).filter fun i => decide (octant (r i) ctr = d - base) else lst d

set_option maxHeartbeats 1000000 in
theorem divide_inv {r : ℕ → Vec n α} {ctr0 : Vec n α} {S size : α} {Ncellmax top pfuel : ℕ} {l : List ℕ}
    {s : State n α} {f : Forest} {lst : ℕ → List ℕ} (h : Inv r ctr0 S Ncellmax top l s f lst) {c : ℕ}
    (hc : c ∈ f.leaves) (hmem : top + 2 ^ n ≤ Ncellmax) (hf : (lst c).length ≤ pfuel) (hlev : s.level c = s.ltot)
    (hsize : size = S * (1 / 2) ^ (s.ltot + 1)) :
    ∃ s', divide r size pfuel c top s = some s' ∧
      Inv r ctr0 S Ncellmax (top + 2 ^ n) l s' (Forest.graft c (.flat (List.range' top (2 ^ n))) f)
        (newLst r (s.rcentre c) c top lst) ∧
      s'.Ncell = s.Ncell ∧ s'.ltot = s.ltot ∧ s'.firstCell = s.firstCell ∧ s'.lastCell = s.lastCell ∧
      (∀ d, d < top → s'.level d = s.level d) ∧
      (∀ d, top ≤ d → d < top + 2 ^ n → s'.level d = s.ltot + 1) ∧
      (∀ d, d < top → s'.rcentre d = s.rcentre d) ∧
      (∀ k, k < 2 ^ n → s'.rcentre (top + k) = childCentre (s.rcentre c) size k) := by
  have hpos : 0 < 2 ^ n := Nat.two_pow_pos n
  have hH := h.held c hc
  have hct : c < top := h.lt ((Forest.leaves_sub f).subset hc)
  have hln : (lst c).Nodup := by
    obtain ⟨a, b, e⟩ := mem_split lst hc
    have := h.perm.nodup_iff.mpr h.nodup
    rw [e] at this
    exact (List.nodup_append.mp (List.nodup_append.mp this).1).2.1
  obtain ⟨ls, e, g1, g2, g3⟩ := distLoop_held (fun i => octant (r i) (s.rcentre c)) top (2 ^ n) (s.lists.ilast c)
    (lst c) [] s.lists pfuel hf (by simpa using hln) (fun _ => hH.ilast.symm) hH.chain
    (fun k hk => (h.fresh (top + k) (by omega) (by omega)).1) (fun i _ => (octant_bits _ _).1)
  rw [← hH.ifirst] at e
  simp only [List.nil_append] at g1
  have hgl : (Forest.flat (List.range' top (2 ^ n))).cells = List.range' top (2 ^ n) := Forest.flat_cells _
  have hgc : ∃ u v, Forest.flat (List.range' top (2 ^ n)) = .cons top u v := by
    obtain ⟨m, hm⟩ : ∃ m, 2 ^ n = m + 1 := ⟨2 ^ n - 1, by omega⟩
    rw [hm, List.range'_succ]; exact ⟨_, _, rfl⟩
  have hgn : Forest.flat (List.range' top (2 ^ n)) ≠ .nil := by
    obtain ⟨u, v, e⟩ := hgc; rw [e]; simp
  have hleaves : (Forest.graft c (.flat (List.range' top (2 ^ n))) f).leaves =
      f.leaves.flatMap fun d => if d = c then List.range' top (2 ^ n) else [d] := by
    rw [Forest.graft_leaves c _ hgn f h.nodupCells]
    rw [Forest.flat_leaves]
  have hlm : ∀ d, d ∈ (Forest.graft c (.flat (List.range' top (2 ^ n))) f).leaves →
      (d ∈ f.leaves ∧ d ≠ c ∧ d < top) ∨ (top ≤ d ∧ d < top + 2 ^ n) := by
    intro d hd
    rw [hleaves, List.mem_flatMap] at hd
    obtain ⟨a, ha, hd⟩ := hd
    by_cases ea : a = c
    · rw [if_pos ea, List.mem_range'_1] at hd; exact Or.inr hd
    · rw [if_neg ea, List.mem_singleton] at hd
      subst hd
      exact Or.inl ⟨ha, ea, h.lt ((Forest.leaves_sub f).subset ha)⟩
  have hnew : ∀ d, d < top → newLst r (s.rcentre c) c top lst d = lst d := by
    intro d hd; unfold newLst; rw [if_neg (by omega)]
  have hdiv : divide r size pfuel c top s = some { s with
      lists := ls
      level := setBlock s.level top (2 ^ n) fun _ => s.ltot + 1
      rcentre := setBlock s.rcentre top (2 ^ n) (childCentre (s.rcentre c) size)
      copen := Function.update s.copen c (some top)
      cnext := setBlock s.cnext top (2 ^ n) fun k =>
        if k + 1 = 2 ^ n then s.cnext c else some (top + k + 1) } := by rw [divide, e]
  refine ⟨_, hdiv, ?_, rfl, rfl, rfl, rfl, ?_, ?_, ?_, ?_⟩
  rotate_left
  · intro d hd; simp only [setBlock]; rw [if_neg (by omega)]
  · intro d h1 h2; simp only [setBlock]; rw [if_pos ⟨h1, h2⟩]
  · intro d hd; simp only [setBlock]; rw [if_neg (by omega)]
  · intro k hk; simp only [setBlock]; rw [if_pos ⟨by omega, by omega⟩, Nat.add_sub_cancel_left]
  constructor
  · refine Forest.graft_linked c _ top hgc ?_ ?_ ?_ ?_ f Ncellmax h.linked h.nodupCells ?_ (fun _ => hc)
    · intro d hd
      rw [hgl, List.mem_range'_1] at hd
      simp only [State.links, setBlock]; rw [if_neg hd]
    · intro d _ hdc
      exact Function.update_of_ne hdc _ _
    · exact Function.update_self _ _ _
    · intro nx hnx
      have := Forest.flat_linked (L := State.links
        { s with
          lists := ls
          level := setBlock s.level top (2 ^ n) fun _ => s.ltot + 1
          rcentre := setBlock s.rcentre top (2 ^ n) (childCentre (s.rcentre c) size)
          copen := Function.update s.copen c (some top)
          cnext := setBlock s.cnext top (2 ^ n) fun k =>
            if k + 1 = 2 ^ n then s.cnext c else some (top + k + 1) }) top nx (2 ^ n) 0 (by
        intro k _ hk
        rw [Nat.zero_add] at hk ⊢
        constructor
        · simp only [State.links]
          rw [Function.update_of_ne (by omega)]
          exact (h.fresh (top + k) (by omega) (by omega)).2
        · simp only [State.links, setBlock]
          rw [if_pos ⟨by omega, by omega⟩, Nat.add_sub_cancel_left]
          split_ifs
          · exact hnx
          · rfl)
      simpa using this
    · intro d hd
      rw [hgl, List.mem_range'_1]
      have := h.lt hd
      omega
  · rw [Forest.graft_entry]; exact h.root
  · refine (Forest.graft_cells_perm c _ f h.nodupCells hc).trans ?_
    rw [hgl]
    refine (h.cells.append_right _).trans (List.Perm.of_eq ?_)
    rw [List.range_eq_range', List.range_eq_range']
    have := List.range'_append_1 (s := 0) (m := top) (n := 2 ^ n)
    rw [Nat.zero_add] at this
    exact this
  · intro d hd
    rcases hlm d hd with ⟨h1, h2, h3⟩ | ⟨h1, h2⟩
    · rw [hnew d h3]
      refine (h.held d h1).congr (g2 d (by omega)) fun x hx => g3 x (by simp) ?_
      exact disj_of_nodup lst (h.perm.nodup_iff.mpr h.nodup) h1 hc h2 x hx
    · have := g1 (d - top) (by omega)
      rw [Nat.add_sub_cancel' h1] at this
      unfold newLst
      rw [if_pos ⟨h1, h2⟩]
      exact this
  · refine List.Perm.trans ?_ h.perm
    rw [hleaves, List.flatMap_assoc]
    refine List.Perm.flatMap_left _ ?_
    intro d hd
    by_cases e2 : d = c
    · subst e2
      rw [if_pos rfl]
      have e3 : (List.range' top (2 ^ n)).flatMap (newLst r (s.rcentre d) d top lst) =
          (List.range (2 ^ n)).flatMap fun k => (lst d).filter fun i => decide (octant (r i) (s.rcentre d) = k) := by
        rw [List.range'_eq_map_range, List.flatMap_map]
        refine List.flatMap_congr fun k hk => ?_
        rw [List.mem_range] at hk
        unfold newLst
        rw [if_pos ⟨by omega, by omega⟩, Nat.add_sub_cancel_left]
      rw [e3]
      refine (buckets_perm _ (lst d) (2 ^ n)).trans (List.Perm.of_eq ?_)
      rw [List.filter_eq_self]
      intro i _
      simpa using (octant_bits (r i) (s.rcentre d)).1
    · rw [if_neg e2]
      simp only [List.flatMap_cons, List.flatMap_nil, List.append_nil]
      rw [hnew d (h.lt ((Forest.leaves_sub f).subset hd))]
  · intro d h1 h2
    have hfr := h.fresh d (by omega) h2
    refine ⟨hfr.1.congr (g2 d (by omega)) (by simp), ?_⟩
    rw [← hfr.2]
    exact Function.update_of_ne (by omega) _ _
  · refine Forest.graft_levels ?_ (h.levels.congr ?_)
    · refine Forest.flat_levels _ fun d hd => ?_
      rw [List.mem_range'_1] at hd
      simp only [setBlock]
      rw [if_pos hd, if_neg (by omega), hlev]
    · intro d hd
      simp only [setBlock]
      rw [if_neg (by have := h.lt hd; omega)]
  · exact h.nodup
  · intro hin d hd i hi k
    rcases hlm d hd with ⟨h1, h2, h3⟩ | ⟨h1, h2⟩
    · rw [hnew d h3] at hi
      simp only [setBlock]
      rw [if_neg (by omega), if_neg (by omega)]
      exact h.cube hin d h1 i hi k
    · simp only [setBlock]
      rw [if_pos ⟨h1, h2⟩, if_pos ⟨h1, h2⟩, ← hsize]
      unfold newLst at hi
      rw [if_pos ⟨h1, h2⟩, List.mem_filter, decide_eq_true_eq] at hi
      have hcu := h.cube hin c hc i hi.1 k
      have hbit := (octant_bits (r i) (s.rcentre c)).2 k
      rw [hi.2] at hbit
      have e2 : S * (1 / 2) ^ s.level c = 2 * size := by rw [hsize, hlev, pow_succ]; ring
      rw [e2, abs_le] at hcu
      unfold childCentre
      rw [hbit, abs_le]
      by_cases hgt : r i k > s.rcentre c k
      · simp only [hgt, decide_true, if_true]
        constructor <;> linarith
      · simp only [hgt, decide_false]
        push Not at hgt
        simp only [Bool.false_eq_true, if_false]
        constructor <;> linarith

/-- leaves after the division of `c` -/
theorem graft_flat_mem {f : Forest} (hn : f.cells.Nodup) {c top m : ℕ} (hm : 0 < m) (d : ℕ) :
    d ∈ (Forest.graft c (.flat (List.range' top m)) f).leaves ↔
      (d ∈ f.leaves ∧ d ≠ c) ∨ (c ∈ f.leaves ∧ top ≤ d ∧ d < top + m) := by
  have hgn : Forest.flat (List.range' top m) ≠ .nil := by
    obtain ⟨m, rfl⟩ : ∃ k, m = k + 1 := ⟨m - 1, by omega⟩
    rw [List.range'_succ]; simp [Forest.flat]
  rw [Forest.graft_leaves c _ hgn f hn, Forest.flat_leaves, List.mem_flatMap]
  constructor
  · rintro ⟨a, ha, hd⟩
    by_cases ea : a = c
    · rw [if_pos ea, List.mem_range'_1] at hd
      subst ea
      exact Or.inr ⟨ha, hd⟩
    · rw [if_neg ea, List.mem_singleton] at hd
      subst hd
      exact Or.inl ⟨ha, ea⟩
  · rintro (⟨h1, h2⟩ | ⟨h1, h2⟩)
    · exact ⟨d, h1, by rw [if_neg h2]; simp⟩
    · exact ⟨c, h1, by rw [if_pos rfl, List.mem_range'_1]; exact h2⟩

/-- the result of a pass over the cells `cs` -/
structure PassOK (r : ℕ → Vec n α) (size : α) (top top' : ℕ) (cs : List ℕ) (s s' : State n α) (f f' : Forest)
    (lst lst' : ℕ → List ℕ) : Prop where
  Ncell : s'.Ncell = s.Ncell
  ltot : s'.ltot = s.ltot
  firstCell : s'.firstCell = s.firstCell
  lastCell : s'.lastCell = s.lastCell
  level : ∀ d, d < top → s'.level d = s.level d
  levelNew : ∀ d, top ≤ d → d < top' → s'.level d = s.ltot + 1
  old : ∀ d ∈ f'.leaves, d < top → d ∈ f.leaves ∧ d ∉ cs
  keep : ∀ d ∈ f.leaves, d ∉ cs → d ∈ f'.leaves ∧ lst' d = lst d ∧ s'.rcentre d = s.rcentre d
  leafNew : ∀ d, top ≤ d → d < top' → d ∈ f'.leaves
  kids : ∀ c ∈ cs, ∀ k < 2 ^ n, ∃ d ∈ f'.leaves, top ≤ d ∧ d < top' ∧
    lst' d = ((lst c).filter fun i => decide (octant (r i) (s.rcentre c) = k)) ∧
    s'.rcentre d = childCentre (s.rcentre c) size k

theorem divideAll_inv {r : ℕ → Vec n α} {ctr0 : Vec n α} {S size : α} {Ncellmax pfuel : ℕ} {l : List ℕ}
    (hl : l.length ≤ pfuel) :
    ∀ (cs : List ℕ) (cc : ℕ) (s : State n α) (f : Forest) (lst : ℕ → List ℕ),
    Inv r ctr0 S Ncellmax (s.Ncell + cc * 2 ^ n) l s f lst → cs.Nodup →
    (∀ c ∈ cs, c ∈ f.leaves ∧ s.level c = s.ltot) →
    s.Ncell + (cc + cs.length) * 2 ^ n ≤ Ncellmax → size = S * (1 / 2) ^ (s.ltot + 1) →
    ∃ s' f' lst', divideAll r size pfuel cs cc s = some s' ∧
      Inv r ctr0 S Ncellmax (s.Ncell + (cc + cs.length) * 2 ^ n) l s' f' lst' ∧
      PassOK r size (s.Ncell + cc * 2 ^ n) (s.Ncell + (cc + cs.length) * 2 ^ n) cs s s' f f' lst lst' := by
  intro cs
  induction cs with
  | nil =>
    intro cc s f lst h _ _ _ _
    refine ⟨s, f, lst, rfl, by simpa using h, ?_⟩
    exact ⟨rfl, rfl, rfl, rfl, fun _ _ => rfl, fun d h1 h2 => by simp at h2; omega, fun d hd _ => ⟨hd, by simp⟩,
      fun d hd _ => ⟨hd, rfl, rfl⟩, fun d h1 h2 => by simp at h2; omega, by simp⟩
  | cons c cs ih =>
    intro cc s f lst h hn hcs hmem hsize
    have hpos : 0 < 2 ^ n := Nat.two_pow_pos n
    rw [List.nodup_cons] at hn
    rw [List.length_cons] at hmem ⊢
    obtain ⟨hc, hlev⟩ := hcs c (by simp)
    have hlc : (lst c).length ≤ pfuel := by
      obtain ⟨a, b, e⟩ := mem_split lst hc
      have := h.perm.length_eq
      rw [e] at this
      simp only [List.length_append] at this
      omega
    have e1 : s.Ncell + (cc + (cs.length + 1)) * 2 ^ n = s.Ncell + cc * 2 ^ n + 2 ^ n + cs.length * 2 ^ n := by ring
    obtain ⟨s1, hd, hI, k1, k2, k3, k4, k5, k6, k7, k8⟩ := divide_inv h hc (by rw [e1] at hmem; omega) hlc hlev hsize
    set lst1 := newLst r (s.rcentre c) c (s.Ncell + cc * 2 ^ n) lst with hlst1
    have hct : ∀ d ∈ f.leaves, d < s.Ncell + cc * 2 ^ n := fun d hd => h.lt ((Forest.leaves_sub f).subset hd)
    have e2 : s.Ncell + cc * 2 ^ n + 2 ^ n = s1.Ncell + (cc + 1) * 2 ^ n := by rw [k1]; ring
    rw [e2] at hI
    obtain ⟨s2, f2, lst2, hd2, hI2, hp⟩ := ih (cc + 1) s1 _ lst1 hI hn.2 (by
        intro d hdm
        obtain ⟨a1, a2⟩ := hcs d (by simp [hdm])
        refine ⟨(graft_flat_mem h.nodupCells hpos d).mpr (Or.inl ⟨a1, ?_⟩), ?_⟩
        · rintro rfl; exact hn.1 hdm
        · rw [k5 d (hct d a1), a2, k2])
      (by rw [k1]; rw [e1] at hmem; calc _ = s.Ncell + cc * 2 ^ n + 2 ^ n + cs.length * 2 ^ n := by ring
                                      _ ≤ _ := hmem)
      (by rw [k2]; exact hsize)
    have e3 : s1.Ncell + (cc + 1 + cs.length) * 2 ^ n = s.Ncell + (cc + (cs.length + 1)) * 2 ^ n := by rw [k1]; ring
    rw [e3] at hI2 hp
    have hlold : ∀ d, d < s.Ncell + cc * 2 ^ n → lst1 d = lst d := by
      intro d hd; rw [hlst1]; unfold newLst; rw [if_neg (by omega)]
    refine ⟨s2, f2, lst2, by rw [divideAll, hd]; exact hd2, hI2, ?_⟩
    constructor
    · rw [hp.Ncell, k1]
    · rw [hp.ltot, k2]
    · rw [hp.firstCell, k3]
    · rw [hp.lastCell, k4]
    · intro d hdl; rw [hp.level d (by omega), k5 d hdl]
    · intro d h1 h2
      by_cases h3 : d < s.Ncell + cc * 2 ^ n + 2 ^ n
      · rw [hp.level d (by omega), k6 d h1 h3]
      · rw [hp.levelNew d (by omega) h2, k2]
    · intro d h1 h2
      obtain ⟨a1, a2⟩ := hp.old d h1 (by omega)
      rcases (graft_flat_mem h.nodupCells hpos d).mp a1 with ⟨b1, b2⟩ | ⟨_, b2⟩
      · exact ⟨b1, by simp [a2, b2]⟩
      · omega
    · intro d h1 h2
      rw [List.mem_cons, not_or] at h2
      obtain ⟨a1, a2, a3⟩ := hp.keep d ((graft_flat_mem h.nodupCells hpos d).mpr (Or.inl ⟨h1, h2.1⟩)) h2.2
      exact ⟨a1, a2.trans (hlold d (hct d h1)), a3.trans (k7 d (hct d h1))⟩
    · intro d h1 h2
      by_cases h3 : d < s.Ncell + cc * 2 ^ n + 2 ^ n
      · refine (hp.keep d ((graft_flat_mem h.nodupCells hpos _).mpr (Or.inr ⟨hc, h1, h3⟩)) fun hm => ?_).1
        have := hct d (hcs d (List.mem_cons_of_mem _ hm)).1
        omega
      · exact hp.leafNew d (by omega) h2
    · intro x hx k hk
      rcases List.mem_cons.mp hx with rfl | hx'
      · set top := s.Ncell + cc * 2 ^ n with htop
        have hnot : top + k ∉ cs := fun hm => by
          have := hct (top + k) (hcs (top + k) (List.mem_cons_of_mem _ hm)).1; omega
        obtain ⟨a1, a2, a3⟩ := hp.keep (top + k)
          ((graft_flat_mem h.nodupCells hpos _).mpr (Or.inr ⟨hc, by omega, by omega⟩)) hnot
        refine ⟨top + k, a1, by omega, by rw [e1]; omega, ?_, a3.trans (k8 k hk)⟩
        rw [a2, hlst1]
        unfold newLst
        rw [if_pos ⟨by omega, by omega⟩, Nat.add_sub_cancel_left]
      · obtain ⟨d, b1, b2, b3, b4, b5⟩ := hp.kids x hx' k hk
        have hxl := hct x (hcs x hx).1
        refine ⟨d, b1, by omega, b3, ?_, ?_⟩
        · rw [b4, hlold x hxl, k7 x hxl]
        · rw [b5, k7 x hxl]

end Gandalf.Oct
