import Verif.Proof.OctLoop
import Mathlib.Tactic.NormNum
import Mathlib.Tactic.FieldSimp
import Mathlib.Data.Rat.Lemmas
import Mathlib.Algebra.Order.Field.Rat
import Mathlib.Data.Fin.VecNotation

/-! # C59: building the oct-tree -/

set_option autoImplicit false
set_option linter.unusedSectionVars false

namespace Gandalf
open Oct

section
variable {n : ℕ} {α : Type*} [Field α] [LinearOrder α] [IsStrictOrderedRing α]

/-- The build never loops for ever. It runs out of cells, runs out of levels, or leaves a tree of cells
`0 … Ncell-1` whose leaves hold every particle exactly once, at most `Nleafmax` each, with the levels stored one
after the other; if the box of the root holds the particles, every particle is in the cube of its leaf. -/
theorem C59_build (r : ℕ → Vec n α) (i0 N Nleafmax Ncellmax lmax : ℕ) (hN : 0 < N) (hM : 1 ≤ Ncellmax)
    (hlm : 1 ≤ lmax) (bbmin bbmax : Vec n α) (junk : State n α) :
    build r i0 N Nleafmax Ncellmax lmax bbmin bbmax junk = .overflow ∨
    build r i0 N Nleafmax Ncellmax lmax bbmin bbmax junk = .levels ∨
    ∃ s f lst, build r i0 N Nleafmax Ncellmax lmax bbmin bbmax junk = .done s ∧
      Built Nleafmax Ncellmax (List.range' i0 N) s f lst ∧ s.ltot < lmax ∧
      ((∀ i, i0 ≤ i → i < i0 + N → ∀ k, |r i k - 1 / 2 * (bbmin k + bbmax k)| ≤ rootSize bbmin bbmax) →
        ∀ c ∈ f.leaves, ∀ i ∈ lst c, ∀ k, |r i k - s.rcentre c k| ≤ rootSize bbmin bbmax / 2 ^ s.level c) := by
  rcases build_spec r i0 N Nleafmax Ncellmax lmax hN hM hlm bbmin bbmax junk with h | h | ⟨s, f, lst, h, hH, hf, hl⟩
  · exact Or.inl h
  · exact Or.inr (Or.inl h)
  · refine Or.inr (Or.inr ⟨s, f, lst, h, hH.built hf, hl, fun hin c hc i hi k => ?_⟩)
    have := hH.inv.cube (fun i hi k => by
      rw [List.mem_range'_1] at hi
      exact hin i hi.1 hi.2 k) c hc i hi k
    rwa [one_div, inv_pow, ← div_eq_mul_inv] at this

/-- It ends with a tree when the box of the root holds the particles, no cube of the size of the last level's cells
holds more than `Nleafmax` particles, and there is room for one division per level of every cell that can be too
full. -/
theorem C59_build_ends_partial (r : ℕ → Vec n α) (i0 N Nleafmax Ncellmax lmax : ℕ) (hN : 0 < N) (hlm : 2 ≤ lmax)
    (bbmin bbmax : Vec n α) (junk : State n α)
    (hin : ∀ i, i0 ≤ i → i < i0 + N → ∀ k, |r i k - 1 / 2 * (bbmin k + bbmax k)| ≤ rootSize bbmin bbmax)
    (hcrowd : ∀ x : Vec n α, ((List.range' i0 N).filter fun i =>
      decide (∀ k, |r i k - x k| ≤ rootSize bbmin bbmax / 2 ^ (lmax - 1))).length ≤ Nleafmax)
    (hroom : 1 + 2 ^ n * (1 + (lmax - 2) * (N / (Nleafmax + 1))) ≤ Ncellmax) :
    ∃ s, build r i0 N Nleafmax Ncellmax lmax bbmin bbmax junk = .done s := by
  refine buildLoop_done (by simp) (fun i hi k => ?_) ?_ lmax _ _ _ _ _ (by simp [start])
    (start_head r i0 N Nleafmax Ncellmax hN (by omega) bbmin bbmax junk) (by simp) (by simpa [start] using hlm)
    (by simp [start]) ?_
  · rw [List.mem_range'_1] at hi
    exact hin i hi.1 hi.2 k
  · intro x
    have := hcrowd x
    rwa [div_eq_mul_inv, ← inv_pow, ← one_div] at this
  · simpa [start] using hroom

/-- More than `Nleafmax` particles at one place: no box of the root and no amount of memory makes the build end
with a tree. -/
theorem C59_coincident (r : ℕ → Vec n α) (i0 N Nleafmax Ncellmax lmax : ℕ) (hM : 1 ≤ Ncellmax)
    (bbmin bbmax : Vec n α) (junk : State n α) (p : Vec n α) (X : List ℕ) (hXn : X.Nodup)
    (hX : ∀ i ∈ X, i0 ≤ i ∧ i < i0 + N ∧ r i = p) (hXl : Nleafmax < X.length) (s : State n α) :
    build r i0 N Nleafmax Ncellmax lmax bbmin bbmax junk ≠ .done s := by
  have hN : 0 < N := by
    cases X with
    | nil => simp at hXl
    | cons a X => have := hX a (by simp); omega
  let ctr : ℕ → Vec n α := fun L => Nat.rec (fun k => 1 / 2 * (bbmin k + bbmax k))
    (fun L c => childCentre c (rootSize bbmin bbmax * (1 / 2) ^ (L + 1)) (octant p c)) L
  refine build_crowd r i0 N Nleafmax Ncellmax lmax hN hM bbmin bbmax junk X hXn ?_ hXl ctr
    (fun L => octant p (ctr L)) ?_ rfl (fun L => rfl) (fun L => (octant_bits _ _).1) s
  · intro i hi
    rw [List.mem_range'_1]
    have := hX i hi
    omega
  · intro L _ i hi
    rw [(hX i hi).2.2]

theorem Oct.octant_eq {x c : Vec n α} {m : ℕ} (hm : m < 2 ^ n)
    (h : ∀ k : Fin n, m.testBit k.val = decide (x k > c k)) : octant x c = m := by
  obtain ⟨h1, h2⟩ := octant_bits x c
  refine Nat.eq_of_testBit_eq fun i => ?_
  by_cases hi : i < n
  · rw [h2 ⟨i, hi⟩, h ⟨i, hi⟩]
  · rw [Nat.testBit_lt_two_pow (lt_of_lt_of_le h1 (Nat.pow_le_pow_right (by norm_num) (by omega))),
      Nat.testBit_lt_two_pow (lt_of_lt_of_le hm (Nat.pow_le_pow_right (by norm_num) (by omega)))]

theorem Oct.rootSize_const (hn : 0 < n) (B : α) (hB : 0 ≤ B) :
    rootSize (fun _ : Fin n => -B) (fun _ => B) = B := by
  unfold rootSize
  have e : B - 1 / 2 * (-B + B) = B := by simp
  simp only [e]
  obtain ⟨m, rfl⟩ : ∃ m, n = m + 1 := ⟨n - 1, by omega⟩
  rw [List.finRange_succ, List.foldl_cons, max_eq_right hB]
  have : ∀ l : List (Fin (m + 1)), l.foldl (fun a _ => max a B) B = B := by
    intro l
    induction l with
    | nil => rfl
    | cons a l ih => rw [List.foldl_cons, max_self]; exact ih
  exact this _

/-- A root box of half width `B` about the origin that is far too large: particles within `B/2^(lmax-2)` of the
origin and on the same side of it in every dimension always stay together. -/
theorem C59_too_large (hn : 0 < n) (r : ℕ → Vec n α) (i0 N Nleafmax Ncellmax lmax : ℕ) (hM : 1 ≤ Ncellmax) (B : α)
    (hB : 0 < B) (junk : State n α) (hnear : ∀ i, i0 ≤ i → i < i0 + N → ∀ k, |r i k| < B / 2 ^ (lmax - 2))
    (hmany : 2 ^ n * Nleafmax < N) (s : State n α) :
    build r i0 N Nleafmax Ncellmax lmax (fun _ => -B) (fun _ => B) junk ≠ .done s := by
  have hN : 0 < N := by omega
  obtain ⟨k0, hk0, hbig⟩ : ∃ k0 < 2 ^ n, Nleafmax <
      ((List.range' i0 N).filter fun i => decide (octant (r i) (fun _ => 0) = k0)).length := by
    by_contra hno
    push Not at hno
    have h1 := (buckets_perm (fun i => octant (r i) (fun _ => (0 : α))) (List.range' i0 N) (2 ^ n)).length_eq
    rw [List.filter_eq_self.mpr (fun i _ => by simpa using (octant_bits (r i) (fun _ => (0 : α))).1),
      List.length_flatMap, List.length_range'] at h1
    have h2 := List.sum_le_card_nsmul ((List.range (2 ^ n)).map fun k =>
      ((List.range' i0 N).filter fun i => decide (octant (r i) (fun _ => (0 : α)) = k)).length) Nleafmax (by
        intro x hx
        obtain ⟨k, hk, rfl⟩ := List.mem_map.mp hx
        exact hno k (List.mem_range.mp hk))
    rw [List.length_map, List.length_range, smul_eq_mul, h1] at h2
    omega
  have hbits : ∀ j : Fin n, (2 ^ n - (k0 + 1)).testBit j.val = !k0.testBit j.val := by
    intro j
    rw [Nat.testBit_two_pow_sub_succ hk0]
    simp
  let ctr : ℕ → Vec n α := fun L => match L with
    | 0 => fun _ => 0
    | L + 1 => fun j => if k0.testBit j.val then B * (1 / 2) ^ (L + 1) else -(B * (1 / 2) ^ (L + 1))
  let kd : ℕ → ℕ := fun L => match L with
    | 0 => k0
    | _ + 1 => 2 ^ n - (k0 + 1)
  refine build_crowd r i0 N Nleafmax Ncellmax lmax hN hM _ _ junk _ (List.Nodup.filter _ List.nodup_range')
    (fun i hi => (List.mem_filter.mp hi).1) hbig ctr kd ?_ ?_ ?_ ?_ s
  · intro L hL i hi
    rw [List.mem_filter, decide_eq_true_eq, List.mem_range'_1] at hi
    cases L with
    | zero => exact hi.2
    | succ L =>
      refine octant_eq (by have := Nat.two_pow_pos n; simp only [kd]; omega) fun j => ?_
      rw [hbits j]
      have hb := (octant_bits (r i) (fun _ => (0 : α))).2 j
      rw [hi.2] at hb
      have ha := hnear i hi.1.1 hi.1.2 j
      have hle : B / 2 ^ (lmax - 2) ≤ B * (1 / 2) ^ (L + 1) := by
        rw [one_div, inv_pow, ← div_eq_mul_inv]
        exact div_le_div_of_nonneg_left hB.le (by positivity) (pow_le_pow_right₀ (by norm_num) (by omega))
      rw [abs_lt] at ha
      have hcj : ctr (L + 1) j = if k0.testBit j.val then B * (1 / 2) ^ (L + 1) else -(B * (1 / 2) ^ (L + 1)) := rfl
      simp only [hcj, hb]
      by_cases hp : r i j > 0
      · simp only [hp, decide_true, if_true, Bool.not_true]
        symm
        rw [decide_eq_false_iff_not, not_lt]
        linarith
      · simp only [hp, decide_false, Bool.false_eq_true, if_false, Bool.not_false]
        symm
        rw [decide_eq_true_eq]
        linarith
  · funext k; simp [ctr]
  · intro L
    rw [rootSize_const hn B hB.le]
    cases L with
    | zero =>
      funext j
      simp only [ctr, kd, childCentre]
      split_ifs <;> ring
    | succ L =>
      funext j
      simp only [ctr, kd, childCentre, hbits j]
      by_cases hj : k0.testBit j.val
      · simp only [hj, if_true, Bool.not_true, Bool.false_eq_true, if_false]
        rw [pow_succ _ (L + 1)]; ring
      · simp only [hj, Bool.false_eq_true, if_false, Bool.not_false, if_true]
        rw [pow_succ _ (L + 1)]; ring
  · intro L
    cases L with
    | zero => exact hk0
    | succ L => simp only [kd]; omega

/-- Defect: the box of the particles is computed (OctTree.cpp:250-263) but never stored in the root, so the first
build uses the box every cell is born with, `± big_number = ± 9.9e20` (DomainBox.h:53-58). With 40 levels (line 61)
any set of more than `2^n * Nleafmax` particles with coordinates below `3.6e9` ends in "reached maximum oct-tree
level" or behind the allocated cells, however well the particles are separated. -/
theorem C59_first_build_fails (hn : 0 < n) (r : ℕ → Vec n α) (i0 N Nleafmax Ncellmax : ℕ) (hM : 1 ≤ Ncellmax)
    (junk : State n α) (hnear : ∀ i, i0 ≤ i → i < i0 + N → ∀ k, |r i k| ≤ 3600000000)
    (hmany : 2 ^ n * Nleafmax < N) :
    build r i0 N Nleafmax Ncellmax 40 (fun _ => -990000000000000000000) (fun _ => 990000000000000000000) junk =
      .overflow ∨
    build r i0 N Nleafmax Ncellmax 40 (fun _ => -990000000000000000000) (fun _ => 990000000000000000000) junk =
      .levels := by
  rcases C59_build r i0 N Nleafmax Ncellmax 40 (by omega) hM (by norm_num) (fun _ => -990000000000000000000)
      (fun _ => 990000000000000000000) junk with h | h | ⟨s, f, lst, h, _⟩
  · exact Or.inl h
  · exact Or.inr h
  · refine absurd h (C59_too_large hn r i0 N Nleafmax Ncellmax 40 hM _ (by norm_num) junk (fun i h1 h2 k => ?_) hmany s)
    refine lt_of_le_of_lt (hnear i h1 h2 k) ?_
    rw [lt_div_iff₀ (by positivity)]
    norm_num

/-- Defect: the root is always divided, and two particles in three dimensions get only 8 cells
(OctTree.cpp:108-121), so the ninth is written behind the array. -/
theorem C59_too_few_cells (r : ℕ → Vec 3 α) (i0 N Nleafmax lmax : ℕ) (hlm : 0 < lmax) (hN : N ≤ 2)
    (bbmin bbmax : Vec 3 α) (junk : State 3 α) :
    build r i0 N Nleafmax (cellMemory false N 0 0) lmax bbmin bbmax junk = .overflow := by
  obtain ⟨m, rfl⟩ : ∃ m, lmax = m + 1 := ⟨lmax - 1, by omega⟩
  rw [build, buildLoop, if_pos]
  simp only [start, cellMemory, List.length_cons, List.length_nil]
  norm_num
  omega

end

/-! ### The theorems at work: five particles in the plane, at most two per leaf -/

section example1

def octR : ℕ → Vec 2 ℚ := fun i => match i with
  | 0 => ![1, 1]
  | 1 => ![3, 3]
  | 2 => ![-1, 2]
  | 3 => ![7 / 2, 3]
  | _ => ![13 / 4, 13 / 4]

def octJunk : State 2 ℚ :=
  ⟨⟨fun _ => 7, fun _ => some 9, fun _ => some 9, fun _ => some 9⟩, fun _ => some 5, fun _ => some 5, fun _ => 3,
    fun _ _ => 0, 77, 13, fun _ => 99, fun _ => 99⟩

/-- what is left of the result for a check: cells, levels, `copen`, `cnext`, the counts -/
def octShow (o : Outcome (State 2 ℚ)) : List (Option ℕ) × List (Option ℕ) × List ℕ :=
  match o with
  | .done s => ((List.range s.Ncell).map s.copen, (List.range s.Ncell).map s.cnext,
      s.Ncell :: s.ltot :: (List.range s.Ncell).map s.lists.N)
  | _ => ([], [], [])

example : octShow (build octR 0 5 2 40 6 (fun _ => -4) (fun _ => 4) octJunk) = (
    [some 1, none, none, none, some 5, none, none, none, some 9, none, none, none, none],
    [some 40, some 2, some 3, some 4, some 40, some 6, some 7, some 8, some 40, some 10, some 11, some 12, some 40],
    [13, 3, 5, 0, 0, 1, 4, 1, 0, 0, 3, 1, 1, 0, 1]) := by decide +kernel

/-- the hypotheses of `C59_build_ends_partial` with one particle per leaf allowed to be crowded only when closer than 1/8 -/
example : ∃ s, build octR 0 2 1 40 6 (fun _ => -4) (fun _ => 4) octJunk = .done s := by
  have hS : rootSize (fun _ : Fin 2 => (-4 : ℚ)) (fun _ => 4) = 4 := rootSize_const (by norm_num) 4 (by norm_num)
  refine C59_build_ends_partial octR 0 2 1 40 6 (by norm_num) (by norm_num) _ _ octJunk ?_ ?_ (by norm_num)
  · intro i _ hi k
    rw [hS]
    have : i = 0 ∨ i = 1 := by omega
    rcases this with rfl | rfl <;> fin_cases k <;> norm_num [octR, abs_le]
  · intro x
    rw [hS]
    have e : List.range' 0 2 = [0, 1] := rfl
    rw [e]
    by_cases h0 : ∀ k, |octR 0 k - x k| ≤ 4 / 2 ^ (6 - 1)
    · have h1 : ¬ ∀ k, |octR 1 k - x k| ≤ 4 / 2 ^ (6 - 1) := by
        intro h1
        have a := h0 0
        have b := h1 0
        norm_num [octR, abs_le] at a b
        linarith [a.1, a.2, b.1, b.2]
      simp [List.filter, h0, h1]
    · simp only [List.filter, h0, decide_false]
      split <;> simp

/-- four well separated particles, one per leaf: the first build cannot end -/
example : build (fun i => ![(i : ℚ)]) 0 4 1 1000 40 (fun _ => -990000000000000000000)
      (fun _ => 990000000000000000000)
      ⟨⟨fun _ => 0, fun _ => none, fun _ => none, fun _ => none⟩, fun _ => none, fun _ => none, fun _ => 0, fun _ _ => 0,
        0, 0, fun _ => 0, fun _ => 0⟩ = .overflow ∨
    build (fun i => ![(i : ℚ)]) 0 4 1 1000 40 (fun _ => -990000000000000000000) (fun _ => 990000000000000000000)
      ⟨⟨fun _ => 0, fun _ => none, fun _ => none, fun _ => none⟩, fun _ => none, fun _ => none, fun _ => 0, fun _ _ => 0,
        0, 0, fun _ => 0, fun _ => 0⟩ = .levels :=
  C59_first_build_fails (by norm_num) _ 0 4 1 1000 (by norm_num) _ (by
    intro i _ hi k
    fin_cases k
    have : (i : ℚ) < 4 := by exact_mod_cast hi
    have h0 : (0 : ℚ) ≤ i := by positivity
    simp only [Fin.zero_eta, Matrix.cons_val_zero, abs_of_nonneg h0]
    linarith) (by norm_num)

/-- two of three particles at one place, one per leaf -/
example (s : State 2 ℚ) : build (fun i => if i = 1 then ![2, 3] else ![1, 1]) 0 3 1 1000 40 (fun _ => -4) (fun _ => 4)
    octJunk ≠ .done s :=
  C59_coincident _ 0 3 1 1000 40 (by norm_num) _ _ _ ![1, 1] [0, 2] (by decide) (by
    intro i hi
    rcases List.mem_cons.mp hi with rfl | hi
    · simp
    · rw [List.mem_singleton.mp hi]; simp) (by decide) s

end example1

end Gandalf
