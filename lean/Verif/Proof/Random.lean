import Verif.Model.Random
import Mathlib.Dynamics.PeriodicPts.Lemmas
import Mathlib.Data.Nat.Bitwise
import Mathlib.Tactic.NormNum.Prime

/-!
Period of the xorshift state update. `next` is linear over GF(2), so `next^[2^k]` is given by a 64 × 64
bit matrix; its columns are obtained by repeated squaring, evaluated by the kernel.
-/

set_option autoImplicit false

namespace Gandalf.Xorshift

/-! ### linear maps on bit strings -/

/-- matrix (list of columns) times vector -/
def apply : List ℕ → ℕ → ℕ
  | [], _ => 0
  | c :: cs, x => (if x % 2 = 1 then c else 0) ^^^ apply cs (x / 2)

/-- evaluate `n` to a literal before going on -/
def force {β : Type} (n : ℕ) (k : ℕ → β) : β := Nat.rec (motive := fun _ => β) (k 0) (fun m _ => k (Nat.succ m)) n

theorem force_eq {β : Type} (n : ℕ) (k : ℕ → β) : force n k = k n := by cases n <;> rfl

/-- `List.map` with evaluation of every element -/
def mapF {β : Type} (g : ℕ → ℕ) : List ℕ → (List ℕ → β) → β
  | [], k => k []
  | c :: cs, k => force (g c) fun c' => mapF g cs fun cs' => k (c' :: cs')

theorem mapF_eq {β : Type} (g : ℕ → ℕ) : ∀ (l : List ℕ) (k : List ℕ → β), mapF g l k = k (l.map g) := by
  intro l
  induction l with
  | nil => intro k; rfl
  | cons c cs ih => intro k; simp only [mapF, force_eq, ih, List.map_cons]

/-- apply the bits of the exponents `ns` to the vectors `vs`, low bit first -/
def powApply : ℕ → List ℕ → List ℕ → List ℕ → List ℕ
  | 0, _, _, vs => vs
  | fuel + 1, M, ns, vs =>
    mapF (fun p => p) (List.zipWith (fun n v => if n % 2 = 1 then apply M v else v) ns vs) fun vs' =>
    mapF (fun n => n / 2) ns fun ns' =>
    mapF (apply M) M fun M' => powApply fuel M' ns' vs'

/-- a map that respects exclusive or on strings of 64 bits -/
structure Linear (f : ℕ → ℕ) : Prop where
  zero : f 0 = 0
  xor : ∀ a b, f (a ^^^ b) = f a ^^^ f b
  lt : ∀ a, a < 2 ^ 64 → f a < 2 ^ 64

theorem Linear.comp {f g : ℕ → ℕ} (hf : Linear f) (hg : Linear g) : Linear (f ∘ g) :=
  ⟨by simp [hg.zero, hf.zero], fun a b => by simp [hg.xor, hf.xor], fun a h => hf.lt _ (hg.lt _ h)⟩

theorem Linear.iterate {f : ℕ → ℕ} (hf : Linear f) : ∀ n, Linear (f^[n])
  | 0 => ⟨rfl, fun _ _ => rfl, fun _ h => h⟩
  | n + 1 => by rw [Function.iterate_succ]; exact (hf.iterate n).comp hf

/-- the columns of a map -/
def cols (f : ℕ → ℕ) : List ℕ := (List.range 64).map fun i => f (2 ^ i)

theorem split_low (x : ℕ) : x = (x % 2) ^^^ (x / 2 * 2) := by
  apply Nat.eq_of_testBit_eq
  intro i
  rw [Nat.testBit_xor]
  rcases i with _ | i
  · simp [Nat.testBit_zero]
  · rw [Nat.testBit_succ, Nat.testBit_succ, Nat.testBit_succ]
    simp

theorem apply_map {f : ℕ → ℕ} (hf : Linear f) : ∀ (m k x : ℕ), x < 2 ^ m →
    apply ((List.range' k m).map fun i => f (2 ^ i)) x = f (x * 2 ^ k) := by
  intro m
  induction m with
  | zero => intro k x h; have : x = 0 := by omega
            subst this; simp [apply, hf.zero]
  | succ m ih =>
    intro k x h
    rw [List.range'_succ, List.map_cons, apply, ih (k + 1) (x / 2) (by rw [pow_succ] at h; omega)]
    have e : x * 2 ^ k = (x % 2) * 2 ^ k ^^^ (x / 2) * 2 ^ (k + 1) := by
      conv_lhs => rw [split_low x]
      rw [← Nat.shiftLeft_eq, Nat.shiftLeft_xor_distrib, Nat.shiftLeft_eq, Nat.shiftLeft_eq, pow_succ]
      congr 1; ring
    rw [e, hf.xor]
    congr 1
    rcases Nat.mod_two_eq_zero_or_one x with h0 | h1
    · rw [h0]; simp [hf.zero]
    · rw [h1]; simp

theorem apply_cols {f : ℕ → ℕ} (hf : Linear f) {x : ℕ} (h : x < 2 ^ 64) : apply (cols f) x = f x := by
  have := apply_map hf 64 0 x h
  rw [cols, List.range_eq_range']
  simpa using this

theorem cols_sq {f : ℕ → ℕ} (hf : Linear f) : (cols f).map (apply (cols f)) = cols (f ∘ f) := by
  rw [cols, List.map_map]
  refine List.map_congr_left fun i hi => ?_
  have h : 2 ^ i < 2 ^ 64 := Nat.pow_lt_pow_right (by norm_num) (List.mem_range.mp hi)
  exact apply_cols hf (hf.lt _ h)

theorem powApply_eq : ∀ (fuel : ℕ) (f : ℕ → ℕ), Linear f → ∀ ns vs : List ℕ, ns.length = vs.length →
    (∀ n ∈ ns, n < 2 ^ fuel) → (∀ v ∈ vs, v < 2 ^ 64) →
    powApply fuel (cols f) ns vs = List.zipWith (fun n v => f^[n] v) ns vs := by
  intro fuel
  induction fuel with
  | zero =>
    intro f _ ns vs hl hn _
    rw [powApply]
    apply List.ext_getElem
    · simp [hl]
    · intro i h1 h2
      have : ns[i]'(by simpa [hl] using h1) = 0 := by
        have := hn _ (List.getElem_mem (by simpa [hl] using h1 : i < ns.length))
        simpa using this
      simp [this]
  | succ fuel ih =>
    intro f hf ns vs hl hn hv
    have hmem : ∀ i (h1 : i < ns.length) (h2 : i < vs.length),
        (if ns[i] % 2 = 1 then apply (cols f) vs[i] else vs[i]) = f^[ns[i] % 2] vs[i] := by
      intro i h1 h2
      rcases Nat.mod_two_eq_zero_or_one ns[i] with h0 | h0
      · simp [h0]
      · rw [if_pos h0, h0, apply_cols hf (hv _ (List.getElem_mem h2))]; rfl
    rw [powApply, mapF_eq, mapF_eq, mapF_eq, cols_sq hf, ih (f ∘ f) (hf.comp hf)]
    · apply List.ext_getElem
      · simp
      · intro i h1 h2
        simp only [List.length_zipWith, List.length_map] at h1 h2
        simp only [List.getElem_zipWith, List.getElem_map, hmem i (by omega) (by omega)]
        have : (f ∘ f)^[ns[i] / 2] (f^[ns[i] % 2] vs[i]) = f^[ns[i]] vs[i] := by
          have e : f ∘ f = f^[2] := rfl
          rw [e, ← Function.iterate_mul, ← Function.iterate_add_apply]
          congr 1; omega
        exact this
    · simp [hl]
    · intro n h
      obtain ⟨m, hm, rfl⟩ := List.mem_map.mp h
      have := hn m hm
      rw [pow_succ] at this
      omega
    · intro v h
      obtain ⟨i, hi, rfl⟩ := List.getElem_of_mem h
      simp only [List.length_map, List.length_zipWith] at hi
      simp only [List.getElem_map, List.getElem_zipWith, hmem i (by omega) (by omega)]
      exact (hf.iterate _).lt _ (hv _ (List.getElem_mem (by omega)))

/-! ### the generator as a linear map -/

/-- `next` on the numerical value -/
def nextN (x : ℕ) : ℕ :=
  let x := x ^^^ (x >>> 21)
  let x := x ^^^ ((x <<< 35) % 2 ^ 64)
  x ^^^ (x >>> 4)

theorem next_toNat (x : BitVec 64) : (next x).toNat = nextN x.toNat := by
  simp only [next, nextN, a1, a2, a3, BitVec.toNat_xor, BitVec.toNat_ushiftRight, BitVec.toNat_shiftLeft]

theorem shr_xor (n a b : ℕ) : (a ^^^ b) ^^^ ((a ^^^ b) >>> n) = (a ^^^ a >>> n) ^^^ (b ^^^ b >>> n) := by
  rw [Nat.shiftRight_xor_distrib, Nat.xor_assoc, Nat.xor_assoc, ← Nat.xor_assoc b, Nat.xor_comm b,
    Nat.xor_assoc]

theorem shl_xor (n m a b : ℕ) : (a ^^^ b) ^^^ ((a ^^^ b) <<< n % 2 ^ m) =
    (a ^^^ a <<< n % 2 ^ m) ^^^ (b ^^^ b <<< n % 2 ^ m) := by
  rw [Nat.shiftLeft_xor_distrib, Nat.xor_mod_two_pow, Nat.xor_assoc, Nat.xor_assoc, ← Nat.xor_assoc b,
    Nat.xor_comm b, Nat.xor_assoc]

theorem nextN_linear : Linear nextN := by
  refine ⟨rfl, ?_, ?_⟩
  · intro a b
    simp only [nextN]
    rw [shr_xor 21 a b, shl_xor 35 64, shr_xor 4]
  · intro a h
    have := next_toNat (BitVec.ofNat 64 a)
    rw [BitVec.toNat_ofNat, Nat.mod_eq_of_lt h] at this
    rw [← this]
    exact (next _).isLt

theorem next_iterate (n : ℕ) (x : BitVec 64) : (next^[n] x).toNat = nextN^[n] x.toNat := by
  induction n generalizing x with
  | zero => rfl
  | succ n ih => rw [Function.iterate_succ_apply, Function.iterate_succ_apply, ih, next_toNat]

/-- the length of the period: all states but zero -/
def period : ℕ := 2 ^ 64 - 1

theorem period_eq : period = 3 * 5 * 17 * 257 * 641 * 65537 * 6700417 := by norm_num [period]

/-- exponents to be looked at: the period and the period over each of its prime factors -/
def exps : List ℕ := [period, period / 3, period / 5, period / 17, period / 257, period / 641,
  period / 65537, period / 6700417]

set_option maxRecDepth 100000 in
theorem powers_check : (mapF nextN ((List.range 64).map (2 ^ ·)) fun M => mapF (fun n => n) exps fun ns =>
    (powApply 64 M ns (ns.map fun _ => 1)).map (· == 1)) =
    [true, false, false, false, false, false, false, false] := by decide +kernel

theorem exps_lt : ∀ n ∈ exps, n < 2 ^ 64 := by decide +kernel

theorem zipWith_ones (g : ℕ → ℕ → ℕ) (ns : List ℕ) :
    List.zipWith g ns (ns.map fun _ => 1) = ns.map fun n => g n 1 := by
  induction ns with
  | nil => rfl
  | cons n ns ih => rw [List.map_cons, List.zipWith_cons_cons, ih, List.map_cons]

theorem powApply_ones (ns : List ℕ) (h : ∀ n ∈ ns, n < 2 ^ 64) :
    powApply 64 (cols nextN) ns (ns.map fun _ => 1) = ns.map fun n => nextN^[n] 1 := by
  rw [powApply_eq 64 nextN nextN_linear ns _ (List.length_map _).symm h, zipWith_ones]
  intro v hv
  obtain ⟨_, _, rfl⟩ := List.mem_map.mp hv
  norm_num

theorem powers : ((exps.map fun n => nextN^[n] 1).map (· == 1)) =
    [true, false, false, false, false, false, false, false] := by
  have h := powers_check
  rw [mapF_eq, mapF_eq, List.map_id'] at h
  have hc : List.map nextN ((List.range 64).map (2 ^ ·)) = cols nextN := by
    rw [List.map_map]; rfl
  rw [hc, powApply_ones exps exps_lt] at h
  exact h

theorem period_one : nextN^[period] 1 = 1 := by
  have h := powers
  simp only [exps, List.map_cons, List.cons.injEq, beq_iff_eq] at h
  exact h.1

theorem no_smaller {p : ℕ} (hp : p.Prime) (hd : p ∣ period) : nextN^[period / p] 1 ≠ 1 := by
  have h := powers
  simp only [exps, List.map_cons, List.cons.injEq, beq_iff_eq, beq_eq_false_iff_ne] at h
  obtain ⟨_, h3, h5, h17, h257, h641, h65537, h67, _⟩ := h
  rw [period_eq] at hd
  have pr : ∀ q : ℕ, q.Prime → p ∣ q → p = q := fun q hq h => (Nat.prime_dvd_prime_iff_eq hp hq).mp h
  rcases (Nat.Prime.dvd_mul hp).mp hd with hd | hd
  · rcases (Nat.Prime.dvd_mul hp).mp hd with hd | hd
    · rcases (Nat.Prime.dvd_mul hp).mp hd with hd | hd
      · rcases (Nat.Prime.dvd_mul hp).mp hd with hd | hd
        · rcases (Nat.Prime.dvd_mul hp).mp hd with hd | hd
          · rcases (Nat.Prime.dvd_mul hp).mp hd with hd | hd
            · rw [pr 3 (by norm_num) hd]; exact h3
            · rw [pr 5 (by norm_num) hd]; exact h5
          · rw [pr 17 (by norm_num) hd]; exact h17
        · rw [pr 257 (by norm_num) hd]; exact h257
      · rw [pr 641 (by norm_num) hd]; exact h641
    · rw [pr 65537 (by norm_num) hd]; exact h65537
  · rw [pr 6700417 (by norm_num) hd]; exact h67

theorem minimalPeriod_one : Function.minimalPeriod nextN 1 = period := by
  have hpos : 0 < period := by norm_num [period]
  have hd : Function.minimalPeriod nextN 1 ∣ period :=
    Function.IsPeriodicPt.minimalPeriod_dvd period_one
  obtain ⟨c, hc⟩ := hd
  by_cases h1 : c = 1
  · rw [hc, h1, mul_one]
  · exfalso
    obtain ⟨p, hp, hpc⟩ := Nat.exists_prime_and_dvd h1
    obtain ⟨e, rfl⟩ := hpc
    refine no_smaller hp ⟨Function.minimalPeriod nextN 1 * e, by rw [hc]; ring⟩ ?_
    have : period / p = Function.minimalPeriod nextN 1 * e := by
      rw [hc, show Function.minimalPeriod nextN 1 * (p * e) = p * (Function.minimalPeriod nextN 1 * e) by ring,
        Nat.mul_div_cancel_left _ hp.pos]
    rw [this]
    exact (Function.isPeriodicPt_minimalPeriod nextN 1).mul_const e

/-- every non-zero value is met on the way from 1 -/
theorem orbit_one (y : ℕ) (h0 : 0 < y) (hy : y < 2 ^ 64) : ∃ i < period, nextN^[i] 1 = y := by
  have hinj : Set.InjOn (fun i => nextN^[i] 1) (Finset.range period : Set ℕ) := by
    have := Function.iterate_injOn_Iio_minimalPeriod (f := nextN) (x := 1)
    rw [minimalPeriod_one] at this
    intro a ha b hb h
    exact this (by simpa using ha) (by simpa using hb) h
  have hne : ∀ i, nextN^[i] 1 ≠ 0 := by
    intro i h
    have h1 : nextN^[i * period] 1 = 1 := by
      have : Function.IsPeriodicPt nextN period 1 := period_one
      exact this.const_mul i
    have hz : ∀ n, nextN^[n] 0 = 0 := fun n => (nextN_linear.iterate n).zero
    have hle : i ≤ i * period := Nat.le_mul_of_pos_right _ (by norm_num [period])
    have : nextN^[i * period] 1 = 0 := by
      rw [show i * period = (i * period - i) + i by omega, Function.iterate_add_apply, h, hz]
    omega
  have hsub : (Finset.range period).image (fun i => nextN^[i] 1) ⊆ Finset.Ico 1 (2 ^ 64) := by
    intro x hx
    obtain ⟨i, _, rfl⟩ := Finset.mem_image.mp hx
    rw [Finset.mem_Ico]
    exact ⟨Nat.pos_of_ne_zero (hne i), (nextN_linear.iterate i).lt 1 (by norm_num)⟩
  have heq := Finset.eq_of_subset_of_card_le hsub (by
    rw [Finset.card_image_of_injOn hinj, Finset.card_range, Nat.card_Ico, period])
  have : y ∈ (Finset.range period).image (fun i => nextN^[i] 1) := by
    rw [heq, Finset.mem_Ico]; exact ⟨h0, hy⟩
  obtain ⟨i, hi, h⟩ := Finset.mem_image.mp this
  exact ⟨i, Finset.mem_range.mp hi, h⟩

theorem toNat_ne_zero {x : BitVec 64} (h : x ≠ 0) : 0 < x.toNat := by
  rcases Nat.eq_zero_or_pos x.toNat with h0 | h0
  · exact absurd (BitVec.eq_of_toNat_eq (by rw [h0]; rfl)) h
  · exact h0

theorem orbit_from_one (x : BitVec 64) (h : x ≠ 0) : ∃ i < period, next^[i] 1 = x := by
  obtain ⟨i, hi, e⟩ := orbit_one x.toNat (toNat_ne_zero h) x.isLt
  exact ⟨i, hi, BitVec.eq_of_toNat_eq (by rw [next_iterate]; exact e)⟩

theorem next_period_one : next^[period] 1 = 1 :=
  BitVec.eq_of_toNat_eq (by rw [next_iterate]; exact period_one)

theorem minimalPeriod_next_one : Function.minimalPeriod next 1 = period := by
  apply Nat.dvd_antisymm
  · exact Function.IsPeriodicPt.minimalPeriod_dvd next_period_one
  · rw [← minimalPeriod_one]
    refine Function.IsPeriodicPt.minimalPeriod_dvd ?_
    have := Function.isPeriodicPt_minimalPeriod next (1 : BitVec 64)
    have h := congrArg BitVec.toNat this
    rw [next_iterate] at h
    exact h

theorem next_period (x : BitVec 64) : next^[period] x = x := by
  by_cases h : x = 0
  · subst h
    refine BitVec.eq_of_toNat_eq ?_
    rw [next_iterate]; exact (nextN_linear.iterate period).zero
  · obtain ⟨i, _, rfl⟩ := orbit_from_one x h
    rw [← Function.iterate_add_apply, Nat.add_comm, Function.iterate_add_apply, next_period_one]

theorem next_bijective : Function.Bijective next := by
  constructor
  · intro x y h
    rw [← next_period x, ← next_period y, show period = (period - 1) + 1 by norm_num [period],
      Function.iterate_succ_apply, Function.iterate_succ_apply, h]
  · intro y
    refine ⟨next^[period - 1] y, ?_⟩
    rw [← Function.iterate_succ_apply' next]
    exact next_period y

theorem next_zero : next 0 = 0 := by decide
theorem next_eq_zero {x : BitVec 64} : next x = 0 ↔ x = 0 :=
  ⟨fun h => next_bijective.1 (h.trans next_zero.symm), fun h => by rw [h, next_zero]⟩

theorem mul_amod_injective : Function.Injective fun x : BitVec 64 => x * amod := by
  intro x y h
  have h1 := congrArg (· * 1615231051170002885#64) h
  simp only [BitVec.mul_assoc] at h1
  rw [show amod * 1615231051170002885#64 = 1#64 by decide, BitVec.mul_one, BitVec.mul_one] at h1
  exact h1

theorem init_eq (seed : BitVec 64) : init seed = next^[10] seed := rfl

theorem draws_state (n : ℕ) (x : BitVec 64) : (draws n x).1 = next^[n] x := by
  induction n generalizing x with
  | zero => rfl
  | succ n ih => rw [Function.iterate_succ_apply, draws]; exact ih _

theorem draws_list (n : ℕ) (x : BitVec 64) :
    (draws n x).2 = (List.range n).map fun i => next^[i + 1] x * amod := by
  induction n generalizing x with
  | zero => rfl
  | succ n ih =>
    rw [draws, List.range_succ_eq_map, List.map_cons, List.map_map]
    simp only [xorshiftrand]
    rw [ih]
    rfl

end Gandalf.Xorshift
