import Verif.Spec.HGuess
import Mathlib.Tactic.Ring
import Mathlib.Tactic.FieldSimp
import Mathlib.Tactic.Linarith
import Mathlib.Tactic.NormNum
import Mathlib.Tactic.Positivity

set_option autoImplicit false
set_option linter.unusedSectionVars false

namespace Gandalf

noncomputable section

namespace HGuess

variable {n : ℕ}

theorem foldmin (k : Fin n) : ∀ (ps : List (Part n)) (b : Vec n ℝ),
    (∀ p ∈ ps, ps.foldl (fun b p => fun k => min (b k) (p.r k)) b k ≤ p.r k) ∧
      ps.foldl (fun b p => fun k => min (b k) (p.r k)) b k ≤ b k ∧
      (ps.foldl (fun b p => fun k => min (b k) (p.r k)) b k = b k ∨
        ∃ p ∈ ps, p.r k = ps.foldl (fun b p => fun k => min (b k) (p.r k)) b k)
  | [], b => by simp
  | p :: ps, b => by
    obtain ⟨h1, h2, h3⟩ := foldmin k ps fun k => min (b k) (p.r k)
    simp only [List.foldl_cons]
    refine ⟨?_, h2.trans (min_le_left _ _), ?_⟩
    · intro q hq
      rcases List.mem_cons.mp hq with rfl | hq
      · exact h2.trans (min_le_right _ _)
      · exact h1 q hq
    · rcases h3 with h3 | ⟨q, hq, h3⟩
      · rcases min_choice (b k) (p.r k) with h | h
        · exact Or.inl (h3.trans h)
        · exact Or.inr ⟨p, List.mem_cons_self, (h3.trans h).symm⟩
      · exact Or.inr ⟨q, List.mem_cons_of_mem _ hq, h3⟩

theorem foldmax (k : Fin n) : ∀ (ps : List (Part n)) (b : Vec n ℝ),
    (∀ p ∈ ps, p.r k ≤ ps.foldl (fun b p => fun k => max (b k) (p.r k)) b k) ∧
      b k ≤ ps.foldl (fun b p => fun k => max (b k) (p.r k)) b k ∧
      (ps.foldl (fun b p => fun k => max (b k) (p.r k)) b k = b k ∨
        ∃ p ∈ ps, p.r k = ps.foldl (fun b p => fun k => max (b k) (p.r k)) b k)
  | [], b => by simp
  | p :: ps, b => by
    obtain ⟨h1, h2, h3⟩ := foldmax k ps fun k => max (b k) (p.r k)
    simp only [List.foldl_cons]
    refine ⟨?_, (le_max_left _ _).trans h2, ?_⟩
    · intro q hq
      rcases List.mem_cons.mp hq with rfl | hq
      · exact (le_max_right _ _).trans h2
      · exact h1 q hq
    · rcases h3 with h3 | ⟨q, hq, h3⟩
      · rcases max_choice (b k) (p.r k) with h | h
        · exact Or.inl (h3.trans h)
        · exact Or.inr ⟨p, List.mem_cons_self, (h3.trans h).symm⟩
      · exact Or.inr ⟨q, List.mem_cons_of_mem _ hq, h3⟩

theorem isBox (ps : List (Part n)) (hne : ps ≠ []) (hin : Inside ps) :
    IsBox ps (rmin ps) (rmax ps) := by
  obtain ⟨p0, hp0⟩ := List.exists_mem_of_ne_nil ps hne
  refine ⟨fun p hp k => ⟨(foldmin k ps _).1 p hp, (foldmax k ps _).1 p hp⟩, fun k => ⟨?_, ?_⟩⟩
  · rcases (foldmin k ps fun _ => big).2.2 with h | h
    · exact ⟨p0, hp0, le_antisymm (by rw [rmin, h]; exact (hin p0 hp0 k).2)
        ((foldmin k ps _).1 p0 hp0)⟩
    · exact h
  · rcases (foldmax k ps fun _ => -big).2.2 with h | h
    · exact ⟨p0, hp0, le_antisymm ((foldmax k ps _).1 p0 hp0)
        (by rw [rmax, h]; exact (hin p0 hp0 k).1)⟩
    · exact h

theorem box_unique (ps : List (Part n)) (lo hi lo' hi' : Vec n ℝ) (h : IsBox ps lo hi)
    (h' : IsBox ps lo' hi') : lo = lo' ∧ hi = hi' := by
  constructor <;> funext k
  · obtain ⟨p, hp, e⟩ := (h.2 k).1
    obtain ⟨p', hp', e'⟩ := (h'.2 k).1
    exact le_antisymm (e' ▸ (h.1 p' hp' k).1) (e ▸ (h'.1 p hp k).1)
  · obtain ⟨p, hp, e⟩ := (h.2 k).2
    obtain ⟨p', hp', e'⟩ := (h'.2 k).2
    exact le_antisymm (e ▸ (h'.1 p hp k).2) (e' ▸ (h.1 p' hp' k).2)

theorem box_move (l : ℝ) (hl : 0 < l) (c : Vec n ℝ) (ps : List (Part n)) (lo hi : Vec n ℝ)
    (h : IsBox ps lo hi) :
    IsBox (move l c ps) (fun k => l * lo k + c k) fun k => l * hi k + c k := by
  refine ⟨?_, fun k => ⟨?_, ?_⟩⟩
  · intro p hp k
    obtain ⟨q, hq, rfl⟩ := List.mem_map.mp hp
    obtain ⟨a, b⟩ := h.1 q hq k
    constructor
    · have := mul_le_mul_of_nonneg_left a hl.le
      show l * lo k + c k ≤ l * q.r k + c k
      linarith
    · have := mul_le_mul_of_nonneg_left b hl.le
      show l * q.r k + c k ≤ l * hi k + c k
      linarith
  · obtain ⟨p, hp, e⟩ := (h.2 k).1
    exact ⟨_, List.mem_map.mpr ⟨p, hp, rfl⟩, by simp [e]⟩
  · obtain ⟨p, hp, e⟩ := (h.2 k).2
    exact ⟨_, List.mem_map.mpr ⟨p, hp, rfl⟩, by simp [e]⟩

theorem volume_move (l : ℝ) (hl : 0 < l) (c : Vec n ℝ) (ps : List (Part n)) (hne : ps ≠ [])
    (hin : Inside ps) (hin' : Inside (move l c ps)) :
    volume (move l c ps) = l ^ n * volume ps := by
  have hne' : move l c ps ≠ [] := by
    simpa [move] using hne
  obtain ⟨e1, e2⟩ := box_unique _ _ _ _ _ (isBox _ hne' hin')
    (box_move l hl c ps _ _ (isBox ps hne hin))
  unfold volume
  rw [e1, e2]
  have : ∀ k : Fin n, l * rmax ps k + c k - (l * rmin ps k + c k) = l * (rmax ps k - rmin ps k) :=
    fun k => by ring
  simp only [this, Finset.prod_mul_distrib, Finset.prod_const, Finset.card_univ, Fintype.card_fin]

theorem volume_nonneg (ps : List (Part n)) (hne : ps ≠ []) (hin : Inside ps) : 0 ≤ volume ps := by
  refine Finset.prod_nonneg fun k _ => ?_
  obtain ⟨p, hp⟩ := List.exists_mem_of_ne_nil ps hne
  have := (isBox ps hne hin).1 p hp k
  linarith [this.1, this.2]

theorem volume_flat (ps : List (Part n)) (hne : ps ≠ []) (hin : Inside ps) (k : Fin n) (x : ℝ)
    (hk : ∀ p ∈ ps, p.r k = x) : volume ps = 0 := by
  refine Finset.prod_eq_zero (Finset.mem_univ k) ?_
  obtain ⟨⟨p, hp, e⟩, ⟨q, hq, e'⟩⟩ := (isBox ps hne hin).2 k
  rw [← e, ← e', hk p hp, hk q hq, sub_self]

/-- The `n`-th power of the guess -/
theorem hOf_pow (hn : n = 1 ∨ n = 3) (vol N : ℝ) (g : ℝ) (hv : 0 ≤ vol) (hg : 0 ≤ g) (hN : 0 < N) :
    hOf n vol g N ^ n = vol * g / (N * ball n 2) := by
  rcases hn with rfl | rfl
  · simp only [hOf, ball, pow_one]
    field_simp
    ring
  · have hpi := Real.pi_pos
    simp only [hOf, ball]
    have h0 : 0 ≤ 3 * vol * g / (32 * Real.pi * N) := by positivity
    rw [← Real.rpow_natCast, ← Real.rpow_mul h0]
    norm_num
    field_simp
    ring

theorem hOf_sq (vol N g : ℝ) (hv : 0 ≤ vol) (hg : 0 ≤ g) (hN : 0 < N) :
    hOf 2 vol g N ^ 2 = Real.pi * (vol * g / (N * ball 2 2)) := by
  have hpi := Real.pi_pos
  simp only [hOf, ball]
  rw [Real.sq_sqrt (by positivity)]
  field_simp
  norm_num

theorem ball_pow (hn : 1 ≤ n ∧ n ≤ 3) (R s : ℝ) : ball n (s * R) = ball n R * s ^ n := by
  obtain ⟨h1, h3⟩ := hn
  interval_cases n <;> simp only [ball] <;> ring

theorem ball_pos (hn : 1 ≤ n ∧ n ≤ 3) (R : ℝ) (hR : 0 < R) : 0 < ball n R := by
  have hpi := Real.pi_pos
  obtain ⟨h1, h3⟩ := hn
  interval_cases n <;> simp only [ball] <;> positivity

theorem ngather_floor (hn : 1 ≤ n ∧ n ≤ 3) (range h_fac : ℝ) :
    ngather n range h_fac = ⌊ball n (range * h_fac)⌋₊ := by
  obtain ⟨h1, h3⟩ := hn
  interval_cases n <;> simp only [ngather, ball] <;> congr 1 <;> ring

theorem hOf_nonneg (vol N g : ℝ) (hv : 0 ≤ vol) (hg : 0 ≤ g) (hN : 0 < N) : 0 ≤ hOf n vol g N := by
  have hpi := Real.pi_pos
  match n with
  | 0 => exact le_refl _
  | 1 => simp only [hOf]; positivity
  | 2 => exact Real.sqrt_nonneg _
  | 3 => exact Real.rpow_nonneg (by positivity) _
  | _ + 4 => exact le_refl _

theorem even_pow (hn : 1 ≤ n) (h_fac N vol : ℝ) (hv : 0 ≤ vol) (hN : 0 < N) :
    even n h_fac N vol ^ n = h_fac ^ n * (vol / N) := by
  unfold even
  rw [mul_pow, ← Real.rpow_natCast ((vol / N) ^ _), ← Real.rpow_mul (by positivity)]
  have : (1 / (n : ℝ)) * n = 1 := by
    have : (n : ℝ) ≠ 0 := by positivity
    field_simp
  rw [this, Real.rpow_one]

end HGuess

end

end Gandalf
