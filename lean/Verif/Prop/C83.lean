import Verif.Proof.IoniseLinks
import Verif.Model.Kernel
import Mathlib.Order.Bounds.Basic
import Mathlib.Algebra.Order.BigOperators.Group.Finset
import Mathlib.Algebra.BigOperators.Field
import Mathlib.Algebra.Order.Ring.Pow
import Mathlib.Data.Rat.Defs
import Mathlib.Algebra.Order.Ring.Rat
import Mathlib.Analysis.SpecialFunctions.Trigonometric.Basic

/-!
# C83: gas ionised by stars

Source: src/Thermal/MultipleSourceIonisation.cpp.  Statements use the data of the links (`Net`), the arrays of the state (`St`) and the
specification `IonSpec`.
-/

set_option autoImplicit false

namespace Gandalf
open Ion Ion.Net IonSpec

section
variable {α : Type} [Field α] [LinearOrder α] [IsStrictOrderedRing α]

/-- The particle that is chosen as the next one towards a source is nothing or a candidate that is closer to that source.  It is never another
source.  It is the source itself if that is a candidate; if not, it is one with the least angle, and it is nothing only if no closer gas particle
among the candidates has an angle (which is less than `big`). -/
theorem C83_links (near : ℕ) (sink : ℕ → Bool) (dist : ℕ → α) (angle : ℕ → Option α) (big low : α) (i dummy : ℕ) (l l' : List ℕ)
    (hlow : low < big) (hang : ∀ j a, angle j = some a → low < a ∧ a < big) (hd : dummy ∉ l ++ l') :
    let r := (link near sink dist angle big low i dummy l l').2
    (r = dummy ∨ (r ∈ l ++ l' ∧ dist r < dist i ∧ (sink r = true → r = near))) ∧
      (near ∈ l ++ l' → dist near < dist i → r = near) ∧
      (∀ j ∈ l ++ l', ∀ a, sink j = false → dist j < dist i → angle j = some a → r ≠ dummy ∧ (r = near ∨ ∃ b, angle r = some b ∧ b ≤ a)) := by
  obtain ⟨h1, h2⟩ := fold_link near sink dist angle big low i dummy (l ++ l')
  simp only [link_eq]
  set r := (l ++ l').foldl (linkTest near sink dist angle big low i) (big, dummy) with hr
  have hlt : ∀ j ∈ l ++ l', dist j < dist i → ∀ a, key near sink angle big low j = some a → a < big → r.1 ≤ a := by
    intro j hj hdj a ha hab
    have hne : i ≠ j := fun h => by rw [h] at hdj; exact lt_irrefl _ hdj
    rcases h2 j hj hdj hne a ha with h | h
    · exact h
    · exact absurd hab (not_lt.2 h)
  refine ⟨?_, ?_, ?_⟩
  · rcases h1 with h | ⟨h, h', h3, h4⟩
    · exact Or.inl (by rw [h])
    · refine Or.inr ⟨h, h'.1, fun hs => ?_⟩
      by_contra hn
      rw [key, if_neg hn, if_pos hs, Option.some_inj] at h3
      rw [h3] at h4
      exact lt_irrefl _ h4
  · intro hn hdn
    have h3 := hlt near hn hdn low (by rw [key, if_pos rfl]) hlow
    rcases h1 with h | ⟨h, h', h4, h5⟩
    · rw [h] at h3
      exact absurd hlow (not_lt.2 h3)
    · by_contra hne
      rw [key, if_neg hne] at h4
      by_cases hs : sink r.2 = true
      · rw [if_pos hs, Option.some_inj] at h4
        rw [h4] at h5
        exact lt_irrefl _ h5
      · rw [if_neg hs] at h4
        exact absurd (hang _ _ h4).1 (not_lt.2 h3)
  · intro j hj a hs hdj ha
    obtain ⟨b, hb, hb1, hb2⟩ : ∃ b, key near sink angle big low j = some b ∧ b ≤ a ∧ b < big := by
      by_cases hn : j = near
      · exact ⟨low, by rw [key, if_pos hn], (hang j a ha).1.le, hlow⟩
      · exact ⟨a, by rw [key, if_neg hn, hs]; simpa using ha, le_rfl, (hang j a ha).2⟩
    have h3 := hlt j hj hdj b hb hb2
    rcases h1 with h | ⟨h, h', h4, h5⟩
    · rw [h] at h3
      exact absurd hb2 (not_lt.2 h3)
    · refine ⟨fun he => hd (he ▸ h), ?_⟩
      by_cases hne : r.2 = near
      · exact Or.inl hne
      · rw [key, if_neg hne] at h4
        by_cases hs : sink r.2 = true
        · rw [if_pos hs, Option.some_inj] at h4
          rw [h4] at h5
          exact absurd h5 (lt_irrefl _)
        · rw [if_neg hs] at h4
          exact Or.inr ⟨r.1, h4, h3.trans hb1⟩

/-- candidates 1 and 2 are closer, 4 is not; 1 has the smaller angle; then with the source (5) among the candidates -/
example : (link 5 (fun j => decide (5 ≤ j)) (fun j => ((if j = 5 then 0 else j : ℕ) : ℚ)) (fun j => some (j / 10)) 6 (-1) 3 7 [1, 2] [4]).2 = 1 ∧
    (link 5 (fun j => decide (5 ≤ j)) (fun j => ((if j = 5 then 0 else j : ℕ) : ℚ)) (fun j => some (j / 10)) 6 (-1) 3 7 [1, 2] [4, 5]).2 = 5 := by
  decide +kernel

/-- With links made in this way from candidates that are gas or sources, all links lead towards the sources. -/
theorem C83_towards (G : Net α) (angle : ℕ → ℕ → ℕ → Option α) (big low : α) (l l' : ℕ → ℕ → List ℕ) (hlow : low < big)
    (hang : ∀ i p j a, angle i p j = some a → low < a ∧ a < big) (hl : ∀ i p, ∀ j ∈ l i p ++ l' i p, j < G.n + G.nos)
    (hG : ∀ i p, G.neigh i p = (link (G.n + p) G.sink (fun j => G.dist j p) (angle i p) big low i G.N (l i p) (l' i p)).2) : Towards G := by
  have key : ∀ i p, G.neigh i p = G.N ∨ (G.neigh i p < G.n + G.nos ∧ G.dist (G.neigh i p) p < G.dist i p ∧
      (G.sink (G.neigh i p) = true → G.neigh i p = G.n + p)) := by
    intro i p
    have hd : G.N ∉ l i p ++ l' i p := fun h => by
      have := hl i p _ h
      rw [N] at this
      omega
    obtain ⟨h1, -, -⟩ := C83_links (G.n + p) G.sink (fun j => G.dist j p) (angle i p) big low i G.N (l i p) (l' i p) hlow (hang i p) hd
    rw [← hG i p] at h1
    rcases h1 with h | ⟨h, h2, h3⟩
    · exact Or.inl h
    · exact Or.inr ⟨hl i p _ h, h2, h3⟩
  constructor
  · intro i p _ _
    rcases key i p with h | ⟨h, h2, h3⟩
    · exact Or.inl h
    · by_cases hs : G.neigh i p < G.n
      · exact Or.inr (Or.inr hs)
      · exact Or.inr (Or.inl (h3 ((sink_iff _).2 ⟨not_lt.1 hs, h⟩)))
  · intro i p _ _ hn
    rcases key i p with h | ⟨h, h2, h3⟩
    · exact absurd h hn
    · exact h2

/-- One source: the iteration ends, whatever was in memory before it and whichever particles were ionised at the last call.  Every
particle but the first has then the photons used up on the way from the source, and is ionised just if some are left.

Partial: no particle may be linked to particle 0 (see `C83_first_fails`), and there is only one source (see `C83_region`,
`C83_premature_fails`). -/
theorem C83_single_partial (G : Net α) (hn : G.nos = 1) (T : Towards G) (h0 : ∀ i, i < G.n → G.neigh i 0 ≠ 0) (hdot : 0 < G.ndot 0)
    (old : ℕ → ℕ → Bool) (junk : ℕ → ℕ → α) :
    ∃ t, G.loop (G.n + 4) (G.n + 1) false (G.start old junk) = some t ∧
      ∀ i, 1 ≤ i → i < G.n → ∃ a, Used G i a ∧ (∀ b, Used G i b → b = a) ∧ t.photons i 0 = a ∧ (t.fion i = true ↔ a < G.ndot 0) := by
  have h0' : ∀ i p, i < G.n → p < G.nos → G.neigh i p ≠ 0 := by
    intro i p hi hp
    obtain rfl : p = 0 := by omega
    exact h0 i hi
  have R := ranked T h0'
  have hN : G.N = G.n + 1 := by rw [N, hn]
  have hex : ∀ i, i < G.N → ∃ a, Used G i a := fun i hi => used_exists hn R T hdot (G.rank 0 i + 1) i (Nat.lt_succ_self _) hi
  have hf : ∀ p i, p < G.nos → i < G.N → G.rank p i < G.n + 1 := fun p i _ hi => by rw [← hN]; exact rank_lt hi
  obtain ⟨t, ht⟩ := loop_some hn R (G.n + 1) hf hex (G.n + 1) 0 (G.n + 4) false (G.start old junk) (by omega) (by omega)
    (fun _ _ => rfl) (fun i a _ h => by omega)
  refine ⟨t, ht, fun i hi1 hi2 => ?_⟩
  have hiN : i < G.N := by omega
  obtain ⟨q, r, Q, P, hz⟩ := loop_inv R (G.n + 1) (G.n + 4) false (G.start old junk) t (fun _ _ => rfl)
    (Or.inl (by change G.N ≠ 0; omega)) (by intro h; cases h) ht
  obtain ⟨a, ha⟩ := hex i hiN
  have hg := good_end hn R Q P hz hi1 ha
  refine ⟨a, ha, fun b hb => used_unique hn hb ha, hg.1, ?_⟩
  rw [P.fion i hi1 hiN]
  constructor
  · rintro ⟨p, hp, h⟩
    obtain rfl : p = 0 := by omega
    rw [hg.2, decide_eq_true_eq] at h
    linarith
  · intro h
    exact ⟨0, by omega, by rw [hg.2, decide_eq_true_eq]; linarith⟩

/-- Light reaches a particle from a source only through particles that are reached too: when the iteration ends, with any number
of sources, a particle that is ionised by a source is linked to one that is ionised by the same source. -/
theorem C83_region (G : Net α) (T : Towards G) (h0 : ∀ i p, i < G.n → p < G.nos → G.neigh i p ≠ 0) (hdot : ∀ p, p < G.nos → 0 < G.ndot p)
    (h1 : 1 ≤ G.n) (K f : ℕ) (old : ℕ → ℕ → Bool) (junk : ℕ → ℕ → α) (t : St α) (ht : G.loop K f false (G.start old junk) = some t)
    (i p : ℕ) (hi1 : 1 ≤ i) (hi : i < G.n) (hp : p < G.nos) (h : t.ionised i p = true) :
    G.neigh i p ≠ G.n + G.nos ∧ t.ionised (G.neigh i p) p = true ∧ t.fion (G.neigh i p) = true := by
  have R := ranked T h0
  obtain ⟨q, r, Q, P, hz⟩ := loop_inv R f K false (G.start old junk) t (fun _ _ => rfl)
    (Or.inl (by change G.N ≠ 0; rw [N]; omega)) (by intro h; cases h) ht
  have hiN : i < G.N := by rw [N]; omega
  have hs : G.sink i = false := by
    rw [← Bool.not_eq_true, sink_iff]
    omega
  have hfl := P.flag i p hi1 hiN hp
  have hne : G.neigh i p ≠ G.N := by
    intro hd
    rw [P.dum i p hi1 hiN hp hs hd, h, sub_self] at hfl
    simp at hfl
  obtain ⟨a1, a2⟩ := R.first i p hi hp hne
  have key : t.ionised (G.neigh i p) p = true := by
    by_contra hf
    rw [Bool.not_eq_true] at hf
    obtain ⟨F, hF, hv⟩ := P.gas i p hi1 hiN hp hs hne
    have hr : r.ionised (G.neigh i p) p = false := by rw [← P.change.1 hz _ p a1 a2 hp, hf]
    have hF0 : F p = 0 := by
      rcases hF p hp with h2 | h2 <;> rw [h2, flux]
      · rw [hr]; rfl
      · rw [hf]; rfl
    have hsh : G.share F p = 0 := by
      unfold share
      rw [hF0]
      split_ifs <;> simp
    rw [hsh, mul_zero, zero_add] at hv
    have hg := P.flag _ p a1 a2 hp
    rw [hv, ← hg, hf, h] at hfl
    cases hfl
  exact ⟨hne, key, (P.fion _ a1 a2).2 ⟨p, hp, key⟩⟩

/-- The recombinations of a particle are shared out: if the photons that reach the next particle on the way to a source are not used up
just if the flag says so, each source takes a share that is not negative, no source takes one if its light does not come that far, and the shares
are one together if any light comes. -/
theorem C83_shares (G : Net α) (s : St α) (i : ℕ)
    (hs : ∀ p, p < G.nos → (s.ionised (G.neigh i p) p = true → s.photons (G.neigh i p) p < G.ndot p)) :
    (∀ p, p < G.nos → 0 ≤ (G.probs s i).prob i p ∧ (0 < (G.probs s i).prob i p ↔ s.ionised (G.neigh i p) p = true)) ∧
      ((∃ p, p < G.nos ∧ s.ionised (G.neigh i p) p = true) → ∑ p ∈ Finset.range G.nos, (G.probs s i).prob i p = 1) := by
  have hF : ∀ p, p < G.nos → 0 ≤ G.flux s i p ∧ (0 < G.flux s i p ↔ s.ionised (G.neigh i p) p = true) := by
    intro p hp
    unfold flux
    by_cases h : s.ionised (G.neigh i p) p = true
    · have := hs p hp h
      rw [if_pos h]
      exact ⟨by linarith, fun _ => h, fun _ => by linarith⟩
    · rw [if_neg h]
      exact ⟨le_rfl, fun h' => absurd h' (lt_irrefl _), fun h' => absurd h' h⟩
  have hP : ∀ p, p < G.nos → (G.probs s i).prob i p = G.share (G.flux s i) p := by
    intro p hp
    simp [probs, hp]
  have hsum : 0 ≤ ∑ k ∈ Finset.range G.nos, G.flux s i k := Finset.sum_nonneg fun p hp => (hF p (Finset.mem_range.1 hp)).1
  have hpos : ∀ p, p < G.nos → 0 < G.flux s i p → 0 < ∑ k ∈ Finset.range G.nos, G.flux s i k := fun p hp h =>
    Finset.sum_pos' (fun k hk => (hF k (Finset.mem_range.1 hk)).1) ⟨p, Finset.mem_range.2 hp, h⟩
  refine ⟨fun p hp => ?_, ?_⟩
  · rw [hP p hp, ← (hF p hp).2, share]
    by_cases h : 0 < ∑ k ∈ Finset.range G.nos, G.flux s i k
    · rw [if_pos h]
      exact ⟨div_nonneg (hF p hp).1 h.le, fun h' => by
        by_contra hn
        have : G.flux s i p = 0 := le_antisymm (not_lt.1 hn) (hF p hp).1
        rw [this, zero_div] at h'
        exact lt_irrefl _ h', fun h' => div_pos h' h⟩
    · rw [if_neg h]
      exact ⟨(hF p hp).1, Iff.rfl⟩
  · rintro ⟨p, hp, h⟩
    have hp' := hpos p hp ((hF p hp).2.2 h)
    rw [Finset.sum_congr rfl fun k hk => hP k (Finset.mem_range.1 hk)]
    have e : ∀ k, G.share (G.flux s i) k = G.flux s i k / ∑ k ∈ Finset.range G.nos, G.flux s i k := fun k => by rw [share, if_pos hp']
    rw [Finset.sum_congr rfl fun k _ => e k, ← Finset.sum_div, div_self hp'.ne']

/-- two sources of 8 and 6 photons, of which the next particle has used 2 and 4: shares 3/4 and 1/4 -/
example :
    let G : Net ℚ := ⟨2, 2, fun _ => 1, fun _ _ => 1, fun _ _ => 1, fun p => if p = 0 then 8 else 6⟩
    let s : St ℚ := ⟨fun _ p => if p = 0 then 2 else 4, fun _ _ => 0, fun _ _ => true, fun _ _ => false, fun _ => false, 0⟩
    (G.probs s 0).prob 0 0 = 3 / 4 ∧ (G.probs s 0).prob 0 1 = 1 / 4 := by
  decide +kernel

/-- Temperatures: ionised gas has the temperature `ti`; other gas has the greatest of the neutral temperature `tn` and of what ionised
particles that have it as a neighbour give it, `ti` times a kernel of the distance over 3/2 of the smoothing length.  So it does not depend on the
order of the particles and lies between `tn` and `ti`. -/
theorem C83_temperature (fion : ℕ → Bool) (sep : ℕ → ℕ → α) (h : ℕ → α) (tn ti : α) (ht : 0 ≤ tn ∧ tn ≤ ti) (nb : ℕ → List ℕ) (is : List ℕ)
    (t : ℕ → α) (j : ℕ) (hj : t j = tn) (hpos : ∀ i j, 0 ≤ sep j i) (hh : ∀ i, 0 < h i) :
    let T := finalT (fion j) tn ti (smooth fion sep h ti nb is t j)
    (fion j = true → T = ti) ∧
      (fion j = false → IsGreatest (insert tn {x | ∃ i ∈ is, fion i = true ∧ j ∈ nb i ∧ x = ti * w (sep j i / (3 / 2 * h i))}) T) ∧
      tn ≤ T ∧ T ≤ ti := by
  intro T
  have e : ∀ i, ti * w (sep j i / (3 / 2 * h i)) = glow sep h ti i j := fun i => by rw [glow, mul_comm (3 / 2)]
  by_cases hf : fion j = true
  · have hT : T = ti := by
      change finalT (fion j) tn ti _ = ti
      rw [finalT, if_pos hf, if_neg (not_lt.2 ht.2)]
    exact ⟨fun _ => hT, (fun h => by rw [hf] at h; cases h), by rw [hT]; exact ht.2, hT.le⟩
  · rw [Bool.not_eq_true] at hf
    obtain ⟨h1, h2, h3⟩ := smooth_fold fion sep h ti nb is t j hf
    rw [hj] at h1 h3
    have hT : T = smooth fion sep h ti nb is t j := by
      change finalT (fion j) tn ti _ = _
      rw [finalT, hf]
      simp only [Bool.false_eq_true, if_false]
      rw [if_neg (not_lt.2 h1)]
    rw [hT]
    refine ⟨(fun h => by rw [hf] at h; cases h), fun _ => ⟨?_, ?_⟩, h1, ?_⟩
    · rcases h3 with h3 | ⟨i, a, b, c, d⟩
      · exact Or.inl h3
      · exact Or.inr ⟨i, a, b, c, by rw [d, e]⟩
    · rintro x (rfl | ⟨i, a, b, c, rfl⟩)
      · exact h1
      · rw [e]
        exact h2 i a b c
    · rcases h3 with h3 | ⟨i, a, b, c, d⟩
      · rw [h3]; exact ht.2
      · rw [d, glow]
        have := (w_range (sep j i / (h i * (3 / 2))) (div_nonneg (hpos i j) (mul_nonneg (hh i).le (by norm_num)))).2
        exact mul_le_of_le_one_right (ht.1.trans ht.2) this

/-- particle 1 is ionised and has 0 and 2 as neighbours at distances 3/2 and 3; 2 gets nothing -/
example : let T := fun j => finalT (decide (j = 1)) 10 (10000 : ℚ) (smooth (fun i => decide (i = 1)) (fun j _ => if j = 0 then 3 / 2 else 3)
      (fun _ => 1) 10000 (fun _ => [0, 1, 2]) [0, 1, 2] (fun _ => 10) j)
    T 0 = 2500 ∧ T 1 = 10000 ∧ T 2 = 10 := by
  decide +kernel

/-- The state of ionisation that is stored is 2 for ionised gas, 0 for gas of the neutral temperature and 1 for gas heated by its
ionised neighbours, for any temperature `t` after smoothing. -/
theorem C83_state (fion : Bool) (tn ti t : α) (ht : tn < ti) :
    (ionstate fion tn (finalT fion tn ti t) = 2 ↔ fion = true) ∧ (ionstate fion tn (finalT fion tn ti t) = 1 ↔ fion = false ∧ tn < t) ∧
      (ionstate fion tn (finalT fion tn ti t) = 0 ↔ fion = false ∧ t ≤ tn) := by
  cases fion with
  | true =>
    have e : finalT true tn ti t = ti := by
      rw [finalT, if_pos rfl, if_neg (not_lt.2 ht.le)]
    rw [e, ionstate, if_neg ht.ne', if_pos rfl]
    simp
  | false =>
    rcases lt_trichotomy t tn with h | h | h
    · have e : finalT false tn ti t = tn := by simp [finalT, h]
      rw [e, ionstate, if_pos rfl]
      simp [h.le]
    · have e : finalT false tn ti t = tn := by simp [finalT, h]
      rw [e, ionstate, if_pos rfl]
      simp [h]
    · have e : finalT false tn ti t = t := by simp [finalT, not_lt.2 h.le]
      rw [e, ionstate, if_neg h.ne']
      simp [h]

/-- The mean weight of the gas is that of neutral gas at the neutral temperature and that of ionised gas at the ionised temperature; in
between it is in between, and hotter gas is lighter. -/
theorem C83_mu (tn ti mubar muion : α) (ht : tn < ti) (hm : 0 < muion ∧ muion ≤ mubar) :
    invmu tn ti mubar muion tn = 1 / mubar ∧ invmu tn ti mubar muion ti = 1 / muion ∧
      ∀ t t', tn ≤ t → t ≤ t' → t' ≤ ti → 1 / mubar ≤ invmu tn ti mubar muion t ∧ invmu tn ti mubar muion t ≤ invmu tn ti mubar muion t' ∧
        invmu tn ti mubar muion t' ≤ 1 / muion := by
  have h0 : 0 < ti - tn := sub_pos.2 ht
  have hb : 0 < mubar := lt_of_lt_of_le hm.1 hm.2
  have e1 : invmu tn ti mubar muion tn = 1 / mubar := by
    unfold invmu
    field_simp
    ring
  have e2 : invmu tn ti mubar muion ti = 1 / muion := by
    unfold invmu
    field_simp
    ring
  have mono : ∀ t t', t ≤ t' → invmu tn ti mubar muion t ≤ invmu tn ti mubar muion t' := by
    intro t t' h
    have hi : 1 / mubar ≤ 1 / muion := one_div_le_one_div_of_le hm.1 hm.2
    have e : invmu tn ti mubar muion t' - invmu tn ti mubar muion t = (t' - t) * (1 / muion - 1 / mubar) / (ti - tn) := by
      unfold invmu
      field_simp
      ring
    have := div_nonneg (mul_nonneg (sub_nonneg.2 h) (sub_nonneg.2 hi)) h0.le
    linarith
  refine ⟨e1, e2, fun t t' h1 h2 h3 => ⟨?_, mono t t' h2, ?_⟩⟩
  · rw [← e1]; exact mono tn t h1
  · rw [← e2]; exact mono t' ti h3

example : invmu 10 (10000 : ℚ) (12 / 5) (3 / 5) 5005 = 25 / 24 := by decide +kernel

/-- The internal energy that is stored does not have the temperature it was made from: in a gas with `T = (gamma-1) mu u` its temperature is
`gamma (gamma-1) t`, as the routine is given `1/gamma` for its argument `gammam1` (line 72). -/
theorem C83_energy_fails (tempscale gamma t im : α) (hs : tempscale ≠ 0) (ht : t ≠ 0) (hi : im ≠ 0) :
    (gamma - 1) * (1 / im) * energy tempscale gamma t im * tempscale = gamma * (gamma - 1) * t ∧
      ((gamma - 1) * (1 / im) * energy tempscale gamma t im * tempscale = t ↔ gamma * (gamma - 1) = 1) := by
  have e : (gamma - 1) * (1 / im) * energy tempscale gamma t im * tempscale = gamma * (gamma - 1) * t := by
    unfold energy
    rw [div_div_eq_mul_div, div_one]
    field_simp
  refine ⟨e, ?_⟩
  rw [e]
  constructor
  · intro h
    exact mul_right_cancel₀ ht (by rw [h, one_mul])
  · intro h
    rw [h, one_mul]

/-- gamma 5/3: ionised gas of 10^4 K is given the energy of gas of 11111 K -/
example : ((5 / 3 : ℚ) - 1) * (1 / (5 / 3)) * energy 1 (5 / 3) 10000 (5 / 3) * 1 = 100000 / 9 := by decide +kernel

end

/-- The kernel of the smoothing is the M4 kernel over its value at zero, in any number of dimensions. -/
theorem C83_kernel (n : ℕ) (hn : 1 ≤ n ∧ n ≤ 3) (s : ℝ) : (m4Kernel n).w0 0 ≠ 0 ∧ Ion.w s = (m4Kernel n).w0 s / (m4Kernel n).w0 0 := by
  have hpi := Real.pi_pos.ne'
  obtain ⟨h1, h2⟩ := hn
  have hc : M4.kernnorm n ≠ 0 := by
    interval_cases n <;> simp only [M4.kernnorm] <;> positivity
  have e0 : (m4Kernel n).w0 0 = M4.kernnorm n := by
    simp only [m4Kernel, M4.w0]
    norm_num
  rw [e0]
  refine ⟨hc, ?_⟩
  simp only [m4Kernel, M4.w0, Ion.w]
  by_cases h : s < 1
  · rw [if_pos h, if_pos h]
    field_simp
    norm_num
    ring
  · rw [if_neg h, if_neg h]
    by_cases h' : s < 2
    · rw [if_pos h', if_pos h']
      field_simp
      norm_num
      ring
    · rw [if_neg h', if_neg h', zero_div]

/-- In gas of one density with links that all lead to the only source, the particles that are ionised when the iteration ends are those
within the Strömgren radius: the recombinations of the ball up to the particle, `4/3 pi d^3 (rho/m)^2 beta`, are fewer than the photons `Q` of
the source. -/
theorem C83_stroemgren (G : Net ℝ) (hn : G.nos = 1) (T : Towards G) (h0 : ∀ i, i < G.n → G.neigh i 0 ≠ 0)
    (hall : ∀ i, i < G.n → G.neigh i 0 ≠ G.n + G.nos) (hd : G.dist G.n 0 = 0) (rho m beta Q : ℝ) (hrho : ∀ i, i < G.n → G.rho i = rho)
    (hm : 0 < m) (hb : 0 < beta) (hQ : 0 < Q) (hdot : G.ndot 0 = m ^ 2 * Q / (4 * Real.pi * beta))
    (old : ℕ → ℕ → Bool) (junk : ℕ → ℕ → ℝ) :
    ∃ t, G.loop (G.n + 4) (G.n + 1) false (G.start old junk) = some t ∧
      ∀ i, 1 ≤ i → i < G.n → (t.fion i = true ↔ 4 / 3 * Real.pi * G.dist i 0 ^ 3 * (rho / m) ^ 2 * beta < Q) := by
  have hpi := Real.pi_pos
  have hdot0 : 0 < G.ndot 0 := by rw [hdot]; positivity
  obtain ⟨t, h1, h2⟩ := C83_single_partial G hn T h0 hdot0 old junk
  refine ⟨t, h1, fun i hi1 hi => ?_⟩
  obtain ⟨a, ha, -, -, hf⟩ := h2 i hi1 hi
  have key : ∀ {i : ℕ} {a : ℝ}, Used G i a → i < G.n → a = rho ^ 2 * G.dist i 0 ^ 3 / 3 ∨ (G.ndot 0 ≤ a ∧ a ≤ rho ^ 2 * G.dist i 0 ^ 3 / 3) := by
    intro i a hu
    induction hu with
    | source h => intro h'; omega
    | unlinked h hl => intro _; exact absurd hl (hall _ h)
    | first h hl _ =>
      intro _
      left
      rw [recomb, hrho _ h, hd]
      ring
    | @lit i a h hl hu hlt ih =>
      intro _
      rcases ih hl with e | e
      · left
        rw [recomb, hrho _ h, hrho _ hl, e]
        ring
      · exact absurd hlt (not_lt.2 e.1)
    | @dark i a h hl hu hle ih =>
      intro _
      right
      have hc := T.closer i 0 h (by omega) (hall i h)
      have hcube : G.dist (G.neigh i 0) 0 ^ 3 ≤ G.dist i 0 ^ 3 := (Odd.strictMono_pow (by decide : Odd 3)).monotone hc.le
      have := mul_le_mul_of_nonneg_left hcube (sq_nonneg rho)
      refine ⟨hle, ?_⟩
      rcases ih hl with e | e
      · linarith
      · linarith [e.2]
  have hk := key ha hi
  have e : (4 / 3 * Real.pi * G.dist i 0 ^ 3 * (rho / m) ^ 2 * beta < Q) ↔ rho ^ 2 * G.dist i 0 ^ 3 / 3 < G.ndot 0 := by
    rw [hdot]
    have hc : 0 < m ^ 2 / (4 * Real.pi * beta) := by positivity
    rw [← mul_lt_mul_iff_of_pos_left hc]
    have e1 : m ^ 2 / (4 * Real.pi * beta) * (4 / 3 * Real.pi * G.dist i 0 ^ 3 * (rho / m) ^ 2 * beta) = rho ^ 2 * G.dist i 0 ^ 3 / 3 := by
      field_simp
    have e2 : m ^ 2 / (4 * Real.pi * beta) * Q = m ^ 2 * Q / (4 * Real.pi * beta) := by ring
    rw [e1, e2]
  rw [hf, e]
  rcases hk with hk | hk
  · rw [hk]
  · constructor
    · intro h; exact absurd h (not_lt.2 hk.1)
    · intro h; exact absurd (lt_of_le_of_lt hk.2 h) (not_lt.2 hk.1)

/-- the hypotheses: two particles at distances 2 and 1, a source of 4 photons -/
example : ∃ G : Net ℝ, G.n = 2 ∧ G.nos = 1 ∧ Towards G ∧ (∀ i, i < G.n → G.neigh i 0 ≠ 0) ∧ (∀ i, i < G.n → G.neigh i 0 ≠ G.n + G.nos) ∧
    G.dist G.n 0 = 0 ∧ G.ndot 0 = 1 ^ 2 * 4 / (4 * Real.pi * (1 / (4 * Real.pi))) := by
  refine ⟨⟨2, 1, fun _ => 1, fun i _ => if i = 2 then 0 else if i = 1 then 1 else 2, fun i _ => if i = 1 then 2 else 1, fun _ => 4⟩,
    rfl, rfl, ⟨?_, ?_⟩, ?_, ?_, by simp, ?_⟩
  · intro i p hi hp
    obtain rfl : p = 0 := Nat.lt_one_iff.1 hp
    change i < 2 at hi
    interval_cases i <;> simp
  · intro i p hi hp _
    change i < 2 at hi
    interval_cases i <;> norm_num
  · intro i hi
    change i < 2 at hi
    interval_cases i <;> simp
  · intro i hi
    change i < 2 at hi
    interval_cases i <;> simp
  · have := Real.pi_ne_zero
    field_simp

/-! ### witnesses -/

/-- Four gas particles on the way from the source (4): 3, 2 and 1 one after another, 0 beside them. -/
def ionLine : Net ℚ where
  n := 4
  nos := 1
  rho := fun _ => 1
  dist := fun i _ => if i = 4 then 0 else if i = 3 then 1 else if i = 2 then 2 else if i = 1 then 3 else 4
  neigh := fun i _ => if i = 3 then 4 else if i = 2 then 3 else if i = 1 then 2 else if i = 0 then 1 else 5
  ndot := fun _ => 4

theorem ionLine_towards : Towards ionLine := by
  constructor
  · intro i p hi hp
    change i < 4 at hi
    obtain rfl : p = 0 := Nat.lt_one_iff.1 hp
    interval_cases i <;> simp [ionLine]
  · intro i p hi hp _
    change i < 4 at hi
    interval_cases i <;> norm_num [ionLine]

/-- photons 4: the particles at distances 1 and 2 are ionised (1/3 and 8/3 are used up), the one at distance 3 is not -/
example : Towards ionLine ∧ (∀ i, i < 4 → ionLine.neigh i 0 ≠ 0) ∧
    (ionLine.loop 8 5 false (ionLine.start (fun _ _ => true) (fun _ _ => 7))).map (fun t => (t.fion 3, t.fion 2, t.fion 1, t.photons 2 0))
      = some (true, true, false, 8 / 3) := by
  refine ⟨ionLine_towards, ?_, ?_⟩
  · intro i hi
    interval_cases i <;> decide
  · decide +kernel

/-- The first particle is never ionised, as the loops over particles start at one, and what it absorbed in the first pass is kept: with one
source, links towards it and enough photons for the first particle (particle 0 at distance 2), the iteration ends with it neutral; and
the particle behind it (particle 1, at distance 3) is ionised though more photons (9) are used up on the way to it than there are (8). -/
theorem C83_first_fails : ∃ (G : Net ℚ) (t : St ℚ), G.nos = 1 ∧ Towards G ∧ 0 < G.ndot 0 ∧
    G.loop 20 10 false (G.start (fun _ _ => false) (fun _ _ => 0)) = some t ∧
    (∃ a, Used G 0 a ∧ a < G.ndot 0 ∧ t.fion 0 = false) ∧ (∃ a, Used G 1 a ∧ G.ndot 0 < a ∧ t.fion 1 = true) := by
  let G : Net ℚ := ⟨3, 1, fun _ => 1, fun i _ => if i = 3 then 0 else if i = 2 then 1 else if i = 0 then 2 else 3,
    fun i _ => if i = 2 then 3 else if i = 0 then 2 else if i = 1 then 0 else 4, fun _ => 8⟩
  have h : (G.loop 20 10 false (G.start (fun _ _ => false) (fun _ _ => 0))).map (fun t => (t.fion 0, t.fion 1)) = some (false, true) := by
    decide +kernel
  obtain ⟨t, ht, hf⟩ := Option.map_eq_some_iff.1 h
  have u2 : Used G 2 (recomb 1 1 1 0) := Used.first (G := G) (i := 2) (by decide) rfl (by decide)
  have u0 : Used G 0 (recomb 1 1 1 0 + recomb 1 1 2 1) :=
    Used.lit (G := G) (i := 0) (by decide) (by decide) u2 (by norm_num [recomb, G])
  have u1 : Used G 1 (recomb 1 1 1 0 + recomb 1 1 2 1 + recomb 1 1 3 2) :=
    Used.lit (G := G) (i := 1) (by decide) (by decide) u0 (by norm_num [recomb, G])
  refine ⟨G, t, rfl, ⟨?_, ?_⟩, by norm_num [G], ht, ⟨_, u0, by norm_num [recomb, G], congrArg Prod.fst hf⟩,
    ⟨_, u1, by norm_num [recomb, G], congrArg Prod.snd hf⟩⟩
  · intro i p hi hp
    change i < 3 at hi
    obtain rfl : p = 0 := Nat.lt_one_iff.1 hp
    interval_cases i <;> simp [G]
  · intro i p hi hp _
    change i < 3 at hi
    interval_cases i <;> norm_num [G]

/-- The iteration with two sources may end before it has settled: it stops when one pass changes no flag, but shares of photons may still
change.  Here two particles between two sources are ionised by both when it ends, and one more pass takes away the light of the second
source from one of them. -/
theorem C83_premature_fails : ∃ (G : Net ℚ) (t u : St ℚ), G.nos = 2 ∧ Towards G ∧ (∀ i p, i < G.n → p < G.nos → G.neigh i p ≠ 0) ∧
    (∀ p, 0 < G.ndot p) ∧ G.loop 20 10 false (G.start (fun _ _ => false) (fun _ _ => 0)) = some t ∧ G.pass 10 t = some u ∧
    t.ionised 1 1 = true ∧ u.ionised 1 1 = false := by
  let G : Net ℚ := ⟨3, 2, fun i => if i = 1 then 2 else 1,
    fun i p => if i = 3 + p then 0 else if i = 1 then (if p = 0 then 4 else 8) else if i = 2 then (if p = 0 then 5 else 7) else 20,
    fun i p => if i = 1 then (if p = 0 then 3 else 2) else if i = 2 then (if p = 0 then 1 else 4) else 5, fun _ => 100⟩
  have h : ((G.loop 20 10 false (G.start (fun _ _ => false) (fun _ _ => 0))).bind fun t => (G.pass 10 t).map fun u => (t.ionised 1 1, u.ionised 1 1))
      = some (true, false) := by
    decide +kernel
  obtain ⟨t, ht, hu⟩ := Option.bind_eq_some_iff.1 h
  obtain ⟨u, hu, hf⟩ := Option.map_eq_some_iff.1 hu
  refine ⟨G, t, u, rfl, ⟨?_, ?_⟩, ?_, fun _ => by norm_num [G], ht, hu, congrArg Prod.fst hf, congrArg Prod.snd hf⟩
  · intro i p hi hp
    change i < 3 at hi
    change p < 2 at hp
    interval_cases i <;> interval_cases p <;> simp [G]
  · intro i p hi hp
    change i < 3 at hi
    change p < 2 at hp
    interval_cases i <;> interval_cases p <;> norm_num [G]
  · intro i p hi hp
    change i < 3 at hi
    change p < 2 at hp
    interval_cases i <;> interval_cases p <;> simp [G]

end Gandalf
