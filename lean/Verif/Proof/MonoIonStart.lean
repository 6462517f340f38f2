import Verif.Proof.MonoIon
import Verif.Proof.RadSetup

/-! Lemmas on the opacities at the start, the levels and the particles (C88). -/

set_option autoImplicit false
set_option linter.unusedSectionVars false

namespace Gandalf.MonoIon
open KD RadTree

variable {α : Type} [Field α] [LinearOrder α] [IsStrictOrderedRing α]

theorem foldl_sum (pm pX : ℕ → α) : ∀ (l : List ℕ) (x : α),
    l.foldl (fun (x : α) (i : ℕ) => x + pm i * pX i) x = x + total (fun i => pm i * pX i) l := by
  intro l
  induction l with
  | nil => intro x; simp [total]
  | cons a l ih =>
    intro x
    rw [List.foldl_cons, ih]
    simp only [total, List.map_cons, List.sum_cons]
    ring

theorem total_bounds {pm pX : ℕ → α} : ∀ (l : List ℕ), (∀ i ∈ l, 0 ≤ pm i ∧ 0 ≤ pX i ∧ pX i ≤ 1) →
    0 ≤ total (fun i => pm i * pX i) l ∧ total (fun i => pm i * pX i) l ≤ total pm l := by
  intro l
  induction l with
  | nil => intro _; simp [total]
  | cons a l ih =>
    intro h
    obtain ⟨h1, h2⟩ := ih fun i hi => h i (List.mem_cons_of_mem _ hi)
    obtain ⟨g1, g2, g3⟩ := h a List.mem_cons_self
    have k1 := mul_nonneg g1 g2
    have k2 := mul_le_mul_of_nonneg_left g3 g1
    simp only [total, List.map_cons, List.sum_cons] at *
    exact ⟨by linarith, by linarith⟩

theorem levelSum_split (t : KD.Links) (L : ℕ) (F : ℕ → α) (d c : ℕ) (h : t.level c ≠ L) :
    levelSum t L F c (fullSize (d + 1)) =
      levelSum t L F (c + 1) (fullSize d) + levelSum t L F (c + 1 + fullSize d) (fullSize d) := by
  unfold levelSum
  rw [range_split]
  simp only [List.filter_cons, h, decide_false, Bool.false_eq_true, if_false, List.filter_append,
    List.map_append, List.sum_append]

/-- what is asserted of one cell: its fraction is the mean over the particles below -/
structure Mean (P : Par α) (t : KD.Links) (L : ℕ) (mem : ℕ → List ℕ) (pm pX : ℕ → α) (d i : ℕ)
    (b : Cell α) : Prop where
  mass : b.m = levelSum t L (fun l => total pm (mem l)) i (fullSize d)
  mean : b.m * b.Xion = levelSum t L (fun l => total (fun k => pm k * pX k) (mem l)) i (fullSize d)
  lo : 0 ≤ b.Xion
  hi : b.Xion ≤ 1
  opacity : b.opacity = opac P b.Xion b.rho

theorem cellOpacity_spec {P : Par α} {t : KD.Links} {L : ℕ} {mem : ℕ → List ℕ} {pm pX : ℕ → α}
    (hp : ∀ i, 0 ≤ pm i ∧ 0 ≤ pX i ∧ pX i ≤ 1) :
    ∀ (d c g fuel : ℕ) (f : ℕ → Cell α), LaidOut t L d c g → d < fuel →
      (∀ d' i, Node d c d' i → (f i).m = levelSum t L (fun l => total pm (mem l)) i (fullSize d')) →
      ∃ f', cellOpacity P t L mem pm pX fuel c f = some f' ∧
        (∀ i, i < c ∨ c + fullSize d ≤ i → f' i = f i) ∧ (∀ i, SameRest (f' i) (f i)) ∧
        ∀ d' i, Node d c d' i → Mean P t L mem pm pX d' i (f' i) := by
  intro d
  induction d with
  | zero =>
    intro c g fuel f hlo hf hm
    obtain ⟨fuel, rfl⟩ : ∃ q, fuel = q + 1 := ⟨fuel - 1, by omega⟩
    have hl := laid_level hlo
    have hl' : t.level c = L := by omega
    rw [cellOpacity, if_neg (by omega)]
    refine ⟨_, rfl, ?_, ?_, ?_⟩
    · intro i hi
      rw [fullSize_zero] at hi
      exact Function.update_of_ne (by omega) _ _
    · intro i
      by_cases h : i = c
      · subst h; rw [Function.update_self]; exact ⟨rfl, rfl, rfl, rfl, rfl⟩
      · rw [Function.update_of_ne h]; exact SameRest.refl _
    · intro d' i hn
      have hmi := hm d' i hn
      cases hn
      rw [Function.update_self]
      have hone : ∀ F : ℕ → α, levelSum t L F c (fullSize 0) = F c := by
        intro F
        unfold levelSum
        rw [fullSize_zero]
        simp [hl']
      rw [hone] at hmi
      obtain ⟨b1, b2⟩ := total_bounds (pm := pm) (pX := pX) (mem c) fun i _ => hp i
      rw [foldl_sum, zero_add]
      rcases lt_or_ge 0 (f c).m with h | h
      · simp only [if_pos h]
        refine ⟨by rw [hone]; exact hmi, ?_, ?_, ?_, rfl⟩
        · rw [hone]
          show (f c).m * (_ / (f c).m) = _
          field_simp
        · exact div_nonneg b1 h.le
        · show _ / (f c).m ≤ 1
          rw [div_le_one h, hmi]
          exact b2
      · simp only [if_neg (not_lt.mpr h)]
        have hz : total (fun i => pm i * pX i) (mem c) = 0 := le_antisymm (by linarith) b1
        rw [hz]
        refine ⟨by rw [hone]; exact hmi, ?_, le_rfl, zero_le_one, rfl⟩
        rw [hone, hz]
        exact mul_zero _
  | succ d ih =>
    intro c g fuel f hlo hf hm
    obtain ⟨fuel, rfl⟩ : ∃ q, fuel = q + 1 := ⟨fuel - 1, by omega⟩
    have hl := laid_level hlo
    have hfs := fullSize_succ d
    have hp' := fs_pos d
    obtain ⟨_, _, hc1, hc2, _, lo1, lo2⟩ := hlo
    rw [cellOpacity, if_pos (by omega), hc1, hc2]
    obtain ⟨f1, e1, a1, a2, a3⟩ := ih (c + 1) g fuel f lo1 (by omega)
      (fun d' i hn => hm d' i (.left hn))
    obtain ⟨f2, e2, b1, b2, b3⟩ := ih (c + 1 + fullSize d) _ fuel f1 lo2 (by omega)
      (fun d' i hn => by rw [(a2 i).2.1]; exact hm d' i (.right hn))
    simp only [e1, e2, Option.bind_eq_bind, Option.bind_some]
    have m1 := a3 d (c + 1) (.self _ _)
    rw [← b1 (c + 1) (by omega)] at m1
    have m2 := b3 d (c + 1 + fullSize d) (.self _ _)
    have hmc : (f2 c).m = (f2 (c + 1)).m + (f2 (c + 1 + fullSize d)).m := by
      rw [m1.mass, m2.mass, (b2 c).2.1, (a2 c).2.1, hm (d + 1) c (.self _ _),
        levelSum_split t L _ d c (by omega)]
    refine ⟨_, rfl, ?_, ?_, ?_⟩
    · intro i hi
      rw [Function.update_of_ne (by omega), b1 i (by omega), a1 i (by omega)]
    · intro i
      have h0 : SameRest (f2 i) (f i) := (b2 i).trans (a2 i)
      by_cases h : i = c
      · subst h; rw [Function.update_self]; exact ⟨h0.1, h0.2.1, h0.2.2.1, h0.2.2.2.1, h0.2.2.2.2⟩
      · rw [Function.update_of_ne h]; exact h0
    · intro d' i hn
      cases hn with
      | self =>
        rw [Function.update_self]
        have hmass : (f2 c).m = levelSum t L (fun l => total pm (mem l)) c (fullSize (d + 1)) := by
          rw [(b2 c).2.1, (a2 c).2.1]; exact hm (d + 1) c (.self _ _)
        have hnn1 : 0 ≤ (f2 (c + 1)).m := by
          rw [m1.mass]
          unfold levelSum
          apply List.sum_nonneg
          intro x hx
          obtain ⟨l, _, rfl⟩ := List.mem_map.mp hx
          exact List.sum_nonneg (by
            intro y hy
            obtain ⟨k, _, rfl⟩ := List.mem_map.mp hy
            exact (hp k).1)
        have hnn2 : 0 ≤ (f2 (c + 1 + fullSize d)).m := by
          rw [m2.mass]
          unfold levelSum
          apply List.sum_nonneg
          intro x hx
          obtain ⟨l, _, rfl⟩ := List.mem_map.mp hx
          exact List.sum_nonneg (by
            intro y hy
            obtain ⟨k, _, rfl⟩ := List.mem_map.mp hy
            exact (hp k).1)
        have hsum : levelSum t L (fun l => total (fun k => pm k * pX k) (mem l)) c (fullSize (d + 1)) =
            (f2 (c + 1)).m * (f2 (c + 1)).Xion +
              (f2 (c + 1 + fullSize d)).m * (f2 (c + 1 + fullSize d)).Xion := by
          rw [levelSum_split t L _ d c (by omega), m1.mean, m2.mean]
        have h1 := mul_nonneg hnn1 m1.lo
        have h2 := mul_nonneg hnn2 m2.lo
        have h3 := mul_le_mul_of_nonneg_left m1.hi hnn1
        have h4 := mul_le_mul_of_nonneg_left m2.hi hnn2
        rcases lt_or_ge 0 (f2 c).m with h | h
        · simp only [if_pos h]
          refine ⟨hmass, ?_, ?_, ?_, rfl⟩
          · rw [hsum]
            show (f2 c).m * (_ / (f2 c).m) = _
            field_simp
          · exact div_nonneg (by linarith) h.le
          · show _ / (f2 c).m ≤ 1
            rw [div_le_one h, hmc]
            linarith
        · simp only [if_neg (not_lt.mpr h)]
          refine ⟨hmass, ?_, le_rfl, zero_le_one, rfl⟩
          rw [hsum]
          show (f2 c).m * 0 = _
          have z1 : (f2 (c + 1)).m = 0 := by linarith
          have z2 : (f2 (c + 1 + fullSize d)).m = 0 := by linarith
          rw [z1, z2]
          ring
      | left hn =>
        have hr := hn.range
        have := fs_pos d'
        rw [Function.update_of_ne (by omega), b1 i (by omega)]
        exact a3 d' i hn
      | right hn =>
        have hr := hn.range
        have := fs_pos d'
        rw [Function.update_of_ne (by omega)]
        exact b3 d' i hn

theorem levels_top (L : ℤ) : ∀ k, levels L k L = (List.replicate k L, L) := by
  intro k
  induction k with
  | zero => rfl
  | succ k ih => rw [levels, if_neg (by simp), ih]; rfl

theorem levels_spec (L : ℤ) (k : ℕ) : ∀ r : ℕ,
    levels L (r + k) (L - r) = ((List.range r).map (fun j : ℕ => L - r + j) ++ List.replicate k L, L) := by
  intro r
  induction r with
  | zero => simp [levels_top]
  | succ r ih =>
    rw [show r + 1 + k = (r + k) + 1 by omega, levels]
    have h : (L - ((r + 1 : ℕ) : ℤ)) ≠ L := by push_cast; omega
    have e : L - ((r + 1 : ℕ) : ℤ) + 1 = L - r := by push_cast; omega
    rw [if_pos h, e, ih]
    simp only [List.range_succ_eq_map, List.map_cons, List.map_map, List.cons_append]
    refine Prod.ext ?_ rfl
    show _ :: _ = _ :: _
    congr 1
    · push_cast; omega
    · congr 1
      apply List.map_congr_left
      intro j _
      simp only [Function.comp]
      push_cast
      omega

theorem inner_fold {x : α} : ∀ (l : List ℕ) (g : ℕ → α) (i : ℕ),
    l.foldl (fun (g : ℕ → α) (i : ℕ) => Function.update g i x) g i = if i ∈ l then x else g i := by
  intro l
  induction l with
  | nil => intro g i; simp
  | cons a l ih =>
    intro g i
    rw [List.foldl_cons, ih]
    by_cases h : i ∈ l
    · rw [if_pos h, if_pos (List.mem_cons_of_mem _ h)]
    · rw [if_neg h]
      by_cases h2 : i = a
      · subst h2; rw [Function.update_self, if_pos List.mem_cons_self]
      · rw [Function.update_of_ne h2, if_neg]
        intro h3
        rcases List.mem_cons.mp h3 with h4 | h4
        · exact h2 h4
        · exact h h4

theorem interpolate_spec (t : KD.Links) (level : ℕ) (mem : ℕ → List ℕ) (cells : ℕ → Cell α) (i : ℕ) :
    ∀ (l : List ℕ) (f : ℕ → α),
    (∀ c ∈ l, ∀ c' ∈ l, t.level c = level → t.level c' = level → i ∈ mem c → i ∈ mem c' → c = c') →
    let f' := l.foldl (fun (f : ℕ → α) (c : ℕ) =>
      if t.level c = level ∧ (cells c).N ≠ 0 then
        (mem c).foldl (fun (g : ℕ → α) (i : ℕ) => Function.update g i (cells c).Xion) f
      else f) f
    (∀ c ∈ l, t.level c = level → (cells c).N ≠ 0 → i ∈ mem c → f' i = (cells c).Xion) ∧
    ((∀ c ∈ l, t.level c = level → (cells c).N ≠ 0 → i ∉ mem c) → f' i = f i) := by
  intro l
  induction l with
  | nil => intro f _; exact ⟨fun c h => absurd h List.not_mem_nil, fun _ => rfl⟩
  | cons a l ih =>
    intro f hu
    rw [List.foldl_cons]
    obtain ⟨h1, h2⟩ := ih (if t.level a = level ∧ (cells a).N ≠ 0 then
        (mem a).foldl (fun (g : ℕ → α) (i : ℕ) => Function.update g i (cells a).Xion) f
      else f) fun c hc c' hc' => hu c (List.mem_cons_of_mem _ hc) c' (List.mem_cons_of_mem _ hc')
    refine ⟨?_, ?_⟩
    · intro c hc hl hN hi
      rcases List.mem_cons.mp hc with rfl | hc'
      · by_cases h : c ∈ l
        · exact h1 c h hl hN hi
        · have h3 := h2 fun c' hc' hl' _ hi' => h (by
            rw [hu c List.mem_cons_self c' (List.mem_cons_of_mem _ hc') hl hl' hi hi']; exact hc')
          rw [h3, if_pos ⟨hl, hN⟩, inner_fold, if_pos hi]
      · exact h1 c hc' hl hN hi
    · intro h
      rw [h2 fun c hc => h c (List.mem_cons_of_mem _ hc)]
      by_cases h3 : t.level a = level ∧ (cells a).N ≠ 0
      · rw [if_pos h3, inner_fold, if_neg (h a List.mem_cons_self h3.1 h3.2)]
      · rw [if_neg h3]

end Gandalf.MonoIon
