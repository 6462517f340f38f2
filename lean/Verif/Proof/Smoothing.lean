import Verif.Model.Smoothing
import Verif.Spec.Kernel
import Mathlib.Analysis.SpecialFunctions.Pow.Deriv

/-!
# Smoothing length iteration: lemmas
-/

set_option autoImplicit false
set_option linter.unusedSectionVars false

namespace Gandalf.Smoothing

section
variable {α : Type*} [LinearOrder α]

/-- What holds of bounds during the loop: they are within the initial ones, and every bound moved is on its side. -/
structure Bracket (F : Iter α) (lo0 lo up : α) : Prop where
  lower : lo0 ≤ lo
  upper : up ≤ F.hmax
  below : lo = lo0 ∨ F.above lo (F.dens lo) = false
  above : up = F.hmax ∨ F.above up (F.dens up) = true

/-- invariant of the loop -/
structure Inv (F : Iter α) (h0 lo0 : α) (it : ℕ) (h lo up : α) : Prop where
  br : Bracket F lo0 lo up
  inside : (it = 1 ∧ h = h0) ∨ (lo < h ∧ h < up)
  first : it ≤ 30 → lo = lo0 ∧ up = F.hmax

/-- What is known of each way the loop ends. -/
inductive Ends (F : Iter α) (h0 lo0 : α) : Res α → Prop
  | conv (h lo up : α) (br : Bracket F lo0 lo up) (hin : h = h0 ∨ (lo < h ∧ h < up))
      (hn : F.near h (F.dens h) lo = true) : Ends F h0 lo0 (.conv h (F.dens h) lo)
  | large (h rho : α) (hl : F.hmax < h) : Ends F h0 lo0 (.large h rho)
  | raised : Ends F h0 lo0 .raised
  | low (h : α) (hin : h = h0 ∨ (lo0 < h ∧ h < F.hmax)) (he : F.est (F.dens h) ≤ lo0)
      (h' : α) : Ends F h0 lo0 (.left h (F.dens h) lo0 F.hmax h')
  | top (h : α) (hin : h = h0 ∨ (lo0 < h ∧ h < F.hmax)) (he : F.est (F.dens h) = F.hmax)
      (h' : α) : Ends F h0 lo0 (.left h (F.dens h) lo0 F.hmax h')
  | collapsed (h lo up : α) (br : Bracket F lo0 lo up) (hlu : lo < up) (hin : lo ≤ h ∧ h ≤ up) (hpos : lo0 < h)
      (hm : F.mid lo up = lo ∨ F.mid lo up = up) : Ends F h0 lo0 (.left h (F.dens h) lo up (F.mid lo up))

variable {F : Iter α} {h0 lo0 : α}

theorem step_spec (hmid : ∀ l u, l ≤ u → l ≤ F.mid l u ∧ F.mid l u ≤ u) {it : ℕ} {h lo up : α}
    (hit : 1 ≤ it) (I : Inv F h0 lo0 it h lo up) :
    match step F it h lo up with
    | .stop r => Ends F h0 lo0 r
    | .go h' lo' up' => Inv F h0 lo0 (it + 1) h' lo' up' := by
  have hin : h = h0 ∨ (lo < h ∧ h < up) := I.inside.imp And.right id
  unfold step
  simp only []
  by_cases hn : F.near h (F.dens h) lo = true
  · rw [if_pos hn]
    exact .conv h lo up I.br hin hn
  · rw [if_neg hn]
    unfold newH
    by_cases h1 : it < 30
    · rw [if_pos h1]
      simp only []
      obtain ⟨rfl, rfl⟩ := I.first (by omega)
      by_cases h2 : F.hmax < F.est (F.dens h)
      · rw [if_pos h2]; exact .large _ _ h2
      · rw [if_neg h2]
        push Not at h2
        by_cases h3 : lo < F.est (F.dens h) ∧ F.est (F.dens h) < F.hmax
        · rw [if_pos h3]
          exact ⟨I.br, Or.inr h3, fun _ => ⟨rfl, rfl⟩⟩
        · rw [if_neg h3]
          by_cases h4 : lo < F.est (F.dens h)
          · have h5 : F.est (F.dens h) = F.hmax := le_antisymm h2 (not_lt.mp fun h => h3 ⟨h4, h⟩)
            exact .top h hin h5 _
          · exact .low h hin (not_lt.mp h4) _
    · rw [if_neg h1]
      have hstrict : lo < h ∧ h < up := by
        rcases I.inside with ⟨e, _⟩ | e
        · omega
        · exact e
      have hlu : lo < up := hstrict.1.trans hstrict.2
      have fin : ∀ lo' up', Bracket F lo0 lo' up' → lo' < up' → lo' ≤ h → h ≤ up' →
          (it + 1 ≤ 30 → lo' = lo0 ∧ up' = F.hmax) →
          (match (if F.hmax < F.mid lo' up' then Next.stop (.large (F.mid lo' up') (F.dens h))
            else if lo' < F.mid lo' up' ∧ F.mid lo' up' < up' then .go (F.mid lo' up') lo' up'
            else .stop (.left h (F.dens h) lo' up' (F.mid lo' up'))) with
          | .stop r => Ends F h0 lo0 r
          | .go h' lo'' up'' => Inv F h0 lo0 (it + 1) h' lo'' up'') := by
        intro lo' up' br hl e1 e2 e3
        obtain ⟨m1, m2⟩ := hmid lo' up' hl.le
        by_cases c1 : F.hmax < F.mid lo' up'
        · exact absurd (c1.trans_le (m2.trans br.upper)) (lt_irrefl _)
        · rw [if_neg c1]
          by_cases c2 : lo' < F.mid lo' up' ∧ F.mid lo' up' < up'
          · rw [if_pos c2]
            exact ⟨br, Or.inr c2, e3⟩
          · rw [if_neg c2]
            refine .collapsed h lo' up' br hl ⟨e1, e2⟩ (I.br.lower.trans_lt hstrict.1) ?_
            by_cases c3 : lo' < F.mid lo' up'
            · exact Or.inr (le_antisymm m2 (not_lt.mp fun h => c2 ⟨c3, h⟩))
            · exact Or.inl (le_antisymm (not_lt.mp c3) m1)
      by_cases h2 : it = 30
      · rw [if_pos h2]
        simp only []
        obtain ⟨rfl, rfl⟩ := I.first (by omega)
        exact fin _ _ I.br hlu hstrict.1.le hstrict.2.le (fun h => by omega)
      · rw [if_neg h2]
        by_cases h3 : it < 5 * 30
        · rw [if_pos h3]
          by_cases h4 : F.above h (F.dens h) = true
          · rw [if_pos h4]
            exact fin lo h ⟨I.br.lower, hstrict.2.le.trans I.br.upper, I.br.below, Or.inr h4⟩ hstrict.1
              hstrict.1.le le_rfl (fun h => by omega)
          · rw [if_neg h4]
            exact fin h up ⟨I.br.lower.trans hstrict.1.le, I.br.upper, Or.inr (by simpa using h4), I.br.above⟩
              hstrict.2 le_rfl hstrict.2.le (fun h => by omega)
        · rw [if_neg h3]
          exact .raised

theorem loop_spec (hmid : ∀ l u, l ≤ u → l ≤ F.mid l u ∧ F.mid l u ≤ u) : ∀ (f it : ℕ) (h lo up : α), 1 ≤ it →
    Inv F h0 lo0 it h lo up → Ends F h0 lo0 (loop F f it h lo up) := by
  intro f
  induction f with
  | zero => intro _ _ _ _ _ _; exact .raised
  | succ f ih =>
    intro it h lo up hit I
    have hs := step_spec hmid hit I
    unfold loop
    cases hc : step F it h lo up with
    | stop r => rw [hc] at hs; exact hs
    | go h' lo' up' => rw [hc] at hs; exact ih _ _ _ _ (by omega) hs

theorem loop_ends (hmid : ∀ l u, l ≤ u → l ≤ F.mid l u ∧ F.mid l u ≤ u) :
    Ends F h0 lo0 (loop F 150 1 h0 lo0 F.hmax) := by
  exact loop_spec hmid _ _ _ _ _ le_rfl ⟨⟨le_rfl, le_rfl, Or.inl rfl, Or.inl rfl⟩, Or.inl ⟨rfl, rfl⟩,
    fun _ => ⟨rfl, rfl⟩⟩

theorem computeH_conv {final : α → α → α} {rho0 h' rho lo : α} (hl : lo0 ≤ F.hmax)
    (hloop : loop F 150 1 h0 lo0 F.hmax = .conv h' rho lo) (hf : final rho lo ≤ F.hmax) :
    computeH F final h0 rho0 lo0 = some ⟨1, final rho lo, rho⟩ := by
  unfold computeH
  rw [if_neg (not_lt.mpr hl), hloop]
  simp [hf]

theorem computeH_left {final : α → α → α} {rho0 h' rho lo up h'' : α} (hl : lo0 ≤ F.hmax)
    (hloop : loop F 150 1 h0 lo0 F.hmax = .left h' rho lo up h'') (hf : final rho lo ≤ F.hmax) :
    computeH F final h0 rho0 lo0 = some ⟨1, final rho lo, rho⟩ := by
  unfold computeH
  rw [if_neg (not_lt.mpr hl), hloop]
  simp [hf]

/-- Cases of a successful `ComputeH`. -/
theorem computeH_success (hmid : ∀ l u, l ≤ u → l ≤ F.mid l u ∧ F.mid l u ≤ u) {final : α → α → α} {rho0 h rho : α}
    (hs : computeH F final h0 rho0 lo0 = some ⟨1, h, rho⟩) :
    h ≤ F.hmax ∧ lo0 ≤ F.hmax ∧ ∃ h' lo, rho = F.dens h' ∧ h = final rho lo ∧ lo0 ≤ lo ∧
    ((∃ up, Bracket F lo0 lo up ∧ (h' = h0 ∨ (lo < h' ∧ h' < up)) ∧ F.near h' rho lo = true) ∨
     (lo = lo0 ∧ (h' = h0 ∨ (lo0 < h' ∧ h' < F.hmax)) ∧ (F.est rho ≤ lo0 ∨ F.est rho = F.hmax)) ∨
     (∃ up, Bracket F lo0 lo up ∧ lo < up ∧ lo ≤ h' ∧ h' ≤ up ∧ lo0 < h' ∧ (F.mid lo up = lo ∨ F.mid lo up = up))) := by
  unfold computeH at hs
  by_cases h1 : F.hmax < lo0
  · rw [if_pos h1] at hs
    simp only [Option.some.injEq, Out.mk.injEq, reduceCtorEq, false_and] at hs
  · rw [if_neg h1] at hs
    push Not at h1
    simp only [] at hs
    have fin : ∀ r lo, (some (⟨if final r lo ≤ F.hmax then 1 else -1, final r lo, r⟩ : Out α)) = some ⟨1, h, rho⟩ →
        h ≤ F.hmax ∧ r = rho ∧ h = final rho lo := by
      intro r lo he
      simp only [Option.some.injEq, Out.mk.injEq] at he
      obtain ⟨e1, rfl, rfl⟩ := he
      by_cases c : final r lo ≤ F.hmax
      · exact ⟨c, rfl, rfl⟩
      · rw [if_neg c] at e1
        exact absurd e1 (by decide)
    have he := loop_ends (F := F) (h0 := h0) (lo0 := lo0) hmid
    revert hs he
    generalize loop F 150 1 h0 lo0 F.hmax = R
    intro hs he
    cases he with
    | conv h' lo up br hin hn =>
      obtain ⟨a, rfl, b⟩ := fin _ _ hs
      exact ⟨a, h1, h', lo, rfl, b, br.lower, Or.inl ⟨up, br, hin, hn⟩⟩
    | large h' r hl =>
      simp only [Option.some.injEq, Out.mk.injEq] at hs
      exact absurd hs.1 (by decide)
    | raised => simp at hs
    | low h' hin he =>
      obtain ⟨a, rfl, b⟩ := fin _ _ hs
      exact ⟨a, h1, h', lo0, rfl, b, le_rfl, Or.inr (Or.inl ⟨rfl, hin, Or.inl he⟩)⟩
    | top h' hin he =>
      obtain ⟨a, rfl, b⟩ := fin _ _ hs
      exact ⟨a, h1, h', lo0, rfl, b, le_rfl, Or.inr (Or.inl ⟨rfl, hin, Or.inr he⟩)⟩
    | collapsed h' lo up br hlu hin hpos hm =>
      obtain ⟨a, rfl, b⟩ := fin _ _ hs
      exact ⟨a, h1, h', lo, rfl, b, br.lower, Or.inr (Or.inr ⟨up, br, hlu, hin.1, hin.2, hpos, hm⟩)⟩

end

section
variable {α : Type*} [Field α] [LinearOrder α] [IsStrictOrderedRing α]

/-- exact midpoint -/
def half (l u : α) : α := (l + u) / 2

theorem half_between (l u : α) (h : l ≤ u) : l ≤ half l u ∧ half l u ≤ u := by
  unfold half; constructor <;> linarith

theorem half_strict {l u : α} (h : l < u) : ¬ (half l u = l ∨ half l u = u) := by
  unfold half; rintro (h' | h') <;> linarith

/-- Width of the bracket during exact bisection. -/
def width (hmax lo0 : α) (it : ℕ) : α := (hmax - lo0) / 2 ^ (it - 31)

/-- With a bracketed root and a Lipschitz bound the loop does not raise the exception. -/
theorem loop_no_raise {F : Iter α} {lo0 K tol : α} (hhalf : F.mid = half)
    (hK : 0 ≤ K)
    (hLip : ∀ a b, lo0 ≤ a → a ≤ b → b ≤ F.hmax → |F.est (F.dens a) - F.est (F.dens b)| ≤ K * (b - a))
    (hab : ∀ h, lo0 ≤ h → h ≤ F.hmax → F.above h (F.dens h) = decide (F.est (F.dens h) < h))
    (hlo : lo0 ≤ F.est (F.dens lo0)) (hup : F.est (F.dens F.hmax) ≤ F.hmax)
    (htol : (1 + K) * ((F.hmax - lo0) / 2 ^ 119) < tol)
    (hnear : ∀ h lo, lo0 ≤ lo → lo < h → h < F.hmax → |h - F.est (F.dens h)| < tol →
      F.near h (F.dens h) lo = true) :
    ∀ (f it : ℕ) (h lo up : α), f + it = 150 → 2 ≤ it → lo0 ≤ lo → up ≤ F.hmax →
      lo < h → h < up →
      (it ≤ 30 → lo = lo0 ∧ up = F.hmax) →
      (31 ≤ it → lo ≤ F.est (F.dens lo) ∧ F.est (F.dens up) ≤ up ∧ up - lo ≤ width F.hmax lo0 it ∧
        h = half lo up) →
      loop F (f + 1) it h lo up ≠ .raised := by
  have hw : ∀ it, 31 ≤ it → width F.hmax lo0 (it + 1) = width F.hmax lo0 it / 2 := by
    intro it hit
    unfold width
    rw [show it + 1 - 31 = (it - 31) + 1 by omega, pow_succ, div_div]
  intro f
  induction f with
  | zero =>
    intro it h lo up hf hit h1 h2 h3 h4 h5 h6
    obtain ⟨g1, g2, g3, g4⟩ := h6 (by omega)
    have hit' : it = 150 := by omega
    subst hit'
    have a1 := abs_le.mp (hLip lo h h1 h3.le (h4.le.trans h2))
    have a2 := abs_le.mp (hLip h up (h1.trans h3.le) h4.le h2)
    have b1 : K * (h - lo) ≤ K * (up - lo) := mul_le_mul_of_nonneg_left (by linarith) hK
    have b2 : K * (up - h) ≤ K * (up - lo) := mul_le_mul_of_nonneg_left (by linarith) hK
    have b3 : (1 + K) * (up - lo) ≤ (1 + K) * ((F.hmax - lo0) / 2 ^ 119) :=
      mul_le_mul_of_nonneg_left g3 (by linarith)
    have hn := hnear h lo h1 h3 (h4.trans_le h2) (by
      rw [abs_lt]; constructor <;> linarith [a1.1, a1.2, a2.1, a2.2])
    unfold loop step
    simp only []
    rw [if_pos hn]
    simp
  | succ f ih =>
    intro it h lo up hf hit h1 h2 h3 h4 h5 h6
    unfold loop step
    simp only []
    by_cases hn : F.near h (F.dens h) lo = true
    · rw [if_pos hn]; simp
    · rw [if_neg hn]
      unfold newH
      by_cases c1 : it < 30
      · rw [if_pos c1]
        simp only []
        obtain ⟨rfl, rfl⟩ := h5 (by omega)
        by_cases c2 : F.hmax < F.est (F.dens h)
        · rw [if_pos c2]; simp
        · rw [if_neg c2]
          by_cases c3 : lo < F.est (F.dens h) ∧ F.est (F.dens h) < F.hmax
          · rw [if_pos c3]
            exact ih _ _ _ _ (by omega) (by omega) h1 h2 c3.1 c3.2 (fun _ => ⟨rfl, rfl⟩) (fun h => by omega)
          · rw [if_neg c3]; simp
      · rw [if_neg c1]
        have hlu : lo < up := h3.trans h4
        have fin : ∀ lo' up', lo0 ≤ lo' → up' ≤ F.hmax → lo' < up' → lo' ≤ F.est (F.dens lo') →
            F.est (F.dens up') ≤ up' → up' - lo' ≤ width F.hmax lo0 (it + 1) →
            (match (if F.hmax < F.mid lo' up' then Next.stop (.large (F.mid lo' up') (F.dens h))
              else if lo' < F.mid lo' up' ∧ F.mid lo' up' < up' then .go (F.mid lo' up') lo' up'
              else .stop (.left h (F.dens h) lo' up' (F.mid lo' up'))) with
            | .stop r => r
            | .go h' lo'' up'' => loop F (f + 1) (it + 1) h' lo'' up'') ≠ .raised := by
          intro lo' up' e1 e2 e3 e4 e5 e6
          rw [hhalf]
          by_cases d1 : F.hmax < half lo' up'
          · rw [if_pos d1]; simp
          · rw [if_neg d1]
            by_cases d2 : lo' < half lo' up' ∧ half lo' up' < up'
            · rw [if_pos d2]
              exact ih _ _ _ _ (by omega) (by omega) e1 e2 d2.1 d2.2 (fun h => by omega)
                (fun _ => ⟨e4, e5, e6, rfl⟩)
            · rw [if_neg d2]; simp
        by_cases c2 : it = 30
        · rw [if_pos c2]
          simp only []
          obtain ⟨rfl, rfl⟩ := h5 (by omega)
          refine fin _ _ h1 h2 hlu hlo hup ?_
          rw [c2]; simp [width]
        · rw [if_neg c2, if_pos (show it < 5 * 30 by omega)]
          obtain ⟨g1, g2, g3, g4⟩ := h6 (by omega)
          have hwi := hw it (by omega)
          rw [hab h (h1.trans h3.le) (h4.le.trans h2)]
          by_cases c4 : F.est (F.dens h) < h
          · rw [if_pos (by simpa using c4)]
            refine fin lo h h1 (h4.le.trans h2) h3 g1 c4.le ?_
            rw [hwi, g4]; unfold half; linarith
          · rw [if_neg (by simpa using c4)]
            refine fin h up (h1.trans h3.le) h2 h4 (not_lt.mp c4) g2 ?_
            rw [hwi, g4]; unfold half; linarith

/-- the same for `ComputeH`, from any starting value -/
theorem computeH_no_raise {F : Iter α} {lo0 K tol : α} (hhalf : F.mid = half) (hK : 0 ≤ K)
    (hLip : ∀ a b, lo0 ≤ a → a ≤ b → b ≤ F.hmax → |F.est (F.dens a) - F.est (F.dens b)| ≤ K * (b - a))
    (hab : ∀ h, lo0 ≤ h → h ≤ F.hmax → F.above h (F.dens h) = decide (F.est (F.dens h) < h))
    (hlo : lo0 ≤ F.est (F.dens lo0)) (hup : F.est (F.dens F.hmax) ≤ F.hmax)
    (htol : (1 + K) * ((F.hmax - lo0) / 2 ^ 119) < tol)
    (hnear : ∀ h lo, lo0 ≤ lo → lo < h → h < F.hmax → |h - F.est (F.dens h)| < tol →
      F.near h (F.dens h) lo = true) (final : α → α → α) (h0 rho0 : α) :
    computeH F final h0 rho0 lo0 ≠ none := by
  have key : loop F 150 1 h0 lo0 F.hmax ≠ .raised := by
    rw [show (150 : ℕ) = 149 + 1 from rfl]
    unfold loop step
    simp only []
    by_cases hn : F.near h0 (F.dens h0) lo0 = true
    · rw [if_pos hn]; simp
    · rw [if_neg hn]
      unfold newH
      rw [if_pos (show 1 < 30 by omega)]
      simp only []
      by_cases c2 : F.hmax < F.est (F.dens h0)
      · rw [if_pos c2]; simp
      · rw [if_neg c2]
        by_cases c3 : lo0 < F.est (F.dens h0) ∧ F.est (F.dens h0) < F.hmax
        · rw [if_pos c3]
          exact loop_no_raise hhalf hK hLip hab hlo hup htol hnear 148 2 _ _ _ rfl le_rfl le_rfl le_rfl c3.1 c3.2
            (fun _ => ⟨rfl, rfl⟩) (fun h => by omega)
        · rw [if_neg c3]; simp
  unfold computeH
  split_ifs
  · simp
  · simp only []
    revert key
    generalize loop F 150 1 h0 lo0 F.hmax = R
    intro key
    cases R <;> simp at key ⊢

end

/-! ## Sums -/

section
variable {n : ℕ}

theorem drsqd_nonneg (r : Vec n ℝ) (b : Ngb n) : 0 ≤ drsqd r b := by
  unfold drsqd dot
  exact Finset.sum_nonneg fun k _ => mul_self_nonneg _

theorem sqrt_ssqd (r : Vec n ℝ) {h : ℝ} (hh : 0 < h) (b : Ngb n) :
    √(ssqd r h b) = √(drsqd r b) / h := by
  unfold ssqd
  rw [Real.sqrt_mul (by positivity), Real.sqrt_mul_self (by positivity)]
  field_simp

theorem density_pos {K : Kernel} (hK : K.Valid n) {r : Vec n ℝ} {ngbs : List (Ngb n)}
    (hm : ∀ b ∈ ngbs, 0 ≤ b.m) {s : Ngb n} (hs : s ∈ ngbs) (hsr : s.r = r) {h : ℝ} (hh : 0 < h) :
    s.m * (1 / h) ^ n * K.w0 0 ≤ density K r ngbs h := by
  have h1 : ∀ x ∈ ngbs.map (fun b => b.m * K.w0 (√(ssqd r h b))), 0 ≤ x := by
    intro x hx
    obtain ⟨b, hb, rfl⟩ := List.mem_map.mp hx
    exact mul_nonneg (hm b hb) (hK.nonneg _ (Real.sqrt_nonneg _))
  have h2 := List.single_le_sum h1 _ (List.mem_map_of_mem (f := fun b => b.m * K.w0 (√(ssqd r h b))) hs)
  have h3 : √(ssqd r h s) = 0 := by
    rw [sqrt_ssqd r hh]
    have : drsqd r s = 0 := by unfold drsqd dot; simp [hsr]
    rw [this]; simp
  simp only [h3] at h2
  unfold density
  have h4 : 0 ≤ (1 / h) ^ n := by positivity
  calc s.m * (1 / h) ^ n * K.w0 0 = s.m * K.w0 0 * (1 / h) ^ n := by ring
    _ ≤ _ := mul_le_mul_of_nonneg_right h2 h4

theorem hRho_pos {hfac m rho : ℝ} (h1 : 0 < hfac) (h2 : 0 < m) (h3 : 0 < rho) : 0 < hRho n hfac m rho := by
  unfold hRho
  have : 0 < m / rho := div_pos h2 h3
  positivity

/-- the bisection test with powers is that with the root -/
theorem hRho_lt_iff (hn : 1 ≤ n) {hfac m rho h : ℝ} (h1 : 0 < hfac) (h2 : 0 < m) (h3 : 0 < rho) (h4 : 0 < h) :
    hRho n hfac m rho < h ↔ hfac ^ n * m < rho * h ^ n := by
  have hq : 0 < m / rho := div_pos h2 h3
  have hn0 : (n : ℝ) ≠ 0 := by exact_mod_cast (by omega : n ≠ 0)
  have e : hRho n hfac m rho ^ n = hfac ^ n * (m / rho) := by
    unfold hRho
    rw [mul_pow, ← Real.rpow_natCast (_ ^ _) n, ← Real.rpow_mul hq.le, one_div_mul_cancel hn0, Real.rpow_one]
  rw [← pow_lt_pow_iff_left₀ (hRho_pos h1 h2 h3).le h4.le (by omega : n ≠ 0), e, ← mul_div_assoc, div_lt_iff₀ h3,
    mul_comm (h ^ n)]

/-- neighbours left out by the gather test do not contribute -/
theorem density_gather {K : Kernel} (hK : K.Valid n) {small hmax h : ℝ} (r : Vec n ℝ) (hh : 0 < h)
    (hh' : K.kernrangesqd * h ^ 2 + small ≤ K.kernrangesqd * hmax ^ 2) : ∀ l : List (Ngb n),
    density K r (gather small K.kernrangesqd hmax r l) h = density K r l h := by
  intro l
  unfold density
  congr 1
  induction l with
  | nil => simp [gather]
  | cons b l ih =>
    unfold gather at ih ⊢
    by_cases hb : drsqd r b + small ≤ K.kernrangesqd * hmax * hmax
    · rw [List.filter_cons_of_pos (by simpa using hb)]
      simp only [List.map_cons, List.sum_cons]
      rw [ih]
    · rw [List.filter_cons_of_neg (by simpa using hb)]
      simp only [List.map_cons, List.sum_cons]
      rw [ih, hK.support, mul_zero, zero_add]
      rw [sqrt_ssqd r hh, le_div_iff₀ hh]
      refine Real.le_sqrt_of_sq_le ?_
      have := hK.rangesqd
      rw [mul_pow, ← this]
      push Not at hb
      nlinarith

theorem omegaSum_gather {K : Kernel} (hω : ∀ s, K.kernrange ≤ s → K.womega s = 0) (hsq : K.kernrangesqd = K.kernrange ^ 2)
    {small hmax h : ℝ} (r : Vec n ℝ) (hh : 0 < h)
    (hh' : K.kernrangesqd * h ^ 2 + small ≤ K.kernrangesqd * hmax ^ 2) : ∀ l : List (Ngb n),
    omegaSum K r (gather small K.kernrangesqd hmax r l) h = omegaSum K r l h := by
  intro l
  unfold omegaSum
  congr 1
  induction l with
  | nil => simp [gather]
  | cons b l ih =>
    unfold gather at ih ⊢
    by_cases hb : drsqd r b + small ≤ K.kernrangesqd * hmax * hmax
    · rw [List.filter_cons_of_pos (by simpa using hb)]
      simp only [List.map_cons, List.sum_cons]
      rw [ih]
    · rw [List.filter_cons_of_neg (by simpa using hb)]
      simp only [List.map_cons, List.sum_cons]
      rw [ih, hω, mul_zero, zero_add]
      rw [sqrt_ssqd r hh, le_div_iff₀ hh]
      refine Real.le_sqrt_of_sq_le ?_
      rw [mul_pow, ← hsq]
      push Not at hb
      nlinarith

/-- the sum behind `invomega` is the derivative of the density with respect to `h` -/
theorem hasDerivAt_density {K : Kernel} (hO : K.OmegaOK n) (r : Vec n ℝ) {h : ℝ} (hh : 0 < h) : ∀ l : List (Ngb n),
    HasDerivAt (density K r l) (omegaSum K r l h) h := by
  intro l
  induction l with
  | nil =>
    have : density K r ([] : List (Ngb n)) = fun _ => 0 := by funext x; simp [density]
    rw [this]
    simpa [omegaSum] using hasDerivAt_const h (0 : ℝ)
  | cons b l ih =>
    have h1 := (hO.omega (√(drsqd r b)) (Real.sqrt_nonneg _) h hh).const_mul b.m
    have h2 := h1.add ih
    have h3 : omegaSum K r (b :: l) h = b.m * ((1 / h) ^ (n + 1) * K.womega (√(drsqd r b) / h)) + omegaSum K r l h := by
      unfold omegaSum
      simp only [List.map_cons, List.sum_cons]
      rw [sqrt_ssqd r hh]
      ring
    rw [h3]
    refine h2.congr_of_eventuallyEq ?_
    filter_upwards [lt_mem_nhds hh] with x hx
    simp only [Pi.add_apply]
    unfold density
    simp only [List.map_cons, List.sum_cons]
    rw [sqrt_ssqd r hx]
    ring

/-- `h_rho_deriv` is the derivative of `h_rho_func` -/
theorem hasDerivAt_hRho (hn : 1 ≤ n) {hfac m rho : ℝ} (h2 : 0 < m) (h3 : 0 < rho) :
    HasDerivAt (hRho n hfac m) (hRhoDeriv n (hRho n hfac m rho) rho) rho := by
  have hq : 0 < m / rho := div_pos h2 h3
  have hd : HasDerivAt (fun x => m / x) (-m / rho ^ 2) rho := by
    have := (hasDerivAt_inv h3.ne').const_mul m
    refine (this.congr_deriv (by ring)).congr_of_eventuallyEq ?_
    exact Filter.Eventually.of_forall fun x => by simp [div_eq_mul_inv]
  have h := (hd.rpow_const (p := 1 / (n : ℝ)) (Or.inl hq.ne')).const_mul hfac
  refine (h.congr_deriv ?_)
  unfold hRhoDeriv hRho
  have e : (m / rho) ^ (1 / (n : ℝ)) = (m / rho) ^ (1 / (n : ℝ) - 1) * (m / rho) := by
    rw [← Real.rpow_add_one hq.ne']; ring_nf
  rw [e]
  field_simp

/-- `invomega` is one over the derivative of the equation solved -/
theorem hasDerivAt_residual (hn : 1 ≤ n) {K : Kernel} (hO : K.OmegaOK n) {hfac m : ℝ} (r : Vec n ℝ) (l : List (Ngb n))
    (hm : 0 < m) {h : ℝ} (hh : 0 < h) (hrho : 0 < density K r l h) :
    HasDerivAt (fun x => x - hRho n hfac m (density K r l x))
      (1 - hRhoDeriv n (hRho n hfac m (density K r l h)) (density K r l h) * omegaSum K r l h) h :=
  (hasDerivAt_id h).sub ((hasDerivAt_hRho hn hm hrho).comp h (hasDerivAt_density hO r hh l))

end

/-! ## Caller -/

theorem cellPass_spec {α : Type*} [LinearOrder α] {compute : ℕ → Option (Out α)} : ∀ (active : List ℕ) (outs : List (Out α)),
    cellPass compute active = some (some outs) →
    List.Forall₂ (fun i o => compute i = some o ∧ o.flag ≠ 0) active outs := by
  intro active
  induction active with
  | nil => intro outs h; simp [cellPass] at h; subst h; exact .nil
  | cons i l ih =>
    intro outs h
    unfold cellPass at h
    cases hc : compute i with
    | none => rw [hc] at h; simp at h
    | some o =>
      rw [hc] at h
      simp only [] at h
      by_cases h0 : o.flag = 0
      · rw [if_pos h0] at h; simp at h
      · rw [if_neg h0] at h
        obtain ⟨q, hq, e⟩ := Option.map_eq_some_iff.mp h
        obtain ⟨os, rfl, rfl⟩ := Option.map_eq_some_iff.mp e
        exact .cons ⟨hc, h0⟩ (ih os hq)

theorem cellLoop_spec {α : Type*} [LinearOrder α] [Mul α] {grow : α} {compute : α → ℕ → Option (Out α)} {active : List ℕ} :
    ∀ (f : ℕ) (hmax : α) (outs : List (Out α)), cellLoop grow compute active f hmax = some outs →
    ∃ k, 1 ≤ k ∧ List.Forall₂ (fun i o => compute ((fun x => grow * x)^[k] hmax) i = some o ∧ o.flag ≠ 0) active outs := by
  intro f
  induction f with
  | zero => intro _ _ h; simp [cellLoop] at h
  | succ f ih =>
    intro hmax outs h
    unfold cellLoop at h
    cases hc : cellPass (compute (grow * hmax)) active with
    | none => rw [hc] at h; simp at h
    | some q =>
      rw [hc] at h
      cases q with
      | none =>
        obtain ⟨k, hk, e1⟩ := ih _ _ h
        exact ⟨k + 1, by omega, by simpa only [Function.iterate_succ_apply] using e1⟩
      | some os =>
        obtain rfl := Option.some.inj h
        exact ⟨1, le_rfl, cellPass_spec _ _ hc⟩

end Gandalf.Smoothing
