import Verif.Proof.BoundaryGhostTree

set_option autoImplicit false
set_option linter.unusedSectionVars false

namespace Gandalf

variable {n : ℕ} {α τ τ' : Type*} [Field α] [LinearOrder α] [IsStrictOrderedRing α]

/-- the test with the extremal displacement decides whether the side is reached -/
theorem reaches_iff {d : Domain n α} {tghost x : α} (ht : 0 ≤ tghost) (p : GPart n α τ τ')
    (k : Fin n) (s : Side) : d.Reaches tghost x p k s ↔
      if s = 0 then p.r k + min 0 (p.v k * tghost) < d.min k + x
      else p.r k + max 0 (p.v k * tghost) > d.max k - x := by
  unfold Domain.Reaches
  by_cases hs : s = 0
  · simp only [hs, if_true]
    constructor
    · rintro ⟨t, h0, h1, h2⟩
      refine lt_of_le_of_lt ?_ h2
      rcases le_or_gt 0 (p.v k) with hv | hv
      · have : 0 ≤ p.v k * t := mul_nonneg hv h0
        have := min_le_left 0 (p.v k * tghost)
        linarith
      · have : p.v k * tghost ≤ p.v k * t := mul_le_mul_of_nonpos_left h1 hv.le
        have := min_le_right 0 (p.v k * tghost)
        linarith
    · intro h
      rcases le_or_gt 0 (p.v k * tghost) with hv | hv
      · rw [min_eq_left hv] at h
        exact ⟨0, le_rfl, ht, by simpa using h⟩
      · rw [min_eq_right hv.le] at h
        exact ⟨tghost, ht, le_rfl, h⟩
  · simp only [hs, if_false]
    constructor
    · rintro ⟨t, h0, h1, h2⟩
      refine lt_of_lt_of_le h2 ?_
      rcases le_or_gt 0 (p.v k) with hv | hv
      · have : p.v k * t ≤ p.v k * tghost := mul_le_mul_of_nonneg_left h1 hv
        have := le_max_right 0 (p.v k * tghost)
        linarith
      · have : p.v k * t ≤ 0 := mul_nonpos_of_nonpos_of_nonneg hv.le h0
        have := le_max_left 0 (p.v k * tghost)
        linarith
    · intro h
      rcases le_or_gt 0 (p.v k * tghost) with hv | hv
      · rw [max_eq_right hv] at h
        exact ⟨tghost, ht, le_rfl, h⟩
      · rw [max_eq_left hv.le] at h
        exact ⟨0, le_rfl, ht, by simpa using h⟩

theorem mem_ghostSides {d : Domain n α} {grange tghost : α} (ht : 0 ≤ tghost) (p : GPart n α τ τ')
    (k : Fin n) (s : Side) : s ∈ ghostSides d grange tghost k p ↔
      d.Imaging k s ∧ d.Reaches tghost (grange * p.h) p k s := by
  rw [reaches_iff ht]
  have h01 : s = 0 ∨ s = 1 := by fin_cases s <;> simp
  have key : ∀ (A B : Prop) [Decidable A] [Decidable B],
      (s ∈ (if A then [0] else []) ++ (if B then [(1 : Side)] else []) ↔
        (s = 0 ∧ A) ∨ (s = 1 ∧ B)) := by
    intro A B _ _
    by_cases hA : A <;> by_cases hB : B <;> simp [hA, hB]
  unfold ghostSides
  rw [key]
  rcases h01 with rfl | rfl
  · simp [and_comm]
  · simp [and_comm]

end Gandalf

namespace Gandalf
variable {n : ℕ} {τ τ' : Type*}

/-- The situation in which `SearchBoundaryGhostParticles` is called: the tree is correctly built and
stocked over the `Nhydro` real particles of the array. -/
structure GhostSetup (T : Tree n) (cfg : KD.Cfg) (P : KD.Parts n) (pfuel fuel : ℕ) (f : Forest)
    (l : List ℕ) (s : HState n ℝ τ τ') : Prop where
  dim : n ≤ 3
  ok : T.OK cfg P pfuel f l
  fuel : f.cells.length ≤ fuel
  mem : ∀ i, i ∈ l ↔ i < s.Nhydro
  data : ∀ i, i < s.Nhydro → P.r i = (s.part i).r ∧ P.v i = (s.part i).v ∧ P.h i = (s.part i).h
  real : ∀ i, i < s.Nhydro → (s.part i).IsReal

theorem tree_search {T : Tree n} {cfg : KD.Cfg} {P : KD.Parts n} {pfuel fuel : ℕ} {f : Forest}
    {l : List ℕ} {s : HState n ℝ τ τ'} (h : GhostSetup T cfg P pfuel fuel f l s) (d : Domain n ℝ)
    {grange tghost : ℝ} (hg : 0 ≤ grange) (ht : 0 ≤ tghost) :
    ∃ s' L, ∃ vis : Fin n → List ℕ,
      s.search d grange tghost (T.generate d grange tghost pfuel fuel) = some s' ∧
      GhostInv d s.part s.Nhydro s' L ∧ s'.Ntot = s.Nhydro + L.length ∧
      s'.NPeriodicGhost = L.length ∧ L.Nodup ∧
      (∀ o σ, (o, σ) ∈ L ↔ (∀ k t, σ k = some t → d.Imaging k t ∧
          d.Reaches tghost (grange * (s.part o).h) (s.part o) k t) ∧
        ∃ k, σ k ≠ none ∧ (∀ k', k' < k → σ k' = none) ∧ o ∈ vis k) ∧
      (∀ k, ∀ o ∈ vis k, o < s.Nhydro) ∧
      ∀ k o t, o < s.Nhydro → d.Reaches 0 (grange * (s.part o).h) (s.part o) k t → o ∈ vis k := by
  classical
  have key : ∀ j, ∃ vis : List ℕ, vis.Sublist l ∧
      (∀ o t, o < s.Nhydro → d.Reaches 0 (grange * (s.part o).h) (s.part o) j t → o ∈ vis) ∧
      ∀ s : HState n ℝ τ τ', T.generate d grange tghost pfuel fuel j s =
        some (vis.foldl (HState.checkGhost d grange tghost j) s) := by
    intro j
    set need : ℕ → Bool := fun o => decide (P.r o j < d.min j + grange * P.h o ∨
      d.max j - grange * P.h o < P.r o j) with hneed
    obtain ⟨vis, v1, v2, v3⟩ := generate_visits (τ := τ) (τ' := τ') h.ok h.fuel d grange tghost j need (by
      intro c l' hS hn
      rw [List.filter_eq_nil_iff]
      intro i hi hni
      simp only [hneed, decide_eq_true_eq] at hni
      simp only [ghostNear, decide_eq_false_iff_not] at hn
      apply hn
      have b1 := (hS.bb i hi j).1
      have b2 := (hS.bb i hi j).2
      have b3 := mul_le_mul_of_nonneg_left (hS.hmax i hi) hg
      have b4 := min_le_left 0 ((T.cell c).v j * tghost)
      have b5 := le_max_left 0 ((T.cell c).v j * tghost)
      rcases hni with h1 | h1
      · left; linarith
      · right; linarith)
    refine ⟨vis, v1, fun o t ho hr => ?_, v3⟩
    have hol : o ∈ l := (h.mem o).mpr ho
    obtain ⟨e1, -, e3⟩ := h.data o ho
    have hn : need o = true := by
      rw [reaches_iff le_rfl] at hr
      simp only [mul_zero, min_self, max_self, add_zero] at hr
      simp only [hneed, decide_eq_true_eq, e1, e3]
      split_ifs at hr
      · exact Or.inl hr
      · exact Or.inr hr
    have : o ∈ vis.filter need := by rw [v2]; exact List.mem_filter.mpr ⟨hol, hn⟩
    exact (List.mem_filter.mp this).1
  choose vis v1 v2 v3 using key
  obtain ⟨s', L, a1, a2, a3, a4, a5, a6⟩ := search_inv h.dim (d := d) (p0 := s.part) (N := s.Nhydro)
    (grange := grange) (tghost := tghost) (vis := vis)
    (gen := T.generate d grange tghost pfuel fuel) (fun j s _ _ => v3 j s)
    (fun j o ho => (h.mem o).mp ((v1 j).subset ho)) (fun j => h.ok.nodup.sublist (v1 j)) s rfl
    (fun _ _ => rfl) h.real
  refine ⟨s', L, vis, a1, a2, a3, a4, a5, fun o σ => ?_,
    fun k o ho => (h.mem o).mp ((v1 k).subset ho), fun k o t => v2 k o t⟩
  rw [a6]
  refine and_congr_left fun _ => ?_
  exact forall_congr' fun k => forall_congr' fun t => imp_congr_right fun _ => mem_ghostSides ht _ k t

end Gandalf
