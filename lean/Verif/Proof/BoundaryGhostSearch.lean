import Verif.Proof.BoundaryGhosts
import Mathlib.Data.List.Flatten

set_option autoImplicit false
set_option linter.unusedSectionVars false

namespace Gandalf

variable {n : ℕ} {α τ τ' : Type*} [Field α] [LinearOrder α]

/-- labels of the ghosts created from a particle with label `x` -/
def newLabs (d : Domain n α) (grange tghost : α) (p0 : ℕ → GPart n α τ τ') (j : Fin n) (x : Lab n) :
    List (Lab n) :=
  (ghostSides d grange tghost j (p0 x.1)).map fun sd => (x.1, Function.update x.2 j (some sd))

theorem checkFold_inv (hn : n ≤ 3) {d : Domain n α} {p0 : ℕ → GPart n α τ τ'} {N : ℕ} {j : Fin n}
    (grange tghost : α) : ∀ (is : List ℕ) (xs : List (Lab n)) (s : HState n α τ τ')
    (L : List (Lab n)), GhostInv d p0 N s L →
    List.Forall₂ (fun i x => labOf N L i = some x) is xs → (∀ x ∈ xs, ∀ j', j ≤ j' → x.2 j' = none) →
    GhostInv d p0 N (is.foldl (HState.checkGhost d grange tghost j) s)
      (L ++ xs.flatMap (newLabs d grange tghost p0 j))
  | [], _, s, L, h, hf, _ => by cases hf; simpa using h
  | i :: is, _, s, L, h, hf, hj => by
    cases hf with
    | cons h1 h2 =>
      rename_i x xs
      have := checkGhost_inv hn h h1 (hj x List.mem_cons_self) grange tghost
      have h2' : List.Forall₂ (fun i y => labOf N (L ++ newLabs d grange tghost p0 j x) i = some y)
          is xs := h2.imp fun _ _ hx => labOf_append _ hx
      have := checkFold_inv hn grange tghost is xs _ _ this h2'
        fun y hy => hj y (List.mem_cons_of_mem _ hy)
      rw [List.flatMap_cons, ← List.append_assoc]
      exact this

/-- list of labels after one dimension, `vis` = real particles visited by the tree -/
def labStep (d : Domain n α) (grange tghost : α) (p0 : ℕ → GPart n α τ τ') (vis : Fin n → List ℕ)
    (L : List (Lab n)) (j : Fin n) : List (Lab n) :=
  L ++ ((vis j).map fun o => ((o, fun _ => none) : Lab n)).flatMap (newLabs d grange tghost p0 j) ++
    L.flatMap (newLabs d grange tghost p0 j)

/-- `gen` applies the check to the real particles `vis j` in that order -/
def GenVisits (d : Domain n α) (grange tghost : α) (N : ℕ) (vis : Fin n → List ℕ)
    (gen : Fin n → HState n α τ τ' → Option (HState n α τ τ')) (p0 : ℕ → GPart n α τ τ') : Prop :=
  ∀ j s, s.Nhydro = N → (∀ i, i < N → s.part i = p0 i) →
    gen j s = some ((vis j).foldl (HState.checkGhost d grange tghost j) s)

theorem createGhost_Ntot (s : HState n α τ τ') (i : ℕ) (k : Fin n) (f : BitVec 32) (x y : α) :
    (s.createGhost i k f x y).Ntot = s.Ntot := rfl

theorem checkGhost_Ntot (d : Domain n α) (grange tghost : α) (j : Fin n) (s : HState n α τ τ')
    (i : ℕ) : (s.checkGhost d grange tghost j i).Ntot = s.Ntot := by
  have key : ∀ (c c1 c2 : Prop) [Decidable c] [Decidable c1] [Decidable c2] (s : HState n α τ τ')
      (f1 f2 : BitVec 32) (a1 a2 b1 b2 : α),
      (if c then
        let s := if c1 then s.createGhost i j f1 a1 b1 else s
        if c2 then s.createGhost i j f2 a2 b2 else s
      else s).Ntot = s.Ntot := by
    intro c c1 c2 _ _ _ s f1 f2 a1 a2 b1 b2
    by_cases hc : c <;> by_cases h1 : c1 <;> by_cases h2 : c2 <;>
      simp [hc, h1, h2, createGhost_Ntot]
  simp only [HState.checkGhost]
  rw [key, key]

theorem checkFold_Ntot (d : Domain n α) (grange tghost : α) (j : Fin n) : ∀ (is : List ℕ)
    (s : HState n α τ τ'), (is.foldl (HState.checkGhost d grange tghost j) s).Ntot = s.Ntot
  | [], _ => rfl
  | i :: is, s => by rw [List.foldl_cons, checkFold_Ntot d grange tghost j is, checkGhost_Ntot]

theorem forall2_range' (N : ℕ) (L M : List (Lab n)) (h : M <+: L) :
    List.Forall₂ (fun i x => labOf N L i = some x) (List.range' N M.length) M := by
  rw [List.forall₂_iff_get]
  refine ⟨by simp, fun i h1 h2 => ?_⟩
  simp only [List.get_eq_getElem, List.getElem_range', labOf]
  rw [if_neg (by omega)]
  have e : N + 1 * i - N = i := by omega
  rw [e]
  obtain ⟨t, rfl⟩ := h
  rw [List.getElem?_append_left h2, List.getElem?_eq_getElem h2]

theorem searchDim_inv (hn : n ≤ 3) {d : Domain n α} {p0 : ℕ → GPart n α τ τ'} {N : ℕ}
    {grange tghost : α} {vis : Fin n → List ℕ}
    {gen : Fin n → HState n α τ τ' → Option (HState n α τ τ')}
    (hgen : GenVisits d grange tghost N vis gen p0) (hvis : ∀ j, ∀ o ∈ vis j, o < N)
    {s : HState n α τ τ'} {L : List (Lab n)} (h : GhostInv d p0 N s L)
    (hN : s.Ntot = N + L.length) {j : Fin n} (hL : ∀ x ∈ L, ∀ j', j ≤ j' → x.2 j' = none)
    (hL0 : j.val = 0 → L = []) :
    ∃ s', HState.searchDim d grange tghost gen (some s) j = some s' ∧
      GhostInv d p0 N s' (labStep d grange tghost p0 vis L j) ∧
      s'.Ntot = N + (labStep d grange tghost p0 vis L j).length := by
  by_cases ho : d.lhs j ≠ .open_ ∨ d.rhs j ≠ .open_
  · have h1 := checkFold_inv (j := j) hn grange tghost (vis j) ((vis j).map fun o => ((o, fun _ => none) : Lab n))
      s L h (by
        rw [List.forall₂_map_right_iff, List.forall₂_same]
        intro o ho
        simp only [labOf, if_pos (hvis j o ho)])
      (fun x hx j' _ => by
        obtain ⟨o, _, rfl⟩ := List.mem_map.mp hx; rfl)
    set s1 := (vis j).foldl (HState.checkGhost d grange tghost j) s
    have hT1 : s1.Ntot = N + L.length := by rw [checkFold_Ntot, hN]
    have hg := hgen j s h.nh h.real
    simp only [HState.searchDim, Option.bind_some, if_pos ho, hg, Option.map_some]
    have hlen : s1.Ntot - s1.Nhydro = L.length := by rw [hT1, h1.nh]; omega
    have h2 := checkFold_inv hn grange tghost (List.range' N L.length) L s1 _ h1
      (forall2_range' N _ L (List.prefix_append _ _)) hL
    by_cases hj0 : 0 < j.val
    · rw [if_pos hj0, hlen, h1.nh]
      refine ⟨_, rfl, ⟨h2.nh, h2.ng, h2.real, h2.img, h2.chain⟩, ?_⟩
      simp only [labStep]
      rw [h2.nh, h2.ng]
    · rw [if_neg hj0]
      have hLn := hL0 (by omega)
      subst hLn
      simp only [labStep, List.flatMap_nil, List.append_nil]
      refine ⟨_, rfl, ⟨h1.nh, h1.ng, h1.real, h1.img, h1.chain⟩, ?_⟩
      simp only
      rw [h1.nh, h1.ng]
  · have e : ∀ x : Lab n, newLabs d grange tghost p0 j x = [] := by
      intro x; simp [newLabs, ghostSides_open grange tghost (p0 x.1) ho]
    have e' : labStep d grange tghost p0 vis L j = L := by
      simp [labStep, e]
    refine ⟨s, by simp only [HState.searchDim, Option.bind_some, if_neg ho], ?_, ?_⟩ <;> rw [e']
    · exact h
    · exact hN

/-- content of the label list after the dimensions `D` -/
structure LabSpec (d : Domain n α) (grange tghost : α) (p0 : ℕ → GPart n α τ τ')
    (vis : Fin n → List ℕ) (D : List (Fin n)) (L : List (Lab n)) : Prop where
  nodup : L.Nodup
  mem : ∀ o σ, (o, σ) ∈ L ↔ (∀ k, σ k ≠ none → k ∈ D) ∧
    (∀ k s, σ k = some s → s ∈ ghostSides d grange tghost k (p0 o)) ∧
    ∃ k, σ k ≠ none ∧ (∀ k', k' < k → σ k' = none) ∧ o ∈ vis k

theorem mem_newLabs (d : Domain n α) (grange tghost : α) (p0 : ℕ → GPart n α τ τ') (j : Fin n)
    (x : Lab n) (o : ℕ) (σ : Fin n → Option Side) :
    (o, σ) ∈ newLabs d grange tghost p0 j x ↔ o = x.1 ∧ ∃ sd ∈ ghostSides d grange tghost j (p0 o),
      σ = Function.update x.2 j (some sd) := by
  simp only [newLabs, List.mem_map, Prod.mk.injEq]
  constructor
  · rintro ⟨sd, h1, rfl, rfl⟩; exact ⟨rfl, sd, h1, rfl⟩
  · rintro ⟨rfl, sd, h1, rfl⟩; exact ⟨sd, h1, rfl, rfl⟩

theorem newLabs_nodup (d : Domain n α) (grange tghost : α) (p0 : ℕ → GPart n α τ τ') (j : Fin n)
    (x : Lab n) : (newLabs d grange tghost p0 j x).Nodup := by
  refine (ghostSides_nodup d grange tghost j (p0 x.1)).map ?_
  intro a b hab
  have := congrFun (congrArg Prod.snd hab) j
  simpa using this

theorem newLabs_disjoint (d : Domain n α) (grange tghost : α) (p0 : ℕ → GPart n α τ τ') {j : Fin n}
    {x y : Lab n} (hx : x.2 j = none) (hy : y.2 j = none) (h : x ≠ y) :
    (newLabs d grange tghost p0 j x).Disjoint (newLabs d grange tghost p0 j y) := by
  rintro ⟨o, σ⟩ h1 h2
  rw [mem_newLabs] at h1 h2
  obtain ⟨a1, s1, -, b1⟩ := h1
  obtain ⟨a2, s2, -, b2⟩ := h2
  apply h
  refine Prod.ext (a1.symm.trans a2) ?_
  rw [← update_update_none hx (some s1), ← b1, b2, update_update_none hy]

theorem flatMap_newLabs_nodup (d : Domain n α) (grange tghost : α) (p0 : ℕ → GPart n α τ τ')
    {j : Fin n} {L : List (Lab n)} (hL : L.Nodup) (hj : ∀ x ∈ L, x.2 j = none) :
    (L.flatMap (newLabs d grange tghost p0 j)).Nodup := by
  rw [List.nodup_flatMap]
  refine ⟨fun x _ => newLabs_nodup d grange tghost p0 j x, ?_⟩
  refine List.Pairwise.imp_of_mem ?_ hL
  intro a b ha hb hab
  exact newLabs_disjoint d grange tghost p0 (hj a ha) (hj b hb) hab

theorem labStep_spec {d : Domain n α} {grange tghost : α} {p0 : ℕ → GPart n α τ τ'}
    {vis : Fin n → List ℕ} {D : List (Fin n)} {L : List (Lab n)}
    (h : LabSpec d grange tghost p0 vis D L) {j : Fin n} (hD : ∀ k ∈ D, k < j)
    (hv : (vis j).Nodup) :
    LabSpec d grange tghost p0 vis (D ++ [j]) (labStep d grange tghost p0 vis L j) := by
  have hLj : ∀ x ∈ L, x.2 j = none := by
    rintro ⟨o, σ⟩ hx
    by_contra hc
    exact lt_irrefl _ (hD j (((h.mem o σ).mp hx).1 j hc))
  have hVn : ((vis j).map fun o => ((o, fun _ => none) : Lab n)).Nodup :=
    hv.map fun a b hab => congrArg Prod.fst hab
  have hVj : ∀ x ∈ (vis j).map fun o => ((o, fun _ => none) : Lab n), x.2 j = none := by
    intro x hx; obtain ⟨o, -, rfl⟩ := List.mem_map.mp hx; rfl
  constructor
  · unfold labStep
    rw [List.append_assoc, List.nodup_append]
    refine ⟨h.nodup, ?_, ?_⟩
    · rw [List.nodup_append]
      refine ⟨flatMap_newLabs_nodup d grange tghost p0 hVn hVj,
        flatMap_newLabs_nodup d grange tghost p0 h.nodup hLj, ?_⟩
      rintro ⟨o, σ⟩ h1 ⟨o', σ'⟩ h2 hab
      obtain ⟨rfl, rfl⟩ := Prod.mk.inj hab
      obtain ⟨x, hx, hxm⟩ := List.mem_flatMap.mp h1
      obtain ⟨y, hy, hym⟩ := List.mem_flatMap.mp h2
      have : x ≠ y := by
        rintro rfl
        obtain ⟨o', -, rfl⟩ := List.mem_map.mp hx
        obtain ⟨-, -, k, hk, -⟩ := (h.mem _ _).mp hy
        exact hk rfl
      exact newLabs_disjoint d grange tghost p0 (hVj x hx) (hLj y hy) this hxm hym
    · rintro ⟨o, σ⟩ h1 ⟨o', σ'⟩ h2 hab
      obtain ⟨rfl, rfl⟩ := Prod.mk.inj hab
      have hn := hLj _ h1
      rcases List.mem_append.mp h2 with h2 | h2
      all_goals
        obtain ⟨x, hx, hxm⟩ := List.mem_flatMap.mp h2
        obtain ⟨-, sd, -, rfl⟩ := (mem_newLabs _ _ _ _ _ _ _ _).mp hxm
        simp at hn
  · intro o σ
    unfold labStep
    rw [List.mem_append, List.mem_append]
    constructor
    · rintro ((h1 | h1) | h1)
      · obtain ⟨a, b, c⟩ := (h.mem o σ).mp h1
        exact ⟨fun k hk => List.mem_append_left _ (a k hk), b, c⟩
      · obtain ⟨x, hx, hxm⟩ := List.mem_flatMap.mp h1
        obtain ⟨o', ho', rfl⟩ := List.mem_map.mp hx
        obtain ⟨rfl, sd, hsd, rfl⟩ := (mem_newLabs _ _ _ _ _ _ _ _).mp hxm
        refine ⟨fun k hk => ?_, fun k s hk => ?_, j, by simp, fun k' hk' => ?_, ho'⟩
        · by_cases e : k = j
          · simp [e]
          · simp [Function.update_of_ne e] at hk
        · by_cases e : k = j
          · subst e; simp only [Function.update_self, Option.some.injEq] at hk; exact hk ▸ hsd
          · simp [Function.update_of_ne e] at hk
        · simp [Function.update_of_ne (ne_of_lt hk')]
      · obtain ⟨⟨o', σ'⟩, hx, hxm⟩ := List.mem_flatMap.mp h1
        obtain ⟨rfl, sd, hsd, rfl⟩ := (mem_newLabs _ _ _ _ _ _ _ _).mp hxm
        obtain ⟨a, b, k0, c1, c2, c3⟩ := (h.mem _ _).mp hx
        have hk0 : k0 < j := hD _ (a k0 c1)
        refine ⟨fun k hk => ?_, fun k s hk => ?_, k0, ?_, fun k' hk' => ?_, c3⟩
        · by_cases e : k = j
          · simp [e]
          · rw [Function.update_of_ne e] at hk; exact List.mem_append_left _ (a k hk)
        · by_cases e : k = j
          · subst e; simp only [Function.update_self, Option.some.injEq] at hk; exact hk ▸ hsd
          · rw [Function.update_of_ne e] at hk; exact b k s hk
        · rw [Function.update_of_ne (ne_of_lt hk0)]; exact c1
        · rw [Function.update_of_ne (ne_of_lt (hk'.trans hk0))]; exact c2 k' hk'
    · rintro ⟨a, b, k0, c1, c2, c3⟩
      cases hσ : σ j with
      | none =>
        refine Or.inl (Or.inl ((h.mem o σ).mpr ⟨fun k hk => ?_, b, k0, c1, c2, c3⟩))
        rcases List.mem_append.mp (a k hk) with h' | h'
        · exact h'
        · obtain rfl := List.mem_singleton.mp h'; exact absurd hσ hk
      | some sd =>
        have hsd := b j sd hσ
        have eσ : σ = Function.update (Function.update σ j none) j (some sd) := by
          funext k
          by_cases e : k = j
          · subst e; simp [hσ]
          · simp [Function.update_of_ne e]
        by_cases hk0 : k0 = j
        · subst hk0
          refine Or.inl (Or.inr (List.mem_flatMap.mpr ⟨(o, fun _ => none),
            List.mem_map.mpr ⟨o, c3, rfl⟩, (mem_newLabs _ _ _ _ _ _ _ _).mpr ⟨rfl, sd, hsd, ?_⟩⟩))
          funext k
          by_cases e : k = k0
          · subst e; simp [hσ]
          · rw [Function.update_of_ne e]
            by_contra hc
            rcases List.mem_append.mp (a k hc) with h' | h'
            · exact hc (c2 k (hD k h'))
            · exact e (List.mem_singleton.mp h')
        · refine Or.inr (List.mem_flatMap.mpr ⟨(o, Function.update σ j none), ?_,
            (mem_newLabs _ _ _ _ _ _ _ _).mpr ⟨rfl, sd, hsd, eσ⟩⟩)
          refine (h.mem _ _).mpr ⟨fun k hk => ?_, fun k s hk => ?_, k0, ?_, fun k' hk' => ?_, c3⟩
          · by_cases e : k = j
            · subst e; simp at hk
            · rw [Function.update_of_ne e] at hk
              rcases List.mem_append.mp (a k hk) with h' | h'
              · exact h'
              · exact absurd (List.mem_singleton.mp h') e
          · by_cases e : k = j
            · subst e; simp at hk
            · rw [Function.update_of_ne e] at hk; exact b k s hk
          · rw [Function.update_of_ne hk0]; exact c1
          · by_cases e : k' = j
            · subst e; simp
            · rw [Function.update_of_ne e]; exact c2 k' hk'

/-- all dimensions -/
theorem searchFold_inv (hn : n ≤ 3) {d : Domain n α} {p0 : ℕ → GPart n α τ τ'} {N : ℕ}
    {grange tghost : α} {vis : Fin n → List ℕ}
    {gen : Fin n → HState n α τ τ' → Option (HState n α τ τ')}
    (hgen : GenVisits d grange tghost N vis gen p0) (hvis : ∀ j, ∀ o ∈ vis j, o < N)
    (hvn : ∀ j, (vis j).Nodup) : ∀ (ks D : List (Fin n)) (s : HState n α τ τ') (L : List (Lab n)),
    GhostInv d p0 N s L → s.Ntot = N + L.length → LabSpec d grange tghost p0 vis D L →
    (D ++ ks).Pairwise (· < ·) →
    ∃ s' L', ks.foldl (HState.searchDim d grange tghost gen) (some s) = some s' ∧
      GhostInv d p0 N s' L' ∧ s'.Ntot = N + L'.length ∧ LabSpec d grange tghost p0 vis (D ++ ks) L'
  | [], D, s, L, h, hN, hL, _ => ⟨s, L, rfl, h, hN, by rwa [List.append_nil]⟩
  | j :: ks, D, s, L, h, hN, hL, hp => by
    have hD : ∀ k ∈ D, k < j := fun k hk =>
      (List.pairwise_append.mp hp).2.2 k hk j List.mem_cons_self
    have hnone : ∀ x ∈ L, ∀ j', j ≤ j' → x.2 j' = none := by
      rintro ⟨o, σ⟩ hx j' hj'
      by_contra hc
      exact absurd (hD j' (((hL.mem o σ).mp hx).1 j' hc)) (not_lt.mpr hj')
    have h0 : j.val = 0 → L = [] := by
      intro hj
      rw [List.eq_nil_iff_forall_not_mem]
      rintro ⟨o, σ⟩ hx
      obtain ⟨a, -, k, hk, -⟩ := (hL.mem o σ).mp hx
      have := hD k (a k hk)
      rw [Fin.lt_def] at this; omega
    obtain ⟨s', e1, h1, h2⟩ := searchDim_inv hn hgen hvis h hN hnone h0
    have h3 := labStep_spec hL hD (hvn j)
    have hp' : ((D ++ [j]) ++ ks).Pairwise (· < ·) := by simpa using hp
    obtain ⟨s2, L2, a1, a2, a3, a4⟩ := searchFold_inv hn hgen hvis hvn ks (D ++ [j]) s' _ h1 h2 h3 hp'
    refine ⟨s2, L2, by rw [List.foldl_cons, e1, a1], a2, a3, by simpa using a4⟩

/-- The whole search. -/
theorem search_inv (hn : n ≤ 3) {d : Domain n α} {p0 : ℕ → GPart n α τ τ'} {N : ℕ}
    {grange tghost : α} {vis : Fin n → List ℕ}
    {gen : Fin n → HState n α τ τ' → Option (HState n α τ τ')}
    (hgen : GenVisits d grange tghost N vis gen p0) (hvis : ∀ j, ∀ o ∈ vis j, o < N)
    (hvn : ∀ j, (vis j).Nodup) (s : HState n α τ τ') (hN : s.Nhydro = N)
    (hp : ∀ i, i < N → s.part i = p0 i) (hreal : ∀ i, i < N → (p0 i).IsReal) :
    ∃ s' L, s.search d grange tghost gen = some s' ∧ GhostInv d p0 N s' L ∧
      s'.Ntot = N + L.length ∧ s'.NPeriodicGhost = L.length ∧
      L.Nodup ∧ ∀ o σ, (o, σ) ∈ L ↔
        (∀ k t, σ k = some t → t ∈ ghostSides d grange tghost k (p0 o)) ∧
        ∃ k, σ k ≠ none ∧ (∀ k', k' < k → σ k' = none) ∧ o ∈ vis k := by
  set s0 : HState n α τ τ' := { s with
    Nghost := 0
    NPeriodicGhost := 0
    Ntot := s.Nhydro } with hs0
  have hinv : GhostInv d p0 N s0 [] := by
    refine ⟨hN, rfl, hp, ?_, ?_⟩
    · intro i x hx
      unfold labOf at hx
      split_ifs at hx with hi
      · obtain rfl := Option.some.inj hx
        refine ⟨hi, ?_⟩
        rw [show s0.part i = p0 i from hp i hi]
        exact isBndImage_refl d _ (hreal i hi)
      · simp at hx
    · intro i x hx; simp at hx
  by_cases hop : ∀ k, d.lhs k = .open_ ∧ d.rhs k = .open_
  · refine ⟨s0, [], by simp [HState.search, hop, hs0], hinv, by simp [hs0, hN], rfl, List.nodup_nil, ?_⟩
    intro o σ
    simp only [List.not_mem_nil, false_iff]
    rintro ⟨a, k, b, -⟩
    cases hk : σ k with
    | none => exact b hk
    | some t =>
      have := a k t hk
      rw [ghostSides_open grange tghost _ (by simp [hop k])] at this
      cases this
  · have hspec : LabSpec d grange tghost p0 vis [] ([] : List (Lab n)) := by
      refine ⟨List.nodup_nil, fun o σ => ?_⟩
      simp only [List.not_mem_nil, false_iff]
      rintro ⟨a, -, k, hk, -⟩
      exact a k hk
    obtain ⟨s', L, a1, a2, a3, a4⟩ := searchFold_inv hn hgen hvis hvn (List.finRange n) [] s0 []
      hinv (by simp [hs0, hN]) hspec (by simpa using List.pairwise_lt_finRange n)
    refine ⟨{ s' with NPeriodicGhost := s'.Nghost }, L, ?_,
      ⟨a2.nh, a2.ng, a2.real, a2.img, a2.chain⟩, a3, a2.ng, a4.nodup, ?_⟩
    · simp only [HState.search, if_neg hop]
      rw [← hs0, a1]; rfl
    · intro o σ
      rw [a4.mem]
      simp

end Gandalf
