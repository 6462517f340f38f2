import Verif.Prop.C53

/-!
# C54 – the neighbour levels recorded by the force loops
-/

set_option autoImplicit false
set_option linter.unusedSectionVars false

namespace Gandalf

open Sph

variable {n N : ℕ}

namespace Sph

theorem foldl_update_spec (L : ℕ) (l : Neibs n N) : ∀ (lev : Fin N → ℕ) (j : Fin N),
    l.foldl (fun lev x => Function.update lev x.1 (max (lev x.1) L)) lev j =
      if ∃ x ∈ l, x.1 = j then max (lev j) L else lev j := by
  induction l with
  | nil => intro lev j; simp
  | cons y l ih =>
    intro lev j
    rw [List.foldl_cons, ih]
    by_cases hj : y.1 = j
    · subst hj
      simp only [Function.update_self, List.mem_cons, exists_eq_or_imp, true_or, if_true]
      split_ifs <;> omega
    · rw [Function.update_of_ne (fun h => hj h.symm)]
      have : (∃ x ∈ y :: l, x.1 = j) ↔ ∃ x ∈ l, x.1 = j := by simp [hj]
      simp only [this]

theorem foldl_max_spec (sys : Fin N → Part n) (l : Neibs n N) : ∀ (a : ℕ),
    a ≤ l.foldl (fun l x => max l (sys x.1).level) a ∧
    (∀ x ∈ l, (sys x.1).level ≤ l.foldl (fun l x => max l (sys x.1).level) a) ∧
    ∀ b, a ≤ b → (∀ x ∈ l, (sys x.1).level ≤ b) → l.foldl (fun l x => max l (sys x.1).level) a ≤ b := by
  induction l with
  | nil => intro a; simp
  | cons y l ih =>
    intro a
    obtain ⟨h1, h2, h3⟩ := ih (max a (sys y.1).level)
    refine ⟨le_trans (le_max_left _ _) h1, ?_, ?_⟩
    · intro x hx
      rcases List.mem_cons.mp hx with rfl | hx
      · exact le_trans (le_max_right _ _) h1
      · exact h2 x hx
    · intro b hab hb
      exact h3 b (max_le hab (hb y (by simp))) fun x hx => hb x (by simp [hx])

/-- particle `j` and the active particle `i` are neighbours in the list of one of the two -/
def Related (nb : Fin N → Neibs n N) (i j : Fin N) : Prop := ∃ x ∈ nb i, x.1 = j

theorem levelActive_le (sys : Fin N → Part n) (nb : Fin N → Neibs n N) (lev : Fin N → ℕ) (i j : Fin N) :
    lev j ≤ levelActive sys nb lev i j := by
  have key : ∀ j, lev j ≤ (nb i).foldl (fun lev x => Function.update lev x.1 (max (lev x.1) (sys i).level)) lev j := by
    intro j
    rw [foldl_update_spec]
    split_ifs <;> omega
  unfold levelActive
  by_cases h : j = i
  · subst h
    simp only [Function.update_self]
    exact le_trans (key j) (le_max_left _ _)
  · simp only [Function.update_of_ne h]
    exact key j

theorem levelActive_own (sys : Fin N → Part n) (nb : Fin N → Neibs n N) (lev : Fin N → ℕ) (i : Fin N)
    (x : Fin N × Vec n ℝ) (hx : x ∈ nb i) : (sys x.1).level ≤ levelActive sys nb lev i i := by
  unfold levelActive
  simp only [Function.update_self]
  exact le_trans ((foldl_max_spec sys (nb i) 0).2.1 x hx) (le_max_right _ _)

theorem levelActive_neib (sys : Fin N → Part n) (nb : Fin N → Neibs n N) (lev : Fin N → ℕ) (i : Fin N)
    (x : Fin N × Vec n ℝ) (hx : x ∈ nb i) : (sys i).level ≤ levelActive sys nb lev i x.1 := by
  have key : (sys i).level ≤
      (nb i).foldl (fun lev x => Function.update lev x.1 (max (lev x.1) (sys i).level)) lev x.1 := by
    rw [foldl_update_spec, if_pos ⟨x, hx, rfl⟩]
    exact le_max_right _ _
  unfold levelActive
  by_cases h : x.1 = i
  · rw [h] at key ⊢
    simp only [Function.update_self]
    exact le_trans key (le_max_left _ _)
  · simp only [Function.update_of_ne h]
    exact key

theorem levelActive_upper (sys : Fin N → Part n) (nb : Fin N → Neibs n N) (lev : Fin N → ℕ) (i j : Fin N) (b : ℕ)
    (h0 : lev j ≤ b) (h1 : Related nb i j → (sys i).level ≤ b) (h2 : i = j → ∀ k, Related nb i k → (sys k).level ≤ b) :
    levelActive sys nb lev i j ≤ b := by
  have key : (nb i).foldl (fun lev x => Function.update lev x.1 (max (lev x.1) (sys i).level)) lev j ≤ b := by
    rw [foldl_update_spec]
    split_ifs with h
    · exact max_le h0 (h1 h)
    · exact h0
  unfold levelActive
  by_cases h : j = i
  · subst h
    simp only [Function.update_self]
    exact max_le key ((foldl_max_spec sys (nb j) 0).2.2 b (Nat.zero_le _) fun x hx => h2 rfl x.1 ⟨x, hx, rfl⟩)
  · simp only [Function.update_of_ne h]
    exact key

theorem levelFold_le (sys : Fin N → Part n) (nb : Fin N → Neibs n N) (acts : List (Fin N)) :
    ∀ (lev : Fin N → ℕ) (j : Fin N), lev j ≤ acts.foldl (levelActive sys nb) lev j := by
  induction acts with
  | nil => intro lev j; exact le_rfl
  | cons a acts ih => intro lev j; exact le_trans (levelActive_le sys nb lev a j) (ih _ j)

theorem levelFold_mem (sys : Fin N → Part n) (nb : Fin N → Neibs n N) (acts : List (Fin N)) {i : Fin N} (hi : i ∈ acts) :
    ∀ (lev : Fin N → ℕ), ∃ lev', ∀ j, levelActive sys nb lev' i j ≤ acts.foldl (levelActive sys nb) lev j := by
  induction acts with
  | nil => simp at hi
  | cons a acts ih =>
    intro lev
    rcases List.mem_cons.mp hi with rfl | h
    · exact ⟨lev, fun j => levelFold_le sys nb acts _ j⟩
    · exact ih h _

theorem levelFold_upper (sys : Fin N → Part n) (nb : Fin N → Neibs n N) (j : Fin N) (b : ℕ) (acts : List (Fin N))
    (h1 : ∀ i ∈ acts, Related nb i j → (sys i).level ≤ b)
    (h2 : j ∈ acts → ∀ k, Related nb j k → (sys k).level ≤ b) :
    ∀ (lev : Fin N → ℕ), lev j ≤ b → acts.foldl (levelActive sys nb) lev j ≤ b := by
  induction acts with
  | nil => intro lev h; exact h
  | cons a acts ih =>
    intro lev h
    refine ih (fun i hi => h1 i (by simp [hi])) (fun hj => h2 (by simp [hj])) _ ?_
    exact levelActive_upper sys nb lev a j b h (h1 a (by simp)) (fun e => by subst e; exact h2 (by simp))

theorem threads_le (sys : Fin N → Part n) (nb : Fin N → Neibs n N) (j : Fin N) (ts : List (List (Fin N))) :
    ∀ a : ℕ, a ≤ ts.foldl (fun l acts => max l (levelThread sys nb acts j)) a ∧
      ∀ t ∈ ts, levelThread sys nb t j ≤ ts.foldl (fun l acts => max l (levelThread sys nb acts j)) a := by
  induction ts with
  | nil => intro a; simp
  | cons t ts ih =>
    intro a
    obtain ⟨h1, h2⟩ := ih (max a (levelThread sys nb t j))
    refine ⟨le_trans (le_max_left _ _) h1, fun t' ht' => ?_⟩
    rcases List.mem_cons.mp ht' with rfl | h
    · exact le_trans (le_max_right _ _) h1
    · exact h2 t' h

theorem threads_upper (sys : Fin N → Part n) (nb : Fin N → Neibs n N) (j : Fin N) (b : ℕ) (ts : List (List (Fin N)))
    (h : ∀ t ∈ ts, levelThread sys nb t j ≤ b) :
    ∀ a : ℕ, a ≤ b → ts.foldl (fun l acts => max l (levelThread sys nb acts j)) a ≤ b := by
  induction ts with
  | nil => intro a h; exact h
  | cons t ts ih =>
    intro a ha
    exact ih (fun t' ht' => h t' (by simp [ht'])) _ (max_le ha (h t (by simp)))

end Sph

/-- After the hydro force loop, whichever thread dealt with the active particle `i`: `i` knows a level not below
that of each of its neighbours, and each neighbour, active or not, knows a level not below that of `i`. -/
theorem C54_levels_recorded (sys : Fin N → Part n) (nb : Fin N → Neibs n N) (old : Fin N → ℕ)
    (threads : List (List (Fin N))) {i : Fin N} {acts : List (Fin N)} (ht : acts ∈ threads) (hi : i ∈ acts)
    {x : Fin N × Vec n ℝ} (hx : x ∈ nb i) :
    (sys x.1).level ≤ levelLoop sys nb old threads i ∧ (sys i).level ≤ levelLoop sys nb old threads x.1 := by
  obtain ⟨lev', h⟩ := levelFold_mem sys nb acts hi fun _ => 0
  exact ⟨le_trans (levelActive_own sys nb lev' i x hx) (le_trans (h i) ((threads_le sys nb i threads _).2 acts ht)),
    le_trans (levelActive_neib sys nb lev' i x hx) (le_trans (h x.1) ((threads_le sys nb x.1 threads _).2 acts ht))⟩

/-- Nothing else is recorded: the result is bounded by the old value and the levels of the particles that have `j`
in their list, and, if `j` is active, of those in its own. -/
theorem C54_levels_least (sys : Fin N → Part n) (nb : Fin N → Neibs n N) (old : Fin N → ℕ)
    (threads : List (List (Fin N))) (j : Fin N) (b : ℕ) (h0 : old j ≤ b)
    (h1 : ∀ t ∈ threads, ∀ i ∈ t, (∃ x ∈ nb i, x.1 = j) → (sys i).level ≤ b)
    (h2 : (∃ t ∈ threads, j ∈ t) → ∀ x ∈ nb j, (sys x.1).level ≤ b) :
    levelLoop sys nb old threads j ≤ b := by
  refine threads_upper sys nb j b threads (fun t ht => ?_) _ h0
  refine levelFold_upper sys nb j b t (fun i hi => h1 t ht i hi) (fun hj k hk => ?_) _ (Nat.zero_le _)
  obtain ⟨x, hx, rfl⟩ := hk
  exact h2 ⟨t, ht, hj⟩ x hx

/-- The value does not depend on how the active particles are distributed over the threads and in which order they
are dealt with. -/
theorem C54_thread_independent (sys : Fin N → Part n) (nb : Fin N → Neibs n N) (old : Fin N → ℕ)
    (ts ts' : List (List (Fin N))) (h : ∀ i, (∃ t ∈ ts, i ∈ t) ↔ ∃ t ∈ ts', i ∈ t) (j : Fin N) :
    levelLoop sys nb old ts j = levelLoop sys nb old ts' j := by
  have key : ∀ us us' : List (List (Fin N)), (∀ i, (∃ t ∈ us, i ∈ t) ↔ ∃ t ∈ us', i ∈ t) →
      levelLoop sys nb old us j ≤ levelLoop sys nb old us' j := by
    intro us us' h
    refine C54_levels_least sys nb old us j _ ((threads_le sys nb j us' _).1) ?_ ?_
    · rintro t ht i hi ⟨x, hx, rfl⟩
      obtain ⟨t', ht', hi'⟩ := (h i).mp ⟨t, ht, hi⟩
      exact (C54_levels_recorded sys nb old us' ht' hi' hx).2
    · rintro hj x hx
      obtain ⟨t', ht', hi'⟩ := (h j).mp hj
      exact (C54_levels_recorded sys nb old us' ht' hi' hx).1
  exact le_antisymm (key _ _ h) (key _ _ fun i => (h i).symm)

/-- The force routine itself yields the own part of this. -/
theorem C54_hydro_levelneib (par : Par) (K : Kernel) (eosP : Fin N → ℝ) (nb : Fin N → Neibs n N)
    (sys : Fin N → Part n) (i : Fin N) :
    (∀ x ∈ nb i, (sys x.1).level ≤ (updateHydro par K eosP nb sys i).levelneib) ∧
    ∀ b, (∀ x ∈ nb i, (sys x.1).level ≤ b) → (updateHydro par K eosP nb sys i).levelneib ≤ b := by
  have e : (updateHydro par K eosP nb sys i).levelneib = (nb i).foldl (fun l x => max l (sys x.1).level) 0 := by
    have key : ∀ (l : Neibs n N) (p : Part n), ((copies sys l).foldl (pairHydro par K 0) p).levelneib =
        l.foldl (fun l x => max l (sys x.1).level) p.levelneib := by
      intro l
      induction l with
      | nil => intro p; rfl
      | cons y l ih =>
        intro p
        simp only [copies, List.map_cons, List.foldl_cons]
        exact ih _
    simp only [updateHydro, addHydro, hydroForces, setDalphadt_levelneib, finish]
    rw [key]
    simp [zeroAcc, startHydro]
  rw [e]
  exact ⟨(foldl_max_spec sys (nb i) 0).2.1, fun b => (foldl_max_spec sys (nb i) 0).2.2 b (Nat.zero_le _)⟩

/-- With self-gravity the same holds for the hydro neighbours. -/
theorem C54_grav_levelneib_partial (par : Par) (K : Kernel) (sm : ℝ) (eosP : Fin N → ℝ) (sphdata : ℕ → Part n)
    (hyd smo dir : Fin N → Neibs n N) (sys : Fin N → Part n) (i : Fin N) :
    ∀ x ∈ hyd i, (sys x.1).level ≤ (updateGrav par K sm eosP sphdata hyd smo dir sys i).levelneib := by
  intro x hx
  have hne : hyd i ≠ [] := List.ne_nil_of_mem hx
  have key : ∀ (l : Neibs n N) (p : Part n),
      ((copies sys l).foldl (fun p q => pairGrav K sm (pairHydro par K sm p q) q) p).levelneib =
        l.foldl (fun l x => max l (sys x.1).level) p.levelneib := by
    intro l
    induction l with
    | nil => intro p; rfl
    | cons y l ih =>
      intro p
      simp only [copies, List.map_cons, List.foldl_cons]
      exact ih _
  have kd : ∀ (l : List (Part n)) (p : Part n), (directGravForces sm p l).levelneib = p.levelneib := by
    intro l
    induction l with
    | nil => intro p; rfl
    | cons y l ih => intro p; exact ih _
  have kg : ∀ (l : List (Part n × ℕ)) (p : Part n), p.levelneib ≤ (l.foldl (fun p q =>
      { pairGrav K sm p q.1 with
        levelneib := max p.levelneib (sphdata q.2).level }) p).levelneib := by
    intro l
    induction l with
    | nil => intro p; exact le_rfl
    | cons y l ih =>
      intro p
      rw [List.foldl_cons]
      refine le_trans ?_ (ih _)
      exact le_max_left _ _
  simp only [updateGrav, if_neg hne, addGrav, kd]
  refine le_trans ?_ (le_max_right _ _)
  refine le_trans ?_ (kg _ _)
  simp only [hydroGravForces, setDalphadt_levelneib, finish]
  rw [key]
  exact (foldl_max_spec sys (hyd i) _).2.1 x hx

/-- It fails for the neighbours with smoothed gravity: the level of the particle at the same position of the main
array is taken instead. Here the particle 2 has level 3, is a smoothed neighbour of particle 1, and is not
recorded. -/
theorem C54_smoothed_levelneib_fails : ∃ (sys : Fin 3 → Part 3) (hyd smo dir : Fin 3 → Neibs 3 3),
    (2, 0) ∈ smo 1 ∧ (sys 2).level = 3 ∧ ∀ par K sm eosP,
      (updateGrav par K sm eosP (fun j => if h : j < 3 then sys ⟨j, h⟩ else sys 0) hyd smo dir sys 1).levelneib = 0 := by
  refine ⟨fun i => { lone with level := if i = 2 then 3 else 0 }, fun _ => [], fun _ => [(2, 0)], fun _ => [],
    by simp, by simp, fun par K sm eosP => ?_⟩
  simp [updateGrav, gravForces, directGravForces, copies, addGrav, zeroAcc, startGrav, List.zipIdx]

/-! ### a concrete case: three particles in a row, only the middle one active -/

example : levelLoop (n := 1) (N := 3)
    (fun i => { r := fun _ => 0, v := fun _ => 0, m := 1, h := 1, hfactor := 1, rho := 1, pressure := 1, invomega := 1,
                zeta := 0, sound := 1, u := 1, alpha := 1, level := ![0, 4, 2] i, levelneib := 0, a := fun _ => 0,
                atree := fun _ => 0, gpot := 0, dudt := 0, div_v := 0, dalphadt := 0 })
    (fun _ => [(0, 0), (1, 0), (2, 0)]) ![1, 0, 5] [[1], []] = ![4, 4, 5] := by
  funext j
  fin_cases j <;> simp [levelLoop, levelThread, levelActive, Function.update]

end Gandalf
