import Verif.Proof.SinkSearch

/-!
# C21 – creation of sinks

`search prm N t fuel s` is `SearchForNewSinkParticles` at integer time `N` and time `t`. `Eligible` are the
criteria, written out in Spec/Sinks.lean.
-/

set_option autoImplicit false

namespace Gandalf

open Sinks

variable {n : ℕ}

/-- **C21, choice.** The particle chosen meets all criteria and is the first of the densest among those that
do; if none is chosen none does (densities being positive). -/
theorem C21_choice (prm : CPrm) (N : ℕ) (s : SState n) :
    (∀ i, choose prm N s = some i → i < s.Nhydro ∧ Eligible prm N s.sinks (s.gas i) ∧
      (∀ j < s.Nhydro, Eligible prm N s.sinks (s.gas j) → (s.gas j).rho ≤ (s.gas i).rho) ∧
      ∀ j < i, Eligible prm N s.sinks (s.gas j) → (s.gas j).rho < (s.gas i).rho) ∧
    (choose prm N s = none → ∀ j < s.Nhydro, 0 < (s.gas j).rho → ¬Eligible prm N s.sinks (s.gas j)) := by
  refine ⟨fun i h => ?_, fun h j hj hr he => ?_⟩
  · obtain ⟨a, b, -, c, d⟩ := choose_some h
    exact ⟨a, b, c, d⟩
  · exact absurd (choose_none h j hj he) (not_le.mpr hr)

/-- what creation of sinks from the particles `is` means -/
structure TurnedIntoSinks (prm : CPrm) (t : ℝ) (s s' : SState n) (is : List ℕ) : Prop where
  nodup : is.Nodup
  /-- from live particles of the array -/
  live : ∀ i ∈ is, i < s.Nhydro ∧ (s.gas i).dead = false
  /-- which end dead, inactive and without mass -/
  gone : ∀ i ∈ is, (s'.gas i).dead = true ∧ (s'.gas i).m = 0 ∧ (s'.gas i).active = false
  /-- no other particle is touched -/
  rest : ∀ i, i ∉ is → s'.gas i = s.gas i
  /-- the sinks of before are kept and one is added per particle -/
  sinks : ∃ new : List (Sink n ℝ), s'.sinks = s.sinks ++ new ∧
    List.Forall₂ (fun i sk => sk.star.m = (s.gas i).m ∧ sk.star.r = (s.gas i).r ∧ sk.star.v = (s.gas i).v ∧
      sk.star.a = (s.gas i).a ∧ sk.star.r0 = (s.gas i).r0 ∧ sk.star.v0 = (s.gas i).v0 ∧
      sk.star.a0 = (s.gas i).a0 ∧ sk.star.active = (s.gas i).active ∧ sk.star.nstep = (s.gas i).nstep ∧
      sk.star.level = (s.gas i).level ∧ sk.star.tlast = t ∧ sk.angmom = 0 ∧
      sk.radius = (match prm.mode with
        | .fixed => prm.sink_radius
        | .hmult => prm.sink_radius * (s.gas i).h
        | .kernel => prm.kernrange * (s.gas i).h)) is new
  nstar : s'.Nstar = s.Nstar + is.length

theorem steps_turned {prm : CPrm} {N : ℕ} {t : ℝ} {s s' : SState n} (h : Steps prm N t s s') :
    ∃ is, TurnedIntoSinks prm t s s' is := by
  obtain ⟨-, ⟨is, b1, b2, b3, b4, new, b5, b6⟩, -⟩ := h.spec
  refine ⟨is, b1, b2, fun i hi => ?_, fun i hi => ?_, ⟨new, b5, b6.imp ?_⟩, b4⟩
  · rw [b3, if_pos hi]
    exact ⟨rfl, rfl, rfl⟩
  · rw [b3, if_neg hi]
  · rintro i sk ⟨mm, rfl⟩
    exact ⟨rfl, rfl, rfl, rfl, rfl, rfl, rfl, rfl, rfl, rfl, rfl, rfl, rfl⟩

/-- **C21.** The search always comes to an end (after at most one pass per live particle and one more).
Either it ends with no particle left that qualifies, or with the error, and then because one qualifies and
the arrays are full. In both cases some particles have been turned into sinks exactly, the capacities
are not exceeded, and mass, mass-weighted position, momentum, `Σ m a` and angular momentum are unchanged. -/
theorem C21_search (prm : CPrm) (N : ℕ) (t : ℝ) (fuel : ℕ) (s : SState n) (hf : s.Nhydro < fuel)
    (h1 : s.sinks.length ≤ prm.Nsinkmax) (h2 : s.Nstar ≤ prm.Nstarmax) :
    ∃ s' is, TurnedIntoSinks prm t s s' is ∧
      s'.Nhydro = s.Nhydro ∧ s'.sinks.length ≤ prm.Nsinkmax ∧ s'.Nstar ≤ prm.Nstarmax ∧
      SameMechanics s.Nhydro s.gas s.sinks s'.gas s'.sinks ∧
      ((search prm N t fuel s = .done s' ∧ (choose prm N s' = none ∨
          ∃ k, prm.Nsinkfixed = some k ∧ k ≤ s.sinks.length ∧ s' = s)) ∨
        (search prm N t fuel s = .error s' ∧
          (∃ i < s.Nhydro, Eligible prm N s'.sinks (s'.gas i)) ∧
          (s'.sinks.length = prm.Nsinkmax ∨ s'.Nstar = prm.Nstarmax))) := by
  have hl : liveCount s < fuel := by
    refine lt_of_le_of_lt ?_ hf
    have := List.countP_le_length (p := fun i => !(s.gas i).dead) (l := List.range s.Nhydro)
    rw [List.length_range] at this
    exact this
  have fin : ∀ s', Steps prm N t s s' → ∃ is, TurnedIntoSinks prm t s s' is ∧
      s'.Nhydro = s.Nhydro ∧ s'.sinks.length ≤ prm.Nsinkmax ∧ s'.Nstar ≤ prm.Nstarmax ∧
      SameMechanics s.Nhydro s.gas s.sinks s'.gas s'.sinks := by
    intro s' h
    obtain ⟨is, his⟩ := steps_turned h
    obtain ⟨a1, -, a3, a4, a5⟩ := h.spec
    exact ⟨is, his, a1, a4 h1, a5 h2, a3⟩
  have main : ∃ s', Steps prm N t s s' ∧
      ((searchLoop prm N t fuel s = .done s' ∧ choose prm N s' = none) ∨
        (searchLoop prm N t fuel s = .error s' ∧
          (∃ i < s'.Nhydro, Eligible prm N s'.sinks (s'.gas i)) ∧
          (s'.sinks.length = prm.Nsinkmax ∨ s'.Nstar = prm.Nstarmax))) := by
    rcases searchLoop_spec prm N t fuel s hl with ⟨s', a, b, c⟩ | ⟨s', i, a, b, c, d⟩
    · exact ⟨s', b, Or.inl ⟨a, c⟩⟩
    · obtain ⟨e1, e2, -⟩ := choose_some c
      exact ⟨s', b, Or.inr ⟨a, ⟨i, e1, e2⟩, d⟩⟩
  unfold search
  cases hfix : prm.Nsinkfixed with
  | none =>
    obtain ⟨s', hst, hout⟩ := main
    obtain ⟨is, a, b, c, d, e⟩ := fin s' hst
    refine ⟨s', is, a, b, c, d, e, ?_⟩
    rcases hout with ⟨o1, o2⟩ | ⟨o1, o2, o3⟩
    · exact Or.inl ⟨o1, Or.inl o2⟩
    · exact Or.inr ⟨o1, by rw [← b]; exact o2, o3⟩
  | some k =>
    simp only
    by_cases hk : k ≤ s.sinks.length
    · rw [if_pos hk]
      obtain ⟨is, a, b, c, d, e⟩ := fin s (.refl s)
      exact ⟨s, is, a, b, c, d, e, Or.inl ⟨rfl, Or.inr ⟨k, rfl, hk, rfl⟩⟩⟩
    · rw [if_neg hk]
      obtain ⟨s', hst, hout⟩ := main
      obtain ⟨is, a, b, c, d, e⟩ := fin s' hst
      refine ⟨s', is, a, b, c, d, e, ?_⟩
      rcases hout with ⟨o1, o2⟩ | ⟨o1, o2, o3⟩
      · exact Or.inl ⟨o1, Or.inl o2⟩
      · exact Or.inr ⟨o1, by rw [← b]; exact o2, o3⟩

/-- **C21, thermal energy.** The energy of the particle is not handed on: each creation lowers the total by
`m*u`. -/
theorem C21_thermal_energy_lost (prm : CPrm) (t : ℝ) (s : SState n) (i : ℕ) (hi : i < s.Nhydro)
    (h1 : s.sinks.length < prm.Nsinkmax) (h2 : s.Nstar < prm.Nstarmax) :
    ∃ s', create prm t s i = .done s' ∧ totalThermal s.Nhydro s'.gas s'.sinks =
      totalThermal s.Nhydro s.gas s.sinks - (s.gas i).m * (s.gas i).u := by
  rcases create_eq prm t s i with ⟨-, e⟩ | ⟨h, -⟩
  · exact ⟨_, e, made_thermal hi⟩
  · omega

/-- sinks that do not overlap -/
def Apart (a b : Sink n ℝ) : Prop := (a.radius + b.radius) ^ 2 ≤ ∑ k, (a.star.r k - b.star.r k) ^ 2

/-- **C21, no overlap.** With `sink_radius_mode = hmult`, sinks that do not overlap before the search do not
overlap after it. -/
theorem C21_no_overlap (prm : CPrm) (hm : prm.mode = .hmult) (N : ℕ) (t : ℝ) (fuel : ℕ) (s s' : SState n)
    (hf : s.Nhydro < fuel) (hap : s.sinks.Pairwise Apart)
    (h : search prm N t fuel s = .done s' ∨ search prm N t fuel s = .error s') : s'.sinks.Pairwise Apart := by
  have step : ∀ s', Steps prm N t s s' → s'.sinks.Pairwise Apart := by
    intro s' h
    induction h with
    | refl => exact hap
    | @tail s' i _ hc _ _ ih =>
      obtain ⟨-, hel, -⟩ := choose_some hc
      simp only [made]
      rw [List.pairwise_append]
      refine ⟨ih, List.pairwise_singleton _ _, ?_⟩
      intro a ha b hb
      rw [List.mem_singleton] at hb
      subst hb
      have := hel.apart a ha
      unfold Apart
      simp only [newSink, newRadius, hm]
      calc (a.radius + prm.sink_radius * (s'.gas i).h) ^ 2
          = (prm.sink_radius * (s'.gas i).h + a.radius) ^ 2 := by ring
        _ ≤ _ := this
        _ = _ := Finset.sum_congr rfl fun k _ => by ring
  have hl : liveCount s < fuel := by
    refine lt_of_le_of_lt ?_ hf
    have := List.countP_le_length (p := fun i => !(s.gas i).dead) (l := List.range s.Nhydro)
    rw [List.length_range] at this
    exact this
  have loop : ∀ o, searchLoop prm N t fuel s = o → o = .done s' ∨ o = .error s' → s'.sinks.Pairwise Apart := by
    intro o ho hor
    rcases searchLoop_spec prm N t fuel s hl with ⟨x, a, b, -⟩ | ⟨x, i, a, b, -⟩
    · rw [a] at ho
      subst ho
      rcases hor with e | e
      · injection e with e
        exact e ▸ step x b
      · cases e
    · rw [a] at ho
      subst ho
      rcases hor with e | e
      · cases e
      · injection e with e
        exact e ▸ step x b
  unfold search at h
  cases hfix : prm.Nsinkfixed with
  | none =>
    rw [hfix] at h
    exact loop _ rfl h
  | some k =>
    rw [hfix] at h
    simp only at h
    by_cases hk : k ≤ s.sinks.length
    · rw [if_pos hk] at h
      rcases h with e | e
      · injection e with e
        exact e ▸ hap
      · cases e
    · rw [if_neg hk] at h
      exact loop _ rfl h

/-! ### concrete cases -/

/-- particle at `x` at rest, at a potential minimum -/
noncomputable def c21Gas (x rho : ℝ) : Gas 1 ℝ where
  dead := false
  active := true
  potmin := true
  m := 1
  u := 1
  rho := rho
  h := 1
  dt := 1
  gpot := 0
  r := fun _ => x
  v := fun _ => 0
  a := fun _ => 0
  r0 := fun _ => x
  v0 := fun _ => 0
  a0 := fun _ => 0
  nstep := 1
  nlast := 0
  level := 0
  levelneib := 0
  sinkid := none
  dQrho := 0
  dQv := fun _ => 0

/-- two particles of densities 2 and 1 a distance `d` apart -/
noncomputable def c21State (d : ℝ) : SState 1 where
  gas := fun i => if i = 0 then c21Gas 0 2 else c21Gas d 1
  Nhydro := 2
  sinks := []
  Nstar := 0

noncomputable def c21Prm (mode : RadiusMode) (fix : Option ℕ) (cap : ℕ) : CPrm where
  rho_sink := 1
  sink_radius := 2
  mode := mode
  kernrange := 5
  Nsinkmax := cap
  Nstarmax := 5
  Nsinkfixed := fix

theorem c21_first (mode : RadiusMode) (fix : Option ℕ) (cap : ℕ) (d : ℝ) :
    choose (c21Prm mode fix cap) 0 (c21State d) = some 0 := by
  norm_num [choose, c21State, c21Prm, candidate, c21Gas, List.range_succ]

theorem c21_second (mode : RadiusMode) (fix : Option ℕ) (cap : ℕ) (d : ℝ)
    (h : (2 + newRadius (c21Prm mode fix cap) (c21Gas 0 2)) ^ 2 ≤ d ^ 2) :
    choose (c21Prm mode fix cap) 0 (made (c21Prm mode fix cap) 0 (c21State d) 0) = some 1 := by
  have e : excluded (c21Prm mode fix cap) (c21Gas d 1) { newSink (c21Prm mode fix cap) 0 (c21Gas 0 2) with
      mmax := enclosed 2 (Function.update (c21State d).gas 0 (removed (c21Gas 0 2)))
        (newSink (c21Prm mode fix cap) 0 (c21Gas 0 2)) } = false := by
    rw [excluded_iff]
    refine ⟨?_, ?_, fun h => ?_⟩
    · simpa [newSink, c21Gas, c21Prm] using h
    · simp [newSink, c21Gas]
    · simp [newSink, c21Gas] at h
  have e0 : (c21State d).gas 0 = c21Gas 0 2 := rfl
  have e1 : (c21State d).gas 1 = c21Gas d 1 := rfl
  have eN : (c21State d).Nhydro = 2 := rfl
  have es : (c21State d).sinks = [] := rfl
  simp only [choose, made, e0, eN, es, List.nil_append]
  simp only [List.range_succ, List.range_zero, List.nil_append, List.foldl_append, List.foldl_cons,
    List.foldl_nil, List.cons_append]
  have c0 : ∀ sinks, candidate (c21Prm mode fix cap) 0 sinks
      (Function.update (c21State d).gas 0 (removed (c21Gas 0 2))) (none, 0) 0 = (none, 0) := by
    intro sinks
    simp [candidate, removed]
  rw [c0]
  simp only [candidate]
  have e2 : Function.update (c21State d).gas 0 (removed (c21Gas 0 2)) 1 = c21Gas d 1 := by
    rw [Function.update_of_ne (by norm_num), e1]
  rw [e2]
  simp only [List.any_cons, List.any_nil, e, Bool.or_false]
  norm_num [c21Gas, c21Prm]

/-- an example of creation: the denser particle is chosen, and the search with room for one sink ends in the
error when the second qualifies as well -/
example : ∃ s', search (c21Prm .hmult none 1) 0 0 3 (c21State 10) = .error s' ∧ s'.sinks.length = 1 := by
  refine ⟨made (c21Prm .hmult none 1) 0 (c21State 10) 0, ?_, rfl⟩
  have h2 := c21_second .hmult none 1 10 (by simp [newRadius, c21Prm, c21Gas]; norm_num)
  have hs : search (c21Prm .hmult none 1) 0 0 3 (c21State 10) =
      searchLoop (c21Prm .hmult none 1) 0 0 3 (c21State 10) := rfl
  rw [hs]
  simp only [searchLoop, c21_first]
  rcases create_eq (c21Prm .hmult none 1) 0 (c21State 10) 0 with ⟨-, e⟩ | ⟨h, -⟩
  · simp only [e, h2]
    rcases create_eq (c21Prm .hmult none 1) 0 (made (c21Prm .hmult none 1) 0 (c21State 10) 0) 1 with
      ⟨h, -⟩ | ⟨-, e'⟩
    · exact absurd (Or.inl rfl) h
    · simp only [e']
  · rcases h with h | h <;> cases h

/-- **C21, `Nsinkfixed`.** The wanted number of sinks is looked at only on entry: with `Nsinkfixed = 1` and no
sink yet, one call makes two. -/
theorem C21_nsinkfixed_exceeded : ∃ s', search (c21Prm .hmult (some 1) 5) 0 0 4 (c21State 10) = .done s' ∧
    s'.sinks.length = 2 := by
  have h2 := c21_second .hmult (some 1) 5 10 (by simp [newRadius, c21Prm, c21Gas]; norm_num)
  have hs : search (c21Prm .hmult (some 1) 5) 0 0 4 (c21State 10) =
      searchLoop (c21Prm .hmult (some 1) 5) 0 0 4 (c21State 10) := rfl
  rw [hs]
  simp only [searchLoop, c21_first]
  rcases create_eq (c21Prm .hmult (some 1) 5) 0 (c21State 10) 0 with ⟨-, e⟩ | ⟨h, -⟩
  · simp only [e, h2]
    rcases create_eq (c21Prm .hmult (some 1) 5) 0 (made (c21Prm .hmult (some 1) 5) 0 (c21State 10) 0) 1 with
      ⟨-, e'⟩ | ⟨h, -⟩
    · simp only [e']
      refine ⟨made (c21Prm .hmult (some 1) 5) 0 (made (c21Prm .hmult (some 1) 5) 0 (c21State 10) 0) 1, ?_, rfl⟩
      cases hc : choose (c21Prm .hmult (some 1) 5) 0
          (made (c21Prm .hmult (some 1) 5) 0 (made (c21Prm .hmult (some 1) 5) 0 (c21State 10) 0) 1) with
      | none => rfl
      | some i =>
        exfalso
        obtain ⟨h1, h2, -⟩ := choose_some hc
        have hd := h2.live
        have hi : i = 0 ∨ i = 1 := by
          have : i < 2 := h1
          omega
        rcases hi with rfl | rfl <;> simp [made, removed] at hd
    · rcases h with h | h <;> cases h
  · rcases h with h | h <;> cases h

/-- **C21, overlap with a fixed radius.** With `sink_radius_mode = fixed` the test uses `sink_radius*h`
instead of the radius, so overlapping sinks are created when `h` is small. Two particles with `h = 1/10`
become sinks of radius 2, three apart. -/
theorem C21_fixed_radius_overlap : ∃ (p : Gas 1 ℝ) (sk : Sink 1 ℝ), sk.radius = 2 ∧
    Eligible (c21Prm .fixed none 5) 0 [sk] p ∧ ¬Apart sk (newSink (c21Prm .fixed none 5) 0 p) := by
  refine ⟨{ c21Gas 3 1 with h := 1 / 10 }, newSink (c21Prm .fixed none 5) 0 (c21Gas 0 1), rfl, ?_, ?_⟩
  · rw [eligible_iff]
    refine ⟨rfl, rfl, le_refl (1 : ℝ), rfl, ?_⟩
    rw [List.any_cons, List.any_nil, Bool.or_false, excluded_iff]
    refine ⟨?_, ?_, fun h => ?_⟩
    · simp [newSink, newRadius, c21Gas, c21Prm]
      norm_num
    · simp [newSink, c21Gas]
    · simp [newSink, c21Gas] at h
  · simp [Apart, newSink, newRadius, c21Gas, c21Prm]
    norm_num

end Gandalf
