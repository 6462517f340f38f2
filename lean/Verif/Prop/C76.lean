import Verif.Proof.StarHeat

/-!
# C76 – heating by stars
-/

set_option autoImplicit false

namespace Gandalf

open StarHeat Units Real

/-! ### the temperature of the surroundings -/

/-- **C76, partial: sum of the sources.** With at most one central star, all luminosities at least 0 and no particle at a
sink, the fourth power of the temperature is that of the background, that of the disc around the central star and that of a
grey body in the light of each of the other sinks, whatever the radii of the stars. Missing: two central stars
(`C76_binary_fails`), fewer sinks than central stars (`C76_alone_fails`), negative luminosities (`C76_dark_fails`). -/
theorem C76_ambient_partial {n : ℕ} (F : Feedback) (x : Vec (n + 2) ℝ) (sinks : List (Sink n)) (h0 : 0 ≤ F.tinf4)
    (hD : ∀ D, F.disc = some D → D.ncentral ≤ 1 ∧ D.ncentral ≤ sinks.length ∧ 0 ≤ D.tau4 ∧ 0 ≤ D.rs2)
    (hH : ∀ H, F.heat = some H → 0 < H.rad ∧ ∀ s ∈ sinks.drop H.ncentral,
      (H.source s.m).1 ≠ 0 ∧ 0 ≤ H.luminosity s.m s.dmdt s.radius (H.source s.m).1 (H.source s.m).2) :
    ∃ T, F.ambient x sinks = some T ∧ 0 ≤ T ∧ T ^ 4 = (if F.ambientOn then F.tinf4 else 0) +
      F.disc.elim 0 (fun D => ((sinks.take D.ncentral).map fun s => D.tau4 * (planar x s.r ^ 2 + D.rs2) ^ D.texp).sum) +
      F.heat.elim 0 (fun H => ((sinks.drop H.ncentral).map fun s =>
        grey H.rad (H.luminosity s.m s.dmdt s.radius (H.source s.m).1 (H.source s.m).2) (distance x s.r)).sum) := by
  have hd : F.discPart x sinks =
      F.disc.elim 0 (fun D => ((sinks.take D.ncentral).map fun s => D.tau4 * (planar x s.r ^ 2 + D.rs2) ^ D.texp).sum) ∧
      0 ≤ F.discPart x sinks := by
    rw [Feedback.discPart]
    cases hd : F.disc with
    | none => exact ⟨rfl, le_rfl⟩
    | some D =>
      obtain ⟨h1, h2, h3, h4⟩ := hD D hd
      have hc : D.ncentral = 0 ∨ D.ncentral = 1 := by omega
      rcases hc with hc | hc
      · simp [Disc.ambient, hc]
      · cases sinks with
        | nil => simp [hc] at h2
        | cons s l =>
          have hb : 0 ≤ D.tau4 * (planar x s.r * planar x s.r + D.rs2) ^ D.texp :=
            mul_nonneg h3 (Real.rpow_nonneg (add_nonneg (mul_self_nonneg _) h4) _)
          simp only [Disc.ambient, hc, List.length_cons, Nat.le_add_left, if_true, List.take_succ_cons, List.take_zero,
            List.foldl_cons, List.foldl_nil, Option.elim_some, List.map_cons, List.map_nil, List.sum_cons, List.sum_nil,
            add_zero, pow_two]
          exact ⟨trivial, hb⟩
  have hh : F.heatPart x sinks = some (F.heat.elim 0 (fun H => ((sinks.drop H.ncentral).map fun s =>
        grey H.rad (H.luminosity s.m s.dmdt s.radius (H.source s.m).1 (H.source s.m).2) (distance x s.r)).sum)) ∧
      0 ≤ F.heat.elim 0 (fun H => ((sinks.drop H.ncentral).map fun s =>
        grey H.rad (H.luminosity s.m s.dmdt s.radius (H.source s.m).1 (H.source s.m).2) (distance x s.r)).sum) := by
    rw [Feedback.heatPart]
    cases hh : F.heat with
    | none => exact ⟨rfl, le_rfl⟩
    | some H =>
      obtain ⟨h1, h2⟩ := hH H hh
      refine ⟨?_, List.sum_nonneg ?_⟩
      · simp only [Heat.ambient, Option.elim_some]
        rw [heat_all H x h1 _ 0 h2, zero_add]
      · intro y hy
        obtain ⟨s, hs, rfl⟩ := List.mem_map.mp hy
        exact grey_nonneg h1 (h2 s hs).2
  have ha : 0 ≤ (if F.ambientOn then F.tinf4 else 0) := by split_ifs <;> [exact h0; exact le_rfl]
  simp only [Feedback.ambient, hh.1, Option.bind_some]
  rw [← hd.1]
  exact root4_spec (add_nonneg (add_nonneg ha hd.2) hh.2)

/-- **C76, negation: binaries.** Of two central stars only the second heats: the sum is overwritten (RadiativeFB.cpp:159). -/
theorem C76_binary_fails {n : ℕ} (D : Disc) (x : Vec (n + 2) ℝ) (s0 s1 : Sink n) (l : List (Sink n)) (hc : D.ncentral = 2)
    (h1 : 0 < D.tau4) (h2 : 0 < D.rs2) :
    D.ambient x (s0 :: s1 :: l) = D.tau4 * (planar x s1.r ^ 2 + D.rs2) ^ D.texp ∧
    D.ambient x (s0 :: s1 :: l) < D.tau4 * (planar x s0.r ^ 2 + D.rs2) ^ D.texp + D.tau4 * (planar x s1.r ^ 2 + D.rs2) ^ D.texp := by
  have e : D.ambient x (s0 :: s1 :: l) = D.tau4 * (planar x s1.r ^ 2 + D.rs2) ^ D.texp := by
    simp only [Disc.ambient, hc, List.length_cons, show 2 ≤ l.length + 1 + 1 by omega, if_true, List.take_succ_cons, List.take_zero,
      List.foldl_cons, List.foldl_nil, pow_two]
  refine ⟨e, ?_⟩
  rw [e]
  have : 0 < (planar x s0.r ^ 2 + D.rs2) ^ D.texp := Real.rpow_pos_of_pos (by positivity) _
  have := mul_pos h1 this
  linarith

/-- **C76, negation: the only star.** Where two central stars are announced, or more, a single sink does not heat at all,
neither as central star nor as sink. -/
theorem C76_alone_fails {n : ℕ} (b : Base) (p : Pars) (hp : 2 ≤ p.discHeating) (x : Vec (n + 2) ℝ) (s : Sink n) :
    (mkFeedback b p).ambient x [s] = (mkFeedback b p).ambient x [] := by
  have hc : ncentral p.discHeating = 2 := by
    rw [ncentral, if_neg (by omega)]
    split_ifs
    · rfl
    · have : p.discHeating = 2 := by omega
      rw [this]; rfl
  have h1 : (mkFeedback b p).discPart x [s] = (mkFeedback b p).discPart x [] := by
    simp only [Feedback.discPart, mkFeedback]
    rw [if_pos (by omega)]
    simp [Disc.ambient, mkDisc, hc]
  have h2 : (mkFeedback b p).heatPart x [s] = (mkFeedback b p).heatPart x [] := by
    simp only [Feedback.heatPart, mkFeedback]
    cases p.sinkHeating
    · rfl
    · simp [Heat.ambient, mkHeat, hc]
  rw [Feedback.ambient, Feedback.ambient, h1, h2]

/-- **C76, negation: not a number.** A planet or brown dwarf with a radius more than twice that of its sink has a negative
luminosity while it accretes. Then no particle has a temperature of the surroundings, wherever it is. -/
theorem C76_dark_fails {n : ℕ} (F : Feedback) (H : Heat) (hF : F.heat = some H) (hr : 0 < H.rad) (hf : 0 < H.facc)
    (x : Vec (n + 2) ℝ) (sinks : List (Sink n)) (s : Sink n) (hs : s ∈ sinks.drop H.ncentral) (hm : 0 < s.m)
    (hsmall : s.m < 80 * H.mjup) (hacc : 0 < s.dmdt) (hrad : 0 < s.radius) (hbig : 2 * s.radius < (H.source s.m).1) :
    F.ambient x sinks = none := by
  have hsrc : 0 < (H.source s.m).1 := by linarith
  have hL : H.luminosity s.m s.dmdt s.radius (H.source s.m).1 (H.source s.m).2 < 0 := by
    have : (H.source s.m).2 = 0 := by rw [Heat.source, if_neg (not_le.mpr hsmall)]
    rw [this, Heat.luminosity]
    have h1 : 0 < H.facc * (s.m * s.dmdt / (H.source s.m).1) := by positivity
    have h2 : 1 < (H.source s.m).1 / (2 * s.radius) := by rw [lt_div_iff₀ (by positivity)]; linarith
    nlinarith
  have : F.heatPart x sinks = none := by
    rw [Feedback.heatPart, hF]
    exact heat_dark H x hr _ _ s hs hsrc.ne' hL
  rw [Feedback.ambient, this]
  rfl

/-! ### units -/

/-- the code units of length, mass and time -/
structure StarHeat.Good (b : Base) : Prop where
  r : 0 < b.r
  m : 0 < b.m
  t : b.t = timeUnit b.r b.m

theorem StarHeat.Good.tpos {b : Base} (h : Good b) : 0 < b.t := by rw [h.t]; exact timeUnit_pos h.r h.m

theorem StarHeat.Good.tempPos {b : Base} (h : Good b) : 0 < codeUnit b .temp := by
  have h1 := h.tpos
  have h2 := h.r
  simp only [codeUnit]
  have : (0 : ℝ) < m_hydrogen := by norm_num [m_hydrogen]
  have : (0 : ℝ) < k_boltzmann := by norm_num [k_boltzmann]
  positivity

/-- **C76, the disc.** Without smoothing the temperature falls with the power `-q` of the distance from the central star,
from the given value at the distance 1 of the code. -/
theorem C76_profile {n : ℕ} (b : Base) (hb : Good b) (p : Pars) (ha : p.ambientHeating = false) (hd : p.discHeating = 1)
    (hh : p.sinkHeating = false) (hs : p.rSmooth = 0) (ht : 0 ≤ p.tempAu) (x : Vec (n + 2) ℝ) (s : Sink n) (l : List (Sink n))
    (hR : 0 < planar x s.r) :
    ∃ T, (mkFeedback b p).ambient x (s :: l) = some T ∧ T * codeUnit b .temp = profile p.tempAu p.tempQ (planar x s.r) := by
  have hu := hb.tempPos
  set R := planar x s.r with hRd
  set y := p.tempAu / codeUnit b .temp with hy
  have hy0 : 0 ≤ y := div_nonneg ht hu.le
  have e : (mkFeedback b p).discPart x (s :: l) = (y * R ^ (-p.tempQ)) ^ 4 := by
    simp only [Feedback.discPart, mkFeedback]
    rw [if_pos (by rw [hd]; norm_num)]
    simp only [Disc.ambient, mkDisc, hd, ncentral, hs]
    norm_num
    rw [← hRd, ← hy, mul_pow, ← Real.rpow_natCast, ← Real.rpow_natCast (n := 4), ← Real.rpow_mul hR.le, ← pow_two,
      ← Real.rpow_natCast R 2, ← Real.rpow_mul hR.le]
    norm_num
    left
    congr 1
    ring
  have e2 : (mkFeedback b p).heatPart x (s :: l) = some 0 := by simp [Feedback.heatPart, mkFeedback, hh]
  have hz : 0 ≤ y * R ^ (-p.tempQ) := mul_nonneg hy0 (Real.rpow_nonneg hR.le _)
  refine ⟨y * R ^ (-p.tempQ), ?_, ?_⟩
  · rw [Feedback.ambient, e2, Option.bind_some, e]
    simp only [mkFeedback, ha]
    rw [root4, if_neg (by norm_num; positivity)]
    norm_num
    rw [← Real.rpow_natCast, ← Real.rpow_mul hz]
    norm_num
  · simp only [profile]
    rw [hy]
    field_simp

/-- **C76, negation: astronomical units.** The parameter is the temperature at one astronomical unit, but the distance is in
code units: the temperature of the disc at a given distance grows with the `q`-th power of the unit of length. -/
theorem C76_length_fails {n : ℕ} (b b' : Base) (hb : Good b) (hb' : Good b') (p : Pars) (ha : p.ambientHeating = false)
    (hd : p.discHeating = 1) (hh : p.sinkHeating = false) (hs : p.rSmooth = 0) (ht : 0 < p.tempAu) (hq : 0 < p.tempQ)
    (x x' : Vec (n + 2) ℝ) (s s' : Sink n) (hR : 0 < planar x s.r) (hX : planar x s.r * b.r = planar x' s'.r * b'.r)
    (hr : b.r < b'.r) :
    ∃ T T', (mkFeedback b p).ambient x [s] = some T ∧ (mkFeedback b' p).ambient x' [s'] = some T' ∧
      T' * codeUnit b' .temp = (b'.r / b.r) ^ p.tempQ * (T * codeUnit b .temp) ∧
      T * codeUnit b .temp < T' * codeUnit b' .temp := by
  have hr0 := hb.r
  have hr0' := hb'.r
  have hR' : 0 < planar x' s'.r := by
    have : 0 < planar x' s'.r * b'.r := by rw [← hX]; positivity
    exact (pos_iff_pos_of_mul_pos this).mpr hr0'
  obtain ⟨T, e1, e2⟩ := C76_profile b hb p ha hd hh hs ht.le x s [] hR
  obtain ⟨T', e1', e2'⟩ := C76_profile b' hb' p ha hd hh hs ht.le x' s' [] hR'
  refine ⟨T, T', e1, e1', ?_⟩
  have hRR : planar x s.r = planar x' s'.r * (b'.r / b.r) := by
    field_simp
    exact hX
  have hone : 1 < b'.r / b.r := by rw [lt_div_iff₀ hr0]; linarith
  have key : T' * codeUnit b' .temp = (b'.r / b.r) ^ p.tempQ * (T * codeUnit b .temp) := by
    rw [e2, e2', profile, profile, hRR, Real.mul_rpow hR'.le (by positivity), Real.rpow_neg (by positivity : 0 ≤ b'.r / b.r)]
    have : (b'.r / b.r) ^ p.tempQ ≠ 0 := (Real.rpow_pos_of_pos (by positivity) _).ne'
    field_simp
  refine ⟨key, ?_⟩
  rw [key]
  have h1 : 1 < (b'.r / b.r) ^ p.tempQ := Real.one_lt_rpow hone hq
  have h2 : 0 < T * codeUnit b .temp := by
    rw [e2, profile]
    exact mul_pos ht (Real.rpow_pos_of_pos hR _)
  nlinarith

/-- a sink in SI units: what it adds to the fourth power of the temperature -/
theorem StarHeat.heat_SI (b : Base) (hb : Good b) (p : Pars) (m mdot rsink r fn d : ℝ) (hr : r ≠ 0) (hrs : rsink ≠ 0) (hd : d ≠ 0) :
    grey (mkHeat b p).rad ((mkHeat b p).luminosity m mdot rsink r fn) d * codeUnit b .temp ^ 4 =
      grey stefboltz (shine G_const m_sun (L_sun * (b.r / b.t) ^ 2) p.fAcc (m * b.m) (mdot * (b.m / b.t)) (rsink * b.r)
        (r * b.r) fn) (d * b.r) := by
  have h1 := hb.r.ne'
  have h2 := hb.m.ne'
  have h3 := hb.tpos.ne'
  have h4 := hb.tempPos.ne'
  have hG : G_const * b.m * b.t ^ 2 = b.r ^ 3 := by rw [hb.t]; exact timeUnit_sq hb.r hb.m
  have hσ : stefboltz ≠ 0 := by norm_num [stefboltz]
  have hms : m_sun ≠ 0 := by norm_num [m_sun]
  simp only [grey, shine, Heat.luminosity, mkHeat]
  generalize codeUnit b .temp = u at *
  simp only [codeUnit]
  have hG' : G_const = b.r ^ 3 / (b.m * b.t ^ 2) := by field_simp; linarith
  rw [hG']
  have hπ := Real.pi_ne_zero
  field_simp

/-- **C76, partial: sinks in all units.** For planets and brown dwarfs, and so for the light of accretion, the temperature in
kelvin does not depend on the units of the code. Missing: stars (`C76_burning_fails`). -/
theorem C76_sink_partial (b : Base) (hb : Good b) (p : Pars) (m mdot rsink r d : ℝ) (hr : r ≠ 0) (hrs : rsink ≠ 0) (hd : d ≠ 0) :
    grey (mkHeat b p).rad ((mkHeat b p).luminosity m mdot rsink r 0) d * codeUnit b .temp ^ 4 =
      grey stefboltz (shine G_const m_sun L_sun p.fAcc (m * b.m) (mdot * (b.m / b.t)) (rsink * b.r) (r * b.r) 0) (d * b.r) := by
  rw [heat_SI b hb p m mdot rsink r 0 d hr hrs hd]
  simp only [shine, zero_mul]

/-- **C76, negation: stars.** The luminosity of the Sun is converted with a unit of luminosity that lacks the square of the
unit of velocity (`C49_luminosity_wrong`): what a star that does not accrete adds is too large by that square. -/
theorem C76_burning_fails (b : Base) (hb : Good b) (p : Pars) (m rsink r d : ℝ) (hr : r ≠ 0) (hrs : rsink ≠ 0) (hd : d ≠ 0) :
    grey (mkHeat b p).rad ((mkHeat b p).luminosity m 0 rsink r 1) d * codeUnit b .temp ^ 4 = (b.r / b.t) ^ 2 *
      grey stefboltz (shine G_const m_sun L_sun p.fAcc (m * b.m) 0 (rsink * b.r) (r * b.r) 1) (d * b.r) := by
  rw [heat_SI b hb p m 0 rsink r 1 d hr hrs hd]
  simp only [shine, grey, zero_mul, mul_zero, zero_div, add_zero]
  ring

/-! ### the rate of accretion -/

/-- **C76, partial: smooth accretion.** While there is gas in the sink, the rate of accretion stands for the mass to be
accreted, step after step. Missing: accretion of whole particles (`C76_rate_fails`), sinks run empty (`C76_stale_fails`). -/
theorem C76_rate_partial (nstep : ℕ) (hn : 1 ≤ nstep) (ts : ℝ) (hts : 0 < ts) (d : ℝ) (l : List ℝ) :
    counted true nstep ts d (l.flatMap (starStep nstep true)) = l.sum := by
  have hn' : (nstep : ℝ) ≠ 0 := by positivity
  induction l generalizing d with
  | nil => rfl
  | cons macc l ih =>
    rw [List.flatMap_cons, counted_starStep true nstep hn, ih, List.sum_cons]
    simp only [if_true]
    field_simp

/-- **C76, negation: accretion of whole particles.** The mass is divided by the shortest step and not by that of the star
(Sinks.cpp:609), though it is accreted once in a step of the star: the energy set free is `nstep` times too large. -/
theorem C76_rate_fails (nstep : ℕ) (hn : 1 ≤ nstep) (ts : ℝ) (hts : 0 < ts) (d : ℝ) (l : List ℝ) :
    counted false nstep ts d (l.flatMap (starStep nstep true)) = nstep * l.sum := by
  induction l generalizing d with
  | nil => simp [counted]
  | cons macc l ih =>
    rw [List.flatMap_cons, counted_starStep false nstep hn, ih, List.sum_cons]
    simp only [Bool.false_eq_true, if_false]
    field_simp

/-- **C76, negation: empty sinks.** A sink without gas keeps its rate of accretion (Sinks.cpp:494): after one last accretion it
shines for ever. -/
theorem C76_stale_fails (smooth : Bool) (nstep : ℕ) (hn : 1 ≤ nstep) (ts : ℝ) (hts : 0 < ts) (d macc : ℝ) (k : ℕ) :
    counted smooth nstep ts d (starStep nstep true macc ++ List.replicate (k * nstep) ⟨false, true, 0⟩) =
      (k + 1) * (if smooth then macc else nstep * macc) := by
  have hn' : (nstep : ℝ) ≠ 0 := by positivity
  rw [counted_starStep smooth nstep hn, ← List.append_nil (List.replicate _ _), counted_idle _ _ _ _ _ (by
    intro e he; rw [List.mem_replicate] at he; rw [he.2]; exact Or.inl rfl), List.length_replicate, counted]
  push_cast
  cases smooth <;> simp only [Bool.false_eq_true, if_true, if_false] <;> field_simp <;> ring

/-! ### ionising photons -/

/-- **C76, photons.** For masses within an ordered table the number of photons is between those of the masses around, and
that of the table at its masses; heavier stars have more if the table says so. -/
theorem C76_photons (N : ℕ) (mass nlyc : ℕ → ℝ) (hm : ∀ i j, i < j → j < N → mass i < mass j)
    (hp : ∀ i j, i ≤ j → j < N → nlyc i ≤ nlyc j) (ms : ℝ) (h0 : mass 0 ≤ ms) (h1 : ms < mass (N - 1)) :
    ∃ P, stellar N mass nlyc ms = some P ∧
      (∀ i, i < N → mass i ≤ ms → (10 : ℝ) ^ nlyc i ≤ P) ∧ (∀ i, i < N → ms ≤ mass i → P ≤ (10 : ℝ) ^ nlyc i) ∧
      (∀ i, i < N → mass i = ms → P = (10 : ℝ) ^ nlyc i) ∧
      ∀ ms' P', ms ≤ ms' → ms' < mass (N - 1) → stellar N mass nlyc ms' = some P' → P ≤ P' := by
  have mono : ∀ a b : ℝ, a ≤ b → (10 : ℝ) ^ a ≤ (10 : ℝ) ^ b := fun a b h => Real.rpow_le_rpow_of_exponent_le (by norm_num) h
  have bnd : ∀ j, j + 1 < N → ∀ w, mass j ≤ w → w < mass (j + 1) →
      0 ≤ (w - mass j) / (mass (j + 1) - mass j) ∧ (w - mass j) / (mass (j + 1) - mass j) ≤ 1 := by
    intro j hj w h2 h3
    have : 0 < mass (j + 1) - mass j := by linarith
    exact ⟨div_nonneg (by linarith) this.le, by rw [div_le_one this]; linarith⟩
  have lo : ∀ j, j + 1 < N → ∀ w, mass j ≤ w → w < mass (j + 1) →
      (10 : ℝ) ^ nlyc j ≤ photons (nlyc j) (nlyc (j + 1)) ((w - mass j) / (mass (j + 1) - mass j)) ∧
      photons (nlyc j) (nlyc (j + 1)) ((w - mass j) / (mass (j + 1) - mass j)) ≤ (10 : ℝ) ^ nlyc (j + 1) := by
    intro j hj w h2 h3
    obtain ⟨b1, b2⟩ := bnd j hj w h2 h3
    have b3 := hp j (j + 1) (by omega) hj
    exact ⟨mono _ _ (by nlinarith), mono _ _ (by nlinarith)⟩
  have idx : ∀ i j w, i < N → j + 1 < N → mass i ≤ w → w < mass (j + 1) → i ≤ j := by
    intro i j w hi hj h2 h3
    by_contra hc
    rcases Nat.lt_or_ge (j + 1) i with h | h
    · linarith [hm (j + 1) i h hi]
    · have : i = j + 1 := by omega
      rw [this] at h2; linarith
  obtain ⟨j, hj, a, b, e⟩ := stellar_in (nlyc := nlyc) h0 h1
  have L1 : ∀ i, i < N → mass i ≤ ms → (10 : ℝ) ^ nlyc i ≤ photons (nlyc j) (nlyc (j + 1)) ((ms - mass j) / (mass (j + 1) - mass j)) := by
    intro i hi h
    exact (mono _ _ (hp i j (idx i j ms hi hj h b) (by omega))).trans (lo j hj ms a b).1
  have L2 : ∀ i, i < N → ms ≤ mass i → photons (nlyc j) (nlyc (j + 1)) ((ms - mass j) / (mass (j + 1) - mass j)) ≤ (10 : ℝ) ^ nlyc i := by
    intro i hi h
    rcases Nat.lt_or_ge j i with h' | h'
    · exact (lo j hj ms a b).2.trans (mono _ _ (hp (j + 1) i h' hi))
    · have hij : i = j := by
        rcases Nat.lt_or_ge i j with h'' | h''
        · linarith [hm i j h'' (by omega)]
        · omega
      subst hij
      have : ms = mass i := le_antisymm h a
      rw [this]
      simp [photons]
  refine ⟨_, e, L1, L2, fun i hi h => le_antisymm (L2 i hi h.ge) (L1 i hi h.le), ?_⟩
  intro ms' P' hle h1' e'
  obtain ⟨j', hj', a', b', e''⟩ := stellar_in (nlyc := nlyc) (h0.trans hle) h1'
  rw [e''] at e'
  obtain rfl := Option.some.inj e'
  have hjj := idx j j' ms' (by omega) hj' (a.trans hle) b'
  rcases Nat.lt_or_ge j j' with h | h
  · exact (lo j hj ms a b).2.trans ((mono _ _ (hp (j + 1) j' h (by omega))).trans (lo j' hj' ms' a' b').1)
  · have : j' = j := by omega
    subst this
    refine mono _ _ ?_
    have hd : 0 < mass (j' + 1) - mass j' := by linarith
    have : (ms - mass j') / (mass (j' + 1) - mass j') ≤ (ms' - mass j') / (mass (j' + 1) - mass j') :=
      div_le_div_of_nonneg_right (by linarith) hd.le
    have b3 := hp j' (j' + 1) (by omega) hj'
    nlinarith

/-- **C76, heavy stars** have as many photons as the heaviest of the table. -/
theorem C76_heavy (N : ℕ) (hN : 2 ≤ N) (mass nlyc : ℕ → ℝ) (hm : ∀ i j, i ≤ j → j < N → mass i ≤ mass j) (ms : ℝ)
    (h : mass (N - 1) ≤ ms) : stellar N mass nlyc ms = some ((10 : ℝ) ^ nlyc (N - 1)) :=
  stellar_out hN fun i hi => Or.inr ((hm (i + 1) (N - 1) (by omega) (by omega)).trans h)

/-- **C76, negation: light stars** lighter than the first of the table too have as many photons as the heaviest. -/
theorem C76_light_fails (N : ℕ) (hN : 2 ≤ N) (mass nlyc : ℕ → ℝ) (hm : ∀ i j, i ≤ j → j < N → mass i ≤ mass j) (ms : ℝ)
    (h : ms < mass 0) : stellar N mass nlyc ms = some ((10 : ℝ) ^ nlyc (N - 1)) :=
  stellar_out hN fun i hi => Or.inl (h.trans_le (hm 0 i (by omega) (by omega)))

/-- **C76, negation: no table.** The file is read from the working directory and it is not checked that this succeeds; with no
line, or one, every star reads outside the table. -/
theorem C76_table_fails (N : ℕ) (hN : N < 2) (mass nlyc : ℕ → ℝ) (ms : ℝ) : stellar N mass nlyc ms = none := by
  have : N - 1 = 0 := by omega
  simp only [stellar, this, findBin]
  split_ifs
  · rfl
  · rfl
  · omega

/-! ### examples -/

namespace StarHeat

/-- units of length and mass 1 in SI -/
noncomputable def meter : Base := ⟨1, 1, timeUnit 1 1⟩

theorem meter_good : Good meter := ⟨one_pos, one_pos, rfl⟩

/-- units of length 2 and mass 1 -/
noncomputable def twoMeter : Base := ⟨2, 1, timeUnit 2 1⟩

theorem twoMeter_good : Good twoMeter := ⟨two_pos, one_pos, rfl⟩

noncomputable def discPars : Pars := ⟨false, 1, false, 10, 250, 3 / 4, 0, 3 / 4, 3, 1 / 5, 3 / 40⟩

/-- a sink at the origin, and one at (3, 4, 0) -/
noncomputable def sinkA : Sink 1 := ⟨fun _ => 0, 1, 1, 5⟩
noncomputable def sinkB : Sink 1 := ⟨![3, 4, 0], 1, 1, 5⟩

theorem planar_AB : planar sinkB.r sinkA.r = 5 := by
  simp only [planar, sinkA, sinkB]
  norm_num

noncomputable def oneHeat : Heat := ⟨1, 1, 1, 1, 1 / 1000, 1, 1, 1, 1 / 2⟩
noncomputable def oneDisc : Disc := ⟨1, 16, -1, 1⟩

/-- the sum is not empty: background, disc and one more sink -/
example : ∃ T, (⟨true, 3, some oneDisc, some oneHeat⟩ : Feedback).ambient (![0, 0, 1] : Vec 3 ℝ) [sinkA, sinkB] = some T ∧ 0 ≤ T ∧ T ^ 4 =
    3 + 16 * (planar (![0, 0, 1] : Vec 3 ℝ) sinkA.r ^ 2 + 1) ^ (-1 : ℝ) +
      grey 1 (oneHeat.luminosity 1 1 5 1 1) (distance (![0, 0, 1] : Vec 3 ℝ) sinkB.r) := by
  have hs : oneHeat.source 1 = (1, 1) := by
    rw [Heat.source, if_pos (by norm_num [oneHeat])]; rfl
  obtain ⟨T, h1, h2, h3⟩ := C76_ambient_partial (⟨true, 3, some oneDisc, some oneHeat⟩ : Feedback) (![0, 0, 1] : Vec 3 ℝ) [sinkA, sinkB]
    (by norm_num) (by
      intro D hD
      obtain rfl := Option.some.inj hD
      norm_num [oneDisc]) (by
      intro H hH
      obtain rfl := Option.some.inj hH
      refine ⟨by norm_num [oneHeat], ?_⟩
      intro s hs'
      have : s = sinkB := by simpa [oneHeat] using hs'
      subst this
      simp only [sinkB, hs]
      norm_num [Heat.luminosity, oneHeat])
  refine ⟨T, h1, h2, h3.trans ?_⟩
  simp [oneDisc, oneHeat, hs, sinkB, List.drop]
  simp [Heat.source, Heat.luminosity]
  norm_num

/-- the power of the profile: a disc of 250 K at distance 1, seen at distance 5 -/
example : ∃ T, (mkFeedback meter discPars).ambient sinkB.r [sinkA] = some T ∧
    T * codeUnit meter .temp = 250 * (5 : ℝ) ^ (-(3 / 4 : ℝ)) := by
  have := C76_profile meter meter_good discPars rfl rfl rfl rfl (by norm_num [discPars]) sinkB.r sinkA []
    (by rw [planar_AB]; norm_num)
  rwa [planar_AB] at this

example : ∃ x x' : Vec 3 ℝ, 0 < planar x sinkA.r ∧ planar x sinkA.r * meter.r = planar x' sinkA.r * twoMeter.r ∧ meter.r < twoMeter.r := by
  refine ⟨![2, 0, 0], ![1, 0, 0], ?_, ?_, ?_⟩
  · simp [planar, sinkA]
  · simp [planar, sinkA, meter, twoMeter]
  · norm_num [meter, twoMeter]

/-- a brown dwarf larger than its sink -/
example (x : Vec 3 ℝ) : (⟨false, 0, none, some { oneHeat with mjup := 1 / 20 }⟩ : Feedback).ambient x [sinkA, ⟨fun _ => 1, 1, 1, 1 / 4⟩] = none := by
  have hs : ({ oneHeat with mjup := 1 / 20 } : Heat).source 1 = (1, 0) := by
    rw [Heat.source, if_neg (by norm_num)]
    norm_num [oneHeat]
  refine C76_dark_fails _ { oneHeat with mjup := 1 / 20 } rfl (by norm_num [oneHeat]) (by norm_num [oneHeat]) x _
    ⟨fun _ => 1, 1, 1, 1 / 4⟩ (by simp [oneHeat]) one_pos (by norm_num) one_pos (by norm_num) ?_
  rw [hs]; norm_num

/-- three steps of a star of four steps each -/
example : counted false 4 (1 / 8) 0 ([1, 2, 3].flatMap (starStep 4 true)) = 24 := by
  rw [C76_rate_fails 4 (by norm_num) (1 / 8) (by norm_num)]; norm_num

example : counted true 4 (1 / 8) 0 ([1, 2, 3].flatMap (starStep 4 true)) = 6 := by
  rw [C76_rate_partial 4 (by norm_num) (1 / 8) (by norm_num)]; norm_num

/-- masses 1, 2, 4 and powers 0, 40, 50: a star of mass 3 has 10⁴⁵ photons, one of mass 1/2 has 10⁵⁰ -/
example : let mass : ℕ → ℝ := ![1, 2, 4] ∘ Fin.ofNat 3
    let nlyc : ℕ → ℝ := ![0, 40, 50] ∘ Fin.ofNat 3
    stellar 3 mass nlyc 3 = some ((10 : ℝ) ^ (45 : ℝ)) ∧ stellar 3 mass nlyc (1 / 2) = some ((10 : ℝ) ^ (50 : ℝ)) := by
  refine ⟨?_, ?_⟩
  · simp [stellar, findBin, photons, Fin.ofNat]
    norm_num
  · simp [stellar, findBin, photons, Fin.ofNat]
    norm_num

end StarHeat

end Gandalf
