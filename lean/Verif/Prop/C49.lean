import Verif.Proof.Units

/-!
# C49 – unit conversions are inverse to each other
-/

set_option autoImplicit false

namespace Gandalf
open Units

/-- the parameters with their default output units (Parameters.cpp:192-235) -/
def exUnits : Units.Params := ⟨fun _ => "", fun k =>
  match k with
  | "r" => "pc" | "m" => "m_sun" | "t" => "myr" | "v" => "km_s" | "a" => "km_s2" | "rho" => "g_cm3"
  | "sigma" => "m_sun_pc2" | "press" => "Pa" | "f" => "N" | "E" => "J" | "mom" => "m_sunkm_s"
  | "angmom" => "m_sunkm2_s" | "angvel" => "rad_s" | "dmdt" => "m_sun_yr" | "L" => "L_sun" | "kappa" => "m2_kg"
  | "B" => "tesla" | "Q" => "C" | "Jcur" => "C_s_m2" | "u" => "J_kg" | "dudt" => "J_kg_s" | "temp" => "K"
  | _ => ""⟩

/-- the default units with one of them replaced -/
def exUnitsWith (k unit : String) : Units.Params :=
  { exUnits with outunit := fun k' => if k' = k then unit else exUnits.outunit k' }

theorem exUnits_recognised : Recognised (overwrite false exUnits) := by
  simp [Recognised, looked, overwrite, exUnits, SIUnit, siKey, key]

/-- **C49.** Whatever units are chosen, dimensionless or not: if set-up raises no error, converting to code units and back,
in either order, returns the value – for input units, output units, SI units and cgs units. -/
theorem C49_round_trip (dimensionless read : Bool) (p : Units.Params) (U : Quantity → SimUnit)
    (h : setupUnits dimensionless read p = some U) (q : Quantity) (x : ℝ) :
    (U q).codeToInput ((U q).inputToCode x) = x ∧ (U q).inputToCode ((U q).codeToInput x) = x ∧
    (U q).codeToOutput ((U q).outputToCode x) = x ∧ (U q).outputToCode ((U q).codeToOutput x) = x ∧
    (U q).codeToSI ((U q).siToCode x) = x ∧ (U q).siToCode ((U q).codeToSI x) = x ∧
    (U q).codeToCGS ((U q).cgsToCode x) = x ∧ (U q).cgsToCode ((U q).codeToCGS x) = x := by
  have key : 0 < (U q).inscale ∧ 0 < (U q).outscale ∧ 0 < (U q).outSI ∧ 0 < (U q).outcgs := by
    unfold setupUnits at h
    split_ifs at h with h1 h2
    · obtain rfl := Option.some.inj h
      simp [SimUnit.default]
    · obtain rfl := Option.some.inj h
      obtain ⟨_, _, e, a, b, _, d⟩ := units_spec h2 q
      exact ⟨a, b, d, by rw [e]; exact mul_pos (cgs_pos q) d⟩
  obtain ⟨a, b, c, d⟩ := key
  refine ⟨?_, ?_, ?_, ?_, ?_, ?_, ?_, ?_⟩ <;>
    simp only [SimUnit.codeToInput, SimUnit.inputToCode, SimUnit.codeToOutput, SimUnit.outputToCode, SimUnit.codeToSI,
      SimUnit.siToCode, SimUnit.codeToCGS, SimUnit.cgsToCode] <;> field_simp

/-- **C49, composition.** With physical units, input, output and SI values of the same code value agree: the value in the
output unit times the unit is the SI value, and so is the value in the input unit times the unit; and the
scale to any other unit `w` gives a value which times `w` is again the SI value.  So converting via a
third unit is converting directly. -/
theorem C49_compose (read : Bool) (p : Units.Params) (U : Quantity → SimUnit) (h : setupUnits false read p = some U)
    (q : Quantity) (x : ℝ) :
    (U q).codeToOutput x * (U q).outSI = (U q).codeToSI x ∧
    (U q).codeToInput x * (U q).inSI = (U q).codeToSI x ∧
    ∀ w s, (U q).outputScale q w = some s → ∃ y, SIUnit q w = some y ∧ x * s * y = (U q).codeToSI x := by
  unfold setupUnits at h
  rw [if_neg (by simp)] at h
  split_ifs at h with h2
  obtain rfl := Option.some.inj h
  obtain ⟨e1, e2, e, a, b, c, d⟩ := units_spec h2 q
  refine ⟨rfl, ?_, ?_⟩
  · simp only [SimUnit.codeToInput, SimUnit.codeToSI]
    rw [mul_assoc, e1, mul_assoc, e2]
  · intro w s hs
    obtain ⟨y, hy, rfl⟩ := Option.map_eq_some_iff.mp hs
    have hy' := (SIUnit_pos hy).ne'
    refine ⟨y, hy, ?_⟩
    simp only [SimUnit.codeToSI]
    rw [e1, mul_assoc x (SimUnit.outscale _), e2]
    field_simp

/-- **C49, the units form a system.** For all recognised units: the code units of the mechanical quantities other
than luminosity are the products of the code units of mass, length and time that their dimensions say; gravity has
`G = 1` in code units; and temperature is such that the specific energy of one code unit is `k_B T / m_H`. -/
theorem C49_system (read : Bool) (p : Units.Params) (U : Quantity → SimUnit) (h : setupUnits false read p = some U) :
    let c := fun q => (U q).codeToSI 1
    (∀ q, Mechanical q → q ≠ .L → c q = dim (c .m) (c .r) (c .t) q) ∧
    G_const * (c .m * c .m / c .r ^ 2) = c .f ∧
    k_boltzmann * c .temp = m_hydrogen * c .u := by
  unfold setupUnits at h
  rw [if_neg (by simp)] at h
  split_ifs at h with h2
  obtain rfl := Option.some.inj h
  have hb := base_pos h2
  have e : ∀ q, (units (overwrite read p) q).codeToSI 1 = codeUnit (base (overwrite read p)) q := by
    intro q
    obtain ⟨_, e2, _⟩ := units_spec h2 q
    simp only [SimUnit.codeToSI, one_mul]
    exact e2
  simp only [e]
  have hr := si_pos (h2 .r (by simp [looked])).2
  have hm := si_pos (h2 .m (by simp [looked])).2
  have hG := timeUnit_sq hr hm
  obtain ⟨b1, b2, b3⟩ := hb
  have hG' : G_const * (base (overwrite read p)).m * (base (overwrite read p)).t ^ 2 =
      (base (overwrite read p)).r ^ 3 := hG
  refine ⟨?_, ?_, ?_⟩
  · intro q hq hL
    cases q <;> first
      | (simp [Mechanical] at hq; done)
      | (simp at hL; done)
      | (simp only [codeUnit, dim]; field_simp; done)
      | (simp only [codeUnit, dim]; done)
      | rfl
  · simp only [codeUnit]
    rw [← mul_div_assoc, div_eq_div_iff (by positivity) (by positivity)]
    linear_combination (base (overwrite read p)).m * hG'
  · have : k_boltzmann ≠ 0 := by norm_num [k_boltzmann]
    simp only [codeUnit]
    field_simp

/-- **C49, cgs.** For every mechanical quantity other than pressure, the value of an SI unit in cgs is what 1000 g, 100 cm
and 1 s give. -/
theorem C49_cgs (read : Bool) (p : Units.Params) (U : Quantity → SimUnit) (h : setupUnits false read p = some U)
    (q : Quantity) (hq : Mechanical q) (hp : q ≠ .press) (x : ℝ) :
    (U q).codeToCGS x = (U q).codeToSI x * dim 1000 100 1 q := by
  unfold setupUnits at h
  rw [if_neg (by simp)] at h
  split_ifs at h with h2
  obtain rfl := Option.some.inj h
  obtain ⟨e1, e2, e, a, b, c, d⟩ := units_spec h2 q
  have : cgs q = dim 1000 100 1 q := by
    cases q <;> first
      | (simp [Mechanical] at hq; done)
      | (simp at hp; done)
      | (norm_num [cgs, dim]; done)
  simp only [SimUnit.codeToCGS, SimUnit.codeToSI]
  rw [e, this]; ring

/-- **C49, named units.** Every unit name other than `GJ` is recognised exactly if it is one of the named
units, and has the value its name says. -/
theorem C49_named (q : Quantity) (unit : String) (h : ¬ (q = .E ∧ unit = "GJ")) :
    SIUnit q unit = named q unit := by
  have hlt : ∀ a b : ℝ, a = b → (some a : Option ℝ) = some b := fun a b h => by rw [h]
  cases q <;> simp only [SIUnit, named] <;> (repeat' split) <;>
    first
      | rfl
      | (exfalso; simp_all; done)
      | (apply hlt; norm_num [dim, myr, yr, day]; done)
      | (apply hlt; norm_num [dim, myr, yr, day]; ring; done)

/-- **C49, snapshots.** A value written to a snapshot and read back by the same simulation is the value.  (The
parameters `forceinunit` and `forceoutunit` are set nowhere.) -/
theorem C49_snapshot (dimensionless : Bool) (p : Units.Params) (U : Quantity → SimUnit)
    (h : setupUnits dimensionless false p = some U) (hf : p.inunit "force" = "" ∧ p.outunit "force" = "")
    (q : Quantity) (x : ℝ) :
    readValue (U q) (writeValue (U q) x).2 (writeValue (U q) x).1 = x := by
  have e : (U q).inscale = (U q).outscale ∧ 0 < (U q).outscale := by
    unfold setupUnits at h
    split_ifs at h with h1 h2
    · obtain rfl := Option.some.inj h
      simp [SimUnit.default]
    · obtain rfl := Option.some.inj h
      obtain ⟨e1, e2, _, a, b, c, d⟩ := units_spec h2 q
      refine ⟨?_, b⟩
      have e3 : (units (overwrite false p) q).inSI = (units (overwrite false p) q).outSI := by
        by_cases hq : q = .f
        · subst hq
          show si .f ((overwrite false p).inunit "force") = si .f ((overwrite false p).outunit "force")
          rw [show (overwrite false p).inunit "force" = p.inunit "force" from rfl,
            show (overwrite false p).outunit "force" = p.outunit "force" from rfl, hf.1, hf.2]
        · cases q <;> first
            | rfl
            | (simp at hq; done)
      rw [e3, ← e2] at e1
      exact mul_right_cancel₀ d.ne' e1
  obtain ⟨e1, e2⟩ := e
  simp only [readValue, readUnit, writeValue, e1]
  field_simp

/-- The unit of one quantity after set-up from the defaults with one unit replaced. -/
theorem exUnitsWith_setup (k unit : String) (h : Recognised (overwrite false (exUnitsWith k unit))) :
    setupUnits false false (exUnitsWith k unit) = some (units (overwrite false (exUnitsWith k unit))) := by
  unfold setupUnits
  rw [if_neg (by simp), if_pos h]

/-- **C49, gigajoule.** The unit called `GJ` is 10¹² J. -/
theorem C49_GJ_wrong : SIUnit .E "GJ" = some (10 ^ 12) ∧ named .E "GJ" = some (10 ^ 9) := by
  constructor
  · simp [SIUnit]; norm_num
  · rfl

/-- **C49, pressure in cgs.** Pressures in cgs are a hundred times too small, for any choice of units. -/
theorem C49_cgs_pressure_wrong (read : Bool) (p : Units.Params) (U : Quantity → SimUnit)
    (h : setupUnits false read p = some U) (x : ℝ) :
    100 * (U .press).codeToCGS x = (U .press).codeToSI x * dim 1000 100 1 .press := by
  unfold setupUnits at h
  rw [if_neg (by simp)] at h
  split_ifs at h with h2
  obtain rfl := Option.some.inj h
  obtain ⟨_, _, e, _⟩ := units_spec h2 .press
  simp only [SimUnit.codeToCGS, SimUnit.codeToSI]
  rw [e]
  norm_num [cgs, dim]
  ring

/-- **C49, luminosity.** The code unit of luminosity is set to mass over time instead of energy over time: with
the default units it is too small by the factor `(r/t)²`, which is the square of a speed and not 1. -/
theorem C49_luminosity_wrong : ∃ U, setupUnits false false exUnits = some U ∧
    let c := fun q => (U q).codeToSI 1
    c .L * (c .r / c .t) ^ 2 = dim (c .m) (c .r) (c .t) .L ∧ c .L ≠ dim (c .m) (c .r) (c .t) .L := by
  have h2 := exUnits_recognised
  refine ⟨units (overwrite false exUnits), by unfold setupUnits; rw [if_neg (by simp), if_pos h2], ?_⟩
  have hb := base_pos h2
  have e : ∀ q, (units (overwrite false exUnits) q).codeToSI 1 = codeUnit (base (overwrite false exUnits)) q := by
    intro q
    obtain ⟨_, e2, _⟩ := units_spec h2 q
    simp only [SimUnit.codeToSI, one_mul]
    exact e2
  have hr := si_pos (h2 .r (by simp [looked])).2
  have hm := si_pos (h2 .m (by simp [looked])).2
  have hG : G_const * (base (overwrite false exUnits)).m * (base (overwrite false exUnits)).t ^ 2 =
      (base (overwrite false exUnits)).r ^ 3 := timeUnit_sq hr hm
  have vr : (base (overwrite false exUnits)).r = r_pc := by
    simp [base, overwrite, exUnits, si, SIUnit]
  have vm : (base (overwrite false exUnits)).m = m_sun := by
    simp [base, overwrite, exUnits, si, SIUnit]
  obtain ⟨b1, b2, b3⟩ := hb
  simp only [e, codeUnit, dim]
  have key : (base (overwrite false exUnits)).m / (base (overwrite false exUnits)).t *
      ((base (overwrite false exUnits)).r / (base (overwrite false exUnits)).t) ^ 2 =
      (base (overwrite false exUnits)).m * (base (overwrite false exUnits)).r ^ 2 /
        (base (overwrite false exUnits)).t ^ 2 / (base (overwrite false exUnits)).t := by
    field_simp
  refine ⟨key, ?_⟩
  intro hc
  rw [← key] at hc
  have h1 : ((base (overwrite false exUnits)).r / (base (overwrite false exUnits)).t) ^ 2 = 1 := by
    have hmt : (base (overwrite false exUnits)).m / (base (overwrite false exUnits)).t ≠ 0 := by positivity
    have := mul_left_cancel₀ hmt (a := (base (overwrite false exUnits)).m / (base (overwrite false exUnits)).t)
      (b := 1) (c := ((base (overwrite false exUnits)).r / (base (overwrite false exUnits)).t) ^ 2)
      (by rw [mul_one]; exact hc)
    exact this.symm
  rw [div_pow, div_eq_one_iff_eq (by positivity)] at h1
  rw [← h1] at hG
  have : G_const * (base (overwrite false exUnits)).m = (base (overwrite false exUnits)).r := by
    have hr2 : (base (overwrite false exUnits)).r ^ 2 ≠ 0 := by positivity
    apply mul_right_cancel₀ hr2
    linear_combination hG
  rw [vr, vm] at this
  norm_num [G_const, m_sun, r_pc] at this

/-- **C49, force.** The unit chosen for forces is a label only: with `foutunit = dyn` forces are written in
newton and labelled `dyn`. -/
theorem C49_force_unit_ignored : ∃ U, setupUnits false false (exUnitsWith "f" "dyn") = some U ∧
    ∀ x, (writeValue (U .f) x).2 = "dyn" ∧ (writeValue (U .f) x).1 = (U .f).codeToSI x ∧
      named .f "dyn" = some (1 / 10 ^ 5) := by
  refine ⟨_, exUnitsWith_setup _ _ ?_, ?_⟩
  · simp [Recognised, looked, overwrite, exUnits, exUnitsWith, SIUnit, siKey, key]
  · intro x
    refine ⟨?_, ?_, ?_⟩
    · simp [writeValue, units, setupOne, labelKey, key, overwrite, exUnitsWith]
    · have : (units (overwrite false (exUnitsWith "f" "dyn")) .f).outSI = 1 := by
        simp [units, setupOne, siKey, overwrite, exUnitsWith, exUnits, si, SIUnit]
      simp only [writeValue, SimUnit.codeToSI, this, mul_one]
    · simp [named, dim]; norm_num

/-- **C49, labels.** Magnetic field, charge and current density are labelled with the unit of opacity. -/
theorem C49_labels_wrong (p : Units.Params) (U : Quantity → SimUnit) (h : setupUnits false false p = some U) :
    (U .B).outunit = p.outunit "kappa" ∧ (U .Q).outunit = p.outunit "kappa" ∧
    (U .Jcur).outunit = p.outunit "kappa" := by
  unfold setupUnits at h
  rw [if_neg (by simp)] at h
  split_ifs at h with h2
  obtain rfl := Option.some.inj h
  exact ⟨rfl, rfl, rfl⟩

/-- **C49, snapshots in other units.** The units named in a snapshot file are not used: a length of 1 au in a file
that says so is read by a simulation in parsec as 1 parsec. -/
theorem C49_snapshot_units_ignored : ∃ U, setupUnits false false exUnits = some U ∧
    (U .r).codeToSI (readValue (U .r) "au" 1) = r_pc ∧ named .r "au" = some r_au := by
  refine ⟨units (overwrite false exUnits), by
    unfold setupUnits; rw [if_neg (by simp), if_pos exUnits_recognised], ?_, rfl⟩
  have : r_pc ≠ 0 := by norm_num [r_pc]
  simp [SimUnit.codeToSI, readValue, readUnit, units, setupBase, overwrite, exUnits, si, SIUnit, key, this]

/-- The hypotheses are met by the default parameters, and by dimensionless runs. -/
example : ∃ U, setupUnits false false exUnits = some U :=
  ⟨_, by unfold setupUnits; rw [if_neg (by simp), if_pos exUnits_recognised]⟩
example : setupUnits true false exUnits = some fun _ => SimUnit.default := by simp [setupUnits]
example : setupUnits false false (exUnitsWith "r" "parsec") = none := by
  unfold setupUnits
  rw [if_neg (by simp), if_neg]
  intro h
  have := (h .r (by simp [looked])).2
  simp [overwrite, exUnitsWith, SIUnit, siKey, key] at this

end Gandalf
