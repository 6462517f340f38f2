import Verif.Spec.Radws
import Verif.Prop.C75

/-!
# C75 – radiative cooling: the ideal gas law, pressures between entries, the ends of the search, the thermal time
-/

set_option autoImplicit false

namespace Gandalf

open Radws Real

/-- **C75, gas law.** Pressure and temperature of the table's equation of state obey the law of ideal gases with the mean
molecular weight of the same entry, `P μ = ρ T` in units where the gas constant is 1. -/
theorem C75_temperature (t : Table) (rho u : ℝ) :
    t.pressure rho u * t.getMu rho u = rho * t.temperature rho u := by
  simp only [Table.pressure, Table.temperature]
  ring

example : (toy.pressure 3 2) = (3 / 2 - 1) * 3 * 2 := rfl

/-- **C75, energy from pressure.** In a row of the table whose pressures do not decrease, the energy for a pressure is that
of an ideal gas with the adiabatic index of the entry whose pressure is nearest, also below the first and above the last
entry. -/
theorem C75_pressure_nearest (t : Table) (rho P : ℝ) (hn : 2 ≤ t.ntemp)
    (hm : ∀ j k, j ≤ k → k < t.ntemp → t.entry (t.iDens rho) rho j ≤ t.entry (t.iDens rho) rho k) :
    ∃ c, Nearest (t.entry (t.iDens rho) rho) t.ntemp P c ∧
      t.energyFromPressure rho P = P / (rho * (t.gamma (t.iDens rho) c - 1)) := by
  set f := t.entry (t.iDens rho) rho with hf
  unfold Table.energyFromPressure
  simp only [← hf]
  by_cases h1 : f (t.ntemp - 1) < P
  · rw [if_pos h1]
    refine ⟨t.ntemp - 1, ⟨by omega, fun j hj => ?_⟩, rfl⟩
    have := hm j (t.ntemp - 1) (by omega) (by omega)
    rw [abs_of_nonpos (by linarith), abs_of_nonpos (by linarith)]
    linarith
  rw [if_neg h1]
  by_cases h2 : f 0 > P
  · rw [if_pos h2]
    refine ⟨0, ⟨by omega, fun j hj => ?_⟩, rfl⟩
    have := hm 0 j (by omega) hj
    rw [abs_of_nonneg (by linarith), abs_of_nonneg (by linarith)]
    linarith
  rw [if_neg h2]
  obtain ⟨g1, g2, g3⟩ := C75_pressure_entry f t.ntemp P hn (not_lt.mp h2) (not_lt.mp h1)
  set l := bisectIdx f P 0 (t.ntemp - 1)
  have out : ∀ j, j < t.ntemp → min (P - f l) (f (l + 1) - P) ≤ |f j - P| := by
    intro j hj
    by_cases hjl : j ≤ l
    · have := hm j l hjl (by omega)
      rw [abs_of_nonpos (by linarith)]
      exact (min_le_left _ _).trans (by linarith)
    · have := hm (l + 1) j (by omega) hj
      rw [abs_of_nonneg (by linarith)]
      exact (min_le_right _ _).trans (by linarith)
  by_cases h3 : f (l + 1) - P < P - f l
  · refine ⟨l + 1, ⟨g1, fun j hj => ?_⟩, by rw [if_pos h3]⟩
    rw [abs_of_nonneg (by linarith)]
    have := out j hj
    rwa [min_eq_right h3.le] at this
  · refine ⟨l, ⟨by omega, fun j hj => ?_⟩, by rw [if_neg h3]⟩
    rw [abs_of_nonpos (by linarith)]
    have := out j hj
    rw [min_eq_left (not_lt.mp h3)] at this
    linarith

/-- two entries at least, with pressures that rise -/
example : (2 : ℕ) ≤ toy.ntemp ∧ ∀ j k, j ≤ k → k < toy.ntemp → toy.entry (toy.iDens 3) 3 j ≤ toy.entry (toy.iDens 3) 3 k := by
  refine ⟨by simp [toy], fun j k h _ => ?_⟩
  have h' : (10 : ℝ) ^ j ≤ 10 ^ k := pow_le_pow_right₀ (by norm_num) h
  simp only [Table.entry, toy]
  nlinarith

/-- the ends carry the balance of heating and cooling at their temperature -/
structure Radws.Consistent (E : Env) (B : Br) : Prop where
  lo : B.bl = ebal E E.dudt B.Tl B.kl B.kpl
  hi : B.bh = ebal E E.dudt B.Th B.kh B.kph
  ends : B.bl * B.bh ≤ 0

theorem Radws.down_ends (t : Table) (i : ℕ) (E : Env) (top : ℕ) : ∀ (il : ℕ) (B B' : Br) (jl : ℕ),
    B.Tl = t.T il → B.kl = t.kappa i il → B.kpl = t.kappap i il →
    (B.Th = if il = top then t.T (top + 2) else t.T (il + 1)) → il ≤ top →
    B.bl = ebal E E.dudt B.Tl B.kl B.kpl → B.bh = ebal E E.dudt B.Th B.kh B.kph →
    down t i E il B = some (B', jl) →
    Consistent E B' ∧ jl ≤ top ∧ B'.Tl = t.T jl ∧ B'.kl = t.kappa i jl ∧ B'.kpl = t.kappap i jl ∧
      B'.Th = if jl = top then t.T (top + 2) else t.T (jl + 1) := by
  intro il
  induction il with
  | zero =>
    intro B B' jl h1 h2 h3 h4 h5 h6 h7 h
    rw [down] at h
    split_ifs at h with hb
    obtain ⟨rfl, rfl⟩ := Prod.mk.inj (Option.some.inj h)
    exact ⟨⟨h6, h7, not_lt.mp hb⟩, h5, h1, h2, h3, h4⟩
  | succ il ih =>
    intro B B' jl h1 h2 h3 h4 h5 h6 h7 h
    rw [down] at h
    by_cases hb : B.bl * B.bh > 0
    · rw [if_pos hb] at h
      refine ih _ B' jl rfl rfl rfl ?_ (by omega) rfl h6 h
      rw [if_neg (by omega)]
      exact h1
    · rw [if_neg hb] at h
      obtain ⟨rfl, rfl⟩ := Prod.mk.inj (Option.some.inj h)
      exact ⟨⟨h6, h7, not_lt.mp hb⟩, h5, h1, h2, h3, h4⟩

theorem Radws.up_ends (t : Table) (i : ℕ) (E : Env) (c : ℕ) : ∀ (k ih : ℕ) (B B' : Br) (jh : ℕ),
    B.Th = t.T ih → B.kh = t.kappa i ih → B.kph = t.kappap i ih →
    (B.Tl = if ih = c + 1 then t.T (c - 1) else t.T (ih - 1)) → c + 1 ≤ ih →
    B.bl = ebal E E.dudt B.Tl B.kl B.kpl → B.bh = ebal E E.dudt B.Th B.kh B.kph →
    up t i E k ih B = some (B', jh) →
    Consistent E B' ∧ c + 1 ≤ jh ∧ jh ≤ ih + k ∧ B'.Th = t.T jh ∧ B'.kh = t.kappa i jh ∧ B'.kph = t.kappap i jh ∧
      B'.Tl = if jh = c + 1 then t.T (c - 1) else t.T (jh - 1) := by
  intro k
  induction k with
  | zero =>
    intro ih B B' jh h1 h2 h3 h4 h5 h6 h7 h
    rw [up] at h
    split_ifs at h with hb
    obtain ⟨rfl, rfl⟩ := Prod.mk.inj (Option.some.inj h)
    exact ⟨⟨h6, h7, not_lt.mp hb⟩, h5, by omega, h1, h2, h3, h4⟩
  | succ k IH =>
    intro ih B B' jh h1 h2 h3 h4 h5 h6 h7 h
    rw [up] at h
    by_cases hb : B.bl * B.bh > 0
    · rw [if_pos hb] at h
      obtain ⟨a, b, c', d⟩ := IH (ih + 1) _ B' jh rfl rfl rfl (by
        rw [if_neg (by omega), Nat.add_sub_cancel]; exact h1) (by omega) h7 rfl h
      exact ⟨a, b, by omega, d⟩
    · rw [if_neg hb] at h
      obtain ⟨rfl, rfl⟩ := Prod.mk.inj (Option.some.inj h)
      exact ⟨⟨h6, h7, not_lt.mp hb⟩, h5, by omega, h1, h2, h3, h4⟩

/-- **C75, the ends of the search.** Whatever the opacities: where the search among the entries ends, the balance of heating
and cooling changes its sign between the two ends (or is 0 at one of them); the ends are neighbouring entries, or those on
either side of the entry `c` from which the search began; on the way down `itemplow` is the lower end. -/
theorem C75_bracket (t : Table) (i : ℕ) (E : Env) (c : ℕ) (B : Br) (il : ℕ) :
    (searched t i E true c = some (B, il) → Consistent E B ∧ il ≤ c - 1 ∧ B.Tl = t.T il ∧ B.kl = t.kappa i il ∧
      B.kpl = t.kappap i il ∧ B.Th = if il = c - 1 then t.T (c + 1) else t.T (il + 1)) ∧
    (searched t i E false c = some (B, il) → Consistent E B ∧ c ≤ il ∧ il + 1 < t.ntemp ∧ B.Th = t.T (il + 1) ∧
      B.kh = t.kappa i (il + 1) ∧ B.kph = t.kappap i (il + 1) ∧ B.Tl = if il = c then t.T (c - 1) else t.T il) := by
  constructor
  · intro h
    unfold searched at h
    by_cases hc : c = 0 ∨ c + 1 ≥ t.ntemp
    · rw [if_pos hc] at h; simp at h
    rw [if_neg hc, if_pos rfl] at h
    have h0 : c ≠ 0 := fun h => hc (Or.inl h)
    have := down_ends t i E (c - 1) (c - 1) (coolStart t i E c) B il rfl rfl rfl (by
      rw [if_pos rfl, show c - 1 + 2 = c + 1 by omega]; rfl) le_rfl rfl rfl h
    rwa [show c - 1 + 2 = c + 1 by omega] at this
  · intro h
    unfold searched at h
    by_cases hc : c = 0 ∨ c + 1 ≥ t.ntemp
    · rw [if_pos hc] at h; simp at h
    rw [if_neg hc] at h
    simp only [Bool.false_eq_true, if_false, Option.map_eq_some_iff, Prod.mk.injEq] at h
    obtain ⟨⟨B', jh⟩, h1, h2, h3⟩ := h
    simp only at h2 h3
    subst h2
    have hc' : c + 1 < t.ntemp := by
      by_contra hcon
      exact hc (Or.inr (by omega))
    obtain ⟨a, b, b', d, e, f, g⟩ := up_ends t i E c _ (c + 1) (heatStart t i E c) B' jh rfl rfl rfl (by
      rw [if_pos rfl]; rfl) le_rfl rfl rfl h1
    have hj : jh = il + 1 := by omega
    subst hj
    refine ⟨a, by omega, by omega, d, e, f, ?_⟩
    rw [g]
    by_cases hic : il = c
    · rw [if_pos (by omega), if_pos hic]
    · rw [if_neg (by omega), if_neg hic, Nat.add_sub_cancel]

/-- a table in which gas of equilibrium 20 is between the entries 10 and 100 around the entry 1 -/
example : ∃ B, searched toy 0 (toyEnv 20 (10 ^ 1)) true 1 = some (B, 0) := by
  refine ⟨coolStart toy 0 (toyEnv 20 (10 ^ 1)) 1, ?_⟩
  unfold searched
  rw [if_neg (by simp [toy]), if_pos rfl]
  refine down_stop _ _ ?_
  simp only [coolStart, toy_T]
  simp only [toy, toyEnv, ebal]
  norm_num

/-- **C75, thermal time.** With the equilibrium energy and the thermal time of the code, where that is positive, the energy of
a particle begins to change at the rate at which the flow heats it and radiation at its own temperature cools it, and ends
at the energy of the entry of the equilibrium temperature. -/
theorem C75_thermal (t : Table) (i : ℕ) (E : Env) (small temp u Teq : ℝ) (hs : 0 < small)
    (hne : ebal E 0 Teq (t.kappa i (t.iTemp (logb 10 Teq))) (t.kappap i (t.iTemp (logb 10 Teq))) ≠
      ebal E 0 temp (t.kappa i (t.iTemp (logb 10 temp))) (t.kappap i (t.iTemp (logb 10 temp))))
    (hpos : small < (thermal t i E temp u Teq).2) :
    let f := integrate small u (thermal t i E temp u Teq).1 (thermal t i E temp u Teq).2
    f 0 = u ∧
    HasDerivAt f (E.dudt - 4 * E.rad * (temp ^ 4 - E.tamb ^ 4) / (E.col2 * t.kappa i (t.iTemp (logb 10 temp)) +
      1 / t.kappap i (t.iTemp (logb 10 temp)))) 0 ∧
    ∀ dt, 40 * (thermal t i E temp u Teq).2 ≤ dt → f dt = t.energy i (t.iTemp (logb 10 Teq)) := by
  have e2 : (thermal t i E temp u Teq).2 = ((thermal t i E temp u Teq).1 - u) / (E.dudt +
      ebal E 0 temp (t.kappa i (t.iTemp (logb 10 temp))) (t.kappap i (t.iTemp (logb 10 temp)))) := by
    simp only [thermal]
    rw [if_neg hne]
  rw [e2] at hpos ⊢
  obtain ⟨h1, h2, _, _, h3⟩ := C75_relax small u (thermal t i E temp u Teq).1 _ E.dudt hs hpos
  refine ⟨h1, ?_, fun dt hdt => (h3 dt hdt).1⟩
  refine h2.congr_deriv ?_
  simp only [ebal]
  ring

/-- gas of temperature 10 and energy 10 with equilibrium 100 -/
example : let E := toyEnv 100 (10 ^ 1)
    ebal E 0 (10 ^ 2) (toy.kappa 0 (toy.iTemp (logb 10 (10 ^ 2)))) (toy.kappap 0 (toy.iTemp (logb 10 (10 ^ 2)))) ≠
      ebal E 0 (10 ^ 1) (toy.kappa 0 (toy.iTemp (logb 10 (10 ^ 1)))) (toy.kappap 0 (toy.iTemp (logb 10 (10 ^ 1)))) ∧
    1 / 10 ^ 12 < (thermal toy 0 E (10 ^ 1) 10 (10 ^ 2)).2 := by
  intro E
  have hne : ebal E 0 (10 ^ 2) (toy.kappa 0 (toy.iTemp (logb 10 (10 ^ 2)))) (toy.kappap 0 (toy.iTemp (logb 10 (10 ^ 2)))) ≠
      ebal E 0 (10 ^ 1) (toy.kappa 0 (toy.iTemp (logb 10 (10 ^ 1)))) (toy.kappap 0 (toy.iTemp (logb 10 (10 ^ 1)))) := by
    simp only [E, toy, toyEnv, ebal]
    norm_num
  refine ⟨hne, ?_⟩
  have h2 : toy.iTemp (logb 10 (10 ^ 2)) = 2 := by
    rw [show ((10 : ℝ) ^ 2) = 10 ^ (2 : ℕ) from rfl, toy_log]; exact toy_entry _ 2 (by norm_num) (by simp)
  simp only [thermal]
  rw [if_neg hne, h2]
  simp only [E, toy, toyEnv, ebal]
  norm_num

end Gandalf
