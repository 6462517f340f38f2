import Verif.Proof.StartUp

set_option autoImplicit false

namespace Gandalf

noncomputable section

open StartUp

variable {n : ℕ} {ι δ : Type}

/-- First forces of SPH with self-gravity: acceleration, potential and heating are those of the
criterion chosen, which reads the result of one pass with the geometric criterion, once each and
whatever the particles held before; the external potential is added once; the step begins with this
acceleration, no particle stays active and the criterion chosen is in force. -/
theorem C100_sph (F : Law n ι δ) (P : (ι → δ) → ι → δ) (ext : δ → Vec n ℝ × ℝ) (mac : Mac)
    (sys : ι → Part n δ) (i : ι) :
    let D := P fun j => (sys j).rest
    let p := (sphStart F P ext true mac sys).2 i
    (sphStart F P ext true mac sys).1 = mac ∧
    p.rest = D i ∧
    p.a = (fun k => (meant F mac D i).a k + (ext (D i)).1 k) ∧
    p.atree = (meant F mac D i).atree ∧
    p.gpot = (meant F mac D i).gpot + (ext (D i)).2 ∧
    p.dudt = (meant F mac D i).dudt ∧ p.div_v = (meant F mac D i).div_v ∧
    p.a0 = p.a ∧ p.active = false := by
  intro D p
  by_cases hm : mac = .geometric
  · have hp : passMac mac 0 = .geometric := by simp [passMac, hm]
    obtain ⟨e1, e2⟩ := sphPass_val F P mac (mac, sphInit sys) 0 i D (by simp [D, sphInit])
    have hs : sphStart F P ext true mac sys = ((sphPass F P mac (mac, sphInit sys) 0).1,
        sphFinish ext (sphPass F P mac (mac, sphInit sys) 0).2) := by
      simp [sphStart, nIter, hm, range_one]
    have hb : build (passMac mac 0) (mac, sphInit sys).2 = .geometric := by rw [hp]; rfl
    simp only [hb] at e2
    have hp' : p = sphFinish ext (sphPass F P mac (mac, sphInit sys) 0).2 i := by
      show (sphStart F P ext true mac sys).2 i = _
      rw [hs]
    have hf : meant F mac D = F .geometric D := by simp [meant, rough, hm]
    rw [hs, hf, hp']
    unfold sphFinish
    rw [e1, hp, e2]
    exact ⟨hm.symm, rfl, rfl, rfl, rfl, rfl, rfl, rfl, rfl⟩
  · have hp : passMac mac 0 = .geometric := by simp [passMac, hm]
    have hp1 : passMac mac 1 = mac := by simp [passMac]
    have e2 : ∀ j, _ := fun j =>
      (sphPass_val F P mac (mac, sphInit sys) 0 j D (by simp [D, sphInit])).2
    have hb : build (passMac mac 0) (mac, sphInit sys).2 = .geometric := by rw [hp]; rfl
    simp only [hb] at e2
    obtain ⟨f1, f2⟩ := sphPass_val F P mac (sphPass F P mac (mac, sphInit sys) 0) 1 i D (by
      simp only [e2]; rfl)
    have hb1 : build (passMac mac 1) (sphPass F P mac (mac, sphInit sys) 0).2 =
        .relative mac fun i => ((rough F D i).atree, (rough F D i).gpot) := by
      rw [hp1]
      cases mac with
      | geometric => exact absurd rfl hm
      | gadget2 => simp only [build, e2]; rfl
      | eigenmac => simp only [build, e2]; rfl
    have hs : sphStart F P ext true mac sys =
        ((sphPass F P mac (sphPass F P mac (mac, sphInit sys) 0) 1).1,
          sphFinish ext (sphPass F P mac (sphPass F P mac (mac, sphInit sys) 0) 1).2) := by
      simp [sphStart, nIter, hm, range_two]
    simp only [hb1] at f2
    have hp' : p = sphFinish ext (sphPass F P mac (sphPass F P mac (mac, sphInit sys) 0) 1).2 i := by
      show (sphStart F P ext true mac sys).2 i = _
      rw [hs]
    have hf : meant F mac D =
        F (.relative mac fun i => ((rough F D i).atree, (rough F D i).gpot)) D := by
      simp [meant, hm]
    rw [hs, hf, hp']
    unfold sphFinish
    rw [f1, hp1, f2]
    exact ⟨rfl, rfl, rfl, rfl, rfl, rfl, rfl, rfl, rfl⟩

/-- The potential of the gas alone is not set back between the passes: with a criterion other than the
geometric one both passes are added to what was there before. -/
theorem C100_sph_hydro (F : Law n ι δ) (P : (ι → δ) → ι → δ) (ext : δ → Vec n ℝ × ℝ) (mac : Mac)
    (sys : ι → Part n δ) (i : ι) :
    let D := P fun j => (sys j).rest
    ((sphStart F P ext true mac sys).2 i).gpot_hydro =
      (sys i).gpot_hydro + (meant F mac D i).gpot_hydro +
        if mac = .geometric then 0 else (rough F D i).gpot_hydro := by
  intro D
  by_cases hm : mac = .geometric
  · have hp : passMac mac 0 = .geometric := by simp [passMac, hm]
    obtain ⟨_, e2⟩ := sphPass_val F P mac (mac, sphInit sys) 0 i D (by simp [D, sphInit])
    have hb : build (passMac mac 0) (mac, sphInit sys).2 = .geometric := by rw [hp]; rfl
    simp only [hb] at e2
    have hs : sphStart F P ext true mac sys = ((sphPass F P mac (mac, sphInit sys) 0).1,
        sphFinish ext (sphPass F P mac (mac, sphInit sys) 0).2) := by
      simp [sphStart, nIter, hm, range_one]
    have hf : meant F mac D = F .geometric D := by simp [meant, rough, hm]
    rw [hs, if_pos hm, add_zero, hf]
    simp only [sphFinish, e2, sphInit]
  · have hp : passMac mac 0 = .geometric := by simp [passMac, hm]
    have hp1 : passMac mac 1 = mac := by simp [passMac]
    have e2 : ∀ j, _ := fun j =>
      (sphPass_val F P mac (mac, sphInit sys) 0 j D (by simp [D, sphInit])).2
    have hb : build (passMac mac 0) (mac, sphInit sys).2 = .geometric := by rw [hp]; rfl
    simp only [hb] at e2
    obtain ⟨_, f2⟩ := sphPass_val F P mac (sphPass F P mac (mac, sphInit sys) 0) 1 i D (by
      simp only [e2]; rfl)
    have hb1 : build (passMac mac 1) (sphPass F P mac (mac, sphInit sys) 0).2 =
        .relative mac fun i => ((rough F D i).atree, (rough F D i).gpot) := by
      rw [hp1]
      cases mac with
      | geometric => exact absurd rfl hm
      | gadget2 => simp only [build, e2]; rfl
      | eigenmac => simp only [build, e2]; rfl
    have hs : sphStart F P ext true mac sys =
        ((sphPass F P mac (sphPass F P mac (mac, sphInit sys) 0) 1).1,
          sphFinish ext (sphPass F P mac (sphPass F P mac (mac, sphInit sys) 0) 1).2) := by
      simp [sphStart, nIter, hm, range_two]
    simp only [hb1] at f2
    rw [hs, if_neg hm]
    simp only [sphFinish, f2, e2, meant, hm, if_false, sphInit, rough]
    ring

/-- So the potential of the gas alone exceeds the whole potential, which radiative cooling asserts not
to happen (EnergyRadws.cpp:733), for every law of gravity of gas alone and every particle new at the
start. -/
theorem C100_hydro_fails (F : Law n ι δ) (P : (ι → δ) → ι → δ) (ext : δ → Vec n ℝ × ℝ)
    (mac : Mac) (hm : mac ≠ .geometric) (sys : ι → Part n δ) (i : ι)
    (h0 : (sys i).gpot_hydro = 0) (hF : ∀ op D, (F op D i).gpot_hydro = (F op D i).gpot)
    (hpos : ∀ op D, 0 < (F op D i).gpot) (hext : ∀ d, (ext d).2 = 0) :
    ((sphStart F P ext true mac sys).2 i).gpot < ((sphStart F P ext true mac sys).2 i).gpot_hydro := by
  rw [C100_sph_hydro, (C100_sph F P ext mac sys i).2.2.2.2.1, h0, hext, if_neg hm]
  have h1 : (meant F mac (P fun j => (sys j).rest) i).gpot_hydro =
      (meant F mac (P fun j => (sys j).rest) i).gpot := by
    simp only [meant, hm, if_false, hF]
  have h2 : 0 < (rough F (P fun j => (sys j).rest) i).gpot_hydro := by
    unfold rough
    rw [hF]
    exact hpos _ _
  rw [h1]
  linarith

namespace C100

/-- A law that gives every particle potential 3, all from gas, and acceleration 1 if cells are opened
by the acceleration, 2 if not -/
def law : Law 1 (Fin 2) ℝ := fun op _ _ =>
  match op with
  | .geometric => ⟨fun _ => 2, fun _ => 2, 3, 3, 0, 0⟩
  | .relative _ f => ⟨fun _ => (f 0).1 0 + 1, fun _ => 1, 3, 3, 0, 0⟩

/-- Two particles with accelerations from before -/
def sys : Fin 2 → Part 1 ℝ := fun _ => ⟨false, 0, fun _ => 7, fun _ => 7, 7, 0, 7, 7, fun _ => 7⟩

end C100

example : ((sphStart C100.law id (fun _ => (fun _ => 10, 0)) true .gadget2 C100.sys).2 0).a 0 = 13 := by
  rw [(C100_sph C100.law id (fun _ => (fun _ => 10, 0)) .gadget2 C100.sys 0).2.2.1]
  have h : ¬Mac.gadget2 = Mac.geometric := by decide
  simp only [meant, if_neg h]
  norm_num [rough, C100.law]

example : ((sphStart C100.law id (fun _ => (fun _ => 10, 0)) true .gadget2 C100.sys).2 0).gpot_hydro
    = 6 := by
  rw [C100_sph_hydro]
  have h : ¬Mac.gadget2 = Mac.geometric := by decide
  simp only [meant, if_neg h]
  norm_num [rough, C100.law, C100.sys]

example : ((sphStart C100.law id (fun _ => (fun _ => 10, 0)) true .eigenmac C100.sys).2 0).gpot <
    ((sphStart C100.law id (fun _ => (fun _ => 10, 0)) true .eigenmac C100.sys).2 0).gpot_hydro :=
  C100_hydro_fails _ _ _ _ (by decide) _ _ rfl (by intro op D; cases op <;> rfl)
    (by intro op D; cases op <;> norm_num [C100.law]) (fun _ => rfl)

/-- The meshless schemes with self-gravity set everything back in each pass: all is as meant, the
potential of the gas too. -/
theorem C100_mfv (F : Law n ι δ) (P : (ι → δ) → ι → δ) (stars : Bool) (mac : Mac)
    (sys : ι → Part n δ) (i : ι) :
    let D := P fun j => (sys j).rest
    let p := (mfvStart F P true stars mac sys).2 i
    (mfvStart F P true stars mac sys).1 = mac ∧
    p.rest = D i ∧ p.a = (meant F mac D i).a ∧ p.atree = (meant F mac D i).atree ∧
    p.gpot = (meant F mac D i).gpot ∧ p.gpot_hydro = (meant F mac D i).gpot_hydro ∧
    p.a0 = p.a ∧ p.active = true := by
  intro D p
  have hini : ∀ j, (mfvInit sys j).active = true := fun _ => rfl
  by_cases hm : mac = .geometric
  · have hp : passMac mac 0 = .geometric := by simp [passMac, hm]
    obtain ⟨e1, e2⟩ := mfvPass_val F P true stars rfl mac (mac, mfvInit sys) hini 0 i D
      (by simp [D, mfvInit])
    have hb : build (passMac mac 0) (mac, mfvInit sys).2 = .geometric := by rw [hp]; rfl
    simp only [hb] at e2
    have hs : mfvStart F P true stars mac sys =
        ((mfvPass F P true stars mac (mac, mfvInit sys) 0).1, fun i =>
          { (mfvPass F P true stars mac (mac, mfvInit sys) 0).2 i with
            a0 := ((mfvPass F P true stars mac (mac, mfvInit sys) 0).2 i).a }) := by
      simp [mfvStart, nIter, hm]
    have hf : meant F mac D = F .geometric D := by simp [meant, rough, hm]
    have hp' : p = { (mfvPass F P true stars mac (mac, mfvInit sys) 0).2 i with
            a0 := ((mfvPass F P true stars mac (mac, mfvInit sys) 0).2 i).a } := by
      show (mfvStart F P true stars mac sys).2 i = _
      rw [hs]
    rw [hp', hs, hf]
    simp only [e1, hp, e2]
    exact ⟨hm.symm, trivial, trivial, trivial, trivial, trivial, trivial, trivial⟩
  · have hp : passMac mac 0 = .geometric := by simp [passMac, hm]
    have hp1 : passMac mac 1 = mac := by simp [passMac]
    have e2 : ∀ j, _ := fun j => (mfvPass_val F P true stars rfl mac (mac, mfvInit sys) hini 0 j D
      (by simp [D, mfvInit])).2
    have hb : build (passMac mac 0) (mac, mfvInit sys).2 = .geometric := by rw [hp]; rfl
    simp only [hb] at e2
    obtain ⟨f1, f2⟩ := mfvPass_val F P true stars rfl mac
      (mfvPass F P true stars mac (mac, mfvInit sys) 0) (fun j => by rw [e2]) 1 i D (by
        simp only [e2]; rfl)
    have hb1 : build (passMac mac 1) (mfvPass F P true stars mac (mac, mfvInit sys) 0).2 =
        .relative mac fun i => ((rough F D i).atree, (rough F D i).gpot) := by
      rw [hp1]
      cases mac with
      | geometric => exact absurd rfl hm
      | gadget2 => simp only [build, e2]; rfl
      | eigenmac => simp only [build, e2]; rfl
    simp only [hb1] at f2
    have hs : mfvStart F P true stars mac sys =
        ((mfvPass F P true stars mac (mfvPass F P true stars mac (mac, mfvInit sys) 0) 1).1, fun i =>
          { (mfvPass F P true stars mac (mfvPass F P true stars mac (mac, mfvInit sys) 0) 1).2 i with
            a0 := ((mfvPass F P true stars mac
              (mfvPass F P true stars mac (mac, mfvInit sys) 0) 1).2 i).a }) := by
      simp [mfvStart, nIter, hm, range_two]
    have hf : meant F mac D =
        F (.relative mac fun i => ((rough F D i).atree, (rough F D i).gpot)) D := by
      simp [meant, hm]
    have hp' : p = { (mfvPass F P true stars mac
              (mfvPass F P true stars mac (mac, mfvInit sys) 0) 1).2 i with
            a0 := ((mfvPass F P true stars mac
              (mfvPass F P true stars mac (mac, mfvInit sys) 0) 1).2 i).a } := by
      show (mfvStart F P true stars mac sys).2 i = _
      rw [hs]
    rw [hp', hs, hf]
    simp only [f1, hp1, f2]
    exact ⟨trivial, trivial, trivial, trivial, trivial, trivial, trivial, trivial⟩

example : ((mfvStart C100.law id true false .gadget2 C100.sys).2 0).gpot_hydro = 3 := by
  rw [(C100_mfv C100.law id false .gadget2 C100.sys 0).2.2.2.2.2.1]
  have h : ¬Mac.gadget2 = Mac.geometric := by decide
  simp only [meant, if_neg h]
  norm_num [rough, C100.law]

/-- With stars but no self-gravity one pass does. -/
theorem C100_mfv_stars (F : Law n ι δ) (P : (ι → δ) → ι → δ) (mac : Mac) (sys : ι → Part n δ) (i : ι) :
    let D := P fun j => (sys j).rest
    let p := (mfvStart F P false true mac sys).2 i
    p.rest = D i ∧ p.a = (rough F D i).a ∧ p.atree = (rough F D i).atree ∧
    p.gpot = (rough F D i).gpot ∧ p.gpot_hydro = (rough F D i).gpot_hydro ∧
    p.a0 = p.a ∧ p.active = true := by
  intro D p
  have hp : passMac mac 0 = .geometric := by
    by_cases hm : mac = .geometric <;> simp [passMac, hm]
  obtain ⟨e1, e2⟩ := mfvPass_val F P false true rfl mac (mac, mfvInit sys) (fun _ => rfl) 0 i D
    (by simp [D, mfvInit])
  have hb : build (passMac mac 0) (mac, mfvInit sys).2 = .geometric := by rw [hp]; rfl
  simp only [hb] at e2
  have hp' : p = { (mfvPass F P false true mac (mac, mfvInit sys) 0).2 i with
          a0 := ((mfvPass F P false true mac (mac, mfvInit sys) 0).2 i).a } := by
    show (mfvStart F P false true mac sys).2 i = _
    simp [mfvStart, nIter]
  rw [hp']
  simp only [e2]
  exact ⟨trivial, rfl, rfl, rfl, rfl, trivial, trivial⟩

example : ((mfvStart C100.law id false true .gadget2 C100.sys).2 1).a 0 = 2 := by
  rw [(C100_mfv_stars C100.law id .gadget2 C100.sys 1).2.1]
  rfl

/-- Without self-gravity and stars the potential of all gas stays at `big_number` and goes like this
into the first snapshot and the first sum of potential energies. -/
theorem C100_mfv_big_fails (F : Law n ι δ) (P : (ι → δ) → ι → δ) (mac : Mac) (sys : ι → Part n δ)
    (i : ι) : ((mfvStart F P false false mac sys).2 i).gpot = 99 * 10 ^ 19 := by
  have hs : mfvStart F P false false mac sys =
      ((mfvPass F P false false mac (mac, mfvInit sys) 0).1, fun i =>
        { (mfvPass F P false false mac (mac, mfvInit sys) 0).2 i with
          a0 := ((mfvPass F P false false mac (mac, mfvInit sys) 0).2 i).a }) := by
    simp [mfvStart, nIter]
  rw [hs]
  simp [mfvPass, properties, mfvInit, big]

/-- Without self-gravity the geometric criterion stays in force, whatever was chosen. -/
theorem C100_criterion (F : Law n ι δ) (P : (ι → δ) → ι → δ) (ext : δ → Vec n ℝ × ℝ) (stars : Bool)
    (mac : Mac) (sys : ι → Part n δ) :
    (sphStart F P ext false mac sys).1 = .geometric ∧
      (mfvStart F P false stars mac sys).1 = .geometric := by
  have h : passMac mac 0 = .geometric := by
    by_cases hm : mac = .geometric <;> simp [passMac, hm]
  have e : nIter false mac = 1 := by simp [nIter]
  constructor
  · show ((List.range (nIter false mac)).foldl (sphPass F P mac) (mac, sphInit sys)).1 = _
    rw [e, range_one]
    exact h
  · show ((List.range (nIter false mac)).foldl (mfvPass F P false stars mac) (mac, mfvInit sys)).1 = _
    rw [e, range_one]
    exact h

end

end Gandalf
