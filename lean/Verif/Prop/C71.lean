import Verif.Proof.Supernova

/-! # C71: a supernova adds the mass and the energy asked for, once and in time -/

set_option autoImplicit false

namespace Gandalf

open Sn

variable {n : ℕ}

/-! ## What the particles are afterwards -/

/-- With room for five particles at least the explosion succeeds. Gas that is no neighbour is untouched; a neighbour keeps all but
internal energy, velocity and acceleration, and flies straight away from the centre; the new particles come after the old ones, at the
positions drawn, with the mean mass, the same specific energy and the same speed. The part `R/(R+1)` of `Einj` is heat, `1/(R+1)` is
motion, both shared alike by `nSNinject` mean masses. -/
theorem C71_inject (c : Clock) (a : Args n) (ha : a.OK) (neib : List ℕ) (pos : List (Vec n ℝ)) (s : Store n) (hs : s.OK)
    (hn : Neibs s neib) :
    ∃ (s' : Store n) (V U : ℝ), inject c a neib pos s = some s' ∧ s'.Nhydro = s.Nhydro + pos.length ∧
      s'.Ntot = s.Ntot + pos.length ∧ s'.Nhydro ≤ s'.Nhydromax ∧
      (0 < pos.length + neib.length → 0 ≤ V ∧
        1 / 2 * ((pos.length + neib.length : ℕ) * a.mmean) * (V * V) = 1 / (a.R + 1) * a.Einj ∧
        U = a.R / (a.R + 1) * a.Einj / ((pos.length + neib.length : ℕ) * a.mmean)) ∧
      (∀ i < s.Nhydro, i ∉ neib → s'.part i = s.part i) ∧
      (∀ i ∈ neib, s'.part i = { s.part i with
        u := (s.part i).u + U
        v := fun k => ((s.part i).r k - a.pos k) /
          (Real.sqrt (∑ l, ((s.part i).r l - a.pos l) * ((s.part i).r l - a.pos l)) + a.small) * V
        a := 0 }) ∧
      ∀ j (hj : j < pos.length), let p := s'.part (s.Nhydro + j)
        p.r = pos[j] ∧ p.r0 = pos[j] ∧ p.m = a.mmean ∧ p.u = U ∧ p.u0 = U ∧ p.a = 0 ∧ p.a0 = 0 ∧ p.dudt = 0 ∧ p.ptype = 0 ∧
        p.iorig = s.Nhydro + j ∧ p.active = true ∧ p.dead = false ∧ p.v0 = p.v ∧ ∀ k, p.v k = (pos[j] k - a.pos k) /
          (Real.sqrt (∑ l, (pos[j] l - a.pos l) * (pos[j] l - a.pos l)) + a.small) * V := by
  obtain ⟨s', h, hN, hT, hok, hk, hnew⟩ := inject_ok c a neib pos s hs hn
  refine ⟨s', vrad a (pos.length + neib.length), uinj a (pos.length + neib.length), h, hN, hT, hok.1,
    fun h0 => ⟨Real.sqrt_nonneg _, vrad_eq a ha _ h0, uinj_eq a ha _ h0⟩, ?_, ?_, ?_⟩
  · intro i hi hni
    rw [hk i hi, if_neg hni]
  · intro i hi
    rw [hk i (hn.2 i hi), if_pos hi]
    rfl
  · intro j hj
    obtain ⟨old, ho⟩ := hnew j hj
    simp only [ho]
    refine ⟨rfl, rfl, rfl, rfl, rfl, rfl, rfl, rfl, rfl, ?_, rfl, rfl, rfl, fun k => rfl⟩
    show ((s.Nhydro + j : ℕ) : ℤ) = _
    push_cast; rfl

/-! ## Mass -/

/-- The gas gains one mean mass for every new particle. -/
theorem C71_mass (c : Clock) (a : Args n) (neib : List ℕ) (pos : List (Vec n ℝ)) (s s' : Store n) (hs : s.OK)
    (hn : Neibs s neib) (h : inject c a neib pos s = some s') : gasMass s' = gasMass s + pos.length * a.mmean := by
  rw [gasMass, sum_after hs hn h (fun p => p.m) (fun _ => a.mmean) (fun _ _ _ => rfl), gasMass]
  have h1 : (neib.map fun i => (heat a (pos.length + neib.length) (s.part i)).m - (s.part i).m).sum = 0 := by
    apply List.sum_eq_zero
    intro x hx
    obtain ⟨i, _, rfl⟩ := List.mem_map.1 hx
    show (s.part i).m - (s.part i).m = 0
    ring
  rw [h1]
  simp

/-- With as many new particles as the code draws the gain is `Minj`, less than one particle short. -/
theorem C71_mass_bounds (a : Args n) (ha : a.OK) (pos : List (Vec n ℝ)) (hp : pos.length = ninject a) :
    a.Minj - a.mmean < pos.length * a.mmean ∧ (pos.length * a.mmean : ℝ) ≤ a.Minj := by
  rw [hp, ninject]
  have hm := ha.mmean
  have h1 := Nat.lt_floor_add_one (a.Minj / a.mmean)
  have h2 := Nat.floor_le (div_nonneg ha.Minj hm.le)
  rw [div_lt_iff₀ hm] at h1
  rw [le_div_iff₀ hm] at h2
  exact ⟨by linarith, h2⟩

/-! ## Energy -/

/-- **What the energy is afterwards** if nothing sits at the centre (and `small_number` is nought): the kinetic energy the neighbours
had is gone, and every mean mass of gas that explodes has an equal part of `Einj`. -/
theorem C71_energy_partial (c : Clock) (a : Args n) (ha : a.OK) (hsm : a.small = 0) (neib : List ℕ) (pos : List (Vec n ℝ))
    (s s' : Store n) (hs : s.OK) (hn : Neibs s neib) (h : inject c a neib pos s = some s') (hne : 0 < pos.length + neib.length)
    (hr : ∀ i ∈ neib, (s.part i).r ≠ a.pos) (hp : ∀ x ∈ pos, x ≠ a.pos) :
    gasEnergy s' = gasEnergy s - (neib.map fun i => kin (s.part i)).sum +
      a.Einj * ((neib.map fun i => (s.part i).m).sum + pos.length * a.mmean) /
        ((pos.length + neib.length : ℕ) * a.mmean) := by
  have hb := fun r (hr : r ≠ a.pos) => blast_eq a ha hsm (pos.length + neib.length) hne r hr
  rw [gasEnergy, sum_after hs hn h ener (fun x => ener (newPart c 0 0 a.mmean (uinj a (pos.length + neib.length)) x
    (blast a (pos.length + neib.length) x) Part.fresh)) (fun _ _ _ => rfl), gasEnergy]
  have h1 : (neib.map fun i => ener (heat a (pos.length + neib.length) (s.part i)) - ener (s.part i)).sum =
      -(neib.map fun i => kin (s.part i)).sum +
        (neib.map fun i => (s.part i).m).sum * (a.Einj / ((pos.length + neib.length : ℕ) * a.mmean)) := by
    rw [← List.sum_map_mul_right, ← Sn.sum_map_neg, ← List.sum_map_add]
    congr 1
    refine List.map_congr_left fun i hi => ?_
    rw [← hb _ (hr i hi)]
    simp only [ener, kin, heat]
    ring
  have h2 : (pos.map fun x => ener (newPart c 0 0 a.mmean (uinj a (pos.length + neib.length)) x
      (blast a (pos.length + neib.length) x) Part.fresh)).sum =
      pos.length * a.mmean * (a.Einj / ((pos.length + neib.length : ℕ) * a.mmean)) := by
    have e : ∀ x ∈ pos, ener (newPart c 0 0 a.mmean (uinj a (pos.length + neib.length)) x
      (blast a (pos.length + neib.length) x) Part.fresh) =
        a.mmean * (a.Einj / ((pos.length + neib.length : ℕ) * a.mmean)) := by
      intro x hx
      rw [← hb x (hp x hx)]
      simp only [ener, kin, newPart]
      ring
    rw [List.map_congr_left e]
    simp [mul_assoc]
  rw [h1, h2]
  ring

/-- **The energy gained is `Einj`** if also the neighbours were at rest and have the mean mass. -/
theorem C71_energy_rest (c : Clock) (a : Args n) (ha : a.OK) (hsm : a.small = 0) (neib : List ℕ) (pos : List (Vec n ℝ))
    (s s' : Store n) (hs : s.OK) (hn : Neibs s neib) (h : inject c a neib pos s = some s') (hne : 0 < pos.length + neib.length)
    (hr : ∀ i ∈ neib, (s.part i).r ≠ a.pos ∧ (s.part i).v = 0 ∧ (s.part i).m = a.mmean) (hp : ∀ x ∈ pos, x ≠ a.pos) :
    gasEnergy s' = gasEnergy s + a.Einj := by
  rw [C71_energy_partial c a ha hsm neib pos s s' hs hn h hne (fun i hi => (hr i hi).1) hp]
  have h1 : (neib.map fun i => kin (s.part i)).sum = 0 := by
    apply List.sum_eq_zero
    intro x hx
    obtain ⟨i, hi, rfl⟩ := List.mem_map.1 hx
    simp [kin, (hr i hi).2.1, dot]
  have h2 : (neib.map fun i => (s.part i).m).sum = neib.length * a.mmean := by
    rw [List.map_congr_left (fun i hi => (hr i hi).2.2)]
    simp
  have h3 := ha.mmean.ne'
  have h4 : ((pos.length + neib.length : ℕ) : ℝ) ≠ 0 := by exact_mod_cast hne.ne'
  rw [h1, h2, sub_zero, mul_div_assoc]
  congr 1
  rw [show (neib.length : ℝ) * a.mmean + pos.length * a.mmean = ((pos.length + neib.length : ℕ) : ℝ) * a.mmean by
    push_cast; ring, div_self (mul_ne_zero h4 h3), mul_one]

/-- With particles at the centre, and with `small_number`, there is at most so much energy. -/
theorem C71_energy_le (c : Clock) (a : Args n) (ha : a.OK) (neib : List ℕ) (pos : List (Vec n ℝ))
    (s s' : Store n) (hs : s.OK) (hn : Neibs s neib) (h : inject c a neib pos s = some s') (hne : 0 < pos.length + neib.length)
    (hm : ∀ i ∈ neib, 0 ≤ (s.part i).m) :
    gasEnergy s' ≤ gasEnergy s - (neib.map fun i => kin (s.part i)).sum +
      a.Einj * ((neib.map fun i => (s.part i).m).sum + pos.length * a.mmean) /
        ((pos.length + neib.length : ℕ) * a.mmean) := by
  have hb := fun r => blast_le a ha (pos.length + neib.length) hne r
  rw [gasEnergy, sum_after hs hn h ener (fun x => ener (newPart c 0 0 a.mmean (uinj a (pos.length + neib.length)) x
    (blast a (pos.length + neib.length) x) Part.fresh)) (fun _ _ _ => rfl), gasEnergy]
  have h1 : (neib.map fun i => ener (heat a (pos.length + neib.length) (s.part i)) - ener (s.part i)).sum ≤
      -(neib.map fun i => kin (s.part i)).sum +
        (neib.map fun i => (s.part i).m).sum * (a.Einj / ((pos.length + neib.length : ℕ) * a.mmean)) := by
    rw [← List.sum_map_mul_right, ← Sn.sum_map_neg, ← List.sum_map_add]
    refine List.sum_le_sum fun i hi => ?_
    have := mul_le_mul_of_nonneg_left (hb (s.part i).r) (hm i hi)
    simp only [ener, kin, heat]
    linarith
  have h2 : (pos.map fun x => ener (newPart c 0 0 a.mmean (uinj a (pos.length + neib.length)) x
      (blast a (pos.length + neib.length) x) Part.fresh)).sum ≤
      pos.length * a.mmean * (a.Einj / ((pos.length + neib.length : ℕ) * a.mmean)) := by
    have e : ∀ x ∈ pos, ener (newPart c 0 0 a.mmean (uinj a (pos.length + neib.length)) x
      (blast a (pos.length + neib.length) x) Part.fresh) ≤
        a.mmean * (a.Einj / ((pos.length + neib.length : ℕ) * a.mmean)) := by
      intro x _
      have := mul_le_mul_of_nonneg_left (hb x) ha.mmean.le
      simp only [ener, kin, newPart]
      linarith
    refine (List.sum_le_sum e).trans (le_of_eq ?_)
    simp [mul_assoc]
  calc _ ≤ _ := add_le_add (add_le_add le_rfl h1) h2
    _ = _ := by ring

/-- **Where it is wrong**: gas in motion loses the kinetic energy it had. The gain falls short of `Einj` by it. -/
theorem C71_energy_fails (c : Clock) (a : Args n) (ha : a.OK) (neib : List ℕ) (pos : List (Vec n ℝ))
    (s s' : Store n) (hs : s.OK) (hn : Neibs s neib) (h : inject c a neib pos s = some s')
    (hm : ∀ i ∈ neib, (s.part i).m = a.mmean) (j : ℕ) (hj : j ∈ neib) (hv : (s.part j).v ≠ 0) :
    gasEnergy s' < gasEnergy s + a.Einj := by
  have hlen : 0 < neib.length := List.length_pos_of_mem hj
  have h0 := C71_energy_le c a ha neib pos s s' hs hn h (by omega) (fun i hi => by rw [hm i hi]; exact ha.mmean.le)
  have h2 : (neib.map fun i => (s.part i).m).sum = neib.length * a.mmean := by
    rw [List.map_congr_left hm]
    simp
  have h3 := ha.mmean.ne'
  have h4 : ((pos.length + neib.length : ℕ) : ℝ) ≠ 0 := by exact_mod_cast (by omega : pos.length + neib.length ≠ 0)
  rw [h2, mul_div_assoc, show (neib.length : ℝ) * a.mmean + pos.length * a.mmean =
    ((pos.length + neib.length : ℕ) : ℝ) * a.mmean by push_cast; ring, div_self (mul_ne_zero h4 h3), mul_one] at h0
  have hk : ∀ i ∈ neib, 0 ≤ kin (s.part i) := fun i hi => by
    have := ha.mmean.le
    have := dot_self_nonneg (s.part i).v
    simp only [kin, hm i hi]
    positivity
  have hpos : 0 < kin (s.part j) := by
    have h5 : dot (s.part j).v (s.part j).v ≠ 0 := by
      intro h
      apply hv
      rw [dot, Finset.sum_eq_zero_iff_of_nonneg fun k _ => mul_self_nonneg _] at h
      funext k
      exact mul_self_eq_zero.1 (h k (Finset.mem_univ k))
    have h6 := lt_of_le_of_ne (dot_self_nonneg (s.part j).v) (Ne.symm h5)
    have := ha.mmean
    simp only [kin, hm j hj]
    positivity
  have : kin (s.part j) ≤ (neib.map fun i => kin (s.part i)).sum :=
    List.single_le_sum (by
      intro x hx
      obtain ⟨i, hi, rfl⟩ := List.mem_map.1 hx
      exact hk i hi) _ (List.mem_map.2 ⟨j, hj, rfl⟩)
  linarith

/-- **Where it is wrong**: the velocities the neighbours had do not matter at all. Two states of the gas that differ only in the
velocity of the neighbours are the same afterwards: a cloud in motion is brought to rest. -/
theorem C71_velocity_fails (c : Clock) (a : Args n) (neib : List ℕ) (pos : List (Vec n ℝ)) (s : Store n) (w : ℕ → Vec n ℝ)
    (hn : Neibs s neib) :
    inject c a neib pos { s with
      part := fun i => if i ∈ neib then { s.part i with v := w i } else s.part i } = inject c a neib pos s := by
  simp only [inject]
  congr 1
  simp only [heatAll]
  congr 1
  funext i
  rw [heat_foldl _ _ _ _ hn.1, heat_foldl _ _ _ _ hn.1]
  by_cases hi : i ∈ neib
  · simp only [if_pos hi, heat]
  · simp only [if_neg hi]

/-- **Where it is wrong**: the momentum of the gas changes by what the neighbours carried and by what the particles on one side carry
more than those on the other. -/
theorem C71_momentum_partial (c : Clock) (a : Args n) (ha : a.OK) (neib : List ℕ) (pos : List (Vec n ℝ))
    (s s' : Store n) (hs : s.OK) (hn : Neibs s neib) (h : inject c a neib pos s = some s')
    (hne : 0 < pos.length + neib.length) (k : Fin n) :
    ∃ V : ℝ, 0 ≤ V ∧ 1 / 2 * ((pos.length + neib.length : ℕ) * a.mmean) * (V * V) = 1 / (a.R + 1) * a.Einj ∧
    gasMomentum s' k = gasMomentum s k - (neib.map fun i => (s.part i).m * (s.part i).v k).sum +
      V * ((neib.map fun i => (s.part i).m * (((s.part i).r k - a.pos k) /
          (Real.sqrt (∑ l, ((s.part i).r l - a.pos l) * ((s.part i).r l - a.pos l)) + a.small))).sum +
        (pos.map fun x => a.mmean * ((x k - a.pos k) /
          (Real.sqrt (∑ l, (x l - a.pos l) * (x l - a.pos l)) + a.small))).sum) := by
  refine ⟨vrad a (pos.length + neib.length), Real.sqrt_nonneg _, vrad_eq a ha _ hne, ?_⟩
  rw [gasMomentum, sum_after hs hn h (fun p => p.m * p.v k) (fun x => a.mmean * blast a (pos.length + neib.length) x k)
    (fun _ _ _ => rfl), gasMomentum, mul_add, ← List.sum_map_mul_left, ← List.sum_map_mul_left, sub_eq_add_neg, ← Sn.sum_map_neg]
  have e1 : ∀ i ∈ neib, (heat a (pos.length + neib.length) (s.part i)).m * (heat a (pos.length + neib.length) (s.part i)).v k -
      (s.part i).m * (s.part i).v k = -((s.part i).m * (s.part i).v k) + vrad a (pos.length + neib.length) *
        ((s.part i).m * (((s.part i).r k - a.pos k) /
          (Real.sqrt (∑ l, ((s.part i).r l - a.pos l) * ((s.part i).r l - a.pos l)) + a.small))) := by
    intro i _
    simp only [heat, blast, drmag, dot]
    ring
  rw [List.map_congr_left e1, List.sum_map_add]
  have e2 : ∀ x ∈ pos, a.mmean * blast a (pos.length + neib.length) x k = vrad a (pos.length + neib.length) *
        (a.mmean * ((x k - a.pos k) / (Real.sqrt (∑ l, (x l - a.pos l) * (x l - a.pos l)) + a.small))) := by
    intro x _
    simp only [blast, drmag, dot]
    ring
  rw [List.map_congr_left e2]
  ring

/-- **Where it is wrong**: with no gas in the sphere and less than one particle to inject nothing at all happens; the energy is lost. -/
theorem C71_empty_fails (c : Clock) (a : Args n) (s : Store n) : inject c a [] [] s = some s := rfl

/-! ## New particles -/

/-- A new particle takes the place after the last one; the others stay. Its step ends now, and starts where it was put. Memory grows if there is none left, and then the place is a
fresh one. -/
theorem C71_create (c : Clock) (ptype : ℤ) (m u : ℝ) (r v : Vec n ℝ) (s : Store n) (hs : s.OK) :
    ∃ s', create c ptype m u r v s = some s' ∧ s'.Nhydro = s.Nhydro + 1 ∧ s'.Ntot = s.Ntot + 1 ∧ s'.OK ∧
      (∀ i < s.Nhydro, s'.part i = s.part i) ∧
      ((s'.part s.Nhydro).ptype = ptype ∧ (s'.part s.Nhydro).m = m ∧ (s'.part s.Nhydro).u = u ∧ (s'.part s.Nhydro).r = r ∧
        (s'.part s.Nhydro).v = v) ∧
      ((s'.part s.Nhydro).tlast = c.t ∧ (s'.part s.Nhydro).nlast + (s'.part s.Nhydro).nstep = c.n) ∧
      (s.Nhydro = s.Nhydromax → (s'.part s.Nhydro).dt = 0 ∧ (s'.part s.Nhydro).dudt0 = 0) := by
  obtain ⟨s', old, h, hN, hT, hok, hk, hnew, _, hf⟩ := create_ok c ptype m u r v s hs
  refine ⟨s', h, hN, hT, hok, hk, ?_, ?_, ?_⟩
  · rw [hnew]; exact ⟨rfl, rfl, rfl, rfl, rfl⟩
  · rw [hnew]; exact ⟨rfl, sub_add_cancel _ _⟩
  · intro he
    rw [hnew, hf he]; exact ⟨rfl, rfl⟩

/-- **Where it is wrong**: an array of four places or fewer does not grow, as a fifth of it is less than one. The new particle is
written outside of the array. -/
theorem C71_create_fails (c : Clock) (ptype : ℤ) (m u : ℝ) (r v : Vec n ℝ) (s : Store n) (h4 : s.Nhydromax ≤ 4)
    (h : s.Nhydro = s.Nhydromax) : create c ptype m u r v s = none := by
  have hm : makeRoom s = s := by
    rw [makeRoom, if_pos (by omega), allocate, if_neg (by omega)]
  simp only [create, hm]
  rw [if_neg (by omega)]

/-- Identifiers stay different if they are those of an array from which nothing was ever taken. -/
theorem C71_ids_partial (c : Clock) (ptype : ℤ) (m u : ℝ) (r v : Vec n ℝ) (s s' : Store n) (hs : s.OK)
    (h : create c ptype m u r v s = some s')
    (hid : ∀ i < s.Nhydro, (s.part i).iorig < s.Nhydro ∧ ∀ j < s.Nhydro, (s.part i).iorig = (s.part j).iorig → i = j) :
    ∀ i < s'.Nhydro, (s'.part i).iorig < s'.Nhydro ∧ ∀ j < s'.Nhydro, (s'.part i).iorig = (s'.part j).iorig → i = j := by
  obtain ⟨s1, old, h1, hN, -, -, hk, hnew, -⟩ := create_ok c ptype m u r v s hs
  obtain rfl : s1 = s' := by rw [h1] at h; exact Option.some.inj h
  have hi : (s1.part s.Nhydro).iorig = s.Nhydro := by rw [hnew]; rfl
  rw [hN]
  intro i hlt
  rcases Nat.lt_succ_iff_lt_or_eq.1 hlt with hl | rfl
  · rw [hk i hl]
    refine ⟨by have := (hid i hl).1; push_cast; omega, fun j hj he => ?_⟩
    rcases Nat.lt_succ_iff_lt_or_eq.1 hj with hl' | rfl
    · rw [hk j hl'] at he
      exact (hid i hl).2 j hl' he
    · rw [hi] at he
      have := (hid i hl).1
      omega
  · rw [hi]
    refine ⟨by push_cast; omega, fun j hj he => ?_⟩
    rcases Nat.lt_succ_iff_lt_or_eq.1 hj with hl' | rfl
    · rw [hk j hl'] at he
      have := (hid j hl').1
      omega
    · rfl

/-- **Where it is wrong**: after dead particles were taken out, a new particle can have the identifier of another one. -/
theorem C71_ids_fails : ∃ (s s' : Store 1) (c : Clock), s.OK ∧ (∀ i < s.Nhydro, (s.part i).iorig = i) ∧
    (let q := Sinks.deleteDead Part.dead (fun p => { p with dead := true, m := 0 }) s.Nhydro s.part
     create c 0 1 1 0 0 ⟨q.1, q.2, s.Nhydromax, s.Ntot⟩ = some s') ∧
    ∃ i j, i < s'.Nhydro ∧ j < s'.Nhydro ∧ i ≠ j ∧ (s'.part i).iorig = (s'.part j).iorig := by
  let P : ℕ → Part 1 := fun i => { Part.fresh with iorig := i, dead := decide (i = 0) }
  let q := Sinks.deleteDead Part.dead (fun p => { p with dead := true, m := 0 }) 2 P
  have hq2 : q.2 = 1 := by
    simp [q, Sinks.deleteDead, Sinks.compact, Sinks.fill, P]
  have hq1 : (q.1 0).iorig = 1 := by
    simp [q, Sinks.deleteDead, Sinks.compact, Sinks.fill, P]
  let c : Clock := ⟨0, 0, 0, 0⟩
  obtain ⟨s', old, h1, hN, -, -, hk, hnew, -⟩ := create_ok c 0 1 1 0 0 ⟨q.1, q.2, 5, 2⟩ ⟨by simp [hq2], by simp⟩
  refine ⟨⟨P, 2, 5, 2⟩, s', c, ⟨by simp, by simp⟩, fun i _ => rfl, h1, 0, 1, ?_, ?_, by simp, ?_⟩
  · rw [hN]; show 0 < q.2 + 1; omega
  · rw [hN]; show 1 < q.2 + 1; omega
  · have e0 := hk 0 (by show 0 < q.2; omega)
    have e1 : s'.part 1 = newPart c q.2 0 1 1 0 0 old := by rw [← hnew]; show s'.part 1 = s'.part q.2; rw [hq2]
    rw [e0, e1]
    show (q.1 0).iorig = ((q.2 : ℕ) : ℤ)
    rw [hq1, hq2]; rfl

/-! ## What the integrator makes of it -/

/-- **A particle heated at the end of its step keeps what it got**: it starts the next step with it, kicked by half a step as any
other. -/
theorem C71_kept (a : Args n) (N : ℕ) (m : ℤ) (t : ℝ) (A : Vec n ℝ) (D : ℝ) (ns : ℤ) (d : ℝ) (p : Part n)
    (hd : p.dead = false) (hact : p.active = true) (hend : m - p.nlast = p.nstep)
    (hu : 0 < p.u + uinj a N + 1 / 2 * (D - p.dudt0) * p.dt) :
    let q := rest m t A D ns d (heat a N p)
    (∀ k, q.v0 k = blast a N p.r k + 1 / 2 * p.dt * (A k - p.a0 k)) ∧
      q.u0 = p.u + uinj a N + 1 / 2 * (D - p.dudt0) * p.dt ∧ q.r0 = p.r ∧ q.a0 = A ∧ q.tlast = t ∧ q.nlast = m ∧ q.dt = d := by
  simp only [rest, force, heat, hact, if_true, assign, hend, finish, hd, energyEnd]
  rw [if_neg (not_le.2 hu)]
  simp

/-- **Where it is wrong**: a particle heated in the middle of its step loses all of it. At the end of the step it is the same particle
as if there had been no explosion. (A step cut short at once by `CheckTimesteps` ends, and then the theorem above holds.) -/
theorem C71_kept_fails (a : Args n) (N : ℕ) (m m' : ℤ) (t t' : ℝ) (A A' : Vec n ℝ) (D D' : ℝ) (ns ns' : ℤ) (d d' : ℝ) (p : Part n)
    (hact : p.active = false) (hend : p.endts = false) (hmid : m - p.nlast ≠ p.nstep) (hlast : m' - p.nlast = p.nstep)
    (hd : p.dead = false) :
    rest m' t' A' D' ns' d' (advance m' t' (rest m t A D ns d (heat a N p))) =
      rest m' t' A' D' ns' d' (advance m' t' (rest m t A D ns d p)) := by
  have h1 : ∀ q : Part n, q.active = false → q.endts = false → q.nlast = p.nlast → q.nstep = p.nstep → q.dead = false →
      rest m t A D ns d q = q := by
    intro q h1 h2 h3 h4 h5
    simp [rest, force, h1, assign, h3, h4, hmid, finish, h2]
  rw [h1 p hact hend rfl rfl hd, h1 (heat a N p) hact hend rfl rfl hd]
  simp [rest, advance, heat, hd, hlast, force]

/-- A new particle is at the end of its step: in a fresh place, it starts its first step with the velocity and energy it was made
with. -/
theorem C71_new_partial (c : Clock) (i : ℕ) (m u : ℝ) (r v A : Vec n ℝ) (D : ℝ) (ns : ℤ) (d : ℝ) (old : Part n)
    (hold : old.dt = 0) :
    let q := rest c.n c.t A D ns d (newPart c i 0 m u r v old)
    q.v0 = v ∧ q.u0 = u ∧ q.r0 = r ∧ q.a0 = A ∧ q.dudt0 = D ∧ q.tlast = c.t ∧ q.nlast = c.n ∧ q.dt = d ∧ q.nstep = ns := by
  simp [rest, force, newPart, assign, finish, energyEnd, hold]

/-- **Where it is wrong**: the length of the step is not set. In the place of a former particle, such as a ghost, the new particle
gets the kick of a step it never made. -/
theorem C71_new_fails (c : Clock) (i : ℕ) (m u : ℝ) (r v A : Vec n ℝ) (D : ℝ) (ns : ℤ) (d : ℝ) (old : Part n) (k : Fin n) :
    (rest c.n c.t A D ns d (newPart c i 0 m u r v old)).v0 k = v k + 1 / 2 * old.dt * A k := by
  simp [rest, force, newPart, assign, finish]

/-- **Where it is wrong**: the finite-volume scheme keeps mass, momentum and energy of its particles in `Qcons0`, which the explosion
does not touch. The heated gas has after the next step, and in the middle of it, what it would have had without an explosion. -/
theorem C71_mfv_fails (a : Args n) (N : ℕ) (r A : Vec n ℝ) (p : Fv n) (rate : ℝ × Vec n ℝ × ℝ) (dt : ℝ) :
    finishFv A (heatFv a N r p) = finishFv A p ∧
      (let q := advanceFv rate dt (heatFv a N r p); let q' := advanceFv rate dt p
       q.m = q'.m ∧ q.v = q'.v ∧ q.u = q'.u ∧ q.Q0 = q'.Q0) :=
  ⟨rfl, rfl, rfl, rfl, rfl⟩

/-! ## When -/

/-- The one explosion of the Sedov test goes off at the first step not before its time, and never again. -/
theorem C71_sedov (tsn : ℝ) (ts : List ℝ) :
    (ts.foldl (fun N t => (sedov tsn t N).2) 0 = 1 ↔ ∃ t ∈ ts, tsn ≤ t) ∧ ts.foldl (fun N t => (sedov tsn t N).2) 0 ≤ 1 := by
  have h1 : ∀ ts : List ℝ, ts.foldl (fun N t => (sedov tsn t N).2) 1 = 1 := by
    intro ts
    induction ts with
    | nil => rfl
    | cons t ts ih => rw [List.foldl_cons]; simpa [sedov] using ih
  induction ts with
  | nil => simp
  | cons t ts ih =>
    rw [List.foldl_cons]
    by_cases h : tsn ≤ t
    · have : (sedov tsn t 0).2 = 1 := by simp [sedov, h]
      rw [this, h1]
      simp [h]
    · have : (sedov tsn t 0).2 = 0 := by simp [sedov, h]
      rw [this]
      simpa [h] using ih

/-- the state of the driver at time `t`: the explosions due have gone off -/
def Sn.Random.Due (tsn t : ℝ) (s : Sn.Random) : Prop :=
  s.tnext = ((s.N : ℝ) + 1 / 2) * tsn ∧ t < s.tnext ∧ ∀ k < s.N, (k + 1 / 2 : ℝ) * tsn ≤ t

theorem Sn.Random.due_update (tsn t t' : ℝ) (s : Sn.Random) (h : s.Due tsn t) (h1 : t ≤ t') (h2 : t' ≤ t + tsn) :
    (s.update tsn t').Due tsn t' := by
  obtain ⟨ha, hb, hc⟩ := h
  by_cases hx : s.tnext ≤ t'
  · rw [Sn.Random.update, if_pos hx]
    refine ⟨rfl, ?_, fun k hk => ?_⟩
    · show t' < (((s.N + 1 : ℕ) : ℝ) + 1 / 2) * tsn
      push_cast
      linarith
    · rcases Nat.lt_succ_iff_lt_or_eq.1 hk with hl | rfl
      · exact (hc k hl).trans h1
      · rw [← ha]; exact hx
  · rw [Sn.Random.update, if_neg hx]
    exact ⟨ha, not_le.1 hx, fun k hk => (hc k hk).trans h1⟩

theorem Sn.Random.due_run (tsn t : ℝ) : ∀ (ts : List ℝ) (x : ℝ) (s : Sn.Random), s.Due tsn x →
    (x :: (ts ++ [t])).IsChain (fun x y => x ≤ y ∧ y ≤ x + tsn) → (s.run tsn (ts ++ [t])).Due tsn t
  | [], x, s, hs, hc => by
    simp only [List.nil_append, List.isChain_cons_cons] at hc
    exact s.due_update tsn x t hs hc.1.1 hc.1.2
  | y :: ts, x, s, hs, hc => by
    simp only [List.cons_append, List.isChain_cons_cons] at hc
    exact due_run tsn t ts y _ (s.due_update tsn x y hs hc.1.1 hc.1.2) hc.2

/-- **The random explosions are in time**: if no two calls are further apart than the time between explosions, then after a call at
`t` the explosions that have gone off are those with `(k + 1/2) tsupernova ≤ t`. -/
theorem C71_random (tsn : ℝ) (htsn : 0 < tsn) (ts : List ℝ) (t : ℝ)
    (hstep : (0 :: (ts ++ [t])).IsChain fun x y => x ≤ y ∧ y ≤ x + tsn) (k : ℕ) :
    k < ((Random.init tsn).run tsn (ts ++ [t])).N ↔ (k + 1 / 2 : ℝ) * tsn ≤ t := by
  have h0 : (Random.init tsn).Due tsn 0 := by
    refine ⟨by simp [Random.init], ?_, fun k hk => absurd hk (by simp [Random.init])⟩
    show 0 < 1 / 2 * tsn
    linarith
  obtain ⟨ha, hb, hc⟩ := Random.due_run tsn t ts 0 _ h0 hstep
  refine ⟨hc k, fun h => ?_⟩
  by_contra hk
  have hle : ((((Random.init tsn).run tsn (ts ++ [t])).N : ℕ) : ℝ) ≤ (k : ℝ) := by exact_mod_cast not_lt.1 hk
  have := mul_le_mul_of_nonneg_right hle htsn.le
  rw [ha] at hb
  linarith

/-- The explosions of the table go off as long as the last one is in the future. -/
theorem C71_silcc_partial (T : List ℝ) (x : ℝ) : ∀ (ts : List ℝ), (∀ t ∈ ts, t < x) → ∀ i ≤ T.length,
    ∃ j, silccRun (T ++ [x]) ts i = some j ∧ i ≤ j ∧ j ≤ T.length
  | [], _, i, hi => ⟨i, rfl, le_rfl, hi⟩
  | t :: ts, h, i, hi => by
    have hlt : i < (T ++ [x]).length := by simp; omega
    have hget : (T ++ [x])[i]? = some (T ++ [x])[i] := List.getElem?_eq_getElem hlt
    by_cases hy : (T ++ [x])[i] ≤ t
    · have hne : i < T.length := by
        by_contra hc
        have he : i = T.length := by omega
        subst he
        have h1 := h t (by simp)
        simp at hy
        linarith
      obtain ⟨j, hj, h1, h2⟩ := C71_silcc_partial T x ts (fun t ht => h t (by simp [ht])) (i + 1) hne
      exact ⟨j, by rw [silccRun, silcc, hget, Option.map_some, if_pos hy]; exact hj, by omega, h2⟩
    · obtain ⟨j, hj, h1, h2⟩ := C71_silcc_partial T x ts (fun t ht => h t (by simp [ht])) i hi
      exact ⟨j, by rw [silccRun, silcc, hget, Option.map_some, if_neg hy]; exact hj, h1, h2⟩

/-- **Where it is wrong**: once the last explosion has gone off the table is read beyond its end. -/
theorem C71_silcc_fails (T : List ℝ) (t : ℝ) (h : ∀ x ∈ T, x ≤ t) : silccRun T (List.replicate (T.length + 1) t) 0 = none := by
  have key : ∀ k i, i + k = T.length + 1 → silccRun T (List.replicate k t) i = none ∨ k = 0 := by
    intro k
    induction k with
    | zero => intro i _; exact Or.inr rfl
    | succ k ih =>
      intro i hi
      left
      rw [List.replicate_succ, silccRun, silcc]
      by_cases hlt : i < T.length
      · rw [List.getElem?_eq_getElem hlt, Option.map_some, if_pos (h _ (List.getElem_mem hlt))]
        rcases ih (i + 1) (by omega) with h' | h'
        · exact h'
        · omega
      · rw [List.getElem?_eq_none (by omega)]; rfl
  rcases key (T.length + 1) 0 (by omega) with h' | h'
  · exact h'
  · omega

/-! ## Cases -/

namespace C71

/-- two particles at 1 and -1 on the line, the second one moving -/
noncomputable def gas : Store 1 :=
  ⟨fun i => { Part.fresh with
    m := 1
    u := 1
    r := fun _ => if i = 0 then 1 else -1
    v := fun _ => if i = 0 then 0 else 2
    active := true
    nstep := 1 }, 2, 5, 2⟩

theorem gas_ok : gas.OK ∧ Neibs gas [0, 1] ∧ Neibs gas [0] :=
  ⟨⟨by simp [gas], by simp [gas]⟩, ⟨by simp, by simp [gas]⟩, ⟨by simp, by simp [gas]⟩⟩

/-- an explosion at the origin with energy 4 -/
noncomputable def bang : Args 1 := ⟨fun _ => 0, 4, 1, 1, 2, 1, 0⟩

theorem bang_ok : bang.OK := ⟨by norm_num [bang], by norm_num [bang], by norm_num [bang], by norm_num [bang], by norm_num [bang]⟩

def clock : Clock := ⟨8, 1, 3, 2⟩

/-- Explosion with the particle at rest and one new one: three particles, the energy gained is 4 and the mass gained 1. -/
example : ∃ s', inject clock bang [0] [fun _ => 1 / 2] gas = some s' ∧ s'.Nhydro = 3 ∧ gasEnergy s' = gasEnergy gas + 4 ∧
    gasMass s' = gasMass gas + 1 := by
  obtain ⟨s', V, U, h, hN, -⟩ := C71_inject clock bang bang_ok [0] [fun _ => 1 / 2] gas gas_ok.1 gas_ok.2.2
  refine ⟨s', h, hN, ?_, ?_⟩
  · refine C71_energy_rest clock bang bang_ok rfl _ _ gas s' gas_ok.1 gas_ok.2.2 h (by simp) ?_ ?_
    · intro i hi
      obtain rfl : i = 0 := by simpa using hi
      refine ⟨fun h => ?_, ?_, rfl⟩
      · have := congrFun h 0
        simp [gas, bang] at this
      · funext k; simp [gas]
    · intro x hx h
      obtain rfl : x = fun _ => 1 / 2 := by simpa using hx
      have := congrFun h 0
      simp [bang] at this
  · rw [C71_mass clock bang _ _ gas s' gas_ok.1 gas_ok.2.2 h]
    simp [bang]

/-- With the moving particle the gain is less than 4. -/
example : ∃ s', inject clock bang [0, 1] [] gas = some s' ∧ gasEnergy s' < gasEnergy gas + 4 := by
  obtain ⟨s', V, U, h, -⟩ := C71_inject clock bang bang_ok [0, 1] [] gas gas_ok.1 gas_ok.2.1
  refine ⟨s', h, C71_energy_fails clock bang bang_ok _ _ gas s' gas_ok.1 gas_ok.2.1 h ?_ 1 (by simp) ?_⟩
  · intro i _; rfl
  · intro h
    have := congrFun h 0
    simp [gas] at this

/-- One particle is injected for a mass of 1. -/
example : ninject bang = 1 := by norm_num [ninject, bang]

/-- Particle 0 is at the end of a step at time 1: the theorem on what is kept applies. -/
example : (gas.part 0).dead = false ∧ (gas.part 0).active = true ∧ (1 : ℤ) - (gas.part 0).nlast = (gas.part 0).nstep ∧
    0 < (gas.part 0).u + uinj bang 1 + 1 / 2 * (0 - (gas.part 0).dudt0) * (gas.part 0).dt := by
  refine ⟨rfl, rfl, by simp [gas, Part.fresh], ?_⟩
  norm_num [gas, Part.fresh, uinj, etherm, bang]

/-- A particle with a step of two ticks is in the middle of it after one. -/
example : let p : Part 1 := { Part.fresh with nstep := 2 }
    p.active = false ∧ p.endts = false ∧ (1 : ℤ) - p.nlast ≠ p.nstep ∧ (2 : ℤ) - p.nlast = p.nstep ∧ p.dead = false := by
  simp [Part.fresh]

/-- Steps of 1/4 and an explosion every 1/2: by 3/4 the explosions of 1/4 and 3/4 have gone off. -/
example : 1 < ((Random.init (1 / 2)).run (1 / 2) ([1 / 4, 1 / 2] ++ [3 / 4])).N ∧
    ¬ 2 < ((Random.init (1 / 2)).run (1 / 2) ([1 / 4, 1 / 2] ++ [3 / 4])).N := by
  have h : (0 :: (([1 / 4, 1 / 2] : List ℝ) ++ [3 / 4])).IsChain fun x y => x ≤ y ∧ y ≤ x + 1 / 2 := by
    simp; norm_num
  rw [C71_random _ (by norm_num) _ _ h, C71_random _ (by norm_num) _ _ h]
  norm_num

/-- A full array of four places. -/
example : ∃ s : Store 1, s.Nhydromax ≤ 4 ∧ s.Nhydro = s.Nhydromax := ⟨⟨gas.part, 4, 4, 4⟩, by simp, rfl⟩

/-- A table with one explosion at time 1: the second call at time 2 reads beyond its end. -/
example : silccRun [1] [2, 2] 0 = none := C71_silcc_fails [1] 2 (by simp)

end C71

end Gandalf
