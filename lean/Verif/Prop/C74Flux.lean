import Verif.Prop.C74

/-!
# C74 – gravity and the mass that the fluxes carry
-/

set_option autoImplicit false
set_option linter.unusedSectionVars false

namespace Gandalf

open FvStep

variable {n N : ℕ} {α : Type*} [Field α] [CharZero α]

theorem FvStep.sum_foldl (φ : Fin N → Gain n α → α) (h0 : ∀ x, φ x Gain.zero = 0)
    (ha : ∀ x G H, φ x (G.add H) = φ x G + φ x H) (r : Fin N → Vec n α) (L : List (Pair N n α)) :
    ∑ x, φ x (pairGains r L x) = (L.map fun e => φ e.i (e.own r) + φ e.j (e.other r)).sum := by
  induction L using List.reverseRecOn with
  | nil => simp [pairGains, h0]
  | append_singleton L e ih =>
    have e1 : ∀ x, φ x (pairGains r (L ++ [e]) x) =
        φ x (pairGains r L x) + ((if x = e.i then φ x (e.own r) else 0) + if x = e.j then φ x (e.other r) else 0) := by
      intro x
      rw [pairGains, List.foldl_append]
      change φ x (addPair r x (pairGains r L x) e) = _
      simp only [addPair]
      by_cases h1 : x = e.i
      · rw [if_pos h1, if_pos h1]
        by_cases h2 : x = e.j
        · rw [if_pos h2, if_pos h2, ha, ha]; ring
        · rw [if_neg h2, if_neg h2, ha]; ring
      · rw [if_neg h1, if_neg h1]
        by_cases h2 : x = e.j
        · rw [if_pos h2, if_pos h2, ha]; ring
        · rw [if_neg h2, if_neg h2]; ring
    simp only [e1, Finset.sum_add_distrib, ih, List.map_append, List.sum_append, List.map_cons, List.map_nil, List.sum_cons,
      List.sum_nil, Finset.sum_ite_eq', Finset.mem_univ, if_true, add_zero]

/-- **C74, the fluxes.** However the pairs are listed, what the flux loop adds has no sum over the particles: the hypothesis of
`C74_conserves`. -/
theorem C74_pairs (c : Tick N n α) (r : Fin N → Vec n α) (L : List (Pair N n α)) (hc : c.gain = pairGains r L) :
    c.Balanced ∧ ∑ i, (c.gain i).dQ.en = 0 := by
  have z : ∀ l : List (Pair N n α), (l.map fun _ => (0 : α)).sum = 0 := fun l => by simp
  refine ⟨⟨?_, fun k => ?_⟩, ?_⟩
  · rw [hc, FvStep.sum_foldl (fun _ G => G.dQ.mass) (fun _ => rfl) (fun _ _ _ => rfl)]
    simp [Pair.own, Pair.other, Cons.smul]
  · rw [hc, FvStep.sum_foldl (fun _ G => G.dQ.mom k) (fun _ => rfl) (fun _ _ _ => rfl)]
    simp [Pair.own, Pair.other, Cons.smul]
  · rw [hc, FvStep.sum_foldl (fun _ G => G.dQ.en) (fun _ => rfl) (fun _ _ _ => rfl)]
    simp [Pair.own, Pair.other, Cons.smul]

/-- energy of all the gas in the uniform gravity `g`, with the potential energy -/
def FvStep.energyIn (g : Vec n α) (s : Fin N → Part n α) : α :=
  ∑ i, ((s i).Q0.en - (s i).Q0.mass * ∑ k, g k * (s i).r0 k)

/-- **C74, work of gravity.** In uniform gravity the energy of a particle with its potential energy changes over a step by what
the fluxes bring and by the work on the mass that the fluxes move. -/
theorem C74_work (g : Vec n α) (s : Fin N → Part n α) {m M : ℤ} {h : α} (hs : Together s m M h)
    (hq : ∀ i, (s i).dQ = Cons.zero ∧ (s i).rdmdt = (fun _ => 0) ∧ (s i).cooling = 0 ∧ (s i).a0 = g)
    (hv : ∀ i k, (s i).Q0.mom k = (s i).Q0.mass * (s i).v0 k) (c : Tick N n α) (hc : c.m = m + M) (hts : c.ts * M = h)
    (i : Fin N) (hm : (s i).Q0.mass + (c.gain i).dQ.mass ≠ 0) :
    (tick false (fun _ _ _ => g) s c i).Q0.en - (tick false (fun _ _ _ => g) s c i).Q0.mass *
        ∑ k, g k * (tick false (fun _ _ _ => g) s c i).r0 k =
      (s i).Q0.en - (s i).Q0.mass * (∑ k, g k * (s i).r0 k) + (c.gain i).dQ.en + (∑ k, g k * (c.gain i).rdmdt k) -
        (c.gain i).dQ.mass * ∑ k, g k * ((s i).r0 k + h / 2 * (s i).v0 k) := by
  have hn : ∀ i, c.m - (s i).nlast = (s i).nstep := fun i => by rw [hs.nlast, hs.nstep, hc]; ring
  have te := fun i => tick_end false (fun _ _ _ => g) s c i (hn i) (hs.dead i)
  have mk := fun i => moved_keeps false (fun _ _ _ => g) s c i
  have am := moved_a false (fun _ _ _ => g) s c hn hs.dead
  have hdt : ∀ i, c.ts * ((c.m - (s i).nlast : ℤ) : α) = h := fun i => by
    rw [hs.nlast, hc, add_sub_cancel_left, hts]
  have hrk : ∀ i k, (moved false (fun _ _ _ => g) s c i).r k = (s i).r0 k + 1 / 2 * ((s i).v0 k +
      ((s i).Q0.mom k + (c.gain i).dQ.mom k + 1 / 2 * ((s i).Q0.mass + ((s i).Q0.mass + (c.gain i).dQ.mass)) * g k * h) /
        ((s i).Q0.mass + (c.gain i).dQ.mass)) * h := by
    intro i k
    rw [(mk i).2.2.2, advance, if_neg (by simp [gain, hs.dead])]
    simp only [gain, Bool.false_eq_true, if_false, arrayVars, advancedGrav, advancedFlux, hn, if_true, Cons.add, hdt]
    simp only [(hq i).1, (hq i).2.2.2, Cons.zero, zero_add, ← hn i, hdt]
  have hne := hm
  simp only [te, record, endCons, arrayVars, (mk i).1.Q0, (mk i).2.1, (mk i).2.2.1, (mk i).1.a0, (mk i).1.dt, hs.dt, am i,
    (mk i).1.cooling, (hq i).1, (hq i).2.1, (hq i).2.2.1, (hq i).2.2.2, Cons.add, Cons.zero, zero_add, zero_mul, sub_zero,
    dot, hrk]
  simp only [Finset.mul_sum, ← Finset.sum_add_distrib, ← sub_eq_add_neg]
  generalize hM : (s i).Q0.mass + (c.gain i).dQ.mass = m1 at hne
  have hm1 : (c.gain i).dQ.mass = m1 - (s i).Q0.mass := by rw [← hM]; ring
  have key : ∀ k : Fin n, m1 * (g k * ((s i).r0 k + 1 / 2 * ((s i).v0 k +
      ((s i).Q0.mom k + (c.gain i).dQ.mom k + 1 / 2 * ((s i).Q0.mass + m1) * g k * h) / m1) * h)) =
      m1 * (g k * (s i).r0 k) + 1 / 2 * h * g k * (m1 * (s i).v0 k + (s i).Q0.mom k + (c.gain i).dQ.mom k) +
        1 / 4 * h * h * g k * g k * ((s i).Q0.mass + m1) := by
    intro k
    field_simp
    ring
  simp only [key, hm1]
  have S : (∑ x, 1 / 2 * h * (g x * ((s i).Q0.mom x + 1 / 2 * (s i).Q0.mass * g x * h) +
        g x * ((s i).Q0.mom x + (c.gain i).dQ.mom x + 1 / 2 * m1 * g x * h))) +
      (∑ x, 1 / 2 * (g x * (c.gain i).rdmdt x + g x * (c.gain i).rdmdt x)) -
      (∑ x, (m1 * (g x * (s i).r0 x) + 1 / 2 * h * g x * (m1 * (s i).v0 x + (s i).Q0.mom x + (c.gain i).dQ.mom x) +
        1 / 4 * h * h * g x * g x * ((s i).Q0.mass + m1))) +
      (∑ x, (s i).Q0.mass * (g x * (s i).r0 x)) - (∑ x, g x * (c.gain i).rdmdt x) +
      (∑ x, (m1 - (s i).Q0.mass) * (g x * ((s i).r0 x + h / 2 * (s i).v0 x))) = 0 := by
    rw [← Finset.sum_add_distrib, ← Finset.sum_sub_distrib, ← Finset.sum_add_distrib, ← Finset.sum_sub_distrib,
      ← Finset.sum_add_distrib]
    refine Finset.sum_eq_zero fun k _ => ?_
    rw [hv i k]
    ring
  linear_combination S

/-- **C74, fluxes in gravity.** In uniform gravity, with mass, momentum and energy exchanged between the pairs `L`: over a step the
energy with the potential energy changes by the whole potential energy between the two places for all the mass that goes
from one to the other. -/
theorem C74_lift (g : Vec n α) (s : Fin N → Part n α) {m M : ℤ} {h : α} (hs : Together s m M h)
    (hq : ∀ i, (s i).dQ = Cons.zero ∧ (s i).rdmdt = (fun _ => 0) ∧ (s i).cooling = 0 ∧ (s i).a0 = g)
    (hv : ∀ i k, (s i).Q0.mom k = (s i).Q0.mass * (s i).v0 k) (c : Tick N n α) (hc : c.m = m + M) (hts : c.ts * M = h)
    (L : List (Pair N n α)) (hL : c.gain = pairGains (fun i => (s i).r0) L)
    (hm : ∀ i, (s i).Q0.mass + (c.gain i).dQ.mass ≠ 0) :
    energyIn g (tick false (fun _ _ _ => g) s c) = energyIn g s -
      (L.map fun e => e.f.mass * e.dt *
        ∑ k, g k * ((s e.j).r0 k + h / 2 * (s e.j).v0 k - ((s e.i).r0 k + h / 2 * (s e.i).v0 k))).sum := by
  have each := fun i => C74_work g s hs hq hv c hc hts i (hm i)
  rw [energyIn, Finset.sum_congr rfl fun i _ => each i]
  simp only [Finset.sum_sub_distrib, Finset.sum_add_distrib]
  rw [(C74_pairs c _ L hL).2]
  have w1 : ∑ i, ∑ k, g k * (c.gain i).rdmdt k = 0 := by
    rw [hL, FvStep.sum_foldl (fun _ G => ∑ k, g k * G.rdmdt k) (fun _ => by simp [Gain.zero])
      (fun _ G H => by simp only [Gain.add, mul_add, Finset.sum_add_distrib])]
    simp [Pair.own, Pair.other]
  have w2 : ∑ i, (c.gain i).dQ.mass * ∑ k, g k * ((s i).r0 k + h / 2 * (s i).v0 k) =
      (L.map fun e => e.f.mass * e.dt *
        ∑ k, g k * ((s e.j).r0 k + h / 2 * (s e.j).v0 k - ((s e.i).r0 k + h / 2 * (s e.i).v0 k))).sum := by
    rw [hL, FvStep.sum_foldl (fun i G => G.dQ.mass * ∑ k, g k * ((s i).r0 k + h / 2 * (s i).v0 k))
      (fun _ => by simp [Gain.zero, Cons.zero]) (fun _ G H => by simp only [Gain.add, Cons.add, add_mul])]
    congr 1
    refine List.map_congr_left fun e _ => ?_
    simp only [Pair.own, Pair.other, Cons.smul, mul_sub, Finset.sum_sub_distrib]
    ring
  rw [w1, w2, energyIn, Finset.sum_sub_distrib]
  ring

/-- **C74, negation.** The correction for the mass that moves in the gravity, with opposite signs for the two particles of a pair,
adds up to nothing. Two particles at rest: the mass that goes from one to the other takes no potential energy along, so that
the energy changes unless both are at the same height. -/
theorem C74_lift_fails (g : Vec n α) (s : Fin N → Part n α) {m M : ℤ} {h : α} (hs : Together s m M h)
    (hq : ∀ i, (s i).dQ = Cons.zero ∧ (s i).rdmdt = (fun _ => 0) ∧ (s i).cooling = 0 ∧ (s i).a0 = g)
    (hv : ∀ i k, (s i).Q0.mom k = 0 ∧ (s i).v0 k = 0) (c : Tick N n α) (hc : c.m = m + M) (hts : c.ts * M = h)
    (e : Pair N n α) (hL : c.gain = pairGains (fun i => (s i).r0) [e])
    (hm : ∀ i, (s i).Q0.mass + (c.gain i).dQ.mass ≠ 0) (hf : e.f.mass * e.dt ≠ 0)
    (hh : ∑ k, g k * ((s e.j).r0 k - (s e.i).r0 k) ≠ 0) :
    energyIn g (tick false (fun _ _ _ => g) s c) ≠ energyIn g s := by
  rw [C74_lift g s hs hq (fun i k => by rw [(hv i k).1, (hv i k).2, mul_zero]) c hc hts [e] hL hm]
  simp only [List.map_cons, List.map_nil, List.sum_cons, List.sum_nil, add_zero, (hv _ _).2, mul_zero]
  intro h0
  exact mul_ne_zero hf hh (by linear_combination -h0)

/-- **C74, records.** A particle whose step ends starts the next one where it is, at the time it is, with the length and the number
of ticks assigned to it, and with empty buffers. -/
theorem C74_recorded (st : Bool) (F : (Fin N → Vec n α) → (Fin N → α) → Fin N → Vec n α) (s : Fin N → Part n α)
    (c : Tick N n α) (i : Fin N) (h : c.m - (s i).nlast = (s i).nstep) (hd : (s i).dead = false) :
    let q := tick st F s c i
    q.tlast = c.t ∧ q.nlast = c.m ∧ q.dt = c.d i ∧ q.nstep = c.ns i ∧ q.r0 = q.r ∧ q.v0 = q.v ∧ q.a0 = q.a ∧
      q.active = true ∧ q.endts = false ∧ q.dQ = Cons.zero ∧ q.dQdt = Cons.zero ∧ q.rdmdt = (fun _ => 0) ∧
      q.m = q.Q0.mass ∧ (q.v = fun k => q.Q0.mom k / q.Q0.mass) ∧ q.dead = false := by
  intro q
  have e := tick_end st F s c i h hd
  have hd' := (moved_keeps st F s c i).1.dead
  simp only [q, e, record, arrayVars]
  simp [hd', hd]

/-- **C74, rates.** A particle within its step keeps the rates with which it started, whatever fluxes come from neighbours on
shorter steps; and it is predicted with them. -/
theorem C74_rates (st : Bool) (F : (Fin N → Vec n α) → (Fin N → α) → Fin N → Vec n α) (s : Fin N → Part n α)
    (c : Tick N n α) (i : Fin N) (h : c.m - (s i).nlast ≠ (s i).nstep) (hd : (s i).dead = false)
    (he : (s i).endts = false) (ha : (s i).active = false) :
    let q := tick st F s c i
    q.dQdt = (s i).dQdt ∧ q.active = false ∧
      q.m = (s i).Q0.mass + (s i).dQdt.mass * (c.ts * ((c.m - (s i).nlast : ℤ) : α)) := by
  intro q
  have e : q = finish c.m c.t (assign c.m (c.ns i) (c.d i) (moved st F s c i)) := rfl
  obtain ⟨k, -⟩ := moved_keeps st F s c i
  have ea : assign c.m (c.ns i) (c.d i) (moved st F s c i) = moved st F s c i := by
    rw [assign, if_neg (by rw [k.nlast, k.nstep]; exact h)]
  have hact : (advance st c.m c.ts (gain (c.gain i) (s i))).active = false := by
    rw [advance, if_neg (by simp [gain, hd])]
    simp [gain, h]
  have em : moved st F s c i = advance st c.m c.ts (gain (c.gain i) (s i)) := by
    rw [moved, force, if_neg (by simp [hact])]
  rw [e, ea, finish, if_neg (by simp [k.dead, hd]), if_neg (by simp [k.nlast, k.nstep, k.endts, h, he]), em]
  refine ⟨?_, rfl, ?_⟩
  · change (advance st c.m c.ts (gain (c.gain i) (s i))).dQdt = _
    rw [(advance_more st c.m c.ts _).2.1]
    simp [gain, ha]
  · change (advance st c.m c.ts (gain (c.gain i) (s i))).m = _
    rw [advance, if_neg (by simp [gain, hd])]
    simp [gain, arrayVars, advancedGrav, advancedFlux, h, ha, Cons.add, Cons.smul]

/-! ### a case that meets the hypotheses -/

/-- a particle at height `x`, at rest, with mass 2, at the start of a step of one tick in the gravity -1 -/
def FvStep.exLift (x : ℚ) : Part 1 ℚ :=
  { r := fun _ => x, v := fun _ => 0, a := fun _ => -1, r0 := fun _ => x, v0 := fun _ => 0, a0 := fun _ => -1, m := 2, u := 1,
    Q0 := ⟨fun _ => 0, 2, 2⟩, dQ := Cons.zero, dQdt := Cons.zero, rdmdt := fun _ => 0, cooling := 0, dt := 1, dtNext := 0,
    tlast := 0, nlast := 0, nstep := 1, level := 0, levelneib := 0, hydro := true, active := true, endts := false, dead := false }

/-- one unit of mass goes from the upper particle to the lower one; its potential energy is gone -/
example : energyIn (fun _ => (-1 : ℚ)) (tick false (fun _ _ _ _ => -1) ![exLift 3, exLift 0]
      ⟨1, 1, 1, pairGains ![fun _ => 3, fun _ => 0] [⟨0, 1, ⟨fun _ => 0, 1, 1⟩, 1⟩], fun _ => 1, fun _ => 1⟩) =
    energyIn (fun _ => (-1 : ℚ)) ![exLift 3, exLift 0] - 3 := by
  have hr : (![fun _ => 3, fun _ => 0] : Fin 2 → Vec 1 ℚ) = fun i => ((![exLift 3, exLift 0] : Fin 2 → Part 1 ℚ) i).r0 := by
    funext i; fin_cases i <;> rfl
  have := C74_lift (fun _ => (-1 : ℚ)) ![exLift 3, exLift 0] (m := 0) (M := 1) (h := 1)
    ⟨fun i => by fin_cases i <;> rfl, fun i => by fin_cases i <;> rfl, fun i => by fin_cases i <;> rfl,
      fun i => by fin_cases i <;> rfl, fun i => by fin_cases i <;> rfl⟩
    (fun i => by fin_cases i <;> exact ⟨rfl, rfl, rfl, rfl⟩) (fun i k => by fin_cases i <;> simp [exLift])
    ⟨1, 1, 1, pairGains ![fun _ => 3, fun _ => 0] [⟨0, 1, ⟨fun _ => 0, 1, 1⟩, 1⟩], fun _ => 1, fun _ => 1⟩ rfl (by norm_num)
    [⟨0, 1, ⟨fun _ => 0, 1, 1⟩, 1⟩] (by rw [← hr])
    (fun i => by
      fin_cases i <;> norm_num [pairGains, addPair, Gain.zero, Gain.add, Pair.own, Pair.other, Cons.add, Cons.zero, Cons.smul,
        exLift])
  rw [this]
  norm_num [exLift]

end Gandalf
