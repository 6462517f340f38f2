import Verif.Proof.MpiForces
import Verif.Spec.MfvGravity
import Mathlib.Tactic.NormNum

/-!
# C98: forces from other processes
-/

set_option autoImplicit false
set_option linter.unusedSectionVars false

namespace Gandalf

open Export

variable {P S R : Type} {n : ℕ}

namespace C98

/-- every process gets one message of every other, in some order, both ways; no particle is sent twice to the same process;
only own particles are sent -/
structure Fair (W : World P) (N : ℕ) : Prop where
  nodup1 : ∀ q < N, (W.order1 q).Nodup
  all1 : ∀ q < N, ∀ p, p ∈ W.order1 q ↔ p < N ∧ p ≠ q
  nodup2 : ∀ q < N, (W.order2 q).Nodup
  all2 : ∀ q < N, ∀ p, p ∈ W.order2 q ↔ p < N ∧ p ≠ q
  ids : ∀ p < N, ∀ q < N, (W.ids p q).Nodup
  own : ∀ p < N, ∀ q < N, ∀ i ∈ W.ids p q, i < W.base p

/-- the slot that particle `i` of `p` has on `q` -/
def slot (W : World P) (p q i : ℕ) : ℕ := offset (W.base q) (W.cnt q) p + (W.ids p q).idxOf i

/-- what `q` finds for particle `i` of `p` -/
def result (W : World P) (H : Handler P S R) (p q i : ℕ) : R :=
  H.ret (W.loop q (slot W p q i) (H.receive (H.stream (W.mem p i)) (W.mem q (slot W p q i))))

end C98

/-- **C98, slots.** Particles of other processes are put behind the own ones and the ghosts, each in a slot of its own. -/
theorem C98_slots {W : World P} {N : ℕ} (hW : C98.Fair W N) (q : ℕ) (hq : q < N) (p p' i i' : ℕ) (hp : p < N)
    (hp' : p' < N) (hpq : p ≠ q) (hpq' : p' ≠ q) (hi : i ∈ W.ids p q) (hi' : i' ∈ W.ids p' q) :
    W.base q ≤ C98.slot W p q i ∧ (C98.slot W p q i = C98.slot W p' q i' → p = p' ∧ i = i') := by
  refine ⟨(offset_ge _ _ _).trans (Nat.le_add_right _ _), fun h => ?_⟩
  have k := List.idxOf_lt_length_of_mem hi
  have k' := List.idxOf_lt_length_of_mem hi'
  have c : W.cnt q p = (W.ids p q).length := if_neg hpq
  have c' : W.cnt q p' = (W.ids p' q).length := if_neg hpq'
  unfold C98.slot at h
  have e : p = p' := by
    by_contra hne
    have := blocks (W.base q) (W.cnt q) (s := offset (W.base q) (W.cnt q) p + (W.ids p q).idxOf i) hne (by omega) (by omega)
    omega
  subst e
  refine ⟨rfl, ?_⟩
  have e2 : (W.ids p q).idxOf i = (W.ids p q).idxOf i' := by omega
  have g := List.getElem_idxOf k
  have g' := List.getElem_idxOf k'
  rw [← g, ← g']
  simp only [e2]

/-- **C98, there and back.** For every record type, any orders in which the messages come, any numbers of particles sent:
each own particle in the end is what the own force loop made of it, with the results of exactly those processes it was sent
to added once each; each of these has treated a faithful copy. -/
theorem C98_route (H : Handler P S R) {W : World P} {N : ℕ} (hW : C98.Fair W N) (p i : ℕ) (hp : p < N)
    (hi : i < W.base p) :
    W.final H p i = (W.order2 p).foldl (fun x q => if decide (i ∈ W.ids p q) then H.acc (C98.result W H p q i) x else x)
      (W.loop p i (W.mem p i)) := by
  have key : ∀ (l : List ℕ) (mem : ℕ → P), (∀ q ∈ l, q < N ∧ q ≠ p) →
      l.foldl (fun mem q => accAll H (W.ids p q) (W.back H q p) mem) mem i =
      l.foldl (fun x q => if decide (i ∈ W.ids p q) then H.acc (C98.result W H p q i) x else x) (mem i) := by
    intro l
    induction l with
    | nil => intro mem _; rfl
    | cons q l ih =>
      intro mem hl
      rw [List.foldl_cons, List.foldl_cons, ih _ fun a ha => hl a (List.mem_cons_of_mem _ ha)]
      congr 1
      obtain ⟨hq, hqp⟩ := hl q List.mem_cons_self
      by_cases hm : i ∈ W.ids p q
      · rw [if_pos (by simpa using hm)]
        have hk := List.idxOf_lt_length_of_mem hm
        have c : W.cnt q p = (W.ids p q).length := if_neg (fun e => hqp e.symm)
        have hk2 : (W.ids p q).idxOf i < (W.back H q p).length := by
          unfold World.back
          rw [List.length_map, List.length_range', c]
          exact hk
        have h := accAll_in H (W.ids p q) (W.back H q p) mem _ hk hk2 (hW.ids p hp q hq)
        simp only [List.getElem_idxOf hk] at h
        rw [h]
        congr 1
        have hb : (W.back H q p)[(W.ids p q).idxOf i] = H.ret (W.looped H q (C98.slot W p q i)) := by
          simp only [World.back, List.getElem_map, List.getElem_range', one_mul]
          rfl
        rw [hb]
        change H.ret (W.loop q (C98.slot W p q i) (W.imported H q (C98.slot W p q i))) = _
        unfold C98.result
        congr 2
        have hf := fold_in W H q p _ (fun e => hqp e.symm) hk (W.order1 q) (W.mem q)
          ((hW.all1 q hq p).mpr ⟨hp, fun e => hqp e.symm⟩) (hW.nodup1 q hq)
          (fun h => ((hW.all1 q hq q).mp h).2 rfl)
        rw [List.getElem_idxOf hk] at hf
        exact hf
      · rw [if_neg (by simpa using hm)]
        exact accAll_out H _ _ _ _ hm
  unfold World.final
  rw [key _ _ fun q hq => (hW.all2 p hp q).mp hq]
  congr 1
  change W.loop p i (W.imported H p i) = _
  rw [imported_own W H p i hi]

/-- **C98, SPH.** Let the sums of the particle be zero before the loop and its smoothing length the one of its density. Then
acceleration, heating and divergence are the sums of those of the process it belongs to and of all processes it was sent
to. The potential has the one of the particle itself once for each of these. -/
theorem C98_sph (K : Kernel) (h_fac : ℝ) {W : World (SPart n)} {N : ℕ} (hW : C98.Fair W N) (F : ℕ → Field n)
    (hF : ∀ q s x, W.loop q s x = sphLoop K (F q) x) (p i : ℕ) (hp : p < N) (hi : i < W.base p) (w : View n)
    (h0 : W.mem p i = ⟨w, fun _ => 0, fun _ => 0, 0, 0, 0, 0, 0⟩)
    (hh : w.h = h_fac * (w.m / w.rho) ^ (1 / (n : ℝ))) (hhf : w.hfactor = (1 / w.h) ^ (n + 1)) :
    let dest := (Finset.range N).filter fun q => q = p ∨ i ∈ W.ids p q
    let x := W.final (sph n h_fac) p i
    (∀ k, x.a k = ∑ q ∈ dest, ((F q).a w k + (F q).atree w k)) ∧ (∀ k, x.atree k = ∑ q ∈ dest, (F q).atree w k) ∧
    x.dudt = ∑ q ∈ dest, (F q).dudt w ∧ x.div_v = ∑ q ∈ dest, (F q).div_v w ∧
    x.gpot = ∑ q ∈ dest, (F q).pot w + dest.card * (w.m / w.h * K.wpot 0) := by
  intro dest x
  have hx : x = _ := C98_route (sph n h_fac) hW p i hp hi
  have own : W.loop p i (W.mem p i) = sphLoop K (F p) ⟨w, fun _ => 0, fun _ => 0, 0, 0, 0, 0, 0⟩ := by rw [hF, h0]
  have res : ∀ q, C98.result W (sph n h_fac) p q i =
      (sph n h_fac).ret (sphLoop K (F q) ⟨w, fun _ => 0, fun _ => 0, 0, 0, 0, 0, 0⟩) := fun q => by
    unfold C98.result
    rw [hF, h0]
    congr 2
    simp only [sph]
    rw [← hh, ← hhf]
  have total : ∀ (f : SPart n → ℝ) (g : SReturn n → ℝ), (∀ r y, f ((sph n h_fac).acc r y) = f y + g r) →
      (∀ y, g ((sph n h_fac).ret y) = f y) →
      f x = ∑ q ∈ dest, f (sphLoop K (F q) ⟨w, fun _ => 0, fun _ => 0, 0, 0, 0, 0, 0⟩) := by
    intro f g h h'
    rw [hx, fold_sum _ f g h, sum_others (hW.nodup2 p hp) (hW.all2 p hp), own]
    simp only [res, h', decide_eq_true_eq]
    have e : dest = insert p ((Finset.range N).filter fun q => q ≠ p ∧ i ∈ W.ids p q) := by
      ext q
      simp only [dest, Finset.mem_filter, Finset.mem_insert, Finset.mem_range]
      constructor
      · rintro ⟨a, b⟩
        by_cases c : q = p
        · exact Or.inl c
        · exact Or.inr ⟨a, c, b.resolve_left c⟩
      · rintro (c | ⟨a, -, b⟩)
        · subst c; exact ⟨hp, Or.inl rfl⟩
        · exact ⟨a, Or.inr b⟩
    rw [e, Finset.sum_insert (by simp)]
  refine ⟨fun k => ?_, fun k => ?_, ?_, ?_, ?_⟩
  · rw [total (fun y => y.a k) (fun r => r.a k) (fun _ _ => rfl) (fun _ => rfl)]
    exact Finset.sum_congr rfl fun q _ => by simp [sphLoop]
  · rw [total (fun y => y.atree k) (fun r => r.atree k) (fun _ _ => rfl) (fun _ => rfl)]
    exact Finset.sum_congr rfl fun q _ => by simp [sphLoop]
  · rw [total (fun y => y.dudt) (fun r => r.dudt) (fun _ _ => rfl) (fun _ => rfl)]
    exact Finset.sum_congr rfl fun q _ => by simp [sphLoop]
  · rw [total (fun y => y.div_v) (fun r => r.div_v) (fun _ _ => rfl) (fun _ => rfl)]
    exact Finset.sum_congr rfl fun q _ => by simp [sphLoop]
  · rw [total (fun y => y.gpot) (fun r => r.gpot) (fun _ _ => rfl) (fun _ => rfl), ← nsmul_eq_mul, ← Finset.sum_const,
      ← Finset.sum_add_distrib]
    exact Finset.sum_congr rfl fun q _ => by simp only [sphLoop]; ring

namespace C98

/-- a particle of mass 1, density 8 and the smoothing length `h` -/
noncomputable def view (h : ℝ) : View 3 := ⟨0, 0, fun _ => 0, fun _ => 0, 1, 8, 1, 1, 1, 1, 0, h, (1 / h) ^ 4⟩

theorem root8 : ((1 : ℝ) / 8) ^ (1 / ((3 : ℕ) : ℝ)) = 1 / 2 := by
  rw [show (1 : ℝ) / 8 = (1 / 2) ^ (3 : ℕ) by norm_num, ← Real.rpow_natCast, ← Real.rpow_mul (by norm_num)]
  norm_num

/-- no forces at all -/
noncomputable def still : Field 3 := ⟨fun _ _ => 0, fun _ _ => 0, fun _ => 0, fun _ => 0, fun _ => 0, fun _ => 0⟩

/-- one particle, sent from the first of two processes to the second -/
noncomputable def two (K : Kernel) (h : ℝ) : World (SPart 3) where
  mem _ _ := ⟨view h, fun _ => 0, fun _ => 0, 0, 0, 0, 0, 0⟩
  base _ := 1
  ids p q := if p = 0 ∧ q = 1 then [0] else []
  loop _ _ x := sphLoop K still x
  order1 q := [1 - q]
  order2 q := [1 - q]

theorem two_fair (K : Kernel) (h : ℝ) : Fair (two K h) 2 where
  nodup1 _ _ := List.nodup_singleton _
  all1 q hq p := by
    change p ∈ [1 - q] ↔ _
    rw [List.mem_singleton]
    omega
  nodup2 _ _ := List.nodup_singleton _
  all2 q hq p := by
    change p ∈ [1 - q] ↔ _
    rw [List.mem_singleton]
    omega
  ids p _ q _ := by
    change (if p = 0 ∧ q = 1 then [0] else []).Nodup
    split_ifs <;> simp
  own p _ q _ i hi := by
    change i ∈ (if p = 0 ∧ q = 1 then [0] else []) at hi
    change i < 1
    split_ifs at hi <;> simp_all

end C98

/-- **C98 fails for the potential**: the copy on the other process begins with the potential of the particle itself as the
original does, so it is counted twice, for a particle alone in the world. -/
theorem C98_self_fails (K : Kernel) (hK : 0 < K.wpot 0) :
    ((C98.two K (1 / 2)).final (sph 3 1) 0 0).gpot = 2 * (1 / (1 / 2) * K.wpot 0) ∧
    ((C98.two K (1 / 2)).final (sph 3 1) 0 0).gpot ≠ 1 / (1 / 2) * K.wpot 0 := by
  have h := (C98_sph K 1 (C98.two_fair K (1 / 2)) (fun _ => C98.still) (fun _ _ _ => rfl) 0 0 (by norm_num)
    (by change 0 < 1; norm_num) (C98.view (1 / 2)) rfl
    (by change (1 : ℝ) / 2 = 1 * (1 / 8) ^ _; rw [C98.root8, one_mul]) rfl).2.2.2.2
  have e : ((Finset.range 2).filter fun q => q = 0 ∨ 0 ∈ (C98.two K (1 / 2)).ids 0 q).card = 2 := by
    have : (Finset.range 2).filter (fun q => q = 0 ∨ 0 ∈ (C98.two K (1 / 2)).ids 0 q) = Finset.range 2 := by
      refine Finset.filter_true_of_mem fun q hq => ?_
      rw [Finset.mem_range] at hq
      rcases (show q = 0 ∨ q = 1 by omega) with rfl | rfl
      · exact Or.inl rfl
      · exact Or.inr (List.mem_singleton.mpr rfl)
    rw [this, Finset.card_range]
  rw [e] at h
  have h2 : ((C98.two K (1 / 2)).final (sph 3 1) 0 0).gpot = 2 * (1 / (1 / 2) * K.wpot 0) := by
    rw [h]
    simp [C98.still, C98.view]
  refine ⟨h2, ?_⟩
  rw [h2]
  intro h3
  have : 1 / (1 / 2) * K.wpot 0 = 2 * K.wpot 0 := by norm_num
  linarith

/-- **C98 fails for particles with the least smoothing length.** The smoothing length is not sent but computed from the
density on the other side: near sinks, where it is held at a lower limit (GradhSph.cpp:262), the other process uses another
one. Density 8, mass 1, limit 1: one half instead of 1. -/
theorem C98_bound_fails (old : SPart 3) :
    let p : SPart 3 := ⟨C98.view (max (1 * (1 / 8 : ℝ) ^ (1 / ((3 : ℕ) : ℝ))) 1), fun _ => 0, fun _ => 0, 0, 0, 0, 0, 0⟩
    p.w.h = 1 ∧ ((sph 3 1).receive ((sph 3 1).stream p) old).w.h = 1 / 2 := by
  intro p
  constructor
  · change max (1 * (1 / 8 : ℝ) ^ (1 / ((3 : ℕ) : ℝ))) 1 = 1
    rw [C98.root8]
    norm_num
  · change 1 * (1 / 8 : ℝ) ^ (1 / ((3 : ℕ) : ℝ)) = 1 / 2
    rw [C98.root8, one_mul]

/-- **C98, meshless schemes.** The copy is faithful in position and mass, and in smoothing length where that follows from the
number density; -/
theorem C98_mfv (h_fac : ℝ) (p old : MPart n) (hh : p.w.h = h_fac * (1 / p.ndens) ^ (1 / (n : ℝ)))
    (hhf : p.w.hfactor = (1 / p.w.h) ^ (n + 1)) :
    let c := (mfv n h_fac).receive ((mfv n h_fac).stream p) old
    c.w.r = p.w.r ∧ c.w.m = p.w.m ∧ c.w.h = p.w.h ∧ c.w.hfactor = p.w.hfactor ∧ (c.w = p.w ↔ old.w.zeta = p.w.zeta) := by
  intro c
  have e : c.w = ⟨p.w.r, p.w.m, p.w.h, p.w.hfactor, old.w.zeta⟩ := by
    change (⟨p.w.r, p.w.m, _, _, old.w.zeta⟩ : MView n) = _
    rw [hhf, hh]
    rfl
  rw [e]
  refine ⟨rfl, rfl, rfl, rfl, fun h => ?_, fun h => ?_⟩
  · have h' := congrArg MView.zeta h
    exact h'
  · rw [h]

/-- what the gravity loop sees of a particle -/
noncomputable def C98.seen (w : MView n) : MfvGrav.Part n :=
  ⟨w.r, w.m, w.h, w.zeta, w.hfactor, true, true, fun _ => 0, fun _ => 0, 0, 0⟩

/-- **it fails for the correction term**: `zeta` is not sent, the copy has what the last user of the slot left. Whatever the
particle and its neighbour `q` on the other process inside the kernel, with some such memory the force there is not that on
the particle. -/
theorem C98_zeta_fails (K : Kernel) (h_fac : ℝ) (p : MPart n) (hh : p.w.h = h_fac * (1 / p.ndens) ^ (1 / (n : ℝ)))
    (hhf : p.w.hfactor = (1 / p.w.h) ^ (n + 1)) (hp : 0 < p.w.h) (q : MfvGrav.Part n) (s : ℝ) (hs : K.w1 (s / p.w.h) ≠ 0) :
    ∃ old : MPart n, MfvGrav.strength K s (C98.seen ((mfv n h_fac).receive ((mfv n h_fac).stream p) old).w) q ≠
      MfvGrav.strength K s (C98.seen p.w) q := by
  refine ⟨{ p with w := { p.w with zeta := p.w.zeta + 1 } }, ?_⟩
  set old : MPart n := { p with w := { p.w with zeta := p.w.zeta + 1 } }
  have e : ((mfv n h_fac).receive ((mfv n h_fac).stream p) old).w =
      ⟨p.w.r, p.w.m, p.w.h, p.w.hfactor, p.w.zeta + 1⟩ := by
    change (⟨p.w.r, p.w.m, _, _, p.w.zeta + 1⟩ : MView n) = _
    rw [hhf, hh]
    rfl
  rw [e]
  simp only [MfvGrav.strength, C98.seen]
  have hf : p.w.hfactor ≠ 0 := by
    rw [hhf]
    positivity
  intro h
  have : p.w.hfactor * K.w1 (s / p.w.h) = 0 := by linarith
  exact (mul_ne_zero hf hs) this

example (old : MPart 3) : ((mfv 3 1).receive ((mfv 3 1).stream
    ⟨⟨fun _ => 0, 1, 1 / 2, (1 / (1 / 2)) ^ 4, 5⟩, 8, fun _ => 0, fun _ => 0, 0, 0⟩) old).w =
    ⟨fun _ => 0, 1, 1 / 2, (1 / (1 / 2)) ^ 4, old.w.zeta⟩ := by
  change (⟨_, _, 1 * (1 / 8 : ℝ) ^ (1 / ((3 : ℕ) : ℝ)), (1 / (1 * (1 / 8 : ℝ) ^ (1 / ((3 : ℕ) : ℝ)))) ^ 4, _⟩ : MView 3) = _
  rw [C98.root8, one_mul]
  rfl

end Gandalf
