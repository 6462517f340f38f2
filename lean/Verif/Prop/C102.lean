import Verif.Model.SinkGhost
import Verif.Prop.C20
import Mathlib.Tactic.Ring
import Mathlib.Tactic.NormNum
import Mathlib.Tactic.Linarith

/-!
# C102: sinks at periodic boundaries

`totalMass Nhydro` is the mass of the particles, ghosts left out, and of the sinks.
-/

set_option autoImplicit false

namespace Gandalf

open Sinks

variable {n : ℕ} {α : Type*} [Field α] [LinearOrder α] [IsStrictOrderedRing α]

section

variable {prm : Prm α} {N Ntot M Nhydro : ℕ} {gather gather' : ℕ → List ℕ} {trot decay : ℕ → α}
  {g : ℕ → Gas n α} {sinks : List (Sink n α)}

/-- **C102, only particles.** If no ghost lies in a sink's list, all totals of particles and sinks are those of
before. -/
theorem C102_particles (hn : n ≤ 3) (hsm : 0 ≤ prm.small) (hl : ∀ s, (gather' s).Nodup)
    (hN : ∀ s, ∀ i ∈ gather' s, i < Nhydro) (hg : ∀ i < Nhydro, 0 ≤ (g i).m)
    (hs : ∀ sk ∈ sinks, 0 < sk.star.m) :
    SameTotals Nhydro g sinks (accrete prm N Ntot gather gather' trot decay g sinks).1
      (accrete prm N Ntot gather gather' trot decay g sinks).2 :=
  C20_conserved hn hsm hl hN hg hs

/-- **C102, gain.** With ghosts in the lists, the mass of particles and sinks grows by just what ghosts lose. -/
theorem C102_gain (hn : n ≤ 3) (hsm : 0 ≤ prm.small) (hl : ∀ s, (gather' s).Nodup)
    (hN : ∀ s, ∀ i ∈ gather' s, i < M) (hM : Nhydro ≤ M) (hg : ∀ i < M, 0 ≤ (g i).m)
    (hs : ∀ sk ∈ sinks, 0 < sk.star.m) :
    let y := accrete prm N Ntot gather gather' trot decay g sinks
    totalMass Nhydro y.1 y.2 =
      totalMass Nhydro g sinks + ∑ i ∈ Finset.Ico Nhydro M, ((g i).m - (y.1 i).m) ∧
    ∀ i ∈ Finset.Ico Nhydro M, 0 ≤ (g i).m - (y.1 i).m := by
  intro y
  have h := (C20_conserved (N := N) (Ntot := Ntot) (gather := gather) (trot := trot) (decay := decay)
    hn hsm hl hN hg hs).mass
  refine ⟨?_, fun i hi => ?_⟩
  · unfold totalMass at h ⊢
    rw [← Finset.sum_range_add_sum_Ico _ hM, ← Finset.sum_range_add_sum_Ico (fun i => (g i).m) hM] at h
    rw [Finset.sum_sub_distrib]
    change _ + ∑ i ∈ Finset.Ico Nhydro M, (y.1 i).m + _ = _ at h
    linear_combination h
  · have hp := C20_particles (N := N) (Ntot := Ntot) (gather := gather) (trot := trot) (decay := decay)
      (sinks := sinks) hsm hN hg i
    have := (hp.2.2.2.2.1 (hg i (Finset.mem_Ico.mp hi).2)).2
    exact sub_nonneg.mpr this

/-- **C102, owner.** A particle that is in no list of its own keeps its mass and lives on, whatever happens to its
ghosts. -/
theorem C102_owner_kept (i : ℕ) (hi : i < Ntot) (hno : ∀ s, i ∉ gather s) :
    ((accrete prm N Ntot gather gather' trot decay g sinks).1 i).m = (g i).m ∧
    ((accrete prm N Ntot gather gather' trot decay g sinks).1 i).dead = (g i).dead := by
  obtain ⟨-, -, -, h4, -⟩ := markAll_spec gather sinks 0 (cleared Ntot g)
  have hid : ((markAll gather 0 sinks (cleared Ntot g)).1 i).sinkid = none := by
    rcases h4 i with h | ⟨j, sk, -, hm, -⟩
    · rw [h]
      unfold cleared
      rw [if_pos hi]
    · exact absurd hm (hno _)
  have e : (accrete prm N Ntot gather gather' trot decay g sinks).1 i =
      (markAll gather 0 sinks (cleared Ntot g)).1 i := by
    rw [accrete_eq]
    refine (accreteAll_alone _ 0 _).2 i fun j _ => ?_
    rw [hid]
    exact fun h => by cases h
  rw [e]
  exact ⟨(marked_same Ntot gather g sinks i).m, (marked_same Ntot gather g sinks i).dead⟩

/-- **C102, fails.** Without smooth accretion a ghost inside a sink is swallowed, and the mass of particles and
sinks has grown by at least the mass of this ghost. -/
theorem C102_swallowed_fails (hn : n ≤ 3) (hs0 : prm.smooth = false) (hsm : 0 < prm.small)
    (hl : ∀ s, (gather s).Nodup) (hN : ∀ s, ∀ i ∈ gather s, i < M) (hM : Nhydro ≤ M)
    (hg : ∀ i < M, prm.small ≤ (g i).m ∨ ((g i).dead = true ∧ (g i).m = 0))
    (hs : ∀ sk ∈ sinks, 0 < sk.star.m) (hdue : ∀ sk ∈ sinks, N % sk.star.nstep = 0)
    {j : ℕ} {sk : Sink n α} (hj : sinks[j]? = some sk) {e : ℕ} (he : e ∈ gather j) (heN : Nhydro ≤ e)
    (hin : Inside (g e) sk) :
    let y := accrete prm N Ntot gather gather trot decay g sinks
    totalMass Nhydro g sinks + (g e).m ≤ totalMass Nhydro y.1 y.2 := by
  intro y
  have hg0 : ∀ i < M, 0 ≤ (g i).m := fun i hi => by
    rcases hg i hi with h | ⟨-, h⟩
    · exact hsm.le.trans h
    · rw [h]
  obtain ⟨h1, h2⟩ := C102_gain (N := N) (Ntot := Ntot) (gather := gather) (trot := trot) (decay := decay)
    hn hsm.le hl hN hM hg0 hs
  have hdead := C20_swallows (Ntot := Ntot) (trot := trot) (decay := decay) hs0 hsm hl hN hg hdue hj he hin
  have hm : (y.1 e).m = 0 :=
    ((C20_particles (N := N) (Ntot := Ntot) (gather := gather) (trot := trot) (decay := decay)
      (sinks := sinks) hsm.le hN hg0 e).2.2.2.2.2.2.1 hin.1 hdead).1
  have := Finset.single_le_sum h2 (Finset.mem_Ico.mpr ⟨heN, hN j e he⟩)
  rw [h1]
  change (g e).m - (y.1 e).m ≤ _ at this
  rw [hm, sub_zero] at this
  linarith

/-- **C102, again and again.** As long as new ghosts of a particle lie in a sink and the particle itself does not,
each search followed by accretion adds its mass once more. -/
theorem C102_again_fails (hn : n ≤ 3) (hs0 : prm.smooth = false) (hsm : 0 < prm.small)
    (hM : Nhydro ≤ M) (hMt : Nhydro ≤ Ntot) (orig : ℕ → ℕ) (shift : ℕ → Vec n α)
    (lists : ℕ → ℕ → List ℕ) (times : ℕ → ℕ) (T : ℕ)
    (x : ℕ → (ℕ → Gas n α) × List (Sink n α))
    (hx : ∀ t < T, x (t + 1) = ghostStep prm (times t) Nhydro Ntot orig shift (lists t) trot decay (x t))
    (hl : ∀ t s, (lists t s).Nodup) (hN : ∀ t s, ∀ i ∈ lists t s, i < M)
    (hg : ∀ t < T, ∀ i < M, prm.small ≤ (newGhosts Nhydro orig shift (x t).1 i).m ∨
      ((newGhosts Nhydro orig shift (x t).1 i).dead = true ∧ (newGhosts Nhydro orig shift (x t).1 i).m = 0))
    (hs : ∀ t < T, ∀ sk ∈ (x t).2, 0 < sk.star.m)
    (hdue : ∀ t < T, ∀ sk ∈ (x t).2, times t % sk.star.nstep = 0)
    (e i : ℕ) (heN : Nhydro ≤ e) (hi : orig e = i) (hiN : i < Nhydro) (hno : ∀ t s, i ∉ lists t s)
    (hin : ∀ t < T, ∃ (j : ℕ) (sk : Sink n α), (x t).2[j]? = some sk ∧ e ∈ lists t j ∧
      Inside (newGhosts Nhydro orig shift (x t).1 e) sk) :
    ((x T).1 i).m = ((x 0).1 i).m ∧
    totalMass Nhydro (x 0).1 (x 0).2 + T * ((x 0).1 i).m ≤ totalMass Nhydro (x T).1 (x T).2 := by
  induction T with
  | zero => simp
  | succ T ih =>
    have ih := ih (fun t ht => hx t (by omega)) (fun t ht => hg t (by omega)) (fun t ht => hs t (by omega))
      (fun t ht => hdue t (by omega)) (fun t ht => hin t (by omega))
    have hT : T < T + 1 := by omega
    have hreal : ∀ k < Nhydro, newGhosts Nhydro orig shift (x T).1 k = (x T).1 k := fun k hk => by
      unfold newGhosts
      rw [if_pos hk]
    have he : (newGhosts Nhydro orig shift (x T).1 e).m = ((x T).1 i).m := by
      unfold newGhosts
      rw [if_neg (by omega), hi]
    obtain ⟨j, sk, hj, hel, hins⟩ := hin T hT
    have h1 := C102_swallowed_fails (Ntot := Ntot) (trot := trot) (decay := decay) hn hs0 hsm (hl T) (hN T)
      hM (hg T hT) (hs T hT) (hdue T hT) hj hel heN hins
    have h2 := (C102_owner_kept (prm := prm) (N := times T) (Ntot := Ntot) (gather := lists T)
      (gather' := lists T) (trot := trot) (decay := decay) (g := newGhosts Nhydro orig shift (x T).1)
      (sinks := (x T).2) i (by omega) (hno T)).1
    have h3 : totalMass Nhydro (newGhosts Nhydro orig shift (x T).1) (x T).2 =
        totalMass Nhydro (x T).1 (x T).2 := by
      unfold totalMass
      rw [Finset.sum_congr rfl fun k hk => by rw [hreal k (Finset.mem_range.mp hk)]]
    rw [hx T hT]
    unfold ghostStep
    refine ⟨by rw [h2, hreal i hiN]; exact ih.1, ?_⟩
    rw [h3, he, ih.1] at h1
    refine le_trans ?_ h1
    push_cast
    linarith [ih.2]

end

/-! ### a concrete case: box of length 10, a sink at 0, a particle at 9 whose ghost is at -1 -/

namespace C102

def prm : Prm ℚ where
  smooth := false
  mleft := 0
  dtfrac := 0
  small := 1 / 1000
  mfv := false

def parts : ℕ → Gas 2 ℚ := fun _ => c20Gas 1 9 0 0 0

def ghosts : ℕ → Gas 2 ℚ := newGhosts 1 (fun _ => 0) (fun _ => ![-10, 0]) parts

theorem inside : Inside (ghosts 1) c20Sink := by
  refine ⟨rfl, ?_⟩
  simp [dot, ghosts, newGhosts, parts, c20Gas, c20Sink, Fin.sum_univ_two]
  norm_num

/-- the states after 0, 1, 2, … turns -/
def run : ℕ → (ℕ → Gas 2 ℚ) × List (Sink 2 ℚ)
  | 0 => (parts, [c20Sink])
  | t + 1 => ghostStep prm 0 1 2 (fun _ => 0) (fun _ => ![-10, 0]) (fun _ => [1]) (fun _ => 0) (fun _ => 0) (run t)

end C102

/-- mass 2 in the sink and 1 in the particle; after accretion 3 and 1 -/
example : ((C102.run 1).1 0).m = 1 ∧ ((C102.run 1).1 0).dead = false ∧
    4 ≤ totalMass 1 (C102.run 1).1 (C102.run 1).2 := by
  have h := C102_owner_kept (prm := C102.prm) (N := 0) (Ntot := 2) (gather := fun _ => [1])
    (gather' := fun _ => [1]) (trot := fun _ => 0) (decay := fun _ => 0) (g := C102.ghosts)
    (sinks := [c20Sink]) 0 (by decide) (by simp)
  refine ⟨h.1, h.2, ?_⟩
  have := C102_swallowed_fails (prm := C102.prm) (N := 0) (Ntot := 2) (M := 2) (Nhydro := 1)
    (gather := fun _ => [1]) (trot := fun _ => 0) (decay := fun _ => 0) (g := C102.ghosts)
    (sinks := [c20Sink]) (by decide) rfl (by norm_num [C102.prm]) (by simp) (by simp) (by decide)
    (fun i _ => Or.inl (by
      have : (C102.ghosts i).m = 1 := by
        unfold C102.ghosts newGhosts
        split_ifs <;> rfl
      rw [this]
      norm_num [C102.prm]))
    (by simp [c20Sink]) (by simp) (j := 0) (sk := c20Sink) rfl (e := 1) (by simp) le_rfl C102.inside
  refine le_trans (le_of_eq ?_) this
  simp [totalMass, C102.ghosts, newGhosts, C102.parts, c20Gas, c20Sink]
  norm_num

/-- after two turns the sink has taken the same particle twice -/
example : ((C102.run 2).1 0).m = 1 ∧
    totalMass 1 (C102.run 0).1 (C102.run 0).2 + (2 : ℕ) * 1 ≤ totalMass 1 (C102.run 2).1 (C102.run 2).2 := by
  have hm : ∀ t < 2, ∀ i < 2, (newGhosts 1 (fun _ => 0) (fun _ => ![-10, 0]) (C102.run t).1 i).m = 1 := by
    decide +kernel
  have hsk : ∀ t < 2, ∀ sk ∈ (C102.run t).2, 0 < sk.star.m := by decide +kernel
  have hdue : ∀ t < 2, ∀ sk ∈ (C102.run t).2, 0 % sk.star.nstep = 0 := fun _ _ _ _ => Nat.zero_mod _
  have hin : ∀ t < 2, ∃ sk ∈ (C102.run t).2, (C102.run t).2[0]? = some sk ∧
      Inside (newGhosts 1 (fun _ => 0) (fun _ => ![-10, 0]) (C102.run t).1 1) sk := by
    intro t ht
    have : t = 0 ∨ t = 1 := by omega
    rcases this with rfl | rfl
    · exact ⟨c20Sink, List.mem_singleton.mpr rfl, rfl, C102.inside⟩
    · refine ⟨((C102.run 1).2).headD c20Sink, ?_, rfl, ?_⟩
      · exact List.mem_cons_self
      · decide +kernel
  exact C102_again_fails (prm := C102.prm) (Ntot := 2) (M := 2) (Nhydro := 1) (by decide) rfl
    (by norm_num [C102.prm]) (by decide) (by decide) (fun _ => 0) (fun _ => ![-10, 0]) (fun _ _ => [1])
    (fun _ => 0) 2 C102.run (fun _ _ => rfl) (by simp) (by simp)
    (fun t ht i hi => Or.inl (by rw [hm t ht i hi]; norm_num [C102.prm])) hsk hdue 1 0 le_rfl rfl (by decide)
    (by simp) (fun t ht => by
      obtain ⟨sk, -, h1, h2⟩ := hin t ht
      exact ⟨0, sk, h1, by simp, h2⟩)

end Gandalf
