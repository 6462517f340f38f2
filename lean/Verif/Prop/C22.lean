import Verif.Proof.DeleteDead

/-!
# C22 – removal of dead particles

`deleteDead isDead bury N p` is `DoDeleteDeadParticles` on `Nhydro = N` particles; `bury` is what is done
to the place a particle has been moved away from. The result is the array and the new `Nhydro`.
-/

set_option autoImplicit false

namespace Gandalf

open Sinks

/-- **C22.** The first `Nhydro'` places hold every live particle exactly once and nothing else;
`Nhydro' = Nhydro -` number of dead particles; the places behind are dead, and those behind `Nhydro` are
untouched. -/
theorem C22_delete_dead {P : Type*} (isDead : P → Bool) (bury : P → P) (hb : ∀ x, isDead (bury x) = true)
    (N : ℕ) (p : ℕ → P) :
    let q := deleteDead isDead bury N p
    ((List.range q.2).map q.1).Perm (((List.range N).map p).filter fun x => !isDead x) ∧
    q.2 + ((List.range N).map p).countP isDead = N ∧
    (∀ i < q.2, isDead (q.1 i) = false) ∧
    (∀ i, q.2 ≤ i → i < N → isDead (q.1 i) = true) ∧
    ∀ i, N ≤ i → q.1 i = p i := by
  intro q
  have h := deleteDead_done isDead bury hb N p
  have e : q.2 = (compact isDead bury 0 N (p, 0, N)).2.2 := by
    have := h.count
    change N - (compact isDead bury 0 N (p, 0, N)).2.1 = _
    omega
  have hp : ((List.range q.2).map q.1).Perm (((List.range N).map p).filter fun x => !isDead x) := by
    rw [e]
    exact h.live
  refine ⟨hp, ?_, ?_, ?_, h.rest⟩
  · have hlen := hp.length_eq
    rw [List.length_map, List.length_range] at hlen
    rw [hlen, ← List.countP_eq_length_filter]
    have := List.length_eq_countP_add_countP (l := (List.range N).map p) isDead
    rw [List.length_map, List.length_range] at this
    rw [add_comm]
    convert this.symm using 3
    funext x
    cases isDead x <;> rfl
  · rw [e]
    exact h.alive
  · rw [e]
    exact h.tail

/-- five places, the first, second and last dead -/
def c22Out : (ℕ → ℕ × Bool) × ℕ :=
  deleteDead (fun x : ℕ × Bool => x.2) (fun x => (x.1, true)) 5 (fun i => (i, decide (i = 0 ∨ i = 1 ∨ i = 4)))

example : c22Out.2 = 2 ∧ (List.range 5).map c22Out.1 =
    [(3, false), (2, false), (2, true), (3, true), (4, true)] := by
  decide

/-- members of a gas particle: those of the survivors are all kept -/
example (N : ℕ) (g : ℕ → Gas 3 ℚ) (i : ℕ) (hi : i < N) (hd : (g i).dead = false) :
    ∃ j < (deleteDead Gas.dead (fun p : Gas 3 ℚ => { p with dead := true, m := 0 }) N g).2,
      (deleteDead Gas.dead (fun p : Gas 3 ℚ => { p with dead := true, m := 0 }) N g).1 j = g i := by
  have h := (C22_delete_dead Gas.dead (fun p : Gas 3 ℚ => { p with dead := true, m := 0 }) (fun _ => rfl) N g).1
  have hm : g i ∈ ((List.range N).map g).filter fun x => !x.dead := by
    rw [List.mem_filter, hd]
    exact ⟨List.mem_map.mpr ⟨i, List.mem_range.mpr hi, rfl⟩, rfl⟩
  obtain ⟨j, hj, e⟩ := List.mem_map.mp (h.mem_iff.mpr hm)
  exact ⟨j, List.mem_range.mp hj, e⟩

end Gandalf
