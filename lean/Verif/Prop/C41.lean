import Verif.Proof.MpiExchange
import Verif.Prop.C40

/-!
# C41: the pairwise exchange cannot deadlock and loses no particle
(src/Mpi/MpiKDTreeDecomposition.cpp:407-475)

`Steps E n E.start s`: some interleaving of the processes leads in `n` steps to `s`; at each send the
MPI library may buffer the message or wait for the receiver.
-/

set_option autoImplicit false

namespace Gandalf

open Mpi

variable {P : Type*}

/-- The exchange between `N` processes with the calendar the code creates; `transfer p q` is the list
`particles_to_transfer[q]` of process `p`. -/
def c41 (N : ℕ) (transfer : ℕ → ℕ → List ℕ) (arr : ℕ → ℕ → P) (Nhydro : ℕ → ℕ) : Exchange P :=
  ⟨N, N - 1, calendar N, transfer, arr, Nhydro⟩

/-- In every state that can be reached and in which some process has not left the loop, a step is
possible, and one that does not depend on buffering by the MPI library. -/
theorem C41_no_deadlock (N : ℕ) (hN : 2 ≤ N) (he : N % 2 = 0) (transfer : ℕ → ℕ → List ℕ)
    (arr : ℕ → ℕ → P) (Nhydro : ℕ → ℕ)
    (hR : ∀ p < N, ∀ q < N, ∀ i ∈ transfer p q, i < Nhydro p)
    (n : ℕ) (s : ExState P) (h : Steps (c41 N transfer arr Nhydro) n (c41 N transfer arr Nhydro).start s)
    (hf : ∃ p < N, s.pc p ≠ 2 * (N - 1)) :
    ∃ u, SyncStep (c41 N transfer arr Nhydro) s u := by
  have hE : RoundRobin (c41 N transfer arr Nhydro).N (c41 N transfer arr Nhydro).T
    (c41 N transfer arr Nhydro).cal := C40_round_robin N hN he
  refine ((Inv.start _).steps hE hR h).progress hE ?_
  intro hfin
  obtain ⟨p, hp, hne⟩ := hf
  exact hne (hfin p hp)

/-- Every execution ends after at most `2 N (N-1)` steps. -/
theorem C41_terminates (N : ℕ) (transfer : ℕ → ℕ → List ℕ)
    (arr : ℕ → ℕ → P) (Nhydro : ℕ → ℕ) (n : ℕ) (s : ExState P)
    (h : Steps (c41 N transfer arr Nhydro) n (c41 N transfer arr Nhydro).start s) :
    n ≤ 2 * N * (N - 1) :=
  h.bound fun _ _ => Nat.zero_le _

/-- When all processes have left the loop no message is left over, and after the removal of the
transferred particles each process holds, up to order, the live particles it had and did not name for
another process, and the live particles the others named for it. -/
theorem C41_result (N : ℕ) (hN : 2 ≤ N) (he : N % 2 = 0) (transfer : ℕ → ℕ → List ℕ)
    (arr : ℕ → ℕ → P) (Nhydro : ℕ → ℕ)
    (hR : ∀ p < N, ∀ q < N, ∀ i ∈ transfer p q, i < Nhydro p)
    (isDead : P → Bool) (kill bury : P → P) (hk : ∀ x, isDead (kill x) = true)
    (hb : ∀ x, isDead (bury x) = true)
    (n : ℕ) (s : ExState P) (h : Steps (c41 N transfer arr Nhydro) n (c41 N transfer arr Nhydro).start s)
    (hf : ∀ p < N, s.pc p = 2 * (N - 1)) :
    (∀ p < N, ∀ q < N, p ≠ q → s.chan p q = []) ∧
    ∀ p < N,
      let r := (c41 N transfer arr Nhydro).remove isDead kill bury s p
      ((List.range r.2).map r.1).Perm
        ((((List.range (Nhydro p)).filter fun i => ∀ q < N, q ≠ p → i ∉ transfer p q).map (arr p) ++
          (List.range (N - 1)).flatMap fun t =>
            (transfer (calendar N p t) p).map (arr (calendar N p t))).filter fun x => !isDead x) := by
  have hE : RoundRobin (c41 N transfer arr Nhydro).N (c41 N transfer arr Nhydro).T
    (c41 N transfer arr Nhydro).cal := C40_round_robin N hN he
  have hI := (Inv.start _).steps hE hR h
  refine ⟨?_, ?_⟩
  · intro p hp q hq hpq
    obtain ⟨t, ⟨ht, hc⟩, -⟩ := hE.meet p hp q hq hpq
    have hT : (c41 N transfer arr Nhydro).T = N - 1 := rfl
    obtain ⟨i, hi, hi2, his⟩ : ∃ i < 2 * (N - 1), i / 2 = t ∧
        (c41 N transfer arr Nhydro).isSend p i = true := by
      by_cases hlt : p < q
      · refine ⟨2 * t, by omega, by omega, ?_⟩
        unfold Exchange.isSend Exchange.partner
        rw [if_pos (by omega), show 2 * t / 2 = t by omega, hc]
        exact decide_eq_true hlt
      · refine ⟨2 * t + 1, by omega, by omega, ?_⟩
        unfold Exchange.isSend Exchange.partner
        rw [if_neg (by omega), show (2 * t + 1) / 2 = t by omega, hc, decide_eq_false hlt]
        rfl
    have hch := hI.chan p hp i hi his
    have hpart : (c41 N transfer arr Nhydro).partner p i = q := by
      unfold Exchange.partner
      rw [hi2, hc]
    rw [hpart, if_neg (by rw [hf q hq]; omega)] at hch
    exact hch
  · intro p hp r
    have hrem := remove_perm (E := c41 N transfer arr Nhydro) isDead kill bury hk hb hR hI hp
    rw [hf p hp] at hrem
    have hrec := received_all (E := c41 N transfer arr Nhydro) p (N - 1)
    rw [hrec] at hrem
    refine hrem.trans (List.Perm.of_eq ?_)
    congr 2
    unfold Exchange.kept
    congr 1
    apply List.filter_congr
    intro i _
    apply decide_eq_decide.mpr
    rw [mem_exported]
    push Not
    rfl

/-- No live particle is lost or duplicated: if each process names each of its particles for at most one
other process, and once, then all processes together hold after the exchange the live particles they
held before. -/
theorem C41_conserved (N : ℕ) (hN : 2 ≤ N) (he : N % 2 = 0) (transfer : ℕ → ℕ → List ℕ)
    (arr : ℕ → ℕ → P) (Nhydro : ℕ → ℕ)
    (hR : ∀ p < N, ∀ q < N, ∀ i ∈ transfer p q, i < Nhydro p)
    (hS : ∀ p < N, (((List.range N).filter (· ≠ p)).flatMap (transfer p)).Nodup)
    (isDead : P → Bool) (kill bury : P → P) (hk : ∀ x, isDead (kill x) = true)
    (hb : ∀ x, isDead (bury x) = true)
    (n : ℕ) (s : ExState P) (h : Steps (c41 N transfer arr Nhydro) n (c41 N transfer arr Nhydro).start s)
    (hf : ∀ p < N, s.pc p = 2 * (N - 1)) :
    ∑ p ∈ Finset.range N, (((List.range ((c41 N transfer arr Nhydro).remove isDead kill bury s p).2).map
        ((c41 N transfer arr Nhydro).remove isDead kill bury s p).1 : List P) : Multiset P) =
    ∑ p ∈ Finset.range N, ((((List.range (Nhydro p)).map (arr p)).filter fun x => !isDead x : List P) :
        Multiset P) := by
  have hE : RoundRobin (c41 N transfer arr Nhydro).N (c41 N transfer arr Nhydro).T
    (c41 N transfer arr Nhydro).cal := C40_round_robin N hN he
  have hI := (Inv.start _).steps hE hR h
  have h1 : ∀ p ∈ Finset.range N,
      (((List.range ((c41 N transfer arr Nhydro).remove isDead kill bury s p).2).map
        ((c41 N transfer arr Nhydro).remove isDead kill bury s p).1 : List P) : Multiset P) =
      Multiset.filter (fun x => (!isDead x) = true) (((c41 N transfer arr Nhydro).kept p : List P) +
        (((c41 N transfer arr Nhydro).received p (2 * (N - 1)) : List P) : Multiset P)) := by
    intro p hp
    have hrem := remove_perm (E := c41 N transfer arr Nhydro) isDead kill bury hk hb hR hI (Finset.mem_range.mp hp)
    rw [hf p (Finset.mem_range.mp hp)] at hrem
    rw [Multiset.coe_add, Multiset.filter_coe]
    simp only [Bool.decide_eq_true]
    exact Multiset.coe_eq_coe.mpr hrem
  have hfil : ∀ f : ℕ → Multiset P, ∑ p ∈ Finset.range N,
      Multiset.filter (fun x => (!isDead x) = true) (f p) =
      Multiset.filter (fun x => (!isDead x) = true) (∑ p ∈ Finset.range N, f p) := by
    intro f
    induction Finset.range N using Finset.induction_on with
    | empty => simp
    | insert a S ha ih => rw [Finset.sum_insert ha, Finset.sum_insert ha, Multiset.filter_add, ih]
  rw [Finset.sum_congr rfl h1, hfil, Finset.sum_add_distrib]
  have hx := received_eq_exported hE
  change ∑ p ∈ Finset.range N,
    (((c41 N transfer arr Nhydro).received p (2 * (N - 1)) : List P) : Multiset P) = _ at hx
  rw [hx]
  change Multiset.filter _ (_ + ∑ p ∈ Finset.range N, _) = _
  rw [← Finset.sum_add_distrib]
  have h2 : ∀ p ∈ Finset.range N, ((((List.range (Nhydro p)).map (arr p)).filter fun x => !isDead x :
      List P) : Multiset P) = Multiset.filter (fun x => (!isDead x) = true)
      (((c41 N transfer arr Nhydro).kept p : List P) +
      ((((c41 N transfer arr Nhydro).exported p).map (arr p) : List P) : Multiset P)) := by
    intro p hp
    have hk := kept_add_exported (E := c41 N transfer arr Nhydro) hR hS
      (Finset.mem_range.mp hp)
    change _ = Multiset.filter _ (_ + (((((c41 N transfer arr Nhydro).exported p).map
      ((c41 N transfer arr Nhydro).arr p) : List P)) : Multiset P))
    rw [hk, Multiset.filter_coe]
    simp only [Bool.decide_eq_true]
    rfl
  rw [Finset.sum_congr rfl h2, hfil]
  rfl

/-- Two processes; 0 gives its second particle to 1, 1 gives its first to 0; a run in two meetings. -/
def c41Ex : Exchange (ℕ × Bool) :=
  c41 2 (fun p q => if p = 0 ∧ q = 1 then [1] else if p = 1 ∧ q = 0 then [0] else [])
    (fun p i => (10 * p + i, false)) (fun _ => 2)

example : ∃ n s, Steps c41Ex n c41Ex.start s ∧ (∀ p < 2, s.pc p = 2 * (2 - 1)) ∧
    parts (s.arr 0) (s.Nhydro 0) = [(0, false), (1, false), (10, false)] ∧
    parts (c41Ex.remove (fun x => x.2) (fun x => (x.1, true)) (fun x => (x.1, true)) s 0).1
      (c41Ex.remove (fun x => x.2) (fun x => (x.1, true)) (fun x => (x.1, true)) s 0).2 =
      [(0, false), (10, false)] := by
  refine ⟨2, _, .tail (.tail (.refl _) (.meet _ 0 1 (by decide) (by decide) (by decide) (by decide)
    (by decide) (by decide) (by decide) (by decide) rfl))
    (.meet _ 1 0 (by decide) (by decide) (by decide) (by decide) (by decide) (by decide) (by decide)
      (by decide) rfl), ?_, ?_, ?_⟩
  · decide
  · decide
  · decide

/-- With an odd number of processes above one, which the constructor accepts (`C40_odd_accepted`), no
execution ever finishes, whatever the particles to transfer: process 0 waits in the middle turn for a
message from itself. -/
theorem C41_odd_never_finishes (N : ℕ) (hN : 3 ≤ N) (ho : N % 2 = 1) (transfer : ℕ → ℕ → List ℕ)
    (arr : ℕ → ℕ → P) (Nhydro : ℕ → ℕ) (n : ℕ) (s : ExState P)
    (h : Steps (c41 N transfer arr Nhydro) n (c41 N transfer arr Nhydro).start s) :
    ¬ ∀ p < N, s.pc p = 2 * (N - 1) := by
  intro hf
  have h1 := (odd_stuck (c41 N transfer arr Nhydro) hN ho rfl rfl h).1
  have h2 := hf 0 (by omega)
  have h3 : (c41 N transfer arr Nhydro).N = N := rfl
  rw [h3] at h1
  omega

end Gandalf
