import Verif.Proof.MpiCalendar

/-!
# C40: the MPI communication calendar pairs all processes without conflict
(src/Mpi/MpiControl.cpp:209-309)
-/

set_option autoImplicit false

namespace Gandalf

open Mpi

/-- For every even number of processes the calendar is a single round robin: in each of the `N-1`
turns the processes are paired off and every two processes meet in exactly one turn. -/
theorem C40_round_robin (N : ℕ) (hN : 2 ≤ N) (he : N % 2 = 0) :
    RoundRobin N (N - 1) (calendar N) := by
  refine ⟨?_, ?_⟩
  · intro t ht r hr
    obtain ⟨i, hi, rfl⟩ := pairsTurn_surj (t := t) hN hr
    simp only
    rw [calendar_even hN he ht i hi]
    refine ⟨pairsTurn_lt hN, ?_, ?_⟩
    · intro h
      have := pairsTurn_inj hN (by omega) hi h
      omega
    · rw [calendar_even hN he ht _ (by omega)]
      congr 1
      omega
  · intro r hr s hs hrs
    by_cases hr1 : r = N - 1
    · subst hr1
      refine ⟨s, ⟨by omega, (calendar_last hN he (by omega)).1⟩, ?_⟩
      rintro t ⟨ht, h⟩
      rw [(calendar_last hN he ht).1] at h
      exact h
    by_cases hs1 : s = N - 1
    · subst hs1
      refine ⟨r, ⟨by omega, (calendar_last hN he (by omega)).2⟩, ?_⟩
      rintro t ⟨ht, h⟩
      obtain ⟨i, hi, rfl⟩ := pairsTurn_surj (t := t) hN hr
      rw [calendar_even hN he ht i hi] at h
      have h0 : pairsTurn N t 0 = N - 1 := if_pos rfl
      rw [← h0] at h
      have := pairsTurn_inj hN (by omega) (by omega) h
      have hiN : i = N - 1 := by omega
      subst hiN
      unfold pairsTurn
      rw [if_neg (by omega), Nat.add_mod_left, Nat.mod_eq_of_lt ht]
    obtain ⟨t, ⟨ht, h⟩, hu⟩ := half_unique (M := N - 1) (by omega) (r + s)
    refine ⟨t, ⟨ht, (calendar_iff hN he ht (by omega) (by omega) hrs).mpr h⟩, ?_⟩
    rintro t' ⟨ht', h'⟩
    exact hu t' ⟨ht', (calendar_iff hN he ht' (by omega) (by omega) hrs).mp h'⟩

/-- Six processes: turn 2 pairs 5-2, 3-1, 4-0. -/
example : (List.range 6).map (fun r => calendar 6 r 2) = [4, 3, 5, 1, 0, 2] := by decide

example : RoundRobin 6 5 (calendar 6) := C40_round_robin 6 (by norm_num) rfl

/-- The constructor is meant to refuse an odd number of processes, but because of the precedence of
`!` its test never fires. -/
theorem C40_odd_accepted (N : ℕ) (hN : 1 ≤ N) : ctorRejects N = false := by
  unfold ctorRejects
  rw [if_neg (by omega)]
  rfl

/-- And for every odd number of processes above one the calendar is wrong: in every turn the middle
process of the list is told to meet process 0, which meets another process or is that process
itself. -/
theorem C40_odd_fails (N : ℕ) (hN : 3 ≤ N) (ho : N % 2 = 1) (t : ℕ) (ht : t < N - 1) :
    ¬ PairsOff N fun r => calendar N r t := by
  intro h
  have hmid := calendar_at (show 2 ≤ N by omega) ht (N / 2) (by omega)
  rw [if_neg (by omega)] at hmid
  obtain ⟨-, h2, h3⟩ := h (pairsTurn N t (N / 2)) (pairsTurn_lt (by omega))
  simp only [hmid] at h2 h3
  obtain ⟨j, hj, hj0⟩ := pairsTurn_surj (N := N) (t := t) (r := 0) (by omega) (by omega)
  have hc := calendar_at (show 2 ≤ N by omega) ht j hj
  rw [hj0] at hc
  by_cases hjm : j < N / 2 ∨ N - 1 - j < N / 2
  · rw [if_pos hjm] at hc
    rw [h3] at hc
    have := pairsTurn_inj (show 2 ≤ N by omega) (by omega) (by omega) hc
    omega
  · have : j = N / 2 := by omega
    rw [this] at hj0
    exact h2 hj0.symm

/-- Three processes, turn 0: process 1 waits for process 0, which exchanges with process 2. -/
example : (List.range 3).map (fun r => calendar 3 r 0) = [2, 0, 0] := by decide

end Gandalf
