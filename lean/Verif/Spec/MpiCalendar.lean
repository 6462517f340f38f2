import Verif.Common

/-!
# What a communication calendar has to satisfy (C40)
-/

set_option autoImplicit false

namespace Gandalf.Mpi

/-- In turn `t` the table pairs the processes `0..N-1` off. -/
def PairsOff (N : ℕ) (opp : ℕ → ℕ) : Prop :=
  ∀ r < N, opp r < N ∧ opp r ≠ r ∧ opp (opp r) = r

/-- A single round-robin tournament in `T` turns between `N` processes. -/
structure RoundRobin (N T : ℕ) (opp : ℕ → ℕ → ℕ) : Prop where
  pairs : ∀ t < T, PairsOff N fun r => opp r t
  meet : ∀ r < N, ∀ s < N, r ≠ s → ∃! t, t < T ∧ opp r t = s

end Gandalf.Mpi
