import Verif.Common

/-!
# Model of `MpiControl::CreateLeagueCalendar` (src/Mpi/MpiControl.cpp:209-309) and of the check of
the number of processes in the constructor (MpiControl.cpp:67-71)

Process numbers and turns are natural numbers.  The vectors of vectors are functions of two
indices; `resize` makes new entries zero.  Rank 0 computes the calendar and sends row `r` to rank
`r` (lines 293-306), so row `r` is what process `r` uses (`my_matches`).
-/

set_option autoImplicit false

namespace Gandalf.Mpi

/-- `if (!Nmpi%2)`, MpiControl.cpp:68: in C++ `!` binds tighter than `%`, so this is
`((Nmpi == 0) ? 1 : 0) % 2`. -/
def ctorRejects (N : ℕ) : Bool := (if N = 0 then 1 else 0) % 2 ≠ 0

/-- `pairs_turn[i]` for turn `t`, MpiControl.cpp:232-237. -/
def pairsTurn (N t i : ℕ) : ℕ := if i = 0 then N - 1 else (i + t) % (N - 1)

/-- Write of one entry of a vector of vectors. -/
def set2 (cal : ℕ → ℕ → ℕ) (r t v : ℕ) : ℕ → ℕ → ℕ :=
  Function.update cal r (Function.update (cal r) t v)

/-- Body of the loop over `istep`, MpiControl.cpp:240-244 (`size = Nmpi - 1`). -/
def fillStep (N t : ℕ) (cal : ℕ → ℕ → ℕ) (istep : ℕ) : ℕ → ℕ → ℕ :=
  let first := pairsTurn N t istep
  let second := pairsTurn N t (N - 1 - istep)
  set2 (set2 cal first t second) second t first

/-- The loop over `istep` for one turn, MpiControl.cpp:239-245. -/
def fillTurn (N : ℕ) (cal : ℕ → ℕ → ℕ) (t : ℕ) : ℕ → ℕ → ℕ :=
  (List.range (N / 2)).foldl (fillStep N t) cal

/-- The loop over turns, MpiControl.cpp:229-246, on the zero table of lines 221-225. -/
def calendar (N : ℕ) : ℕ → ℕ → ℕ :=
  (List.range (N - 1)).foldl (fillTurn N) (fun _ _ => 0)

end Gandalf.Mpi
