import Verif.Model.GhostSync
import Mathlib.Algebra.BigOperators.Group.Finset.Basic

/-! Where the copies of other processes' particles are meant to lie. -/

set_option autoImplicit false

namespace Gandalf

namespace GhostSync

variable {α : Type}

/-- Place on `q` of the copy of the `j`-th particle sent by `p`: behind own particles and behind those
of the processes before `p` -/
def slot (W : World) (q p j : ℕ) : ℕ := W.start q + (∑ p' ∈ Finset.range p, (W.ids p' q).length) + j

/-- `Root N m j k`: following `iorig` from `j` the first own particle is `k` -/
inductive Root (Nhydro : ℕ) (m : ℕ → Part α) : ℕ → ℕ → Prop
  | own (j : ℕ) : j < Nhydro → Root Nhydro m j j
  | ghost (j k : ℕ) : Nhydro ≤ j → Root Nhydro m (m j).iorig k → Root Nhydro m j k

/-- Place `s` on `q` holds a copy of particle `i` of `p`, or of a periodic image of it -/
def CopyOf (W : World) (mem : ℕ → ℕ → Part α) (p i q s : ℕ) : Prop :=
  ∃ j, ∃ h : j < (W.ids p q).length, s = slot W q p j ∧ Root (W.nhydro p) (mem p) (W.ids p q)[j] i

/-- The state in which changes are sent back: own particles and periodic ghosts are sent, periodic ghosts
are made from particles before them, copies know what they are copies of -/
structure Synced (W : World) (mem : ℕ → ℕ → Part α) : Prop where
  sent : ∀ p < W.N, ∀ q < W.N, ∀ i ∈ W.ids p q, i < W.start p
  images : ∀ p < W.N, ∀ j, W.nhydro p ≤ j → j < W.start p → (mem p j).iorig < j
  copies : ∀ p < W.N, ∀ q < W.N, ∀ j (h : j < (W.ids p q).length),
    (mem q (slot W q p j)).iorig = (W.ids p q)[j]

/-- Only copies of other processes' particles are reported as changed -/
def OnlyCopies (W : World) (chg : ℕ → List ℕ) : Prop :=
  ∀ q < W.N, ∀ s ∈ chg q, ∃ p < W.N, ∃ j < (W.ids p q).length, s = slot W q p j

open Classical in
/-- All changed copies of particle `i` of `p`, by process -/
noncomputable def changed (W : World) (mem : ℕ → ℕ → Part α) (chg : ℕ → List ℕ) (p i : ℕ) :
    List (Part α) :=
  ((List.range W.N).map fun q => ((chg q).filter fun s => decide (CopyOf W mem p i q s)).map (mem q)).flatten

end GhostSync

end Gandalf
