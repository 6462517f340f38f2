import Verif.Proof.KDStructure

/-!
# C02 – tree sizing and particle counts per cell
-/

set_option autoImplicit false

namespace Gandalf
open KD

/-- **C02 (depth).** For every particle number and every leaf capacity ≥ 1 the size loop terminates
with the smallest depth whose `2^depth` leaves can hold all particles. -/
theorem C02_depth_minimal (Nleafmax Ntot : ℕ) (hM : 1 ≤ Nleafmax) :
    ∃ L, (∀ fuel, Ntot + 1 ≤ fuel → computeLtot Nleafmax Ntot fuel = some L) ∧
      Ntot ≤ Nleafmax * 2 ^ L ∧ ∀ L' < L, Nleafmax * 2 ^ L' < Ntot := by
  obtain ⟨L, h1, h2, h3⟩ := sizeLoop_spec Nleafmax Ntot hM (Ntot + 1) 0 (by omega) (by simp)
  refine ⟨L, ?_, h2, h3⟩
  intro fuel hf
  obtain ⟨L', h1', h2', h3'⟩ := sizeLoop_spec Nleafmax Ntot hM fuel 0 (by omega) (by simp)
  rw [computeLtot, h1']
  have : L = L' := by
    rcases Nat.lt_trichotomy L L' with h | h | h
    · have := h3' L h; omega
    · exact h
    · have := h3 L' h; omega
  rw [this]

/-- with zero leaf capacity the loop never ends (a user error that the code does not trap) -/
theorem C02_zero_capacity_diverges (Ntot : ℕ) (h : 0 < Ntot) :
    ∀ fuel, computeLtot 0 Ntot fuel = none := by
  intro fuel
  have : ∀ fuel l, sizeLoop 0 Ntot fuel l = none := by
    intro fuel
    induction fuel with
    | zero => intro l; rfl
    | succ n ih => intro l; simp [sizeLoop, h, ih]
  exact this fuel 0

end Gandalf
