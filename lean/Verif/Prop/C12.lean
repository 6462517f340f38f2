import Verif.Proof.Periodic

/-!
# C12 – nearest periodic vector is the minimum image
-/

set_option autoImplicit false

namespace Gandalf

variable {n : ℕ} {α : Type*} [Field α] [LinearOrder α] [IsStrictOrderedRing α]

/-- **C12.** For every box, boundary combination and separation of at most one and a half box lengths
in the periodic dimensions (two points of the box are at most one apart), `NearestPeriodicVector`
(DomainBox.h) returns an image of the separation – whole box lengths added in periodic dimensions
only – which is in every coordinate, hence in length, the smallest of all images. The reported
correction is the difference. -/
theorem C12_nearest_is_minimum_image (d : Domain n α) (hd : d.WF) (dr : Vec n α)
    (hdr : ∀ k, d.lhs k = .periodic → |dr k| ≤ 3 / 2 * d.size k) :
    d.IsImage dr (nearestPeriodicVector d dr).1 ∧
    (∀ y, d.IsImage dr y → (∀ k, |(nearestPeriodicVector d dr).1 k| ≤ |y k|) ∧
      dot (nearestPeriodicVector d dr).1 (nearestPeriodicVector d dr).1 ≤ dot y y) ∧
    (∀ k, (nearestPeriodicVector d dr).2 k = (nearestPeriodicVector d dr).1 k - dr k) := by
  have hs : ∀ k, 0 ≤ d.size k := fun k => by rw [hd.size k]; linarith [hd.pos k]
  have hmin : ∀ y, d.IsImage dr y → ∀ k, |(nearestPeriodicVector d dr).1 k| ≤ |y k| := by
    rintro y ⟨m, hm⟩ k
    rw [nearest_eq d hd, (hm k).2]
    split_ifs with h
    · exact wrap1_min (hs k) (hdr k h) (m k)
    · rw [(hm k).1 h]; simp
  refine ⟨?_, fun y hy => ⟨hmin y hy, dot_le_dot (hmin y hy)⟩, ?_⟩
  · choose m hm using fun k => wrap1_image (d.size k) (dr k)
    refine ⟨fun k => if d.lhs k = .periodic then m k else 0, fun k => ⟨fun h => if_neg h, ?_⟩⟩
    rw [nearest_eq d hd]
    by_cases h : d.lhs k = .periodic
    · simp only [if_pos h]; exact (hm k).1
    · simp only [if_neg h]; simp
  · intro k; simp only [nearestPeriodicVector]; ring

/-- **C12 (ghost finder).** The second implementation (GhostNeighbours.hpp) returns the same vector,
the variant that also moves a position moves it by the same amount, and the returned flags say exactly
whether any correction was made. -/
theorem C12_ghostFinder_agrees (d : Domain n α) (hd : d.WF) (r dr : Vec n α) :
    ghostNearest d dr = (nearestPeriodicVector d dr).1 ∧
    (applyPeriodic d r dr).2 = (nearestPeriodicVector d dr).1 ∧
    (∀ k, (applyPeriodic d r dr).1 k = r k + (nearestPeriodicVector d dr).2 k) ∧
    (Flags.is_periodic (periodicFlags d dr) = true ↔ (nearestPeriodicVector d dr).1 ≠ dr) := by
  have e : ghostNearest d dr = (nearestPeriodicVector d dr).1 := by
    funext k; rw [ghostNearest_eq d hd, nearest_eq d hd]
  refine ⟨e, ?_, ?_, ?_⟩
  · rw [← e]; funext k; exact (applyPeriodic_eq d hd r dr k).1
  · intro k
    have h1 := (applyPeriodic_eq d hd r dr k).2
    rw [e] at h1
    have h2 : (nearestPeriodicVector d dr).2 k = (nearestPeriodicVector d dr).1 k - dr k := by
      simp only [nearestPeriodicVector]; ring
    rw [h2, ← h1]; ring
  · rw [periodicFlags_is_periodic]
    constructor
    · rintro ⟨k, h1, h2⟩ hc
      have := congrFun hc k
      rw [nearest_eq d hd, if_pos h1, wrap1] at this
      have hs : 0 < d.size k := by rw [hd.size k]; linarith [hd.pos k]
      rw [hd.half k] at h2
      split_ifs at this with g1 g2
      · linarith
      · linarith
      · rcases h2 with h2 | h2
        · exact g1 h2
        · exact g2 h2
    · intro h
      by_contra hc
      push Not at hc
      apply h
      funext k
      rw [nearest_eq d hd]
      split_ifs with h1
      · have := hc k h1
        rw [hd.half k] at this
        rw [wrap1, if_neg (not_lt.mpr this.1), if_neg (not_lt.mpr this.2)]
      · rfl

/-- a two-dimensional box, periodic in x and reflecting in y -/
example : nearestPeriodicVector (n := 2) (α := ℚ)
    ⟨fun _ => 0, fun _ => 4, ![.periodic, .mirror], ![.periodic, .mirror], fun _ => 4, fun _ => 2⟩
    ![3, 3] = (![-1, 3], ![-4, 0]) := by
  decide +kernel

example : Domain.WF (n := 2) (α := ℚ)
    ⟨fun _ => 0, fun _ => 4, ![.periodic, .mirror], ![.periodic, .mirror], fun _ => 4, fun _ => 2⟩ := by
  constructor
  · intro k; norm_num
  · intro k; norm_num
  · intro k; norm_num
  · intro k; fin_cases k <;> simp

end Gandalf
