import Verif.Proof.NeighbourManager
import Verif.Prop.C08
import Verif.Prop.C16
import Mathlib.Data.List.Perm.Lattice

set_option autoImplicit false
set_option linter.unusedSectionVars false

namespace Gandalf
open Walk KD

variable {n : ℕ}

/-- the cell fields used by the neighbour manager -/
def KD.Props.target (c : Props n) : TargetCell n ℝ where
  rcell := c.rcell
  bb := c.bb
  hbox := c.hb
  rmax := c.rmax
  hmax := c.hmax

/-! ### distances to periodic images -/

theorem wrap1_abs_eq {size x : ℝ} (hs : 0 ≤ size) (hx : |x| ≤ 3 / 2 * size) {y : ℝ}
    (hy : |y| ≤ 3 / 2 * size) {m : ℤ} (e : y = x + m * size) :
    |wrap1 size x| = |wrap1 size y| := by
  apply le_antisymm
  · obtain ⟨m', e', _⟩ := wrap1_image size y
    have := wrap1_min hs hx (m + m')
    have e2 : wrap1 size y = x + ((m + m' : ℤ) : ℝ) * size := by rw [e', e]; push_cast; ring
    rw [e2]; exact this
  · obtain ⟨m', e', _⟩ := wrap1_image size x
    have := wrap1_min hs hy (m' - m)
    have e2 : wrap1 size x = y + ((m' - m : ℤ) : ℝ) * size := by rw [e', e]; push_cast; ring
    rw [e2]; exact this

/-- The manager reads a position `x` that is an image of `x₀`; the corrected separation from `c` is
minimal among all images. -/
theorem nearest_min (d : Domain n ℝ) (hd : d.WF) {x y c : Vec n ℝ}
    (hx : ∀ k, d.lhs k = .periodic → |x k - c k| ≤ 3 / 2 * d.size k)
    (hy : d.IsImage x y) :
    dot (ghostNearest d fun k => x k - c k) (ghostNearest d fun k => x k - c k) ≤
      dot (fun k => y k - c k) (fun k => y k - c k) := by
  refine dot_le_dot fun k => ?_
  obtain ⟨m, hm⟩ := hy
  have hs : 0 ≤ d.size k := by rw [hd.size k]; linarith [hd.pos k]
  rw [ghostNearest_eq d hd, (hm k).2]
  split_ifs with h
  · have := wrap1_min hs (hx k h) (m k)
    have e2 : x k + (m k : ℝ) * d.size k - c k = x k - c k + m k * d.size k := by ring
    rw [e2]; exact this
  · rw [(hm k).1 h]; simp

theorem nearest_image (d : Domain n ℝ) (hd : d.WF) (x c : Vec n ℝ) :
    d.IsImage x fun k => c k + ghostNearest d (fun k => x k - c k) k := by
  choose m hm using fun k => wrap1_image (d.size k) (x k - c k)
  refine ⟨fun k => if d.lhs k = .periodic then m k else 0, fun k => ⟨fun h => by simp [h], ?_⟩⟩
  simp only [ghostNearest_eq d hd]
  split_ifs with h
  · rw [(hm k).1]; ring
  · simp

theorem IsImage.trans {d : Domain n ℝ} {x y z : Vec n ℝ} (h1 : d.IsImage x y) (h2 : d.IsImage y z) :
    d.IsImage x z := by
  obtain ⟨m, hm⟩ := h1
  obtain ⟨m', hm'⟩ := h2
  refine ⟨fun k => m k + m' k, fun k => ⟨fun h => by simp only [(hm k).1 h, (hm' k).1 h]; rfl, ?_⟩⟩
  rw [(hm' k).2, (hm k).2]; push_cast; ring

theorem IsImage.symm {d : Domain n ℝ} {x y : Vec n ℝ} (h : d.IsImage x y) : d.IsImage y x := by
  obtain ⟨m, hm⟩ := h
  refine ⟨fun k => -m k, fun k => ⟨fun h => by simp only [(hm k).1 h]; rfl, ?_⟩⟩
  rw [(hm k).2]; push_cast; ring

theorem IsImage.refl (d : Domain n ℝ) (x : Vec n ℝ) : d.IsImage x x :=
  ⟨fun _ => 0, fun _ => ⟨fun _ => rfl, by simp⟩⟩

/-- position of the periodically moved particle -/
theorem nearestGhost_r (d : Domain n ℝ) (hd : d.WF) (c : Vec n ℝ) (p : NPart n ℝ) (k : Fin n) :
    (p.nearestGhost d c).r k = c k + ghostNearest d (fun k => p.r k - c k) k := by
  unfold NPart.nearestGhost
  by_cases h : d.anyPeriodic = true
  · rw [if_pos h]
    simp only [NPart.periodicGhost]
    by_cases hf : Flags.is_periodic (periodicFlags d fun k => p.r k - c k) = true
    · rw [if_pos hf]
    · rw [if_neg hf, ghostNearest_eq d hd]
      rw [periodicFlags_is_periodic] at hf
      push Not at hf
      by_cases hk : d.lhs k = .periodic
      · have h1 := hf k hk
        rw [if_pos hk, wrap1, ← hd.half k, if_neg (not_lt.mpr h1.1), if_neg (not_lt.mpr h1.2)]
        ring
      · rw [if_neg hk]; ring
  · rw [if_neg h, ghostNearest_eq d hd, if_neg]
    · ring
    · intro hk; exact h ((anyPeriodic_iff d).mpr ⟨k, hk⟩)

theorem nearestGhost_other (d : Domain n ℝ) (c : Vec n ℝ) (p : NPart n ℝ) :
    (p.nearestGhost d c).m = p.m ∧ (p.nearestGhost d c).h = p.h ∧
    (p.nearestGhost d c).hrangesqd = p.hrangesqd ∧ (p.nearestGhost d c).ptype = p.ptype ∧
    (p.nearestGhost d c).level = p.level ∧ (p.nearestGhost d c).iorig = p.iorig ∧
    (p.nearestGhost d c).v = p.v ∧ (p.nearestGhost d c).a = p.a := by
  unfold NPart.nearestGhost
  split_ifs <;> simp [NPart.periodicGhost]

/-- periodic flags carry no mirror bit -/
theorem periodicFlags_no_mirror (d : Domain n ℝ) (dr : Vec n ℝ) :
    periodicFlags d dr &&& Flags.mirror_boundary = 0 := by
  have hpm : ∀ (i : Fin 3) (s : Fin 2), Flags.periodic_bound_flags i s &&& Flags.mirror_boundary = 0 := by
    decide
  have step : ∀ (ks : List (Fin n)) (b : BitVec 32), b &&& Flags.mirror_boundary = 0 →
      ks.foldl (periodicFlag d dr) b &&& Flags.mirror_boundary = 0 := by
    intro ks
    induction ks with
    | nil => intro b h; exact h
    | cons k ks ih =>
      intro b h
      refine ih _ ?_
      have aux : ∀ i s, Flags.set b (Flags.periodic_bound_flags i s) &&& Flags.mirror_boundary = 0 := by
        intro i s
        by_contra hc
        rcases (and_or_ne_zero _ _ _).mp hc with h1 | h1
        · exact h1 h
        · exact h1 (hpm i s)
      unfold periodicFlag
      split_ifs
      · exact aux _ _
      · exact aux _ _
      · exact h
      · exact h
  unfold periodicFlags
  split_ifs
  · exact step _ _ (by decide)
  · decide

theorem nearestGhost_mirror (d : Domain n ℝ) (c : Vec n ℝ) (p : NPart n ℝ) :
    ((p.nearestGhost d c).flags &&& Flags.mirror_boundary ≠ 0) ↔
      (p.flags &&& Flags.mirror_boundary ≠ 0) := by
  unfold NPart.nearestGhost
  split_ifs with h
  · simp only [NPart.periodicGhost, Flags.set]
    rw [and_or_ne_zero]
    constructor
    · rintro (h | h)
      · exact h
      · exact absurd (periodicFlags_no_mirror d _) h
    · exact Or.inl
  · exact Iff.rfl

/-! ### the set-up -/

/-- A stocked tree over the particles `l` of a box, with the particle array `part` agreeing with the
data the tree was stocked from. `junk` is the memory read by `PeriodicBoxOverlap`. -/
structure HydroSetup (T : Tree n) (cfg : Cfg) (P : Parts n) (pfuel : ℕ) (f : Forest) (l : List ℕ)
    (d : Domain n ℝ) (junk : Vec n ℝ) (part : ℕ → NPart n ℝ) : Prop where
  tree : T.OK cfg P pfuel f l
  kern : 0 < cfg.kernrange
  h : ∀ i, 0 < P.h i
  wf : d.WF
  junk0 : d.anyPeriodic = true → ∀ k, d.lhs k ≠ .periodic → junk k = 0
  lo : ∀ i ∈ l, ∀ k, d.lhs k = .periodic ∨ d.lhs k = .mirror → d.min k ≤ P.r i k
  hi : ∀ i ∈ l, ∀ k, d.rhs k = .periodic ∨ d.rhs k = .mirror → P.r i k ≤ d.max k
  size : ∀ i ∈ l, ∀ k, d.lhs k = .periodic → cfg.kernrange * P.h i ≤ d.size k
  big : ∀ k, d.lhs k = .periodic → -cfg.big ≤ d.min k ∧ d.max k ≤ cfg.big
  rbig : ∀ i ∈ l, ∀ k, -cfg.big < P.r i k ∧ P.r i k < cfg.big
  pr : ∀ i, (part i).r = P.r i
  ph : ∀ i, (part i).h = P.h i
  phr : ∀ i, (part i).hrangesqd = (cfg.kernrange * P.h i) ^ 2
  pdead : ∀ i, Flags.is_dead (part i).flags = P.dead i
  pmir : ∀ i, Flags.is_mirror (part i).flags = false

/-- The hydro neighbours of particle `i`, independent of any tree: a live particle `j` of an allowed
type together with a choice `σ` of reflecting walls such that some periodic image of the reflected
particle is closer to `i` than the larger of the two kernel radii. -/
def HydroNeighbour (K : ℝ) (P : Parts n) (l : List ℕ) (d : Domain n ℝ) (ok : ℕ → Bool) (i j : ℕ)
    (σ : Fin n → Option Side) : Prop :=
  j ∈ l ∧ P.dead j = false ∧ ok j = true ∧ d.MirrorChoice σ ∧
    ∃ y, d.IsImage (d.mirrorPos σ (P.r j)) y ∧ Interact K P i y (P.h j)

variable {T : Tree n} {cfg : Cfg} {P : Parts n} {pfuel : ℕ} {f : Forest} {l : List ℕ}
  {d : Domain n ℝ} {junk : Vec n ℝ} {part : ℕ → NPart n ℝ}

theorem HydroSetup.size_pos (H : HydroSetup T cfg P pfuel f l d junk part) (k : Fin n) :
    0 < d.size k := by rw [H.wf.size k]; linarith [H.wf.pos k]

theorem HydroSetup.dom (H : HydroSetup T cfg P pfuel f l d junk part) {i : ℕ} (hi : i ∈ l) {k : Fin n}
    (hk : d.lhs k = .periodic) : d.min k ≤ P.r i k ∧ P.r i k ≤ d.max k :=
  ⟨H.lo i hi k (Or.inl hk), H.hi i hi k (Or.inl ((H.wf.pair k).mp hk))⟩

/-- the centre of a non-empty cell lies in the domain -/
theorem HydroSetup.centre (H : HydroSetup T cfg P pfuel f l d junk part) {cell : Props n} {a : List ℕ}
    (hc : Summary cfg P a cell) (hsub : ∀ i ∈ a, i ∈ l) (hne : a ≠ []) {k : Fin n}
    (hk : d.lhs k = .periodic) : d.min k ≤ cell.rcell k ∧ cell.rcell k ≤ d.max k := by
  obtain ⟨i0, hi0⟩ := List.exists_mem_of_ne_nil _ hne
  have hN : cell.N ≠ 0 := by rw [hc.N]; exact (List.length_pos_iff.mpr hne).ne'
  have b := hc.bb i0 hi0 k
  have r := H.rbig i0 (hsub i0 hi0) k
  rw [hc.centre hN k]
  have h1 : d.min k ≤ cell.bbmin k ∧ cell.bbmin k ≤ d.max k := by
    rcases hc.bbminTight k with e | ⟨i, hi, e⟩
    · linarith
    · rw [e]; exact H.dom (hsub i hi) hk
  have h2 : d.min k ≤ cell.bbmax k ∧ cell.bbmax k ≤ d.max k := by
    rcases hc.bbmaxTight k with e | ⟨i, hi, e⟩
    · linarith
    · rw [e]; exact H.dom (hsub i hi) hk
  constructor <;> linarith

/-- the smoothing box of a non-empty cell is strictly larger than its bounding box -/
theorem HydroSetup.hbox (H : HydroSetup T cfg P pfuel f l d junk part) {cell : Props n} {a : List ℕ}
    (hc : Summary cfg P a cell) (hsub : ∀ i ∈ a, i ∈ l) (hne : a ≠ []) (k : Fin n) :
    cell.target.hbox.min k < cell.target.bb.min k ∧ cell.target.bb.max k < cell.target.hbox.max k := by
  obtain ⟨i0, hi0⟩ := List.exists_mem_of_ne_nil _ hne
  have b := hc.bb i0 hi0 k
  have r := H.rbig i0 (hsub i0 hi0) k
  simp only [KD.Props.target, Props.bb, Props.hb]
  constructor
  · rcases hc.bbminTight k with e | ⟨i, hi, e⟩
    · linarith
    · have := (hc.hbox i hi k).1
      have := mul_pos H.kern (H.h i)
      linarith
  · rcases hc.bbmaxTight k with e | ⟨i, hi, e⟩
    · linarith
    · have := (hc.hbox i hi k).2
      have := mul_pos H.kern (H.h i)
      linarith

/-- In a reflected dimension the image is not closer than the particle itself. -/
theorem HydroSetup.reflect_far (H : HydroSetup T cfg P pfuel f l d junk part) {i j : ℕ} (hi : i ∈ l)
    (hj : j ∈ l) {σ : Fin n → Option Side} (hσ : d.MirrorChoice σ) {k : Fin n} (hk : σ k ≠ none) :
    d.lhs k ≠ .periodic ∧ |P.r j k - P.r i k| ≤ |d.mirrorPos σ (P.r j) k - P.r i k| := by
  rcases e : σ k with _ | s
  · exact absurd e hk
  · have hm := hσ k
    simp only [Domain.mirrorPos, e]
    fin_cases s
    · have hl := hm.1 e
      have h1 := H.lo i hi k (Or.inr hl)
      have h2 := H.lo j hj k (Or.inr hl)
      refine ⟨by rw [hl]; decide, ?_⟩
      simp only [Fin.zero_eta, if_true]
      rw [abs_le]
      have h3 := neg_abs_le (2 * d.min k - P.r j k - P.r i k)
      have h4 : |2 * d.min k - P.r j k - P.r i k| = -(2 * d.min k - P.r j k - P.r i k) :=
        abs_of_nonpos (by linarith)
      constructor <;> linarith
    · have hr := hm.2 e
      have h1 := H.hi i hi k (Or.inr hr)
      have h2 := H.hi j hj k (Or.inr hr)
      refine ⟨fun hp => ?_, ?_⟩
      · have := (H.wf.pair k).mp hp; rw [hr] at this; cases this
      · simp only [Fin.mk_one, if_false, one_ne_zero]
        have h4 : |2 * d.max k - P.r j k - P.r i k| = 2 * d.max k - P.r j k - P.r i k :=
          abs_of_nonneg (by linarith)
        rw [h4, abs_le]
        constructor <;> linarith

/-- mirroring does not touch periodic dimensions -/
theorem mirror_periodic (hd : d.WF) {σ : Fin n → Option Side} (hσ : d.MirrorChoice σ) {k : Fin n}
    (hk : d.lhs k = .periodic) : σ k = none := by
  rcases e : σ k with _ | s
  · rfl
  · exfalso
    fin_cases s
    · have := (hσ k).1 e; rw [hk] at this; cases this
    · have := (hσ k).2 e; rw [(hd.pair k).mp hk] at this; cases this

/-- reflection of the moved particle is an image of the reflected particle -/
theorem mirror_image (hd : d.WF) {σ : Fin n → Option Side} (hσ : d.MirrorChoice σ) {x y : Vec n ℝ}
    (h : d.IsImage x y) : d.IsImage (d.mirrorPos σ x) (d.mirrorPos σ y) := by
  obtain ⟨m, hm⟩ := h
  refine ⟨m, fun k => ⟨(hm k).1, ?_⟩⟩
  by_cases hk : d.lhs k = .periodic
  · have := mirror_periodic hd hσ hk
    rw [mirrorPos_none this, mirrorPos_none this, (hm k).2]
  · have e : y k = x k := by rw [(hm k).2, (hm k).1 hk]; simp
    simp only [Domain.mirrorPos, e, (hm k).1 hk]
    simp

end Gandalf
