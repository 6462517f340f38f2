import Verif.Proof.BoundaryReach
import Mathlib.Algebra.Order.Ring.Rat

/-!
# C14 – boundary ghosts are faithful images

An instance of `GhostSetup`, with a tree made by the code, is `ex15Tree` in Prop/C15.
-/

set_option autoImplicit false

namespace Gandalf

variable {n : ℕ} {τ τ' : Type*}

/-- **C14, creation and refresh.** After the ghost search on a correct tree every ghost `g` is the
image of a real particle `o` across a combination `σ` of box sides: image position and velocity, same
mass, smoothing length and thermal data, flagged with exactly the sides used. And whatever happens to
the particles afterwards, as long as flags and parents of the ghosts are kept, `CopyHydroDataToGhosts`
makes ghost `g` the complete image (accelerations, fluid variables, gradients included) of what
particle `o` then is. -/
theorem C14_images (T : Tree n) (cfg : KD.Cfg) (P : KD.Parts n) (pfuel fuel : ℕ) (f : Forest)
    (l : List ℕ) (s : HState n ℝ τ τ') (h : GhostSetup T cfg P pfuel fuel f l s) (d : Domain n ℝ)
    (grange tghost : ℝ) (hg : 0 ≤ grange) (ht : 0 ≤ tghost) :
    ∃ s', s.search d grange tghost (T.generate d grange tghost pfuel fuel) = some s' ∧
      (∀ i, i < s.Nhydro → s'.part i = s.part i) ∧
      s'.Nhydro = s.Nhydro ∧ s'.Ntot = s.Nhydro + s'.NPeriodicGhost ∧ s'.Nghost = s'.NPeriodicGhost ∧
      ∀ g, s.Nhydro ≤ g → g < s'.Ntot → ∃ o σ, o < s.Nhydro ∧
        (∀ k t, σ k = some t → d.Imaging k t) ∧
        IsBndImage d σ (s.part o) (s'.part g) ∧ (s'.part g).flags &&& Flags.active = 0 ∧
        ∀ s2 : HState n ℝ τ τ', s2.Nhydro = s'.Nhydro → s2.NPeriodicGhost = s'.NPeriodicGhost →
          (∀ g', s.Nhydro ≤ g' → g' < s'.Ntot → (s2.part g').flags = (s'.part g').flags ∧
            (s2.part g').iorig = (s'.part g').iorig) →
          IsFullImage d σ (s2.part o) ((s2.refresh d).part g) ∧
          ((s2.refresh d).part g).flags = (s'.part g).flags ∧
          ((s2.refresh d).part g).iorig = (s'.part g).iorig ∧
          (s2.refresh d).part o = s2.part o := by
  obtain ⟨s', L, vis, e, hI, hT, hP, -, hm, -, -⟩ := tree_search h d hg ht
  refine ⟨s', e, hI.real, hI.nh, by rw [hT, hP], by rw [hI.ng, hP], fun g hg1 hg2 => ?_⟩
  rw [hT] at hg2
  obtain ⟨i, rfl⟩ : ∃ i, g = s.Nhydro + i := ⟨g - s.Nhydro, by omega⟩
  have hi : i < L.length := by omega
  have hLi : L[i]? = some L[i] := List.getElem?_eq_getElem hi
  have hlab : labOf s.Nhydro L (s.Nhydro + i) = some L[i] := by rw [labOf_add]; exact hLi
  obtain ⟨ho, him⟩ := hI.img _ _ hlab
  have hmem : (L[i].1, L[i].2) ∈ L := List.getElem_mem hi
  refine ⟨L[i].1, L[i].2, ho, fun k t hk => (((hm _ _).mp hmem).1 k t hk).1, him,
    (hI.chain i _ hLi).1, fun s2 h1 h2 h3 => ?_⟩
  have hlinks : GhostLinks d s.Nhydro s2.part L := hI.links.congr
    (fun x hx => (h3 _ (by omega) (by omega)).1) (fun x hx => (h3 _ (by omega) (by omega)).2)
  obtain ⟨r1, r2⟩ := refresh_inv h.dim (p1 := s2.part) (h1.trans hI.nh) (h2.trans hP)
    ⟨hlinks, fun _ _ => rfl, fun x _ hx => absurd hx (by omega)⟩
  refine ⟨r1.img i _ hi hLi, ?_, ?_, r1.real _ ho⟩
  · rw [(r2 _).1]; exact (h3 _ (by omega) (by omega)).1
  · rw [(r2 _).2]; exact (h3 _ (by omega) (by omega)).2

/-- **C14, refresh reproduces creation, in part.** Refreshing directly after creation gives back the
same position, velocity, mass, smoothing length, thermal data, start-of-step values, flags and parent.
Missing: the acceleration of mirror images, see `C14_acceleration_not_reproduced`, and the members of
the derived particle class, which creation does not set. -/
theorem C14_refresh_reproduces_partial (T : Tree n) (cfg : KD.Cfg) (P : KD.Parts n)
    (pfuel fuel : ℕ) (f : Forest) (l : List ℕ) (s : HState n ℝ τ τ')
    (h : GhostSetup T cfg P pfuel fuel f l s) (d : Domain n ℝ)
    (grange tghost : ℝ) (hg : 0 ≤ grange) (ht : 0 ≤ tghost) :
    ∃ s', s.search d grange tghost (T.generate d grange tghost pfuel fuel) = some s' ∧
      ∀ g, s.Nhydro ≤ g → g < s'.Ntot →
        ((s'.refresh d).part g).r = (s'.part g).r ∧ ((s'.refresh d).part g).v = (s'.part g).v ∧
        ((s'.refresh d).part g).m = (s'.part g).m ∧ ((s'.refresh d).part g).h = (s'.part g).h ∧
        ((s'.refresh d).part g).th = (s'.part g).th ∧
        ((s'.refresh d).part g).r0 = (s'.part g).r0 ∧ ((s'.refresh d).part g).v0 = (s'.part g).v0 ∧
        ((s'.refresh d).part g).a0 = (s'.part g).a0 ∧
        ((s'.refresh d).part g).flags = (s'.part g).flags ∧
        ((s'.refresh d).part g).iorig = (s'.part g).iorig := by
  obtain ⟨s', e, hr, hn, hT, -, hall⟩ := C14_images T cfg P pfuel fuel f l s h d grange tghost hg ht
  refine ⟨s', e, fun g h1 h2 => ?_⟩
  obtain ⟨o, σ, ho, -, hI, -, hR⟩ := hall g h1 h2
  obtain ⟨hF, hf, hi, -⟩ := hR s' rfl rfl fun _ _ _ => ⟨rfl, rfl⟩
  rw [hr o ho] at hF
  exact ⟨hF.r.trans hI.r.symm, funext fun k => (hF.v k).trans (hI.v k).symm, hF.m.trans hI.m.symm,
    hF.h.trans hI.h.symm, hF.th.trans hI.th.symm, hF.start.1.trans hI.start.1.symm,
    hF.start.2.1.trans hI.start.2.1.symm, hF.start.2.2.trans hI.start.2.2.symm, hf, hi⟩

/-- **C14, reflecting twice about the same plane is the identity**, on all fields. -/
theorem C14_reflect_involution {α : Type*} [Field α] [LinearOrder α] (p : GPart n α τ τ') (k : Fin n)
    (x : α) : (p.reflect k x).reflect k x = p := p.reflect_reflect k x

/-! ### The acceleration of a fresh mirror ghost -/

def ex14p : GPart 1 ℚ Unit Unit where
  r := fun _ => 1
  v := fun _ => 2
  a := fun _ => 3
  r0 := fun _ => 1
  v0 := fun _ => 2
  a0 := fun _ => 3
  m := 1
  h := 1
  th := ()
  flags := 0
  iorig := 0
  Wprim := fun _ => 0
  dQ := fun _ => 0
  dQdt := fun _ => 0
  grad := fun _ _ => 0
  B := fun _ _ => 0
  ext := ()

def ex14d : Domain 1 ℚ where
  min := fun _ => 0
  max := fun _ => 10
  lhs := fun _ => .mirror
  rhs := fun _ => .mirror
  size := fun _ => 10
  half := fun _ => 5

def ex14s : HState 1 ℚ Unit Unit where
  part := fun _ => ex14p
  Nhydro := 1
  Nghost := 0
  NPeriodicGhost := 0
  Ntot := 1

/-- The acceleration of a newly created mirror ghost has the sign of its parent's, the refreshed one
the opposite sign: `CreateBoundaryGhostParticle` does not reflect it. -/
theorem C14_acceleration_not_reproduced : ∃ s' : HState 1 ℚ Unit Unit,
    ex14s.search ex14d 5 0 (fun j s => some (s.checkGhost ex14d 5 0 j 0)) = some s' ∧
    s'.NPeriodicGhost = 1 ∧ (s'.part 1).r 0 = -1 ∧ (s'.part 1).v 0 = -2 ∧ (s'.part 1).a 0 = 3 ∧
    ((s'.refresh ex14d).part 1).a 0 = -3 := by
  refine ⟨_, rfl, ?_⟩
  decide +kernel

/-! ### Death of a particle and of its ghosts -/

theorem refreshOp_flags {α : Type*} [Field α] [LinearOrder α] (d : Domain n α) (itype : BitVec 32)
    (p : GPart n α τ τ') : (refreshOp d itype p).flags = p.flags := by
  unfold refreshOp
  split
  · rfl
  · split
    · rfl
    · split
      · rfl
      · split <;> rfl

theorem refresh_fold_flags {α : Type*} [Field α] [LinearOrder α] (d : Domain n α) (m : ℕ)
    (s : HState n α τ τ') :
    ((List.range m).foldl (HState.refreshStep d) s).Nhydro = s.Nhydro ∧
    ∀ i, (((List.range m).foldl (HState.refreshStep d) s).part i).flags =
      if s.Nhydro ≤ i ∧ i < s.Nhydro + m then Flags.unset (s.part i).flags Flags.active
      else (s.part i).flags := by
  induction m with
  | zero => exact ⟨rfl, fun i => by rw [if_neg (by omega)]; rfl⟩
  | succ m ih =>
    rw [List.range_succ, List.foldl_append, List.foldl_cons, List.foldl_nil]
    obtain ⟨hN, hf⟩ := ih
    generalize (List.range m).foldl (HState.refreshStep d) s = s1 at hN hf
    refine ⟨hN, fun i => ?_⟩
    unfold HState.refreshStep
    simp only [hN]
    by_cases h : i = s.Nhydro + m
    · subst h
      rw [Function.update_self, refreshOp_flags, if_pos (by omega)]
      simp only [hf]
      rw [if_neg (by omega)]
    · rw [Function.update_of_ne h, hf i]
      by_cases h' : s.Nhydro ≤ i ∧ i < s.Nhydro + m
      · rw [if_pos h', if_pos (by omega)]
      · rw [if_neg h', if_neg (by omega)]

/-- **C14, flags.** Refreshing leaves every ghost its own flags, `active` taken away, and real particles theirs,
whatever happened to the particles. -/
theorem C14_flags_own {α : Type*} [Field α] [LinearOrder α] (d : Domain n α) (s : HState n α τ τ') (i : ℕ) :
    ((s.refresh d).part i).flags =
      if s.Nhydro ≤ i ∧ i < s.Nhydro + s.NPeriodicGhost then Flags.unset (s.part i).flags Flags.active
      else (s.part i).flags :=
  (refresh_fold_flags d s.NPeriodicGhost s).2 i

/-- **C14, death is not copied.** A ghost is dead after refreshing if and only if it was dead before: that of a
particle swallowed by a sink lives on, and a ghost swallowed itself stays dead beside its living particle,
until the next search. -/
theorem C14_dead_not_copied_fails {α : Type*} [Field α] [LinearOrder α] (d : Domain n α)
    (s : HState n α τ τ') (i : ℕ) :
    Flags.is_dead ((s.refresh d).part i).flags = Flags.is_dead (s.part i).flags := by
  rw [C14_flags_own]
  split
  · unfold Flags.is_dead Flags.unset
    have : (s.part i).flags &&& ~~~Flags.active &&& Flags.dead = (s.part i).flags &&& Flags.dead := by
      rw [BitVec.and_assoc]
      congr 1
    rw [this]
  · rfl

/-- a dead particle without mass and its ghost: the ghost has lost the mass but lives -/
example : let s : HState 1 ℚ Unit Unit :=
      { ex14s with
        part := fun i => if i = 0 then { ex14p with flags := Flags.dead, m := 0 }
          else { ex14p with flags := Flags.x_mirror_lhs }
        Nghost := 1
        NPeriodicGhost := 1
        Ntot := 2 }
    Flags.is_dead (s.part 0).flags = true ∧ Flags.is_dead ((s.refresh ex14d).part 1).flags = false ∧
    ((s.refresh ex14d).part 1).m = 0 := by
  decide +kernel

end Gandalf
