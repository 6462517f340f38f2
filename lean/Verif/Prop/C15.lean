import Verif.Proof.BoundaryReach
import Verif.Prop.C06

/-!
# C15 – the boundary ghosts are complete

`GhostSetup` (Proof/BoundaryReach) says that the tree is built and stocked over the real particles; C06
shows that the code makes such trees, and an instance is built below.
-/

set_option autoImplicit false

namespace Gandalf

open KD

variable {n : ℕ} {τ τ' : Type*}

/-- `L` lists, slot by slot, which particle and which combination of sides the ghosts of `s'` belong
to; no combination occurs twice. -/
structure GhostCatalogue (d : Domain n ℝ) (s s' : HState n ℝ τ τ')
    (L : List (ℕ × (Fin n → Option Side))) : Prop where
  count : s'.NPeriodicGhost = L.length
  total : s'.Ntot = s.Nhydro + L.length
  nodup : L.Nodup
  image : ∀ i (h : i < L.length), L[i].1 < s.Nhydro ∧
    IsBndImage d L[i].2 (s.part L[i].1) (s'.part (s.Nhydro + i))

/-- **C15 for ghosts that are made anew in every step (`tghost = 0`, all MUSCL runs and set-ups).** The
image of particle `o` across the combination of sides `σ` is among the ghosts exactly once if `σ` is not
empty and every side named is periodic or mirror and within `grange * h` of the particle, and is not
there otherwise. -/
theorem C15_zero_lifetime (T : Tree n) (cfg : Cfg) (P : Parts n) (pfuel fuel : ℕ) (f : Forest)
    (l : List ℕ) (s : HState n ℝ τ τ') (h : GhostSetup T cfg P pfuel fuel f l s) (d : Domain n ℝ)
    (grange : ℝ) (hg : 0 ≤ grange) :
    ∃ s' L, s.search d grange 0 (T.generate d grange 0 pfuel fuel) = some s' ∧
      GhostCatalogue d s s' L ∧
      ∀ o σ, (o, σ) ∈ L ↔ o < s.Nhydro ∧ (∃ k, σ k ≠ none) ∧ ∀ k t, σ k = some t →
        d.Imaging k t ∧
        if t = 0 then (s.part o).r k < d.min k + grange * (s.part o).h
        else d.max k - grange * (s.part o).h < (s.part o).r k := by
  obtain ⟨s', L, vis, e, hI, hT, hP, hN, hm, hv, hvis⟩ := tree_search h d hg le_rfl
  have hiff : ∀ o k t, d.Reaches 0 (grange * (s.part o).h) (s.part o) k t ↔
      if t = 0 then (s.part o).r k < d.min k + grange * (s.part o).h
        else d.max k - grange * (s.part o).h < (s.part o).r k := by
    intro o k t
    rw [reaches_iff le_rfl]
    simp only [mul_zero, min_self, max_self, add_zero]
  refine ⟨s', L, e, ⟨hP, hT, hN, fun i hi => hI.img _ _ ?_⟩, fun o σ => ?_⟩
  · rw [labOf_add, List.getElem?_eq_getElem hi]
  · rw [hm]
    simp only [hiff]
    constructor
    · rintro ⟨h1, k, hk, -, hok⟩
      exact ⟨hv k o hok, ⟨k, hk⟩, h1⟩
    · rintro ⟨ho, ⟨k, hk⟩, h1⟩
      refine ⟨h1, ?_⟩
      obtain ⟨k0, hk0, hmin⟩ : ∃ k0, σ k0 ≠ none ∧ ∀ k', k' < k0 → σ k' = none := by
        obtain ⟨k0, h2, h3⟩ := WellFounded.has_min (wellFounded_lt (α := Fin n))
          {k | σ k ≠ none} ⟨k, hk⟩
        exact ⟨k0, h2, fun k' hk' => by_contra fun hc => h3 k' hc hk'⟩
      obtain ⟨t, ht⟩ := Option.ne_none_iff_exists'.mp hk0
      exact ⟨k0, hk0, hmin, hvis k0 o t ho ((hiff o k0 t).mpr (h1 k0 t ht).2)⟩

/-- **C15 for any lifetime, in part.** Ghosts are only made for sides the particle can reach, none is
made twice, and the image across `σ` is made if the particle reaches all sides of `σ` and is within
`grange * h` of the first of them already. Missing: a particle that gets there only by its own motion,
see `C15_fast_particle_missed`. -/
theorem C15_ghosts_partial (T : Tree n) (cfg : Cfg) (P : Parts n) (pfuel fuel : ℕ) (f : Forest)
    (l : List ℕ) (s : HState n ℝ τ τ') (h : GhostSetup T cfg P pfuel fuel f l s) (d : Domain n ℝ)
    (grange tghost : ℝ) (hg : 0 ≤ grange) (ht : 0 ≤ tghost) :
    ∃ s' L, s.search d grange tghost (T.generate d grange tghost pfuel fuel) = some s' ∧
      GhostCatalogue d s s' L ∧
      (∀ o σ, (o, σ) ∈ L → o < s.Nhydro ∧ (∃ k, σ k ≠ none) ∧ ∀ k t, σ k = some t →
        d.Imaging k t ∧ d.Reaches tghost (grange * (s.part o).h) (s.part o) k t) ∧
      ∀ o σ, o < s.Nhydro → (∀ k t, σ k = some t →
          d.Imaging k t ∧ d.Reaches tghost (grange * (s.part o).h) (s.part o) k t) →
        (∃ k t, σ k = some t ∧ (∀ k', k' < k → σ k' = none) ∧
          d.Reaches 0 (grange * (s.part o).h) (s.part o) k t) →
        (o, σ) ∈ L := by
  obtain ⟨s', L, vis, e, hI, hT, hP, hN, hm, hv, hvis⟩ := tree_search h d hg ht
  refine ⟨s', L, e, ⟨hP, hT, hN, fun i hi => hI.img _ _ ?_⟩, fun o σ ho => ?_, fun o σ ho h1 h2 => ?_⟩
  · rw [labOf_add, List.getElem?_eq_getElem hi]
  · obtain ⟨h1, k, hk, -, hok⟩ := (hm o σ).mp ho
    exact ⟨hv k o hok, ⟨k, hk⟩, h1⟩
  · obtain ⟨k, t, hk, hmin, hr⟩ := h2
    exact (hm o σ).mpr ⟨h1, k, by simp [hk], hmin, hvis k o t ho hr⟩

/-- **C15, the margin that makes it safe.** The code searches `grange = 2.5 * kernrange`. Every particle
that comes within its kernel range `kr * h` of the sides of `σ` during the lifetime has its image, as
long as it moves by no more than `(grange - kr) * h` in that time. -/
theorem C15_moving_margin (T : Tree n) (cfg : Cfg) (P : Parts n) (pfuel fuel : ℕ) (f : Forest)
    (l : List ℕ) (s : HState n ℝ τ τ') (h : GhostSetup T cfg P pfuel fuel f l s) (d : Domain n ℝ)
    (grange tghost kr : ℝ) (hg : 0 ≤ grange) (ht : 0 ≤ tghost) :
    ∃ s' L, s.search d grange tghost (T.generate d grange tghost pfuel fuel) = some s' ∧
      GhostCatalogue d s s' L ∧
      ∀ o σ, o < s.Nhydro → (∃ k, σ k ≠ none) → (∀ k t, σ k = some t →
          d.Imaging k t ∧ d.Reaches tghost (kr * (s.part o).h) (s.part o) k t) →
        (∀ k, |(s.part o).v k| * tghost ≤ (grange - kr) * (s.part o).h) →
        (o, σ) ∈ L := by
  obtain ⟨s', L, e, hC, -, hall⟩ := C15_ghosts_partial T cfg P pfuel fuel f l s h d grange tghost hg ht
  refine ⟨s', L, e, hC, fun o σ ho hne h1 h2 => ?_⟩
  have hnow : ∀ k t, σ k = some t → d.Reaches 0 (grange * (s.part o).h) (s.part o) k t := by
    intro k t hk
    obtain ⟨τ, t1, t2, t3⟩ := (h1 k t hk).2
    refine ⟨0, le_rfl, le_rfl, ?_⟩
    have hb : |(s.part o).v k * τ| ≤ (grange - kr) * (s.part o).h := by
      rw [abs_mul, abs_of_nonneg t1]
      exact (mul_le_mul_of_nonneg_left t2 (abs_nonneg _)).trans (h2 k)
    have b1 := neg_abs_le ((s.part o).v k * τ)
    have b2 := le_abs_self ((s.part o).v k * τ)
    rw [sub_mul] at hb
    split_ifs at t3 ⊢ <;> simp only [mul_zero, add_zero] <;> linarith
  refine hall o σ ho (fun k t hk => ⟨(h1 k t hk).1, ?_⟩) ?_
  · obtain ⟨τ, t1, t2, t3⟩ := hnow k t hk
    exact ⟨τ, t1, t2.trans ht, t3⟩
  · obtain ⟨k, hk⟩ := hne
    obtain ⟨k0, hk0, hmin⟩ : ∃ k0, σ k0 ≠ none ∧ ∀ k', k' < k0 → σ k' = none := by
      obtain ⟨k0, h2, h3⟩ := WellFounded.has_min (wellFounded_lt (α := Fin n))
        {k | σ k ≠ none} ⟨k, hk⟩
      exact ⟨k0, h2, fun k' hk' => by_contra fun hc => h3 k' hc hk'⟩
    obtain ⟨t, htk⟩ := Option.ne_none_iff_exists'.mp hk0
    exact ⟨k0, t, htk, hmin, hnow k0 t htk⟩

/-! ### Instances: trees with one leaf over two particles -/
noncomputable section

def ex15Cfg : Cfg where
  big := 100
  kernrange := 2
  thetamaxsqd := 1
  gadget2 := false
  eigenmac := false
  needQuad := true

/-- Particles at `4` and `5` with velocities `-4` and `8`, `h = 1/10`. -/
def ex15P : Parts 1 where
  dead := fun _ => false
  active := fun _ => true
  grav := fun _ => true
  m := fun _ => 1
  h := fun _ => 1 / 10
  sound := fun _ => 1
  anorm := fun _ => 0
  gfac := fun _ => 0
  r := fun i _ => 4 + i
  v := fun i _ => if i = 0 then -4 else 8

def ex15s : HState 1 ℝ Unit Unit where
  part := fun i =>
    { r := ex15P.r i
      v := ex15P.v i
      a := fun _ => 0
      r0 := ex15P.r i
      v0 := ex15P.v i
      a0 := fun _ => 0
      m := 1
      h := 1 / 10
      th := ()
      flags := 0
      iorig := 0
      Wprim := fun _ => 0
      dQ := fun _ => 0
      dQdt := fun _ => 0
      grad := fun _ _ => 0
      B := fun _ _ => 0
      ext := () }
  Nhydro := 2
  Nghost := 0
  NPeriodicGhost := 0
  Ntot := 2

theorem ex15Tree : ∃ (T : Tree 1) (l : List ℕ), GhostSetup T ex15Cfg ex15P 2 1 (fullTree 0 0 .nil) l
    ex15s ∧ l.Perm [0, 1] := by
  obtain ⟨t, b, s', l, h1, h2, h3, hp, hlo, hst, _⟩ := C06_built_tree_stocks (κ := Fin 1)
    (fun k i => ex15P.r i k) (fun _ => 0) (fun _ => false) 0 2 6 1 (by norm_num) (by norm_num)
    (fun _ _ _ => rfl) ⟨fun _ => 0, fun _ => none, fun _ => none, fun _ => none, fun _ => none,
      fun _ => 0, fun _ => 0, 0⟩ id (fun _ => none) 0 (by decide) (by decide) ex15Cfg ex15P
    (fun _ _ => zero_le_one) (fun _ => Classical.choice ⟨⟨0, 0, 0, 0, 0, 0, 0, 0, 0, fun _ => 0,
      fun _ => 0, fun _ => 0, fun _ => 0, fun _ => 0, fun _ => 0, fun _ => 0, fun _ => 0, fun _ => 0,
      fun _ => 0⟩⟩)
  have e : (l.filter fun i => !ex15P.dead i) = l := by simp [ex15P]
  rw [e] at hst
  have hlen : l.length = 2 := by rw [hp.length_eq]; simp
  refine ⟨toTree t 0 6 s' fun _ => 0, l, ⟨by norm_num, toTree_ok hlo hst (by omega)
    (hp.nodup_iff.mpr List.nodup_range'), by simp [fullTree, Forest.cells], fun i => ?_,
    fun i _ => ⟨rfl, rfl, rfl⟩, fun i _ => by simp [GPart.IsReal, ex15s]⟩, hp⟩
  rw [hp.mem_iff]
  simp [ex15s]

/-- periodic box `[0, 100]` -/
def ex15d : Domain 1 ℝ where
  min := fun _ => 0
  max := fun _ => 100
  lhs := fun _ => .periodic
  rhs := fun _ => .periodic
  size := fun _ => 100
  half := fun _ => 50

/-- **C15 fails for a particle moving against its neighbours.** The tree walk judges a cell by its mean
velocity. Here the cell drifts away from the left side, so it is not opened, although its particle at
`4` with velocity `-4` reaches that side within the lifetime `1`; no ghost is made at all. -/
theorem C15_fast_particle_missed : ∃ (T : Tree 1) (l : List ℕ) (s' : HState 1 ℝ Unit Unit),
    GhostSetup T ex15Cfg ex15P 2 1 (fullTree 0 0 .nil) l ex15s ∧ ex15d.Imaging 0 0 ∧
    ex15d.Reaches 1 (5 * (ex15s.part 0).h) (ex15s.part 0) 0 0 ∧
    ex15s.search ex15d 5 1 (T.generate ex15d 5 1 2 1) = some s' ∧ s'.NPeriodicGhost = 0 := by
  obtain ⟨T, l, h, hp⟩ := ex15Tree
  refine ⟨T, l, { ex15s with
    Nghost := 0
    NPeriodicGhost := 0
    Ntot := 2 }, h, by simp [Domain.Imaging, Domain.side, ex15d], ?_, ?_, rfl⟩
  · refine ⟨1, by norm_num, le_rfl, ?_⟩
    simp [ex15s, ex15P, ex15d]
  · have hcov := h.ok.covers
    obtain ⟨l1, l2, e1, ⟨hS, -⟩, -, -, e2⟩ := hcov
    obtain rfl : l2 = [] := e2
    rw [List.append_nil] at e1
    subst e1
    have hl : ∀ i ∈ l, i = 0 ∨ i = 1 := by
      intro i hi
      have := (hp.mem_iff).mp hi
      simpa using this
    have hm : (T.cell 0).m = 2 := by
      rw [hS.m, gsum]
      have : (l.filter ex15P.grav) = l := by simp [ex15P]
      rw [this, (hp.map _).sum_eq]
      simp [ex15P]; norm_num
    have hv : (T.cell 0).v 0 = 2 := by
      have := hS.mom (by rw [hm]; norm_num) 0
      rw [gsum] at this
      have e : (l.filter ex15P.grav) = l := by simp [ex15P]
      rw [e, (hp.map _).sum_eq, hm] at this
      simp [ex15P] at this
      linarith
    have hb1 : 4 ≤ (T.cell 0).bbmin 0 := by
      rcases hS.bbminTight 0 with h1 | ⟨i, hi, h1⟩ <;> rw [h1]
      · norm_num [ex15Cfg]
      · simp [ex15P]
    have hb2 : (T.cell 0).bbmax 0 ≤ 5 := by
      rcases hS.bbmaxTight 0 with h1 | ⟨i, hi, h1⟩ <;> rw [h1]
      · norm_num [ex15Cfg]
      · rcases hl i hi with rfl | rfl <;> norm_num [ex15P]
    have hh : (T.cell 0).hmax ≤ 1 / 10 := by
      rcases hS.hmaxTight with h1 | ⟨i, hi, h1⟩ <;> rw [h1]
      · norm_num
      · norm_num [ex15P]
    have hbody : ∀ s : HState 1 ℝ Unit Unit, T.generateBody ex15d 5 1 0 2 0 s = .next s := by
      intro s
      rw [Tree.generateBody, if_neg]
      rw [hv]
      simp only [ex15d]
      norm_num
      constructor <;> linarith
    have hlink := h.ok.linked
    have hgen : ∀ s : HState 1 ℝ Unit Unit, T.generate ex15d 5 1 2 1 0 s = some s := by
      intro s
      have h0 : 0 < T.Ncell := h.ok.cells 0 (by simp [fullTree, Forest.cells])
      have h1 : T.links.cnext 0 = some T.Nend := hlink.1
      have h2 := h.ok.ends
      rw [Tree.generate, Walk.walk, if_pos h0]
      simp only [hbody, h1]
      rw [Walk.walk, if_neg (by omega)]
    rw [HState.search]
    rw [if_neg (by simp [ex15d])]
    have hlhs : ex15d.lhs 0 ≠ .open_ := by simp [ex15d]
    simp [List.finRange_succ, HState.searchDim, hgen, hlhs]
    rfl

/-- The hypotheses of the theorems above hold in that situation. -/
example : ∃ (T : Tree 1) (l : List ℕ), GhostSetup T ex15Cfg ex15P 2 1 (fullTree 0 0 .nil) l ex15s := by
  obtain ⟨T, l, h, -⟩ := ex15Tree
  exact ⟨T, l, h⟩

end
end Gandalf
