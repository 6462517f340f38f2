import Verif.Prop.C08Pipeline

/-!
# C10 – the pairs-once rule evaluates each pair exactly once
-/

set_option autoImplicit false
set_option linter.unusedSectionVars false

namespace Gandalf
open Walk KD

variable {n : ℕ}

/-- **C10, the rule.** Of two visits of a pair of particles with distinct identifiers, neither being a
mirror image, exactly one accepts the other; the particle with the higher timestep level visits its
partners; a particle never accepts itself; mirror images are always accepted; without the rule everything
is accepted. -/
theorem C10_pair_once {α : Type*} (p q : NPart n α) :
    (p.iorig ≠ q.iorig → Flags.is_mirror p.flags = false → Flags.is_mirror q.flags = false →
      firstAppearance true p q = !firstAppearance true q p) ∧
    (q.level < p.level → firstAppearance true p q = true) ∧
    (Flags.is_mirror p.flags = false → firstAppearance true p p = false) ∧
    (Flags.is_mirror q.flags = true → firstAppearance true p q = true) ∧
    firstAppearance false p q = true := by
  refine ⟨?_, ?_, ?_, ?_, rfl⟩
  · intro h1 h2 h3
    simp only [firstAppearance, h2, h3, if_true, Bool.false_or]
    rcases lt_trichotomy p.level q.level with h | h | h
    · simp [h, h.ne, h.ne', not_lt.mpr h.le]
    · rcases lt_or_gt_of_ne h1 with h' | h'
      · simp [h, h', not_lt.mpr h'.le]
      · simp [h, h', not_lt.mpr h'.le]
    · simp [h, h.ne, h.ne', not_lt.mpr h.le]
  · intro h; simp [firstAppearance, h]
  · intro h; simp [firstAppearance, h]
  · intro h; simp [firstAppearance, h]

variable {T : Tree n} {cfg : Cfg} {P : Parts n} {pfuel : ℕ} {f : Forest} {l : List ℕ}
  {d : Domain n ℝ} {junk : Vec n ℝ} {part : ℕ → NPart n ℝ}

/-- position `x` of the culled list holds particle `j` itself (not a mirror image of it) -/
def HoldsReal (u : NM n ℝ) (t : TrimSt n ℝ) (j x : ℕ) : Prop :=
  x ∈ t.culled ∧ u.neibIdx[x]? = some j ∧ ∃ q, t.neibdata[x]? = some q ∧ Flags.is_mirror q.flags = false

/-- the flux loop for particle `i` of `cell`: search, trims for earlier particles `ps`, trim for `i` -/
def VisitAccepts (T : Tree n) (cfg : Cfg) (d : Domain n ℝ) (junk : Vec n ℝ) (part : ℕ → NPart n ℝ)
    (pfuel fuel : ℕ) (seen : NPart n ℝ → Fin n → Side → ℝ) (gravmask : ℕ → Bool) (junkp : NPart n ℝ)
    (cell : Props n) (ps : List ((ℕ → Bool) × Bool × NPart n ℝ)) (hydromask : ℕ → Bool) (i j x : ℕ) :
    Prop :=
  ∃ found, T.ghostNeighbourWalk d junk cell pfuel [] fuel = .done found ∧
    let m := NM.endSearch d cfg.kernrange gravmask seen junkp cell.target part found [] [] false
    let u := ps.foldl (fun u x => u.afterTrim (u.trim d x.1 gravmask x.2.1 false junkp x.2.2)) m
    HoldsReal u (u.trim d hydromask gravmask true false junkp (part i)) j x

/-- what a visit accepts, in terms of the physical neighbours -/
theorem visitAccepts_iff (H : HydroSetup T cfg P pfuel f l d junk part)
    (cell : Props n) (a : List ℕ) (hcell : Summary cfg P a cell) (hsub : ∀ i ∈ a, i ∈ l) (i : ℕ)
    (hi : i ∈ a)
    (seen : NPart n ℝ → Fin n → Side → ℝ) (hseen : SeenFaithful seen)
    (gravmask : ℕ → Bool) (junkp : NPart n ℝ) (fuel : ℕ) (hfuel : f.cells.length ≤ fuel)
    (ps : List ((ℕ → Bool) × Bool × NPart n ℝ))
    (hps : ∀ x ∈ ps, ∀ k, d.lhs k = .periodic → d.min k ≤ x.2.2.r k ∧ x.2.2.r k ≤ d.max k)
    (hydromask : ℕ → Bool) (j : ℕ) :
    let acc := VisitAccepts T cfg d junk part pfuel fuel seen gravmask junkp cell ps hydromask i j
    (∀ x y, acc x → acc y → x = y) ∧
    ((∃ x, acc x) ↔
      HydroNeighbour cfg.kernrange P l d (fun j => hydromask (part j).ptype) i j (fun _ => none) ∧
      ((part j).level < (part i).level ∨
        ((part i).level = (part j).level ∧ (part i).iorig < (part j).iorig))) := by
  intro acc
  obtain ⟨found, hw, lab, hp⟩ := C08_hydro_pipeline H cell a hcell hsub (List.ne_nil_of_mem hi) seen hseen
    gravmask junkp fuel hfuel
  obtain ⟨h1, h2, h3, h4⟩ := hp ps hps i hi hydromask true
  set m := NM.endSearch d cfg.kernrange gravmask seen junkp cell.target part found [] [] false with hm
  set u := ps.foldl (fun u x => u.afterTrim (u.trim d x.1 gravmask x.2.1 false junkp x.2.2)) m with hu
  set t := u.trim d hydromask gravmask true false junkp (part i) with ht
  have hacc : ∀ x, acc x ↔ HoldsReal u t j x := by
    intro x
    constructor
    · rintro ⟨found', hw', h⟩
      rw [hw] at hw'
      obtain rfl := Res.done.inj hw'
      exact h
    · intro h; exact ⟨found, hw, h⟩
  have hlab : ∀ x, HoldsReal u t j x ↔ x ∈ t.culled ∧ lab x = (j, fun _ => none) := by
    intro x
    constructor
    · rintro ⟨hx, hj, q, hq, hmir⟩
      refine ⟨hx, ?_⟩
      obtain ⟨g1, q', g2, g3, -⟩ := h4 x hx
      rw [hj] at g1
      rw [hq] at g2
      obtain rfl := Option.some.inj g2
      have e1 : (lab x).1 = j := (Option.some.inj g1).symm
      have e2 : (lab x).2 = fun _ => none := by
        funext k
        by_contra hk
        have := g3.mirror.mpr ⟨k, hk⟩
        rw [hmir] at this; cases this
      exact Prod.ext e1 e2
    · rintro ⟨hx, e⟩
      obtain ⟨g1, q', g2, g3, -⟩ := h4 x hx
      refine ⟨hx, by rw [g1, e], q', g2, ?_⟩
      rw [Bool.eq_false_iff]
      intro hc
      obtain ⟨k, hk⟩ := g3.mirror.mp hc
      rw [e] at hk; exact hk rfl
  constructor
  · intro x y hx hy
    rw [hacc, hlab] at hx hy
    exact h2 x hx.1 y hy.1 (hx.2.trans hy.2.symm)
  · have : (∃ x, acc x) ↔ ∃ x ∈ t.culled, lab x = (j, fun _ => none) := by
      constructor
      · rintro ⟨x, hx⟩; rw [hacc, hlab] at hx; exact ⟨x, hx⟩
      · rintro ⟨x, hx⟩; exact ⟨x, (hacc x).mpr ((hlab x).mpr hx)⟩
    rw [this, h3]
    simp

/-- being neighbours is symmetric -/
theorem HydroNeighbour.symm {K : ℝ} {ok : ℕ → Bool} {i j : ℕ} (hi : i ∈ l) (hlive : P.dead i = false)
    (hok : ok i = true) (h : HydroNeighbour K P l d ok i j fun _ => none) :
    HydroNeighbour K P l d ok j i fun _ => none := by
  obtain ⟨-, -, -, -, y, ⟨m, hm⟩, hI⟩ := h
  refine ⟨hi, hlive, hok, fun k => ⟨fun h => by (cases h), fun h => by (cases h)⟩,
    fun k => P.r i k - m k * d.size k, ⟨fun k => -m k, fun k => ⟨fun h => by simp [(hm k).1 h], ?_⟩⟩, ?_⟩
  · rw [mirrorPos_none rfl]; push_cast; ring
  · unfold Interact at hI ⊢
    rw [max_comm]
    have e : Tree.distsqd (fun k => P.r i k - m k * d.size k) (P.r j) = Tree.distsqd y (P.r i) := by
      unfold Tree.distsqd
      have : (fun k => P.r i k - m k * d.size k - P.r j k) = fun k => -(y k - P.r i k) := by
        funext k
        rw [(hm k).2, mirrorPos_none rfl]; ring
      rw [this]
      simp only [dot, neg_mul_neg]
    rw [e]; exact hI

/-- **C10, the flux loop.** Let the active particles be those on level `L` and above. For every pair of
distinct hydro neighbours of which at least one is active: exactly one active visit accepts the pair, at
exactly one position of its neighbour list, whatever cells the two particles are in and whatever
particles were visited before. Identifiers of different particles differ. -/
theorem C10_pairs_exactly_once (H : HydroSetup T cfg P pfuel f l d junk part)
    (cellOf : ℕ → Props n) (inCell : ℕ → List ℕ)
    (hcell : ∀ i ∈ l, Summary cfg P (inCell i) (cellOf i) ∧ i ∈ inCell i ∧ ∀ x ∈ inCell i, x ∈ l)
    (seen : NPart n ℝ → Fin n → Side → ℝ) (hseen : SeenFaithful seen)
    (gravmask hydromask : ℕ → Bool) (junkp : NPart n ℝ) (fuel : ℕ) (hfuel : f.cells.length ≤ fuel)
    (ps : ℕ → List ((ℕ → Bool) × Bool × NPart n ℝ))
    (hps : ∀ i, ∀ x ∈ ps i, ∀ k, d.lhs k = .periodic → d.min k ≤ x.2.2.r k ∧ x.2.2.r k ≤ d.max k)
    (L : ℤ) (i j : ℕ) (hi : i ∈ l) (hid : (part i).iorig ≠ (part j).iorig)
    (hlive : P.dead i = false) (hok : hydromask (part i).ptype = true)
    (hnb : HydroNeighbour cfg.kernrange P l d (fun j => hydromask (part j).ptype) i j fun _ => none)
    (hact : L ≤ (part i).level ∨ L ≤ (part j).level) :
    let acc := fun (i j x : ℕ) => L ≤ (part i).level ∧
      VisitAccepts T cfg d junk part pfuel fuel seen gravmask junkp (cellOf i) (ps i) hydromask i j x
    ((∃! x, acc i j x) ∧ ∀ x, ¬ acc j i x) ∨ ((∃! x, acc j i x) ∧ ∀ x, ¬ acc i j x) := by
  intro acc
  have hj := hnb.1
  have hnb' := hnb.symm (ok := fun j => hydromask (part j).ptype) hi hlive hok
  have main : ∀ i j, i ∈ l →
      HydroNeighbour cfg.kernrange P l d (fun j => hydromask (part j).ptype) i j (fun _ => none) →
      let c := (part j).level < (part i).level ∨
        ((part i).level = (part j).level ∧ (part i).iorig < (part j).iorig)
      (c → L ≤ (part i).level → ∃! x, acc i j x) ∧ (¬ c → ∀ x, ¬ acc i j x) := by
    intro i j hi hn c
    obtain ⟨g1, g2⟩ := visitAccepts_iff H (cellOf i) (inCell i) (hcell i hi).1 (hcell i hi).2.2 i
      (hcell i hi).2.1 seen hseen gravmask junkp fuel hfuel (ps i) (hps i) hydromask j
    constructor
    · intro hc hL
      obtain ⟨x, hx⟩ := g2.mpr ⟨hn, hc⟩
      exact ⟨x, ⟨hL, hx⟩, fun y hy => g1 y x hy.2 hx⟩
    · intro hc x hx
      exact hc (g2.mp ⟨x, hx.2⟩).2
  obtain ⟨a1, a2⟩ := main i j hi hnb
  obtain ⟨b1, b2⟩ := main j i hj hnb'
  rcases lt_trichotomy (part i).level (part j).level with h | h | h
  · right
    refine ⟨b1 (Or.inl h) (by rcases hact with h' | h' <;> omega), a2 ?_⟩
    omega
  · rcases lt_or_gt_of_ne hid with h' | h'
    · left
      refine ⟨a1 (Or.inr ⟨h, h'⟩) (by rcases hact with h' | h' <;> omega), b2 ?_⟩
      omega
    · right
      refine ⟨b1 (Or.inr ⟨h.symm, h'⟩) (by rcases hact with h' | h' <;> omega), a2 ?_⟩
      omega
  · left
    refine ⟨a1 (Or.inl h) (by rcases hact with h' | h' <;> omega), b2 ?_⟩
    omega

/-! ### a case meeting the hypotheses: two particles interacting through a periodic boundary -/

noncomputable section

def exDom10 : Domain 1 ℝ where
  min := fun _ => 0
  max := fun _ => 5
  lhs := fun _ => .periodic
  rhs := fun _ => .periodic
  size := fun _ => 5
  half := fun _ => 5 / 2

def exPart10 (i : ℕ) : NPart 1 ℝ where
  r := fun _ => 4 * i
  v := fun _ => 0
  a := fun _ => 0
  m := 1
  h := 1
  hrangesqd := 4
  ptype := 0
  flags := 0
  level := i
  iorig := i

/-- particles at 0 and 4 in a periodic box of length 5, kernel radius 2: they are at distance 4 but
their images are at distance 1 -/
theorem exSetup10 : ∃ (T : Tree 1) (l : List ℕ) (cell : Props 1), l.Perm [0, 1] ∧
    HydroSetup T exCfg7 exP7 2 (KD.fullTree 0 0 .nil) l exDom10 (fun _ => 0) exPart10 ∧
    Summary exCfg7 exP7 l cell ∧
    HydroNeighbour exCfg7.kernrange exP7 l exDom10 (fun _ => true) 0 1 (fun _ => none) := by
  obtain ⟨T, l, h, hp⟩ := exTree7'
  have hl : ∀ i ∈ l, i = 0 ∨ i = 1 := by
    intro i hi
    have := hp.mem_iff.mp hi
    simpa using this
  have hcov := h.covers
  simp only [KD.fullTree, Forest.Covers] at hcov
  obtain ⟨l1, l2, e, hS, -, -, e2⟩ := hcov
  subst e2
  rw [List.append_nil] at e
  subst e
  refine ⟨T, l, T.cell 0, hp, ?_, hS.1, ?_⟩
  · refine ⟨h, ?_, ?_, ?_, ?_, ?_, ?_, ?_, ?_, ?_, ?_, ?_, ?_, ?_, ?_⟩
    · simp [exCfg7]
    · intro i; simp [exP7]
    · exact ⟨fun k => by simp [exDom10], fun k => by simp only [exDom10]; norm_num,
        fun k => by simp [exDom10], fun k => by simp [exDom10]⟩
    · intro _ k hk; simp [exDom10] at hk
    · intro i hi k _
      rcases hl i hi with rfl | rfl <;> simp [exDom10, exP7]
    · intro i hi k _
      rcases hl i hi with rfl | rfl <;> simp [exDom10, exP7] <;> norm_num
    · intro i hi k _; simp only [exCfg7, exP7, exDom10]; norm_num
    · intro k _; simp only [exCfg7, exDom10]; norm_num
    · intro i hi k
      rcases hl i hi with rfl | rfl <;> simp only [exCfg7, exP7] <;> norm_num
    · intro i; rfl
    · intro i; rfl
    · intro i; simp only [exPart10, exCfg7, exP7]; norm_num
    · intro i
      have : Flags.is_dead 0 = false := by decide
      exact this
    · intro i
      have : Flags.is_mirror 0 = false := by decide
      exact this
  · refine ⟨hp.mem_iff.mpr (by simp), rfl, rfl, fun k => ⟨fun h => by (cases h), fun h => by (cases h)⟩,
      fun _ => -1, ⟨fun _ => -1, fun k => ⟨fun h => absurd rfl h, ?_⟩⟩, ?_⟩
    · simp only [exDom10, exP7, mirrorPos_none]; norm_num
    · simp only [Interact, Tree.distsqd, dot, exP7, exCfg7]; norm_num

end

end Gandalf
