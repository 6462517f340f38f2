import Verif.Spec.BoundaryGhost
import Verif.Proof.Ghost
import Verif.Proof.TreeSearch

set_option autoImplicit false
set_option linter.unusedSectionVars false

namespace Gandalf

variable {n : ℕ} {α τ τ' : Type*} [Field α] [LinearOrder α]

/-! ### Flags -/

theorem dimFlag_inj (hn : n ≤ 3) {j k : Fin n} (h : dimFlag j = dimFlag k) : j = k := by
  have := congrArg Fin.val h
  simp only [dimFlag, Fin.val_ofNat] at this
  have := j.isLt; have := k.isLt
  apply Fin.ext; omega

theorem per_per : ∀ (a b : Fin 3) (s t : Fin 2), Flags.periodic_bound_flags a s &&&
    Flags.periodic_bound_flags b t ≠ 0 ↔ a = b ∧ s = t := by decide
theorem mir_mir : ∀ (a b : Fin 3) (s t : Fin 2), Flags.mirror_bound_flags a s &&&
    Flags.mirror_bound_flags b t ≠ 0 ↔ a = b ∧ s = t := by decide
theorem per_mir : ∀ (a b : Fin 3) (s t : Fin 2), Flags.periodic_bound_flags a s &&&
    Flags.mirror_bound_flags b t = 0 := by decide
theorem mir_per : ∀ (a b : Fin 3) (s t : Fin 2), Flags.mirror_bound_flags a s &&&
    Flags.periodic_bound_flags b t = 0 := by decide
theorem per_any : ∀ (a : Fin 3) (s : Fin 2), Flags.periodic_bound_flags a s &&&
    Flags.any_boundary = Flags.periodic_bound_flags a s := by decide
theorem mir_any : ∀ (a : Fin 3) (s : Fin 2), Flags.mirror_bound_flags a s &&&
    Flags.any_boundary = Flags.mirror_bound_flags a s := by decide
theorem per_active : ∀ (a : Fin 3) (s : Fin 2), Flags.periodic_bound_flags a s &&&
    Flags.active = 0 := by decide
theorem mir_active : ∀ (a : Fin 3) (s : Fin 2), Flags.mirror_bound_flags a s &&&
    Flags.active = 0 := by decide

theorem unset_and {f b m : BitVec 32} (h : b &&& m = 0) : Flags.unset f m &&& b = f &&& b := by
  apply BitVec.eq_of_getLsbD_eq
  intro i hi
  have := congrArg (fun x : BitVec 32 => x.getLsbD i) h
  simp only [BitVec.getLsbD_and, BitVec.getLsbD_zero] at this
  simp only [Flags.unset, BitVec.getLsbD_and, BitVec.getLsbD_not, hi, decide_true, Bool.true_and]
  cases f.getLsbD i <;> cases h1 : b.getLsbD i <;> cases h2 : m.getLsbD i <;> simp_all

theorem unset_self (f m : BitVec 32) : Flags.unset f m &&& m = 0 := by
  apply BitVec.eq_of_getLsbD_eq
  intro i hi
  simp only [Flags.unset, BitVec.getLsbD_and, BitVec.getLsbD_not, hi, decide_true, Bool.true_and,
    BitVec.getLsbD_zero]
  cases f.getLsbD i <;> cases m.getLsbD i <;> simp

theorem real_flags {f b : BitVec 32} (hf : f &&& Flags.any_boundary = 0)
    (hb : b &&& Flags.any_boundary = b) : f &&& b = 0 := by
  rw [← hb, BitVec.and_comm b, ← BitVec.and_assoc, hf]; exact BitVec.zero_and

theorem disjoint_of_any {b m : BitVec 32} (hb : b &&& Flags.any_boundary = 0)
    (hm : m &&& Flags.any_boundary = m) : m &&& b = 0 := by
  rw [BitVec.and_comm]; exact real_flags hb hm

/-- flag of the image across a side -/
def Domain.bndFlag (d : Domain n α) (k : Fin n) (s : Side) : BitVec 32 :=
  if d.side k s = .periodic then Flags.periodic_bound_flags (dimFlag k) s
  else Flags.mirror_bound_flags (dimFlag k) s

theorem bndFlag_any (d : Domain n α) (k : Fin n) (s : Side) :
    d.bndFlag k s &&& Flags.any_boundary = d.bndFlag k s := by
  unfold Domain.bndFlag; split_ifs
  · exact per_any _ _
  · exact mir_any _ _

theorem bndFlag_active (d : Domain n α) (k : Fin n) (s : Side) :
    d.bndFlag k s &&& Flags.active = 0 := by
  unfold Domain.bndFlag; split_ifs
  · exact per_active _ _
  · exact mir_active _ _

theorem bndFlag_per (hn : n ≤ 3) (d : Domain n α) (k j : Fin n) (s t : Side) :
    d.bndFlag k s &&& Flags.periodic_bound_flags (dimFlag j) t ≠ 0 ↔
      j = k ∧ t = s ∧ d.side k s = .periodic := by
  unfold Domain.bndFlag
  by_cases h : d.side k s = .periodic
  · rw [if_pos h, per_per]
    constructor
    · rintro ⟨h1, h2⟩; exact ⟨(dimFlag_inj hn h1).symm, h2.symm, h⟩
    · rintro ⟨rfl, rfl, -⟩; exact ⟨rfl, rfl⟩
  · rw [if_neg h, mir_per]
    exact ⟨fun h' => absurd rfl h', fun h' => absurd h'.2.2 h⟩

theorem bndFlag_mir (hn : n ≤ 3) (d : Domain n α) (k j : Fin n) (s t : Side) (hi : d.Imaging k s) :
    d.bndFlag k s &&& Flags.mirror_bound_flags (dimFlag j) t ≠ 0 ↔
      j = k ∧ t = s ∧ d.side k s = .mirror := by
  unfold Domain.bndFlag
  by_cases h : d.side k s = .periodic
  · rw [if_pos h, per_mir]
    exact ⟨fun h' => absurd rfl h', fun h' => by rw [h] at h'; simp at h'⟩
  · rw [if_neg h, mir_mir]
    constructor
    · rintro ⟨h1, h2⟩; exact ⟨(dimFlag_inj hn h1).symm, h2.symm, hi.resolve_left h⟩
    · rintro ⟨rfl, rfl, -⟩; exact ⟨rfl, rfl⟩

/-! ### Images -/

theorem isBndImage_refl (d : Domain n α) (p : GPart n α τ τ') (hp : p.IsReal) :
    IsBndImage d (fun _ => none) p p where
  r := rfl
  v := fun k => by simp [Domain.imageSign]
  m := rfl
  h := rfl
  th := rfl
  start := ⟨rfl, rfl, rfl⟩
  periodic := fun k s => by simp [real_flags hp (per_any _ _)]
  mirror := fun k s => by simp [real_flags hp (mir_any _ _)]
  other := fun _ _ _ => Iff.rfl

theorem imagePos_update_of_ne (d : Domain n α) (σ : Fin n → Option Side) (x : Vec n α) {j k : Fin n}
    (o : Option Side) (h : k ≠ j) : d.imagePos (Function.update σ j o) x k = d.imagePos σ x k := by
  simp [Domain.imagePos, Function.update_of_ne h]

theorem imageSign_update_of_ne (d : Domain n α) (σ : Fin n → Option Side) {j k : Fin n}
    (o : Option Side) (h : k ≠ j) :
    d.imageSign (Function.update σ j o) k = d.imageSign σ k := by
  simp [Domain.imageSign, Function.update_of_ne h]

theorem imagePos_none (d : Domain n α) {σ : Fin n → Option Side} (x : Vec n α) {k : Fin n}
    (h : σ k = none) : d.imagePos σ x k = x k := by simp [Domain.imagePos, h]

theorem imageSign_none (d : Domain n α) {σ : Fin n → Option Side} {k : Fin n}
    (h : σ k = none) : d.imageSign σ k = 1 := by simp [Domain.imageSign, h]

/-- coordinate of the image across one side -/
def Domain.sidePos (d : Domain n α) (k : Fin n) (s : Side) (x : α) : α :=
  if d.side k s = .mirror then 2 * (if s = 0 then d.min k else d.max k) - x
  else if s = 0 then x + d.size k else x - d.size k

def Domain.sideVel (d : Domain n α) (k : Fin n) (s : Side) (x : α) : α :=
  if d.side k s = .mirror then -x else x

theorem imagePos_update_self (d : Domain n α) (σ : Fin n → Option Side) (x : Vec n α) (j : Fin n)
    (s : Side) : d.imagePos (Function.update σ j (some s)) x j = d.sidePos j s (x j) := by
  simp [Domain.imagePos, Domain.sidePos]

theorem imageSign_update_self (d : Domain n α) (σ : Fin n → Option Side) (j : Fin n)
    (s : Side) (x : α) : d.imageSign (Function.update σ j (some s)) j * x = d.sideVel j s x := by
  simp only [Domain.imageSign, Domain.sideVel, Function.update_self]
  split_ifs <;> ring

/-- labels of the ghosts: original particle and choice of sides -/
abbrev Lab (n : ℕ) := ℕ × (Fin n → Option Side)

/-- label of the particle with index `i` -/
def labOf (N : ℕ) (L : List (Lab n)) (i : ℕ) : Option (Lab n) :=
  if i < N then some (i, fun _ => none) else L[i - N]?

theorem labOf_append {N : ℕ} {L : List (Lab n)} {i : ℕ} {x : Lab n} (L' : List (Lab n))
    (h : labOf N L i = some x) : labOf N (L ++ L') i = some x := by
  unfold labOf at h ⊢
  split_ifs at h ⊢ with hi
  · exact h
  · rw [List.getElem?_append_left (List.getElem?_eq_some_iff.mp h).1]; exact h

theorem labOf_lt {N : ℕ} {L : List (Lab n)} {i : ℕ} {x : Lab n}
    (h : labOf N L i = some x) : i < N + L.length := by
  unfold labOf at h
  split_ifs at h with hi
  · omega
  · have := (List.getElem?_eq_some_iff.mp h).1; omega

/-- the arrays hold the real particles `p0` and behind them ghosts with the labels `L` -/
structure GhostInv (d : Domain n α) (p0 : ℕ → GPart n α τ τ') (N : ℕ) (s : HState n α τ τ')
    (L : List (Lab n)) : Prop where
  nh : s.Nhydro = N
  ng : s.Nghost = L.length
  real : ∀ i, i < N → s.part i = p0 i
  img : ∀ i x, labOf N L i = some x → x.1 < N ∧ IsBndImage d x.2 (p0 x.1) (s.part i)
  chain : ∀ i x, L[i]? = some x → (s.part (N + i)).flags &&& Flags.active = 0 ∧
    ∃ k sd, d.Imaging k sd ∧ x.2 k = some sd ∧ (∀ j, k < j → x.2 j = none) ∧
      (s.part (N + i)).iorig < N + i ∧
      labOf N L (s.part (N + i)).iorig = some (x.1, Function.update x.2 k none)

theorem update_update_none {σ : Fin n → Option Side} {j : Fin n} (h : σ j = none) (o : Option Side) :
    Function.update (Function.update σ j o) j none = σ := by
  funext k
  by_cases hk : k = j
  · subst hk; simp [h]
  · simp [Function.update_of_ne hk]

theorem createGhost_inv (hn : n ≤ 3) {d : Domain n α} {p0 : ℕ → GPart n α τ τ'} {N : ℕ}
    {s : HState n α τ τ'} {L : List (Lab n)} (h : GhostInv d p0 N s L) {i o : ℕ}
    {σ : Fin n → Option Side} (hi : labOf N L i = some (o, σ)) {j : Fin n}
    (hj : ∀ j', j ≤ j' → σ j' = none) (sd : Side) (him : d.Imaging j sd) :
    GhostInv d p0 N (s.createGhost i j (d.bndFlag j sd) (d.sidePos j sd ((s.part i).r j))
      (d.sideVel j sd ((s.part i).v j))) (L ++ [(o, Function.update σ j (some sd))]) := by
  have hlt := labOf_lt hi
  obtain ⟨ho, hI⟩ := h.img i _ hi
  simp only at ho hI
  have hjj : σ j = none := hj j le_rfl
  have hnew : s.Nhydro + s.Nghost = N + L.length := by rw [h.nh, h.ng]
  have hkeep : ∀ x, x < N + L.length → (s.createGhost i j (d.bndFlag j sd)
      (d.sidePos j sd ((s.part i).r j)) (d.sideVel j sd ((s.part i).v j))).part x = s.part x := by
    intro x hx
    simp only [HState.createGhost, hnew]
    rw [Function.update_of_ne (by omega)]
  have hat : (s.createGhost i j (d.bndFlag j sd)
      (d.sidePos j sd ((s.part i).r j)) (d.sideVel j sd ((s.part i).v j))).part (N + L.length) =
      { (s.part (N + L.length)) with
        r := Function.update (s.part i).r j (d.sidePos j sd ((s.part i).r j))
        v := Function.update (s.part i).v j (d.sideVel j sd ((s.part i).v j))
        a := (s.part i).a
        r0 := (s.part i).r0
        v0 := (s.part i).v0
        a0 := (s.part i).a0
        m := (s.part i).m
        h := (s.part i).h
        th := (s.part i).th
        flags := Flags.set (Flags.unset (s.part i).flags Flags.active) (d.bndFlag j sd)
        iorig := i } := by
    simp only [HState.createGhost, hnew, Function.update_self]
  refine ⟨h.nh, by simp [HState.createGhost, h.ng], fun x hx => ?_, fun x y hxy => ?_,
    fun x y hxy => ?_⟩
  · rw [hkeep x (by omega)]; exact h.real x hx
  · have hx := labOf_lt hxy
    rw [List.length_append, List.length_singleton] at hx
    by_cases hxl : x = N + L.length
    · subst hxl
      have : y = (o, Function.update σ j (some sd)) := by
        simp [labOf] at hxy; exact hxy.symm
      subst this
      refine ⟨ho, ?_⟩
      rw [hat]
      refine ⟨?_, ?_, hI.m, hI.h, hI.th, hI.start, ?_, ?_, ?_⟩
      · funext k
        by_cases hk : k = j
        · subst hk
          simp only [Function.update_self]
          rw [imagePos_update_self, hI.r, imagePos_none d _ hjj]
        · simp only [Function.update_of_ne hk]
          rw [imagePos_update_of_ne d σ _ _ hk, hI.r]
      · intro k
        by_cases hk : k = j
        · subst hk
          simp only [Function.update_self]
          rw [imageSign_update_self, hI.v, imageSign_none d hjj, one_mul]
        · simp only [Function.update_of_ne hk]
          rw [imageSign_update_of_ne d σ _ hk, hI.v]
      · intro k t
        simp only [Flags.set]
        rw [and_or_ne_zero, unset_and (per_active _ _), hI.periodic k t, bndFlag_per hn]
        by_cases hk : k = j
        · subst hk; simp only [hjj, Function.update_self, reduceCtorEq, false_and, false_or, true_and,
            Option.some.injEq]
          constructor
          · rintro ⟨rfl, h2⟩; exact ⟨rfl, h2⟩
          · rintro ⟨rfl, h2⟩; exact ⟨rfl, h2⟩
        · simp only [Function.update_of_ne hk, hk, false_and, or_false]
      · intro k t
        simp only [Flags.set]
        rw [and_or_ne_zero, unset_and (mir_active _ _), hI.mirror k t, bndFlag_mir hn _ _ _ _ _ him]
        by_cases hk : k = j
        · subst hk; simp only [hjj, Function.update_self, reduceCtorEq, false_and, false_or, true_and,
            Option.some.injEq]
          constructor
          · rintro ⟨rfl, h2⟩; exact ⟨rfl, h2⟩
          · rintro ⟨rfl, h2⟩; exact ⟨rfl, h2⟩
        · simp only [Function.update_of_ne hk, hk, false_and, or_false]
      · intro b hb1 hb2
        simp only [Flags.set]
        rw [and_or_ne_zero, unset_and hb2, hI.other b hb1 hb2,
          disjoint_of_any hb1 (bndFlag_any d j sd)]
        simp
    · rw [hkeep x (by omega)]
      refine h.img x y ?_
      unfold labOf at hxy ⊢
      split_ifs at hxy ⊢ with hxN
      · exact hxy
      · rwa [List.getElem?_append_left (by omega)] at hxy
  · by_cases hxl : x < L.length
    · rw [List.getElem?_append_left hxl] at hxy
      obtain ⟨h1, k, t, h2, h3, h4, h5, h6⟩ := h.chain x y hxy
      rw [hkeep _ (by omega)]
      exact ⟨h1, k, t, h2, h3, h4, h5, labOf_append _ h6⟩
    · have hx := (List.getElem?_eq_some_iff.mp hxy).1
      rw [List.length_append, List.length_singleton] at hx
      obtain rfl : x = L.length := by omega
      rw [List.getElem?_concat_length] at hxy
      obtain rfl := Option.some.inj hxy
      rw [hat]
      refine ⟨?_, j, sd, him, by simp, fun j' hj' => ?_, by simpa using hlt, ?_⟩
      · by_contra hc
        simp only [Flags.set] at hc
        rw [← ne_eq, and_or_ne_zero, unset_self, bndFlag_active] at hc
        simp at hc
      · simp only [Function.update_of_ne (ne_of_gt hj')]
        exact hj j' hj'.le
      · simp only [update_update_none hjj]
        exact labOf_append _ hi

/-- sides across which `CheckBoundaryGhostParticle` creates an image -/
def ghostSides (d : Domain n α) (grange tghost : α) (j : Fin n) (p : GPart n α τ τ') : List Side :=
  (if p.r j + min 0 (p.v j * tghost) < d.min j + grange * p.h ∧ d.Imaging j 0 then [0] else []) ++
  (if p.r j + max 0 (p.v j * tghost) > d.max j - grange * p.h ∧ d.Imaging j 1 then [1] else [])

theorem ghostSides_nodup (d : Domain n α) (grange tghost : α) (j : Fin n) (p : GPart n α τ τ') :
    (ghostSides d grange tghost j p).Nodup := by
  unfold ghostSides; split_ifs <;> simp

theorem ghostSides_open {d : Domain n α} (grange tghost : α) {j : Fin n} (p : GPart n α τ τ')
    (h : ¬ (d.lhs j ≠ .open_ ∨ d.rhs j ≠ .open_)) : ghostSides d grange tghost j p = [] := by
  push Not at h
  simp [ghostSides, Domain.Imaging, Domain.side, h.1, h.2]

/-- one pair of tests in `CheckBoundaryGhostParticle` -/
theorem createIf_inv (hn : n ≤ 3) {d : Domain n α} {p0 : ℕ → GPart n α τ τ'} {N : ℕ}
    {s : HState n α τ τ'} {L : List (Lab n)} (h : GhostInv d p0 N s L) {i o : ℕ}
    {σ : Fin n → Option Side} (hi : labOf N L i = some (o, σ)) {j : Fin n}
    (hj : ∀ j', j ≤ j' → σ j' = none) (sd : Side) (c : Prop) [Decidable c] (r v : α)
    (hr : r = (p0 o).r j) (hv : v = (p0 o).v j) :
    GhostInv d p0 N (if c then
      let s := if d.side j sd = .periodic then
          s.createGhost i j (Flags.periodic_bound_flags (dimFlag j) sd)
            (if sd = 0 then r + d.size j else r - d.size j) v else s
      if d.side j sd = .mirror then
        s.createGhost i j (Flags.mirror_bound_flags (dimFlag j) sd)
          (2 * (if sd = 0 then d.min j else d.max j) - r) (-v) else s
      else s)
      (L ++ if c ∧ d.Imaging j sd then [(o, Function.update σ j (some sd))] else []) := by
  obtain ⟨ho, hI⟩ := h.img i _ hi
  have hjj : σ j = none := hj j le_rfl
  have er : (s.part i).r j = r := by
    rw [hI.r]; simp only; rw [imagePos_none d _ hjj, hr]
  have ev : (s.part i).v j = v := by
    rw [hI.v]; simp only; rw [imageSign_none d hjj, one_mul, hv]
  by_cases hc : c
  · rw [if_pos hc]
    by_cases hp : d.side j sd = .periodic
    · have him : d.Imaging j sd := Or.inl hp
      rw [if_pos (show c ∧ d.Imaging j sd from ⟨hc, him⟩)]
      have := createGhost_inv hn h hi hj sd him
      simp only [Domain.bndFlag, Domain.sidePos, Domain.sideVel, hp, er, ev, if_true, reduceCtorEq,
        if_false] at this ⊢
      exact this
    · by_cases hm : d.side j sd = .mirror
      · have him : d.Imaging j sd := Or.inr hm
        rw [if_pos (show c ∧ d.Imaging j sd from ⟨hc, him⟩)]
        have := createGhost_inv hn h hi hj sd him
        simp only [Domain.bndFlag, Domain.sidePos, Domain.sideVel, hm, er, ev, if_true, reduceCtorEq,
          if_false] at this ⊢
        exact this
      · have him : ¬ d.Imaging j sd := by rintro (h | h); exact hp h; exact hm h
        simp only [hp, hm, if_false, him, and_false, List.append_nil]
        exact h
  · rw [if_neg hc]
    simp only [hc, false_and, if_false, List.append_nil]
    exact h

theorem checkGhost_inv (hn : n ≤ 3) {d : Domain n α} {p0 : ℕ → GPart n α τ τ'} {N : ℕ}
    {s : HState n α τ τ'} {L : List (Lab n)} (h : GhostInv d p0 N s L) {i o : ℕ}
    {σ : Fin n → Option Side} (hi : labOf N L i = some (o, σ)) {j : Fin n}
    (hj : ∀ j', j ≤ j' → σ j' = none) (grange tghost : α) :
    GhostInv d p0 N (s.checkGhost d grange tghost j i)
      (L ++ (ghostSides d grange tghost j (p0 o)).map fun sd => (o, Function.update σ j (some sd))) := by
  obtain ⟨ho, hI⟩ := h.img i _ hi
  have hjj : σ j = none := hj j le_rfl
  have er : (s.part i).r j = (p0 o).r j := by
    rw [hI.r]; simp only; rw [imagePos_none d _ hjj]
  have ev : (s.part i).v j = (p0 o).v j := by
    rw [hI.v]; simp only; rw [imageSign_none d hjj, one_mul]
  have eh : (s.part i).h = (p0 o).h := hI.h
  have h1 := createIf_inv hn h hi hj 0 ((p0 o).r j + min 0 ((p0 o).v j * tghost) <
    d.min j + grange * (p0 o).h) _ _ rfl rfl
  have h2 := createIf_inv hn h1 (labOf_append _ hi) hj 1 ((p0 o).r j + max 0 ((p0 o).v j * tghost) >
    d.max j - grange * (p0 o).h) _ _ rfl rfl
  have e : (ghostSides d grange tghost j (p0 o)).map (fun sd => (o, Function.update σ j (some sd))) =
      (if (p0 o).r j + min 0 ((p0 o).v j * tghost) < d.min j + grange * (p0 o).h ∧ d.Imaging j 0 then
        [(o, Function.update σ j (some 0))] else []) ++
      (if (p0 o).r j + max 0 ((p0 o).v j * tghost) > d.max j - grange * (p0 o).h ∧ d.Imaging j 1 then
        [(o, Function.update σ j (some 1))] else []) := by
    unfold ghostSides
    rw [List.map_append]
    congr 1 <;> split_ifs <;> rfl
  rw [e, ← List.append_assoc]
  simp only [HState.checkGhost, er, ev, eh]
  simpa only [Domain.side, if_true, Fin.isValue, one_ne_zero, if_false, Fin.one_eq_zero_iff,
    OfNat.ofNat_ne_one, Nat.succ_ne_self] using h2

end Gandalf
