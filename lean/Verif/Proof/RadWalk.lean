import Verif.Proof.RadBuild

/-! Walking through the radiation tree: descent, exit faces, photon packets. -/

set_option autoImplicit false
set_option linter.unusedSectionVars false

namespace Gandalf.RadTree
open KD

variable {n : ℕ} {α : Type} [NeZero n] [Field α] [LinearOrder α]

/-- `c` is a cell of height `d` in the subtree of the cell `a` of height `D` -/
inductive Node : (D a d c : ℕ) → Prop
  | self (D a : ℕ) : Node D a D a
  | left {D a d c : ℕ} : Node D (a + 1) d c → Node (D + 1) a d c
  | right {D a d c : ℕ} : Node D (a + 1 + fullSize D) d c → Node (D + 1) a d c

theorem fs_pos (d : ℕ) : 0 < fullSize d := by
  have := fullSize_add_one d
  have h2 : 2 ≤ 2 ^ (d + 1) := by
    calc 2 = 2 ^ 1 := rfl
      _ ≤ 2 ^ (d+1) := Nat.pow_le_pow_right (by omega) (by omega)
  omega

theorem fs_le {d d' : ℕ} (h : fullSize d ≤ fullSize d') : d ≤ d' := by
  by_contra hc
  have h1 := fullSize_add_one d
  have h2 := fullSize_add_one d'
  have : 2 ^ (d' + 1) < 2 ^ (d + 1) := Nat.pow_lt_pow_right (by omega) (by omega)
  omega

theorem Node.snocL {D a d c : ℕ} (h : Node D a (d + 1) c) : Node D a d (c + 1) := by
  generalize hd : d + 1 = d1 at h
  induction h with
  | self D a => subst hd; exact .left (.self _ _)
  | left _ ih => exact .left (ih hd)
  | right _ ih => exact .right (ih hd)

theorem Node.snocR {D a d c : ℕ} (h : Node D a (d + 1) c) : Node D a d (c + 1 + fullSize d) := by
  generalize hd : d + 1 = d1 at h
  induction h with
  | self D a => subst hd; exact .right (.self _ _)
  | left _ ih => exact .left (ih hd)
  | right _ ih => exact .right (ih hd)

theorem Node.range {D a d c : ℕ} (h : Node D a d c) : a ≤ c ∧ c + fullSize d ≤ a + fullSize D := by
  induction h with
  | self D a => omega
  | @left D a d c _ ih => have := fullSize_succ D; omega
  | @right D a d c _ ih => have := fullSize_succ D; omega

theorem Node.le {D a d c : ℕ} (h : Node D a d c) : d ≤ D := by
  induction h with
  | self D a => omega
  | left _ ih => omega
  | right _ ih => omega

theorem Node.laid {t : KD.Links} {ltot D a d c : ℕ} (h : Node D a d c) :
    ∀ g, LaidOut t ltot D a g → ∃ g', LaidOut t ltot d c g' := by
  induction h with
  | self D a => intro g hg; exact ⟨g, hg⟩
  | left _ ih => intro g hg; exact ih _ hg.2.2.2.2.2.1
  | right _ ih => intro g hg; exact ih _ hg.2.2.2.2.2.2

theorem laid_level {t : KD.Links} {ltot d c g : ℕ} (h : LaidOut t ltot d c g) : t.level c + d = ltot := by
  cases d with
  | zero => exact h.1
  | succ d => exact h.1

theorem exists_node : ∀ (D a c : ℕ), a ≤ c → c < a + fullSize D → ∃ d, Node D a d c := by
  intro D
  induction D with
  | zero =>
    intro a c h1 h2
    have := fullSize_zero
    obtain rfl : a = c := by omega
    exact ⟨0, .self _ _⟩
  | succ D ih =>
    intro a c h1 h2
    have hs := fullSize_succ D
    by_cases e : c = a
    · subst e; exact ⟨_, .self _ _⟩
    · by_cases h : c < a + 1 + fullSize D
      · obtain ⟨d, hd⟩ := ih (a+1) c (by omega) h
        exact ⟨d, .left hd⟩
      · obtain ⟨d, hd⟩ := ih (a+1+fullSize D) c (by omega) (by omega)
        exact ⟨d, .right hd⟩

/-- The geometrical part of `Good`. -/
def Tiled (big : α) (cells : ℕ → Cell n α) : (d c : ℕ) → Prop
  | 0, _ => True
  | d + 1, c =>
    0 < (cells (c + 1 + fullSize d)).N ∧
    (cells c).N = (cells (c + 1)).N + (cells (c + 1 + fullSize d)).N ∧
    ((0 < (cells (c + 1)).N ∧ ∃ x, (cells c).bbmin (cells c).kdiv ≤ x ∧ x ≤ (cells c).bbmax (cells c).kdiv ∧
        (cells (c + 1)).bbmin = (cells c).bbmin ∧
        (cells (c + 1)).bbmax = Function.update (cells c).bbmax (cells c).kdiv x ∧
        (cells (c + 1 + fullSize d)).bbmin = Function.update (cells c).bbmin (cells c).kdiv x ∧
        (cells (c + 1 + fullSize d)).bbmax = (cells c).bbmax) ∨
     ((cells (c + 1)).N = 0 ∧ d = 0 ∧ (cells (c + 1)).bbmax (cells c).kdiv = -big ∧
        (cells (c + 1 + fullSize d)).bbmin = (cells c).bbmin ∧
        (cells (c + 1 + fullSize d)).bbmax = (cells c).bbmax)) ∧
    Tiled big cells d (c + 1) ∧ Tiled big cells d (c + 1 + fullSize d)

theorem Good.tiled (big : α) (cells : ℕ → Cell n α) : ∀ (d c : ℕ), Good big cells d c → Tiled big cells d c := by
  intro d
  induction d with
  | zero => intro c _; trivial
  | succ d ih =>
    intro c h
    obtain ⟨h1, h2, h3, h4, h5⟩ := h
    refine ⟨h1, h2, ?_, ih _ h4, ih _ h5⟩
    rcases h3 with ⟨a, x, b1, b2, b3, b4, b5, b6, _⟩ | ⟨a, b1, b2, b3, b4, _⟩
    · exact Or.inl ⟨a, x, b1, b2, b3, b4, b5, b6⟩
    · exact Or.inr ⟨a, b1, b2, b3, b4⟩

/-- same boxes, same axes, same counts -/
def SameBoxes (f g : ℕ → Cell n α) : Prop :=
  ∀ c, (f c).kdiv = (g c).kdiv ∧ (f c).N = (g c).N ∧ (f c).bbmin = (g c).bbmin ∧ (f c).bbmax = (g c).bbmax

theorem Tiled.congr {big : α} {f g : ℕ → Cell n α} (hfg : SameBoxes f g) : ∀ (d c : ℕ),
    Tiled big f d c → Tiled big g d c := by
  intro d
  induction d with
  | zero => intro c _; trivial
  | succ d ih =>
    intro c h
    unfold Tiled at h ⊢
    obtain ⟨a1, a2, a3, a4⟩ := hfg c
    obtain ⟨b1, b2, b3, b4⟩ := hfg (c + 1)
    obtain ⟨c1, c2, c3, c4⟩ := hfg (c + 1 + fullSize d)
    rw [a1, a2, a3, a4, b2, b3, b4, c2, c3, c4] at h
    exact ⟨h.1, h.2.1, h.2.2.1, ih _ h.2.2.2.1, ih _ h.2.2.2.2⟩

theorem Node.tiled {big : α} {cells : ℕ → Cell n α} {D a d c : ℕ} (h : Node D a d c) :
    Tiled big cells D a → Tiled big cells d c := by
  induction h with
  | self D a => exact id
  | left _ ih => intro hg; exact ih hg.2.2.2.1
  | right _ ih => intro hg; exact ih hg.2.2.2.2

theorem Node.good {big : α} {cells : ℕ → Cell n α} {D a d c : ℕ} (h : Node D a d c) :
    Good big cells D a → Good big cells d c := by
  induction h with
  | self D a => exact id
  | left _ ih => intro hg; exact ih hg.2.2.2.1
  | right _ ih => intro hg; exact ih hg.2.2.2.2

/-- the box of `c` lies in that of `a` -/
def SubBox (c a : Cell n α) : Prop := ∀ k, a.bbmin k ≤ c.bbmin k ∧ c.bbmax k ≤ a.bbmax k

theorem SubBox.refl (c : Cell n α) : SubBox c c := fun _ => ⟨le_rfl, le_rfl⟩

theorem SubBox.trans {a b c : Cell n α} (h : SubBox a b) (h' : SubBox b c) : SubBox a c :=
  fun k => ⟨(h' k).1.trans (h k).1, (h k).2.trans (h' k).2⟩

theorem tiled_left {big : α} {cells : ℕ → Cell n α} {d c : ℕ} (h : Tiled big cells (d + 1) c)
    (h1 : 0 < (cells (c + 1)).N) : SubBox (cells (c + 1)) (cells c) := by
  obtain ⟨_, _, h3, _⟩ := h
  rcases h3 with ⟨_, x, b1, b2, b3, b4, _⟩ | ⟨a, _⟩
  · intro k
    rw [b3, b4]
    refine ⟨le_rfl, ?_⟩
    by_cases hk : k = (cells c).kdiv
    · subst hk; rw [Function.update_self]; exact b2
    · rw [Function.update_of_ne hk]
  · omega

theorem tiled_right {big : α} {cells : ℕ → Cell n α} {d c : ℕ} (h : Tiled big cells (d + 1) c) :
    SubBox (cells (c + 1 + fullSize d)) (cells c) := by
  obtain ⟨_, _, h3, _⟩ := h
  rcases h3 with ⟨_, x, b1, b2, _, _, b5, b6⟩ | ⟨_, _, _, b5, b6⟩
  · intro k
    rw [b5, b6]
    refine ⟨?_, le_rfl⟩
    by_cases hk : k = (cells c).kdiv
    · subst hk; rw [Function.update_self]; exact b1
    · rw [Function.update_of_ne hk]
  · intro k; rw [b5, b6]; exact ⟨le_rfl, le_rfl⟩

theorem node_pos {big : α} {cells : ℕ → Cell n α} {D a d c : ℕ} (h : Node D a d c)
    (hc : 0 < (cells c).N) : Tiled big cells D a → 0 < (cells a).N := by
  cases h with
  | self => intro _; exact hc
  | left _ => intro ht; have := ht.1; have := ht.2.1; omega
  | right _ => intro ht; have := ht.1; have := ht.2.1; omega

theorem node_sub {big : α} {cells : ℕ → Cell n α} {D a d c : ℕ} (h : Node D a d c)
    (hc : 0 < (cells c).N) : Tiled big cells D a → SubBox (cells c) (cells a) := by
  induction h with
  | self D a => intro _; exact SubBox.refl _
  | left h1 ih =>
    intro ht
    exact (ih hc ht.2.2.2.1).trans (tiled_left ht (node_pos h1 hc ht.2.2.2.1))
  | right h1 ih =>
    intro ht
    exact (ih hc ht.2.2.2.2).trans (tiled_right ht)

theorem Node.trans {L D a d c : ℕ} {b : ℕ} (h : Node L b D a) (h' : Node D a d c) : Node L b d c := by
  induction h with
  | self => exact h'
  | left _ ih => exact .left (ih h')
  | right _ ih => exact .right (ih h')

theorem node_proper {big : α} {cells : ℕ → Cell n α} {D a d c : ℕ} (h : Node D a d c)
    (hc : 0 < (cells c).N) : Tiled big cells D a → (∀ k, (cells a).bbmin k ≤ (cells a).bbmax k) →
    ∀ k, (cells c).bbmin k ≤ (cells c).bbmax k := by
  induction h with
  | self D a => intro _ h; exact h
  | @left D a d c h1 ih =>
    intro ht hp
    have hN := node_pos h1 hc ht.2.2.2.1
    refine ih hc ht.2.2.2.1 ?_
    rcases ht.2.2.1 with ⟨_, x, b1, b2, b3, b4, _⟩ | ⟨h0, _⟩
    · intro k
      rw [b3, b4]
      by_cases hk : k = (cells a).kdiv
      · subst hk; rw [Function.update_self]; exact b1
      · rw [Function.update_of_ne hk]; exact hp k
    · omega
  | @right D a d c h1 ih =>
    intro ht hp
    refine ih hc ht.2.2.2.2 ?_
    rcases ht.2.2.1 with ⟨_, x, b1, b2, _, _, b3, b4⟩ | ⟨_, _, _, b3, b4⟩
    · intro k
      rw [b3, b4]
      by_cases hk : k = (cells a).kdiv
      · subst hk; rw [Function.update_self]; exact b2
      · rw [Function.update_of_ne hk]; exact hp k
    · intro k; rw [b3, b4]; exact hp k

theorem SubBox.inBox {a b : Cell n α} (h : SubBox a b) {p : Vec n α} (hp : InBox a p) : InBox b p :=
  fun k => ⟨(h k).1.trans (hp k).1, (hp k).2.trans (h k).2⟩

/-- the descent ends in a cell of the wanted level which holds particles and contains the point -/
theorem descend_spec {t : KD.Links} {ltot : ℕ} {big : α} {cells : ℕ → Cell n α} (level j : ℕ)
    (hj : level + j = ltot) (p : Vec n α) (hbig : ∀ k, -big ≤ p k) :
    ∀ (d c g fuel : ℕ), LaidOut t ltot d c g → Tiled big cells d c → 0 < (cells c).N →
      InBox (cells c) p → j ≤ d → d < fuel →
      ∃ c', descend t cells level p fuel c = some c' ∧ Node d c j c' ∧ 0 < (cells c').N ∧
        InBox (cells c') p := by
  intro d
  induction d with
  | zero =>
    intro c g fuel hlo _ hN hin hjd hf
    obtain ⟨fuel, rfl⟩ : ∃ f, fuel = f + 1 := ⟨fuel - 1, by omega⟩
    have := laid_level hlo
    obtain rfl : j = 0 := by omega
    rw [descend, if_neg (by omega)]
    exact ⟨c, rfl, .self _ _, hN, hin⟩
  | succ d ih =>
    intro c g fuel hlo ht hN hin hjd hf
    obtain ⟨fuel, rfl⟩ : ∃ f, fuel = f + 1 := ⟨fuel - 1, by omega⟩
    have hlev := laid_level hlo
    rw [descend]
    rcases Nat.eq_or_lt_of_le hjd with e | e
    · rw [if_neg (by omega)]
      exact ⟨c, rfl, by rw [e]; exact .self _ _, hN, hin⟩
    · rw [if_pos (by omega)]
      obtain ⟨_, _, _, hc2, _, lo1, lo2⟩ := hlo
      rw [hc2]
      simp only
      obtain ⟨t1, t2, t3, t4, t5⟩ := ht
      by_cases hlt : p (cells c).kdiv < (cells (c + 1)).bbmax (cells c).kdiv
      · rw [if_pos hlt]
        rcases t3 with ⟨h1, x, b1, b2, b3, b4, _⟩ | ⟨h1, _, b2, _⟩
        · obtain ⟨c', e1, e2, e3, e4⟩ := ih (c+1) _ fuel lo1 t4 h1 (by
            intro k
            rw [b3, b4]
            refine ⟨(hin k).1, ?_⟩
            by_cases hk : k = (cells c).kdiv
            · subst hk
              rw [b4, Function.update_self] at hlt
              rw [Function.update_self]; exact hlt.le
            · rw [Function.update_of_ne hk]; exact (hin k).2) (by omega) (by omega)
          exact ⟨c', e1, .left e2, e3, e4⟩
        · rw [b2] at hlt
          exact absurd (hbig _) (not_le.mpr hlt)
      · rw [if_neg hlt]
        obtain ⟨c', e1, e2, e3, e4⟩ := ih (c+1+fullSize d) _ fuel lo2 t5 t1 (by
          rcases t3 with ⟨h1, x, b1, b2, b3, b4, b5, b6⟩ | ⟨h1, _, b2, b5, b6⟩
          · intro k
            rw [b5, b6]
            refine ⟨?_, (hin k).2⟩
            by_cases hk : k = (cells c).kdiv
            · subst hk
              rw [b4, Function.update_self] at hlt
              rw [Function.update_self]; exact not_lt.mp hlt
            · rw [Function.update_of_ne hk]; exact (hin k).1
          · intro k; rw [b5, b6]; exact hin k) (by omega) (by omega)
        exact ⟨c', e1, .right e2, e3, e4⟩

/-- a point strictly inside a cell of the wanted level leads to that cell and no other -/
theorem descend_unique {t : KD.Links} {ltot : ℕ} {big : α} {cells : ℕ → Cell n α} (level j : ℕ)
    (hj : level + j = ltot) (p : Vec n α) (hbig : ∀ k, -big ≤ p k) {D a d x : ℕ} (h : Node D a d x) :
    ∀ (g fuel : ℕ), d = j → LaidOut t ltot D a g → Tiled big cells D a → 0 < (cells x).N →
      Inside (cells x) p → D < fuel → descend t cells level p fuel a = some x := by
  induction h with
  | self D a =>
    intro g fuel e hlo _ _ _ hf
    obtain ⟨fuel, rfl⟩ : ∃ f, fuel = f + 1 := ⟨fuel - 1, by omega⟩
    have := laid_level hlo
    rw [descend, if_neg (by omega)]
  | @left D a d x h1 ih =>
    intro g fuel e hlo ht hN hin hf
    obtain ⟨fuel, rfl⟩ : ∃ f, fuel = f + 1 := ⟨fuel - 1, by omega⟩
    have hlev := laid_level hlo
    have hle := h1.le
    obtain ⟨_, _, _, hc2, _, lo1, lo2⟩ := hlo
    rw [descend, if_pos (by omega), hc2]
    simp only
    have hsub := node_sub h1 hN ht.2.2.2.1
    rw [if_pos ((hin _).2.trans_le (hsub _).2)]
    exact ih _ fuel e lo1 ht.2.2.2.1 hN hin (by omega)
  | @right D a d x h1 ih =>
    intro g fuel e hlo ht hN hin hf
    obtain ⟨fuel, rfl⟩ : ∃ f, fuel = f + 1 := ⟨fuel - 1, by omega⟩
    have hlev := laid_level hlo
    have hle := h1.le
    obtain ⟨_, _, _, hc2, _, lo1, lo2⟩ := hlo
    rw [descend, if_pos (by omega), hc2]
    simp only
    have hsub := node_sub h1 hN ht.2.2.2.2
    have hnot : ¬ p (cells a).kdiv < (cells (a + 1)).bbmax (cells a).kdiv := by
      rcases ht.2.2.1 with ⟨h1, x, b1, b2, b3, b4, b5, b6⟩ | ⟨_, _, b2, _⟩
      · rw [b4, Function.update_self, not_lt]
        have h3 := (hsub (cells a).kdiv).1
        rw [b5, Function.update_self] at h3
        exact h3.trans (hin _).1.le
      · rw [b2, not_lt]; exact hbig _
    rw [if_neg hnot]
    exact ih _ fuel e lo2 ht.2.2.2.2 hN hin (by omega)

/-- the cells `c` (height `dc`) and `e` (height `de`) lie on the two sides of one division along `k`;
`e` on the right if `s` -/
def Sep (L : ℕ) (cells : ℕ → Cell n α) (dc c de e : ℕ) (s : Bool) (k : Fin n) : Prop :=
  ∃ d b, Node L 0 (d + 1) b ∧ (cells b).kdiv = k ∧
    if s then (b + 1 ≤ c ∧ c + fullSize dc ≤ b + 1 + fullSize d) ∧
        (b + 1 + fullSize d ≤ e ∧ e + fullSize de ≤ b + 1 + fullSize d + fullSize d)
    else (b + 1 ≤ e ∧ e + fullSize de ≤ b + 1 + fullSize d) ∧
        (b + 1 + fullSize d ≤ c ∧ c + fullSize dc ≤ b + 1 + fullSize d + fullSize d)

theorem Sep.sub {L : ℕ} {cells : ℕ → Cell n α} {dc c de e : ℕ} {s : Bool} {k : Fin n}
    (h : Sep L cells dc c de e s k) {dc' c' de' e' : ℕ} (h1 : c ≤ c' ∧ c' + fullSize dc' ≤ c + fullSize dc)
    (h2 : e ≤ e' ∧ e' + fullSize de' ≤ e + fullSize de) : Sep L cells dc' c' de' e' s k := by
  obtain ⟨d, b, hn, hk, hs⟩ := h
  refine ⟨d, b, hn, hk, ?_⟩
  cases s
  · simp only [Bool.false_eq_true, if_false] at hs ⊢; omega
  · simp only [if_true] at hs ⊢; omega

/-- What holds of the pointer behind a face (`FaceOK`, and where in the tree it points). -/
def FaceInv (L : ℕ) (cells : ℕ → Cell n α) (dc c : ℕ) (s : Bool) (k : Fin n) : Option ℕ → Prop
  | none => face (cells c) s k = face (cells 0) s k
  | some e => ∃ de, Node L 0 de e ∧ 0 < (cells e).N ∧ dc ≤ de ∧
      face (cells e) (!s) k = face (cells c) s k ∧
      (∀ j, j ≠ k → (cells e).bbmin j ≤ (cells c).bbmin j ∧ (cells c).bbmax j ≤ (cells e).bbmax j) ∧
      Sep L cells dc c de e s k

theorem FaceInv.mono {L : ℕ} {cells : ℕ → Cell n α} {dc c dc' c' : ℕ} {s : Bool} {k : Fin n}
    {o : Option ℕ} (h : FaceInv L cells dc c s k o) (hsub : SubBox (cells c') (cells c))
    (hf : face (cells c') s k = face (cells c) s k) (hd : dc' ≤ dc)
    (hr : c ≤ c' ∧ c' + fullSize dc' ≤ c + fullSize dc) : FaceInv L cells dc' c' s k o := by
  cases o with
  | none => exact hf.trans h
  | some e =>
    obtain ⟨de, h1, h2, h3, h4, h5, h6⟩ := h
    exact ⟨de, h1, h2, hd.trans h3, h4.trans hf.symm,
      fun j hj => ⟨(h5 j hj).1.trans (hsub j).1, (hsub j).2.trans (h5 j hj).2⟩, h6.sub hr ⟨le_rfl, le_rfl⟩⟩

/-- pointers of a cell are right if those of the cell above are -/
theorem face_down {big : α} {L : ℕ} {cells : ℕ → Cell n α} {D a d c : ℕ} (h : Node D a d c)
    (hc : 0 < (cells c).N) : Node L 0 D a → Good big cells D a →
    (∀ s k, FaceInv L cells D a s k ((cells a).exit s k)) →
    ∀ s k, FaceInv L cells d c s k ((cells c).exit s k) := by
  induction h with
  | self D a => intro _ _ h; exact h
  | @left D a d c h1 ih =>
    intro hn hg hF
    have htile := Good.tiled big cells _ _ hg
    have hN1 : 0 < (cells (a+1)).N := node_pos h1 hc htile.2.2.2.1
    refine ih hc hn.snocL hg.2.2.2.1 ?_
    have hs := fullSize_succ D
    have hsub := tiled_left htile hN1
    obtain ⟨g1, g2, g3, _⟩ := hg
    rcases g3 with ⟨_, x, b1, b2, b3, b4, b5, b6, b7, b8⟩ | ⟨h0, _⟩
    · intro s k
      rw [b7]
      by_cases hsk : s = true ∧ k = (cells a).kdiv
      · obtain ⟨rfl, rfl⟩ := hsk
        rw [Function.update_self, Function.update_self]
        refine ⟨D, hn.snocR, g1, le_rfl, ?_, ?_, ?_⟩
        · simp only [face, Bool.not_true, Bool.false_eq_true, if_false, if_true]
          rw [b4, b5, Function.update_self, Function.update_self]
        · intro j hj
          rw [b3, b4, b5, b6, Function.update_of_ne hj, Function.update_of_ne hj]
          exact ⟨le_rfl, le_rfl⟩
        · refine ⟨D, a, hn, rfl, ?_⟩
          simp only [if_true]; omega
      · have e : Function.update (cells a).exit true (Function.update ((cells a).exit true)
            (cells a).kdiv (some (a + 1 + fullSize D))) s k = (cells a).exit s k := by
          by_cases hs' : s = true
          · subst hs'
            rw [Function.update_self, Function.update_of_ne (fun h => hsk ⟨rfl, h⟩)]
          · rw [Function.update_of_ne hs']
        rw [e]
        refine (hF s k).mono hsub ?_ (by omega) (by omega)
        unfold face
        cases s
        · simp only [Bool.false_eq_true, if_false]; rw [b3]
        · simp only [if_true]; rw [b4, Function.update_of_ne (fun h => hsk ⟨rfl, h⟩)]
    · omega
  | @right D a d c h1 ih =>
    intro hn hg hF
    have htile := Good.tiled big cells _ _ hg
    refine ih hc hn.snocR hg.2.2.2.2 ?_
    have hs := fullSize_succ D
    have hsub := tiled_right htile
    obtain ⟨g1, g2, g3, _⟩ := hg
    rcases g3 with ⟨hN1, x, b1, b2, b3, b4, b5, b6, b7, b8⟩ | ⟨h0, _, _, b5, b6, b7⟩
    · intro s k
      rw [b8]
      by_cases hsk : s = false ∧ k = (cells a).kdiv
      · obtain ⟨rfl, rfl⟩ := hsk
        rw [Function.update_self, Function.update_self]
        refine ⟨D, hn.snocL, hN1, le_rfl, ?_, ?_, ?_⟩
        · simp only [face, Bool.not_false, Bool.false_eq_true, if_false, if_true]
          rw [b4, b5, Function.update_self, Function.update_self]
        · intro j hj
          rw [b3, b4, b5, b6, Function.update_of_ne hj, Function.update_of_ne hj]
          exact ⟨le_rfl, le_rfl⟩
        · refine ⟨D, a, hn, rfl, ?_⟩
          simp only [Bool.false_eq_true, if_false]; omega
      · have e : Function.update (cells a).exit false (Function.update ((cells a).exit false)
            (cells a).kdiv (some (a + 1))) s k = (cells a).exit s k := by
          by_cases hs' : s = false
          · subst hs'
            rw [Function.update_self, Function.update_of_ne (fun h => hsk ⟨rfl, h⟩)]
          · rw [Function.update_of_ne hs']
        rw [e]
        refine (hF s k).mono hsub ?_ (by omega) (by omega)
        unfold face
        cases s
        · simp only [Bool.false_eq_true, if_false]
          rw [b5, Function.update_of_ne (fun h => hsk ⟨rfl, h⟩)]
        · simp only [if_true]; rw [b6]
    · intro s k
      rw [b7]
      refine (hF s k).mono hsub ?_ (by omega) (by omega)
      unfold face
      rw [b5, b6]

/-- narrowing an exit pointer keeps it right -/
theorem narrow_inv {t : KD.Links} {big : α} {L : ℕ} {cells : ℕ → Cell n α} {g0 : ℕ}
    (hlo : LaidOut t L L 0 g0) (ht : Tiled big cells L 0) {dc c : ℕ} (hc : Node L 0 dc c)
    (s : Bool) (k : Fin n) : ∀ (fuel e : ℕ), FaceInv L cells dc c s k (some e) →
      FaceInv L cells dc c s k (some (narrow t cells (t.level c) (cells c) s k fuel e)) := by
  intro fuel
  induction fuel with
  | zero => intro e h; exact h
  | succ fuel ih =>
    intro e h
    rw [narrow]
    obtain ⟨de, h1, h2, h3, h4, h5, h6⟩ := id h
    obtain ⟨ge, hle⟩ := h1.laid _ hlo
    obtain ⟨gc, hlc⟩ := hc.laid _ hlo
    have l1 := laid_level hle
    have l2 := laid_level hlc
    by_cases hl : t.level e < t.level c
    · rw [if_pos hl]
      obtain ⟨d, rfl⟩ : ∃ d, de = d + 1 := ⟨de - 1, by omega⟩
      obtain ⟨_, _, _, hc2, _⟩ := hle
      rw [hc2]
      simp only
      have hT := h1.tiled ht
      have hs := fullSize_succ d
      have hsepL : Sep L cells dc c d (e+1) s k := h6.sub ⟨le_rfl, le_rfl⟩ (by omega)
      have hsepR : Sep L cells dc c d (e+1+fullSize d) s k := h6.sub ⟨le_rfl, le_rfl⟩ (by omega)
      obtain ⟨t1, t2, t3, _⟩ := hT
      split_ifs with c1 c2 c3 c4 c5
      · -- the right child, looking from the right
        obtain ⟨rfl, rfl, _⟩ := c1
        refine ih _ ⟨d, h1.snocR, t1, by omega, ?_, ?_, hsepR⟩
        · rw [← h4]
          simp only [face, Bool.not_false, if_true]
          rcases t3 with ⟨_, x, _, _, _, _, _, b6⟩ | ⟨_, _, _, _, b6⟩ <;> rw [b6]
        · intro j hj
          rcases t3 with ⟨_, x, _, _, _, _, b5, b6⟩ | ⟨_, _, _, b5, b6⟩
          · rw [b5, b6, Function.update_of_ne hj]; exact h5 j hj
          · rw [b5, b6]; exact h5 j hj
      · obtain ⟨rfl, rfl, hN⟩ := c2
        refine ih _ ⟨d, h1.snocL, hN, by omega, ?_, ?_, hsepL⟩
        · rw [← h4]
          simp only [face, Bool.not_true, Bool.false_eq_true, if_false]
          rcases t3 with ⟨_, x, _, _, b3, _⟩ | ⟨h0, _⟩
          · rw [b3]
          · omega
        · intro j hj
          rcases t3 with ⟨_, x, _, _, b3, b4, _⟩ | ⟨h0, _⟩
          · rw [b3, b4, Function.update_of_ne hj]; exact h5 j hj
          · omega
      · obtain ⟨rfl, rfl, hN⟩ := c3
        have h0 : (cells (e+1)).N = 0 := by
          by_contra hne
          exact c2 ⟨rfl, rfl, Nat.pos_of_ne_zero hne⟩
        rcases t3 with ⟨hp, _⟩ | ⟨_, _, _, b5, b6⟩
        · omega
        refine ih _ ⟨d, h1.snocR, t1, by omega, ?_, ?_, hsepR⟩
        · rw [← h4]
          simp only [face]; rw [b5, b6]
        · intro j hj
          rw [b5, b6]; exact h5 j hj
      · obtain ⟨hN, hsp⟩ := c4
        have hne : k ≠ (cells e).kdiv := by
          intro hk
          cases s with
          | false => exact c1 ⟨hk.symm, rfl, t1⟩
          | true => exact c2 ⟨hk.symm, rfl, hN⟩
        rcases t3 with ⟨_, x, _, _, b3, b4, _⟩ | ⟨h0, _⟩
        · refine ih _ ⟨d, h1.snocL, hN, by omega, ?_, ?_, hsepL⟩
          · rw [← h4]
            simp only [face]; rw [b3, b4, Function.update_of_ne hne]
          · intro j hj
            by_cases hjk : j = (cells e).kdiv
            · subst hjk; exact ⟨hsp.2, hsp.1⟩
            · rw [b3, b4, Function.update_of_ne hjk]; exact h5 j hj
        · omega
      · obtain ⟨hN, hsp⟩ := c5
        have hne : k ≠ (cells e).kdiv := by
          intro hk
          cases s with
          | false => exact c1 ⟨hk.symm, rfl, t1⟩
          | true => exact c3 ⟨hk.symm, rfl, t1⟩
        rcases t3 with ⟨_, x, _, _, _, _, b5, b6⟩ | ⟨_, _, _, b5, b6⟩
        · refine ih _ ⟨d, h1.snocR, hN, by omega, ?_, ?_, hsepR⟩
          · rw [← h4]
            simp only [face]; rw [b5, b6, Function.update_of_ne hne]
          · intro j hj
            by_cases hjk : j = (cells e).kdiv
            · subst hjk; exact ⟨hsp.2, hsp.1⟩
            · rw [b5, b6, Function.update_of_ne hjk]; exact h5 j hj
        · refine ih _ ⟨d, h1.snocR, hN, by omega, ?_, ?_, hsepR⟩
          · rw [← h4]
            simp only [face]; rw [b5, b6]
          · intro j hj
            rw [b5, b6]; exact h5 j hj
      · exact h
    · rw [if_neg hl]; exact h

theorem optimise_same (t : KD.Links) (cells : ℕ → Cell n α) (ltot Ncell : ℕ) :
    SameBoxes cells (optimise t cells ltot Ncell) := by
  intro c
  unfold optimise
  split_ifs <;> exact ⟨rfl, rfl, rfl, rfl⟩

theorem Sep.congr {L : ℕ} {f g : ℕ → Cell n α} (hfg : SameBoxes f g) {dc c de e : ℕ} {s : Bool}
    {k : Fin n} (h : Sep L f dc c de e s k) : Sep L g dc c de e s k := by
  obtain ⟨d, b, h1, h2, h3⟩ := h
  exact ⟨d, b, h1, by rw [← (hfg b).1]; exact h2, h3⟩

theorem FaceInv.congr {L : ℕ} {f g : ℕ → Cell n α} (hfg : SameBoxes f g) {dc c : ℕ} {s : Bool}
    {k : Fin n} {o : Option ℕ} (h : FaceInv L f dc c s k o) : FaceInv L g dc c s k o := by
  have hface : ∀ i s k, face (g i) s k = face (f i) s k := by
    intro i s k; unfold face; rw [(hfg i).2.2.1, (hfg i).2.2.2]
  cases o with
  | none =>
    show face (g c) s k = face (g 0) s k
    rw [hface, hface]; exact h
  | some e =>
    obtain ⟨de, h1, h2, h3, h4, h5, h6⟩ := h
    refine ⟨de, h1, by rw [← (hfg e).2.1]; exact h2, h3, by rw [hface, hface]; exact h4, ?_, h6.congr hfg⟩
    intro j hj
    rw [← (hfg e).2.2.1, ← (hfg c).2.2.1, ← (hfg e).2.2.2, ← (hfg c).2.2.2]
    exact h5 j hj

/-- A finished tree: what the photon walk needs to know. -/
structure Ready (t : KD.Links) (L : ℕ) (big : α) (cells : ℕ → Cell n α) : Prop where
  laid : ∃ g, LaidOut t L L 0 g
  tiled : Tiled big cells L 0
  pos : 0 < (cells 0).N
  low : ∀ k, -big ≤ (cells 0).bbmin k
  proper : ∀ k, (cells 0).bbmin k ≤ (cells 0).bbmax k
  faces : ∀ d c, Node L 0 d c → 0 < (cells c).N → ∀ s k, FaceInv L cells d c s k ((cells c).exit s k)

theorem ready_of_good {t : KD.Links} {L g : ℕ} {big : α} {cells : ℕ → Cell n α}
    (hlo : LaidOut t L L 0 g) (hg : Good big cells L 0) (hpos : 0 < (cells 0).N)
    (hlow : ∀ k, -big ≤ (cells 0).bbmin k) (hprop : ∀ k, (cells 0).bbmin k ≤ (cells 0).bbmax k) (hex : ∀ s k, (cells 0).exit s k = none) :
    Ready t L big (optimise t cells L (ncellOf L)) := by
  have hsame := optimise_same t cells L (ncellOf L)
  have htile := Good.tiled big cells _ _ hg
  refine ⟨⟨g, hlo⟩, htile.congr hsame, by rw [← (hsame 0).2.1]; exact hpos,
    fun k => by rw [← (hsame 0).2.2.1]; exact hlow k,
    fun k => by rw [← (hsame 0).2.2.1, ← (hsame 0).2.2.2]; exact hprop k, ?_⟩
  intro d c hn hN s k
  rw [← (hsame c).2.1] at hN
  have h0 := face_down hn hN (.self _ _) hg (by
    intro s k; rw [hex]; exact (rfl : face (cells 0) s k = face (cells 0) s k)) s k
  apply FaceInv.congr hsame
  have hlt : c < ncellOf L := by
    have := hn.range; have := fs_pos d; rw [ncellOf_eq]; show c < fullSize L; omega
  have e : (optimise t cells L (ncellOf L) c).exit s k =
      ((cells c).exit s k).map (narrow t cells (t.level c) (cells c) s k L) := by
    unfold optimise; rw [if_pos hlt]
  rw [e]
  cases hx : (cells c).exit s k with
  | none => rw [hx] at h0; exact h0
  | some x => rw [hx] at h0; exact narrow_inv hlo htile hn s k L x h0

end Gandalf.RadTree
