import Verif.Proof.SystemTree
import Mathlib.Algebra.BigOperators.Group.List.Basic

/-! The sub-systems found on the nearest-neighbour tree. -/

set_option autoImplicit false
set_option linter.unusedSectionVars false

namespace Gandalf.SysTree

open Function BinTree

variable {n : ℕ}

/-- bodies are made of stars, through systems with numbers below `m` -/
inductive Mem (sys : ℕ → Sys n) (m : ℕ) : List Body → List ℕ → Prop
  | nil : Mem sys m [] []
  | star (i : ℕ) (l : List Body) (L : List ℕ) : Mem sys m l L → Mem sys m (Body.star i :: l) (i :: L)
  | system (s : ℕ) (l : List Body) (K L : List ℕ) : s < m → Mem sys m (sys s).children K →
      Mem sys m l L → Mem sys m (Body.system s :: l) (K ++ L)

/-- a body that exists -/
def Valid (m : ℕ) : Body → Prop
  | .star _ => True
  | .system s => s < m

theorem Mem.valid {sys : ℕ → Sys n} {m : ℕ} {l : List Body} {L : List ℕ} (h : Mem sys m l L) :
    ∀ b ∈ l, Valid m b := by
  induction h with
  | nil => intro b hb; exact absurd hb (by simp)
  | star i l L _ ih =>
    intro b hb
    rcases List.mem_cons.1 hb with rfl | hb
    · trivial
    · exact ih b hb
  | system s l K L hs _ _ _ ih =>
    intro b hb
    rcases List.mem_cons.1 hb with rfl | hb
    · exact hs
    · exact ih b hb

theorem Mem.append {sys : ℕ → Sys n} {m : ℕ} {l l' : List Body} {L L' : List ℕ} (h : Mem sys m l L)
    (h' : Mem sys m l' L') : Mem sys m (l ++ l') (L ++ L') := by
  induction h with
  | nil => exact h'
  | star i l L _ ih => exact Mem.star i _ _ ih
  | system s l K L hs hk _ _ ih => rw [List.append_assoc]; exact Mem.system s _ _ _ hs hk ih

theorem Mem.split {sys : ℕ → Sys n} {m : ℕ} {l l' : List Body} {L : List ℕ} :
    Mem sys m (l ++ l') L → ∃ L1 L2, L = L1 ++ L2 ∧ Mem sys m l L1 ∧ Mem sys m l' L2 := by
  induction l generalizing L with
  | nil => intro h; exact ⟨[], L, rfl, Mem.nil, h⟩
  | cons b l ih =>
    intro h
    cases h with
    | star i _ L h =>
      obtain ⟨L1, L2, e, h1, h2⟩ := ih h
      exact ⟨i :: L1, L2, by rw [e]; rfl, Mem.star _ _ _ h1, h2⟩
    | system s _ K L hs hk h =>
      obtain ⟨L1, L2, e, h1, h2⟩ := ih h
      exact ⟨K ++ L1, L2, by rw [e, List.append_assoc], Mem.system _ _ _ _ hs hk h1, h2⟩

theorem Mem.perm {sys : ℕ → Sys n} {m : ℕ} {l l' : List Body} (hp : l.Perm l') :
    ∀ {L : List ℕ}, Mem sys m l L → ∃ L', Mem sys m l' L' ∧ L.Perm L' := by
  induction hp with
  | nil => intro L h; exact ⟨L, h, List.Perm.refl _⟩
  | cons x _ ih =>
    intro L h
    cases h with
    | star i _ L h =>
      obtain ⟨L', h1, h2⟩ := ih h
      exact ⟨i :: L', Mem.star _ _ _ h1, h2.cons i⟩
    | system s _ K L hs hk h =>
      obtain ⟨L', h1, h2⟩ := ih h
      exact ⟨K ++ L', Mem.system _ _ _ _ hs hk h1, h2.append_left K⟩
  | swap x y l =>
    intro L h
    obtain ⟨A, B, rfl, hA, hB⟩ := Mem.split (l := [y]) (l' := x :: l) h
    obtain ⟨C, D, rfl, hC, hD⟩ := Mem.split (l := [x]) (l' := l) hB
    refine ⟨C ++ (A ++ D), Mem.append hC (Mem.append hA hD), ?_⟩
    rw [← List.append_assoc, ← List.append_assoc]
    exact List.Perm.append_right D List.perm_append_comm
  | trans _ _ ih1 ih2 =>
    intro L h
    obtain ⟨L1, h1, p1⟩ := ih1 h
    obtain ⟨L2, h2, p2⟩ := ih2 h1
    exact ⟨L2, h2, p1.trans p2⟩

theorem Mem.update {sys : ℕ → Sys n} {m : ℕ} {l : List Body} {L : List ℕ} (x : Sys n)
    (h : Mem sys m l L) : Mem (update sys m x) (m + 1) l L := by
  induction h with
  | nil => exact Mem.nil
  | star i l L _ ih => exact Mem.star _ _ _ ih
  | system s l K L hs _ _ ih1 ih2 =>
    refine Mem.system _ _ _ _ (Nat.lt_succ_of_lt hs) ?_ ih2
    rw [update_of_ne (ne_of_lt hs)]
    exact ih1

/-- what a body is, for the specification -/
def inside (sys : ℕ → Sys n) : Body → ℕ ⊕ List Body
  | .star i => Sum.inl i
  | .system s => Sum.inr (sys s).children

theorem Mem.made {sys : ℕ → Sys n} {m : ℕ} {l : List Body} {L : List ℕ} (h : Mem sys m l L) :
    Made (inside sys) l L := by
  induction h with
  | nil => exact Made.nil
  | star i l L _ ih => exact Made.star _ _ _ _ rfl ih
  | system s l K L _ _ _ ih1 ih2 => exact Made.group _ _ _ _ _ rfl ih1 ih2

/-! ### mass, centre of mass and momentum -/

/-- `m`, `r`, `v` are total mass, centre of mass and its velocity of the bodies of a list -/
def Sums (stars : ℕ → Star n) (sys : ℕ → Sys n) (l : List Body) (m : ℝ) (r v : Vec n ℝ) : Prop :=
  m = (l.map (bodyM stars sys)).sum ∧
  (∀ k, m * r k = (l.map fun b => bodyM stars sys b * bodyR stars sys b k).sum) ∧
  ∀ k, m * v k = (l.map fun b => bodyM stars sys b * bodyV stars sys b k).sum

theorem body_update (stars : ℕ → Star n) (sys : ℕ → Sys n) (m : ℕ) (x : Sys n) {b : Body}
    (h : Valid m b) : bodyM stars (update sys m x) b = bodyM stars sys b ∧
      bodyR stars (update sys m x) b = bodyR stars sys b ∧
      bodyV stars (update sys m x) b = bodyV stars sys b := by
  cases b with
  | star i => exact ⟨rfl, rfl, rfl⟩
  | system s =>
    have : s < m := h
    unfold bodyM bodyR bodyV
    simp only
    rw [update_of_ne (ne_of_lt this)]
    exact ⟨rfl, rfl, rfl⟩

theorem Sums.update {stars : ℕ → Star n} {sys : ℕ → Sys n} {l : List Body} {m : ℝ} {r v : Vec n ℝ}
    (h : Sums stars sys l m r v) (j : ℕ) (x : Sys n) (hl : ∀ b ∈ l, Valid j b) :
    Sums stars (update sys j x) l m r v := by
  obtain ⟨h1, h2, h3⟩ := h
  refine ⟨?_, fun k => ?_, fun k => ?_⟩
  · rw [h1]
    exact congrArg List.sum (List.map_congr_left fun b hb => ((body_update stars sys j x (hl b hb)).1).symm)
  · rw [h2]
    refine congrArg List.sum (List.map_congr_left fun b hb => ?_)
    rw [(body_update stars sys j x (hl b hb)).1, (body_update stars sys j x (hl b hb)).2.1]
  · rw [h3]
    refine congrArg List.sum (List.map_congr_left fun b hb => ?_)
    rw [(body_update stars sys j x (hl b hb)).1, (body_update stars sys j x (hl b hb)).2.2]

theorem Sums.join {stars : ℕ → Star n} {sys : ℕ → Sys n} {a b : Cell n} (ha : 0 < a.m) (hb : 0 < b.m)
    (h1 : Sums stars sys a.list a.m a.r a.v) (h2 : Sums stars sys b.list b.m b.r b.v) :
    Sums stars sys (a.list ++ b.list) (join a b).m (join a b).r (join a b).v := by
  have hne : a.m + b.m ≠ 0 := by positivity
  obtain ⟨a1, a2, a3⟩ := h1
  obtain ⟨b1, b2, b3⟩ := h2
  unfold SysTree.join
  refine ⟨?_, fun k => ?_, fun k => ?_⟩
  · simp only; rw [List.map_append, List.sum_append, ← a1, ← b1]
  · simp only; rw [List.map_append, List.sum_append, ← a2 k, ← b2 k, mul_div_cancel₀ _ hne]
  · simp only; rw [List.map_append, List.sum_append, ← a3 k, ← b3 k, mul_div_cancel₀ _ hne]

/-! ### the invariant -/

/-- a system that has been made -/
structure SysOK (stars : ℕ → Star n) (sys : ℕ → Sys n) (s : ℕ) : Prop where
  ne : 2 ≤ (sys s).children.length
  len : (sys s).children.length ≤ ncompMax
  comp : (sys s).ncomp = (sys s).children.length
  below : ∀ b ∈ (sys s).children, Valid s b
  pos : 0 < (sys s).m
  sums : Sums stars sys (sys s).children (sys s).m (sys s).r (sys s).v

/-- a node whose parent has not been reached -/
structure CellOK (stars : ℕ → Star n) (S : Subs n) (x : Cell n) : Prop where
  pos : 0 < x.m
  one : 1 ≤ x.ncomp
  len : x.ncomp ≤ ncompMax → x.list.length = x.ncomp
  full : ncompMax < x.ncomp → x.list = []
  valid : ∀ b ∈ x.list, Valid S.nsys b
  sums : x.ncomp ≤ ncompMax → Sums stars S.sys x.list x.m x.r x.v

structure SInv (N : ℕ) (parent : ℕ → Option ℕ) (stars : ℕ → Star n) (c : ℕ) (S : Subs n) : Prop where
  nsys : S.nsys ≤ c - N
  sys : ∀ s, s < S.nsys → SysOK stars S.sys s
  cells : ∀ d ∈ frontier parent c, CellOK stars S (S.cell d)
  mem : ∃ L, Mem S.sys S.nsys (S.nbody ++ (frontier parent c).flatMap fun d => (S.cell d).list) L ∧
    L.Perm (List.range (min c N))

theorem flatMap_congr' {l : List ℕ} {f g : ℕ → List Body} (h : ∀ d ∈ l, f d = g d) :
    l.flatMap f = l.flatMap g := by
  induction l with
  | nil => rfl
  | cons x l ih =>
    rw [List.flatMap_cons, List.flatMap_cons, h x List.mem_cons_self,
      ih fun d hd => h d (List.mem_cons_of_mem _ hd)]

theorem leaf_ok {stars : ℕ → Star n} {S : Subs n} {c : ℕ} (hm : 0 < (stars c).m) :
    CellOK stars S (leaf (stars c) c) := by
  refine ⟨hm, le_rfl, fun _ => rfl, fun h => absurd h (by simp [leaf, ncompMax]), ?_, fun _ => ?_⟩
  · intro b hb
    rw [leaf, List.mem_singleton] at hb
    rw [hb]; trivial
  · refine ⟨?_, fun k => ?_, fun k => ?_⟩ <;> simp [leaf, bodyM, bodyR, bodyV]

theorem CellOK.congr {stars : ℕ → Star n} {S T : Subs n} {x : Cell n} (h : CellOK stars S x)
    (h1 : T.nsys = S.nsys) (h2 : T.sys = S.sys) : CellOK stars T x :=
  ⟨h.pos, h.one, h.len, h.full, by rw [h1]; exact h.valid, by rw [h2]; exact h.sums⟩

theorem SInv.star {N nnode : ℕ} {child : ℕ → Option (ℕ × ℕ)} {parent : ℕ → Option ℕ}
    (hs : Shape N nnode child parent) {stars : ℕ → Star n} {eps soft : ℝ} {c : ℕ} {S : Subs n}
    (h : SInv N parent stars c S) (hc : c < N) (hn : c < nnode) (hm : 0 < (stars c).m) :
    SInv N parent stars (c + 1) (stock eps soft N stars child S c) := by
  unfold stock
  rw [if_pos hc]
  have hp := frontier_star hs hc hn
  have hcell : ∀ d ∈ frontier parent c, update S.cell c (leaf (stars c) c) d = S.cell d := fun d hd =>
    update_of_ne (ne_of_lt (mem_frontier.1 hd).1) _ _
  refine ⟨h.nsys.trans (by omega), h.sys, fun d hd => ?_, ?_⟩
  · rcases List.mem_cons.1 (hp.mem_iff.1 hd) with rfl | hd
    · simp only [update_self]; exact (leaf_ok (S := S) hm).congr rfl rfl
    · simp only
      rw [hcell d hd]; exact (h.cells d hd).congr rfl rfl
  · obtain ⟨L, h1, h2⟩ := h.mem
    have hq : (S.nbody ++ (frontier parent (c + 1)).flatMap fun d =>
        (update S.cell c (leaf (stars c) c) d).list).Perm
        ([Body.star c] ++ (S.nbody ++ (frontier parent c).flatMap fun d => (S.cell d).list)) := by
      refine (List.Perm.append_left _ (hp.flatMap_right _)).trans ?_
      rw [List.flatMap_cons, update_self,
        flatMap_congr' (l := frontier parent c) fun d hd => congrArg Cell.list (hcell d hd)]
      change (S.nbody ++ ([Body.star c] ++ _)).Perm _
      rw [← List.append_assoc, ← List.append_assoc]
      exact List.Perm.append_right _ List.perm_append_comm
    obtain ⟨L', h3, h4⟩ := Mem.perm hq.symm (Mem.star c _ _ h1)
    refine ⟨L', h3, h4.symm.trans ?_⟩
    rw [show min (c + 1) N = c + 1 by omega, List.range_succ]
    rw [show min c N = c by omega] at h2
    exact (h2.cons c).trans (List.perm_append_comm (l₁ := [c]))

theorem SInv.node {N nnode : ℕ} {child : ℕ → Option (ℕ × ℕ)} {parent : ℕ → Option ℕ}
    (hs : Shape N nnode child parent) {stars : ℕ → Star n} {eps soft : ℝ} {c : ℕ} {S : Subs n}
    (h : SInv N parent stars c S) (hc : N ≤ c) (hn : c < nnode) :
    SInv N parent stars (c + 1) (stock eps soft N stars child S c) := by
  obtain ⟨a, b, hab, hac, hbc, hne, -⟩ := hs.inner c hc hn
  obtain ⟨G, g1, g2⟩ := frontier_node hs hc hn hab
  have ma : a ∈ frontier parent c := g1.mem_iff.2 List.mem_cons_self
  have mb : b ∈ frontier parent c := g1.mem_iff.2 (List.mem_cons_of_mem _ List.mem_cons_self)
  have mG : ∀ d ∈ G, d ∈ frontier parent c := fun d hd =>
    g1.mem_iff.2 (List.mem_cons_of_mem _ (List.mem_cons_of_mem _ hd))
  have nd : (a :: b :: G).Nodup := g1.nodup_iff.1 (nodup_frontier c)
  rw [List.nodup_cons, List.nodup_cons, List.mem_cons] at nd
  have nG : ∀ d ∈ G, d ≠ a ∧ d ≠ b ∧ d ≠ c := fun d hd =>
    ⟨fun e => nd.1 (Or.inr (e ▸ hd)), fun e => nd.2.1 (e ▸ hd),
      ne_of_lt (mem_frontier.1 (mG d hd)).1⟩
  have oka := h.cells a ma
  have okb := h.cells b mb
  obtain ⟨L, hL, hLp⟩ := h.mem
  have hmin : min (c + 1) N = min c N := by omega
  -- the old list with the two children in front
  have hq : (S.nbody ++ (frontier parent c).flatMap fun d => (S.cell d).list).Perm
      (S.nbody ++ ((S.cell a).list ++ (S.cell b).list) ++ G.flatMap fun d => (S.cell d).list) := by
    have := List.Perm.append_left S.nbody (g1.flatMap_right fun d => (S.cell d).list)
    rw [List.flatMap_cons, List.flatMap_cons] at this
    simpa only [List.append_assoc] using this
  obtain ⟨L', hL', hLp'⟩ := Mem.perm hq hL
  have hLr : L'.Perm (List.range (min (c + 1) N)) := by rw [hmin]; exact hLp'.symm.trans hLp
  unfold stock
  rw [if_neg (not_lt.2 hc), hab]
  simp only
  unfold stockNode
  simp only
  by_cases hcomp : (S.cell a).ncomp + (S.cell b).ncomp ≤ ncompMax
  · rw [if_pos hcomp]
    have la : (S.cell a).ncomp ≤ ncompMax := (Nat.le_add_right _ _).trans hcomp
    have lb : (S.cell b).ncomp ≤ ncompMax := (Nat.le_add_left _ _).trans hcomp
    have hlen : ((S.cell a).list ++ (S.cell b).list).length = (S.cell a).ncomp + (S.cell b).ncomp := by
      rw [List.length_append, oka.len la, okb.len lb]
    have hval : ∀ x ∈ (S.cell a).list ++ (S.cell b).list, Valid S.nsys x := fun x hx => by
      rcases List.mem_append.1 hx with hx | hx
      · exact oka.valid x hx
      · exact okb.valid x hx
    have hsum := Sums.join oka.pos okb.pos (oka.sums la) (okb.sums lb)
    have hpos : 0 < (S.cell a).m + (S.cell b).m := add_pos oka.pos okb.pos
    set M := bodyM stars S.sys with hM
    set R := bodyR stars S.sys with hR
    set V := bodyV stars S.sys with hV
    set x := merged eps M R (S.cell a) (S.cell b) with hx
    by_cases hh : Hard soft x.gpe x.gpeInt
    · rw [if_pos hh]
      have hone := oka.one
      have hone' := okb.one
      have sysx : update S.sys S.nsys (newSys M V c x) S.nsys = newSys M V c x := update_self _ _ _
      refine ⟨?_, fun s hs' => ?_, fun d hd => ?_, ?_⟩
      · have := h.nsys; simp only; omega
      · simp only at hs' ⊢
        rcases Nat.lt_succ_iff_lt_or_eq.1 hs' with h1 | rfl
        · have o := h.sys s h1
          have e : update S.sys S.nsys (newSys M V c x) s = S.sys s := update_of_ne (ne_of_lt h1) _ _
          refine ⟨?_, ?_, ?_, ?_, ?_, ?_⟩
          · rw [e]; exact o.ne
          · rw [e]; exact o.len
          · rw [e]; exact o.comp
          · rw [e]; exact o.below
          · rw [e]; exact o.pos
          · rw [e]
            refine o.sums.update _ _ fun y hy => ?_
            have := o.below y hy
            cases y with
            | star i => trivial
            | system t => exact (show t < s from this).trans h1
        · refine ⟨?_, ?_, ?_, ?_, ?_, ?_⟩
          · rw [sysx]; change 2 ≤ ((S.cell a).list ++ (S.cell b).list).length; omega
          · rw [sysx]; change ((S.cell a).list ++ (S.cell b).list).length ≤ _; omega
          · rw [sysx]; exact hlen.symm
          · rw [sysx]; exact hval
          · rw [sysx]; exact hpos
          · rw [sysx]; exact hsum.update _ _ hval
      · simp only
        rcases List.mem_cons.1 (g2.mem_iff.1 hd) with rfl | hd
        · rw [update_self]
          refine ⟨hpos, le_rfl, fun _ => rfl, fun hf => absurd hf (by simp [ncompMax]), ?_, fun _ => ?_⟩
          · intro y hy
            rw [List.mem_singleton.1 hy]
            exact Nat.lt_succ_self _
          · refine ⟨?_, fun k => ?_, fun k => ?_⟩ <;>
              simp only [List.map_cons, List.map_nil, List.sum_cons, List.sum_nil, add_zero, bodyM,
                bodyR, bodyV, sysx] <;> rfl
        · rw [update_of_ne (nG d hd).2.2]
          have o := h.cells d (mG d hd)
          refine ⟨o.pos, o.one, o.len, o.full, fun y hy => ?_, fun hl => (o.sums hl).update _ _ o.valid⟩
          have := o.valid y hy
          cases y with
          | star i => trivial
          | system t => exact Nat.lt_succ_of_lt (show t < S.nsys from this)
      · simp only
        obtain ⟨A, C, e1, hA, hC⟩ := Mem.split hL'
        obtain ⟨B, K, e2, hB, hK⟩ := Mem.split hA
        have hK' : Mem (update S.sys S.nsys (newSys M V c x)) (S.nsys + 1)
            (update S.sys S.nsys (newSys M V c x) S.nsys).children K := by
          rw [sysx]; exact hK.update _
        have h1 := (hB.update (newSys M V c x)).append (Mem.system S.nsys _ K C (Nat.lt_succ_self _) hK'
          (hC.update (newSys M V c x)))
        have hq2 : (S.nbody ++ Body.system S.nsys :: G.flatMap fun d => (S.cell d).list).Perm
            (S.nbody ++ (frontier parent (c + 1)).flatMap fun d => (update S.cell c { x with
              ncomp := 1
              list := [Body.system S.nsys]
              gpe := x.gpe - x.gpeInt
              gpeInt := 0 } d).list) := by
          refine List.Perm.append_left _ ?_
          refine List.Perm.trans ?_ (g2.flatMap_right _).symm
          rw [List.flatMap_cons, update_self]
          refine List.Perm.of_eq (congrArg _ ?_)
          exact (flatMap_congr' (l := G) (g := fun d => (S.cell d).list) fun d hd =>
            congrArg Cell.list (update_of_ne (nG d hd).2.2 _ _)).symm
        obtain ⟨L2, h2, h3⟩ := Mem.perm hq2 h1
        refine ⟨L2, h2, h3.symm.trans ?_⟩
        rw [e1, e2, List.append_assoc] at hLr
        exact hLr
    · rw [if_neg hh]
      refine ⟨h.nsys.trans (by omega), h.sys, fun d hd => ?_, ?_⟩
      · simp only
        rcases List.mem_cons.1 (g2.mem_iff.1 hd) with rfl | hd
        · rw [update_self]
          exact ⟨hpos, oka.one.trans (Nat.le_add_right _ _), fun _ => hlen,
            fun hf => absurd hcomp (not_le.2 hf), hval, fun _ => hsum⟩
        · rw [update_of_ne (nG d hd).2.2]
          exact (h.cells d (mG d hd)).congr rfl rfl
      · simp only
        have hq2 : (S.nbody ++ ((S.cell a).list ++ (S.cell b).list) ++ G.flatMap fun d => (S.cell d).list).Perm
            (S.nbody ++ (frontier parent (c + 1)).flatMap fun d => (update S.cell c x d).list) := by
          rw [List.append_assoc]
          refine List.Perm.append_left _ ?_
          refine List.Perm.trans ?_ (g2.flatMap_right _).symm
          rw [List.flatMap_cons, update_self]
          refine List.Perm.of_eq (congrArg _ ?_)
          exact (flatMap_congr' (l := G) (g := fun d => (S.cell d).list) fun d hd =>
            congrArg Cell.list (update_of_ne (nG d hd).2.2 _ _)).symm
        obtain ⟨L2, h2, h3⟩ := Mem.perm hq2 hL'
        exact ⟨L2, h2, h3.symm.trans hLr⟩
  · rw [if_neg hcomp]
    have hcell : ∀ d ∈ G, update (update (update S.cell a { S.cell a with list := [] }) b
        { S.cell b with list := [] }) c (join (S.cell a) (S.cell b)) d = S.cell d := fun d hd => by
      rw [update_of_ne (nG d hd).2.2, update_of_ne (nG d hd).2.1, update_of_ne (nG d hd).1]
    refine ⟨h.nsys.trans (by omega), h.sys, fun d hd => ?_, ?_⟩
    · simp only
      rcases List.mem_cons.1 (g2.mem_iff.1 hd) with rfl | hd
      · rw [update_self]
        exact ⟨add_pos oka.pos okb.pos, oka.one.trans (Nat.le_add_right _ _),
          fun hl => absurd hl hcomp, fun _ => rfl, fun y hy => absurd hy (by simp [join]),
          fun hl => absurd hl hcomp⟩
      · refine CellOK.congr (S := S) ?_ rfl rfl
        have e := hcell d hd
        exact e ▸ h.cells d (mG d hd)
    · simp only
      have hq2 : (S.nbody ++ ((S.cell a).list ++ (S.cell b).list) ++ G.flatMap fun d => (S.cell d).list).Perm
          (S.nbody ++ (S.cell a).list ++ (S.cell b).list ++ (frontier parent (c + 1)).flatMap fun d =>
            (update (update (update S.cell a { S.cell a with list := [] }) b
              { S.cell b with list := [] }) c (join (S.cell a) (S.cell b)) d).list) := by
        rw [← List.append_assoc]
        refine List.Perm.append_left _ ?_
        refine List.Perm.trans ?_ (g2.flatMap_right _).symm
        rw [List.flatMap_cons, update_self]
        rw [flatMap_congr' (l := G) (g := fun d => (S.cell d).list) fun d hd =>
          congrArg Cell.list (hcell d hd)]
        exact List.Perm.refl _
      obtain ⟨L2, h2, h3⟩ := Mem.perm hq2 hL'
      exact ⟨L2, h2, h3.symm.trans hLr⟩

theorem sinv_range {N nnode : ℕ} {child : ℕ → Option (ℕ × ℕ)} {parent : ℕ → Option ℕ}
    (hs : Shape N nnode child parent) {stars : ℕ → Star n} (hm : ∀ i, i < N → 0 < (stars i).m)
    (eps soft : ℝ) (cell0 : ℕ → Cell n) (sys0 : ℕ → Sys n) : ∀ c, c ≤ nnode →
      SInv N parent stars c
        ((List.range c).foldl (stock eps soft N stars child) ⟨cell0, sys0, 0, [], []⟩) := by
  intro c
  induction c with
  | zero =>
    intro _
    refine ⟨Nat.zero_le _, fun s h => absurd h (Nat.not_lt_zero _), fun d hd => ?_, [], ?_, ?_⟩
    · exact absurd (mem_frontier.1 hd).1 (Nat.not_lt_zero _)
    · exact Mem.nil
    · simp
  | succ c ih =>
    intro hc
    have ih := ih (Nat.le_of_succ_le hc)
    rw [List.range_succ, List.foldl_append]
    by_cases hN : c < N
    · exact ih.star hs hN hc (hm c hN)
    · exact ih.node hs (not_lt.1 hN) hc

/-- what holds of the result -/
theorem build_ok {N : ℕ} (hN : 0 < N) {child : ℕ → Option (ℕ × ℕ)} {parent : ℕ → Option ℕ}
    (hs : Complete N child parent) {stars : ℕ → Star n} (hm : ∀ i, i < N → 0 < (stars i).m)
    (eps soft : ℝ) (cell0 : ℕ → Cell n) (sys0 : ℕ → Sys n) (S : Subs n)
    (hS : S = build eps soft N (2 * N - 1) stars child cell0 sys0) :
    S.nsys ≤ N - 1 ∧ (∀ s, s < S.nsys → SysOK stars S.sys s) ∧
    ∃ L, Mem S.sys S.nsys S.nbody L ∧ L.Perm (List.range N) := by
  have h := sinv_range hs.shape hm eps soft cell0 sys0 _ le_rfl
  unfold build at hS
  simp only at hS
  set T := (List.range (2 * N - 1)).foldl (stock eps soft N stars child) ⟨cell0, sys0, 0, [], []⟩
  obtain ⟨L, h1, h2⟩ := h.mem
  have hq : (T.nbody ++ (frontier parent (2 * N - 1)).flatMap fun d => (T.cell d).list).Perm
      (T.nbody ++ (T.cell (2 * N - 1 - 1)).list) := by
    refine List.Perm.append_left _ (((frontier_root hN hs).flatMap_right _).trans ?_)
    rw [List.flatMap_cons, List.flatMap_nil, List.append_nil]
    exact List.Perm.refl _
  obtain ⟨L', h3, h4⟩ := Mem.perm hq h1
  have hn := h.nsys
  rw [hS]
  refine ⟨by simp only; omega, h.sys, L', h3, h4.symm.trans ?_⟩
  rwa [show min (2 * N - 1) N = N by omega] at h2

/-- bodies and stars have the same sum of any quantity that systems add up -/
theorem Mem.sum {sys : ℕ → Sys n} {m : ℕ} {l : List Body} {L : List ℕ} (h : Mem sys m l L)
    (f : Body → ℝ) (hf : ∀ s, s < m → f (Body.system s) = ((sys s).children.map f).sum) :
    (l.map f).sum = (L.map fun i => f (Body.star i)).sum := by
  induction h with
  | nil => rfl
  | star i l L _ ih => simp only [List.map_cons, List.sum_cons, ih]
  | system s l K L hs _ _ ih1 ih2 =>
    rw [List.map_cons, List.sum_cons, List.map_append, List.sum_append, ih2, hf s hs, ih1]

theorem Mem.length {sys : ℕ → Sys n} {m : ℕ} {l : List Body} {L : List ℕ} (h : Mem sys m l L)
    (hf : ∀ s, s < m → (sys s).children ≠ []) : l.length ≤ L.length ∧ (l ≠ [] → L ≠ []) := by
  induction h with
  | nil => exact ⟨le_rfl, fun h => absurd rfl h⟩
  | star i l L _ ih => exact ⟨Nat.succ_le_succ ih.1, fun _ => by simp⟩
  | system s l K L hs _ _ ih1 ih2 =>
    have hK := ih1.2 (hf s hs)
    have : 1 ≤ K.length := List.length_pos_iff.2 hK
    refine ⟨?_, fun _ e => hK (List.append_eq_nil_iff.1 e).1⟩
    rw [List.length_cons, List.length_append]
    have := ih2.1
    omega

end Gandalf.SysTree
