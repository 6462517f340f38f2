import Verif.Model.TreeRefresh
import Verif.Proof.KDStockTree
import Verif.Proof.TreeSearch
import Verif.Proof.OctStock

/-! Proofs about the refresh of a tree between two builds. -/

set_option autoImplicit false
set_option linter.unusedSectionVars false

namespace Gandalf.KD
open LeafList

variable {n : ℕ} {cfg : Cfg} {P : Parts n}

/-- the part of `Summary` which concerns the smoothing lengths -/
structure HSum (cfg : Cfg) (P : Parts n) (l : List ℕ) (c : Props n) : Prop where
  hbox : ∀ i ∈ l, ∀ k, c.hmin k ≤ P.r i k - cfg.kernrange * P.h i ∧
    P.r i k + cfg.kernrange * P.h i ≤ c.hmx k
  hminTight : ∀ k, c.hmin k = cfg.big ∨ ∃ i ∈ l, c.hmin k = P.r i k - cfg.kernrange * P.h i
  hmxTight : ∀ k, c.hmx k = -cfg.big ∨ ∃ i ∈ l, c.hmx k = P.r i k + cfg.kernrange * P.h i
  hmax : ∀ i ∈ l, P.h i ≤ c.hmax
  hmaxTight : c.hmax = 0 ∨ ∃ i ∈ l, c.hmax = P.h i
  hmaxNonneg : 0 ≤ c.hmax

/-- `c'` is `c` but for the fields which `UpdateHmaxValues` writes -/
def HOnly (c c' : Props n) : Prop :=
  c' = { c with hmax := c'.hmax, hmin := c'.hmin, hmx := c'.hmx }

theorem HOnly.refl (c : Props n) : HOnly c c := rfl

theorem HOnly.trans {a b c : Props n} (h : HOnly a b) (h' : HOnly b c) : HOnly a c := by
  unfold HOnly at *
  rw [h', h]

theorem HOnly.N {c c' : Props n} (h : HOnly c c') : c'.N = c.N := by rw [h]

theorem hsum_zero (c : Props n) : HSum cfg P [] (hZero cfg c) := by
  constructor <;> simp [hZero]

theorem hsum_snoc {l : List ℕ} {c : Props n} (i : ℕ) (h : HSum cfg P l c) :
    HSum cfg P (l ++ [i]) (hLeafBody cfg P c i) := by
  constructor
  · intro j hj k
    rw [List.mem_append, List.mem_singleton] at hj
    simp only [hLeafBody]
    constructor
    · split_ifs with hlt
      · rcases hj with hj | rfl
        · exact hlt.le.trans (h.hbox j hj k).1
        · exact le_rfl
      · rcases hj with hj | rfl
        · exact (h.hbox j hj k).1
        · exact not_lt.mp hlt
    · split_ifs with hlt
      · rcases hj with hj | rfl
        · exact (h.hbox j hj k).2.trans (le_of_lt hlt)
        · exact le_rfl
      · rcases hj with hj | rfl
        · exact (h.hbox j hj k).2
        · exact not_lt.mp hlt
  · intro k
    simp only [hLeafBody]
    split_ifs with hlt
    · exact Or.inr ⟨i, by simp, rfl⟩
    · rcases h.hminTight k with e | ⟨j, hj, e⟩
      · exact Or.inl e
      · exact Or.inr ⟨j, by simp [hj], e⟩
  · intro k
    simp only [hLeafBody]
    split_ifs with hlt
    · exact Or.inr ⟨i, by simp, rfl⟩
    · rcases h.hmxTight k with e | ⟨j, hj, e⟩
      · exact Or.inl e
      · exact Or.inr ⟨j, by simp [hj], e⟩
  · intro j hj
    rw [List.mem_append, List.mem_singleton] at hj
    simp only [hLeafBody]
    rcases hj with hj | rfl
    · exact (h.hmax j hj).trans (le_max_left _ _)
    · exact le_max_right _ _
  · simp only [hLeafBody]
    rcases max_choice c.hmax (P.h i) with e | e
    · rw [e]
      rcases h.hmaxTight with e' | ⟨j, hj, e'⟩
      · exact Or.inl e'
      · exact Or.inr ⟨j, by simp [hj], e'⟩
    · rw [e]; exact Or.inr ⟨i, by simp, rfl⟩
  · exact h.hmaxNonneg.trans (le_max_left _ _)

theorem hsum_foldl : ∀ (l p : List ℕ) (c : Props n), HSum cfg P p c →
    HSum cfg P (p ++ l) (l.foldl (hLeafBody cfg P) c) := by
  intro l
  induction l with
  | nil => intro p c h; simpa using h
  | cons a l ih =>
    intro p c h
    have := ih (p ++ [a]) _ (hsum_snoc a h)
    rwa [List.append_assoc, List.singleton_append] at this

theorem hsum_leaf (l : List ℕ) (c : Props n) : HSum cfg P l (hLeaf cfg P l c) := by
  simpa [hLeaf] using hsum_foldl (cfg := cfg) (P := P) l [] _ (hsum_zero c)

theorem honly_leafBody (c0 c : Props n) (i : ℕ) (h : HOnly c0 c) : HOnly c0 (hLeafBody cfg P c i) := by
  unfold HOnly at *
  unfold hLeafBody
  rw [h]

theorem honly_leaf (l : List ℕ) (c : Props n) : HOnly c (hLeaf cfg P l c) := by
  have : ∀ (l : List ℕ) (a : Props n), HOnly c a → HOnly c (l.foldl (hLeafBody cfg P) a) := by
    intro l
    induction l with
    | nil => intro a h; exact h
    | cons x l ih => intro a h; exact ih _ (honly_leafBody c a x h)
  exact this l _ rfl

/-- adding a child with the right smoothing data -/
theorem hsum_child {l l' : List ℕ} {c ch : Props n} (hN : ch.N = l'.length) (hch : HSum cfg P l' ch)
    (h : HSum cfg P l c) : HSum cfg P (l ++ l') (hChild ch c) := by
  unfold hChild
  by_cases h0 : ch.N > 0
  · rw [if_pos h0]
    constructor
    · intro j hj k
      rcases List.mem_append.mp hj with hj | hj
      · exact ⟨(min_le_right _ _).trans (h.hbox j hj k).1, (h.hbox j hj k).2.trans (le_max_right _ _)⟩
      · exact ⟨(min_le_left _ _).trans (hch.hbox j hj k).1, (hch.hbox j hj k).2.trans (le_max_left _ _)⟩
    · intro k
      rcases min_choice (ch.hmin k) (c.hmin k) with e | e
      · simp only [e]
        rcases hch.hminTight k with e' | ⟨j, hj, e'⟩
        · exact Or.inl e'
        · exact Or.inr ⟨j, by simp [hj], e'⟩
      · simp only [e]
        rcases h.hminTight k with e' | ⟨j, hj, e'⟩
        · exact Or.inl e'
        · exact Or.inr ⟨j, by simp [hj], e'⟩
    · intro k
      rcases max_choice (ch.hmx k) (c.hmx k) with e | e
      · simp only [e]
        rcases hch.hmxTight k with e' | ⟨j, hj, e'⟩
        · exact Or.inl e'
        · exact Or.inr ⟨j, by simp [hj], e'⟩
      · simp only [e]
        rcases h.hmxTight k with e' | ⟨j, hj, e'⟩
        · exact Or.inl e'
        · exact Or.inr ⟨j, by simp [hj], e'⟩
    · intro j hj
      rcases List.mem_append.mp hj with hj | hj
      · exact (h.hmax j hj).trans (le_max_left _ _)
      · exact (hch.hmax j hj).trans (le_max_right _ _)
    · simp only
      rcases max_choice c.hmax ch.hmax with e | e
      · rw [e]
        rcases h.hmaxTight with e' | ⟨j, hj, e'⟩
        · exact Or.inl e'
        · exact Or.inr ⟨j, by simp [hj], e'⟩
      · rw [e]
        rcases hch.hmaxTight with e' | ⟨j, hj, e'⟩
        · exact Or.inl e'
        · exact Or.inr ⟨j, by simp [hj], e'⟩
    · exact h.hmaxNonneg.trans (le_max_left _ _)
  · rw [if_neg h0]
    have : l' = [] := List.length_eq_zero_iff.mp (by omega)
    rwa [this, List.append_nil]

theorem honly_child (c0 ch c : Props n) (h : HOnly c0 c) : HOnly c0 (hChild ch c) := by
  unfold HOnly at *
  unfold hChild
  split_ifs
  · rw [h]
  · exact h

/-- the opening distance belonging to the present `rmax` and `hmax` -/
noncomputable def withCdist (cfg : Cfg) (c : Props n) : Props n :=
  { c with cdistsqd := max (c.rmax ^ 2) (c.hmax ^ 2) / cfg.thetamaxsqd }

/-- new smoothing lengths -/
def Parts.withH (P : Parts n) (h' : ℕ → ℝ) : Parts n := { P with h := h' }

theorem Summary.refresh {l : List ℕ} {c c' : Props n} {h' : ℕ → ℝ} (hs : Summary cfg P l c) (ho : HOnly c c')
    (hh : HSum cfg (P.withH h') l c') : Summary cfg (P.withH h') l (withCdist cfg c') := by
  have e := ho
  unfold HOnly at e
  have eN : c'.N = c.N := by rw [e]
  have eA : c'.Nactive = c.Nactive := by rw [e]
  have em : c'.m = c.m := by rw [e]
  have er : c'.r = c.r := by rw [e]
  have ev : c'.v = c.v := by rw [e]
  have eb1 : c'.bbmin = c.bbmin := by rw [e]
  have eb2 : c'.bbmax = c.bbmax := by rw [e]
  have ev1 : c'.vmin = c.vmin := by rw [e]
  have ev2 : c'.vmax = c.vmax := by rw [e]
  have es : c'.maxsound = c.maxsound := by rw [e]
  have ea : c'.amin = c.amin := by rw [e]
  have ef : c'.macfactor = c.macfactor := by rw [e]
  have ec : c'.rcell = c.rcell := by rw [e]
  have ex : c'.rmax = c.rmax := by rw [e]
  have eq : c'.q = c.q := by rw [e]
  constructor
  · simp only [withCdist, eN]; exact hs.N
  · simp only [withCdist, eA]; exact hs.Nactive
  · simp only [withCdist, em]; exact hs.m
  · simp only [withCdist, em, er]; exact hs.com
  · simp only [withCdist, em, ev]; exact hs.mom
  · simp only [withCdist, eb1, eb2]; exact hs.bb
  · simp only [withCdist, eb1]; exact hs.bbminTight
  · simp only [withCdist, eb2]; exact hs.bbmaxTight
  · exact hh.hbox
  · exact hh.hminTight
  · exact hh.hmxTight
  · simp only [withCdist, ev1, ev2]; exact hs.vbox
  · exact hh.hmax
  · exact hh.hmaxTight
  · exact hh.hmaxNonneg
  · simp only [withCdist, es]; exact hs.maxsound
  · simp only [withCdist, ea]; exact hs.amin
  · simp only [withCdist, ef]; exact hs.macfactor
  · simp only [withCdist, eN, ec, eb1, eb2]; exact hs.centre
  · simp only [withCdist, ex]; exact hs.rmaxNonneg
  · simp only [withCdist, ec, ex]; exact hs.extent
  · simp only [withCdist, eN, ex, eb1, eb2]; exact hs.size
  · intro _; rfl
  · simp only [withCdist, eq, er]; exact hs.quad

/-- the state with the opening distances belonging to the present `rmax` and `hmax` -/
noncomputable def TState.withCdist (cfg : Cfg) (s : TState n) : TState n :=
  { s with cell := fun c => KD.withCdist cfg (s.cell c) }

theorem updHmax_spec (t : Links) (L M pfuel : ℕ) (h' : ℕ → ℝ) :
    ∀ (d c g : ℕ) (l : List ℕ) (s : TState n), LaidOut t L d c g → Stocked cfg P t s M d c l → l.Nodup →
    l.length ≤ pfuel →
    ∃ s', (∀ fuel, d + 1 ≤ fuel → updHmax cfg (P.withH h') t L pfuel fuel c s = some s') ∧
      HSum cfg (P.withH h') l (s'.cell c) ∧ HOnly (s.cell c) (s'.cell c) ∧
      Stocked cfg (P.withH h') t (s'.withCdist cfg) M d c l ∧ s'.ifirst = s.ifirst ∧ s'.ilast = s.ilast ∧ s'.inext = s.inext ∧
      (∀ i, i < c ∨ c + fullSize d ≤ i → s'.cell i = s.cell i) ∧ ∀ i, HOnly (s.cell i) (s'.cell i) := by
  intro d
  induction d with
  | zero =>
    intro c g l s hlo hs hnd hf
    obtain ⟨a0, am, a1, a2, a3⟩ := hs
    obtain ⟨b1, b2, b3⟩ := hlo
    have htr := traverse_chained l pfuel a3 hnd hf
    rw [← a1, ← a2] at htr
    refine ⟨{ s with cell := Function.update s.cell c (hLeaf cfg (P.withH h') l (s.cell c)) }, ?_, ?_, ?_, ?_,
      rfl, rfl, rfl, ?_, ?_⟩
    · intro fuel hfu
      obtain ⟨fuel, rfl⟩ : ∃ k, fuel = k + 1 := ⟨fuel - 1, by omega⟩
      simp only [updHmax, updHmaxCell]
      rw [if_pos (by omega), if_pos (by omega), htr]
    · simp only [Function.update_self]; exact hsum_leaf l _
    · simp only [Function.update_self]; exact honly_leaf l _
    · refine ⟨?_, am, a1, a2, a3⟩
      simp only [TState.withCdist, Function.update_self]
      exact a0.refresh (honly_leaf l _) (hsum_leaf l _)
    · intro i hi
      rw [fullSize_zero] at hi
      exact Function.update_of_ne (by omega) _ _
    · intro i
      by_cases e : i = c
      · subst e; simp only [Function.update_self]; exact honly_leaf l _
      · simp only [Function.update_of_ne e]; exact HOnly.refl _
  | succ d ih =>
    intro c g l s hlo hs hnd hf
    have hfs := fullSize_succ d
    have hfs1 := fullSize_add_one d
    have hpos : 0 < fullSize d := by have := Nat.one_lt_two_pow (n := d+1) (by omega); omega
    obtain ⟨a0, c1, c2, l1, l2, q1, q2, rfl, q7, q8⟩ := hs
    obtain ⟨b1, b2, b3, b4, b5, b6, b7⟩ := hlo
    rw [q1] at b3; rw [q2] at b4
    obtain rfl := Option.some.inj b3
    obtain rfl := Option.some.inj b4
    have hnd1 : l1.Nodup := (List.nodup_append.mp hnd).1
    have hnd2 : l2.Nodup := (List.nodup_append.mp hnd).2.1
    rw [List.length_append] at hf
    obtain ⟨s1, e1, k1, k1o, k1s, f1, f2, f3, f4, f5⟩ := ih (c+1) g l1 s b6 q7 hnd1 (by omega)
    have q8' : Stocked cfg P t s1 M d (c + 1 + fullSize d) l2 := by
      refine Stocked.congr d _ _ l2 b7 q8 ?_ ?_
      · intro i h1 _
        exact ⟨by rw [f1], by rw [f2], f4 i (by omega)⟩
      · intro x hx
        rw [f3]
    obtain ⟨s2, e2, k2, k2o, k2s, g1, g2, g3, g4, g5⟩ := ih (c + 1 + fullSize d) (g + 2 ^ d) l2 s1 b7 q8' hnd2 (by omega)
    have n1 : (s2.cell (c+1)).N = l1.length := by
      rw [g4 (c+1) (by omega), k1o.N, q7.summary.N]
    have n2 : (s2.cell (c + 1 + fullSize d)).N = l2.length := by
      rw [k2o.N, q8'.summary.N]
    have H1 : HSum cfg (P.withH h') l1 (s2.cell (c+1)) := by rw [g4 (c+1) (by omega)]; exact k1
    have e0 : s2.cell c = s.cell c := by rw [g4 c (by omega), f4 c (by omega)]
    have hS : HSum cfg (P.withH h') (l1 ++ l2) (hInner cfg (s2.cell (c+1)) (s2.cell (c + 1 + fullSize d)) (s2.cell c)) := by
      have := hsum_child n2 k2 (hsum_child n1 H1 (hsum_zero (cfg := cfg) (P := P.withH h') (s2.cell c)))
      simpa [hInner] using this
    have hO : HOnly (s.cell c) (hInner cfg (s2.cell (c+1)) (s2.cell (c + 1 + fullSize d)) (s2.cell c)) := by
      rw [← e0]
      exact honly_child _ _ _ (honly_child _ _ _ rfl)
    refine ⟨{ s2 with cell := Function.update s2.cell c (hInner cfg (s2.cell (c+1))
        (s2.cell (c + 1 + fullSize d)) (s2.cell c)) }, ?_, ?_, ?_, ?_, by rw [← f1, ← g1], by rw [← f2, ← g2],
        by rw [← f3, ← g3], ?_, ?_⟩
    · intro fuel hfu
      obtain ⟨fuel, rfl⟩ : ∃ k, fuel = k + 1 := ⟨fuel - 1, by omega⟩
      have hne : t.level c ≠ L := by omega
      simp only [updHmax, q1, q2, e1 fuel (by omega), e2 fuel (by omega), bind, Option.bind, updHmaxCell, if_neg hne]
    · simp only [Function.update_self]; exact hS
    · simp only [Function.update_self]; exact hO
    · refine ⟨?_, _, _, l1, l2, q1, q2, rfl, ?_, ?_⟩
      · simp only [TState.withCdist, Function.update_self]
        exact a0.refresh hO hS
      · refine Stocked.congr d _ _ _ b6 k1s ?_ ?_
        · intro i h1 h2
          refine ⟨by simp only [TState.withCdist, g1], by simp only [TState.withCdist, g2], ?_⟩
          simp only [TState.withCdist]
          rw [Function.update_of_ne (by omega), g4 i (by omega)]
        · intro x _; simp only [TState.withCdist, g3]
      · refine Stocked.congr d _ _ _ b7 k2s ?_ (fun _ _ => rfl)
        intro i h1 h2
        refine ⟨rfl, rfl, ?_⟩
        simp only [TState.withCdist]
        rw [Function.update_of_ne (by omega)]
    · intro i hi
      show Function.update s2.cell c _ i = _
      rw [Function.update_of_ne (by omega), g4 i (by omega), f4 i (by omega)]
    · intro i
      by_cases e : i = c
      · subst e; simp only [Function.update_self]; exact hO
      · simp only [Function.update_of_ne e]; exact (f5 i).trans (g5 i)

/-- the particles after moving with their velocities for a time `dt` -/
def Parts.moved (P : Parts n) (dt : ℝ) : Parts n := { P with r := fun i k => P.r i k + P.v i k * dt }

theorem Summary.extrapolate {l : List ℕ} {c : Props n} (dt : ℝ) (u : Vec n ℝ) (hs : Summary cfg P l c)
    (hv : ∀ i ∈ l, P.v i = u) (hm : ∀ i ∈ l, P.grav i = true ∧ 0 < P.m i) (he : l = [] → c.v = fun _ => 0)
    (hbig : ∀ i ∈ l, ∀ k, -cfg.big < P.r i k ∧ P.r i k < cfg.big) (hh : ∀ i ∈ l, 0 ≤ cfg.kernrange * P.h i) :
    Summary cfg (P.moved dt) l (extrapolateCell dt c) := by
  have hgs : ∀ f : ℕ → ℝ, gsum (P.moved dt) l f = gsum P l f := fun f => rfl
  have hcv : l ≠ [] → c.v = u := by
    intro hne
    have hmp : 0 < c.m := by
      obtain ⟨i, hi⟩ := List.exists_mem_of_ne_nil l hne
      rw [hs.m]
      have hmem : P.m i ∈ (l.filter P.grav).map P.m :=
        List.mem_map.mpr ⟨i, List.mem_filter.mpr ⟨hi, (hm i hi).1⟩, rfl⟩
      refine lt_of_lt_of_le (hm i hi).2 (List.single_le_sum (fun x hx => ?_) _ hmem)
      obtain ⟨y, hy, rfl⟩ := List.mem_map.mp hx
      exact (hm y (List.mem_filter.mp hy).1).2.le
    funext k
    have h1 := hs.mom hmp k
    have h2 : gsum P l (fun i => P.m i * P.v i k) = gsum P l P.m * u k := by
      rw [← gsum_mul]
      exact gsum_congr P fun i hi => by rw [hv i hi]
    rw [h2, ← hs.m] at h1
    exact mul_left_cancel₀ hmp.ne' h1
  have hk : ∀ i ∈ l, ∀ k, P.v i k = c.v k := fun i hi k => by
    rw [hv i hi, hcv (List.ne_nil_of_mem hi)]
  have h0 : l = [] → ∀ k, c.v k = 0 := fun h k => by rw [he h]
  constructor
  · exact hs.N
  · exact hs.Nactive
  · exact hs.m
  · intro hp k
    rw [hgs]
    have h1 := hs.com hp k
    have h2 := hs.mom hp k
    simp only [extrapolateCell, Parts.moved]
    have : gsum P l (fun i => P.m i * (P.r i k + P.v i k * dt)) =
        gsum P l (fun i => P.m i * P.r i k) + gsum P l (fun i => P.m i * P.v i k) * dt := by
      rw [← gsum_mul, ← gsum_add]
      exact gsum_congr P fun i _ => by ring
    rw [this, ← h1, ← h2]; ring
  · exact hs.mom
  · intro i hi k
    simp only [extrapolateCell, Parts.moved, hk i hi k]
    exact ⟨by linarith [(hs.bb i hi k).1], by linarith [(hs.bb i hi k).2]⟩
  · intro k
    simp only [extrapolateCell, Parts.moved]
    rcases hs.bbminTight k with e | ⟨i, hi, e⟩
    · by_cases hl : l = []
      · exact Or.inl (by rw [e, h0 hl k]; ring)
      · exfalso
        obtain ⟨i, hi⟩ := List.exists_mem_of_ne_nil l hl
        linarith [(hs.bb i hi k).1, (hbig i hi k).2]
    · exact Or.inr ⟨i, hi, by rw [e, hk i hi k]⟩
  · intro k
    simp only [extrapolateCell, Parts.moved]
    rcases hs.bbmaxTight k with e | ⟨i, hi, e⟩
    · by_cases hl : l = []
      · exact Or.inl (by rw [e, h0 hl k]; ring)
      · exfalso
        obtain ⟨i, hi⟩ := List.exists_mem_of_ne_nil l hl
        linarith [(hs.bb i hi k).2, (hbig i hi k).1]
    · exact Or.inr ⟨i, hi, by rw [e, hk i hi k]⟩
  · intro i hi k
    simp only [extrapolateCell, Parts.moved, hk i hi k]
    exact ⟨by linarith [(hs.hbox i hi k).1], by linarith [(hs.hbox i hi k).2]⟩
  · intro k
    simp only [extrapolateCell, Parts.moved]
    rcases hs.hminTight k with e | ⟨i, hi, e⟩
    · by_cases hl : l = []
      · exact Or.inl (by rw [e, h0 hl k]; ring)
      · exfalso
        obtain ⟨i, hi⟩ := List.exists_mem_of_ne_nil l hl
        linarith [(hs.hbox i hi k).1, (hbig i hi k).2, hh i hi]
    · exact Or.inr ⟨i, hi, by rw [e, hk i hi k]; ring⟩
  · intro k
    simp only [extrapolateCell, Parts.moved]
    rcases hs.hmxTight k with e | ⟨i, hi, e⟩
    · by_cases hl : l = []
      · exact Or.inl (by rw [e, h0 hl k]; ring)
      · exfalso
        obtain ⟨i, hi⟩ := List.exists_mem_of_ne_nil l hl
        linarith [(hs.hbox i hi k).2, (hbig i hi k).1, hh i hi]
    · exact Or.inr ⟨i, hi, by rw [e, hk i hi k]; ring⟩
  · exact hs.vbox
  · exact hs.hmax
  · exact hs.hmaxTight
  · exact hs.hmaxNonneg
  · exact hs.maxsound
  · exact hs.amin
  · exact hs.macfactor
  · intro hN k
    simp only [extrapolateCell]
    rw [hs.centre hN k]; ring
  · exact hs.rmaxNonneg
  · intro i hi
    have := hs.extent i hi
    simp only [extrapolateCell, Parts.moved, hk i hi]
    simpa only [add_sub_add_right_eq_sub] using this
  · intro hN
    have := hs.size hN
    simp only [extrapolateCell]
    simpa only [add_sub_add_right_eq_sub] using this
  · exact hs.cdist
  · intro hq k
    rw [hgs]
    simp only [extrapolateCell, Parts.moved]
    rw [hs.quad hq k]
    refine gsum_congr P fun i hi => ?_
    simp only [hk i hi, add_sub_add_right_eq_sub]

theorem Stocked.extrapolate {t : Links} {L M Ncell : ℕ} (dt : ℝ) (u : Vec n ℝ) :
    ∀ (d c g : ℕ) (l : List ℕ) (s : TState n), LaidOut t L d c g → Stocked cfg P t s M d c l →
    c + fullSize d ≤ Ncell → (∀ i ∈ l, P.v i = u) → (∀ i ∈ l, P.grav i = true ∧ 0 < P.m i) →
    (∀ c, (s.cell c).N = 0 → (s.cell c).v = fun _ => 0) →
    (∀ i ∈ l, ∀ k, -cfg.big < P.r i k ∧ P.r i k < cfg.big) → (∀ i ∈ l, 0 ≤ cfg.kernrange * P.h i) →
    Stocked cfg (P.moved dt) t (KD.extrapolate dt Ncell s) M d c l := by
  intro d
  induction d with
  | zero =>
    intro c g l s hlo hs hc hv hm he hb hh
    rw [fullSize_zero] at hc
    obtain ⟨a0, am, a1, a2, a3⟩ := hs
    refine ⟨?_, am, a1, a2, a3⟩
    simp only [KD.extrapolate]
    rw [if_pos (by omega)]
    exact a0.extrapolate dt u hv hm (fun h => he c (by rw [a0.N, h]; rfl)) hb hh
  | succ d ih =>
    intro c g l s hlo hs hc hv hm he hb hh
    have hfs := fullSize_succ d
    obtain ⟨a0, c1, c2, l1, l2, q1, q2, rfl, q7, q8⟩ := hs
    obtain ⟨b1, b2, b3, b4, b5, b6, b7⟩ := hlo
    rw [q1] at b3; rw [q2] at b4
    obtain rfl := Option.some.inj b3
    obtain rfl := Option.some.inj b4
    have m1 : ∀ i ∈ l1, i ∈ l1 ++ l2 := fun i h => List.mem_append_left _ h
    have m2 : ∀ i ∈ l2, i ∈ l1 ++ l2 := fun i h => List.mem_append_right _ h
    refine ⟨?_, _, _, l1, l2, q1, q2, rfl, ?_, ?_⟩
    · simp only [KD.extrapolate]
      rw [if_pos (by omega)]
      exact a0.extrapolate dt u hv hm (fun h => he c (by rw [a0.N, h]; rfl)) hb hh
    · exact ih _ _ _ _ b6 q7 (by omega) (fun i h => hv i (m1 i h)) (fun i h => hm i (m1 i h)) he
        (fun i h => hb i (m1 i h)) fun i h => hh i (m1 i h)
    · exact ih _ _ _ _ b7 q8 (by omega) (fun i h => hv i (m2 i h)) (fun i h => hm i (m2 i h)) he
        (fun i h => hb i (m2 i h)) fun i h => hh i (m2 i h)

end Gandalf.KD

namespace Gandalf.Forest

theorem nodes_of_covers (leaf : ℕ → Option (List ℕ)) (Q : ℕ → List ℕ → Prop) (liv : ℕ → List ℕ)
    (hliv : ∀ c l, leaf c = some l → liv c = l) : ∀ (f : Forest) (l : List ℕ), f.Covers leaf Q l →
    l = f.leaves.flatMap liv ∧ (∀ c g, f.Node c g → Q c ((cons c g nil).leaves.flatMap liv)) ∧
    ∀ c ∈ f.leaves, leaf c = some (liv c) := by
  intro f
  induction f with
  | nil => intro l h; exact ⟨h, fun _ _ h => absurd h id, by simp [leaves]⟩
  | cons c ch rest ih1 ih2 =>
    rintro l ⟨l1, l2, rfl, q, a, b, d⟩
    obtain ⟨r1, r2, r3⟩ := ih2 l2 d
    rw [leaves_cons, List.flatMap_append, ← r1]
    by_cases hc : ch = nil
    · subst hc
      have e : l1 = (cons c nil nil).leaves.flatMap liv := by
        simp only [leaves, List.flatMap_cons, List.flatMap_nil, List.append_nil]
        exact (hliv c l1 (a rfl)).symm
      refine ⟨by rw [← e], ?_, ?_⟩
      · rintro x g (⟨rfl, rfl⟩ | h | h)
        · rw [← e]; exact q
        · exact absurd h id
        · exact r2 x g h
      · intro x hx
        rcases List.mem_append.mp hx with hx | hx
        · simp only [leaves, List.mem_singleton] at hx
          subst hx
          rw [hliv x l1 (a rfl)]; exact a rfl
        · exact r3 x hx
    · obtain ⟨s1, s2, s3⟩ := ih1 l1 (b hc)
      rw [leaves_inner c hc, ← s1]
      refine ⟨rfl, ?_, ?_⟩
      · rintro x g (⟨rfl, rfl⟩ | h | h)
        · rw [leaves_inner x hc, ← s1]; exact q
        · exact s2 x g h
        · exact r2 x g h
      · intro x hx
        rcases List.mem_append.mp hx with hx | hx
        · exact s3 x hx
        · exact r3 x hx

/-- the leaves are the cells which are not opened -/
theorem leaves_eq_filter {L : Walk.Links} : ∀ (f : Forest) (nx : ℕ), f.Linked L nx →
    f.leaves = f.cells.filter fun c => decide (L.copen c = none) := by
  intro f
  induction f with
  | nil => intro _ _; rfl
  | cons c ch rest ih1 ih2 =>
    rintro nx ⟨l1, l2, l3, l4⟩
    rw [leaves_cons, cells, List.filter_cons, ih2 _ l4]
    cases ch with
    | nil =>
      rw [if_pos (by simpa using l2)]
      simp [leaves, cells]
    | cons d u v =>
      rw [if_neg (by simp [l2]), leaves_inner c (by simp), ih1 _ l3, List.filter_append]

end Gandalf.Forest

namespace Gandalf.Oct
open KD

variable {n : ℕ} {cfg : Cfg} {P : Parts n}

/-- state of the refresh when the cells in `D` are done -/
structure HInv (cfg : Cfg) (P : Parts n) (f : Forest) (liv : ℕ → List ℕ) (s0 : TState n) (D : List ℕ) (s : TState n) :
    Prop where
  done : ∀ c g, f.Node c g → c ∈ D → HSum cfg P ((Forest.cons c g .nil).leaves.flatMap liv) (s.cell c)
  only : ∀ c, HOnly (s0.cell c) (s.cell c)
  ifirst : s.ifirst = s0.ifirst
  ilast : s.ilast = s0.ilast
  inext : s.inext = s0.inext
  other : ∀ c, c ∉ D → s.cell c = s0.cell c

theorem fold_hChild (cell : ℕ → Props n) (liv : ℕ → List ℕ) : ∀ (g : Forest),
    (∀ d h, g.Root d h → HSum cfg P ((Forest.cons d h .nil).leaves.flatMap liv) (cell d) ∧
      (cell d).N = ((Forest.cons d h .nil).leaves.flatMap liv).length) → ∀ (p : List ℕ) (a : Props n), HSum cfg P p a →
    HSum cfg P (p ++ g.leaves.flatMap liv) ((g.tops.map cell).foldl (fun a ch => hChild ch a) a) := by
  intro g
  induction g with
  | nil => intro _ p a h; simpa [Forest.leaves, Forest.tops] using h
  | cons c ch rest _ ih =>
    intro H p a h
    rw [Forest.leaves_cons, List.flatMap_append, ← List.append_assoc]
    obtain ⟨h1, h2⟩ := H c ch (Or.inl ⟨rfl, rfl⟩)
    exact ih (fun d h hd => H d h (Or.inr hd)) _ _ (hsum_child h2 h1 h)

theorem honly_foldChild (c0 : Props n) : ∀ (ks : List (Props n)) (a : Props n), HOnly c0 a →
    HOnly c0 (ks.foldl (fun a ch => hChild ch a) a) := by
  intro ks
  induction ks with
  | nil => intro a h; exact h
  | cons x ks ih => intro a h; exact ih _ (honly_child c0 x a h)

theorem updHmaxCell_inv {L : Walk.Links} {f : Forest} {liv : ℕ → List ℕ} {Nend : ℕ} (hL : f.Linked L Nend)
    (hn : f.cells.Nodup) (hend : Nend ∉ f.cells) {pfuel kfuel : ℕ} (hkf : f.cells.length ≤ kfuel) {s0 : TState n}
    (hleaf : ∀ c ∈ f.leaves, LeafList.traverse s0.inext (s0.ilast c) pfuel (s0.ifirst c) = some (liv c))
    (hN : ∀ c g, f.Node c g → (s0.cell c).N = ((Forest.cons c g .nil).leaves.flatMap liv).length)
    {D : List ℕ} {s : TState n} (h : HInv cfg P f liv s0 D s) {c : ℕ} {g : Forest} (hc : f.Node c g) (hcD : c ∉ D)
    (hkids : ∀ d ∈ g.tops, d ∈ D) :
    ∃ s', updHmaxCell cfg P L pfuel kfuel s c = some s' ∧ HInv cfg P f liv s0 (D ++ [c]) s' := by
  obtain ⟨nx, l1, l2, l3, l4⟩ := Forest.Node.linked hL hn hend hc
  have fin : ∀ p : Props n, HOnly (s0.cell c) p → HSum cfg P ((Forest.cons c g .nil).leaves.flatMap liv) p →
      HInv cfg P f liv s0 (D ++ [c]) { s with cell := Function.update s.cell c p } := by
    intro p hp1 hp2
    constructor
    · intro d g' hd hdD
      by_cases e : d = c
      · subst e
        obtain rfl := Forest.Node.unique hn hd hc
        simp only [Function.update_self]
        exact hp2
      · simp only [Function.update_of_ne e]
        exact h.done d g' hd (by simpa [e] using hdD)
    · intro d
      by_cases e : d = c
      · subst e; simp only [Function.update_self]; exact hp1
      · simp only [Function.update_of_ne e]; exact h.only d
    · exact h.ifirst
    · exact h.ilast
    · exact h.inext
    · intro d hd
      simp only [List.mem_append, List.mem_singleton, not_or] at hd
      simp only [Function.update_of_ne hd.2]
      exact h.other d hd.1
  have e0 : s.cell c = s0.cell c := h.other c hcD
  cases g with
  | nil =>
    have hcl : c ∈ f.leaves := Forest.mem_leaves.mpr hc
    have htr := hleaf c hcl
    rw [← h.ifirst, ← h.ilast, ← h.inext] at htr
    refine ⟨_, ?_, fin (hLeaf cfg P (liv c) (s.cell c)) ?_ ?_⟩
    · unfold updHmaxCell
      rw [l4]
      simp only [htr]
    · rw [e0]; exact honly_leaf _ _
    · simp only [Forest.leaves, List.flatMap_cons, List.flatMap_nil, List.append_nil]
      exact hsum_leaf _ _
  | cons c1 ch1 rest1 =>
    have hk := kids_eq (Forest.cons c1 ch1 rest1) kfuel l2 l3
      ((Forest.tops_length _).trans ((Forest.Node.cells_le hc).trans hkf))
    have e : (Forest.cons c1 ch1 rest1).entry nx = c1 := rfl
    rw [e] at hk
    refine ⟨_, ?_, fin (((Forest.cons c1 ch1 rest1).tops.map s.cell).foldl (fun a ch => hChild ch a)
      (hZero cfg (s.cell c))) ?_ ?_⟩
    · unfold updHmaxCell
      rw [l4]
      simp only [l1, hk]
    · rw [e0]; exact honly_foldChild _ _ _ rfl
    · rw [Forest.leaves_inner c (by simp)]
      have := fold_hChild (cfg := cfg) (P := P) s.cell liv (Forest.cons c1 ch1 rest1) (fun x y hxy => ?_) []
        (hZero cfg (s.cell c)) (hsum_zero _)
      · rwa [List.nil_append] at this
      · refine ⟨h.done x y (hc.trans hxy.node) (hkids x (Forest.mem_tops.mpr ⟨y, hxy⟩)), ?_⟩
        rw [(h.only x).N]
        exact hN x y (hc.trans hxy.node)

theorem updHmax_inv {L : Walk.Links} {f : Forest} {liv : ℕ → List ℕ} {Nend : ℕ} (hL : f.Linked L Nend)
    (hn : f.cells.Nodup) (hend : Nend ∉ f.cells) {pfuel kfuel : ℕ} (hkf : f.cells.length ≤ kfuel) {s0 : TState n}
    (hleaf : ∀ c ∈ f.leaves, LeafList.traverse s0.inext (s0.ilast c) pfuel (s0.ifirst c) = some (liv c))
    (hN : ∀ c g, f.Node c g → (s0.cell c).N = ((Forest.cons c g .nil).leaves.flatMap liv).length)
    {level : ℕ → ℕ} {l0 : ℕ} (hlev : f.Levels level l0) (O : List ℕ) (hO : O.Nodup)
    (hOm : ∀ c, c ∈ O ↔ c ∈ f.cells) (hOl : O.Pairwise fun a b => level b ≤ level a) :
    ∀ (cs D : List ℕ) (s : TState n), D ++ cs = O → HInv cfg P f liv s0 D s →
    ∃ s', updHmax cfg P L pfuel kfuel cs s = some s' ∧ HInv cfg P f liv s0 O s' := by
  intro cs
  induction cs with
  | nil => intro D s hD h; rw [List.append_nil] at hD; subst hD; exact ⟨s, rfl, h⟩
  | cons c cs ih =>
    intro D s hD h
    have hcO : c ∈ f.cells := (hOm c).mp (by rw [← hD]; simp)
    obtain ⟨g, hg⟩ := Forest.mem_cells_iff.mp hcO
    rw [← hD] at hO hOl
    have hcD : c ∉ D := fun hm => (List.nodup_append.mp hO).2.2 c hm c (by simp) rfl
    obtain ⟨s1, e1, h1⟩ := updHmaxCell_inv hL hn hend hkf hleaf hN h hg hcD (by
      intro d hd
      obtain ⟨g', hg'⟩ := Forest.mem_tops.mp hd
      obtain ⟨l', hl1, hl2⟩ := Forest.Node.level hlev hg
      have hld := hg'.level hl2
      have hdO : d ∈ D ++ c :: cs := by rw [hD]; exact (hOm d).mpr (hg.trans hg'.node).mem
      rcases List.mem_append.mp hdO with hd' | hd'
      · exact hd'
      · exfalso
        rcases List.mem_cons.mp hd' with rfl | hd'
        · omega
        · have := (List.pairwise_append.mp hOl).2.1
          have := (List.pairwise_cons.mp this).1 d hd'
          omega)
    obtain ⟨s2, e2, h2⟩ := ih (D ++ [c]) s1 (by rw [← hD]; simp) h1
    refine ⟨s2, ?_, h2⟩
    rw [updHmax, e1]
    exact e2

end Gandalf.Oct

namespace Gandalf.Tree
open KD

variable {n : ℕ}

theorem updActive_spec (leaf : ℕ → Bool) (test : ℕ → Bool) (pfuel : ℕ) (T : Tree n) (lst : ℕ → List ℕ) :
    ∀ m, (∀ c < m, leaf c = true → T.leafList pfuel c = some (lst c)) →
    updActive leaf test pfuel m T = some { T with
      cell := fun c => if c < m then { T.cell c with
        Nactive := if leaf c then ((lst c).filter test).length else 0 } else T.cell c } := by
  intro m
  induction m with
  | zero => intro _; simp [updActive]
  | succ m ih =>
    intro h
    rw [updActive, ih (fun c hc => h c (by omega))]
    simp only [Option.bind_eq_bind, Option.bind_some]
    have e : (countLeaf { T with
      cell := fun c => if c < m then { T.cell c with
        Nactive := if leaf c then ((lst c).filter test).length else 0 } else T.cell c } (leaf m) test pfuel m) =
        some (if leaf m then ((lst m).filter test).length else 0) := by
      unfold countLeaf
      cases hl : leaf m with
      | false => rfl
      | true =>
        have := h m (by omega) hl
        simp only [Tree.leafList] at this ⊢
        rw [this]
        rfl
    rw [e]
    simp only [Option.bind_some]
    congr 2
    funext c
    by_cases hc : c = m
    · subst hc
      simp
    · rw [Function.update_of_ne hc]
      by_cases h1 : c < m
      · have h2 : c < m + 1 := by omega
        simp only [h1, h2, if_true]
      · have h2 : ¬ c < m + 1 := by omega
        simp only [h1, h2, if_false]

theorem flatMap_filter_nil {α β : Type*} (p : α → Bool) (g : α → List β) : ∀ (l : List α),
    (∀ a ∈ l, p a = false → g a = []) → (l.filter p).flatMap g = l.flatMap g := by
  intro l
  induction l with
  | nil => intro _; rfl
  | cons a l ih =>
    intro h
    have := ih fun b hb => h b (List.mem_cons_of_mem _ hb)
    rw [List.filter_cons, List.flatMap_cons]
    cases hp : p a with
    | true => rw [if_pos rfl, List.flatMap_cons, this]
    | false =>
      rw [if_neg (by simp), this, h a (by simp) hp, List.nil_append]

end Gandalf.Tree
