import Verif.Spec.Stock
import Verif.Spec.KDLayout
import Verif.Proof.KDStructure
import Verif.Proof.LeafList

/-! Stocking computes correct summaries. -/

set_option autoImplicit false

namespace Gandalf.KD

variable {n : ℕ}

section gsum
variable (P : Parts n)

theorem gsum_nil (f : ℕ → ℝ) : gsum P [] f = 0 := rfl

theorem gsum_append (l l' : List ℕ) (f : ℕ → ℝ) :
    gsum P (l ++ l') f = gsum P l f + gsum P l' f := by simp [gsum]

theorem gsum_singleton (i : ℕ) (f : ℕ → ℝ) : gsum P [i] f = if P.grav i then f i else 0 := by
  by_cases h : P.grav i <;> simp [gsum, h]

theorem gsum_add (l : List ℕ) (f g : ℕ → ℝ) :
    gsum P l (fun i => f i + g i) = gsum P l f + gsum P l g := by
  simp only [gsum]
  induction l.filter P.grav with
  | nil => simp
  | cons a t ih => simp only [List.map_cons, List.sum_cons, ih]; ring

theorem gsum_mul (l : List ℕ) (f : ℕ → ℝ) (x : ℝ) :
    gsum P l (fun i => f i * x) = gsum P l f * x := by
  simp only [gsum]
  induction l.filter P.grav with
  | nil => simp
  | cons a t ih => simp only [List.map_cons, List.sum_cons, ih]; ring

theorem gsum_congr {l : List ℕ} {f g : ℕ → ℝ} (h : ∀ i ∈ l, f i = g i) : gsum P l f = gsum P l g := by
  simp only [gsum]
  congr 1
  apply List.map_congr_left
  intro i hi
  exact h i (List.mem_filter.mp hi).1

theorem gsum_nonneg {l : List ℕ} {f : ℕ → ℝ} (h : ∀ i ∈ l, 0 ≤ f i) : 0 ≤ gsum P l f := by
  simp only [gsum]
  apply List.sum_nonneg
  intro x hx
  obtain ⟨i, hi, rfl⟩ := List.mem_map.mp hx
  exact h i (List.mem_filter.mp hi).1

/-- with non-negative masses and zero total, every mass-weighted sum vanishes -/
theorem gsum_zero_of_mass_zero {l : List ℕ} (hm : ∀ i ∈ l, 0 ≤ P.m i) (h0 : gsum P l P.m = 0)
    {f : ℕ → ℝ} (hf : ∀ i, P.m i = 0 → f i = 0) : gsum P l f = 0 := by
  induction l with
  | nil => rfl
  | cons a t ih =>
    have e : ∀ g : ℕ → ℝ, gsum P (a :: t) g = (if P.grav a then g a else 0) + gsum P t g := by
      intro g; rw [← gsum_singleton, ← gsum_append]; rfl
    rw [e] at h0 ⊢
    have h1 : 0 ≤ gsum P t P.m := gsum_nonneg P fun i hi => hm i (List.mem_cons_of_mem _ hi)
    have h2 := hm a (by simp)
    by_cases hg : P.grav a = true
    · simp only [hg, if_true] at h0 ⊢
      have ha : P.m a = 0 := by linarith
      rw [hf a ha, ih (fun i hi => hm i (List.mem_cons_of_mem _ hi)) (by linarith)]; ring
    · simp only [hg] at h0 ⊢
      rw [ih (fun i hi => hm i (List.mem_cons_of_mem _ hi)) (by simpa using h0)]; simp

end gsum

/-- accumulated values of the first leaf loop -/
structure Partial (cfg : Cfg) (P : Parts n) (l : List ℕ) (c : Props n) : Prop where
  N : c.N = l.length
  Nactive : cfg.oct = false → c.Nactive = (l.filter P.active).length
  m : c.m = gsum P l P.m
  r : ∀ k, c.r k = gsum P l fun i => P.m i * P.r i k
  v : ∀ k, c.v k = gsum P l fun i => P.m i * P.v i k
  bb : ∀ i ∈ l, ∀ k, c.bbmin k ≤ P.r i k ∧ P.r i k ≤ c.bbmax k
  bbminTight : ∀ k, c.bbmin k = cfg.big ∨ ∃ i ∈ l, c.bbmin k = P.r i k
  bbmaxTight : ∀ k, c.bbmax k = -cfg.big ∨ ∃ i ∈ l, c.bbmax k = P.r i k
  hbox : ∀ i ∈ l, ∀ k, c.hmin k ≤ P.r i k - cfg.kernrange * P.h i ∧
    P.r i k + cfg.kernrange * P.h i ≤ c.hmx k
  hminTight : ∀ k, c.hmin k = cfg.big ∨ ∃ i ∈ l, c.hmin k = P.r i k - cfg.kernrange * P.h i
  hmxTight : ∀ k, c.hmx k = -cfg.big ∨ ∃ i ∈ l, c.hmx k = P.r i k + cfg.kernrange * P.h i
  vbox : ∀ i ∈ l, ∀ k, c.vmin k ≤ P.v i k ∧ P.v i k ≤ c.vmax k
  hmax : ∀ i ∈ l, P.h i ≤ c.hmax
  hmaxTight : c.hmax = 0 ∨ ∃ i ∈ l, c.hmax = P.h i
  hmaxNonneg : 0 ≤ c.hmax
  maxsound : ∀ i ∈ l, P.sound i ≤ c.maxsound
  amin : cfg.gadget2 = true → ∀ i ∈ l, c.amin ≤ P.anorm i
  macfactor : cfg.gadget2 = false → cfg.eigenmac = true → ∀ i ∈ l, P.gfac i ≤ c.macfactor
  rmax : c.rmax = 0
  q : ∀ k, c.q k = 0

theorem partial_zero (cfg : Cfg) (P : Parts n) (c : Props n) : Partial cfg P [] (zeroProps cfg c) := by
  constructor <;> simp [zeroProps, gsum_nil]

theorem partial_snoc (cfg : Cfg) (P : Parts n) (l : List ℕ) (c : Props n) (i : ℕ)
    (hi : P.dead i = false) (h : Partial cfg P l c) :
    Partial cfg P (l ++ [i]) (leafBody cfg P c i) := by
  have e : leafBody cfg P c i = { c with
      N := c.N + 1
      Nactive := if P.active i then c.Nactive + 1 else c.Nactive
      hmax := max c.hmax (P.h i)
      maxsound := max c.maxsound (P.sound i)
      m := if P.grav i then c.m + P.m i else c.m
      r := if P.grav i then fun k => c.r k + P.m i * P.r i k else c.r
      v := if P.grav i then fun k => c.v k + P.m i * P.v i k else c.v
      bbmin := fun k => if P.r i k < c.bbmin k then P.r i k else c.bbmin k
      bbmax := fun k => if P.r i k > c.bbmax k then P.r i k else c.bbmax k
      hmin := fun k => if P.r i k - cfg.kernrange * P.h i < c.hmin k
        then P.r i k - cfg.kernrange * P.h i else c.hmin k
      hmx := fun k => if P.r i k + cfg.kernrange * P.h i > c.hmx k
        then P.r i k + cfg.kernrange * P.h i else c.hmx k
      vmax := fun k => if P.v i k > c.vmax k then P.v i k else c.vmax k
      vmin := fun k => if P.v i k < c.vmin k then P.v i k else c.vmin k
      amin := if cfg.gadget2 then min c.amin (P.anorm i) else c.amin
      macfactor := if cfg.gadget2 then c.macfactor
        else if cfg.eigenmac then max c.macfactor (P.gfac i) else c.macfactor } := by
    simp [leafBody, hi]
  rw [e]
  constructor
  · simp [h.N]
  · intro ho; by_cases ha : P.active i <;> simp [ha, h.Nactive ho]
  · simp only [gsum_append, gsum_singleton, ← h.m]; split_ifs <;> simp
  · intro k; simp only [gsum_append, gsum_singleton, ← h.r]; split_ifs <;> simp
  · intro k; simp only [gsum_append, gsum_singleton, ← h.v]; split_ifs <;> simp
  · intro j hj k
    simp only [List.mem_append, List.mem_singleton] at hj
    constructor
    · simp only []
      rcases hj with hj | rfl
      · have := (h.bb j hj k).1; split_ifs <;> linarith
      · split_ifs <;> linarith
    · simp only []
      rcases hj with hj | rfl
      · have := (h.bb j hj k).2; split_ifs <;> linarith
      · split_ifs <;> linarith
  · intro k
    simp only []
    split_ifs
    · exact Or.inr ⟨i, by simp, rfl⟩
    · rcases h.bbminTight k with h' | ⟨j, hj, e⟩
      · exact Or.inl h'
      · exact Or.inr ⟨j, by simp [hj], e⟩
  · intro k
    simp only []
    split_ifs
    · exact Or.inr ⟨i, by simp, rfl⟩
    · rcases h.bbmaxTight k with h' | ⟨j, hj, e⟩
      · exact Or.inl h'
      · exact Or.inr ⟨j, by simp [hj], e⟩
  · intro j hj k
    simp only [List.mem_append, List.mem_singleton] at hj
    constructor
    · simp only []
      rcases hj with hj | rfl
      · have := (h.hbox j hj k).1; split_ifs <;> linarith
      · split_ifs <;> linarith
    · simp only []
      rcases hj with hj | rfl
      · have := (h.hbox j hj k).2; split_ifs <;> linarith
      · split_ifs <;> linarith
  · intro k
    simp only []
    split_ifs
    · exact Or.inr ⟨i, by simp, rfl⟩
    · rcases h.hminTight k with h' | ⟨j, hj, e⟩
      · exact Or.inl h'
      · exact Or.inr ⟨j, by simp [hj], e⟩
  · intro k
    simp only []
    split_ifs
    · exact Or.inr ⟨i, by simp, rfl⟩
    · rcases h.hmxTight k with h' | ⟨j, hj, e⟩
      · exact Or.inl h'
      · exact Or.inr ⟨j, by simp [hj], e⟩
  · intro j hj k
    simp only [List.mem_append, List.mem_singleton] at hj
    constructor
    · simp only []
      rcases hj with hj | rfl
      · have := (h.vbox j hj k).1; split_ifs <;> linarith
      · split_ifs <;> linarith
    · simp only []
      rcases hj with hj | rfl
      · have := (h.vbox j hj k).2; split_ifs <;> linarith
      · split_ifs <;> linarith
  · intro j hj
    simp only [List.mem_append, List.mem_singleton] at hj
    rcases hj with hj | rfl
    · exact (h.hmax j hj).trans (le_max_left _ _)
    · exact le_max_right _ _
  · simp only []
    rcases le_total c.hmax (P.h i) with h' | h'
    · rw [max_eq_right h']; exact Or.inr ⟨i, by simp, rfl⟩
    · rw [max_eq_left h']
      rcases h.hmaxTight with h'' | ⟨j, hj, e⟩
      · exact Or.inl h''
      · exact Or.inr ⟨j, by simp [hj], e⟩
  · exact h.hmaxNonneg.trans (le_max_left _ _)
  · intro j hj
    simp only [List.mem_append, List.mem_singleton] at hj
    rcases hj with hj | rfl
    · exact (h.maxsound j hj).trans (le_max_left _ _)
    · exact le_max_right _ _
  · intro hg j hj
    simp only [List.mem_append, List.mem_singleton] at hj
    simp only [hg, if_true]
    rcases hj with hj | rfl
    · exact (min_le_left _ _).trans (h.amin hg j hj)
    · exact min_le_right _ _
  · intro hg he j hj
    simp only [List.mem_append, List.mem_singleton] at hj
    simp only [hg, he, if_true]
    rcases hj with hj | rfl
    · exact (h.macfactor hg he j hj).trans (le_max_left _ _)
    · exact le_max_right _ _
  · exact h.rmax
  · exact h.q

theorem partial_foldl (cfg : Cfg) (P : Parts n) : ∀ (l p : List ℕ) (c : Props n),
    (∀ i ∈ l, P.dead i = false) → Partial cfg P p c →
    Partial cfg P (p ++ l) (l.foldl (leafBody cfg P) c) := by
  intro l
  induction l with
  | nil => intro p c _ h; simpa using h
  | cons a l ih =>
    intro p c hl h
    have := ih (p ++ [a]) _ (fun i hi => hl i (List.mem_cons_of_mem _ hi))
      (partial_snoc cfg P p c a (hl a (by simp)) h)
    simpa using this

/-- the half diagonal bounds the distance from the box centre -/
theorem extent_bound (x a b : Vec n ℝ) (h : ∀ k, a k ≤ x k ∧ x k ≤ b k) :
    dot (fun k => x k - 0.5 * (a k + b k)) (fun k => x k - 0.5 * (a k + b k)) ≤
      dot (fun k => 0.5 * (b k - a k)) (fun k => 0.5 * (b k - a k)) := by
  apply Finset.sum_le_sum
  intro k _
  obtain ⟨h1, h2⟩ := h k
  nlinarith

theorem dot_self_nonneg (x : Vec n ℝ) : 0 ≤ dot x x :=
  Finset.sum_nonneg fun k _ => mul_self_nonneg (x k)

theorem quadBody_foldl (P : Parts n) : ∀ (l : List ℕ) (c : Props n), (∀ i ∈ l, P.dead i = false) →
    l.foldl (quadBody P) c = { c with
      q := fun k => c.q k + gsum P l fun i => quadTerm (P.m i) (fun k => P.r i k - c.r k) k } := by
  intro l
  induction l with
  | nil => intro c _; simp [gsum_nil]
  | cons a l ih =>
    intro c hl
    rw [List.foldl_cons, ih _ (fun i hi => hl i (List.mem_cons_of_mem _ hi))]
    have e : ∀ g : ℕ → ℝ, gsum P (a :: l) g = (if P.grav a then g a else 0) + gsum P l g := by
      intro g; rw [← gsum_singleton, ← gsum_append]; rfl
    by_cases hg : P.grav a = true
    · have e1 : quadBody P c a = { c with
          q := fun k => c.q k + quadTerm (P.m a) (fun k => P.r a k - c.r k) k } := by
        simp [quadBody, hl a (by simp), hg]
      rw [e1]
      simp only [e, hg, if_true, add_assoc]
    · have e1 : quadBody P c a = c := by simp [quadBody, hg]
      rw [e1]
      simp [e, hg]

/-- the end of the work on a leaf -/
theorem leafFinish_summary (cfg : Cfg) (P : Parts n) (l : List ℕ) (c1 : Props n)
    (hl : ∀ i ∈ l, P.dead i = false) (hp : Partial cfg P l c1) :
    Summary cfg P l (if cfg.needQuad then l.foldl (quadBody P) (setExtent cfg (normalise c1))
      else setExtent cfg (normalise c1)) := by
  -- normalise
  have norm : ∃ c2, normalise c1 = c2 ∧ c2 = { c1 with r := c2.r, v := c2.v } ∧
      (0 < c1.m → ∀ k, c1.m * c2.r k = c1.r k) ∧ (0 < c1.m → ∀ k, c1.m * c2.v k = c1.v k) := by
    refine ⟨_, rfl, ?_, ?_, ?_⟩
    · simp only [normalise]; split_ifs <;> rfl
    · intro hm k; simp only [normalise, if_pos hm]; field_simp
    · intro hm k; simp only [normalise, if_pos hm]; field_simp
  obtain ⟨c2, e2, f2, r2, v2⟩ := norm
  rw [e2]
  generalize c2.r = r' at f2 r2
  generalize c2.v = v' at f2 v2
  subst f2
  have base : Summary { cfg with needQuad := false } P l
      (setExtent cfg { c1 with r := r', v := v' }) ∧
      (setExtent cfg { c1 with r := r', v := v' }).q = c1.q ∧
      (setExtent cfg { c1 with r := r', v := v' }).r = r' := by
    simp only [setExtent]
    split_ifs with hN
    · refine ⟨?_, rfl, rfl⟩
      constructor
      · exact hp.N
      · exact hp.Nactive
      · exact hp.m
      · intro hm k; rw [← hp.r k]; exact r2 hm k
      · intro hm k; rw [← hp.v k]; exact v2 hm k
      · exact hp.bb
      · exact hp.bbminTight
      · exact hp.bbmaxTight
      · exact hp.hbox
      · exact hp.hminTight
      · exact hp.hmxTight
      · exact hp.vbox
      · exact hp.hmax
      · exact hp.hmaxTight
      · exact hp.hmaxNonneg
      · exact hp.maxsound
      · exact hp.amin
      · exact hp.macfactor
      · intro _ k; norm_num
      · exact Real.sqrt_nonneg _
      · intro i hi
        simp only []
        rw [Real.sq_sqrt (dot_self_nonneg _)]
        exact extent_bound _ _ _ (hp.bb i hi)
      · intro _
        simp only []
        rw [Real.sq_sqrt (dot_self_nonneg _)]
        exact Finset.sum_congr rfl fun k _ => by norm_num; ring
      · intro _
        simp only []
        rw [Real.sq_sqrt (dot_self_nonneg _), sq]
      · simp
    · have hl0 : l = [] := by
        have := hp.N
        simp only [gt_iff_lt, not_lt, Nat.le_zero] at hN
        rw [hN] at this
        exact List.length_eq_zero_iff.mp this.symm
      refine ⟨?_, rfl, rfl⟩
      constructor
      · exact hp.N
      · exact hp.Nactive
      · exact hp.m
      · intro hm k; rw [← hp.r k]; exact r2 hm k
      · intro hm k; rw [← hp.v k]; exact v2 hm k
      · exact hp.bb
      · exact hp.bbminTight
      · exact hp.bbmaxTight
      · exact hp.hbox
      · exact hp.hminTight
      · exact hp.hmxTight
      · exact hp.vbox
      · exact hp.hmax
      · exact hp.hmaxTight
      · exact hp.hmaxNonneg
      · exact hp.maxsound
      · exact hp.amin
      · exact hp.macfactor
      · intro h; exact absurd (by rw [hp.N, hl0]; rfl) h
      · exact hp.rmax.ge
      · subst hl0; simp
      · intro h; exact absurd (by rw [hp.N, hl0]; rfl) h
      · intro h; exact absurd (by rw [hp.N, hl0]; rfl) h
      · simp
  obtain ⟨b, bq, br⟩ := base
  set c3 := setExtent cfg { c1 with r := r', v := v' } with hc3
  by_cases hq : cfg.needQuad = true
  · rw [if_pos hq, quadBody_foldl P l c3 hl]
    exact ⟨b.N, b.Nactive, b.m, b.com, b.mom, b.bb, b.bbminTight, b.bbmaxTight, b.hbox,
      b.hminTight, b.hmxTight, b.vbox,
      b.hmax, b.hmaxTight, b.hmaxNonneg, b.maxsound, b.amin, b.macfactor, b.centre, b.rmaxNonneg, b.extent, b.size,
      b.cdist, fun _ k => by simp only [bq, hp.q k, zero_add]⟩
  · rw [if_neg hq]
    exact ⟨b.N, b.Nactive, b.m, b.com, b.mom, b.bb, b.bbminTight, b.bbmaxTight, b.hbox,
      b.hminTight, b.hmxTight, b.vbox,
      b.hmax, b.hmaxTight, b.hmaxNonneg, b.maxsound, b.amin, b.macfactor, b.centre, b.rmaxNonneg, b.extent, b.size,
      b.cdist, fun h => absurd h hq⟩

theorem stockLeaf_summary (cfg : Cfg) (P : Parts n) (l : List ℕ) (c : Props n)
    (hl : ∀ i ∈ l, P.dead i = false) : Summary cfg P l (stockLeafProps cfg P l c) := by
  have hp := partial_foldl cfg P l [] (zeroProps cfg c) hl (partial_zero cfg P c)
  exact leafFinish_summary cfg P l _ hl hp

/-! ### Parallel axis theorem -/

/-- symmetric bilinear form behind the quadrupole terms -/
noncomputable def quadB (x y : Vec n ℝ) (k : Fin 5) : ℝ :=
  if quadUsed n k then
    match k with
    | 0 => 3 * coord x 0 * coord y 0 - dot x y
    | 1 => 3 / 2 * (coord x 0 * coord y 1 + coord x 1 * coord y 0)
    | 2 => 3 * coord x 1 * coord y 1 - dot x y
    | 3 => 3 / 2 * (coord x 2 * coord y 0 + coord x 0 * coord y 2)
    | 4 => 3 / 2 * (coord x 2 * coord y 1 + coord x 1 * coord y 2)
  else 0

theorem quadTerm_eq (m : ℝ) (x : Vec n ℝ) (k : Fin 5) : quadTerm m x k = m * quadB x x k := by
  unfold quadTerm quadB
  split_ifs
  · fin_cases k <;> simp only [] <;> ring
  · simp

theorem coord_add (x y : Vec n ℝ) (k : ℕ) : coord (fun j => x j + y j) k = coord x k + coord y k := by
  unfold coord; split_ifs <;> simp

theorem coord_smul (a : ℝ) (x : Vec n ℝ) (k : ℕ) : coord (fun j => a * x j) k = a * coord x k := by
  unfold coord; split_ifs <;> simp

theorem dot_add_left (x y z : Vec n ℝ) : dot (fun j => x j + y j) z = dot x z + dot y z := by
  simp only [dot, ← Finset.sum_add_distrib]; congr 1; ext k; ring

theorem dot_smul_left (a : ℝ) (x z : Vec n ℝ) : dot (fun j => a * x j) z = a * dot x z := by
  simp only [dot, Finset.mul_sum]; congr 1; ext k; ring

theorem dot_comm' (x z : Vec n ℝ) : dot x z = dot z x := by
  simp only [dot]; congr 1; ext k; ring

theorem quadB_add (x y z : Vec n ℝ) (k : Fin 5) :
    quadB (fun j => x j + y j) z k = quadB x z k + quadB y z k := by
  unfold quadB
  split_ifs
  · fin_cases k <;> simp only [coord_add, dot_add_left] <;> ring
  · simp

theorem quadB_smul (a : ℝ) (x z : Vec n ℝ) (k : Fin 5) :
    quadB (fun j => a * x j) z k = a * quadB x z k := by
  unfold quadB
  split_ifs
  · fin_cases k <;> simp only [coord_smul, dot_smul_left] <;> ring
  · simp

theorem quadB_comm (x z : Vec n ℝ) (k : Fin 5) : quadB x z k = quadB z x k := by
  unfold quadB
  split_ifs
  · fin_cases k <;> simp only [dot_comm' x z] <;> ring
  · rfl

theorem quadB_zero (z : Vec n ℝ) (k : Fin 5) : quadB (fun _ => 0) z k = 0 := by
  have := quadB_smul 0 (fun _ => 0) z k
  simpa using this

theorem gsum_quadB (P : Parts n) (x : ℕ → Vec n ℝ) (z : Vec n ℝ) (k : Fin 5) : ∀ l : List ℕ,
    gsum P l (fun i => P.m i * quadB (x i) z k) =
      quadB (fun j => gsum P l fun i => P.m i * x i j) z k := by
  intro l
  induction l with
  | nil => simp only [gsum_nil]; exact (quadB_zero z k).symm
  | cons a l ih =>
    have e : ∀ g : ℕ → ℝ, gsum P (a :: l) g = (if P.grav a then g a else 0) + gsum P l g := by
      intro g; rw [← gsum_singleton, ← gsum_append]; rfl
    simp only [e]
    by_cases hg : P.grav a = true
    · simp only [hg, if_true]
      rw [quadB_add, quadB_smul, ih]
    · simp only [hg]
      simpa using ih

theorem parallel_axis (P : Parts n) (l : List ℕ) (R0 R : Vec n ℝ) (k : Fin 5)
    (hcom : ∀ j, gsum P l P.m * R0 j = gsum P l fun i => P.m i * P.r i j) :
    gsum P l (fun i => quadTerm (P.m i) (fun j => P.r i j - R j) k) =
      gsum P l (fun i => quadTerm (P.m i) (fun j => P.r i j - R0 j) k) +
        quadTerm (gsum P l P.m) (fun j => R0 j - R j) k := by
  have key : ∀ i, quadTerm (P.m i) (fun j => P.r i j - R j) k =
      quadTerm (P.m i) (fun j => P.r i j - R0 j) k +
        (2 * (P.m i * quadB (fun j => P.r i j - R0 j) (fun j => R0 j - R j) k) +
          P.m i * quadB (fun j => R0 j - R j) (fun j => R0 j - R j) k) := by
    intro i
    simp only [quadTerm_eq]
    have e : (fun j => P.r i j - R j) = fun j => (P.r i j - R0 j) + (R0 j - R j) := by
      funext j; ring
    rw [e, quadB_add, quadB_comm (fun j => P.r i j - R0 j), quadB_add,
      quadB_comm (fun j => R0 j - R j) (fun j => P.r i j - R0 j + (R0 j - R j)), quadB_add,
      quadB_comm (fun j => R0 j - R j) (fun j => P.r i j - R0 j)]
    ring
  simp only [key]
  rw [gsum_add, gsum_add]
  congr 1
  have h1 : gsum P l (fun i => 2 * (P.m i * quadB (fun j => P.r i j - R0 j) (fun j => R0 j - R j) k))
      = 0 := by
    have : (fun i => 2 * (P.m i * quadB (fun j => P.r i j - R0 j) (fun j => R0 j - R j) k)) =
        fun i => (P.m i * quadB (fun j => P.r i j - R0 j) (fun j => R0 j - R j) k) * 2 := by
      funext i; ring
    rw [this, gsum_mul, gsum_quadB]
    have hz : (fun j => gsum P l fun i => P.m i * (P.r i j - R0 j)) = fun _ => (0 : ℝ) := by
      funext j
      have : (fun i => P.m i * (P.r i j - R0 j)) = fun i => P.m i * P.r i j + P.m i * (-R0 j) := by
        funext i; ring
      rw [this, gsum_add, gsum_mul, ← hcom j]; ring
    rw [hz, quadB_zero]; ring
  rw [h1, zero_add, gsum_mul, quadTerm_eq]

theorem quadTerm_zero_mass (x : Vec n ℝ) (k : Fin 5) : quadTerm 0 x k = 0 := by
  rw [quadTerm_eq]; ring

theorem quadTerm_unused (m : ℝ) (x : Vec n ℝ) (k : Fin 5) (h : quadUsed n k = false) :
    quadTerm m x k = 0 := by
  simp [quadTerm, h]

theorem gsum_quadTerm_unused (P : Parts n) (l : List ℕ) (R : Vec n ℝ) (k : Fin 5)
    (h : quadUsed n k = false) :
    gsum P l (fun i => quadTerm (P.m i) (fun j => P.r i j - R j) k) = 0 := by
  have : (fun i => quadTerm (P.m i) (fun j => P.r i j - R j) k) = fun i => (fun _ => (0:ℝ)) i * 0 := by
    funext i; rw [quadTerm_unused _ _ _ h]; ring
  rw [this, gsum_mul]; ring

/-- quadrupole contribution of one child -/
theorem addChildQuad_eq (cfg : Cfg) (P : Parts n) (l : List ℕ) (ch c : Props n)
    (hq : cfg.needQuad = true) (hm : ∀ i ∈ l, 0 ≤ P.m i) (h : Summary cfg P l ch) :
    addChildQuad ch c = { c with
      q := fun k => c.q k + gsum P l fun i => quadTerm (P.m i) (fun k => P.r i k - c.r k) k } := by
  unfold addChildQuad
  split_ifs with hpos
  · congr 1
    funext k
    rw [parallel_axis P l ch.r c.r k (fun j => by rw [← h.m]; exact h.com hpos j), ← h.quad hq k,
      ← h.m, add_assoc]
    congr 2
    split_ifs with hu
    · rfl
    · rw [h.quad hq k, gsum_quadTerm_unused P l ch.r k (by simpa using hu)]
  · have h0 : gsum P l P.m = 0 := by
      have h1 := gsum_nonneg P hm
      rw [← h.m] at h1 ⊢
      exact le_antisymm (not_lt.mp hpos) h1
    have : ∀ k, gsum P l (fun i => quadTerm (P.m i) (fun k => P.r i k - c.r k) k) = 0 := by
      intro k
      refine gsum_zero_of_mass_zero P hm h0 ?_
      intro i hi; rw [hi, quadTerm_zero_mass]
    simp only [this, add_zero]

/-- accumulated boxes after adding children -/
structure Boxes (cfg : Cfg) (P : Parts n) (l : List ℕ) (c : Props n) : Prop where
  bb : ∀ i ∈ l, ∀ k, c.bbmin k ≤ P.r i k ∧ P.r i k ≤ c.bbmax k
  bbminTight : ∀ k, c.bbmin k = cfg.big ∨ ∃ i ∈ l, c.bbmin k = P.r i k
  bbmaxTight : ∀ k, c.bbmax k = -cfg.big ∨ ∃ i ∈ l, c.bbmax k = P.r i k
  hbox : ∀ i ∈ l, ∀ k, c.hmin k ≤ P.r i k - cfg.kernrange * P.h i ∧
    P.r i k + cfg.kernrange * P.h i ≤ c.hmx k
  hminTight : ∀ k, c.hmin k = cfg.big ∨ ∃ i ∈ l, c.hmin k = P.r i k - cfg.kernrange * P.h i
  hmxTight : ∀ k, c.hmx k = -cfg.big ∨ ∃ i ∈ l, c.hmx k = P.r i k + cfg.kernrange * P.h i
  vbox : ∀ i ∈ l, ∀ k, c.vmin k ≤ P.v i k ∧ P.v i k ≤ c.vmax k
  hmax : ∀ i ∈ l, P.h i ≤ c.hmax
  hmaxTight : c.hmax = 0 ∨ ∃ i ∈ l, c.hmax = P.h i
  hmaxNonneg : 0 ≤ c.hmax
  maxsound : ∀ i ∈ l, P.sound i ≤ c.maxsound
  amin : cfg.gadget2 = true → ∀ i ∈ l, c.amin ≤ P.anorm i
  macfactor : cfg.gadget2 = false → cfg.eigenmac = true → ∀ i ∈ l, P.gfac i ≤ c.macfactor

theorem addChild_boxes (cfg : Cfg) (P : Parts n) (l l' : List ℕ) (ch c : Props n)
    (hc : Boxes cfg P l c) (h : Summary cfg P l' ch) : Boxes cfg P (l ++ l') (addChild cfg ch c) := by
  unfold addChild
  by_cases hN : ch.N > 0
  · rw [if_pos hN]
    constructor
    · intro i hi k
      rcases List.mem_append.mp hi with hi | hi
      · exact ⟨(min_le_right _ _).trans (hc.bb i hi k).1, (hc.bb i hi k).2.trans (le_max_right _ _)⟩
      · exact ⟨(min_le_left _ _).trans (h.bb i hi k).1, (h.bb i hi k).2.trans (le_max_left _ _)⟩
    · intro k
      simp only []
      rcases le_total (ch.bbmin k) (c.bbmin k) with hle | hle
      · rw [min_eq_left hle]
        rcases h.bbminTight k with e | ⟨i, hi, e⟩
        · exact Or.inl e
        · exact Or.inr ⟨i, List.mem_append_right _ hi, e⟩
      · rw [min_eq_right hle]
        rcases hc.bbminTight k with e | ⟨i, hi, e⟩
        · exact Or.inl e
        · exact Or.inr ⟨i, List.mem_append_left _ hi, e⟩
    · intro k
      simp only []
      rcases le_total (ch.bbmax k) (c.bbmax k) with hle | hle
      · rw [max_eq_right hle]
        rcases hc.bbmaxTight k with e | ⟨i, hi, e⟩
        · exact Or.inl e
        · exact Or.inr ⟨i, List.mem_append_left _ hi, e⟩
      · rw [max_eq_left hle]
        rcases h.bbmaxTight k with e | ⟨i, hi, e⟩
        · exact Or.inl e
        · exact Or.inr ⟨i, List.mem_append_right _ hi, e⟩
    · intro i hi k
      rcases List.mem_append.mp hi with hi | hi
      · exact ⟨(min_le_right _ _).trans (hc.hbox i hi k).1,
          (hc.hbox i hi k).2.trans (le_max_right _ _)⟩
      · exact ⟨(min_le_left _ _).trans (h.hbox i hi k).1, (h.hbox i hi k).2.trans (le_max_left _ _)⟩
    · intro k
      simp only []
      rcases le_total (ch.hmin k) (c.hmin k) with hle | hle
      · rw [min_eq_left hle]
        rcases h.hminTight k with e | ⟨i, hi, e⟩
        · exact Or.inl e
        · exact Or.inr ⟨i, List.mem_append_right _ hi, e⟩
      · rw [min_eq_right hle]
        rcases hc.hminTight k with e | ⟨i, hi, e⟩
        · exact Or.inl e
        · exact Or.inr ⟨i, List.mem_append_left _ hi, e⟩
    · intro k
      simp only []
      rcases le_total (ch.hmx k) (c.hmx k) with hle | hle
      · rw [max_eq_right hle]
        rcases hc.hmxTight k with e | ⟨i, hi, e⟩
        · exact Or.inl e
        · exact Or.inr ⟨i, List.mem_append_left _ hi, e⟩
      · rw [max_eq_left hle]
        rcases h.hmxTight k with e | ⟨i, hi, e⟩
        · exact Or.inl e
        · exact Or.inr ⟨i, List.mem_append_right _ hi, e⟩
    · intro i hi k
      rcases List.mem_append.mp hi with hi | hi
      · exact ⟨(min_le_right _ _).trans (hc.vbox i hi k).1,
          (hc.vbox i hi k).2.trans (le_max_right _ _)⟩
      · exact ⟨(min_le_left _ _).trans (h.vbox i hi k).1, (h.vbox i hi k).2.trans (le_max_left _ _)⟩
    · intro i hi
      rcases List.mem_append.mp hi with hi | hi
      · exact (hc.hmax i hi).trans (le_max_left _ _)
      · exact (h.hmax i hi).trans (le_max_right _ _)
    · simp only []
      rcases le_total c.hmax ch.hmax with hle | hle
      · rw [max_eq_right hle]
        rcases h.hmaxTight with e | ⟨i, hi, e⟩
        · exact Or.inl e
        · exact Or.inr ⟨i, List.mem_append_right _ hi, e⟩
      · rw [max_eq_left hle]
        rcases hc.hmaxTight with e | ⟨i, hi, e⟩
        · exact Or.inl e
        · exact Or.inr ⟨i, List.mem_append_left _ hi, e⟩
    · exact hc.hmaxNonneg.trans (le_max_left _ _)
    · intro i hi
      rcases List.mem_append.mp hi with hi | hi
      · exact (hc.maxsound i hi).trans (le_max_left _ _)
      · exact (h.maxsound i hi).trans (le_max_right _ _)
    · intro hg i hi
      simp only [hg, if_true]
      rcases List.mem_append.mp hi with hi | hi
      · exact (min_le_left _ _).trans (hc.amin hg i hi)
      · exact (min_le_right _ _).trans (h.amin hg i hi)
    · intro hg he i hi
      simp only [hg, he, if_true]
      rcases List.mem_append.mp hi with hi | hi
      · exact (hc.macfactor hg he i hi).trans (le_max_left _ _)
      · exact (h.macfactor hg he i hi).trans (le_max_right _ _)
  · rw [if_neg hN]
    have hl0 : l' = [] := by
      have := h.N
      simp only [gt_iff_lt, not_lt, Nat.le_zero] at hN
      rw [hN] at this
      exact List.length_eq_zero_iff.mp this.symm
    rw [hl0, List.append_nil]
    exact hc

theorem stockInternal_summary (cfg : Cfg) (P : Parts n) (l1 l2 : List ℕ) (c1 c2 c : Props n)
    (hm : ∀ i ∈ l1 ++ l2, 0 ≤ P.m i)
    (h1 : Summary cfg P l1 c1) (h2 : Summary cfg P l2 c2) :
    Summary cfg P (l1 ++ l2) (stockInternalProps cfg c1 c2 c) := by
  have hz : Boxes cfg P [] (zeroProps cfg c) := by
    constructor <;> simp [zeroProps]
  have hb := addChild_boxes cfg P _ _ c2 _ (addChild_boxes cfg P _ _ c1 _ hz h1) h2
  rw [List.nil_append] at hb
  have hrq : (addChild cfg c2 (addChild cfg c1 (zeroProps cfg c))).q = (fun _ => 0) ∧
      (addChild cfg c2 (addChild cfg c1 (zeroProps cfg c))).rmax = 0 := by
    unfold addChild; split_ifs <;> simp [zeroProps]
  simp only [stockInternalProps]
  generalize addChild cfg c2 (addChild cfg c1 (zeroProps cfg c)) = a at hb hrq
  have hm1 : ∀ i ∈ l1, 0 ≤ P.m i := fun i hi => hm i (List.mem_append_left _ hi)
  have hm2 : ∀ i ∈ l2, 0 ≤ P.m i := fun i hi => hm i (List.mem_append_right _ hi)
  have hmass : c1.m + c2.m = gsum P (l1 ++ l2) P.m := by rw [gsum_append, h1.m, h2.m]
  have cm1 : ∀ (w : Vec n ℝ) (f : ℕ → Vec n ℝ),
      (0 < c1.m → ∀ k, c1.m * w k = gsum P l1 fun i => P.m i * f i k) →
      ∀ k, c1.m * w k = gsum P l1 fun i => P.m i * f i k := by
    intro w f hw k
    by_cases hpos : 0 < c1.m
    · exact hw hpos k
    · have h0 : gsum P l1 P.m = 0 := by
        have := gsum_nonneg P hm1
        rw [← h1.m] at this ⊢
        exact le_antisymm (not_lt.mp hpos) this
      rw [gsum_zero_of_mass_zero P hm1 h0 (f := fun i => P.m i * f i k)
        (by intro i hi; simp [hi]), h1.m, h0]; ring
  have cm2 : ∀ (w : Vec n ℝ) (f : ℕ → Vec n ℝ),
      (0 < c2.m → ∀ k, c2.m * w k = gsum P l2 fun i => P.m i * f i k) →
      ∀ k, c2.m * w k = gsum P l2 fun i => P.m i * f i k := by
    intro w f hw k
    by_cases hpos : 0 < c2.m
    · exact hw hpos k
    · have h0 : gsum P l2 P.m = 0 := by
        have := gsum_nonneg P hm2
        rw [← h2.m] at this ⊢
        exact le_antisymm (not_lt.mp hpos) this
      rw [gsum_zero_of_mass_zero P hm2 h0 (f := fun i => P.m i * f i k)
        (by intro i hi; simp [hi]), h2.m, h0]; ring
  have base : Summary { cfg with needQuad := false } P (l1 ++ l2)
      (setExtent cfg (sumChildren c1 c2 a)) ∧
      (setExtent cfg (sumChildren c1 c2 a)).q = fun _ => 0 := by
    have comr : 0 < (sumChildren c1 c2 a).m → ∀ k, (sumChildren c1 c2 a).m *
        (sumChildren c1 c2 a).r k = gsum P (l1 ++ l2) fun i => P.m i * P.r i k := by
      intro hp k
      have hp' : c1.m + c2.m > 0 := hp
      simp only [sumChildren, if_pos hp']
      rw [gsum_append, ← cm1 c1.r P.r h1.com k, ← cm2 c2.r P.r h2.com k]
      field_simp
    have comv : 0 < (sumChildren c1 c2 a).m → ∀ k, (sumChildren c1 c2 a).m *
        (sumChildren c1 c2 a).v k = gsum P (l1 ++ l2) fun i => P.m i * P.v i k := by
      intro hp k
      have hp' : c1.m + c2.m > 0 := hp
      simp only [sumChildren, if_pos hp']
      rw [gsum_append, ← cm1 c1.v P.v h1.mom k, ← cm2 c2.v P.v h2.mom k]
      field_simp
    have hN : (sumChildren c1 c2 a).N = (l1 ++ l2).length := by
      simp [sumChildren, h1.N, h2.N]
    have hNa : cfg.oct = false → (sumChildren c1 c2 a).Nactive = ((l1 ++ l2).filter P.active).length := by
      intro ho
      simp [sumChildren, h1.Nactive ho, h2.Nactive ho]
    simp only [setExtent]
    split_ifs with hN0
    · refine ⟨?_, hrq.1⟩
      constructor
      · exact hN
      · exact hNa
      · exact hmass
      · exact comr
      · exact comv
      · exact hb.bb
      · exact hb.bbminTight
      · exact hb.bbmaxTight
      · exact hb.hbox
      · exact hb.hminTight
      · exact hb.hmxTight
      · exact hb.vbox
      · exact hb.hmax
      · exact hb.hmaxTight
      · exact hb.hmaxNonneg
      · exact hb.maxsound
      · exact hb.amin
      · exact hb.macfactor
      · intro _ k; norm_num
      · exact Real.sqrt_nonneg _
      · intro i hi
        simp only []
        rw [Real.sq_sqrt (dot_self_nonneg _)]
        exact extent_bound _ _ _ (hb.bb i hi)
      · intro _
        simp only []
        rw [Real.sq_sqrt (dot_self_nonneg _)]
        exact Finset.sum_congr rfl fun k _ => by norm_num; ring
      · intro _
        simp only []
        rw [Real.sq_sqrt (dot_self_nonneg _), sq]
      · simp
    · have hl0 : l1 ++ l2 = [] := by
        simp only [gt_iff_lt, not_lt, Nat.le_zero] at hN0
        rw [hN0] at hN
        exact List.length_eq_zero_iff.mp hN.symm
      refine ⟨?_, hrq.1⟩
      constructor
      · exact hN
      · exact hNa
      · exact hmass
      · exact comr
      · exact comv
      · exact hb.bb
      · exact hb.bbminTight
      · exact hb.bbmaxTight
      · exact hb.hbox
      · exact hb.hminTight
      · exact hb.hmxTight
      · exact hb.vbox
      · exact hb.hmax
      · exact hb.hmaxTight
      · exact hb.hmaxNonneg
      · exact hb.maxsound
      · exact hb.amin
      · exact hb.macfactor
      · intro h; exact absurd (by rw [hN, hl0]; rfl) h
      · exact hrq.2.ge
      · rw [hl0]; simp
      · intro h; exact absurd (by rw [hN, hl0]; rfl) h
      · intro h; exact absurd (by rw [hN, hl0]; rfl) h
      · simp
  obtain ⟨b, bq⟩ := base
  set c3 := setExtent cfg (sumChildren c1 c2 a) with hc3
  by_cases hq : cfg.needQuad = true
  · rw [if_pos hq, addChildQuad_eq cfg P l1 c1 c3 hq hm1 h1,
      addChildQuad_eq cfg P l2 c2 _ hq hm2 h2]
    exact ⟨b.N, b.Nactive, b.m, b.com, b.mom, b.bb, b.bbminTight, b.bbmaxTight, b.hbox,
      b.hminTight, b.hmxTight, b.vbox,
      b.hmax, b.hmaxTight, b.hmaxNonneg, b.maxsound, b.amin, b.macfactor, b.centre, b.rmaxNonneg, b.extent, b.size,
      b.cdist, fun _ k => by simp only [bq, gsum_append, zero_add]⟩
  · rw [if_neg hq]
    exact ⟨b.N, b.Nactive, b.m, b.com, b.mom, b.bb, b.bbminTight, b.bbmaxTight, b.hbox,
      b.hminTight, b.hmxTight, b.vbox,
      b.hmax, b.hmaxTight, b.hmaxNonneg, b.maxsound, b.amin, b.macfactor, b.centre, b.rmaxNonneg, b.extent, b.size,
      b.cdist, fun h => absurd h hq⟩

end Gandalf.KD
