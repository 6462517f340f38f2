import Verif.Proof.MpiGhosts
import Verif.Prop.C06
import Verif.Prop.C07

/-!
# C94: processes get the particles of the others that theirs interact with

Each process sends to each other process the particles near the box of that process, found with the trees of its particles and
of their images.
-/

set_option autoImplicit false

namespace Gandalf

open Mpi KD

variable {n : ℕ}

/-- **Ghosts.** A process finds a list of ghosts for any box; no particle is in it twice, none that is not in the trees, and each
particle that reaches into the box with five times the radius of its kernel is in it. -/
theorem C94_reach {T G : Tree n} {cfg : Cfg} {P : Parts n} {pfuel : ℕ} {f f' : Forest} {l g : List ℕ}
    (hT : T.OK cfg P pfuel f l) (hG : G.OK cfg P pfuel f' g) (hdisj : ∀ i ∈ l, i ∉ g) (kr : ℝ) (hk : 0 ≤ kr) (tghost : ℝ)
    (b : Box n ℝ) (fuel : ℕ) (hf : f.cells.length ≤ fuel) (hf' : f'.cells.length ≤ fuel) :
    ∃ s, searchGhosts T G kr tghost b pfuel fuel = some s ∧ s.Nodup ∧ (∀ i ∈ s, i ∈ l ∨ i ∈ g) ∧
      ∀ i, i ∈ l ∨ i ∈ g → Reaches (5 * kr) P b i → i ∈ s := by
  obtain ⟨s, e, h1, h2⟩ := searchGhosts_spec hT hG hk tghost b fuel hf hf'
  refine ⟨s, e, (List.nodup_append.mpr ⟨hT.nodup, hG.nodup, fun i hi j hj e => hdisj i hi (e ▸ hj)⟩).sublist h1, ?_, ?_⟩
  · intro i hi
    exact List.mem_append.mp (h1.subset hi)
  · intro i hi hr
    exact h2 i (List.mem_append.mpr hi) hr

/-- **Interacting pairs, partial.** Particle `i` of process `p` and `j` of process `q`: if `j` is in the kernel of `i`, or `i` in
that of `j` and the smoothing length of `j` is at most five times that of `i`, then `i` is sent to `q`. Missing: larger ratios
(`C94_gather_fails`). -/
theorem C94_pairs_partial (p q : Proc n) {cfg : Cfg} {pfuel : ℕ} {f f' : Forest} {l g : List ℕ} (hT : p.T.OK cfg p.P pfuel f l)
    (hG : p.G.OK cfg p.P pfuel f' g) (hp : ∀ i, i ∈ l ∨ i ∈ g → i ∈ p.parts) (big kr : ℝ) (hk : 0 < kr) (tghost : ℝ) (fuel : ℕ)
    (hf : f.cells.length ≤ fuel) (hf' : f'.cells.length ≤ fuel) (i j : ℕ) (hi : i ∈ l ∨ i ∈ g) (hj : j ∈ q.parts)
    (hhi : 0 < p.P.h i) (hhj : 0 < q.P.h j)
    (hpair : Near (kr * p.P.h i) (p.P.r i) (q.P.r j) ∨ Near (kr * q.P.h j) (p.P.r i) (q.P.r j) ∧ q.P.h j ≤ 5 * p.P.h i) :
    ∃ s, ghostsTo big kr tghost pfuel fuel p q = some s ∧ i ∈ s := by
  obtain ⟨s, e, h1, h2⟩ := searchGhosts_spec hT hG hk.le tghost (q.rbox big) fuel hf hf'
  have pi := mul_pos hk hhi
  have pj := mul_pos hk hhj
  have hov : boxesOverlap (q.hbox big kr) (p.hbox big kr) = true := by
    rcases hpair with hn | ⟨hn, _⟩
    · refine boxesOverlap_of_mem (x := q.P.r j) (fun k => ?_) fun k => ?_
      · have := hbox_le big kr q hj k
        exact ⟨by linarith, by linarith⟩
      · have := hbox_le big kr p (hp i hi) k
        have h3 := abs_le.mp (hn k)
        exact ⟨by linarith, by linarith⟩
    · refine boxesOverlap_of_mem (x := p.P.r i) (fun k => ?_) fun k => ?_
      · have := hbox_le big kr q hj k
        have h3 := abs_le.mp (hn k)
        exact ⟨by linarith, by linarith⟩
      · have := hbox_le big kr p (hp i hi) k
        exact ⟨by linarith, by linarith⟩
  refine ⟨s, by rw [ghostsTo, if_pos hov, e], h2 i (List.mem_append.mpr hi) ⟨q.P.r j, rbox_le' big q hj, fun k => ?_⟩⟩
  rcases hpair with hn | ⟨hn, hr⟩
  · exact (hn k).trans (by linarith)
  · refine (hn k).trans ?_
    have := mul_le_mul_of_nonneg_left hr hk.le
    linarith

/-- **Both ways.** Two particles with smoothing lengths that differ by a factor of five at most, one of which is in the kernel of
the other, are sent to each other. -/
theorem C94_mutual (p q : Proc n) {cfg : Cfg} {pfuel : ℕ} {f f' e e' : Forest} {l g m o : List ℕ} (hT : p.T.OK cfg p.P pfuel f l)
    (hG : p.G.OK cfg p.P pfuel f' g) (hp : ∀ i, i ∈ l ∨ i ∈ g → i ∈ p.parts) (hT' : q.T.OK cfg q.P pfuel e m)
    (hG' : q.G.OK cfg q.P pfuel e' o) (hq : ∀ j, j ∈ m ∨ j ∈ o → j ∈ q.parts) (big kr : ℝ) (hk : 0 < kr) (tghost : ℝ) (fuel : ℕ)
    (hf : f.cells.length ≤ fuel) (hf' : f'.cells.length ≤ fuel) (he : e.cells.length ≤ fuel) (he' : e'.cells.length ≤ fuel)
    (i j : ℕ) (hi : i ∈ l ∨ i ∈ g) (hj : j ∈ m ∨ j ∈ o) (hhi : 0 < p.P.h i) (hhj : 0 < q.P.h j)
    (h1 : q.P.h j ≤ 5 * p.P.h i) (h2 : p.P.h i ≤ 5 * q.P.h j)
    (hpair : Near (kr * max (p.P.h i) (q.P.h j)) (p.P.r i) (q.P.r j)) :
    (∃ s, ghostsTo big kr tghost pfuel fuel p q = some s ∧ i ∈ s) ∧
    ∃ s, ghostsTo big kr tghost pfuel fuel q p = some s ∧ j ∈ s := by
  have hsym : ∀ d, Near d (p.P.r i) (q.P.r j) → Near d (q.P.r j) (p.P.r i) := fun d h k => by
    rw [abs_sub_comm]; exact h k
  refine ⟨C94_pairs_partial p q hT hG hp big kr hk tghost fuel hf hf' i j hi (hq j hj) hhi hhj ?_,
    C94_pairs_partial q p hT' hG' hq big kr hk tghost fuel he he' j i hj (hp i hi) hhj hhi ?_⟩
  · rcases max_choice (p.P.h i) (q.P.h j) with c | c <;> rw [c] at hpair
    · exact Or.inl hpair
    · exact Or.inr ⟨hpair, h1⟩
  · rcases max_choice (p.P.h i) (q.P.h j) with c | c <;> rw [c] at hpair
    · exact Or.inr ⟨hsym _ hpair, h2⟩
    · exact Or.inl (hsym _ hpair)

/-! ### The life of the ghosts -/

/-- **Common motion.** If all particles move with the same velocity, each is sent that reaches into the box at any time of the
life of the ghosts. -/
theorem C94_common_motion {T : Tree n} {cfg : Cfg} {P : Parts n} {pfuel : ℕ} {f : Forest} {l : List ℕ} (hT : T.OK cfg P pfuel f l)
    (u : Vec n ℝ) (hu : ∀ i ∈ l, P.v i = u ∧ 0 < P.m i ∧ P.grav i = true) (gr tghost t : ℝ) (hgr : 0 ≤ gr) (h0 : 0 ≤ t)
    (ht : t ≤ tghost) (b : Box n ℝ) (s : List ℕ) (fuel : ℕ) (hf : f.cells.length ≤ fuel) (i : ℕ) (hi : i ∈ l) (x : Vec n ℝ)
    (hx : ∀ k, b.min k ≤ x k ∧ x k ≤ b.max k) (hd : Near (gr * P.h i) (fun k => P.r i k + u k * t) x) :
    ∃ r, T.boxGhosts tghost gr b pfuel fuel s = some r ∧ i ∈ r := by
  classical
  obtain ⟨r, e, _, h2⟩ := Tree.boxGhosts_spec hT tghost gr b (fun j => decide (j = i)) (fun c l' hS hsub hno j hj => by
    rw [decide_eq_false_iff_not]
    rintro rfl
    have hfil : l'.filter P.grav = l' := List.filter_eq_self.mpr fun a ha => (hu a (hsub a ha)).2.2
    have hm : 0 < (T.cell c).m := by
      rw [hS.m, gsum, hfil]
      refine List.sum_pos _ (fun y hy => ?_) (by rintro e; rw [List.map_eq_nil_iff] at e; rw [e] at hj; exact absurd hj (by simp))
      obtain ⟨a, ha, rfl⟩ := List.mem_map.mp hy
      exact (hu a (hsub a ha)).2.1
    have hv : ∀ k, (T.cell c).v k = u k := by
      intro k
      have e1 := hS.mom hm k
      have e2 : gsum P l' (fun a => P.m a * P.v a k) = (T.cell c).m * u k := by
        rw [hS.m, gsum, gsum, hfil, ← List.sum_map_mul_right]
        refine congrArg List.sum (List.map_congr_left fun a ha => ?_)
        rw [(hu a (hsub a ha)).1]
      rw [e2] at e1
      exact mul_left_cancel₀ hm.ne' e1
    have : boxOverlap (scatterBox tghost gr (T.cell c)) b = true := by
      rw [boxOverlap_eq_true]
      intro k
      have h1 := hS.bb j hj k
      have h2 := mul_le_mul_of_nonneg_left (hS.hmax j hj) hgr
      have h3 := abs_le.mp (hd k)
      simp only at h3
      have h4 := hx k
      have h5 : min 0 (u k * tghost) ≤ u k * t := by
        rcases le_total 0 (u k) with c | c
        · exact (min_le_left _ _).trans (mul_nonneg c h0)
        · exact (min_le_right _ _).trans (mul_le_mul_of_nonpos_left ht c)
      have h6 : u k * t ≤ max 0 (u k * tghost) := by
        rcases le_total 0 (u k) with c | c
        · exact (mul_le_mul_of_nonneg_left ht c).trans (le_max_right _ _)
        · exact (mul_nonpos_of_nonpos_of_nonneg c h0).trans (le_max_left _ _)
      constructor
      · show (T.cell c).bbmin k + min 0 ((T.cell c).v k * tghost) - gr * (T.cell c).hmax ≤ b.max k
        rw [hv k]; linarith
      · show b.min k ≤ (T.cell c).bbmax k + max 0 ((T.cell c).v k * tghost) + gr * (T.cell c).hmax
        rw [hv k]; linarith
    rw [this] at hno
    exact absurd hno (by simp)) s fuel hf
  exact ⟨_, e, List.mem_append_right _ (h2 i hi (by simp))⟩

/-- **Motion, partial.** Whatever the others do, a particle is sent that comes within `D` of the box during the life of the
ghosts if `D` and the way it goes are together within the range of the search. Missing: faster particles
(`C94_motion_fails`). -/
theorem C94_motion_partial {T : Tree n} {cfg : Cfg} {P : Parts n} {pfuel : ℕ} {f : Forest} {l : List ℕ} (hT : T.OK cfg P pfuel f l)
    (gr tghost t D : ℝ) (hgr : 0 ≤ gr) (h0 : 0 ≤ t) (ht : t ≤ tghost) (b : Box n ℝ) (s : List ℕ) (fuel : ℕ)
    (hf : f.cells.length ≤ fuel) (i : ℕ) (hi : i ∈ l) (x : Vec n ℝ) (hx : ∀ k, b.min k ≤ x k ∧ x k ≤ b.max k)
    (hd : Near D (fun k => P.r i k + P.v i k * t) x) (hD : ∀ k, D + |P.v i k| * tghost ≤ gr * P.h i) :
    ∃ r, T.boxGhosts tghost gr b pfuel fuel s = some r ∧ i ∈ r := by
  classical
  obtain ⟨r, e, _, h2⟩ := Tree.boxGhosts_spec hT tghost gr b (fun j => decide (j = i)) (fun c l' hS hsub hno j hj => by
    rw [decide_eq_false_iff_not]
    rintro rfl
    rw [overlap_of_reaches hS hgr hj ⟨x, hx, fun k => ?_⟩] at hno
    · exact absurd hno (by simp)
    · have h3 := abs_le.mp (hd k)
      have h4 := hD k
      have h5 : |P.v j k * t| ≤ |P.v j k| * tghost := by
        rw [abs_mul, abs_of_nonneg h0]
        exact mul_le_mul_of_nonneg_left ht (abs_nonneg _)
      have h6 := abs_le.mp h5
      simp only at h3
      rw [abs_le]
      constructor <;> linarith) s fuel hf
  exact ⟨_, e, List.mem_append_right _ (h2 i hi (by simp))⟩

/-! ### Cases -/

noncomputable section

/-- The tree of two particles, as the code builds it. -/
theorem C94.leafTree (cfg : Cfg) (P : Parts 1) (hm : ∀ i, 0 ≤ P.m i) (hd : P.dead = fun _ => false) : ∃ (T : Tree 1) (l : List ℕ),
    T.OK cfg P 2 (fullTree 0 0 .nil) l ∧ l.Perm [0, 1] := by
  obtain ⟨t, b, s', l, h1, h2, h3, hp, hlo, hst, _⟩ := C06_built_tree_stocks (κ := Fin 1)
    (fun k i => P.r i k) (fun _ => 0) (fun _ => false) 0 2 6 1 (by norm_num) (by norm_num)
    (fun _ _ _ => rfl) ⟨fun _ => 0, fun _ => none, fun _ => none, fun _ => none, fun _ => none,
      fun _ => 0, fun _ => 0, 0⟩ id (fun _ => none) 0 (by decide) (by decide) cfg P
    (fun i _ => hm i) (fun _ => ⟨0, 0, 0, 0, 0, 0, 0, 0, 0, fun _ => 0,
      fun _ => 0, fun _ => 0, fun _ => 0, fun _ => 0, fun _ => 0, fun _ => 0, fun _ => 0, fun _ => 0,
      fun _ => 0⟩)
  have e : (l.filter fun i => !P.dead i) = l := by simp [hd]
  rw [e] at hst
  have hlen : l.length = 2 := by rw [hp.length_eq]; simp
  exact ⟨toTree t 0 6 s' fun _ => 0, l, toTree_ok hlo hst (by omega) (hp.nodup_iff.mpr List.nodup_range'), hp⟩

/-- the tree without particles -/
def C94.noTree : Tree 1 :=
  ⟨⟨fun _ => none, fun _ => none⟩, 0, 0, 6, fun _ => ⟨0, 0, 0, 0, 0, 0, 0, 0, 0, fun _ => 0, fun _ => 0, fun _ => 0, fun _ => 0,
    fun _ => 0, fun _ => 0, fun _ => 0, fun _ => 0, fun _ => 0, fun _ => 0⟩, fun _ => 0, fun _ => none, fun _ => none, fun _ => none⟩

theorem C94.noTree_ok (cfg : Cfg) (P : Parts 1) : C94.noTree.OK cfg P 2 .nil [] :=
  ⟨trivial, rfl, le_rfl, by simp [Forest.cells], rfl, List.nodup_nil⟩

theorem C94.noTree_ghosts (tg gr : ℝ) (b : Box 1 ℝ) (fuel : ℕ) (s : List ℕ) : C94.noTree.boxGhosts tg gr b 2 fuel s = some s := by
  unfold Tree.boxGhosts Walk.walk
  simp [C94.noTree]

/-- The tree of two particles sums them up in its only cell. -/
theorem C94.summary {T : Tree 1} {cfg : Cfg} {P : Parts 1} {l : List ℕ} (h : T.OK cfg P 2 (fullTree 0 0 .nil) l) :
    Summary cfg P l (T.cell 0) := by
  have := h.covers
  simp only [fullTree, Forest.Covers] at this
  obtain ⟨l1, l2, rfl, hQ, _, _, rfl⟩ := this
  simpa using hQ.1

theorem C94.nothing {T : Tree 1} {cfg : Cfg} {P : Parts 1} {l : List ℕ} (h : T.OK cfg P 2 (fullTree 0 0 .nil) l) (tg gr : ℝ)
    (b : Box 1 ℝ) (hno : boxOverlap (scatterBox tg gr (T.cell 0)) b = false) (s : List ℕ) : T.boxGhosts tg gr b 2 1 s = some s := by
  have hl := h.linked
  simp only [fullTree, Forest.Linked, Forest.entry] at hl
  have hc : 0 < T.Ncell := h.cells 0 (by simp [fullTree, Forest.cells])
  have hb : T.ghostBody tg gr b 2 0 s = .next s := by
    unfold Tree.ghostBody
    rw [hno]
    simp
  unfold Tree.boxGhosts
  rw [Walk.walk, if_pos hc]
  simp only [hb, hl.1]
  rw [Walk.walk, if_neg (not_lt.mpr h.ends)]

/-- particles at `r` with smoothing lengths `h` and velocities `v` -/
def C94.parts (r h v : ℕ → ℝ) : Parts 1 :=
  ⟨fun i _ => r i, fun i _ => v i, fun _ => 1, h, fun _ => 1, fun _ => 0, fun _ => 0, fun _ => false, fun _ => true, fun _ => true⟩

def C94.cfg (kr : ℝ) : Cfg := ⟨10 ^ 20, kr, 1, false, false, false, false⟩

/-- **Negation.** A particle of process `q` with a smoothing length `R > 5` times as large has a particle of process `p` in its
kernel that is not sent to it. -/
theorem C94_gather_fails (kr R : ℝ) (hk : 0 < kr) (hR : 5 < R) (hbig : kr * R ≤ 10 ^ 20) : ∃ (p q : Proc 1) (l : List ℕ),
    p.T.OK (C94.cfg kr) p.P 2 (fullTree 0 0 .nil) l ∧ p.G.OK (C94.cfg kr) p.P 2 .nil [] ∧ l.Perm [0, 1] ∧ p.parts = [0, 1] ∧ q.parts = [0] ∧
    p.P.h 0 = 1 ∧ q.P.h 0 = R ∧ Near (kr * q.P.h 0) (p.P.r 0) (q.P.r 0) ∧ ghostsTo (10 ^ 20) kr 0 2 1 p q = some [] := by
  obtain ⟨T, l, hT, hp⟩ := C94.leafTree (C94.cfg kr) (C94.parts (fun _ => 0) (fun _ => 1) fun _ => 0) (fun _ => zero_le_one) rfl
  have hS := C94.summary hT
  have hpos : 0 < kr * R := mul_pos hk (by linarith)
  refine ⟨⟨T, C94.noTree, C94.parts (fun _ => 0) (fun _ => 1) (fun _ => 0), [0, 1]⟩,
    ⟨T, C94.noTree, C94.parts (fun _ => kr * R) (fun _ => R) (fun _ => 0), [0]⟩, l, hT, C94.noTree_ok _ _, hp, rfl, rfl, rfl, rfl, ?_, ?_⟩
  · intro k
    show |0 - kr * R| ≤ kr * R
    rw [zero_sub, abs_neg, abs_of_pos hpos]
  · unfold ghostsTo
    split_ifs with hov
    · unfold searchGhosts
      have hno : boxOverlap (scatterBox 0 (2 * ghostRange * kr) (T.cell 0))
          (Proc.rbox ⟨T, C94.noTree, C94.parts (fun _ => kr * R) (fun _ => R) (fun _ => 0), [0]⟩ (10 ^ 20)) = false := by
        rw [← Bool.not_eq_true, boxOverlap_eq_true]
        intro h
        have h2 := (h 0).2
        have e1 : (Proc.rbox ⟨T, C94.noTree, C94.parts (fun _ => kr * R) (fun _ => R) (fun _ => 0), [0]⟩ (10 ^ 20)).min 0 = kr * R := by
          simp only [Proc.rbox, rboxOf, List.map_cons, List.map_nil, List.foldl_cons, List.foldl_nil, C94.parts]
          exact min_eq_right hbig
        have e2 : (scatterBox 0 (2 * ghostRange * kr) (T.cell 0)).max 0 ≤ 5 * kr := by
          show (T.cell 0).bbmax 0 + max 0 ((T.cell 0).v 0 * 0) + 2 * ghostRange * kr * (T.cell 0).hmax ≤ 5 * kr
          have a1 : (T.cell 0).bbmax 0 ≤ 0 := by
            rcases hS.bbmaxTight 0 with e | ⟨i, _, e⟩
            · rw [e]; norm_num [C94.cfg]
            · rw [e]; exact le_rfl
          have a2 : (T.cell 0).hmax ≤ 1 := by
            rcases hS.hmaxTight with e | ⟨i, _, e⟩
            · rw [e]; exact zero_le_one
            · rw [e]; exact le_rfl
          rw [mul_zero, max_self, show 2 * ghostRange * kr = 5 * kr by unfold ghostRange; ring]
          have := mul_le_mul_of_nonneg_left a2 (by linarith : (0 : ℝ) ≤ 5 * kr)
          linarith
        rw [e1] at h2
        have := mul_lt_mul_of_pos_left hR hk
        linarith
      rw [C94.nothing hT _ _ _ hno, Option.bind_some, C94.noTree_ghosts]
    · rfl

/-- **Negation.** The search goes by the mean velocity of a cell: of two particles that fly apart, none is sent, though one
arrives in the middle of the box while the ghosts live. -/
theorem C94_motion_fails (kr : ℝ) (hk : 0 < kr) (hbig : 5 * kr + 1 ≤ 10 ^ 20) : ∃ (T : Tree 1) (P : Parts 1) (l : List ℕ) (x : Vec 1 ℝ),
    T.OK (C94.cfg kr) P 2 (fullTree 0 0 .nil) l ∧ 0 ∈ l ∧ (∀ k, P.r 0 k + P.v 0 k * 1 = x k) ∧
    searchGhosts T C94.noTree kr 1 ⟨x, x⟩ 2 1 = some [] := by
  set V : ℕ → ℝ := fun i => if i = 0 then 5 * kr + 1 else -(5 * kr + 1) with hV
  obtain ⟨T, l, hT, hp⟩ := C94.leafTree (C94.cfg kr) (C94.parts (fun _ => 0) (fun _ => 1) V) (fun _ => zero_le_one) rfl
  have hS := C94.summary hT
  refine ⟨T, _, l, fun _ => 5 * kr + 1, hT, hp.mem_iff.mpr (by simp), fun k => ?_, ?_⟩
  · simp [C94.parts, hV]
  · have hv : (T.cell 0).v 0 = 0 := by
      have hm : (T.cell 0).m = 2 := by
        rw [hS.m, gsum, ((hp.filter _).map _).sum_eq]
        simp [C94.parts]
        norm_num
      have := hS.mom (by rw [hm]; norm_num) 0
      rw [hm, gsum, ((hp.filter _).map _).sum_eq] at this
      simp [C94.parts, hV] at this
      linarith
    have hno : boxOverlap (scatterBox 1 (2 * ghostRange * kr) (T.cell 0)) (⟨fun _ => 5 * kr + 1, fun _ => 5 * kr + 1⟩ : Box 1 ℝ) = false := by
      rw [← Bool.not_eq_true, boxOverlap_eq_true]
      intro h
      have h2 := (h 0).2
      have e2 : (scatterBox 1 (2 * ghostRange * kr) (T.cell 0)).max 0 ≤ 5 * kr := by
        show (T.cell 0).bbmax 0 + max 0 ((T.cell 0).v 0 * 1) + 2 * ghostRange * kr * (T.cell 0).hmax ≤ 5 * kr
        have a1 : (T.cell 0).bbmax 0 ≤ 0 := by
          rcases hS.bbmaxTight 0 with e | ⟨i, _, e⟩
          · rw [e]; norm_num [C94.cfg]
          · rw [e]; exact le_rfl
        have a2 : (T.cell 0).hmax ≤ 1 := by
          rcases hS.hmaxTight with e | ⟨i, _, e⟩
          · rw [e]; exact zero_le_one
          · rw [e]; exact le_rfl
        rw [hv, zero_mul, max_self, show 2 * ghostRange * kr = 5 * kr by unfold ghostRange; ring]
        have := mul_le_mul_of_nonneg_left a2 (by linarith : (0 : ℝ) ≤ 5 * kr)
        linarith
      have : (5 * kr + 1 : ℝ) ≤ (scatterBox 1 (2 * ghostRange * kr) (T.cell 0)).max 0 := h2
      linarith
    unfold searchGhosts
    rw [C94.nothing hT _ _ _ hno, Option.bind_some, C94.noTree_ghosts]

/-- Two processes with two particles each, at 0 and 3: particle 0 of the first is sent to the second, since it lies in the kernel
of its neighbour. -/
example : ∃ p q : Proc 1, p.parts = [0, 1] ∧ p.P.r 0 0 = 0 ∧ q.P.r 0 0 = 3 ∧
    ∃ s, ghostsTo (10 ^ 20) 2 0 2 1 p q = some s ∧ 0 ∈ s := by
  obtain ⟨T, l, hT, hp⟩ := C94.leafTree (C94.cfg 2) (C94.parts (fun _ => 0) (fun _ => 1) fun _ => 0) (fun _ => zero_le_one) rfl
  obtain ⟨T', l', hT', hp'⟩ := C94.leafTree (C94.cfg 2) (C94.parts (fun _ => 3) (fun _ => 2) fun _ => 0) (fun _ => zero_le_one) rfl
  refine ⟨⟨T, C94.noTree, C94.parts (fun _ => 0) (fun _ => 1) (fun _ => 0), [0, 1]⟩,
    ⟨T', C94.noTree, C94.parts (fun _ => 3) (fun _ => 2) (fun _ => 0), [0, 1]⟩, rfl, rfl, rfl, ?_⟩
  refine (C94_mutual _ _ hT (C94.noTree_ok _ _) (fun i hi => ?_) hT' (C94.noTree_ok _ _) (fun i hi => ?_) (10 ^ 20) 2 (by norm_num)
    0 1 (by simp [fullTree, Forest.cells]) (by simp [Forest.cells]) (by simp [fullTree, Forest.cells]) (by simp [Forest.cells])
    0 0 (Or.inl (hp.mem_iff.mpr (by simp))) (Or.inl (hp'.mem_iff.mpr (by simp))) ?_ ?_ ?_ ?_ ?_).1
  · simpa [hp.mem_iff] using hi
  · simpa [hp'.mem_iff] using hi
  · show (0 : ℝ) < 1; norm_num
  · show (0 : ℝ) < 2; norm_num
  · show (2 : ℝ) ≤ 5 * 1; norm_num
  · show (1 : ℝ) ≤ 5 * 2; norm_num
  · intro k
    show |(0 : ℝ) - 3| ≤ 2 * max 1 2
    norm_num

/-- Two particles at 0 that move with velocity 100: after a time 1 they are near 103 and are sent, though they start far away. -/
example : ∃ T : Tree 1, ∃ r, T.boxGhosts 1 10 (⟨fun _ => 103, fun _ => 200⟩ : Box 1 ℝ) 2 1 [] = some r ∧ 0 ∈ r := by
  obtain ⟨T, l, hT, hp⟩ := C94.leafTree (C94.cfg 2) (C94.parts (fun _ => 0) (fun _ => 1) fun _ => 100) (fun _ => zero_le_one) rfl
  exact ⟨T, C94_common_motion hT (fun _ => 100) (fun i _ => ⟨rfl, zero_lt_one, rfl⟩) 10 1 1 (by norm_num) (by norm_num) le_rfl _ []
    1 (by simp [fullTree, Forest.cells]) 0 (hp.mem_iff.mpr (by simp)) (fun _ => 103) (fun _ => ⟨le_rfl, by norm_num⟩)
    (fun k => by show |(0 : ℝ) + 100 * 1 - 103| ≤ 10 * 1; norm_num [abs_le])⟩

/-- Particles that fly apart slowly. -/
example : ∃ T : Tree 1, ∃ r, T.boxGhosts 1 10 (⟨fun _ => 6, fun _ => 200⟩ : Box 1 ℝ) 2 1 [] = some r ∧ 0 ∈ r := by
  obtain ⟨T, l, hT, hp⟩ := C94.leafTree (C94.cfg 2) (C94.parts (fun _ => 0) (fun _ => 1) fun i => if i = 0 then 4 else -4)
    (fun _ => zero_le_one) rfl
  exact ⟨T, C94_motion_partial hT 10 1 1 2 (by norm_num) (by norm_num) le_rfl _ []
    1 (by simp [fullTree, Forest.cells]) 0 (hp.mem_iff.mpr (by simp)) (fun _ => 6) (fun _ => ⟨le_rfl, by norm_num⟩)
    (fun k => by show |(0 : ℝ) + 4 * 1 - 6| ≤ 2; norm_num [abs_le])
    (fun k => by show (2 : ℝ) + |4| * 1 ≤ 10 * 1; norm_num [abs_of_pos])⟩

end

end Gandalf
