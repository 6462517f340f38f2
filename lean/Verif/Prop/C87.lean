import Verif.Proof.RadSetup

/-!
# C87 – the radiation tree and the photon packets walking through it
-/

set_option autoImplicit false
set_option linter.unusedSectionVars false

namespace Gandalf
open KD RadTree

variable {n : ℕ} {α : Type} [NeZero n] [Field α] [LinearOrder α] [IsStrictOrderedRing α]

/-- **C87 (tiling).** Whatever the particles and the previous contents of the cell array, the build ends
without using an id that was never set; the box of the root holds the sphere of `2h` round every
particle; and on every level the cells with particles tile it: `FindCell` finds for each point of the
root box a cell of the level that holds particles and contains the point, and a point strictly inside
such a cell leads to that cell and to no other. -/
theorem C87_cells_tile {t : KD.Links} {ltot : ℕ} {big : α} {r : ℕ → Vec n α} {h : ℕ → α}
    {dead : ℕ → Bool} {Ntot : ℕ} {ids0 : ℕ → ℕ} (H : Setup t ltot big r h dead Ntot ids0)
    (old : ℕ → Cell n α) :
    ∃ s, build t ltot big r dead h Ntot old ids0 = some s ∧ (∀ j, j < Ntot → s.ids j < Ntot) ∧
      let T := optimise t s.cell ltot (ncellOf ltot)
      (∀ i, i < Ntot → ∀ k, (T 0).bbmin k ≤ r i k - 2 * h i ∧ r i k + 2 * h i ≤ (T 0).bbmax k) ∧
      ∀ level, level ≤ ltot → ∀ p, InBox (T 0) p →
        (∃ c, findCell t T ltot level p 0 = some c ∧ c < ncellOf ltot ∧ t.level c = level ∧
          0 < (T c).N ∧ InBox (T c) p) ∧
        ∀ c, c < ncellOf ltot → t.level c = level → 0 < (T c).N → Inside (T c) p →
          findCell t T ltot level p 0 = some c := by
  obtain ⟨s, e, ⟨⟨g, hlo⟩, htile, hpos, hlow, hprop, hfaces⟩, hbox, hids, _⟩ := build_ready H old
  refine ⟨s, e, hids, ?_⟩
  intro T
  have hsame := optimise_same t s.cell ltot (ncellOf ltot)
  refine ⟨?_, ?_⟩
  · intro i hi k
    show (optimise t s.cell ltot (ncellOf ltot) 0).bbmin k ≤ _ ∧ _ ≤ (optimise t s.cell ltot (ncellOf ltot) 0).bbmax k
    rw [← (hsame 0).2.2.1, ← (hsame 0).2.2.2]
    exact hbox i hi k
  · intro level hl p hp
    have hbig : ∀ k, -big ≤ p k := fun k => (hlow k).trans (hp k).1
    have hj : level + (ltot - level) = ltot := by omega
    refine ⟨?_, ?_⟩
    · obtain ⟨c, e1, e2, e3, e4⟩ := descend_spec level (ltot - level) hj p hbig ltot 0 g (ltot + 1) hlo htile
        hpos hp (by omega) (by omega)
      obtain ⟨l1, l2⟩ := level_of_node hlo hj e2
      refine ⟨c, ?_, l1, l2, e3, e4⟩
      unfold findCell
      rw [e1, Option.bind_some]
      exact if_pos e4
    · intro c hc hlc hN hin
      have hn := node_of_level hlo hj hc hlc
      unfold findCell
      rw [descend_unique level (ltot - level) hj p hbig hn g (ltot + 1) rfl hlo htile hN hin (by omega),
        Option.bind_some, if_pos]
      exact fun k => ⟨(hin k).1.le, (hin k).2.le⟩

/-- **C87 (exit pointers).** After the build and `OptimiseTree`, for every cell with particles and each
of its faces the pointer is right: it is `-1` only if the face is a face of the root, and otherwise names
a cell with particles, not deeper in the tree, that touches the face from the other side and covers all
of it. -/
theorem C87_exit_cells {t : KD.Links} {ltot : ℕ} {big : α} {r : ℕ → Vec n α} {h : ℕ → α}
    {dead : ℕ → Bool} {Ntot : ℕ} {ids0 : ℕ → ℕ} (H : Setup t ltot big r h dead Ntot ids0)
    (old : ℕ → Cell n α) :
    ∃ s, build t ltot big r dead h Ntot old ids0 = some s ∧
      let T := optimise t s.cell ltot (ncellOf ltot)
      ∀ c, c < ncellOf ltot → 0 < (T c).N → ∀ fc k,
        FaceOK t (ncellOf ltot) T c fc k ((T c).exit fc k) := by
  obtain ⟨s, e, ⟨⟨g, hlo⟩, htile, hpos, hlow, hprop, hfaces⟩, _⟩ := build_ready H old
  refine ⟨s, e, ?_⟩
  intro T c hc hN fc k
  obtain ⟨d, hd⟩ := exists_node ltot 0 c (by omega) (by rw [ncellOf_eq] at hc; simpa [fullSize] using hc)
  have hF := hfaces d c hd hN fc k
  change FaceInv ltot T d c fc k ((T c).exit fc k) at hF
  cases hx : (T c).exit fc k with
  | none => rw [hx] at hF; exact hF
  | some e' =>
    rw [hx] at hF
    obtain ⟨de, f1, f2, f3, f4, f5, _⟩ := hF
    obtain ⟨g1, l1⟩ := hd.laid _ hlo
    obtain ⟨g2, l2⟩ := f1.laid _ hlo
    have := laid_level l1
    have := laid_level l2
    have h1 := f1.range
    have h2 := fs_pos de
    refine ⟨?_, f2, by omega, f4, f5⟩
    rw [ncellOf_eq]; show e' < fullSize ltot; omega

/-- **C87 (exit face).** For a point in the box of a cell and a direction without a zero component
(`inveray` taken as the exact inverse), `FindRayExitFace` returns a path length that is not negative, up
to which - and not beyond - the ray stays in the box, and the pointer behind the face it then lies on. -/
theorem C87_exit_face {big : α} {c : Cell n α} {p e : Vec n α} (hp : InBox c p) (he : ∀ k, e k ≠ 0)
    (hb : ∃ k, c.bbmax k - c.bbmin k < big * |e k|) :
    ∃ d k, exitFace big c p e (invRay 0 e) = (d, c.exit (decide (0 < e k)) k) ∧ 0 ≤ d ∧
      p k + d * e k = face c (decide (0 < e k)) k ∧
      ∀ x, 0 ≤ x → (InBox c (fun k => p k + x * e k) ↔ x ≤ d) := by
  have hb' : ∃ k, ahead c p e k < big := by
    obtain ⟨k, hk⟩ := hb
    refine ⟨k, ?_⟩
    have h2 := hp k
    unfold ahead face
    rcases lt_or_gt_of_ne (he k) with h | h
    · rw [decide_eq_false (not_lt.mpr h.le)]
      simp only [Bool.false_eq_true, if_false]
      rw [div_lt_iff_of_neg h]
      rw [abs_of_neg h] at hk
      linarith
    · rw [decide_eq_true h]
      simp only [if_true]
      rw [div_lt_iff₀ h]
      rw [abs_of_pos h] at hk
      linarith
  obtain ⟨k, h1, h2⟩ := exitFace_spec hp he hb'
  refine ⟨_, k, h1, ahead_nonneg hp (he k), at_face (he k), ?_⟩
  intro x hx
  constructor
  · intro h; exact (stays_iff hp (he k) hx).mp (h k)
  · intro h k'; exact (stays_iff hp (he k') hx).mpr (h.trans (h2 k'))

/-- **C87 (photon packet), partial.** A packet sent off from a point of the root box, on any level of the
tree, with any opacities and any optical depth `taumax ≥ 0`, in a direction without a zero component, is
followed to its end in at most `2^level` turns. Its way is a straight line, cut into pieces each of which
lies in the cell it is booked on; no cell is crossed twice, only cells of the level with particles are
crossed, and the path sums and photon counts grow by just these pieces. If it is absorbed, the optical
depth of the way is `taumax`; if it escapes, it has come to a face of the root box with an optical depth of
at most `taumax`. (Partial: `inveray` is taken as the exact inverse of the direction, where the code
adds `small_number` first. Particles marked as dead are excluded, see `C87_dead_particles_fails`.) -/
theorem C87_photon_partial {t : KD.Links} {ltot : ℕ} {big : α} {r : ℕ → Vec n α} {h : ℕ → α}
    {dead : ℕ → Bool} {Ntot : ℕ} {ids0 : ℕ → ℕ} (H : Setup t ltot big r h dead Ntot ids0)
    (old : ℕ → Cell n α) :
    ∃ s, build t ltot big r dead h Ntot old ids0 = some s ∧
      let T := optimise t s.cell ltot (ncellOf ltot)
      ∀ level, level ≤ ltot → ∀ (p e : Vec n α) (op lsum : ℕ → α) (cnt : ℕ → ℕ) (taumax : α),
        InBox (T 0) p → (∀ k, e k ≠ 0) → 0 ≤ taumax →
        (∃ k, (T 0).bbmax k - (T 0).bbmin k < big * |e k|) →
        ∃ c fate ph' l, findCell t T ltot level p 0 = some c ∧
          fly t T ltot level big op e (invRay 0 e) taumax (2 ^ level) ⟨c, p, 0, lsum, cnt⟩ =
            some (fate, ph') ∧
          Pieces T e p l ph'.r ∧ (l.map Prod.fst).Nodup ∧
          (∀ q ∈ l, q.1 < ncellOf ltot ∧ t.level q.1 = level ∧ 0 < (T q.1).N) ∧
          (∀ x, ph'.lsum x = lsum x + ((l.filter fun q => q.1 = x).map Prod.snd).sum) ∧
          (∀ x, ph'.Nphoton x = cnt x + (l.map Prod.fst).count x) ∧
          (fate = .absorbed → (l.map fun q => q.2 * op q.1).sum = taumax ∧ InBox (T 0) ph'.r) ∧
          (fate = .escaped → (l.map fun q => q.2 * op q.1).sum ≤ taumax ∧ InBox (T 0) ph'.r ∧
            ∃ k, ph'.r k = face (T 0) (decide (0 < e k)) k) := by
  obtain ⟨s, e, hR, _⟩ := build_ready H old
  refine ⟨s, e, ?_⟩
  intro T level hl p ev op lsum cnt taumax hp he htau hb
  obtain ⟨⟨g, hlo⟩, htile, hpos, hlow, hprop, hfaces⟩ := id hR
  have hbig : ∀ k, -big ≤ p k := fun k => (hlow k).trans (hp k).1
  have hj : level + (ltot - level) = ltot := by omega
  obtain ⟨c, e1, e2, e3, e4⟩ := descend_spec level (ltot - level) hj p hbig ltot 0 g (ltot + 1) hlo htile
    hpos hp (by omega) (by omega)
  obtain ⟨fate, ph', l, f1, f2, f3, f4, f5, f6, f7, f8⟩ := fly_spec hR level (ltot - level) hj op ev he
    taumax hb (2 ^ level) ⟨c, p, 0, lsum, cnt⟩ e2 e3 e4 htau (by omega)
  refine ⟨c, fate, ph', l, ?_, f1, f2, f4, ?_, f5, f6, ?_, ?_⟩
  · unfold findCell
    rw [e1, Option.bind_some]
    exact if_pos e4
  · intro q hq
    obtain ⟨a1, a2, _⟩ := f3 q hq
    obtain ⟨b1, b2⟩ := level_of_node hlo hj a1
    exact ⟨b1, b2, a2⟩
  · intro hf
    obtain ⟨a1, a2⟩ := f7 hf
    rw [zero_add] at a1
    exact ⟨a1, a2⟩
  · intro hf
    obtain ⟨a1, a2⟩ := f8 hf
    rw [zero_add] at a1
    exact ⟨a1, a2⟩

/-- **C87 (sums).** `SumRadiationField` for a level of the tree ends, leaves the values of the cells of
that level and below as they are, and gives the root the sum over the cells of the level. -/
theorem C87_sum_field {t : KD.Links} {ltot : ℕ} (hlo : LaidOut t ltot ltot 0 0) (level : ℕ)
    (hl : level ≤ ltot) (f : ℕ → α) :
    ∃ f', sumField t (level : ℤ) (ltot + 1) 0 f = some f' ∧
      f' 0 = levelSum t level f 0 (ncellOf ltot) ∧ ∀ i, level ≤ t.level i → f' i = f i := by
  obtain ⟨f', e, h1, _, h3⟩ := sumField_spec level (ltot - level) (by omega) ltot 0 0 (ltot + 1) f hlo
    (by omega) (by omega)
  exact ⟨f', e, by rw [h1, ncellOf_eq]; first | done | rfl, h3⟩

theorem RadTree.foldl_longest (f : Fin n → α) : ∀ (L : List (Fin n)) (s : α × Fin n),
    let e := L.foldl (fun (s : α × Fin n) k => if s.1 < f k then (f k, k) else s) s
    s.1 ≤ e.1 ∧ (∀ k ∈ L, f k ≤ e.1) ∧ (e = s ∨ e.1 = f e.2) := by
  intro L
  induction L with
  | nil => intro s; exact ⟨le_rfl, by simp, Or.inl rfl⟩
  | cons k L ih =>
    intro s
    obtain ⟨h1, h2, h3⟩ := ih (if s.1 < f k then (f k, k) else s)
    simp only [List.foldl_cons]
    by_cases hk : s.1 < f k
    · rw [if_pos hk] at h1 h2 h3 ⊢
      refine ⟨hk.le.trans h1, fun j hj => ?_, Or.inr ?_⟩
      · rcases List.mem_cons.mp hj with rfl | hj
        · exact h1
        · exact h2 j hj
      · rcases h3 with h | h
        · rw [h]
        · exact h
    · rw [if_neg hk] at h1 h2 h3 ⊢
      refine ⟨h1, fun j hj => ?_, h3⟩
      rcases List.mem_cons.mp hj with rfl | hj
      · exact (not_lt.mp hk).trans h1
      · exact h2 j hj

/-- **C87 (division).** A cell with a side of positive length is divided across its longest side, and the plane lies
midway between the outermost particle of the left half and the pivot, the first of the right half. -/
theorem C87_division (c : Cell n α) (hc : ∃ k, c.bbmin k < c.bbmax k) (big : α) (key : ℕ → α) (ids : ℕ → ℕ)
    (first p N : ℕ) (hN : 1 < N) (hp : first < p) (v : α) (hbig : ∀ j, first ≤ j → j < p → -big ≤ key (ids j)) :
    (∀ k, c.bbmax k - c.bbmin k ≤ c.bbmax (longest c) - c.bbmin (longest c)) ∧
    ∃ j, first ≤ j ∧ j < p ∧ (∀ i, first ≤ i → i < p → key (ids i) ≤ key (ids j)) ∧
      plane big key ids first p N v = (key (ids j) + v) / 2 := by
  constructor
  · intro k
    obtain ⟨h1, h2, h3⟩ := RadTree.foldl_longest (fun k => c.bbmax k - c.bbmin k) (List.finRange n) ((0 : α), (0 : Fin n))
    rcases h3 with h | h
    · obtain ⟨j, hj⟩ := hc
      have := h2 j (List.mem_finRange j)
      rw [h] at this
      simp only at this
      linarith
    · have := h2 k (List.mem_finRange k)
      rw [h] at this
      exact this
  · unfold plane
    rw [if_pos hN]
    have key2 : ∀ (L : List ℕ) (b : α), (∀ j ∈ L, b ≤ key (ids j)) → L ≠ [] →
        ∃ j ∈ L, (∀ i ∈ L, key (ids i) ≤ key (ids j)) ∧
          L.foldl (fun (m : α) (j : ℕ) => max m (key (ids j))) b = key (ids j) := by
      intro L
      induction L using List.reverseRecOn with
      | nil => intro b _ h; exact absurd rfl h
      | append_singleton L a ih =>
        intro b hb _
        rw [List.foldl_append, List.foldl_cons, List.foldl_nil]
        by_cases hL : L = []
        · subst hL
          exact ⟨a, by simp, by simp, max_eq_right (hb a (by simp))⟩
        · obtain ⟨j, hj, hmax, e⟩ := ih b (fun j hj => hb j (by simp [hj])) hL
          rw [e]
          rcases le_total (key (ids j)) (key (ids a)) with h | h
          · refine ⟨a, by simp, fun i hi => ?_, max_eq_right h⟩
            rcases List.mem_append.mp hi with hi | hi
            · exact (hmax i hi).trans h
            · rw [List.mem_singleton.mp hi]
          · refine ⟨j, by simp [hj], fun i hi => ?_, max_eq_left h⟩
            rcases List.mem_append.mp hi with hi | hi
            · exact hmax i hi
            · rw [List.mem_singleton.mp hi]; exact h
    obtain ⟨j, hj, hmax, e⟩ := key2 (List.range' first (p - first)) (-big)
      (fun j hj => by rw [List.mem_range'_1] at hj; exact hbig j hj.1 (by omega))
      (by rw [Ne, List.range'_eq_nil_iff]; omega)
    rw [List.mem_range'_1] at hj
    exact ⟨j, hj.1, by omega, fun i h1 h2 => hmax i (by rw [List.mem_range'_1]; omega), by rw [e]⟩

/-- a box of sides 1 and 3 is divided across the second -/
example : longest (n := 2) (α := ℚ) ⟨0, 2, fun _ => 0, ![1, 3], fun _ _ => none⟩ = 1 ∧
    plane (100 : ℚ) (fun i => i) id 0 2 4 2 = 3 / 2 := by decide +kernel

/-- **C87 (zero component) fails.** A direction with a zero component gets a negative path length in every
cell in which the packet is not just on the lower face: the packet is sent backwards, far out of the
cell. -/
theorem C87_zero_component_fails {big small : α} (hs : 0 < small) (c : Cell n α) (p e : Vec n α)
    (k : Fin n) (hk : e k = 0) (hp : c.bbmin k < p k) :
    (exitFace big c p e (invRay small e)).1 ≤ -(p k - c.bbmin k) / small ∧
      (exitFace big c p e (invRay small e)).1 < 0 := by
  have key : (exitFace big c p e (invRay small e)).1 ≤ (c.bbmin k - p k) * (1 / small) := by
    have e1 : exitFace big c p e (invRay small e) = (List.finRange n).foldl
        (fun s i => if (if 0 < e i then (c.bbmax i - p i) * invRay small e i
            else (c.bbmin i - p i) * invRay small e i) < s.1 then
          ((if 0 < e i then (c.bbmax i - p i) * invRay small e i
            else (c.bbmin i - p i) * invRay small e i),
            (if 0 < e i then c.exit true i else c.exit false i)) else s) (big, none) := by
      unfold exitFace
      congr 1
      funext s i
      by_cases h : 0 < e i
      · simp only [h, if_true]
      · simp only [h, if_false]
    have h := (foldl_min (fun i => if 0 < e i then (c.bbmax i - p i) * invRay small e i
            else (c.bbmin i - p i) * invRay small e i)
      (fun i => if 0 < e i then c.exit true i else c.exit false i) (List.finRange n) (big, none)).2.2 k
      (List.mem_finRange _)
    rw [e1]
    refine h.trans (le_of_eq ?_)
    have hn : ¬ (0 : α) < e k := by rw [hk]; exact lt_irrefl _
    simp only [if_neg hn]
    unfold invRay
    rw [hk, zero_add]
  have e2 : (c.bbmin k - p k) * (1 / small) = -(p k - c.bbmin k) / small := by ring
  rw [e2] at key
  refine ⟨key, key.trans_lt ?_⟩
  exact div_neg_of_neg_of_pos (by linarith) hs

/-- **C87 (level check) fails.** The test meant to catch a level outside the tree never fires, and with a
negative level (`Nradlevels > ltot + 1`) `SumRadiationField` runs past the leaves and reads cell `-1`. -/
theorem C87_level_check_fails {t : KD.Links} {ltot : ℕ} (hlo : LaidOut t ltot ltot 0 0) :
    (∀ level : ℤ, levelRejected level ltot = false) ∧
    ∀ level : ℤ, level < 0 → ∀ (fuel : ℕ) (f : ℕ → α), sumField t level fuel 0 f = none := by
  refine ⟨?_, fun level hneg fuel f => sumField_negative level hneg ltot 0 0 fuel f hlo⟩
  intro level
  unfold levelRejected
  rw [Bool.and_eq_false_iff]
  by_cases h : level < 0
  · right; simp; omega
  · left; simp; omega

/-- **C87 (read before the array) fails.** The loops of `OptimiseTree` look at `radcell[cexit]` before
they ask whether `cexit` is `-1`: in every tree, already at the root, they read `radcell[-1]`. -/
theorem C87_reads_before_array_fails {t : KD.Links} {ltot : ℕ} {big : α} {r : ℕ → Vec n α} {h : ℕ → α}
    {dead : ℕ → Bool} {Ntot : ℕ} {ids0 : ℕ → ℕ} (H : Setup t ltot big r h dead Ntot ids0)
    (old : ℕ → Cell n α) (s : State n α) (hb : build t ltot big r dead h Ntot old ids0 = some s) :
    none ∈ loopReads s.cell (ncellOf ltot) := by
  have hroot : (s.cell 0).exit false 0 = none := by
    have hlo := H.laid
    cases ltot with
    | zero =>
      have hl : t.level 0 = 0 := hlo.1
      unfold build at hb
      rw [divide, if_pos hl] at hb
      obtain rfl := Option.some.inj hb
      simp only [Function.update_self]
    | succ d =>
      obtain ⟨s', e, hR, _⟩ := build_ready H old
      rw [hb] at e
      obtain rfl := Option.some.inj e
      by_contra hne
      obtain ⟨x, hx⟩ := Option.ne_none_iff_exists'.mp hne
      have hF := hR.faces (d + 1) 0 (.self _ _) hR.pos false 0
      have e1 : (optimise t s.cell (d + 1) (ncellOf (d + 1)) 0).exit false 0 =
          ((s.cell 0).exit false 0).map (narrow t s.cell (t.level 0) (s.cell 0) false 0 (d + 1)) := by
        unfold optimise
        rw [if_pos (by rw [ncellOf_eq]; exact fs_pos (d + 1))]
      rw [e1, hx] at hF
      obtain ⟨de, _, _, _, _, _, ⟨_, b, _, _, hsep⟩⟩ := hF
      simp at hsep
  unfold loopReads
  rw [List.mem_flatMap]
  refine ⟨0, ?_, ?_⟩
  · rw [List.mem_range, ncellOf_eq]; exact fs_pos ltot
  · rw [List.mem_flatMap]
    exact ⟨0, List.mem_finRange _, by rw [hroot]; simp⟩

/-! ### Instances -/

namespace RadTree

/-- link table of depth 2 (C05) -/
def exLinks : KD.Links where
  level c := [0, 1, 2, 2, 1, 2, 2].getD c 0
  copen c := [some 1, some 2, none, none, some 5, none, none].getD c none
  cnext c := [some 7, some 4, some 3, some 4, some 7, some 6, some 7].getD c none
  c1 c := [some 1, some 2, none, none, some 5, none, none].getD c none
  c2 c := [some 4, some 3, none, none, some 6, none, none].getD c none
  c2g c := [0, 0, 0, 1, 0, 2, 3].getD c 0
  g2c g := [2, 3, 5, 6].getD g 0
  g := 4

theorem exLinks_laid : LaidOut exLinks 2 2 0 0 := by
  simp [LaidOut, exLinks, fullSize] <;> rfl

/-- contents of the cell array before the build -/
def exOld (n : ℕ) [NeZero n] : ℕ → Cell n ℚ := fun _ => ⟨0, 9, fun _ => 5, fun _ => 6, fun _ _ => some 3⟩

/-- four particles on a line -/
def exLine : ℕ → Vec 1 ℚ := fun i _ => (i : ℚ)

/-- five particles in a plane -/
def exPlane : ℕ → Vec 2 ℚ := fun i =>
  ([![0, 0], ![4, 1], ![1, 3], ![3, 2], ![2, 5]] : List (Vec 2 ℚ)).getD i ![0, 0]

theorem exLine_setup : Setup exLinks 2 1000 exLine (fun _ => 1/2) (fun _ => false) 4 id := by
  refine ⟨exLinks_laid, by omega, by intro _; norm_num, fun j h => h, fun _ _ => rfl,
    fun _ _ => by norm_num, ?_, by norm_num⟩
  intro i _ k
  unfold exLine
  have : (0 : ℚ) ≤ (i : ℚ) := Nat.cast_nonneg i
  linarith

/-- tree of the line -/
def exTree (dead : ℕ → Bool) : Option (ℕ → Cell 1 ℚ) :=
  (build exLinks 2 1000 exLine dead (fun _ => 1/2) 4 (exOld 1) id).map fun s =>
    optimise exLinks s.cell 2 7

end RadTree

/-- the leaves of the line are [-1,1/2], [1/2,3/2], [3/2,5/2], [5/2,4]; their exits to the right -/
example : (RadTree.exTree fun _ => false).map (fun T => [2, 3, 5, 6].map fun c : ℕ =>
    ((T c).bbmin 0, (T c).bbmax 0, (T c).exit true 0)) =
    some [(-1, 1/2, some 3), (1/2, 3/2, some 5), (3/2, 5/2, some 6), (5/2, 4, none)] := by
  decide +kernel

/-- a packet from 1 to the right through clear gas crosses the leaves 3, 5 and 6 -/
example : (RadTree.exTree fun _ => false).bind (fun T =>
    (fly exLinks T 2 2 1000 (fun _ => 0) (fun _ => 1) (invRay 0 fun _ => 1) 7 4
      ⟨3, fun _ => 1, 0, fun _ => 0, fun _ => 0⟩).map fun q =>
        (q.1, q.2.r 0, [2, 3, 5, 6].map q.2.lsum)) = some (.escaped, 4, [0, 1/2, 1, 3/2]) := by
  decide +kernel

/-- through gas of opacity 2 it is absorbed at optical depth 2, in the leaf 5 -/
example : (RadTree.exTree fun _ => false).bind (fun T =>
    (fly exLinks T 2 2 1000 (fun _ => 2) (fun _ => 1) (invRay 0 fun _ => 1) 2 4
      ⟨3, fun _ => 1, 0, fun _ => 0, fun _ => 0⟩).map fun q =>
        (q.1, q.2.r 0, [2, 3, 5, 6].map q.2.lsum)) = some (.absorbed, 2, [0, 1/2, 1/2, 0]) := by
  decide +kernel

/-- five particles in a plane: a slanting packet from (0,0) crosses three of the four leaves -/
example : ((build exLinks 2 1000 exPlane (fun _ => false) (fun _ => 1/2) 5 (exOld 2) id).map fun s =>
    optimise exLinks s.cell 2 7).bind (fun T =>
      (findCell exLinks T 2 2 ![0, 0] 0).bind fun c =>
      (fly exLinks T 2 2 1000 (fun _ => 0) ![1, 2] (invRay 0 ![1, 2]) 7 4
        ⟨c, ![0, 0], 0, fun _ => 0, fun _ => 0⟩).map fun q =>
          (q.1, q.2.r 0, q.2.r 1, [2, 3, 5, 6].map q.2.lsum)) =
    some (.escaped, 3, 6, [3/4, 0, 3/4, 3/2]) := by
  decide +kernel

/-- **C87 (dead particles) fails.** With the third of four particles on a line marked as dead, its leaf
`[3/2, 5/2]` counts as empty and `OptimiseTree` lets the right-hand face of `[1/2, 3/2]` lead past it into
`[5/2, 4]`: a packet sent to the right books the whole of its remaining way on that last leaf, and nothing
on the leaf in between. -/
theorem C87_dead_particles_fails :
    (RadTree.exTree fun i => i == 2).map (fun T => [3, 5, 6].map fun c : ℕ =>
      ((T c).N, (T c).bbmin 0, (T c).bbmax 0, (T c).exit true 0)) =
        some [(1, 1/2, 3/2, some 6), (0, 3/2, 5/2, some 6), (1, 5/2, 4, none)] ∧
    (RadTree.exTree fun i => i == 2).bind (fun T =>
      (fly exLinks T 2 2 1000 (fun _ => 0) (fun _ => 1) (invRay 0 fun _ => 1) 7 4
        ⟨3, fun _ => 1, 0, fun _ => 0, fun _ => 0⟩).map fun q =>
          (q.1, q.2.r 0, [2, 3, 5, 6].map q.2.lsum)) = some (.escaped, 4, [0, 1/2, 0, 5/2]) := by
  constructor <;> decide +kernel

/-- the sums: 10 on each leaf -/
example : (sumField exLinks 2 3 0 (fun _ => (10 : ℚ))).map (fun f => (f 0, f 1, f 6)) = some (40, 20, 10) := by
  decide +kernel

/-- hypotheses of the exit face: the unit square, from its middle along (1, -2) -/
example : InBox (⟨0, 1, fun _ => 0, fun _ => 1, fun _ _ => none⟩ : Cell 2 ℚ) ![1/2, 1/2] ∧
    (∀ k, (![1, -2] : Vec 2 ℚ) k ≠ 0) ∧ exitFace 1000 (⟨0, 1, fun _ => 0, fun _ => 1, fun _ _ => some 7⟩ :
      Cell 2 ℚ) ![1/2, 1/2] ![1, -2] (invRay 0 ![1, -2]) = (1/4, some 7) := by
  refine ⟨?_, ?_, by decide +kernel⟩
  · intro k; fin_cases k <;> constructor <;> norm_num
  · intro k; fin_cases k <;> norm_num

/-- along (1, 0), with `small_number = 10^-20`, the path across the unit square is `-5·10^19` -/
example : (exitFace 990000000000000000000 (⟨0, 1, fun _ => 0, fun _ => 1, fun _ _ => some 7⟩ :
      Cell 2 ℚ) ![1/2, 1/2] ![1, 0] (invRay (1/100000000000000000000) ![1, 0])).1 =
      -50000000000000000000 := by
  decide +kernel

end Gandalf
