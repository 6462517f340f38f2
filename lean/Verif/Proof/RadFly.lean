import Verif.Proof.RadWalk

/-! Photon packets: exit faces, order of the cells along a ray, the loop, the sums. -/

set_option autoImplicit false
set_option linter.unusedSectionVars false

namespace Gandalf.RadTree
open KD

variable {n : ℕ} {α : Type} [NeZero n] [Field α] [LinearOrder α]

theorem foldl_min {κ : Type} (v : κ → α) (o : κ → Option ℕ) : ∀ (l : List κ) (s : α × Option ℕ),
    let q := l.foldl (fun s k => if v k < s.1 then (v k, o k) else s) s
    (q = s ∨ ∃ k ∈ l, q = (v k, o k)) ∧ q.1 ≤ s.1 ∧ ∀ k ∈ l, q.1 ≤ v k := by
  intro l
  induction l with
  | nil => intro s; exact ⟨Or.inl rfl, le_rfl, by simp⟩
  | cons a l ih =>
    intro s
    simp only [List.foldl_cons]
    obtain ⟨h1, h2, h3⟩ := ih (if v a < s.1 then (v a, o a) else s)
    by_cases h : v a < s.1
    · rw [if_pos h] at h1 h2 h3 ⊢
      refine ⟨?_, h2.trans h.le, ?_⟩
      · rcases h1 with h1 | ⟨k, hk, h1⟩
        · exact Or.inr ⟨a, by simp, h1⟩
        · exact Or.inr ⟨k, by simp [hk], h1⟩
      · intro k hk
        rcases List.mem_cons.mp hk with rfl | hk
        · exact h2
        · exact h3 k hk
    · rw [if_neg h] at h1 h2 h3 ⊢
      refine ⟨?_, h2, ?_⟩
      · rcases h1 with h1 | ⟨k, hk, h1⟩
        · exact Or.inl h1
        · exact Or.inr ⟨k, by simp [hk], h1⟩
      · intro k hk
        rcases List.mem_cons.mp hk with rfl | hk
        · exact h2.trans (not_lt.mp h)
        · exact h3 k hk

/-- distance along the ray to the face ahead of `p` in dimension `k` -/
def ahead (c : Cell n α) (p e : Vec n α) (k : Fin n) : α := (face c (decide (0 < e k)) k - p k) / e k

variable [IsStrictOrderedRing α]

theorem ahead_nonneg {c : Cell n α} {p e : Vec n α} (hp : InBox c p) {k : Fin n} (he : e k ≠ 0) :
    0 ≤ ahead c p e k := by
  unfold ahead face
  rcases lt_or_gt_of_ne he with h | h
  · rw [decide_eq_false (not_lt.mpr h.le)]
    simp only [Bool.false_eq_true, if_false]
    exact div_nonneg_of_nonpos (by linarith [(hp k).1]) h.le
  · rw [decide_eq_true h]
    simp only [if_true]
    exact div_nonneg (by linarith [(hp k).2]) h.le

/-- along `k` the ray stays in the box exactly as long as it has not passed the face ahead -/
theorem stays_iff {c : Cell n α} {p e : Vec n α} (hp : InBox c p) {k : Fin n} (he : e k ≠ 0) {x : α}
    (hx : 0 ≤ x) : (c.bbmin k ≤ p k + x * e k ∧ p k + x * e k ≤ c.bbmax k) ↔ x ≤ ahead c p e k := by
  unfold ahead face
  rcases lt_or_gt_of_ne he with h | h
  · rw [decide_eq_false (not_lt.mpr h.le)]
    simp only [Bool.false_eq_true, if_false]
    rw [le_div_iff_of_neg h]
    constructor
    · intro ⟨h1, _⟩; linarith
    · intro h1
      have : x * e k ≤ 0 := mul_nonpos_of_nonneg_of_nonpos hx h.le
      exact ⟨by linarith, by linarith [(hp k).2]⟩
  · rw [decide_eq_true h]
    simp only [if_true]
    rw [le_div_iff₀ h]
    constructor
    · intro ⟨_, h1⟩; linarith
    · intro h1
      have : 0 ≤ x * e k := mul_nonneg hx h.le
      exact ⟨by linarith [(hp k).1], by linarith⟩

theorem at_face {c : Cell n α} {p e : Vec n α} {k : Fin n} (he : e k ≠ 0) :
    p k + ahead c p e k * e k = face c (decide (0 < e k)) k := by
  unfold ahead
  rw [div_mul_cancel₀ _ he]; ring

theorem exitFace_eq (big : α) (c : Cell n α) (p e : Vec n α) :
    exitFace big c p e (invRay 0 e) = (List.finRange n).foldl
      (fun s k => if ahead c p e k < s.1 then (ahead c p e k, c.exit (decide (0 < e k)) k) else s)
      (big, none) := by
  unfold exitFace
  congr 1
  funext s k
  unfold ahead face invRay
  by_cases h : 0 < e k
  · simp only [h, if_true, decide_true, add_zero, mul_one_div]
  · simp only [h, if_false, decide_false, add_zero, mul_one_div, Bool.false_eq_true]

/-- `FindRayExitFace` finds the face through which the ray leaves the box. -/
theorem exitFace_spec {big : α} {c : Cell n α} {p e : Vec n α} (hp : InBox c p) (he : ∀ k, e k ≠ 0)
    (hb : ∃ k, ahead c p e k < big) :
    ∃ k, exitFace big c p e (invRay 0 e) = (ahead c p e k, c.exit (decide (0 < e k)) k) ∧
      ∀ k', ahead c p e k ≤ ahead c p e k' := by
  rw [exitFace_eq]
  obtain ⟨h1, h2, h3⟩ := foldl_min (ahead c p e) (fun k => c.exit (decide (0 < e k)) k)
    (List.finRange n) (big, none)
  obtain ⟨kb, hb⟩ := hb
  rcases h1 with h1 | ⟨k, _, h1⟩
  · have := h3 kb (List.mem_finRange _)
    rw [h1] at this
    exact absurd hb (not_lt.mpr this)
  · refine ⟨k, h1, fun k' => ?_⟩
    have := h3 k' (List.mem_finRange _)
    rw [h1] at this
    exact this

/-- place of a cell in the order in which the cells `m` levels down are met by rays whose component
along `k` is positive iff `σ k`; `j` is the height of those cells -/
def ord (cells : ℕ → Cell n α) (σ : Fin n → Bool) (j : ℕ) : (m a x : ℕ) → ℕ
  | 0, _, _ => 0
  | m + 1, a, x =>
    if x < a + 1 + fullSize (m + j) then
      ord cells σ j m (a + 1) x + (if σ (cells a).kdiv then 0 else 2 ^ m)
    else
      ord cells σ j m (a + 1 + fullSize (m + j)) x + (if σ (cells a).kdiv then 2 ^ m else 0)

theorem ord_lt (cells : ℕ → Cell n α) (σ : Fin n → Bool) (j : ℕ) : ∀ (m a x : ℕ),
    ord cells σ j m a x < 2 ^ m := by
  intro m
  induction m with
  | zero => intro a x; simp [ord]
  | succ m ih =>
    intro a x
    have e : 2 ^ (m + 1) = 2 ^ m + 2 ^ m := by ring
    have h1 := ih (a + 1) x
    have h2 := ih (a + 1 + fullSize (m + j)) x
    rw [ord]
    split_ifs <;> omega

theorem ord_node (cells : ℕ → Cell n α) (σ : Fin n → Bool) (j : ℕ) {D a d b : ℕ} (h : Node D a d b) :
    ∀ (m m' x y : ℕ), D = m + j → d = m' + j → b ≤ x → x < b + fullSize d → b ≤ y → y < b + fullSize d →
      ord cells σ j m' b x < ord cells σ j m' b y → ord cells σ j m a x < ord cells σ j m a y := by
  induction h with
  | self D a =>
    intro m m' x y h1 h2 _ _ _ _ h
    obtain rfl : m = m' := by omega
    exact h
  | @left D a d b h1 ih =>
    intro m m' x y e1 e2 hx hx' hy hy' h
    have hle := h1.le
    obtain ⟨m, rfl⟩ : ∃ q, m = q + 1 := ⟨m - 1, by omega⟩
    obtain rfl : D = m + j := by omega
    have hr := h1.range
    have := ih m m' x y rfl e2 hx hx' hy hy' h
    rw [ord, ord, if_pos (show x < _ by omega), if_pos (show y < _ by omega)]
    omega
  | @right D a d b h1 ih =>
    intro m m' x y e1 e2 hx hx' hy hy' h
    have hle := h1.le
    obtain ⟨m, rfl⟩ : ∃ q, m = q + 1 := ⟨m - 1, by omega⟩
    obtain rfl : D = m + j := by omega
    have hr := h1.range
    have := ih m m' x y rfl e2 hx hx' hy hy' h
    rw [ord, ord, if_neg (show ¬ x < _ by omega), if_neg (show ¬ y < _ by omega)]
    omega

/-- leaving a cell through a face ahead leads to a cell later in the order -/
theorem Sep.ord {cells : ℕ → Cell n α} {L c de e : ℕ} {k : Fin n} (σ : Fin n → Bool) (j m x : ℕ)
    (hL : L = m + j) (h : Sep L cells j c de e (σ k) k) (hx : e ≤ x) (hx' : x < e + fullSize de) :
    ord cells σ j m 0 c < ord cells σ j m 0 x := by
  obtain ⟨d, b, hn, hk, hs⟩ := h
  have hpos := fs_pos j
  have hjd : j ≤ d := by
    apply fs_le
    split_ifs at hs <;> omega
  obtain ⟨m', rfl⟩ : ∃ m', d = m' + j := ⟨d - j, by omega⟩
  have hfs := fullSize_succ (m' + j)
  have hb1 : b ≤ c := by split_ifs at hs <;> omega
  have hb2 : c < b + fullSize (m' + j + 1) := by split_ifs at hs <;> omega
  have hb3 : b ≤ x := by split_ifs at hs <;> omega
  have hb4 : x < b + fullSize (m' + j + 1) := by split_ifs at hs <;> omega
  refine ord_node cells σ j hn m (m' + 1) c x hL (by omega) hb1 hb2 hb3 hb4 ?_
  rw [RadTree.ord, RadTree.ord, hk]
  have l1 := ord_lt cells σ j m' (b + 1) c
  have l2 := ord_lt cells σ j m' (b + 1 + fullSize (m' + j)) c
  cases hσ : σ k
  · rw [hσ] at hs
    simp only [Bool.false_eq_true, if_false] at hs ⊢
    rw [if_neg (by omega), if_pos (by omega)]
    omega
  · rw [hσ] at hs
    simp only [if_true] at hs ⊢
    rw [if_pos (by omega), if_neg (by omega)]
    omega

/-- total length of the pieces booked on the cell `x` -/
def booked (l : List (ℕ × α)) (x : ℕ) : α := ((l.filter fun p => p.1 = x).map Prod.snd).sum

/-- optical depth along the pieces -/
def depth (op : ℕ → α) (l : List (ℕ × α)) : α := (l.map fun p => p.2 * op p.1).sum

theorem fly_spec {t : KD.Links} {L : ℕ} {big : α} {cells : ℕ → Cell n α} (hR : Ready t L big cells)
    (level j : ℕ) (hj : level + j = L) (op : ℕ → α) (e : Vec n α) (he : ∀ k, e k ≠ 0) (taumax : α)
    (hb : ∃ k, (cells 0).bbmax k - (cells 0).bbmin k < big * |e k|) :
    ∀ (fuel : ℕ) (ph : Photon n α), Node L 0 j ph.c → 0 < (cells ph.c).N → InBox (cells ph.c) ph.r →
      ph.tau ≤ taumax → 2 ^ level ≤ fuel + ord cells (fun k => decide (0 < e k)) j level 0 ph.c →
      ∃ fate ph' l, fly t cells L level big op e (invRay 0 e) taumax fuel ph = some (fate, ph') ∧
        Pieces cells e ph.r l ph'.r ∧
        (∀ p ∈ l, Node L 0 j p.1 ∧ 0 < (cells p.1).N ∧
          ord cells (fun k => decide (0 < e k)) j level 0 ph.c ≤
            ord cells (fun k => decide (0 < e k)) j level 0 p.1) ∧
        (l.map Prod.fst).Nodup ∧
        (∀ x, ph'.lsum x = ph.lsum x + booked l x) ∧
        (∀ x, ph'.Nphoton x = ph.Nphoton x + (l.map Prod.fst).count x) ∧
        (fate = .absorbed → ph.tau + depth op l = taumax ∧ InBox (cells 0) ph'.r) ∧
        (fate = .escaped → ph.tau + depth op l ≤ taumax ∧ InBox (cells 0) ph'.r ∧
          ∃ k, ph'.r k = face (cells 0) (decide (0 < e k)) k) := by
  obtain ⟨⟨g, hlo⟩, htile, hpos, hlow, hprop, hfaces⟩ := hR
  intro fuel
  induction fuel with
  | zero =>
    intro ph _ _ _ _ hf
    have := ord_lt cells (fun k => decide (0 < e k)) j level 0 ph.c
    omega
  | succ fuel ih =>
    intro ph hn hN hin htau hf
    have hsub := node_sub hn hN htile
    have hb' : ∃ k, ahead (cells ph.c) ph.r e k < big := by
      obtain ⟨k, hk⟩ := hb
      refine ⟨k, ?_⟩
      have h1 := hsub k
      have h2 := hin k
      unfold ahead face
      rcases lt_or_gt_of_ne (he k) with h | h
      · rw [decide_eq_false (not_lt.mpr h.le)]
        simp only [Bool.false_eq_true, if_false]
        rw [div_lt_iff_of_neg h]
        rw [abs_of_neg h] at hk
        linarith
      · rw [decide_eq_true h]
        simp only [if_true]
        rw [div_lt_iff₀ h]
        rw [abs_of_pos h] at hk
        linarith
    obtain ⟨k, hx, hmin⟩ := exitFace_spec hin he hb'
    set d := ahead (cells ph.c) ph.r e k with hd
    have hd0 : 0 ≤ d := ahead_nonneg hin (he k)
    have hstay : ∀ x, 0 ≤ x → x ≤ d → InBox (cells ph.c) (fun k => ph.r k + x * e k) := by
      intro x h0 h1 k'
      exact (stays_iff hin (he k') h0).mpr (h1.trans (hmin k'))
    rw [fly]
    simp only [hx]
    by_cases habs : taumax < ph.tau + d * op ph.c
    · rw [if_pos habs]
      have hop : 0 < d * op ph.c := by linarith
      have hop' : 0 < op ph.c := by
        by_contra hc
        have := mul_nonpos_of_nonneg_of_nonpos hd0 (not_lt.mp hc)
        linarith
      have h1 : 0 ≤ (taumax - ph.tau) / op ph.c := div_nonneg (by linarith) hop'.le
      have h2 : (taumax - ph.tau) / op ph.c ≤ d := by
        rw [div_le_iff₀ hop']; linarith
      refine ⟨_, _, [(ph.c, (taumax - ph.tau) / op ph.c)], rfl, ?_, ?_, ?_, ?_, ?_, ?_, ?_⟩
      · exact ⟨h1, fun x hx0 hx1 => hstay x hx0 (hx1.trans h2), rfl⟩
      · intro p hp
        obtain rfl := List.mem_singleton.mp hp
        exact ⟨hn, hN, le_rfl⟩
      · simp
      · intro x
        unfold booked
        by_cases hxc : x = ph.c
        · subst hxc; simp
        · simp only [Function.update_of_ne hxc]
          simp [Ne.symm hxc]
      · intro x
        by_cases hxc : x = ph.c
        · subst hxc; simp
        · simp only [Function.update_of_ne hxc]
          simp [Ne.symm hxc]
      · intro _
        refine ⟨?_, hsub.inBox (hstay _ h1 h2)⟩
        unfold depth
        simp only [List.map_cons, List.map_nil, List.sum_cons, List.sum_nil]
        rw [div_mul_cancel₀ _ hop'.ne']; ring
      · intro h; cases h
    · rw [if_neg habs]
      have hface : ph.r k + d * e k = face (cells ph.c) (decide (0 < e k)) k := at_face (he k)
      have hF := hfaces j ph.c hn hN (decide (0 < e k)) k
      have hend := hstay d hd0 le_rfl
      cases hex : (cells ph.c).exit (decide (0 < e k)) k with
      | none =>
        rw [hex] at hF
        refine ⟨_, _, [(ph.c, d)], rfl, ?_, ?_, ?_, ?_, ?_, ?_, ?_⟩
        · exact ⟨hd0, hstay, rfl⟩
        · intro p hp
          obtain rfl := List.mem_singleton.mp hp
          exact ⟨hn, hN, le_rfl⟩
        · simp
        · intro x
          unfold booked
          by_cases hxc : x = ph.c
          · subst hxc; simp
          · simp only [Function.update_of_ne hxc]
            simp [Ne.symm hxc]
        · intro x
          by_cases hxc : x = ph.c
          · subst hxc; simp
          · simp only [Function.update_of_ne hxc]
            simp [Ne.symm hxc]
        · intro h; cases h
        · intro _
          refine ⟨?_, hsub.inBox hend, k, hface.trans hF⟩
          unfold depth
          simp only [List.map_cons, List.map_nil, List.sum_cons, List.sum_nil]
          rw [add_zero]; exact not_lt.mp habs
      | some e' =>
        rw [hex] at hF
        obtain ⟨de, f1, f2, f3, f4, f5, f6⟩ := hF
        -- the end of the piece lies in the cell behind the face
        have hin' : InBox (cells e') (fun k => ph.r k + d * e k) := by
          intro i
          by_cases hik : i = k
          · subst hik
            have hw : (cells e').bbmin i ≤ (cells e').bbmax i := node_proper f1 f2 htile hprop i
            have hval : ph.r i + d * e i = face (cells e') (!decide (0 < e i)) i := hface.trans f4.symm
            simp only
            rw [hval]
            unfold face
            split_ifs
            · exact ⟨hw, le_rfl⟩
            · exact ⟨le_rfl, hw⟩
          · exact ⟨(f5 i hik).1.trans (hend i).1, (hend i).2.trans (f5 i hik).2⟩
        have hbig : ∀ i, -big ≤ ph.r i + d * e i := fun i =>
          (hlow i).trans ((hsub i).1.trans (hend i).1)
        obtain ⟨ge, hle⟩ := f1.laid _ hlo
        obtain ⟨c', g1, g2, g3, g4⟩ := descend_spec level j hj (fun k => ph.r k + d * e k) hbig de e' ge
          (L + 1) hle (f1.tiled htile) f2 hin' f3 (by have := f1.le; omega)
        simp only [g1]
        have hr := g2.range
        have hpj := fs_pos j
        have hnode : Node L 0 j c' := f1.trans g2
        have hord := f6.ord (fun k => decide (0 < e k)) j level c' (by omega) hr.1 (by omega)
        obtain ⟨fate, ph', l, i1, i2, i3, i4, i5, i6, i7, i8⟩ := ih
          { ph with
            c := c'
            r := fun k => ph.r k + d * e k
            lsum := Function.update ph.lsum ph.c (ph.lsum ph.c + d)
            Nphoton := Function.update ph.Nphoton ph.c (ph.Nphoton ph.c + 1)
            tau := ph.tau + d * op ph.c }
          hnode g3 g4 (not_lt.mp habs) (by simp only; omega)
        refine ⟨fate, ph', (ph.c, d) :: l, i1, ?_, ?_, ?_, ?_, ?_, ?_, ?_⟩
        · exact ⟨hd0, hstay, i2⟩
        · intro p hp
          rcases List.mem_cons.mp hp with rfl | hp
          · exact ⟨hn, hN, le_rfl⟩
          · obtain ⟨a1, a2, a3⟩ := i3 p hp
            exact ⟨a1, a2, hord.le.trans a3⟩
        · rw [List.map_cons, List.nodup_cons]
          refine ⟨?_, i4⟩
          intro hmem
          obtain ⟨p, hp, hpc⟩ := List.mem_map.mp hmem
          have := (i3 p hp).2.2
          simp only at this hpc
          rw [hpc] at this
          omega
        · intro x
          rw [i5]
          unfold booked
          by_cases hxc : x = ph.c
          · subst hxc; simp; ring
          · simp only [Function.update_of_ne hxc]
            simp [Ne.symm hxc]
        · intro x
          rw [i6]
          by_cases hxc : x = ph.c
          · subst hxc; simp; ring
          · simp only [Function.update_of_ne hxc]
            simp [Ne.symm hxc]
        · intro h
          obtain ⟨a1, a2⟩ := i7 h
          refine ⟨?_, a2⟩
          rw [← a1]; unfold depth; simp; ring
        · intro h
          obtain ⟨a1, a2⟩ := i8 h
          refine ⟨?_, a2⟩
          refine le_trans (le_of_eq ?_) a1
          unfold depth; simp; ring

end Gandalf.RadTree
