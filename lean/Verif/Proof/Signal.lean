import Verif.Model.Signal
import Verif.Spec.Signal
import Verif.Proof.TreeSearch
import Mathlib.Tactic.Linarith
import Mathlib.Tactic.Positivity
import Mathlib.Tactic.FieldSimp

set_option autoImplicit false

namespace Gandalf.Signal
open Walk KD SignalSpec

variable {n : ℕ}

/-- the images of particle `i` that count for particle `j`, with what they ask for -/
def Asks (small : ℝ) (P : Parts n) (img : ℕ → List (Vec n ℝ × Vec n ℝ)) (j i : ℕ) (x : ℝ) : Prop :=
  ∃ g ∈ img i, 0 < dot (fun k => P.r j k - g.1 k) (fun k => P.r j k - g.1 k) ∧
    x = term small (P.r j) (P.v j) (P.h j) (P.sound j) g.1 g.2 (P.sound i)

/-- what a part of the walk does: speeds of active particles grow to the greatest asked for by the particles `l` -/
structure Grows (small : ℝ) (P : Parts n) (img : ℕ → List (Vec n ℝ × Vec n ℝ)) (act : List ℕ) (l : List ℕ) (vs vs' : ℕ → ℝ) : Prop where
  le : ∀ j, vs j ≤ vs' j
  from_ : ∀ j, vs' j = vs j ∨ (j ∈ act ∧ ∃ i ∈ l, Asks small P img j i (vs' j))

theorem Grows.refl (small : ℝ) (P : Parts n) (img : ℕ → List (Vec n ℝ × Vec n ℝ)) (act l : List ℕ) (vs : ℕ → ℝ) : Grows small P img act l vs vs :=
  ⟨fun _ => le_rfl, fun _ => Or.inl rfl⟩

theorem Grows.trans {small : ℝ} {P : Parts n} {img : ℕ → List (Vec n ℝ × Vec n ℝ)} {act l1 l2 l : List ℕ} {a b c : ℕ → ℝ}
    (h1 : Grows small P img act l1 a b) (h2 : Grows small P img act l2 b c) (s1 : ∀ i ∈ l1, i ∈ l) (s2 : ∀ i ∈ l2, i ∈ l) :
    Grows small P img act l a c := by
  refine ⟨fun j => (h1.le j).trans (h2.le j), fun j => ?_⟩
  rcases h2.from_ j with e | ⟨hj, i, hi, hx⟩
  · rcases h1.from_ j with e' | ⟨hj, i, hi, hx⟩
    · exact Or.inl (e.trans e')
    · exact Or.inr ⟨hj, i, s1 i hi, e ▸ hx⟩
  · exact Or.inr ⟨hj, i, s2 i hi, hx⟩

theorem touch_fold (small : ℝ) (P : Parts n) (j i : ℕ) (L : List (Vec n ℝ × Vec n ℝ)) (vs : ℕ → ℝ) :
    (∀ k, vs k ≤ L.foldl (touch small P j i) vs k) ∧
      (∀ g ∈ L, 0 < dot (fun k => P.r j k - g.1 k) (fun k => P.r j k - g.1 k) →
        term small (P.r j) (P.v j) (P.h j) (P.sound j) g.1 g.2 (P.sound i) ≤ L.foldl (touch small P j i) vs j) ∧
      (∀ k, L.foldl (touch small P j i) vs k = vs k ∨ (k = j ∧ ∃ g ∈ L, 0 < dot (fun k => P.r j k - g.1 k) (fun k => P.r j k - g.1 k) ∧
        L.foldl (touch small P j i) vs k = term small (P.r j) (P.v j) (P.h j) (P.sound j) g.1 g.2 (P.sound i))) := by
  induction L generalizing vs with
  | nil => simp
  | cons g L ih =>
    obtain ⟨a, b, c⟩ := ih (touch small P j i vs g)
    simp only [List.foldl_cons]
    by_cases h : 0 < dot (fun k => P.r j k - g.1 k) (fun k => P.r j k - g.1 k)
    · have e : touch small P j i vs g = Function.update vs j (max (vs j) (term small (P.r j) (P.v j) (P.h j) (P.sound j) g.1 g.2 (P.sound i))) := by
        rw [touch, if_pos h]
      have hj : touch small P j i vs g j = max (vs j) (term small (P.r j) (P.v j) (P.h j) (P.sound j) g.1 g.2 (P.sound i)) := by
        rw [e, Function.update_self]
      have hk : ∀ k, k ≠ j → touch small P j i vs g k = vs k := fun k hk => by rw [e, Function.update_of_ne hk]
      refine ⟨fun k => ?_, ?_, ?_⟩
      · refine le_trans ?_ (a k)
        by_cases hkj : k = j
        · rw [hkj, hj]; exact le_max_left _ _
        · rw [hk k hkj]
      · intro g' hg' hp
        rcases List.mem_cons.1 hg' with rfl | hg'
        · exact le_trans (le_max_right _ _) (hj ▸ a j)
        · exact b g' hg' hp
      · intro k
        rcases c k with e' | ⟨e1, g', hg', e2⟩
        · by_cases hkj : k = j
          · rw [hkj] at e' ⊢
            rw [hj] at e'
            rcases max_choice (vs j) (term small (P.r j) (P.v j) (P.h j) (P.sound j) g.1 g.2 (P.sound i)) with m | m
            · exact Or.inl (e'.trans m)
            · exact Or.inr ⟨rfl, g, List.mem_cons_self, h, e'.trans m⟩
          · exact Or.inl (e'.trans (hk k hkj))
        · exact Or.inr ⟨e1, g', List.mem_cons_of_mem _ hg', e2⟩
    · have e : touch small P j i vs g = vs := by rw [touch, if_neg h]
      rw [e] at a b c ⊢
      refine ⟨a, ?_, ?_⟩
      · intro g' hg' hp
        rcases List.mem_cons.1 hg' with rfl | hg'
        · exact absurd hp h
        · exact b g' hg' hp
      · intro k
        exact (c k).imp_right fun ⟨e1, g', hg', e2⟩ => ⟨e1, g', List.mem_cons_of_mem _ hg', e2⟩

theorem visit_spec (small : ℝ) (P : Parts n) (img : ℕ → List (Vec n ℝ × Vec n ℝ)) (act : List ℕ) (vs : ℕ → ℝ) (i : ℕ) :
    Grows small P img act [i] vs (visit small P img act vs i) ∧
      ∀ j ∈ act, ∀ x, Asks small P img j i x → x ≤ visit small P img act vs i j := by
  unfold visit
  suffices ∀ (L : List ℕ) (vs : ℕ → ℝ), (∀ j ∈ L, j ∈ act) →
      Grows small P img act [i] vs (L.foldl (fun vs j => (img i).foldl (touch small P j i) vs) vs) ∧
      ∀ j ∈ L, ∀ x, Asks small P img j i x → x ≤ L.foldl (fun vs j => (img i).foldl (touch small P j i) vs) vs j from
    this act vs fun _ h => h
  intro L
  induction L with
  | nil => intro vs _; exact ⟨Grows.refl _ _ _ _ _ _, by simp⟩
  | cons j L ih =>
    intro vs hL
    simp only [List.foldl_cons]
    obtain ⟨a, b, c⟩ := touch_fold small P j i (img i) vs
    obtain ⟨d, e⟩ := ih ((img i).foldl (touch small P j i) vs) fun k hk => hL k (List.mem_cons_of_mem _ hk)
    have g1 : Grows small P img act [i] vs ((img i).foldl (touch small P j i) vs) := by
      refine ⟨a, fun k => ?_⟩
      rcases c k with h | ⟨rfl, g, hg, hp, h⟩
      · exact Or.inl h
      · exact Or.inr ⟨hL k List.mem_cons_self, i, by simp, g, hg, hp, h⟩
    refine ⟨g1.trans d (fun _ h => h) (fun _ h => h), ?_⟩
    intro k hk x hx
    rcases List.mem_cons.1 hk with rfl | hk
    · obtain ⟨g, hg, hp, rfl⟩ := hx
      exact (b g hg hp).trans (d.le k)
    · exact e k hk x hx

theorem visits_spec (small : ℝ) (P : Parts n) (img : ℕ → List (Vec n ℝ × Vec n ℝ)) (act : List ℕ) (l : List ℕ) : ∀ (vs : ℕ → ℝ),
    Grows small P img act l vs (l.foldl (visit small P img act) vs) ∧
      ∀ j ∈ act, ∀ i ∈ l, ∀ x, Asks small P img j i x → x ≤ l.foldl (visit small P img act) vs j := by
  induction l with
  | nil => intro vs; exact ⟨Grows.refl _ _ _ _ _ _, by simp⟩
  | cons i l ih =>
    intro vs
    simp only [List.foldl_cons]
    obtain ⟨a, b⟩ := visit_spec small P img act vs i
    obtain ⟨c, d⟩ := ih (visit small P img act vs i)
    refine ⟨a.trans c (fun k hk => ?_) (fun k hk => List.mem_cons_of_mem _ hk), ?_⟩
    · rw [List.mem_singleton] at hk
      rw [hk]
      exact List.mem_cons_self
    · intro j hj k hk x hx
      rcases List.mem_cons.1 hk with rfl | hk
      · exact (b j hj x hx).trans (c.le j)
      · exact d j hj k hk x hx

/-- The walk over a tree with right bounds.  `Need j i x`: what has to be respected; it is, if cells that are not opened contain
nothing beyond the present speeds. -/
theorem fold_spec (S : Setup n) (T : Tree n) (P : Parts n) (pfuel : ℕ) (cell : Props n) (act : List ℕ) (hS : S.pruned = false)
    (Need : ℕ → ℕ → ℝ → Prop) (hneed : ∀ j i x, Need j i x → Asks S.small P S.img j i x)
    (hop : ∀ (c : ℕ) (l' : List ℕ) (vs : ℕ → ℝ), Bounds P l' (T.cell c) → (∀ j ∈ act, 0 < vs j) →
      ¬opens S.small S.near (dtMin S.big P act vs) cell (T.cell c) → ∀ j ∈ act, ∀ i ∈ l', ∀ x, Need j i x → x ≤ vs j) :
    ∀ (f : Forest) (next : ℕ) (l : List ℕ) (vs : ℕ → ℝ), f.Linked T.links next → f.Covers (T.leafList pfuel) (fun c l' => Bounds P l' (T.cell c)) l →
      (∀ j ∈ act, 0 < vs j) → ∃ vs', f.fold (body S T P pfuel cell act) vs = some vs' ∧ Grows S.small P S.img act l vs vs' ∧
        ∀ j ∈ act, ∀ i ∈ l, ∀ x, Need j i x → x ≤ vs' j := by
  intro f
  induction f with
  | nil =>
    intro next l vs _ hl _
    rw [show l = [] from hl]
    exact ⟨vs, rfl, Grows.refl _ _ _ _ _ _, by simp⟩
  | cons c ch rest h1 h2 =>
    rintro next l vs ⟨k1, k2, k3, k4⟩ ⟨l1, l2, rfl, q, a, b, d⟩ hpos
    have join : ∀ (vs1 : ℕ → ℝ), Grows S.small P S.img act l1 vs vs1 → (∀ j ∈ act, ∀ i ∈ l1, ∀ x, Need j i x → x ≤ vs1 j) →
        ∃ vs', rest.fold (body S T P pfuel cell act) vs1 = some vs' ∧ Grows S.small P S.img act (l1 ++ l2) vs vs' ∧
          ∀ j ∈ act, ∀ i ∈ l1 ++ l2, ∀ x, Need j i x → x ≤ vs' j := by
      intro vs1 g1 n1
      obtain ⟨vs', e, g2, n2⟩ := h2 next l2 vs1 k4 d fun j hj => lt_of_lt_of_le (hpos j hj) (g1.le j)
      refine ⟨vs', e, g1.trans g2 (fun _ h => List.mem_append_left _ h) (fun _ h => List.mem_append_right _ h), ?_⟩
      intro j hj i hi x hx
      rcases List.mem_append.1 hi with hi | hi
      · exact (n1 j hj i hi x hx).trans (g2.le j)
      · exact n2 j hj i hi x hx
    by_cases hn : opens S.small S.near (dtMin S.big P act vs) cell (T.cell c)
    · by_cases hc : ch = .nil
      · subst hc
        have ho : T.links.copen c = none := by rw [k2]
        have hlf := a rfl
        by_cases hN : (T.cell c).N = 0
        · have hl1 : l1 = [] := List.length_eq_zero_iff.mp (by rw [← q.N, hN])
          have e : body S T P pfuel cell act c vs = .next vs := by
            simp [body, hn, ho, hN]
          simp only [Forest.fold, e]
          exact join vs (Grows.refl _ _ _ _ _ _) (by rw [hl1]; simp)
        · have e : body S T P pfuel cell act c vs = .next (l1.foldl (visit S.small P S.img act) vs) := by
            simp [body, hn, ho, hN, hS, hlf]
          simp only [Forest.fold, e]
          obtain ⟨g1, n1⟩ := visits_spec S.small P S.img act l1 vs
          exact join _ g1 fun j hj i hi x hx => n1 j hj i hi x (hneed j i x hx)
      · have ho : T.links.copen c ≠ none := by
          rw [k2]
          cases ch with
          | nil => exact absurd rfl hc
          | cons _ _ _ => simp
        have e : body S T P pfuel cell act c vs = .open_ vs := by
          simp [body, hn, ho]
        simp only [Forest.fold, e]
        obtain ⟨vs1, e1, g1, n1⟩ := h1 _ l1 vs k3 (b hc) hpos
        rw [e1]
        simp only [Option.bind_some]
        exact join vs1 g1 n1
    · have e : body S T P pfuel cell act c vs = .next vs := by
        rw [body, if_neg hn]
      simp only [Forest.fold, e]
      exact join vs (Grows.refl _ _ _ _ _ _) (hop c l1 vs q hpos hn)

theorem body_leaf (S : Setup n) (T : Tree n) (P : Parts n) (pfuel : ℕ) (cell : Props n) (act : List ℕ) {c : ℕ} (ho : T.links.copen c = none)
    (hl : ∃ l, T.leafList pfuel c = some l) : ∀ vs vs', body S T P pfuel cell act c vs ≠ .open_ vs' := by
  obtain ⟨l, hl⟩ := hl
  intro s s'
  unfold body
  rw [hl, if_neg (show ¬ T.links.copen c ≠ none from fun h => h ho)]
  split_ifs <;> simp

theorem walk_fold (S : Setup n) {T : Tree n} {P : Parts n} {pfuel : ℕ} (cell : Props n) (act : List ℕ) {f : Forest} {l : List ℕ}
    (h : BoundTree T P pfuel f l) (vs : ℕ → ℝ) (fuel : ℕ) (hf : f.cells.length ≤ fuel) :
    signalWalk S T P pfuel cell act vs fuel = match f.fold (body S T P pfuel cell act) vs with
      | none => .fail
      | some s => .done s := by
  have hw := walk_eq_fold_end T.links T.Ncell T.Nend h.ends (body S T P pfuel cell act) f h.linked h.cells
    ((h.linked.allLeaves.and h.covers.allLeaves).imp fun c hc => body_leaf S T P pfuel cell act hc.1 hc.2)
    vs fuel (by rw [f.size_eq_length]; exact hf)
  rw [h.root] at hw
  rw [signalWalk, hw]
  cases f.fold (body S T P pfuel cell act) vs <;> rfl

/-- a pruned tree: either the cell has to be exported, or nothing is changed and nothing has to be -/
theorem fold_pruned (S : Setup n) (T : Tree n) (P : Parts n) (pfuel : ℕ) (cell : Props n) (act : List ℕ) (hS : S.pruned = true)
    (Need : ℕ → ℕ → ℝ → Prop) (vs : ℕ → ℝ)
    (hop : ∀ (c : ℕ) (l' : List ℕ), Bounds P l' (T.cell c) →
      ¬opens S.small S.near (dtMin S.big P act vs) cell (T.cell c) → ∀ j ∈ act, ∀ i ∈ l', ∀ x, Need j i x → x ≤ vs j) :
    ∀ (f : Forest) (next : ℕ) (l : List ℕ), f.Linked T.links next → f.Covers (T.leafList pfuel) (fun c l' => Bounds P l' (T.cell c)) l →
      f.fold (body S T P pfuel cell act) vs = none ∨ (f.fold (body S T P pfuel cell act) vs = some vs ∧
        ∀ j ∈ act, ∀ i ∈ l, ∀ x, Need j i x → x ≤ vs j) := by
  intro f
  induction f with
  | nil =>
    intro next l _ hl
    rw [show l = [] from hl]
    exact Or.inr ⟨rfl, by simp⟩
  | cons c ch rest h1 h2 =>
    rintro next l ⟨k1, k2, k3, k4⟩ ⟨l1, l2, rfl, q, a, b, d⟩
    have join : (∀ j ∈ act, ∀ i ∈ l1, ∀ x, Need j i x → x ≤ vs j) →
        rest.fold (body S T P pfuel cell act) vs = none ∨ (rest.fold (body S T P pfuel cell act) vs = some vs ∧
          ∀ j ∈ act, ∀ i ∈ l1 ++ l2, ∀ x, Need j i x → x ≤ vs j) := by
      intro n1
      rcases h2 next l2 k4 d with e | ⟨e, n2⟩
      · exact Or.inl e
      · refine Or.inr ⟨e, fun j hj i hi x hx => ?_⟩
        rcases List.mem_append.1 hi with hi | hi
        · exact n1 j hj i hi x hx
        · exact n2 j hj i hi x hx
    by_cases hn : opens S.small S.near (dtMin S.big P act vs) cell (T.cell c)
    · by_cases hc : ch = .nil
      · subst hc
        have ho : T.links.copen c = none := by rw [k2]
        by_cases hN : (T.cell c).N = 0
        · have hl1 : l1 = [] := List.length_eq_zero_iff.mp (by rw [← q.N, hN])
          have e : body S T P pfuel cell act c vs = .next vs := by
            simp [body, hn, ho, hN]
          simp only [Forest.fold, e]
          exact join (by rw [hl1]; simp)
        · have e : body S T P pfuel cell act c vs = .abort := by
            simp [body, hn, ho, hN, hS]
          simp only [Forest.fold, e]
          exact Or.inl trivial
      · have ho : T.links.copen c ≠ none := by
          rw [k2]
          cases ch with
          | nil => exact absurd rfl hc
          | cons _ _ _ => simp
        have e : body S T P pfuel cell act c vs = .open_ vs := by
          simp [body, hn, ho]
        simp only [Forest.fold, e]
        rcases h1 _ l1 k3 (b hc) with e1 | ⟨e1, n1⟩
        · rw [e1]; exact Or.inl rfl
        · rw [e1]
          simp only [Option.bind_some]
          exact join n1
    · have e : body S T P pfuel cell act c vs = .next vs := by
        rw [body, if_neg hn]
      simp only [Forest.fold, e]
      exact join (hop c l1 q hn)

theorem dtMin_ge (big : ℝ) (P : Parts n) (act : List ℕ) (vs : ℕ → ℝ) (hpos : ∀ j ∈ act, 0 < vs j) :
    0 ≤ dtMin big P act vs ∧ ∀ j ∈ act, P.h j / vs j ≤ dtMin big P act vs := by
  unfold dtMin
  suffices ∀ (L : List ℕ) (d : ℝ), (∀ j ∈ L, 0 < vs j) →
      d ≤ L.foldl (fun d j => if 0 < vs j then max d (P.h j / vs j) else big) d ∧
      ∀ j ∈ L, P.h j / vs j ≤ L.foldl (fun d j => if 0 < vs j then max d (P.h j / vs j) else big) d from this act 0 hpos
  intro L
  induction L with
  | nil => intro d _; simp
  | cons j L ih =>
    intro d h
    simp only [List.foldl_cons, if_pos (h j List.mem_cons_self)]
    obtain ⟨a, b⟩ := ih (max d (P.h j / vs j)) fun k hk => h k (List.mem_cons_of_mem _ hk)
    refine ⟨(le_max_left _ _).trans a, fun k hk => ?_⟩
    rcases List.mem_cons.1 hk with rfl | hk
    · exact (le_max_right _ _).trans a
    · exact b k hk

/-! ### the specification -/

theorem dot_distance (r r' : Vec n ℝ) : √(dot (fun k => r k - r' k) fun k => r k - r' k) = distance r r' := by
  unfold dot distance
  congr 1
  exact Finset.sum_congr rfl fun k _ => by ring

theorem term_eq (P : Parts n) (j i : ℕ) :
    term 0 (P.r j) (P.v j) (P.h j) (P.sound j) (P.r i) (P.v i) (P.sound i) = closing P i j * P.h j / max (distance (P.r j) (P.r i)) (P.h j) := by
  unfold term closing approach
  rw [dot_distance, add_zero, neg_div]
  rfl

theorem dot_pos (r r' : Vec n ℝ) : 0 < dot (fun k => r k - r' k) (fun k => r k - r' k) ↔ r ≠ r' := by
  unfold dot
  constructor
  · rintro h rfl
    simp at h
  · intro h
    have h0 : 0 ≤ ∑ k, (r k - r' k) * (r k - r' k) := Finset.sum_nonneg fun k _ => mul_self_nonneg _
    refine lt_of_le_of_ne h0 fun e => h ?_
    funext k
    have := (Finset.sum_eq_zero_iff_of_nonneg fun k _ => mul_self_nonneg (r k - r' k)).1 e.symm k (Finset.mem_univ k)
    exact sub_eq_zero.1 (mul_self_eq_zero.1 this)

theorem distance_pos {r r' : Vec n ℝ} (h : r ≠ r') : 0 < distance r r' := by
  rw [← dot_distance]
  exact Real.sqrt_pos.2 ((dot_pos r r').2 h)

/-- from a closing speed within the bounds to the limit on the signal speed -/
theorem limit_le {h vs d dt cl vc gap : ℝ} (hh : 0 < h) (hv : 0 < vs) (hd : 0 < d) (hdt : h / vs ≤ dt) (hcl : cl ≤ vc) (hgap : gap ≤ d)
    (hno : dt * vc ≤ gap) : cl * h / max d h ≤ vs := by
  have hm : 0 < max d h := lt_max_of_lt_left hd
  rw [div_le_iff₀ hm]
  by_cases hc : cl ≤ 0
  · have h1 : cl * h ≤ 0 := mul_nonpos_of_nonpos_of_nonneg hc hh.le
    have h2 : 0 ≤ vs * max d h := by positivity
    linarith
  · push Not at hc
    have h1 : h / vs * cl ≤ d := by
      calc h / vs * cl ≤ dt * cl := mul_le_mul_of_nonneg_right hdt hc.le
        _ ≤ dt * vc := mul_le_mul_of_nonneg_left hcl (le_trans (by positivity) hdt)
        _ ≤ d := hno.trans hgap
    have h2 : cl * h ≤ vs * d := by
      have := mul_le_mul_of_nonneg_left h1 hv.le
      have e : vs * (h / vs * cl) = cl * h := by field_simp
      linarith
    exact h2.trans (mul_le_mul_of_nonneg_left (le_max_left _ _) hv.le)

/-- one dimension: cells that are not opened contain nothing that asks for more -/
theorem unopened_one {P : Parts 1} {la l' : List ℕ} {A O : Props 1} (hA : Bounds P la A) (hO : Bounds P l' O) {act : List ℕ}
    (hact : ∀ j ∈ act, j ∈ la) {big : ℝ} {vs : ℕ → ℝ} (hpos : ∀ j ∈ act, 0 < vs j) (hh : ∀ j ∈ act, 0 < P.h j)
    (hs : ∀ i, 0 < P.sound i) (hno : ¬opens 0 id (dtMin big P act vs) A O) {j i : ℕ} (hj : j ∈ act) (hi : i ∈ l') (hne : P.r j ≠ P.r i) :
    closing P i j * P.h j / max (distance (P.r j) (P.r i)) (P.h j) ≤ vs j := by
  obtain ⟨hdt0, hdt⟩ := dtMin_ge big P act vs hpos
  have hdtj := hdt j hj
  have hdtpos : 0 < dtMin big P act vs := lt_of_lt_of_le (div_pos (hh j hj) (hpos j hj)) hdtj
  have hd := distance_pos hne
  obtain ⟨bj1, bj2⟩ := hA.bb j (hact j hj) 0
  obtain ⟨bi1, bi2⟩ := hO.bb i hi 0
  obtain ⟨vj1, vj2⟩ := hA.vbox j (hact j hj) 0
  obtain ⟨vi1, vi2⟩ := hO.vbox i hi 0
  have sj := hA.sound j (hact j hj)
  have si := hO.sound i hi
  have hsj := hs j
  have hsi := hs i
  rw [opens] at hno
  push Not at hno
  obtain ⟨⟨k, hk⟩, hno⟩ := hno
  obtain rfl : k = 0 := Subsingleton.elim _ _
  have hdist : distance (P.r j) (P.r i) = |P.r j 0 - P.r i 0| := by
    unfold distance
    rw [Fin.sum_univ_one, Real.sqrt_sq_eq_abs]
  have hclos : closing P i j = P.sound j + P.sound i - (P.r j 0 - P.r i 0) * (P.v j 0 - P.v i 0) / |P.r j 0 - P.r i 0| := by
    unfold closing approach
    rw [hdist, Fin.sum_univ_one]
    ring
  have hr : rmin id A O = |gapVec id A O 0| := by
    unfold rmin dot
    rw [Fin.sum_univ_one, ← sq, Real.sqrt_sq_eq_abs]
  have hcs : cellSignal 0 id A O = A.maxsound + O.maxsound - gapVec id A O 0 * gapVel id A O 0 / |gapVec id A O 0| := by
    unfold cellSignal
    rw [hr, add_zero]
    unfold dot
    rw [Fin.sum_univ_one]
  have hsep : sepCells id A O 0 = 1 / 2 * (O.bbmax 0 + O.bbmin 0) - 1 / 2 * (A.bbmax 0 + A.bbmin 0) := rfl
  have hw : width A O 0 = 1 / 2 * (A.bbmax 0 - A.bbmin 0) + 1 / 2 * (O.bbmax 0 - O.bbmin 0) := rfl
  by_cases h0 : 0 < sepCells id A O 0
  · have hg : gapVec id A O 0 = O.bbmin 0 - A.bbmax 0 := by
      rw [gapVec, if_pos h0, hsep, hw]; ring
    have hv : gapVel id A O 0 = O.vmin 0 - A.vmax 0 := by rw [gapVel, if_pos h0]
    have hg0 : 0 ≤ gapVec id A O 0 := by
      rw [abs_of_pos h0] at hk
      rw [gapVec, if_pos h0]
      linarith
    rw [hr, abs_of_nonneg hg0] at hno
    rw [hcs, abs_of_nonneg hg0] at hno
    have hgp : 0 < gapVec id A O 0 := by
      refine lt_of_le_of_ne hg0 fun e => ?_
      rw [← e] at hno
      simp only [zero_mul, zero_div, sub_zero] at hno
      have : 0 < dtMin big P act vs * (A.maxsound + O.maxsound) := mul_pos hdtpos (by linarith)
      linarith
    have hlt : P.r j 0 < P.r i 0 := by linarith
    have ha : |P.r j 0 - P.r i 0| = P.r i 0 - P.r j 0 := by
      rw [abs_of_neg (by linarith)]; ring
    refine limit_le (hh j hj) (hpos j hj) hd hdtj (vc := A.maxsound + O.maxsound - (O.vmin 0 - A.vmax 0)) (gap := gapVec id A O 0) ?_ ?_ ?_
    · rw [hclos, ha]
      have e : (P.r j 0 - P.r i 0) * (P.v j 0 - P.v i 0) / (P.r i 0 - P.r j 0) = P.v i 0 - P.v j 0 := by
        have : P.r i 0 - P.r j 0 ≠ 0 := by linarith
        field_simp
        ring
      rw [e]
      linarith
    · rw [hdist, ha, hg]; linarith
    · rw [hv, mul_div_assoc] at hno
      have e : gapVec id A O 0 * ((O.vmin 0 - A.vmax 0) / gapVec id A O 0) = O.vmin 0 - A.vmax 0 := by
        field_simp
      rw [e] at hno
      exact hno
  · have hg : gapVec id A O 0 = O.bbmax 0 - A.bbmin 0 := by
      rw [gapVec, if_neg h0, hsep, hw]; ring
    have hv : gapVel id A O 0 = O.vmax 0 - A.vmin 0 := by rw [gapVel, if_neg h0]
    have hg0 : gapVec id A O 0 ≤ 0 := by
      push Not at h0
      rw [abs_of_nonpos h0] at hk
      rw [gapVec, if_neg (not_lt.2 h0)]
      linarith
    rw [hr, abs_of_nonpos hg0] at hno
    rw [hcs, abs_of_nonpos hg0] at hno
    have hgp : gapVec id A O 0 < 0 := by
      refine lt_of_le_of_ne hg0 fun e => ?_
      rw [e] at hno
      simp only [zero_mul, zero_div, sub_zero, neg_zero] at hno
      have : 0 < dtMin big P act vs * (A.maxsound + O.maxsound) := mul_pos hdtpos (by linarith)
      linarith
    have hlt : P.r i 0 < P.r j 0 := by linarith
    have ha : |P.r j 0 - P.r i 0| = P.r j 0 - P.r i 0 := abs_of_pos (by linarith)
    refine limit_le (hh j hj) (hpos j hj) hd hdtj (vc := A.maxsound + O.maxsound + (O.vmax 0 - A.vmin 0)) (gap := -gapVec id A O 0) ?_ ?_ ?_
    · rw [hclos, ha]
      have e : (P.r j 0 - P.r i 0) * (P.v j 0 - P.v i 0) / (P.r j 0 - P.r i 0) = P.v j 0 - P.v i 0 := by
        have : P.r j 0 - P.r i 0 ≠ 0 := by linarith
        field_simp
      rw [e]
      linarith
    · rw [hdist, ha, hg]; linarith
    · rw [hv] at hno
      have e : gapVec id A O 0 * (O.vmax 0 - A.vmin 0) / -gapVec id A O 0 = -(O.vmax 0 - A.vmin 0) := by
        have := hgp.ne
        field_simp
      rw [e, sub_neg_eq_add] at hno
      exact hno

end Gandalf.Signal
