import Verif.Model.GatherCells
import Verif.Proof.TreeWalk
import Verif.Proof.LeafOf

/-!
# C106 – the cells of the radiation tree near a particle
-/

set_option autoImplicit false

namespace Gandalf
open Walk GatherCells

variable {n : ℕ}

namespace GatherCells

/-- The cells are a correctly linked tree over the particles `l` at `r`, each within the sphere of all its cells. -/
structure Cells.OK (A : Cells n) (r : ℕ → Vec n ℝ) (leaf : ℕ → Option (List ℕ)) (f : Forest) (l : List ℕ) : Prop where
  linked : f.Linked A.links A.Ncell
  root : f.entry A.Ncell = 0
  cells : ∀ c ∈ f.cells, c < A.Ncell
  covers : f.Covers leaf (fun c l' => A.N c = l'.length ∧ 0 ≤ A.rmax c ∧
    ∀ i ∈ l', Tree.distsqd (r i) (A.rcell c) ≤ A.rmax c ^ 2) l

/-- recursive search: leaves with particles that lie near with all cells above them -/
def reached (near full : ℕ → Bool) : Forest → List ℕ
  | .nil => []
  | .cons c ch rest =>
    (if near c then
      match ch with
      | .nil => if full c then [c] else []
      | .cons d x y => reached near full (.cons d x y)
    else []) ++ reached near full rest

open Classical in
noncomputable def Cells.near (A : Cells n) (rp : Vec n ℝ) (rs : ℝ) (c : ℕ) : Bool :=
  decide (Tree.distsqd (A.rcell c) rp < (rs + A.rmax c) * (rs + A.rmax c))
def Cells.full (A : Cells n) (c : ℕ) : Bool := decide (A.N c ≠ 0)

theorem fold_reached (A : Cells n) (rp : Vec n ℝ) (rs : ℝ) (M : ℕ) : ∀ (f : Forest) (next : ℕ) (s : List ℕ),
    f.Linked A.links next → s.length ≤ M → f.fold (A.body rp rs M) s =
      if (s ++ reached (A.near rp rs) A.full f).length ≤ M then some (s ++ reached (A.near rp rs) A.full f) else none := by
  intro f
  induction f with
  | nil => intro next s _ hs; simp [Forest.fold, reached, hs]
  | cons c ch rest h1 h2 =>
    rintro next s ⟨k1, k2, k3, k4⟩ hs
    by_cases hn : A.near rp rs c = true
    · have hn' : Tree.distsqd (A.rcell c) rp < (rs + A.rmax c) * (rs + A.rmax c) := by simpa [Cells.near] using hn
      cases ch with
      | nil =>
        have hl : A.level c = A.ltot := by
          by_contra hne
          simp [Cells.links, hne] at k2
        by_cases hN : A.N c = 0
        · have e : A.body rp rs M c s = .next s := by simp [Cells.body, hn', hl, hN]
          simp only [Forest.fold, e]
          rw [h2 next s k4 hs]
          simp [reached, Cells.full, hN]
        · have hR : reached (A.near rp rs) A.full (.cons c .nil rest) = c :: reached (A.near rp rs) A.full rest := by
            simp [reached, hn, Cells.full, hN]
          rw [hR]
          by_cases hr : s.length < M
          · have e : A.body rp rs M c s = .next (s ++ [c]) := by simp [Cells.body, hn', hl, hN, hr]
            simp only [Forest.fold, e]
            rw [h2 next (s ++ [c]) k4 (by simp; omega)]
            simp
          · have e : A.body rp rs M c s = .abort := by simp [Cells.body, hn', hl, hN, hr]
            simp only [Forest.fold, e]
            rw [if_neg (by simp; omega)]
      | cons d x y =>
        have hl : A.level c ≠ A.ltot := by
          intro he
          simp [Cells.links, he] at k2
        have e : A.body rp rs M c s = .open_ s := by simp [Cells.body, hn', hl]
        have hR : reached (A.near rp rs) A.full (.cons c (.cons d x y) rest) =
            reached (A.near rp rs) A.full (.cons d x y) ++ reached (A.near rp rs) A.full rest := by
          rw [reached, if_pos hn]
        rw [hR]
        simp only [Forest.fold.eq_2, e]
        have e1 := h1 _ s k3 hs
        rw [Forest.fold.eq_2] at e1
        rw [e1]
        generalize reached (A.near rp rs) A.full (.cons d x y) = R1
        by_cases hr : (s ++ R1).length ≤ M
        · rw [if_pos hr, Option.bind_some, h2 next (s ++ R1) k4 hr, List.append_assoc]
        · rw [if_neg hr, if_neg (by simp at hr ⊢; omega)]
          rfl
    · have hn' : ¬ Tree.distsqd (A.rcell c) rp < (rs + A.rmax c) * (rs + A.rmax c) := by simpa [Cells.near] using hn
      have e : A.body rp rs M c s = .next s := by simp only [Cells.body, if_neg hn']
      have hR : reached (A.near rp rs) A.full (.cons c ch rest) = reached (A.near rp rs) A.full rest := by
        cases ch <;> simp [reached, hn]
      simp only [Forest.fold, e]
      rw [h2 next s k4 hs, hR]

theorem body_leaf (A : Cells n) (rp : Vec n ℝ) (rs : ℝ) (M : ℕ) {f : Forest} {next : ℕ} (h : f.Linked A.links next) :
    f.AllLeaves (fun c => ∀ s s', A.body rp rs M c s ≠ .open_ s') := by
  refine Forest.AllLeaves.imp ?_ h.allLeaves
  intro c hc s s'
  have hl : A.level c = A.ltot := by
    by_contra hne
    simp [Cells.links, hne] at hc
  unfold Cells.body
  split_ifs <;> simp_all

theorem gather_eq {A : Cells n} {r : ℕ → Vec n ℝ} {leaf : ℕ → Option (List ℕ)} {f : Forest} {l : List ℕ}
    (h : A.OK r leaf f l) (rp : Vec n ℝ) (rs : ℝ) (M fuel : ℕ) (hf : f.cells.length ≤ fuel) :
    A.gather rp rs M fuel = if (reached (A.near rp rs) A.full f).length ≤ M then .done (reached (A.near rp rs) A.full f)
      else .fail := by
  unfold Cells.gather
  have := walk_eq_fold A.links A.Ncell (A.body rp rs M) f h.linked h.cells (body_leaf A rp rs M h.linked) [] fuel
    (by rw [Forest.size_eq_length]; exact hf)
  rw [h.root] at this
  rw [this, fold_reached A rp rs M f A.Ncell [] h.linked (by simp), List.nil_append]
  split_ifs <;> rfl

theorem reached_sublist (near full : ℕ → Bool) : ∀ f : Forest, (reached near full f).Sublist f.cells := by
  intro f
  induction f with
  | nil => exact List.Sublist.refl _
  | cons c ch rest h1 h2 =>
    by_cases hn : near c = true
    · cases ch with
      | nil =>
        by_cases hu : full c = true
        · simpa [reached, hn, hu, Forest.cells] using h2
        · simpa [reached, hn, hu, Forest.cells] using h2.cons c
      | cons d x y =>
        rw [reached, if_pos hn, Forest.cells]
        exact (h1.append h2).cons c
    · have hR : reached near full (.cons c ch rest) = reached near full rest := by cases ch <;> simp [reached, hn]
      rw [hR, Forest.cells]
      exact (h2.trans (List.sublist_append_right _ _)).cons c

theorem reached_mem {near full : ℕ → Bool} {P : ℕ → Prop} : ∀ {f : Forest}, f.AllLeaves P → ∀ {c : ℕ},
    c ∈ reached near full f → P c ∧ near c = true ∧ full c = true := by
  intro f
  induction f with
  | nil => intro _ c h; simp [reached] at h
  | cons a ch rest h1 h2 =>
    rintro ⟨p1, p2, p3⟩ c h
    by_cases hn : near a = true
    · cases ch with
      | nil =>
        rw [reached, if_pos hn, List.mem_append] at h
        rcases h with h | h
        · split_ifs at h with hu
          · rw [List.mem_singleton] at h
            subst h
            exact ⟨p1 rfl, hn, hu⟩
          · cases h
        · exact h2 p3 h
      | cons d x y =>
        rw [reached, if_pos hn, List.mem_append] at h
        rcases h with h | h
        · exact h1 p2 h
        · exact h2 p3 h
    · have hR : reached near full (.cons a ch rest) = reached near full rest := by cases ch <;> simp [reached, hn]
      rw [hR] at h
      exact h2 p3 h

theorem reached_covers {near full : ℕ → Bool} {leaf : ℕ → Option (List ℕ)} {Q : ℕ → List ℕ → Prop} (i : ℕ)
    (hQ : ∀ c l, Q c l → i ∈ l → near c = true ∧ full c = true) : ∀ {f : Forest} {l : List ℕ}, f.Covers leaf Q l → i ∈ l →
    ∃ c ∈ reached near full f, ∃ l', leaf c = some l' ∧ i ∈ l' := by
  intro f
  induction f with
  | nil => intro l h hi; cases h; cases hi
  | cons a ch rest h1 h2 =>
    rintro l ⟨l1, l2, rfl, q, p1, p2, p3⟩ hi
    by_cases hi1 : i ∈ l1
    · obtain ⟨hn, hu⟩ := hQ a l1 q hi1
      cases ch with
      | nil => exact ⟨a, by simp [reached, hn, hu], l1, p1 rfl, hi1⟩
      | cons d x y =>
        obtain ⟨c, hc, h⟩ := h1 (p2 (by simp)) hi1
        exact ⟨c, by rw [reached, if_pos hn]; exact List.mem_append_left _ hc, h⟩
    · obtain ⟨c, hc, h⟩ := h2 p3 ((List.mem_append.mp hi).resolve_left hi1)
      exact ⟨c, by cases ch <;> rw [reached] <;> exact List.mem_append_right _ hc, h⟩

end GatherCells

/-- The sphere the code gives a cell holds its box, and its radius is the distance of the corners: cells whose boxes hold
their particles meet the hypothesis of `Cells.OK`. -/
theorem C106_sphere (lo hi : Vec n ℝ) (h : ∀ k, lo k ≤ hi k) : 0 ≤ (sphere lo hi).2 ∧
    (∀ x : Vec n ℝ, (∀ k, lo k ≤ x k ∧ x k ≤ hi k) → Tree.distsqd x (sphere lo hi).1 ≤ (sphere lo hi).2 ^ 2) ∧
    Tree.distsqd lo (sphere lo hi).1 = (sphere lo hi).2 ^ 2 ∧ Tree.distsqd hi (sphere lo hi).1 = (sphere lo hi).2 ^ 2 := by
  have hnn : 0 ≤ dot (fun k => 0.5 * (hi k - lo k)) (fun k => 0.5 * (hi k - lo k)) := KD.dot_self_nonneg _
  refine ⟨Real.sqrt_nonneg _, fun x hx => ?_, ?_, ?_⟩
  · simp only [sphere]
    rw [Real.sq_sqrt hnn]
    simp only [Tree.distsqd, dot]
    refine Finset.sum_le_sum fun k _ => ?_
    obtain ⟨h1, h2⟩ := hx k
    norm_num
    nlinarith
  · simp only [sphere]
    rw [Real.sq_sqrt hnn]
    simp only [Tree.distsqd, dot]
    refine Finset.sum_congr rfl fun k _ => ?_
    ring
  · simp only [sphere]
    rw [Real.sq_sqrt hnn]
    simp only [Tree.distsqd, dot]
    refine Finset.sum_congr rfl fun k _ => ?_
    ring

/-- The walk ends.  Its list holds no cell twice, only leaves with particles whose sphere meets that of the search, and for
every particle nearer than `rsearch` the leaf that holds it; or it does not fit into the array and -1 is returned, which
does not happen with room for all cells. -/
theorem C106_list (A : Cells n) (r : ℕ → Vec n ℝ) (leaf : ℕ → Option (List ℕ)) (f : Forest) (l : List ℕ)
    (h : A.OK r leaf f l) (hnd : f.cells.Nodup) (rp : Vec n ℝ) (rs : ℝ) (hrs : 0 ≤ rs) (M fuel : ℕ) (hf : f.cells.length ≤ fuel) :
    (∃ found : List ℕ, A.gather rp rs M fuel = .done found ∧ found.length ≤ M ∧ found.Nodup ∧
      (∀ c ∈ found, A.level c = A.ltot ∧ A.N c ≠ 0 ∧ Tree.distsqd (A.rcell c) rp < (rs + A.rmax c) ^ 2) ∧
      ∀ i ∈ l, Tree.distsqd (r i) rp < rs ^ 2 → ∃ c ∈ found, ∃ l', leaf c = some l' ∧ i ∈ l') ∨
    A.gather rp rs M fuel = .fail ∧ M < f.cells.length := by
  rw [gather_eq h rp rs M fuel hf]
  have hsub := reached_sublist (A.near rp rs) A.full f
  by_cases hM : (reached (A.near rp rs) A.full f).length ≤ M
  · refine Or.inl ⟨_, if_pos hM, hM, hsub.nodup hnd, ?_, ?_⟩
    · intro c hc
      obtain ⟨h1, h2, h3⟩ := reached_mem h.linked.allLeaves hc
      refine ⟨?_, by simpa [Cells.full] using h3, ?_⟩
      · by_contra hne
        simp [Cells.links, hne] at h1
      · rw [sq]
        simpa [Cells.near] using h2
    · intro i hi hd
      refine reached_covers i ?_ h.covers hi
      rintro c l' ⟨q1, q2, q3⟩ hi'
      refine ⟨?_, ?_⟩
      · simp only [Cells.near, decide_eq_true_eq]
        rw [← sq, distsqd_comm]
        exact distsqd_lt_add hrs q2 (by rw [distsqd_comm]; exact hd) (q3 i hi')
      · simp only [Cells.full, decide_eq_true_eq, q1]
        exact fun h0 => by rw [List.length_eq_zero_iff.mp h0] at hi'; cases hi'
  · exact Or.inr ⟨if_neg hM, by have := hsub.length_le; omega⟩

/-- The calls for a particle of the tree end: after as many doublings of the array as give it room for all cells, at the
latest, a list is found, with the particle's own leaf in it, so that no error is raised. -/
theorem C106_retry (A : Cells n) (r : ℕ → Vec n ℝ) (leaf : ℕ → Option (List ℕ)) (f : Forest) (l : List ℕ)
    (h : A.OK r leaf f l) (hnd : f.cells.Nodup) (i : ℕ) (hi : i ∈ l) (hh : ℝ) (hpos : 0 < hh) (fuel : ℕ)
    (hf : f.cells.length ≤ fuel) : ∀ k M, f.cells.length ≤ M * 2 ^ k →
    ∃ found, A.retry (r i) hh fuel (k + 1) M = .cells found ∧ ∃ c ∈ found, ∃ l', leaf c = some l' ∧ i ∈ l' := by
  have self : Tree.distsqd (r i) (r i) < (3 * hh) ^ 2 := by
    have : Tree.distsqd (r i) (r i) = 0 := by simp [Tree.distsqd, dot]
    rw [this]
    positivity
  have key : ∀ k M, (∃ found, A.gather (r i) (3 * hh) M fuel = .done found ∧ ∃ c ∈ found, ∃ l', leaf c = some l' ∧ i ∈ l') →
      ∃ found, A.retry (r i) hh fuel (k + 1) M = .cells found ∧ ∃ c ∈ found, ∃ l', leaf c = some l' ∧ i ∈ l' := by
    rintro k M ⟨found, e, c, hc, hl⟩
    refine ⟨found, ?_, c, hc, hl⟩
    rw [Cells.retry, e]
    have : found.length ≠ 0 := fun h0 => by rw [List.length_eq_zero_iff.mp h0] at hc; cases hc
    simp only [if_neg this]
  intro k
  induction k with
  | zero =>
    intro M hM
    rcases C106_list A r leaf f l h hnd (r i) (3 * hh) (by linarith) M fuel hf with ⟨found, e, -, -, -, hc⟩ | ⟨-, hlt⟩
    · exact key 0 M ⟨found, e, hc i hi self⟩
    · rw [pow_zero, mul_one] at hM
      omega
  | succ k ih =>
    intro M hM
    rcases C106_list A r leaf f l h hnd (r i) (3 * hh) (by linarith) M fuel hf with ⟨found, e, -, -, -, hc⟩ | ⟨e, -⟩
    · exact key (k + 1) M ⟨found, e, hc i hi self⟩
    · obtain ⟨found, e', hc⟩ := ih (2 * M) (by rw [pow_succ] at hM; linarith)
      refine ⟨found, ?_, hc⟩
      rw [Cells.retry, e]
      exact e'

/-- The array must have room at first: from none at all doubling does not help and the calls never end (the code starts with 1024). -/
theorem C106_no_room (A : Cells n) (r : ℕ → Vec n ℝ) (leaf : ℕ → Option (List ℕ)) (f : Forest) (l : List ℕ)
    (h : A.OK r leaf f l) (hnd : f.cells.Nodup) (i : ℕ) (hi : i ∈ l) (hh : ℝ) (hpos : 0 < hh) (fuel : ℕ)
    (hf : f.cells.length ≤ fuel) (k : ℕ) : A.retry (r i) hh fuel k 0 = .endless := by
  have self : Tree.distsqd (r i) (r i) < (3 * hh) ^ 2 := by
    have : Tree.distsqd (r i) (r i) = 0 := by simp [Tree.distsqd, dot]
    rw [this]
    positivity
  induction k with
  | zero => rfl
  | succ k ih =>
    rcases C106_list A r leaf f l h hnd (r i) (3 * hh) (by linarith) 0 fuel hf with ⟨found, -, hlen, -, -, hc⟩ | ⟨e, -⟩
    · obtain ⟨c, hc, -⟩ := hc i hi self
      rw [List.length_eq_zero_iff.mp (Nat.le_zero.mp hlen)] at hc
      cases hc
    · rw [Cells.retry, e]
      exact ih

/-- two leaves with one particle each, at 0 and 4 -/
def C106.two : Cells 1 where
  Ncell := 3
  ltot := 1
  level := fun c => if c = 0 then 0 else 1
  cnext := fun c => if c = 1 then some 2 else some 3
  N := fun c => if c = 0 then 2 else 1
  rcell := fun c _ => if c = 0 then 2 else if c = 1 then 0 else 4
  rmax := fun c => if c = 0 then 2 else 0

theorem C106.two_ok : C106.two.OK (fun i _ => 4 * i) (fun c => if c = 1 then some [0] else some [1])
    (.cons 0 (.cons 1 .nil (.cons 2 .nil .nil)) .nil) [0, 1] where
  linked := by simp [Forest.Linked, Forest.entry, C106.two, Cells.links]
  root := rfl
  cells := by simp [Forest.cells, C106.two]
  covers := by
    refine ⟨[0, 1], [], rfl, ⟨rfl, by norm_num [C106.two], ?_⟩, by simp, fun _ => ?_, rfl⟩
    · simp only [List.mem_cons, List.not_mem_nil, or_false]
      rintro i (rfl | rfl) <;> norm_num [C106.two, Tree.distsqd, dot]
    refine ⟨[0], [1], rfl, ⟨rfl, by norm_num [C106.two], ?_⟩, fun _ => rfl, by simp, ?_⟩
    · simp [C106.two, Tree.distsqd, dot]
    refine ⟨[1], [], rfl, ⟨rfl, by norm_num [C106.two], ?_⟩, fun _ => rfl, by simp, rfl⟩
    simp [C106.two, Tree.distsqd, dot]

/-- From an array for one cell the calls around a particle of the two end. -/
example : ∃ found, C106.two.retry (fun _ => 4 * ((1 : ℕ) : ℝ)) 1 3 3 1 = .cells found ∧ found ≠ [] := by
  obtain ⟨found, e, c, hc, -⟩ := C106_retry C106.two (fun i _ => 4 * i) _ _ _ C106.two_ok (by decide) 1 (by simp) 1 one_pos 3
    (by simp [Forest.cells]) 2 1 (by simp [Forest.cells])
  exact ⟨found, e, fun h => by rw [h] at hc; cases hc⟩

end Gandalf
