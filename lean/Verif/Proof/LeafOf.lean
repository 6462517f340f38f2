import Verif.Model.LeafOf
import Verif.Proof.TreeWalk
import Verif.Proof.TreeSearch

/-! The search for the leaf of a point as a recursive search. -/

set_option autoImplicit false

namespace Gandalf
open Walk

variable {n : ℕ}

/-- recursive search: the first leaf that is not empty (`full`) and lies, with all cells above it, at the point (`near`) -/
def Forest.firstLeaf (near full : ℕ → Bool) : Forest → Option ℕ
  | .nil => none
  | .cons c ch rest =>
    if near c then
      match ch with
      | .nil => if full c then some c else rest.firstLeaf near full
      | .cons d x y => ((Forest.cons d x y).firstLeaf near full).or (rest.firstLeaf near full)
    else rest.firstLeaf near full

theorem Forest.firstLeaf_far {near full : ℕ → Bool} {c : ℕ} {ch rest : Forest} (h : ¬ near c = true) :
    (Forest.cons c ch rest).firstLeaf near full = rest.firstLeaf near full := by
  cases ch <;> rw [Forest.firstLeaf, if_neg h]

/-- the tests of the code -/
noncomputable def Tree.near (T : Tree n) (rp : Vec n ℝ) (c : ℕ) : Bool := boxOverlap ⟨rp, rp⟩ (T.cell c).bb
noncomputable def Tree.full (T : Tree n) (c : ℕ) : Bool := decide ((T.cell c).N ≠ 0)

theorem Tree.findLeaf_succ (T : Tree n) (rp : Vec n ℝ) (fuel cc : ℕ) (h : cc < T.Ncell) :
    T.findLeaf rp (fuel + 1) cc =
      if T.near rp cc then
        match T.links.copen cc with
        | some c' => T.findLeaf rp fuel c'
        | none =>
          if T.full cc then .done (some cc) else
            match T.links.cnext cc with
            | some c' => T.findLeaf rp fuel c'
            | none => .stuck
      else
        match T.links.cnext cc with
        | some c' => T.findLeaf rp fuel c'
        | none => .stuck := by
  rw [Tree.findLeaf.eq_def]
  simp only [if_pos h, Tree.near, Tree.full]
  by_cases hN : (T.cell cc).N = 0 <;> simp [hN] <;> rfl

theorem Tree.findLeaf_linked (T : Tree n) (rp : Vec n ℝ) : ∀ (f : Forest) (next : ℕ), f.Linked T.links next →
    (∀ c ∈ f.cells, c < T.Ncell) → ∀ fuel, f.size ≤ fuel → ∃ fuel', fuel - f.size ≤ fuel' ∧
      T.findLeaf rp fuel (f.entry next) =
        match f.firstLeaf (T.near rp) T.full with
        | some c => .done (some c)
        | none => T.findLeaf rp fuel' next := by
  intro f
  induction f with
  | nil =>
    intro next _ _ fuel _
    exact ⟨fuel, by simp [Forest.size], by simp [Forest.entry, Forest.firstLeaf]⟩
  | cons c ch rest ihc ihr =>
    intro next hl hc fuel hf
    obtain ⟨h1, h2, h3, h4⟩ := hl
    simp only [Forest.cells, List.mem_cons, List.mem_append] at hc
    simp only [Forest.size] at hf ⊢
    obtain ⟨fuel, rfl⟩ : ∃ k, fuel = k + 1 := ⟨fuel - 1, by omega⟩
    have hcN : c < T.Ncell := hc c (Or.inl rfl)
    simp only [Forest.entry]
    rw [T.findLeaf_succ rp fuel c hcN]
    obtain ⟨f', hf', e⟩ := ihr next h4 (fun d hd => hc d (by tauto)) fuel (by omega)
    by_cases hn : T.near rp c = true
    · rw [if_pos hn, h2]
      cases ch with
      | nil =>
        simp only [Forest.firstLeaf, if_pos hn]
        by_cases hu : T.full c = true
        · rw [if_pos hu, if_pos hu]
          exact ⟨fuel, by omega, rfl⟩
        · rw [if_neg hu, if_neg hu, h1]
          exact ⟨f', by omega, e⟩
      | cons d x y =>
        obtain ⟨g, hg, e1⟩ := ihc (rest.entry next) h3 (fun d hd => hc d (by tauto)) fuel (by omega)
        have hd : T.findLeaf rp fuel d = _ := e1
        have hF : (Forest.cons c (Forest.cons d x y) rest).firstLeaf (T.near rp) T.full =
            ((Forest.cons d x y).firstLeaf (T.near rp) T.full).or (rest.firstLeaf (T.near rp) T.full) := by
          rw [Forest.firstLeaf, if_pos hn]
        rw [hF]
        simp only
        rw [hd]
        cases hq : (Forest.cons d x y).firstLeaf (T.near rp) T.full with
        | some c' => exact ⟨fuel, by omega, rfl⟩
        | none =>
          obtain ⟨g', hg', e2⟩ := ihr next h4 (fun d hd => hc d (by tauto)) g (by omega)
          refine ⟨g', by omega, ?_⟩
          simp only [Option.none_or]
          exact e2
    · rw [if_neg hn, h1, Forest.firstLeaf_far hn]
      exact ⟨f', by omega, e⟩

theorem Forest.firstLeaf_some {near full : ℕ → Bool} {P : ℕ → Prop} : ∀ {f : Forest}, f.AllLeaves P → ∀ {c : ℕ},
    f.firstLeaf near full = some c → P c ∧ c ∈ f.cells ∧ near c = true ∧ full c = true := by
  intro f
  induction f with
  | nil => intro _ c h; simp [Forest.firstLeaf] at h
  | cons a ch rest h1 h2 =>
    rintro ⟨p1, p2, p3⟩ c h
    have hrest : rest.firstLeaf near full = some c → P c ∧ c ∈ (Forest.cons a ch rest).cells ∧ near c = true ∧ full c = true := by
      intro h'
      obtain ⟨q1, q2, q3⟩ := h2 p3 h'
      exact ⟨q1, by simp [Forest.cells, q2], q3⟩
    by_cases hn : near a = true
    · cases ch with
      | nil =>
        rw [Forest.firstLeaf, if_pos hn] at h
        by_cases hu : full a = true
        · rw [if_pos hu] at h
          cases h
          exact ⟨p1 rfl, by simp [Forest.cells], hn, hu⟩
        · rw [if_neg hu] at h
          exact hrest h
      | cons d x y =>
        rw [Forest.firstLeaf, if_pos hn] at h
        cases hq : (Forest.cons d x y).firstLeaf near full with
        | some c' =>
          rw [hq, Option.some_or] at h
          cases h
          obtain ⟨q1, q2, q3⟩ := h1 p2 hq
          exact ⟨q1, by simp only [Forest.cells, List.mem_cons, List.mem_append] at q2 ⊢; tauto, q3⟩
        | none =>
          rw [hq, Option.none_or] at h
          exact hrest h
    · rw [Forest.firstLeaf_far hn] at h
      exact hrest h

/-- cells above a listed particle are near and full: some leaf is found -/
theorem Forest.firstLeaf_covers {near full : ℕ → Bool} {leaf : ℕ → Option (List ℕ)} {Q : ℕ → List ℕ → Prop} (i : ℕ)
    (hQ : ∀ c l, Q c l → i ∈ l → near c = true ∧ full c = true) : ∀ {f : Forest} {l : List ℕ}, f.Covers leaf Q l → i ∈ l →
    ∃ c, f.firstLeaf near full = some c := by
  intro f
  induction f with
  | nil => intro l h hi; cases h; cases hi
  | cons a ch rest h1 h2 =>
    rintro l ⟨l1, l2, rfl, q, p1, p2, p3⟩ hi
    by_cases hi1 : i ∈ l1
    · obtain ⟨hn, hu⟩ := hQ a l1 q hi1
      cases ch with
      | nil => exact ⟨a, by rw [Forest.firstLeaf, if_pos hn]; simp [hu]⟩
      | cons d x y =>
        obtain ⟨c, hc⟩ := h1 (p2 (by simp)) hi1
        exact ⟨c, by rw [Forest.firstLeaf, if_pos hn]; rw [hc, Option.some_or]⟩
    · obtain ⟨c, hc⟩ := h2 p3 ((List.mem_append.mp hi).resolve_left hi1)
      by_cases hn : near a = true
      · cases ch with
        | nil =>
          rw [Forest.firstLeaf, if_pos hn]
          split_ifs
          · exact ⟨_, rfl⟩
          · exact ⟨c, hc⟩
        | cons d x y =>
          rw [Forest.firstLeaf, if_pos hn]
          cases (Forest.cons d x y).firstLeaf near full with
          | some c' => exact ⟨c', rfl⟩
          | none => exact ⟨c, by rw [Option.none_or]; exact hc⟩
      · exact ⟨c, by rw [Forest.firstLeaf_far hn]; exact hc⟩

theorem Forest.Covers.leafQ {leaf : ℕ → Option (List ℕ)} {Q : ℕ → List ℕ → Prop} : ∀ {f : Forest} {l : List ℕ},
    f.Covers leaf Q l → f.AllLeaves (fun c => ∃ l', leaf c = some l' ∧ Q c l') := by
  intro f
  induction f with
  | nil => intro _ _; trivial
  | cons c ch rest h1 h2 =>
    rintro l ⟨l1, l2, e, q, a, b, d⟩
    refine ⟨fun hc => ⟨l1, a hc, q⟩, ?_, h2 d⟩
    by_cases hc : ch = .nil
    · subst hc; trivial
    · exact h1 (b hc)

end Gandalf
