import Verif.Spec.Oct
import Verif.Proof.TreeWalk

/-! Giving a leaf of a forest children. -/

set_option autoImplicit false

namespace Gandalf.Forest
open Walk

/-- cells without children, side by side -/
def flat : List ℕ → Forest
  | [] => nil
  | c :: cs => cons c nil (flat cs)

/-- the leaf `x` gets the children `g` -/
def graft (x : ℕ) (g : Forest) : Forest → Forest
  | nil => nil
  | cons c nil rest => cons c (if c = x then g else nil) (graft x g rest)
  | cons c (cons d ch rest') rest => cons c (graft x g (cons d ch rest')) (graft x g rest)

theorem flat_cells (l : List ℕ) : (flat l).cells = l := by
  induction l with
  | nil => rfl
  | cons c cs ih => simp [flat, cells, ih]

theorem flat_leaves (l : List ℕ) : (flat l).leaves = l := by
  induction l with
  | nil => rfl
  | cons c cs ih => simp [flat, leaves, ih]

theorem graft_entry (x : ℕ) (g : Forest) (f : Forest) (next : ℕ) : (graft x g f).entry next = f.entry next := by
  cases f with
  | nil => rfl
  | cons c ch rest => cases ch <;> rfl

theorem leaves_sub : ∀ (f : Forest), f.leaves.Sublist f.cells := by
  intro f
  induction f with
  | nil => exact List.Sublist.refl _
  | cons c ch rest h1 h2 =>
    cases ch with
    | nil => simpa [leaves, cells] using h2
    | cons d ch' rest' =>
      simp only [leaves, cells] at h1 ⊢
      exact List.Sublist.cons _ (h1.append h2)

theorem graft_cells_mem (x : ℕ) (g : Forest) : ∀ (f : Forest) (c : ℕ), c ∈ (graft x g f).cells →
    c ∈ f.cells ∨ c ∈ g.cells := by
  intro f
  induction f with
  | nil => intro c hc; simp [graft, cells] at hc
  | cons d ch rest h1 h2 =>
    intro c hc
    cases ch with
    | nil =>
      simp only [graft, cells, List.mem_cons, List.mem_append] at hc ⊢
      rcases hc with h | h | h
      · exact Or.inl (Or.inl h)
      · split_ifs at h
        · exact Or.inr h
        · simp [cells] at h
      · rcases h2 c h with h | h
        · exact Or.inl (Or.inr (Or.inr h))
        · exact Or.inr h
    | cons e ch' rest' =>
      simp only [graft, cells, List.mem_cons, List.mem_append] at h1 hc ⊢
      rcases hc with h | h | h
      · exact Or.inl (Or.inl h)
      · have := h1 c h
        tauto
      · rcases h2 c h with h | h
        · exact Or.inl (Or.inr (Or.inr h))
        · exact Or.inr h

theorem graft_not_mem (x : ℕ) (g : Forest) : ∀ (f : Forest), x ∉ f.cells → graft x g f = f := by
  intro f
  induction f with
  | nil => intro _; rfl
  | cons d ch rest h1 h2 =>
    intro hx
    simp only [cells, List.mem_cons, List.mem_append, not_or] at hx
    cases ch with
    | nil => simp [graft, h2 hx.2.2, Ne.symm hx.1]
    | cons e ch' rest' =>
      rw [graft, h1 hx.2.1, h2 hx.2.2]

/-- cells after grafting -/
theorem graft_cells_perm (x : ℕ) (g : Forest) : ∀ (f : Forest), f.cells.Nodup → x ∈ f.leaves →
    (graft x g f).cells.Perm (f.cells ++ g.cells) := by
  intro f
  induction f with
  | nil => intro _ h; simp [leaves] at h
  | cons d ch rest h1 h2 =>
    intro hn hx
    simp only [cells, List.nodup_cons, List.nodup_append] at hn
    cases ch with
    | nil =>
      simp only [leaves, List.mem_cons] at hx
      simp only [graft, cells, List.nil_append, List.cons_append, List.perm_cons]
      by_cases e : d = x
      · subst e
        have hd : d ∉ rest.cells := fun h => hn.1 (by simp [h])
        rw [if_pos rfl, graft_not_mem d g rest hd]
        exact List.perm_append_comm
      · rw [if_neg e]
        exact h2 hn.2.2.1 (hx.resolve_left (Ne.symm e))
    | cons e ch' rest' =>
      simp only [graft, cells, List.cons_append, List.perm_cons]
      simp only [leaves, List.mem_append] at hx
      rcases hx with hx | hx
      · have hxc : x ∈ (cons e ch' rest').cells := (leaves_sub _).subset hx
        have hxr : x ∉ rest.cells := fun h => hn.2.2.2 x hxc x h rfl
        rw [graft_not_mem x g rest hxr]
        have := h1 hn.2.1 hx
        refine (this.append_right _).trans ?_
        simp only [cells, List.append_assoc, List.cons_append, List.perm_cons]
        exact (List.perm_append_comm.append_left _).append_left _
      · have hxr : x ∈ rest.cells := (leaves_sub _).subset hx
        have hxc : x ∉ (cons e ch' rest').cells := fun h => hn.2.2.2 x h x hxr rfl
        rw [graft_not_mem x g _ hxc]
        have := h2 hn.2.2.1 hx
        refine (this.append_left _).trans ?_
        simp only [cells, List.append_assoc, List.cons_append, List.perm_cons]
        exact List.Perm.refl _

/-- leaves after grafting at a leaf -/
theorem graft_leaves (x : ℕ) (g : Forest) (hg : g ≠ nil) : ∀ (f : Forest), f.cells.Nodup →
    (graft x g f).leaves = f.leaves.flatMap fun c => if c = x then g.leaves else [c] := by
  intro f
  induction f with
  | nil => intro _; rfl
  | cons d ch rest h1 h2 =>
    intro hn
    simp only [cells, List.nodup_cons, List.nodup_append] at hn
    cases ch with
    | nil =>
      simp only [graft, leaves, List.flatMap_cons]
      by_cases e : d = x
      · rw [if_pos e, if_pos e]
        cases g with
        | nil => exact absurd rfl hg
        | cons u v w => simp only [leaves]; rw [h2 hn.2.2.1]
      · rw [if_neg e, if_neg e]
        simp only [leaves]; rw [h2 hn.2.2.1]; rfl
    | cons e ch' rest' =>
      have h1' := h1 hn.2.1
      simp only [graft, leaves, List.flatMap_append]
      rw [← h1', ← h2 hn.2.2.1]
      have : ∃ u v w, graft x g (cons e ch' rest') = cons u v w := by
        cases ch' <;> exact ⟨_, _, _, rfl⟩
      obtain ⟨u, v, w, e⟩ := this
      rw [e]
      simp only [leaves]

/-- links after grafting the children `l` -/
theorem flat_linked {L : Links} (base : ℕ) (next : ℕ) : ∀ (m j : ℕ),
    (∀ k, j ≤ k → k < j + m → L.copen (base + k) = none ∧
      L.cnext (base + k) = some (if k + 1 = j + m then next else base + k + 1)) →
    (flat (List.range' (base + j) m)).Linked L next := by
  intro m
  induction m with
  | zero => intro j _; trivial
  | succ m ih =>
    intro j h
    rw [List.range'_succ]
    have hj := h j le_rfl (by omega)
    refine ⟨?_, hj.1, trivial, ?_⟩
    · rw [hj.2]
      cases m with
      | zero => simp [flat, entry]
      | succ m => rw [if_neg (by omega), List.range'_succ]; rfl
    · refine ih (j + 1) fun k h1 h2 => ?_
      have := h k (by omega) (by omega)
      refine ⟨this.1, ?_⟩
      rw [this.2]
      congr 1
      have e : j + 1 + m = j + (m + 1) := by omega
      rw [e]

theorem graft_linked {L L' : Links} (x : ℕ) (g : Forest) (gx : ℕ) (hg : ∃ u v, g = cons gx u v)
    (hcn : ∀ c, c ∉ g.cells → L'.cnext c = L.cnext c)
    (hco : ∀ c, c ∉ g.cells → c ≠ x → L'.copen c = L.copen c) (hcx : L'.copen x = some gx)
    (hgl : ∀ nx, L.cnext x = some nx → g.Linked L' nx) :
    ∀ (f : Forest) (next : ℕ), f.Linked L next → f.cells.Nodup → (∀ c ∈ f.cells, c ∉ g.cells) →
    (x ∈ f.cells → x ∈ f.leaves) → (graft x g f).Linked L' next := by
  intro f
  induction f with
  | nil => intro next _ _ _ _; trivial
  | cons d ch rest h1 h2 =>
    intro next hl hn hd hx
    obtain ⟨l1, l2, l3, l4⟩ := hl
    simp only [cells, List.nodup_cons, List.nodup_append] at hn
    simp only [cells, List.mem_cons, List.mem_append] at hd hx
    have hrx : x ∈ rest.cells → x ∈ rest.leaves := by
      intro h
      have h' := hx (Or.inr (Or.inr h))
      cases ch with
      | nil =>
        simp only [leaves, List.mem_cons] at h'
        refine h'.resolve_left fun e => ?_
        subst e; exact hn.1 (by simp [h])
      | cons e ch' rest' =>
        simp only [leaves, List.mem_append] at h'
        exact h'.resolve_left fun h3 => hn.2.2.2 x ((leaves_sub _).subset h3) x h rfl
    have hrest := h2 next l4 hn.2.2.1 (fun c hc => hd c (Or.inr (Or.inr hc))) hrx
    have hde : L'.cnext d = some ((graft x g rest).entry next) := by
      rw [graft_entry, hcn d (hd d (Or.inl rfl))]; exact l1
    cases ch with
    | nil =>
      rw [graft]
      by_cases e : d = x
      · subst e
        obtain ⟨u, v, rfl⟩ := hg
        rw [if_pos rfl]
        refine ⟨hde, hcx, ?_, hrest⟩
        rw [graft_entry]
        exact hgl _ l1
      · rw [if_neg e]
        refine ⟨hde, ?_, trivial, hrest⟩
        rw [hco d (hd d (Or.inl rfl)) e]; exact l2
    | cons e ch' rest' =>
      have hdx : d ≠ x := by
        rintro rfl
        have := hx (Or.inl rfl)
        simp only [leaves, List.mem_append] at this
        rcases this with h | h
        · exact hn.1 (List.mem_append_left _ ((leaves_sub _).subset h))
        · exact hn.1 (List.mem_append_right _ ((leaves_sub _).subset h))
      have hch := h1 (rest.entry next) l3 hn.2.1 (fun c hc => hd c (Or.inr (Or.inl hc))) (by
        intro h
        have h' := hx (Or.inr (Or.inl h))
        simp only [leaves, List.mem_append] at h'
        exact h'.resolve_right fun h3 => hn.2.2.2 x h x ((leaves_sub _).subset h3) rfl)
      rw [graft]
      refine ⟨hde, ?_, ?_, hrest⟩
      · rw [hco d (hd d (Or.inl rfl)) hdx]
        cases ch' <;> exact l2
      · rw [graft_entry]; exact hch

theorem Levels.congr {level level' : ℕ → ℕ} : ∀ {f : Forest} {L : ℕ}, f.Levels level L →
    (∀ c ∈ f.cells, level' c = level c) → f.Levels level' L := by
  intro f
  induction f with
  | nil => intro L _ _; trivial
  | cons c ch rest h1 h2 =>
    rintro L ⟨a, b, d⟩ h
    simp only [cells, List.mem_cons, List.mem_append] at h
    exact ⟨(h c (Or.inl rfl)).trans a, h1 b fun x hx => h x (Or.inr (Or.inl hx)),
      h2 d fun x hx => h x (Or.inr (Or.inr hx))⟩

theorem flat_levels {level : ℕ → ℕ} {L : ℕ} : ∀ (l : List ℕ), (∀ c ∈ l, level c = L) → (flat l).Levels level L := by
  intro l
  induction l with
  | nil => intro _; trivial
  | cons c cs ih => intro h; exact ⟨h c (by simp), trivial, ih fun d hd => h d (by simp [hd])⟩

theorem graft_levels {level : ℕ → ℕ} {x : ℕ} {g : Forest} (hg : g.Levels level (level x + 1)) :
    ∀ {f : Forest} {L : ℕ}, f.Levels level L → (graft x g f).Levels level L := by
  intro f
  induction f with
  | nil => intro L _; trivial
  | cons c ch rest h1 h2 =>
    rintro L ⟨a, b, d⟩
    cases ch with
    | nil =>
      rw [graft]
      refine ⟨a, ?_, h2 d⟩
      split_ifs with e
      · subst e; rw [a] at hg; exact hg
      · trivial
    | cons e ch' rest' => exact ⟨a, h1 b, h2 d⟩

end Gandalf.Forest
