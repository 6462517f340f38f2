import Verif.Proof.OctForest
import Verif.Spec.Cover

/-! Nodes of a forest, their children and what lies beneath them. -/

set_option autoImplicit false

namespace Gandalf.Forest

/-- the first cells of the trees -/
def tops : Forest → List ℕ
  | nil => []
  | cons c _ rest => c :: rest.tops

/-- `c` is a cell of the forest and `g` are its children -/
def Node : Forest → ℕ → Forest → Prop
  | nil, _, _ => False
  | cons c ch rest, x, g => (x = c ∧ g = ch) ∨ ch.Node x g ∨ rest.Node x g

/-- `c` is a root of the forest and `g` are its children -/
def Root : Forest → ℕ → Forest → Prop
  | nil, _, _ => False
  | cons c ch rest, x, g => (x = c ∧ g = ch) ∨ rest.Root x g

theorem leaves_cons (c : ℕ) (ch rest : Forest) :
    (cons c ch rest).leaves = (cons c ch nil).leaves ++ rest.leaves := by
  cases ch <;> simp [leaves]

theorem leaves_inner (c : ℕ) {ch : Forest} (h : ch ≠ nil) : (cons c ch nil).leaves = ch.leaves := by
  cases ch
  · exact absurd rfl h
  · simp [leaves]

theorem mem_cells_iff : ∀ {f : Forest} {c : ℕ}, c ∈ f.cells ↔ ∃ g, f.Node c g := by
  intro f
  induction f with
  | nil => intro c; simp [cells, Node]
  | cons d ch rest ih1 ih2 =>
    intro c
    simp only [cells, List.mem_cons, List.mem_append, ih1, ih2, Node]
    constructor
    · rintro (rfl | ⟨g, h⟩ | ⟨g, h⟩)
      · exact ⟨ch, Or.inl ⟨rfl, rfl⟩⟩
      · exact ⟨g, Or.inr (Or.inl h)⟩
      · exact ⟨g, Or.inr (Or.inr h)⟩
    · rintro ⟨g, ⟨h, _⟩ | h | h⟩
      · exact Or.inl h
      · exact Or.inr (Or.inl ⟨g, h⟩)
      · exact Or.inr (Or.inr ⟨g, h⟩)

theorem Node.mem {f : Forest} {c : ℕ} {g : Forest} (h : f.Node c g) : c ∈ f.cells := mem_cells_iff.mpr ⟨g, h⟩

theorem Root.node : ∀ {f : Forest} {c : ℕ} {g : Forest}, f.Root c g → f.Node c g := by
  intro f
  induction f with
  | nil => intro c g h; exact h
  | cons d ch rest _ ih =>
    intro c g h
    rcases h with h | h
    · exact Or.inl h
    · exact Or.inr (Or.inr (ih h))

theorem Node.trans : ∀ {f : Forest} {c : ℕ} {g : Forest}, f.Node c g → ∀ {d : ℕ} {h : Forest}, g.Node d h →
    f.Node d h := by
  intro f
  induction f with
  | nil => intro c g h; exact absurd h id
  | cons x ch rest ih1 ih2 =>
    intro c g h d h' hd
    rcases h with ⟨_, rfl⟩ | h | h
    · exact Or.inr (Or.inl hd)
    · exact Or.inr (Or.inl (ih1 h hd))
    · exact Or.inr (Or.inr (ih2 h hd))

theorem Node.unique : ∀ {f : Forest}, f.cells.Nodup → ∀ {c : ℕ} {g g' : Forest}, f.Node c g → f.Node c g' →
    g = g' := by
  intro f
  induction f with
  | nil => intro _ c g g' h; exact absurd h id
  | cons x ch rest ih1 ih2 =>
    intro hn c g g' h h'
    simp only [cells, List.nodup_cons, List.mem_append, not_or, List.nodup_append] at hn
    obtain ⟨⟨hx1, hx2⟩, hn1, hn2, hd⟩ := hn
    rcases h with ⟨rfl, rfl⟩ | h | h <;> rcases h' with ⟨e, rfl⟩ | h' | h'
    · rfl
    · exact absurd h'.mem hx1
    · exact absurd h'.mem hx2
    · exact absurd (e ▸ h.mem) hx1
    · exact ih1 hn1 h h'
    · exact absurd rfl (hd c h.mem c h'.mem)
    · exact absurd (e ▸ h.mem) hx2
    · exact absurd rfl (hd c h'.mem c h.mem)
    · exact ih2 hn2 h h'

theorem mem_tops : ∀ {f : Forest} {c : ℕ}, c ∈ f.tops ↔ ∃ g, f.Root c g := by
  intro f
  induction f with
  | nil => intro c; simp [tops, Root]
  | cons d ch rest _ ih =>
    intro c
    simp only [tops, List.mem_cons, ih, Root]
    constructor
    · rintro (rfl | ⟨g, h⟩)
      · exact ⟨ch, Or.inl ⟨rfl, rfl⟩⟩
      · exact ⟨g, Or.inr h⟩
    · rintro ⟨g, ⟨h, _⟩ | h⟩
      · exact Or.inl h
      · exact Or.inr ⟨g, h⟩

theorem tops_length : ∀ f : Forest, f.tops.length ≤ f.cells.length := by
  intro f
  induction f with
  | nil => simp [tops, cells]
  | cons d ch rest _ ih => simp only [tops, cells, List.length_cons, List.length_append]; omega

theorem Node.cells_le : ∀ {f : Forest} {c : ℕ} {g : Forest}, f.Node c g → g.cells.length ≤ f.cells.length := by
  intro f
  induction f with
  | nil => intro c g h; exact absurd h id
  | cons x ch rest ih1 ih2 =>
    intro c g h
    simp only [cells, List.length_cons, List.length_append]
    rcases h with ⟨_, rfl⟩ | h | h
    · omega
    · have := ih1 h; omega
    · have := ih2 h; omega

/-- a node without children is a leaf -/
theorem mem_leaves : ∀ {f : Forest} {c : ℕ}, c ∈ f.leaves ↔ f.Node c nil := by
  intro f
  induction f with
  | nil => intro c; simp [leaves, Node]
  | cons d ch rest ih1 ih2 =>
    intro c
    rw [leaves_cons, List.mem_append, ih2]
    simp only [Node]
    by_cases h : ch = nil
    · subst h
      simp [leaves, Node]
    · rw [leaves_inner d h, ih1]
      constructor
      · rintro (h' | h')
        · exact Or.inr (Or.inl h')
        · exact Or.inr (Or.inr h')
      · rintro (⟨_, h'⟩ | h' | h')
        · exact absurd h'.symm h
        · exact Or.inl h'
        · exact Or.inr h'

theorem entry_mem : ∀ (f : Forest) (nx : ℕ), f.entry nx = nx ∨ f.entry nx ∈ f.cells := by
  intro f nx
  cases f
  · exact Or.inl rfl
  · exact Or.inr (by simp [entry, cells])

/-- the links of a node -/
theorem Node.linked {L : Walk.Links} : ∀ {f : Forest} {nx0 : ℕ}, f.Linked L nx0 → f.cells.Nodup → nx0 ∉ f.cells →
    ∀ {c : ℕ} {g : Forest}, f.Node c g → ∃ nx, L.cnext c = some nx ∧ g.Linked L nx ∧ nx ∉ g.cells ∧
      L.copen c = (match g with | nil => none | cons d _ _ => some d) := by
  intro f
  induction f with
  | nil => intro _ _ _ _ c g h; exact absurd h id
  | cons x ch rest ih1 ih2 =>
    intro nx0 hL hn hnx c g h
    simp only [cells, List.nodup_cons, List.mem_append, not_or, List.nodup_append] at hn
    obtain ⟨⟨hx1, hx2⟩, hn1, hn2, hd⟩ := hn
    simp only [cells, List.mem_cons, List.mem_append, not_or] at hnx
    obtain ⟨l1, l2, l3, l4⟩ := hL
    have hch : rest.entry nx0 ∉ ch.cells := by
      rcases entry_mem rest nx0 with e | e
      · rw [e]; exact hnx.2.1
      · exact fun h' => hd _ h' _ e rfl
    rcases h with ⟨rfl, rfl⟩ | h | h
    · exact ⟨_, l1, l3, hch, l2⟩
    · exact ih1 l3 hn1 hch h
    · exact ih2 l4 hn2 hnx.2.2 h

theorem Node.level {level : ℕ → ℕ} : ∀ {f : Forest} {l : ℕ}, f.Levels level l → ∀ {c : ℕ} {g : Forest}, f.Node c g →
    ∃ l', level c = l' ∧ g.Levels level (l' + 1) := by
  intro f
  induction f with
  | nil => intro _ _ c g h; exact absurd h id
  | cons x ch rest ih1 ih2 =>
    intro l hL c g h
    rcases h with ⟨rfl, rfl⟩ | h | h
    · exact ⟨l, hL.1, hL.2.1⟩
    · exact ih1 hL.2.1 h
    · exact ih2 hL.2.2 h

theorem Root.level {level : ℕ → ℕ} : ∀ {f : Forest} {l : ℕ}, f.Levels level l → ∀ {c : ℕ} {g : Forest}, f.Root c g →
    level c = l := by
  intro f
  induction f with
  | nil => intro _ _ c g h; exact absurd h id
  | cons x ch rest _ ih2 =>
    intro l hL c g h
    rcases h with ⟨rfl, rfl⟩ | h
    · exact hL.1
    · exact ih2 hL.2.2 h

theorem covers_of_nodes (leaf : ℕ → Option (List ℕ)) (Q : ℕ → List ℕ → Prop) (liv : ℕ → List ℕ) :
    ∀ f : Forest, (∀ c g, f.Node c g → Q c ((cons c g nil).leaves.flatMap liv)) →
    (∀ c ∈ f.leaves, leaf c = some (liv c)) → f.Covers leaf Q (f.leaves.flatMap liv) := by
  intro f
  induction f with
  | nil => intro _ _; rfl
  | cons c ch rest ih1 ih2 =>
    intro hQ hl
    rw [leaves_cons, List.flatMap_append]
    rw [leaves_cons] at hl
    refine ⟨_, _, rfl, hQ c ch (Or.inl ⟨rfl, rfl⟩), ?_, ?_, ?_⟩
    · rintro rfl
      simpa [leaves] using hl c (by simp [leaves])
    · intro h
      rw [leaves_inner c h] at hl ⊢
      exact ih1 (fun d g hd => hQ d g (Or.inr (Or.inl hd))) fun d hd => hl d (List.mem_append_left _ hd)
    · exact ih2 (fun d g hd => hQ d g (Or.inr (Or.inr hd))) fun d hd => hl d (List.mem_append_right _ hd)

end Gandalf.Forest
