import Verif.Proof.KDStructure
import Verif.Proof.TreeWalk

/-!
# C05 – the KD-tree link table is the pre-order layout of a complete binary tree
-/

set_option autoImplicit false

namespace Gandalf
open KD

/-- **C05.** For every depth `ltot`, whatever was stored in the cell array before, the routine never
reads an unwritten offset, never writes outside the `Ncell` cells or `gmax ≥ 2^ltot` leaf slots, and
produces the pre-order layout: level = depth, first child = next slot, second child behind the whole
first subtree, `cnext` behind the own subtree, leaves numbered from left to right. -/
theorem C05_structure_is_preorder (ltot gmax : ℕ) (hg : 2 ^ ltot ≤ gmax) (s : KD.Links) :
    ∃ t, createTreeStructure ltot gmax s = some t ∧ LaidOut t ltot ltot 0 0 ∧ t.level 0 = 0 ∧
      t.g = 2 ^ ltot := by
  have hpos : 0 < fullSize ltot := by
    have := fullSize_add_one ltot
    have h2 : 2 ≤ 2 ^ (ltot + 1) := by
      calc 2 = 2 ^ 1 := rfl
        _ ≤ 2 ^ (ltot+1) := Nat.pow_le_pow_right (by omega) (by omega)
    omega
  obtain ⟨t, h1, h2, h3, h4, h5⟩ := structLoop_spec ltot (ncellOf ltot) gmax ltot 0
    (zeroed (ncellOf ltot) gmax s) (by simp [zeroed]) (by rw [ncellOf_eq]; omega)
    (by simpa [zeroed] using hg) (by
      intro i _ hi
      rw [← ncellOf_eq] at hi
      have : i < ncellOf ltot := by omega
      simp [zeroed, this])
  refine ⟨t, ?_, h2, ?_, ?_⟩
  · rw [createTreeStructure]
    rw [← ncellOf_eq] at h1
    exact h1
  · rw [h4]; simp [zeroed]
  · rw [h3]; simp [zeroed]

/-- **C05 (count).** The table has `2^(ltot+1)-1` cells, `2^ltot` of them leaves. -/
theorem C05_cell_count (ltot : ℕ) :
    ncellOf ltot = 2 ^ (ltot + 1) - 1 ∧ (fullTree ltot 0 .nil).cells = List.range (ncellOf ltot) ∧
      (fullTree ltot 0 .nil).leaves.length = 2 ^ ltot := by
  refine ⟨ncellOf_eq ltot, ?_, by simp [fullTree_leaves_length, Forest.leaves]⟩
  rw [fullTree_cells, ncellOf_eq, List.range_eq_range']; simp [Forest.cells]

/-- **C05 (links).** Read through its open/next links the table encodes the complete binary tree of
depth `ltot`, whose last link leaves the table; so every walk over it is covered by C04. -/
theorem C05_structure_linked (ltot gmax : ℕ) (s t : KD.Links) (hg : 2 ^ ltot ≤ gmax)
    (ht : createTreeStructure ltot gmax s = some t) :
    (fullTree ltot 0 .nil).Linked t.walkLinks (ncellOf ltot) ∧
      (∀ c ∈ (fullTree ltot 0 .nil).cells, c < ncellOf ltot) ∧
      (fullTree ltot 0 .nil).cells.Nodup := by
  obtain ⟨t', h1, h2, _, _⟩ := C05_structure_is_preorder ltot gmax hg s
  rw [ht] at h1
  obtain rfl := Option.some.inj h1
  refine ⟨fullTree_linked ltot 0 0 .nil _ h2 (by simp [Forest.entry, ncellOf_eq]) trivial, ?_, ?_⟩
  · rw [(C05_cell_count ltot).2.1]; intro c hc; simpa using hc
  · rw [(C05_cell_count ltot).2.1]; exact List.nodup_range

/-- **C05 (levels and leaf table).** Levels never exceed `ltot`; a cell is childless exactly on level
`ltot`; `g2c` and `c2g` are mutually inverse between leaf numbers and leaf cells. -/
theorem C05_levels_and_leaf_table (ltot gmax : ℕ) (s t : KD.Links) (hg : 2 ^ ltot ≤ gmax)
    (ht : createTreeStructure ltot gmax s = some t) :
    (∀ c < ncellOf ltot, t.level c ≤ ltot ∧ (t.copen c = none ↔ t.level c = ltot) ∧
      (t.level c = ltot → t.c2g c < 2 ^ ltot ∧ t.g2c (t.c2g c) = c)) ∧
    (∀ g < 2 ^ ltot, t.g2c g < ncellOf ltot ∧ t.level (t.g2c g) = ltot ∧ t.c2g (t.g2c g) = g) := by
  obtain ⟨t', h1, h2, _, _⟩ := C05_structure_is_preorder ltot gmax hg s
  rw [ht] at h1
  obtain rfl := Option.some.inj h1
  constructor
  · intro c hc
    rw [ncellOf_eq] at hc
    obtain ⟨a, b, d, e⟩ := h2.leaf_iff ltot 0 0 c (by omega) (by omega)
    refine ⟨a, d, fun h => ?_⟩
    have := e h
    exact ⟨by omega, this.2.2⟩
  · intro g hgl
    obtain ⟨a, b, d, e⟩ := h2.g2c_leaf ltot 0 0 g (by omega) (by omega)
    rw [ncellOf_eq]
    exact ⟨by omega, d, e⟩

/-- Instance: depth 2 from a table full of garbage. -/
example : ((createTreeStructure 2 4
      ⟨fun _ => 77, fun _ => some 9, fun _ => none, fun _ => some 3, fun _ => some 3,
        fun _ => 5, fun _ => 8, 6⟩).map fun t =>
      ((List.range 7).map t.level, (List.range 7).map t.copen, (List.range 7).map t.cnext,
        (List.range 4).map t.g2c)) =
    some ([0, 1, 2, 2, 1, 2, 2], [some 1, some 2, none, none, some 5, none, none],
      [some 7, some 4, some 3, some 4, some 7, some 6, some 7], [2, 3, 5, 6]) := by
  decide

end Gandalf
