import Verif.Proof.TreeWalk

/-!
# C04 – skip-pointer walks = recursive traversals
-/

set_option autoImplicit false

namespace Gandalf
open Walk

/-- **C04.** For every cell array whose open/next links encode a forest (any branching: KD-tree,
oct-tree, pruned tree) and every loop body (any opening decision, any result lists, possibly giving up
with `-1`) which never opens a childless cell, the `while (cc < Ncell)` walk terminates within as many
turns as there are cells and computes exactly the recursive depth-first traversal. -/
theorem C04_walk_is_recursive_traversal {σ : Type*} (L : Links) (Ncell : ℕ)
    (body : ℕ → σ → Act σ) (f : Forest) (hlink : f.Linked L Ncell)
    (hcells : ∀ c ∈ f.cells, c < Ncell)
    (hleaf : f.AllLeaves (fun c => ∀ s s', body c s ≠ .open_ s')) (s : σ) (fuel : ℕ)
    (hfuel : f.cells.length ≤ fuel) :
    walk L Ncell body fuel (f.entry Ncell) s =
      match f.fold body s with
      | none => .fail
      | some s' => .done s' :=
  walk_eq_fold L Ncell body f hlink hcells hleaf s fuel (by rw [f.size_eq_length]; exact hfuel)

/-- **C04 (order of visits).** With any opening predicate that does not open childless cells the cells
reached by the walk are exactly those of the recursive traversal, in depth-first order; if the cells
of the array are distinct no cell is reached twice. -/
theorem C04_walk_visits (L : Links) (Ncell : ℕ) (opn : ℕ → Bool) (f : Forest)
    (hlink : f.Linked L Ncell) (hcells : ∀ c ∈ f.cells, c < Ncell)
    (hleaf : f.AllLeaves (fun c => opn c = false)) (fuel : ℕ) (hfuel : f.cells.length ≤ fuel) :
    walk L Ncell (fun c s => if opn c then .open_ (s ++ [c]) else .next (s ++ [c])) fuel
        (f.entry Ncell) [] = .done (f.visited opn) ∧
      (f.cells.Nodup → (f.visited opn).Nodup) := by
  have h := walk_eq_fold L Ncell (traceBody opn) f hlink hcells
    (hleaf.imp fun c hc s s' => by simp [traceBody, hc]) [] fuel
    (by rw [f.size_eq_length]; exact hfuel)
  rw [fold_trace] at h
  exact ⟨by simp only [List.nil_append] at h; exact h, fun hn => hn.sublist (f.visited_subset opn)⟩

/-- A two-level tree (root 0, child 1 with leaves 2,3, leaf child 4) meets the hypotheses … -/
def exampleLinks : Links where
  copen c := if c = 0 then some 1 else if c = 1 then some 2 else none
  cnext c := if c = 0 then some 5 else if c = 1 then some 4 else if c < 5 then some (c + 1) else none

def exampleForest : Forest :=
  .cons 0 (.cons 1 (.cons 2 .nil (.cons 3 .nil .nil)) (.cons 4 .nil .nil)) .nil

example : exampleForest.Linked exampleLinks 5 ∧ (∀ c ∈ exampleForest.cells, c < 5) ∧
    exampleForest.AllLeaves (fun c => (fun c => c = 0 : ℕ → Bool) c = false) := by
  refine ⟨?_, ?_, ?_⟩
  · simp [exampleForest, exampleLinks, Forest.Linked, Forest.entry]
  · decide
  · simp [exampleForest, Forest.AllLeaves]

/-- … and opening only the root visits 0, 1, 4 and skips the subtree of 1. -/
example : exampleForest.visited (fun c => c = 0) = [0, 1, 4] := by decide

end Gandalf
