import Verif.Model.Forest

/-! Skip-pointer walk = recursive traversal. -/

set_option autoImplicit false

namespace Gandalf
open Walk

theorem walk_succ {σ : Type*} (L : Links) (Ncell : ℕ) (body : ℕ → σ → Act σ) (fuel c : ℕ) (s : σ)
    (h : c < Ncell) : walk L Ncell body (fuel + 1) c s =
      match body c s with
        | .abort => .fail
        | .open_ s' =>
          match L.copen c with
          | some c' => walk L Ncell body fuel c' s'
          | none => .stuck
        | .next s' =>
          match L.cnext c with
          | some c' => walk L Ncell body fuel c' s'
          | none => .stuck := by
  rw [walk.eq_def]; simp only [if_pos h]; rfl

theorem walk_linked {σ : Type*} (L : Links) (Ncell : ℕ) (body : ℕ → σ → Act σ) :
    ∀ (f : Forest) (next : ℕ), f.Linked L next → (∀ c ∈ f.cells, c < Ncell) →
    f.AllLeaves (fun c => ∀ s s', body c s ≠ .open_ s') →
    ∀ (s : σ) (fuel : ℕ), f.size ≤ fuel →
    ∃ fuel', fuel - f.size ≤ fuel' ∧
      walk L Ncell body fuel (f.entry next) s =
        match f.fold body s with
        | none => .fail
        | some s' => walk L Ncell body fuel' next s' := by
  intro f
  induction f with
  | nil =>
    intro next _ _ _ s fuel _
    exact ⟨fuel, by simp [Forest.size], by simp [Forest.entry, Forest.fold]⟩
  | cons c ch rest ihc ihr =>
    intro next hl hc hleaf s fuel hf
    obtain ⟨h1, h2, h3, h4⟩ := hl
    obtain ⟨l1, l2, l3⟩ := hleaf
    simp only [Forest.cells, List.mem_cons, List.mem_append] at hc
    simp only [Forest.size] at hf ⊢
    obtain ⟨fuel, rfl⟩ : ∃ k, fuel = k + 1 := ⟨fuel - 1, by omega⟩
    have hcN : c < Ncell := hc c (Or.inl rfl)
    simp only [Forest.entry, Forest.fold]
    rw [walk_succ _ _ _ _ _ _ hcN]
    cases hb : body c s with
    | abort => exact ⟨fuel, by omega, rfl⟩
    | next s' =>
      simp only [h1]
      obtain ⟨f', hf', e⟩ := ihr next h4 (fun d hd => hc d (by tauto)) l3 s' fuel (by omega)
      exact ⟨f', by omega, e⟩
    | open_ s' =>
      cases ch with
      | nil => exact absurd hb (l1 rfl s s')
      | cons d ch' rest' =>
        simp only [h2]
        obtain ⟨f', hf', e⟩ := ihc (rest.entry next) h3 (fun d hd => hc d (by tauto)) l2 s' fuel
          (by omega)
        rw [show walk L Ncell body fuel d s' = _ from e]
        cases hfold : Forest.fold body (Forest.cons d ch' rest') s' with
        | none => exact ⟨fuel, by omega, rfl⟩
        | some s'' =>
          simp only [Option.bind_some]
          obtain ⟨f'', hf'', e2⟩ := ihr next h4 (fun d hd => hc d (by tauto)) l3 s'' f' (by omega)
          exact ⟨f'', by omega, e2⟩

/-- whole walk, from the first root to the link out of the tree -/
theorem walk_eq_fold_end {σ : Type*} (L : Links) (Ncell Nend : ℕ) (he : Ncell ≤ Nend)
    (body : ℕ → σ → Act σ) (f : Forest)
    (hl : f.Linked L Nend) (hc : ∀ c ∈ f.cells, c < Ncell)
    (hleaf : f.AllLeaves (fun c => ∀ s s', body c s ≠ .open_ s')) (s : σ) (fuel : ℕ)
    (hf : f.size ≤ fuel) :
    walk L Ncell body fuel (f.entry Nend) s =
      match f.fold body s with
      | none => .fail
      | some s' => .done s' := by
  obtain ⟨fuel', _, e⟩ := walk_linked L Ncell body f Nend hl hc hleaf s fuel hf
  rw [e]
  cases f.fold body s with
  | none => rfl
  | some s' => simp only; unfold walk; rw [if_neg (not_lt.mpr he)]

/-- whole walk, from the first root to the end of the table -/
theorem walk_eq_fold {σ : Type*} (L : Links) (Ncell : ℕ) (body : ℕ → σ → Act σ) (f : Forest)
    (hl : f.Linked L Ncell) (hc : ∀ c ∈ f.cells, c < Ncell)
    (hleaf : f.AllLeaves (fun c => ∀ s s', body c s ≠ .open_ s')) (s : σ) (fuel : ℕ)
    (hf : f.size ≤ fuel) :
    walk L Ncell body fuel (f.entry Ncell) s =
      match f.fold body s with
      | none => .fail
      | some s' => .done s' :=
  walk_eq_fold_end L Ncell Ncell le_rfl body f hl hc hleaf s fuel hf

theorem Forest.size_eq_length (f : Forest) : f.size = f.cells.length := by
  induction f with
  | nil => rfl
  | cons c ch rest h1 h2 => simp [Forest.size, Forest.cells, h1, h2]

/-- tracing body: record each cell reached -/
def traceBody (opn : ℕ → Bool) (c : ℕ) (s : List ℕ) : Act (List ℕ) :=
  if opn c then .open_ (s ++ [c]) else .next (s ++ [c])

theorem fold_trace (opn : ℕ → Bool) :
    ∀ (f : Forest) (s : List ℕ), f.fold (traceBody opn) s = some (s ++ f.visited opn) := by
  intro f
  induction f with
  | nil => intro s; simp [Forest.fold, Forest.visited]
  | cons c ch rest h1 h2 =>
    intro s
    simp only [Forest.fold, Forest.visited, traceBody]
    by_cases h : opn c
    · simp [h, h1, h2]
    · simp [h, h2]

theorem Forest.AllLeaves.imp {P Q : ℕ → Prop} (h : ∀ c, P c → Q c) :
    ∀ {f : Forest}, f.AllLeaves P → f.AllLeaves Q := by
  intro f
  induction f with
  | nil => intro; trivial
  | cons c ch rest h1 h2 => exact fun ⟨a, b, d⟩ => ⟨fun e => h _ (a e), h1 b, h2 d⟩

theorem Forest.visited_subset (opn : ℕ → Bool) : ∀ (f : Forest), (f.visited opn).Sublist f.cells := by
  intro f
  induction f with
  | nil => simp [Forest.visited, Forest.cells]
  | cons c ch rest h1 h2 =>
    simp only [Forest.visited, Forest.cells]
    refine List.Sublist.cons_cons _ (List.Sublist.append ?_ h2)
    split_ifs
    · exact h1
    · exact List.nil_sublist _

end Gandalf
