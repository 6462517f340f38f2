import Verif.Proof.BoundaryGhostRefresh

set_option autoImplicit false
set_option linter.unusedSectionVars false

namespace Gandalf
open Walk

variable {n : ℕ} {τ τ' : Type*}

theorem walk_map {σ σ' : Type*} (L : Links) (Ncell : ℕ) (g : σ → σ') (body : ℕ → σ → Act σ)
    (body' : ℕ → σ' → Act σ')
    (h : ∀ c t, body' c (g t) = match body c t with
      | .abort => .abort | .open_ t => .open_ (g t) | .next t => .next (g t)) :
    ∀ (fuel c : ℕ) (t : σ), walk L Ncell body' fuel c (g t) = match walk L Ncell body fuel c t with
      | .stuck => .stuck | .fail => .fail | .done t => .done (g t) := by
  intro fuel
  induction fuel with
  | zero =>
    intro c t
    unfold walk
    by_cases hc : c < Ncell <;> simp [hc]
  | succ fuel ih =>
    intro c t
    unfold walk
    by_cases hc : c < Ncell
    · simp only [hc, if_true, h]
      cases body c t with
      | abort => rfl
      | open_ t' =>
        simp only
        cases L.copen c with
        | none => rfl
        | some c' => exact ih c' t'
      | next t' =>
        simp only
        cases L.cnext c with
        | none => rfl
        | some c' => exact ih c' t'
    · simp [hc]

/-- the cell test of `GenerateBoundaryGhostParticles` -/
noncomputable def ghostNear (T : Tree n) (d : Domain n ℝ) (grange tghost : ℝ) (j : Fin n) (c : ℕ) :
    Bool :=
  decide ((T.cell c).bbmin j + min 0 ((T.cell c).v j * tghost) < d.min j + grange * (T.cell c).hmax ∨
    (T.cell c).bbmax j + max 0 ((T.cell c).v j * tghost) > d.max j - grange * (T.cell c).hmax)

/-- The tree walk checks a sublist of the particles, among them all those needed. -/
theorem generate_visits {T : Tree n} {cfg : KD.Cfg} {P : KD.Parts n} {pfuel fuel : ℕ} {f : Forest}
    {l : List ℕ} (h : T.OK cfg P pfuel f l) (hfuel : f.cells.length ≤ fuel) (d : Domain n ℝ)
    (grange tghost : ℝ) (j : Fin n) (need : ℕ → Bool)
    (hneed : ∀ c l', KD.Summary cfg P l' (T.cell c) → ghostNear T d grange tghost j c = false →
      l'.filter need = []) :
    ∃ vis : List ℕ, vis.Sublist l ∧ vis.filter need = l.filter need ∧
      ∀ s : HState n ℝ τ τ', T.generate d grange tghost pfuel fuel j s =
        some (vis.foldl (HState.checkGhost d grange tghost j) s) := by
  rcases collect_walk h (ghostNear T d grange tghost j) (fun _ => true) need (fun _ => true) hneed []
    fuel hfuel with ⟨r, e, g1, g2⟩ | ⟨-, r, -, g2⟩
  · refine ⟨r, g1, g2, fun s => ?_⟩
    have hb : ∀ c t, T.generateBody d grange tghost j pfuel c
        (List.foldl (HState.checkGhost d grange tghost j) s t) =
        match collectBody T.links (fun c => (T.cell c).N) (T.leafList pfuel)
          (ghostNear T d grange tghost j) (fun _ => true) (fun _ => true) c t with
        | .abort => .abort
        | .open_ t => .open_ (List.foldl (HState.checkGhost d grange tghost j) s t)
        | .next t => .next (List.foldl (HState.checkGhost d grange tghost j) s t) := by
      intro c t
      simp only [Tree.generateBody, collectBody, ghostNear, decide_eq_true_eq, if_true,
        List.filter_true]
      by_cases h1 : (T.cell c).bbmin j + min 0 ((T.cell c).v j * tghost) <
          d.min j + grange * (T.cell c).hmax ∨ (T.cell c).bbmax j + max 0 ((T.cell c).v j * tghost) >
          d.max j - grange * (T.cell c).hmax
      · rw [if_pos h1, if_pos h1]
        by_cases h2 : T.links.copen c ≠ none
        · rw [if_pos h2, if_pos h2]
        · rw [if_neg h2, if_neg h2]
          by_cases h3 : (T.cell c).N = 0
          · rw [if_pos h3, if_pos h3]
          · rw [if_neg h3, if_neg h3]
            cases T.leafList pfuel c with
            | none => rfl
            | some l => simp [List.foldl_append]
      · rw [if_neg h1, if_neg h1]
    have := walk_map T.links T.Ncell (List.foldl (HState.checkGhost d grange tghost j) s)
      (collectBody T.links (fun c => (T.cell c).N) (T.leafList pfuel)
          (ghostNear T d grange tghost j) (fun _ => true) (fun _ => true))
      (T.generateBody d grange tghost j pfuel) (fun c t => by
        rw [hb c t]
        cases collectBody T.links (fun c => (T.cell c).N) (T.leafList pfuel)
          (ghostNear T d grange tghost j) (fun _ => true) (fun _ => true) c t <;> rfl) fuel 0 []
    rw [e] at this
    simp only [List.nil_append, List.filter_true, List.foldl_nil] at this
    unfold Tree.generate
    rw [this]
  · simp at g2

end Gandalf
