import Verif.Model.MpiGhosts
import Verif.Spec.MpiGhosts
import Verif.Proof.MpiDomains
import Verif.Proof.TreeSearch

/-! # Lemmas on the ghosts of processes -/

set_option autoImplicit false

namespace Gandalf

open Walk

variable {n : ℕ}

theorem Tree.ghostBody_eq (T : Tree n) (tg gr : ℝ) (b : Box n ℝ) (pfuel : ℕ) :
    T.ghostBody tg gr b pfuel = collectBody T.links (fun c => (T.cell c).N) (T.leafList pfuel)
      (fun c => boxOverlap (Mpi.scatterBox tg gr (T.cell c)) b) (fun _ => true) (fun _ => true) := by
  funext c s
  simp only [Tree.ghostBody, collectBody]
  cases T.leafList pfuel c <;> simp

/-- The walk ends, returns no particle twice, and all those that no cell above them hides. -/
theorem Tree.boxGhosts_spec {T : Tree n} {cfg : KD.Cfg} {P : KD.Parts n} {pfuel : ℕ} {f : Forest} {l : List ℕ}
    (h : T.OK cfg P pfuel f l) (tg gr : ℝ) (b : Box n ℝ) (need : ℕ → Bool)
    (hneed : ∀ c l', KD.Summary cfg P l' (T.cell c) → (∀ i ∈ l', i ∈ l) →
      boxOverlap (Mpi.scatterBox tg gr (T.cell c)) b = false → ∀ i ∈ l', need i = false) (s : List ℕ)
    (fuel : ℕ) (hfuel : f.cells.length ≤ fuel) :
    ∃ r, T.boxGhosts tg gr b pfuel fuel s = some (s ++ r) ∧ r.Sublist l ∧ ∀ i ∈ l, need i = true → i ∈ r := by
  rcases collect_walk_sub h (fun c => boxOverlap (Mpi.scatterBox tg gr (T.cell c)) b) (fun _ => true) need (fun _ => true)
    (fun c l' hS hsub hn => by
      rw [List.filter_eq_nil_iff]
      intro i hi
      rw [hneed c l' hS hsub hn i hi]
      exact Bool.false_ne_true) s fuel hfuel with ⟨r, e, g1, g2⟩ | ⟨_, _, _, g⟩
  · refine ⟨r, ?_, g1, fun i hi hn => ?_⟩
    · rw [Tree.boxGhosts, Tree.ghostBody_eq, e]
      simp
    · have : i ∈ r.filter need := by rw [g2]; exact List.mem_filter.mpr ⟨hi, hn⟩
      exact (List.mem_filter.mp this).1
  · exact absurd g (by simp)

theorem Mpi.overlap_of_reaches {cfg : KD.Cfg} {P : KD.Parts n} {l : List ℕ} {c : KD.Props n} (hS : KD.Summary cfg P l c)
    {tg gr : ℝ} (hgr : 0 ≤ gr) {b : Box n ℝ} {i : ℕ} (hi : i ∈ l) (h : Mpi.Reaches gr P b i) :
    boxOverlap (Mpi.scatterBox tg gr c) b = true := by
  obtain ⟨x, hx, hd⟩ := h
  rw [boxOverlap_eq_true]
  intro k
  have h1 := hS.bb i hi k
  have h2 := mul_le_mul_of_nonneg_left (hS.hmax i hi) hgr
  have h3 := abs_le.mp (hd k)
  have h4 := hx k
  have h5 : min 0 (c.v k * tg) ≤ 0 := min_le_left _ _
  have h6 : 0 ≤ max 0 (c.v k * tg) := le_max_left _ _
  constructor
  · show c.bbmin k + min 0 (c.v k * tg) - gr * c.hmax ≤ b.max k
    linarith
  · show b.min k ≤ c.bbmax k + max 0 (c.v k * tg) + gr * c.hmax
    linarith

theorem Mpi.hbox_fold (kr : ℝ) (l : List (Vec n ℝ × ℝ)) : ∀ b : Box n ℝ,
    let c := l.foldl (fun b x => (⟨fun k => min (b.min k) (x.1 k - 2 * kr * x.2),
      fun k => max (b.max k) (x.1 k + 2 * kr * x.2)⟩ : Box n ℝ)) b
    (∀ k, c.min k ≤ b.min k ∧ b.max k ≤ c.max k) ∧
      ∀ x ∈ l, ∀ k, c.min k ≤ x.1 k - 2 * kr * x.2 ∧ x.1 k + 2 * kr * x.2 ≤ c.max k := by
  induction l with
  | nil => intro b; exact ⟨fun k => ⟨le_rfl, le_rfl⟩, by simp⟩
  | cons y l ih =>
    intro b
    obtain ⟨h1, h2⟩ := ih ⟨fun k => min (b.min k) (y.1 k - 2 * kr * y.2), fun k => max (b.max k) (y.1 k + 2 * kr * y.2)⟩
    refine ⟨fun k => ⟨(h1 k).1.trans (min_le_left _ _), (le_max_left _ _).trans (h1 k).2⟩, ?_⟩
    intro x hx k
    rcases List.mem_cons.mp hx with rfl | hx
    · exact ⟨(h1 k).1.trans (min_le_right _ _), (le_max_right _ _).trans (h1 k).2⟩
    · exact h2 x hx k

theorem Mpi.hbox_le (big kr : ℝ) (p : Mpi.Proc n) {i : ℕ} (hi : i ∈ p.parts) (k : Fin n) :
    (p.hbox big kr).min k ≤ p.P.r i k - 2 * kr * p.P.h i ∧ p.P.r i k + 2 * kr * p.P.h i ≤ (p.hbox big kr).max k :=
  (Mpi.hbox_fold kr (p.parts.map fun i => (p.P.r i, p.P.h i)) _).2 (p.P.r i, p.P.h i) (List.mem_map.mpr ⟨i, hi, rfl⟩) k

theorem Mpi.rbox_le' (big : ℝ) (p : Mpi.Proc n) {i : ℕ} (hi : i ∈ p.parts) (k : Fin n) :
    (p.rbox big).min k ≤ p.P.r i k ∧ p.P.r i k ≤ (p.rbox big).max k :=
  (Mpi.rbox_fold_le (p.parts.map p.P.r) _).2 (p.P.r i) (List.mem_map_of_mem hi) k

/-- Both trees of a process. -/
theorem Mpi.searchGhosts_spec {T G : Tree n} {cfg : KD.Cfg} {P : KD.Parts n} {pfuel : ℕ} {f f' : Forest} {l g : List ℕ}
    (hT : T.OK cfg P pfuel f l) (hG : G.OK cfg P pfuel f' g) {kr : ℝ} (hk : 0 ≤ kr) (tg : ℝ) (b : Box n ℝ) (fuel : ℕ)
    (hf : f.cells.length ≤ fuel) (hf' : f'.cells.length ≤ fuel) :
    ∃ s, Mpi.searchGhosts T G kr tg b pfuel fuel = some s ∧ s.Sublist (l ++ g) ∧
      ∀ i ∈ l ++ g, Mpi.Reaches (5 * kr) P b i → i ∈ s := by
  classical
  have e : 2 * Mpi.ghostRange * kr = 5 * kr := by unfold Mpi.ghostRange; ring
  have key : ∀ (T : Tree n) (l : List ℕ), ∀ c l', KD.Summary cfg P l' (T.cell c) → (∀ i ∈ l', i ∈ l) →
      boxOverlap (Mpi.scatterBox tg (5 * kr) (T.cell c)) b = false → ∀ i ∈ l', decide (Mpi.Reaches (5 * kr) P b i) = false := by
    intro T l c l' hS _ hno i hi
    rw [decide_eq_false_iff_not]
    intro hr
    rw [Mpi.overlap_of_reaches hS (by linarith) hi hr] at hno
    exact absurd hno (by simp)
  obtain ⟨r1, e1, s1, n1⟩ := Tree.boxGhosts_spec hT tg (5 * kr) b (fun i => decide (Mpi.Reaches (5 * kr) P b i)) (key T l) [] fuel hf
  obtain ⟨r2, e2, s2, n2⟩ := Tree.boxGhosts_spec hG tg (5 * kr) b (fun i => decide (Mpi.Reaches (5 * kr) P b i)) (key G g)
    ([] ++ r1) fuel hf'
  refine ⟨[] ++ r1 ++ r2, ?_, ?_, ?_⟩
  · unfold Mpi.searchGhosts
    rw [e, e1, Option.bind_some, e2]
  · rw [List.nil_append]
    exact s1.append s2
  · intro i hi hr
    rw [List.nil_append]
    rcases List.mem_append.mp hi with h | h
    · exact List.mem_append_left _ (n1 i h (decide_eq_true hr))
    · exact List.mem_append_right _ (n2 i h (decide_eq_true hr))

end Gandalf
