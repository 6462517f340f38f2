import Verif.Prop.C15

/-!
# C15, continued: do the particles have all neighbours they need behind the boundaries?
-/

set_option autoImplicit false

namespace Gandalf

open KD

variable {n : ℕ} {τ τ' : Type*}

/-- **C15, neighbours, in part.** The code searches `grange = 2.5 kernrange`. The image of particle `o` across `σ` is made whenever
it is in the kernel of a particle `j` of the box, or `j` in its own, if the smoothing length of `j` is at most 2.5 times that of
`o`. Missing: larger ratios (`C15_gather_fails`). -/
theorem C15_neighbours_partial (T : Tree n) (cfg : Cfg) (P : Parts n) (pfuel fuel : ℕ) (f : Forest)
    (l : List ℕ) (s : HState n ℝ τ τ') (h : GhostSetup T cfg P pfuel fuel f l s) (d : Domain n ℝ)
    (hsize : ∀ k, d.size k = d.max k - d.min k) (kr : ℝ) (hk : 0 ≤ kr) :
    ∃ s' L, s.search d (5 / 2 * kr) 0 (T.generate d (5 / 2 * kr) 0 pfuel fuel) = some s' ∧ GhostCatalogue d s s' L ∧
      ∀ o j σ, o < s.Nhydro → (∃ k, σ k ≠ none) → (∀ k t, σ k = some t → d.Imaging k t) →
        (∀ k, d.min k ≤ (s.part j).r k ∧ (s.part j).r k ≤ d.max k) → 0 ≤ (s.part o).h → (s.part j).h ≤ 5 / 2 * (s.part o).h →
        (∀ k, |d.imagePos σ (s.part o).r k - (s.part j).r k| < kr * max (s.part o).h (s.part j).h) → (o, σ) ∈ L := by
  obtain ⟨s', L, e, hC, hiff⟩ := C15_zero_lifetime T cfg P pfuel fuel f l s h d (5 / 2 * kr) (by linarith)
  refine ⟨s', L, e, hC, fun o j σ ho hne him hbox hh hr hnear => (hiff o σ).mpr ⟨ho, hne, fun k t hkt => ⟨him k t hkt, ?_⟩⟩⟩
  have hH : kr * max (s.part o).h (s.part j).h ≤ 5 / 2 * kr * (s.part o).h := by
    have : max (s.part o).h (s.part j).h ≤ 5 / 2 * (s.part o).h := max_le (by linarith) hr
    have := mul_le_mul_of_nonneg_left this hk
    linarith
  have h1 := abs_lt.mp (hnear k)
  have h2 := hbox k
  have h3 := hsize k
  simp only [Domain.imagePos, hkt] at h1
  by_cases ht : t = 0
  · rw [if_pos ht]
    split_ifs at h1 <;> linarith
  · rw [if_neg ht]
    split_ifs at h1 <;> linarith

noncomputable section

/-- particles on a line -/
def C15.parts (r h : ℕ → ℝ) : Parts 1 :=
  ⟨fun i _ => r i, fun _ _ => 0, fun _ => 1, h, fun _ => 1, fun _ => 0, fun _ => 0, fun _ => false, fun _ => true, fun _ => true⟩

/-- the same two particles in the array of the code -/
def C15.state (r h : ℕ → ℝ) : HState 1 ℝ Unit Unit :=
  { ex15s with
    part := fun i => { ex15s.part i with
      r := fun _ => r i
      v := fun _ => 0
      h := h i } }

theorem C15.tree (r h : ℕ → ℝ) : ∃ (T : Tree 1) (l : List ℕ), GhostSetup T ex15Cfg (C15.parts r h) 2 1 (fullTree 0 0 .nil) l
    (C15.state r h) ∧ l.Perm [0, 1] := by
  obtain ⟨t, b, s', l, h1, h2, h3, hp, hlo, hst, _⟩ := C06_built_tree_stocks (κ := Fin 1)
    (fun _ i => r i) (fun _ => 0) (fun _ => false) 0 2 6 1 (by norm_num) (by norm_num)
    (fun _ _ _ => rfl) ⟨fun _ => 0, fun _ => none, fun _ => none, fun _ => none, fun _ => none,
      fun _ => 0, fun _ => 0, 0⟩ id (fun _ => none) 0 (by decide) (by decide) ex15Cfg (C15.parts r h)
    (fun _ _ => zero_le_one) (fun _ => ⟨0, 0, 0, 0, 0, 0, 0, 0, 0, fun _ => 0,
      fun _ => 0, fun _ => 0, fun _ => 0, fun _ => 0, fun _ => 0, fun _ => 0, fun _ => 0, fun _ => 0,
      fun _ => 0⟩)
  have e : (l.filter fun i => !(C15.parts r h).dead i) = l := by simp [C15.parts]
  rw [e] at hst
  have hlen : l.length = 2 := by rw [hp.length_eq]; simp
  refine ⟨toTree t 0 6 s' fun _ => 0, l, ⟨by norm_num, toTree_ok hlo hst (by omega)
    (hp.nodup_iff.mpr List.nodup_range'), by simp [fullTree, Forest.cells], fun i => ?_,
    fun i _ => ⟨rfl, rfl, rfl⟩, fun i _ => by simp [GPart.IsReal, C15.state, ex15s]⟩, hp⟩
  rw [hp.mem_iff]
  simp [C15.state, ex15s]

/-- **C15 fails for smoothing lengths that differ much.** In the periodic box `[0, 100]`, the particle at 90 with `h = 1` has its
image at -10, inside of the kernel (radius 12) of the particle at 1 with `h = 6`, but gets no ghost at all: the search goes by the
smoothing length of the particle copied only. -/
theorem C15_gather_fails : ∃ (T : Tree 1) (P : Parts 1) (l : List ℕ) (s s' : HState 1 ℝ Unit Unit)
    (L : List (ℕ × (Fin 1 → Option Side))), GhostSetup T ex15Cfg P 2 1 (fullTree 0 0 .nil) l s ∧
    s.search ex15d (5 / 2 * 2) 0 (T.generate ex15d (5 / 2 * 2) 0 2 1) = some s' ∧ GhostCatalogue ex15d s s' L ∧
    |ex15d.imagePos (fun _ => some 1) (s.part 0).r 0 - (s.part 1).r 0| < 2 * (s.part 1).h ∧ ∀ σ, (0, σ) ∉ L := by
  obtain ⟨T, l, hG, hp⟩ := C15.tree (fun i => if i = 0 then 90 else 1) (fun i => if i = 0 then 1 else 6)
  obtain ⟨s', L, e, hC, hiff⟩ := C15_zero_lifetime T ex15Cfg _ 2 1 _ l _ hG ex15d (5 / 2 * 2) (by norm_num)
  refine ⟨T, _, l, _, s', L, hG, e, hC, ?_, ?_⟩
  · norm_num [Domain.imagePos, ex15d, C15.state, Domain.side, abs_lt, show ¬ Bnd.periodic = Bnd.mirror from by decide]
  · intro σ hσ
    obtain ⟨_, ⟨k, hk⟩, h3⟩ := (hiff 0 σ).mp hσ
    obtain ⟨t, ht⟩ := Option.ne_none_iff_exists'.mp hk
    have := (h3 k t ht).2
    simp only [C15.state, ex15d, if_true] at this
    split_ifs at this <;> norm_num at this

/-- Particles at 99 and 1 with equal smoothing lengths: the first has an image at -1. -/
example : ∃ (T : Tree 1) (s s' : HState 1 ℝ Unit Unit) (L : List (ℕ × (Fin 1 → Option Side))),
    s.search ex15d (5 / 2 * 2) 0 (T.generate ex15d (5 / 2 * 2) 0 2 1) = some s' ∧ GhostCatalogue ex15d s s' L ∧
    (0, fun _ => some 1) ∈ L := by
  obtain ⟨T, l, hG, hp⟩ := C15.tree (fun i => if i = 0 then 99 else 1) (fun _ => 2)
  obtain ⟨s', L, e, hC, hall⟩ := C15_neighbours_partial T ex15Cfg _ 2 1 _ l _ hG ex15d (by norm_num [ex15d]) 2 (by norm_num)
  refine ⟨T, _, s', L, e, hC, hall 0 1 _ (by simp [C15.state, ex15s]) ⟨0, by simp⟩ ?_ ?_ ?_ ?_ ?_⟩
  · intro k t _
    simp [Domain.Imaging, Domain.side, ex15d]
  · norm_num [C15.state, ex15d]
  · norm_num [C15.state]
  · norm_num [C15.state]
  · norm_num [Domain.imagePos, ex15d, C15.state, Domain.side, abs_lt, show ¬ Bnd.periodic = Bnd.mirror from by decide]

end

end Gandalf
