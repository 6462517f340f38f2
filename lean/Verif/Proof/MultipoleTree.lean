import Verif.Proof.MultipoleError
import Verif.Spec.Stock
import Verif.Model.TreeSearch
import Mathlib.Analysis.InnerProductSpace.PiL2

/-! # Centres of mass and distances of stocked cells -/

set_option autoImplicit false
set_option linter.unusedSectionVars false

namespace Gandalf.Multipole

open Gravity

variable {n : ℕ}

theorem gdist_zero_eq (x y : Vec n ℝ) :
    gdist 0 x y = dist (WithLp.toLp 2 x : EuclideanSpace ℝ (Fin n)) (WithLp.toLp 2 y) := by
  rw [EuclideanSpace.dist_eq, gdist, add_zero]
  congr 1
  exact Finset.sum_congr rfl fun k _ => by simp [Real.dist_eq, sq_abs]

theorem gdist_tri (x y z : Vec n ℝ) : gdist 0 x z ≤ gdist 0 x y + gdist 0 y z := by
  simp only [gdist_zero_eq]
  exact dist_triangle _ _ _

theorem gdist_mono {eps : ℝ} (he : 0 ≤ eps) (x y : Vec n ℝ) : gdist 0 x y ≤ gdist eps x y :=
  Real.sqrt_le_sqrt (by linarith)

theorem gdist_le {x y : Vec n ℝ} {R : ℝ} (hR : 0 ≤ R) (h : Tree.distsqd x y ≤ R ^ 2) : gdist 0 x y ≤ R := by
  unfold gdist
  rw [add_zero]
  refine Real.sqrt_le_iff.mpr ⟨hR, le_trans (le_of_eq ?_) h⟩
  exact Finset.sum_congr rfl fun k _ => by ring

theorem distsqd_gdist (x y : Vec n ℝ) : Tree.distsqd x y = gdist 0 x y ^ 2 := by
  rw [dist_sq le_rfl, add_zero]
  rfl

/-- the centre of mass lies in every ball that contains the masses -/
theorem com_ball {src : List (ℝ × Vec n ℝ)} {r : Vec n ℝ} {m : ℝ} {q : Fin 5 → ℝ} (h : IsMoment src r m q)
    (hw : ∀ s ∈ src, 0 ≤ s.1) (hm : 0 < m) (o : Vec n ℝ) {R : ℝ} (hR : ∀ s ∈ src, gdist 0 s.2 o ≤ R) :
    gdist 0 r o ≤ R := by
  have e : (src.map fun s => s.1 * dot (fun k => r k - o k) (fun k => s.2 k - o k)).sum =
      m * gdist 0 r o ^ 2 := by
    have h0 := moment_dot h (fun k => r k - o k)
    have h1 : (src.map fun s => s.1 * dot (fun k => r k - o k) (fun k => s.2 k - o k)).sum =
        (src.map fun s => s.1 * dot (fun k => r k - o k) (fun k => s.2 k - r k)).sum +
          (src.map Prod.fst).sum * dot (fun k => r k - o k) (fun k => r k - o k) := by
      generalize src = l
      induction l with
      | nil => simp
      | cons s l ih =>
        simp only [List.map_cons, List.sum_cons, ih]
        have : dot (fun k => r k - o k) (fun k => s.2 k - o k) = dot (fun k => r k - o k) (fun k => s.2 k - r k) +
            dot (fun k => r k - o k) (fun k => r k - o k) := by
          unfold dot
          rw [← Finset.sum_add_distrib]
          exact Finset.sum_congr rfl fun k _ => by ring
        rw [this]
        ring
    rw [h1, h0, ← h.mass, dist_sq le_rfl, add_zero, zero_add]
  have hb := sum_err src Prod.fst (fun s => dot (fun k => r k - o k) (fun k => s.2 k - o k)) (gdist 0 r o * R) hw
    (fun s hs => by
      refine (dot_abs_le _ _).trans ?_
      have e1 : Real.sqrt (dot (fun k => r k - o k) (fun k => r k - o k)) = gdist 0 r o := by
        rw [dist_eq, add_zero]
      have e2 : Real.sqrt (dot (fun k => s.2 k - o k) (fun k => s.2 k - o k)) = gdist 0 s.2 o := by
        rw [dist_eq, add_zero]
      rw [e1, e2]
      exact mul_le_mul_of_nonneg_left (hR s hs) (gdist_nonneg _ _ _))
  rw [e, ← h.mass, abs_of_nonneg (by positivity)] at hb
  rcases (gdist_nonneg 0 r o).eq_or_lt with h0 | h0
  · rw [← h0]
    by_contra hlt
    push Not at hlt
    have : src = [] := by
      rcases src with _ | ⟨s, l⟩
      · rfl
      · exact absurd ((gdist_nonneg _ _ _).trans (hR s (by simp))) (not_le.mpr hlt)
    rw [h.mass, this] at hm
    simp at hm
  · have : gdist 0 r o ^ 2 ≤ gdist 0 r o * R := le_of_mul_le_mul_left hb hm
    rw [pow_two] at this
    exact le_of_mul_le_mul_left this h0

theorem exists_moment {src : List (ℝ × Vec n ℝ)} {r : Vec n ℝ} {m : ℝ} (h : IsCentre src r m) :
    ∃ q, IsMoment src r m q := by
  refine ⟨![if h : 0 < n then tensor src r ⟨0, h⟩ ⟨0, h⟩ else 0,
    if h : 1 < n then tensor src r ⟨0, by omega⟩ ⟨1, h⟩ else 0,
    if h : 1 < n then tensor src r ⟨1, h⟩ ⟨1, h⟩ else 0,
    if h : 2 < n then tensor src r ⟨0, by omega⟩ ⟨2, h⟩ else 0,
    if h : 2 < n then tensor src r ⟨1, by omega⟩ ⟨2, h⟩ else 0], ⟨h, ?_, ?_, ?_, ?_, ?_⟩⟩ <;>
  · intro h
    simp [h]

theorem masses_flatten (P : KD.Parts n) (ls : List (List ℕ)) :
    masses P ls.flatten = (ls.map (masses P)).flatten := by
  induction ls with
  | nil => rfl
  | cons a l ih =>
    rw [List.map_cons, List.flatten_cons, List.flatten_cons, ← ih]
    simp [masses]

theorem sum_zero {l : List (ℝ × Vec n ℝ)} (hw : ∀ s ∈ l, 0 ≤ s.1) (h : (l.map Prod.fst).sum ≤ 0) :
    ∀ s ∈ l, s.1 = 0 := by
  induction l with
  | nil => simp
  | cons a l ih =>
    simp only [List.map_cons, List.sum_cons] at h
    have h1 : 0 ≤ (l.map Prod.fst).sum := by
      apply List.sum_nonneg
      simp only [List.mem_map]
      rintro _ ⟨s, hs, rfl⟩
      exact hw s (by simp [hs])
    have h2 := hw a (by simp)
    intro s hs
    rcases List.mem_cons.mp hs with rfl | hs
    · linarith
    · exact ih (fun t ht => hw t (by simp [ht])) (by linarith) s hs

theorem sum_eq_zero_of {α : Type} {l : List α} {f : α → ℝ} (h : ∀ s ∈ l, f s = 0) : (l.map f).sum = 0 := by
  induction l with
  | nil => simp
  | cons a l ih =>
    rw [List.map_cons, List.sum_cons, h a (by simp), ih fun s hs => h s (by simp [hs]), add_zero]

/-- masses that vanish have no moments and no field -/
theorem massless {src : List (ℝ × Vec n ℝ)} {r : Vec n ℝ} {m : ℝ} {q : Fin 5 → ℝ} (hn : n = 1 ∨ n = 2 ∨ n = 3)
    (h : IsMoment src r m q) (hz : ∀ s ∈ src, s.1 = 0) (R : Vec n ℝ) :
    qscalar n q R = 0 ∧ ∀ k, qdr n q R k = 0 := by
  refine ⟨?_, fun k => ?_⟩
  · rw [moment_qscalar hn h]
    exact sum_eq_zero_of fun s hs => by rw [hz s hs, zero_mul]
  · rw [moment_qdr hn h]
    exact sum_eq_zero_of fun s hs => by rw [hz s hs, zero_mul]

theorem massless_field {src : List (ℝ × Vec n ℝ)} (hz : ∀ s ∈ src, s.1 = 0) (eps : ℝ) (x : Vec n ℝ) :
    pot eps src x = 0 ∧ ∀ k, acc eps src x k = 0 :=
  ⟨sum_eq_zero_of fun s hs => by rw [hz s hs, zero_div],
    fun k => sum_eq_zero_of fun s hs => by rw [hz s hs, zero_mul, zero_div]⟩

/-- a stocked cell holds mass and centre of mass of its particles -/
theorem summary_centre {cfg : KD.Cfg} {P : KD.Parts n} {l : List ℕ} {c : KD.Props n} (hS : KD.Summary cfg P l c)
    (hm : ∀ i ∈ l, 0 ≤ P.m i) : IsCentre (masses P l) c.r c.m := by
  have hw : ∀ s ∈ masses P l, 0 ≤ s.1 := by
    intro s hs
    obtain ⟨i, hi, rfl⟩ := List.mem_map.mp hs
    exact hm i (List.mem_filter.mp hi).1
  have e : c.m = ((masses P l).map Prod.fst).sum := by
    rw [hS.m, KD.gsum, masses, List.map_map]
    rfl
  refine ⟨e, fun k => ?_⟩
  by_cases h0 : 0 < c.m
  · rw [hS.com h0 k, KD.gsum, masses, List.map_map]
    rfl
  · have hz := sum_zero hw (by rw [← e]; exact not_lt.mp h0)
    have : c.m = 0 := by rw [e]; exact sum_eq_zero_of hz
    rw [this, zero_mul]
    exact (sum_eq_zero_of fun s hs => by rw [hz s hs, zero_mul]).symm

theorem summary_moment (hn : n = 1 ∨ n = 2 ∨ n = 3) {cfg : KD.Cfg} {P : KD.Parts n} {l : List ℕ} {c : KD.Props n}
    (hS : KD.Summary cfg P l c) (hm : ∀ i ∈ l, 0 ≤ P.m i) (hq : cfg.needQuad = true) :
    IsMoment (masses P l) c.r c.m c.q := by
  have h := summary_centre hS hm
  obtain ⟨q, hqm⟩ := exists_moment h
  have he : ∀ e, KD.quadUsed n e = true → c.q e = q e := by
    intro e hu
    rw [moment_entry hn hqm e hu, hS.quad hq e, KD.gsum, masses, List.map_map]
    rfl
  refine ⟨h, ?_, ?_, ?_, ?_, ?_⟩ <;> intro h' <;> rcases hn with rfl | rfl | rfl <;>
    first
    | omega
    | exact (he 0 (by decide)).trans (hqm.xx h')
    | exact (he 1 (by decide)).trans (hqm.xy h')
    | exact (he 2 (by decide)).trans (hqm.yy h')
    | exact (he 3 (by decide)).trans (hqm.xz h')
    | exact (he 4 (by decide)).trans (hqm.yz h')

end Gandalf.Multipole
