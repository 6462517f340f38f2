import Verif.Proof.MonoIonStart
import Verif.Prop.C87
import Mathlib.Analysis.SpecialFunctions.Sqrt

/-!
# C88 – ionisation balance of the Monte-Carlo scheme
-/

set_option autoImplicit false
set_option linter.unusedSectionVars false

namespace Gandalf
open KD RadTree MonoIon

section field
variable {α : Type} [Field α] [LinearOrder α] [IsStrictOrderedRing α]

/-- **C88 (cells).** `UpdateIonisationFraction` on a level of the tree changes only the ionisation of the
cells. Every cell with particles on that level or above is worked on exactly once, from the values it
had; all fractions are in `[0, 1)`, temperature and opacity fit the fraction; and every cell below a cell
with particles of the level has that cell's values. -/
theorem C88_cells {P : Par α} {t : KD.Links} {ltot level Nphoton : ℕ} (hlo : LaidOut t ltot ltot 0 0)
    (hs : 0 < P.small) {cells : ℕ → MonoIon.Cell α} (hx : ∀ i, 0 ≤ (cells i).Xion)
    (ha : ∀ i, 0 ≤ P.ionconst * (cells i).lsum / (Nphoton * (cells i).volume * (cells i).rho)) :
    let f := (update P t ltot level Nphoton (ncellOf ltot) cells).1
    (∀ i, (f i).N = (cells i).N ∧ (f i).m = (cells i).m ∧ (f i).rho = (cells i).rho ∧
      (f i).volume = (cells i).volume ∧ (f i).lsum = (cells i).lsum) ∧
    (∀ i, i < ncellOf ltot → t.level i ≤ level → (cells i).N ≠ 0 →
      f i = solve P Nphoton (cells i) ∧ 0 ≤ (f i).Xion ∧ (f i).Xion < 1 ∧
        (f i).temp = P.tempIon * (f i).Xion ∧
        (f i).opacity = (1 - (f i).Xion) * P.across * (cells i).rho * P.invmh) ∧
    (∀ i, i < ncellOf ltot → t.level i ≤ level → (cells i).N = 0 → f i = cells i) ∧
    ∀ i j, i < ncellOf ltot → t.level i = level → (cells i).N ≠ 0 → Under t i j →
      (f j).Xion = (f i).Xion ∧ (f j).temp = (f i).temp ∧ (f j).opacity = (f i).opacity := by
  have hfs : ncellOf ltot = fullSize ltot := by rw [ncellOf_eq]
  have hl0 : t.level 0 ≤ level := by have := laid_level hlo; omega
  obtain ⟨_, h2, h3, h4, _⟩ := fold_spec P t ltot level Nphoton hs ltot 0 0 (cells, true) hlo hl0
    fun i _ _ _ => ⟨hx i, ha i⟩
  intro f
  have hf : f = ((List.range' 0 (fullSize ltot)).foldl (turn P t ltot level Nphoton) (cells, true)).1 := by
    show (update P t ltot level Nphoton (ncellOf ltot) cells).1 = _
    unfold update
    rw [hfs, List.range_eq_range']
  rw [← hf] at h2 h3 h4
  refine ⟨h2, ?_, ?_, ?_⟩
  · intro i hi hl hN
    have e := h3 i (by omega) (by omega) hl
    rw [if_neg hN] at e
    obtain ⟨s1, s2, _, s4, s5, _⟩ := solve_spec P Nphoton (cells i) hs (hx i) (ha i)
    rw [e]
    exact ⟨rfl, s1, s2, s4, s5⟩
  · intro i hi hl hN
    have e := h3 i (by omega) (by omega) hl
    rw [if_pos hN] at e
    exact e
  · intro i j hi hl hN hu
    obtain ⟨d', hn⟩ := exists_node ltot 0 i (by omega) (by omega)
    obtain ⟨e, he⟩ := under_node hlo hn hu
    have hr := he.range
    have := fs_pos e
    obtain ⟨a1, _, a3, a4⟩ := h4 d' i hn hl hN j (by omega) (by omega)
    exact ⟨a1, a3, a4⟩

/-- **C88 (start).** `UpdateCellOpacity` gives every cell the mean, weighted by mass, of the fractions of
the particles in its leaves; fractions stay in `[0, 1]` and the opacities fit them. The masses of the
cells are those of the particles in them (no dead particles). -/
theorem C88_start {P : Par α} {t : KD.Links} {ltot : ℕ} (hlo : LaidOut t ltot ltot 0 0)
    {mem : ℕ → List ℕ} {pm pX : ℕ → α} (hp : ∀ i, 0 ≤ pm i ∧ 0 ≤ pX i ∧ pX i ≤ 1)
    {cells : ℕ → MonoIon.Cell α} (hm : ∀ i, i < ncellOf ltot →
      (cells i).m = levelSum t ltot (fun l => total pm (mem l)) i (fullSize (ltot - t.level i))) :
    ∃ f, cellOpacity P t ltot mem pm pX (ltot + 1) 0 cells = some f ∧
      ∀ i, i < ncellOf ltot → 0 ≤ (f i).Xion ∧ (f i).Xion ≤ 1 ∧
        (cells i).m * (f i).Xion =
          levelSum t ltot (fun l => total (fun k => pm k * pX k) (mem l)) i (fullSize (ltot - t.level i)) ∧
        (f i).opacity = (1 - (f i).Xion) * P.across * (cells i).rho * P.invmh := by
  have hfs : ncellOf ltot = fullSize ltot := by rw [ncellOf_eq]
  have hlev : ∀ d' i, Node ltot 0 d' i → ltot - t.level i = d' ∧ i < ncellOf ltot := by
    intro d' i hn
    obtain ⟨g, hg⟩ := hn.laid _ hlo
    have := laid_level hg
    have hr := hn.range
    have := fs_pos d'
    omega
  obtain ⟨f, e, _, h2, h3⟩ := cellOpacity_spec (P := P) hp ltot 0 0 (ltot + 1) cells hlo (by omega) (by
    intro d' i hn
    obtain ⟨e1, e2⟩ := hlev d' i hn
    rw [hm i e2, e1])
  refine ⟨f, e, ?_⟩
  intro i hi
  obtain ⟨d', hn⟩ := exists_node ltot 0 i (by omega) (by omega)
  obtain ⟨e1, _⟩ := hlev d' i hn
  have h := h3 d' i hn
  refine ⟨h.lo, h.hi, ?_, ?_⟩
  · rw [e1, ← h.mean, (h2 i).2.1]
  · rw [h.opacity, (h2 i).2.2.1]; rfl

/-- **C88 (levels).** With at least one radiation level, and not more than the tree has, the photons are
followed once on each of the coarser levels and then `Nraditerations` times on the leaves; the particles
get their values from the leaves. -/
theorem C88_levels {ltot Nradlevels Nraditerations : ℕ} (h1 : 1 ≤ Nradlevels) :
    schedule ltot Nradlevels Nraditerations =
      ((List.range (Nradlevels - 1)).map (fun j : ℕ => (ltot : ℤ) - (Nradlevels - 1 : ℕ) + j) ++
        List.replicate Nraditerations (ltot : ℤ), (ltot : ℤ)) ∧
    (Nradlevels ≤ ltot + 1 → ∀ l ∈ (schedule ltot Nradlevels Nraditerations).1, 0 ≤ l ∧ l ≤ ltot) := by
  have e : schedule ltot Nradlevels Nraditerations =
      ((List.range (Nradlevels - 1)).map (fun j : ℕ => (ltot : ℤ) - (Nradlevels - 1 : ℕ) + j) ++
        List.replicate Nraditerations (ltot : ℤ), (ltot : ℤ)) := by
    unfold schedule
    rw [show Nraditerations + Nradlevels - 1 = (Nradlevels - 1) + Nraditerations by omega,
      show (ltot : ℤ) - Nradlevels + 1 = ltot - ((Nradlevels - 1 : ℕ) : ℤ) by omega]
    exact levels_spec _ _ _
  refine ⟨e, ?_⟩
  intro h2 l hl
  rw [e] at hl
  rcases List.mem_append.mp hl with h | h
  · obtain ⟨j, hj, rfl⟩ := List.mem_map.mp h
    have := List.mem_range.mp hj
    omega
  · have := List.eq_of_mem_replicate h
    omega

/-- **C88 (no levels) fails.** With `Nradlevels = 0` the first level lies below the leaves, and the
following ones ever deeper: not a single turn is made on a level of the tree. -/
theorem C88_no_levels_fails (ltot Nraditerations : ℕ) :
    ∀ l ∈ (schedule ltot 0 Nraditerations).1, (ltot : ℤ) < l := by
  unfold schedule
  have h : ∀ k (a : ℤ), (ltot : ℤ) < a → ∀ l ∈ (levels ltot k a).1, (ltot : ℤ) < l := by
    intro k
    induction k with
    | zero => intro a _ l hl; exact absurd hl List.not_mem_nil
    | succ k ih =>
      intro a ha l hl
      rw [levels, if_pos (by omega)] at hl
      rcases List.mem_cons.mp hl with rfl | h
      · exact ha
      · exact ih (a + 1) (by omega) l h
  exact h _ _ (by push_cast; omega)

/-- **C88 (particles).** Every particle of a leaf that is not empty gets that leaf's fraction, whatever
the gathered cells. -/
theorem C88_particles {t : KD.Links} {level Ncell : ℕ} {mem : ℕ → List ℕ} {cells : ℕ → MonoIon.Cell α}
    {pX : ℕ → α} {i : ℕ}
    (hu : ∀ c c', c < Ncell → c' < Ncell → t.level c = level → t.level c' = level → i ∈ mem c →
      i ∈ mem c' → c = c') :
    (∀ c, c < Ncell → t.level c = level → (cells c).N ≠ 0 → i ∈ mem c →
      interpolate t level Ncell mem cells pX i = (cells c).Xion) ∧
    ((∀ c, c < Ncell → t.level c = level → (cells c).N ≠ 0 → i ∉ mem c) →
      interpolate t level Ncell mem cells pX i = pX i) := by
  obtain ⟨h1, h2⟩ := interpolate_spec t level mem cells i (List.range Ncell) pX
    fun c hc c' hc' => hu c c' (List.mem_range.mp hc) (List.mem_range.mp hc')
  exact ⟨fun c hc => h1 c (List.mem_range.mpr hc), fun h => h2 fun c hc => h c (List.mem_range.mp hc)⟩

/-- **C88 (mixture).** Internal energy and temperature of partly ionised gas lie between those of the
neutral and the ionised gas. The sound speed is mixed linearly: its square is never more than the mixture
of the squares, and falls short of it by `X(1-X)` times the square of the difference. -/
theorem C88_mixture {X gammam1 tempIon muIon u0 T0 cIon c0 : α} (h0 : 0 ≤ X) (h1 : X ≤ 1) :
    (tempIon / gammam1 / muIon ≤ u0 → tempIon / gammam1 / muIon ≤ energy gammam1 tempIon muIon X u0 ∧
      energy gammam1 tempIon muIon X u0 ≤ u0) ∧
    (u0 ≤ tempIon / gammam1 / muIon → u0 ≤ energy gammam1 tempIon muIon X u0 ∧
      energy gammam1 tempIon muIon X u0 ≤ tempIon / gammam1 / muIon) ∧
    (T0 ≤ tempIon → T0 ≤ temperature tempIon X T0 ∧ temperature tempIon X T0 ≤ tempIon) ∧
    sound cIon X c0 ^ 2 = X * cIon ^ 2 + (1 - X) * c0 ^ 2 - X * (1 - X) * (cIon - c0) ^ 2 ∧
    sound cIon X c0 ^ 2 ≤ X * cIon ^ 2 + (1 - X) * c0 ^ 2 := by
  have e : energy gammam1 tempIon muIon X u0 = X * (tempIon / gammam1 / muIon) + (1 - X) * u0 := by
    unfold energy; rw [mul_div_assoc, mul_div_assoc]
  have hy : 0 ≤ 1 - X := by linarith
  have es : sound cIon X c0 ^ 2 = X * cIon ^ 2 + (1 - X) * c0 ^ 2 - X * (1 - X) * (cIon - c0) ^ 2 := by
    unfold sound; ring
  refine ⟨?_, ?_, ?_, es, ?_⟩
  · intro h
    rw [e]
    have a := mul_le_mul_of_nonneg_left h h0
    have b := mul_le_mul_of_nonneg_left h hy
    constructor <;> linarith
  · intro h
    rw [e]
    have a := mul_le_mul_of_nonneg_left h h0
    have b := mul_le_mul_of_nonneg_left h hy
    constructor <;> linarith
  · intro h
    unfold temperature
    have a := mul_le_mul_of_nonneg_left h h0
    have b := mul_le_mul_of_nonneg_left h hy
    constructor <;> linarith
  · rw [es]
    have := mul_nonneg (mul_nonneg h0 hy) (sq_nonneg (cIon - c0))
    linarith

end field

/-! ### The balance, over the reals -/

namespace MonoIon

/-- fixed points of the iteration -/
theorem exists_fixed (s a : ℝ) (_hs : 0 ≤ s) (ha : 0 ≤ a) : ∃ y, 0 ≤ y ∧ y * (y + s + a) = a := by
  refine ⟨(Real.sqrt ((s + a) ^ 2 + 4 * a) - (s + a)) / 2, ?_, ?_⟩
  · have : s + a ≤ Real.sqrt ((s + a) ^ 2 + 4 * a) := by
      apply Real.le_sqrt_of_sq_le; linarith
    linarith
  · have := Real.sq_sqrt (show 0 ≤ (s + a) ^ 2 + 4 * a by positivity)
    linear_combination this / 4

/-- `small_number` moves the balance by no more than itself -/
theorem fixed_near {s a x y : ℝ} (hs : 0 ≤ s) (ha : 0 < a) (hx : Balance a x) (hy0 : 0 ≤ y)
    (hy : y * (y + s + a) = a) : |y - x| ≤ s := by
  obtain ⟨x0, x1, xb⟩ := hx
  have e : (x - y) * (x + y + a) = s * y := by linear_combination xb - hy
  have hp : 0 < x + y + a := by linarith
  have h1 : 0 ≤ x - y := by
    by_contra h
    push Not at h
    nlinarith [mul_nonneg hs hy0]
  rw [abs_sub_comm, abs_of_nonneg h1]
  by_contra h
  push Not at h
  have : s * y ≤ s * (x + y + a) := mul_le_mul_of_nonneg_left (by linarith) hs
  nlinarith

end MonoIon

/-- **C88 (balance exists).** For every rate there is exactly one fraction in balance. -/
theorem C88_balance_unique (a : ℝ) (ha : 0 ≤ a) : ∃! x, Balance a x := by
  obtain ⟨y, y0, hy⟩ := exists_fixed 0 a le_rfl ha
  have hb : y * y = (1 - y) * a := by linear_combination hy
  have y1 : y < 1 := by
    by_contra h
    push Not at h
    have : (1 - y) * a ≤ 0 := mul_nonpos_of_nonpos_of_nonneg (by linarith) ha
    nlinarith
  refine ⟨y, ⟨y0, y1, hb⟩, ?_⟩
  rintro z ⟨z0, z1, zb⟩
  have e : (z - y) * (z + y + a) = 0 := by linear_combination zb - hb
  rcases mul_eq_zero.mp e with h | h
  · linarith
  · have : z = 0 := by linarith
    have : y = 0 := by linarith
    linarith

/-- **C88 (balance), partial.** The fraction found for a cell differs from the one in balance with the
radiation by at most `(1+a)^-10` times the difference before, plus twice `small_number`; `a` is the rate
of ionisation over the rate of recombination. (Partial: for cells with little radiation, `a ≪ 1`, this is no
progress to speak of, see `C88_balance_fails`.) -/
theorem C88_balance_partial {P : Par ℝ} {Nphoton : ℕ} {c : MonoIon.Cell ℝ} (hs : 0 < P.small)
    (hx : 0 ≤ c.Xion) {a : ℝ} (ha : a = P.ionconst * c.lsum / (Nphoton * c.volume * c.rho)) (ha0 : 0 < a)
    {x : ℝ} (hb : Balance a x) :
    |(solve P Nphoton c).Xion - x| ≤ (1 / (1 + a)) ^ 10 * |c.Xion - x| + 2 * P.small := by
  have har : rate P Nphoton c = a := ha.symm
  obtain ⟨y, y0, hy⟩ := exists_fixed P.small a hs.le ha0.le
  have h1 := iter_error P Nphoton c hs hx (by rw [har]; exact ha0) y0 (by rw [har]; exact hy) 10
  rw [har] at h1
  have h2 := fixed_near hs.le ha0 hb y0 hy
  change |(solve P Nphoton c).Xion - y| ≤ _ at h1
  have h3 : |(solve P Nphoton c).Xion - x| ≤ |(solve P Nphoton c).Xion - y| + |y - x| := abs_sub_le _ _ _
  have h4 : |c.Xion - y| ≤ |c.Xion - x| + |y - x| := by
    rw [abs_sub_comm y x]; exact abs_sub_le _ _ _
  have hq0 : 0 ≤ (1 / (1 + a)) ^ 10 := by positivity
  have hq1 : (1 / (1 + a)) ^ 10 ≤ 1 := by
    apply pow_le_one₀ (by positivity)
    rw [div_le_one (by linarith)]
    linarith
  have h5 : (1 / (1 + a)) ^ 10 * |c.Xion - y| ≤ (1 / (1 + a)) ^ 10 * |c.Xion - x| + P.small := by
    have := mul_le_mul_of_nonneg_left h4 hq0
    have h6 : (1 / (1 + a)) ^ 10 * |y - x| ≤ 1 * P.small := mul_le_mul hq1 h2 (abs_nonneg _) zero_le_one
    linarith
  linarith

/-- **C88 (no radiation).** A cell no packet has crossed becomes neutral. -/
theorem C88_dark {P : Par ℝ} {Nphoton : ℕ} {c : MonoIon.Cell ℝ} (hl : c.lsum = 0) :
    (solve P Nphoton c).Xion = 0 ∧ (solve P Nphoton c).opacity = P.across * c.rho * P.invmh := by
  have h0 : ∀ b : MonoIon.Cell ℝ, b.lsum = 0 → (relax P Nphoton b).Xion = 0 := by
    intro b hb
    show P.ionconst * b.lsum / _ / _ = 0
    rw [hb]
    simp
  have hit := iter_turned P Nphoton c 19
  have hX : (solve P Nphoton c).Xion = 0 := by
    unfold solve
    rw [Function.iterate_succ_apply']
    exact h0 _ (hit.lsum.trans hl)
  refine ⟨hX, ?_⟩
  have e : (solve P Nphoton c).opacity = opac P (solve P Nphoton c).Xion ((relax P Nphoton)^[19] c).rho := by
    unfold solve
    rw [Function.iterate_succ_apply']
    rfl
  rw [e, hX, hit.rho]
  unfold opac
  ring

/-- **C88 (converged).** If `UpdateIonisationFraction` returns `true`, every cell with particles on the
level or above has a fraction within 2 per cent (and three times `small_number`) of the one in balance
with its radiation. -/
theorem C88_converged {P : Par ℝ} {t : KD.Links} {ltot level Nphoton : ℕ} (hlo : LaidOut t ltot ltot 0 0)
    (hs : 0 < P.small) {cells : ℕ → MonoIon.Cell ℝ} (hx : ∀ i, 0 ≤ (cells i).Xion)
    (ha : ∀ i, 0 ≤ P.ionconst * (cells i).lsum / (Nphoton * (cells i).volume * (cells i).rho))
    (hc : (update P t ltot level Nphoton (ncellOf ltot) cells).2 = true) {i : ℕ} (hi : i < ncellOf ltot)
    (hl : t.level i ≤ level) (hN : (cells i).N ≠ 0) {x : ℝ}
    (hb : Balance (P.ionconst * (cells i).lsum / (Nphoton * (cells i).volume * (cells i).rho)) x) :
    let f := (update P t ltot level Nphoton (ncellOf ltot) cells).1
    |(f i).Xion - x| ≤ (f i).Xion / 50 + 3 * P.small := by
  have hfs : ncellOf ltot = fullSize ltot := by rw [ncellOf_eq]
  have hl0 : t.level 0 ≤ level := by have := laid_level hlo; omega
  obtain ⟨_, _, h3, _, h5⟩ := fold_spec P t ltot level Nphoton hs ltot 0 0 (cells, true) hlo hl0
    fun i _ _ _ => ⟨hx i, ha i⟩
  intro f
  have hu : update P t ltot level Nphoton (ncellOf ltot) cells =
      (List.range' 0 (fullSize ltot)).foldl (turn P t ltot level Nphoton) (cells, true) := by
    unfold update
    rw [hfs, List.range_eq_range']
  rw [← hu] at h3 h5
  have hset := (h5.mp hc).2 i (by omega) (by omega) hl hN
  have e := h3 i (by omega) (by omega) hl
  rw [if_neg hN] at e
  show |((update P t ltot level Nphoton (ncellOf ltot) cells).1 i).Xion - x| ≤
    ((update P t ltot level Nphoton (ncellOf ltot) cells).1 i).Xion / 50 + _
  rw [e]
  -- the cell
  obtain ⟨s1, s2, s3, _⟩ := solve_spec P Nphoton (cells i) hs (hx i) (ha i)
  have hold := solve_Xold P Nphoton (cells i)
  have hnew : (solve P Nphoton (cells i)).Xion =
      fmap P.small (rate P Nphoton (cells i)) ((relax P Nphoton)^[19] (cells i)).Xion :=
    iter_Xion P Nphoton (cells i) hs (hx i) (ha i) 19
  have h19 := iter_nonneg P Nphoton (cells i) hs (hx i) (ha i) 19
  obtain ⟨y, y0, hy⟩ := exists_fixed P.small (rate P Nphoton (cells i)) hs.le (ha i)
  have hbet := fmap_between (a := rate P Nphoton (cells i)) hs (ha i) h19 y0 hy
  rw [← hnew] at hbet
  have hxy : |y - x| ≤ P.small := by
    rcases lt_or_eq_of_le (ha i) with h | h
    · exact fixed_near hs.le h hb y0 hy
    · obtain ⟨b0, _, b2⟩ := hb
      rw [← h, mul_zero] at b2
      have hx0 : x = 0 := by simpa using b2
      have hr : rate P Nphoton (cells i) = 0 := h.symm
      rw [hr] at hy
      have hy0 : y = 0 := by
        rcases mul_eq_zero.mp hy with h | h
        · exact h
        · linarith
      rw [hx0, hy0]
      simpa using hs.le
  set X := (solve P Nphoton (cells i)).Xion with hXdef
  set O := (solve P Nphoton (cells i)).Xold with hOdef
  have h19' : ((relax P Nphoton)^[19] (cells i)).Xion = O - P.small := by rw [hold]; ring
  rw [h19'] at hbet
  have hXO : |X - (O - P.small)| ≤ |X - O| + P.small := by
    have := abs_add_le (X - O) P.small
    rw [abs_of_pos hs] at this
    rw [show X - (O - P.small) = X - O + P.small by ring]
    exact this
  have hd : |X - O| ≤ X / 50 + P.small := by
    unfold unsettled at hset
    rw [not_or] at hset
    obtain ⟨q1, q2⟩ := hset
    rw [not_and, not_lt] at q1 q2
    rcases lt_or_ge P.small X with h | h
    · have := q1 h
      rw [div_le_iff₀ (by linarith)] at this
      linarith
    · rcases lt_or_ge P.small O with h' | h'
      · have := q2 h'
        rw [div_le_iff₀ (by linarith)] at this
        rw [abs_of_nonpos (by linarith)] at this ⊢
        linarith
      · rw [abs_of_nonpos (by linarith)]
        linarith
  have : |X - x| ≤ |X - y| + |y - x| := abs_sub_le _ _ _
  linarith

/-- **C88 (balance) fails.** In a neutral cell with little radiation (`a ≤ 1/420`) the twenty turns lead
to at most half of the fraction in balance: they come forward by no more than `a` in two turns, while the
balance lies near `√a`. The values are used nevertheless (the loop of `UpdateRadiationField` is not told). -/
theorem C88_balance_fails {P : Par ℝ} {Nphoton : ℕ} {c : MonoIon.Cell ℝ} (hs : 0 < P.small)
    (hx : c.Xion = 0) {a : ℝ} (ha : a = P.ionconst * c.lsum / (Nphoton * c.volume * c.rho)) (ha0 : 0 < a)
    (ha1 : a ≤ 1 / 420) {x : ℝ} (hb : Balance a x) :
    2 * (solve P Nphoton c).Xion ≤ x + 20 * P.small ∧ 20 * a ≤ x := by
  have har : rate P Nphoton c = a := ha.symm
  have h1 := iter_le P Nphoton c hs hx.ge (by rw [har]; exact ha0) 10
  rw [har, hx] at h1
  change (solve P Nphoton c).Xion ≤ _ at h1
  push_cast at h1
  obtain ⟨x0, x1, xb⟩ := hb
  have h2 : 20 * a ≤ x := by
    by_contra h
    push Not at h
    nlinarith [mul_pos ha0 ha0]
  constructor <;> linarith

/-! ### Instances -/

namespace MonoIon

/-- parameters for the instances -/
def exPar : Par ℚ := ⟨1, 10, 2, 3, 1/1000000⟩

/-- a cell: rate `l` with one photon, unit volume and density -/
def exCell (N : ℕ) (l X : ℚ) : Cell ℚ := ⟨N, N, 1, 1, l, X, 0, 0, 0⟩

/-- the tree of C87 with different radiation in its cells -/
def exCells : ℕ → Cell ℚ := fun c => exCell (if c = 5 then 0 else 1) (c : ℚ) (1/2)

theorem exCells_ok : (∀ i, 0 ≤ (exCells i).Xion) ∧ ∀ i, 0 ≤ exPar.ionconst * (exCells i).lsum /
    ((1 : ℕ) * (exCells i).volume * (exCells i).rho) := by
  refine ⟨fun i => by show (0 : ℚ) ≤ 1 / 2; norm_num, fun i => ?_⟩
  show (0 : ℚ) ≤ 1 * (i : ℚ) / ((1 : ℕ) * 1 * 1)
  positivity

end MonoIon

/-- hypotheses of `C88_cells` -/
example := C88_cells (level := 1) (Nphoton := 1) RadTree.exLinks_laid
  (show 0 < exPar.small by norm_num [exPar]) exCells_ok.1 exCells_ok.2

/-- on level 1, the leaves 2 and 3 get the values of cell 1, not of their own radiation -/
example : let f := (update exPar RadTree.exLinks 2 1 1 7 exCells).1
    (f 2).Xion = (f 1).Xion ∧ (f 3).opacity = (f 1).opacity ∧ (f 1).Xion ≠ (f 4).Xion ∧
      |(f 1).Xion - 618/1000| < 1/1000 := by
  decide +kernel

/-- a faintly lit neutral cell, `a = 1/10000`: balance near 1/100, found a little less than 1/1000; the
flag says so -/
example : (solve exPar 1 (exCell 1 (1/10000) 0)).Xion < 12/10000 ∧
    unsettled exPar (solve exPar 1 (exCell 1 (1/10000) 0)) := by
  decide +kernel

/-- the flag: bright cells settle, faint ones do not -/
example : (update exPar RadTree.exLinks 2 2 1 7 fun _ => exCell 1 4 (1/2)).2 = true ∧
    (update exPar RadTree.exLinks 2 2 1 7 fun _ => exCell 1 (1/10000) 0).2 = false := by
  decide +kernel

/-- the schedule for a tree of depth 5, 3 levels and 4 iterations -/
example : schedule 5 3 4 = ([3, 4, 5, 5, 5, 5], 5) := by decide

/-- start: leaves of masses 1, 2, 1, 1 with fractions 1, 1/2, 0, 0: the root has 2/5 -/
example : (cellOpacity exPar RadTree.exLinks 2 (fun c => [[], [], [0], [1], [], [2], [3]].getD c [])
    (fun i => ([1, 2, 1, 1] : List ℚ).getD i 0) (fun i => ([1, 1/2, 0, 0] : List ℚ).getD i 0) 3 0
    (fun c => ⟨1, ([5, 3, 1, 2, 2, 1, 1] : List ℚ).getD c 0, 1, 1, 0, 0, 0, 0, 0⟩)).map
      (fun f => ((f 0).Xion, (f 1).Xion, (f 3).Xion, (f 0).opacity)) = some (2/5, 2/3, 1/2, 18/5) := by
  decide +kernel

/-- particles get the fraction of their leaf -/
example : interpolate RadTree.exLinks 2 7 (fun c => [[], [], [0, 4], [1], [], [2], [3]].getD c []) exCells
    (fun _ => (9 : ℚ)) 4 = 1/2 ∧ interpolate RadTree.exLinks 2 7
      (fun c => [[], [], [0, 4], [1], [], [2], [3]].getD c []) exCells (fun _ => (9 : ℚ)) 2 = 9 := by
  decide +kernel

/-- a rate in balance: `a = 1/2`, `x = 1/2` -/
example : Balance (1/2 : ℝ) (1/2) := by
  refine ⟨by norm_num, by norm_num, by norm_num⟩

end Gandalf
