import Verif.Proof.Render
import Verif.Prop.C30

/-!
# C82: rendered images
-/

set_option autoImplicit false

namespace Gandalf
open Render RenderSpec

noncomputable section

/-- a window of 4 by 2 pixels -/
def c82View : View := ⟨4, 2, 0, 4, 0, 2⟩

theorem c82View_fine : Fine c82View := ⟨by norm_num [c82View], by norm_num [c82View], by norm_num [c82View], by norm_num [c82View]⟩

/-- a simple kernel -/
def c82W (q : ℝ) : ℝ := max 0 (1 - q)

theorem c82W_zero (q : ℝ) (h : 1 ≤ q) : c82W q = 0 := max_eq_left (by linarith)

theorem c82W_continuous : Continuous c82W := by
  unfold c82W
  fun_prop

theorem c82W_sight : sight c82W 0 = 1 := by
  rw [sight_half one_pos c82W_zero 0 le_rfl one_pos]
  have : ∫ s in (0)..√((1 : ℝ) ^ 2 - 0 ^ 2), c82W (√(0 ^ 2 + s ^ 2)) = ∫ s in (0 : ℝ)..1, (1 - s) := by
    norm_num
    apply intervalIntegral.integral_congr
    intro s hs
    rw [Set.uIcc_of_le zero_le_one] at hs
    simp only
    rw [c82W, Real.sqrt_sq hs.1, max_eq_right (by linarith [hs.2])]
  rw [this, intervalIntegral.integral_sub (by simp) (by simp)]
  norm_num [integral_id]

/-- Every place of the array belongs to exactly one pixel, and the list of places `rgrid` has the centre of that pixel there. -/
theorem C82_index (v : View) :
    v.rgrid.length = v.nx * v.ny ∧
    (∀ c : ℕ, c < v.nx * v.ny → ∃! ij : ℕ × ℕ, ij.1 < v.nx ∧ ij.2 < v.ny ∧ v.index ij.1 ij.2 = c) ∧
    (∀ i j : ℕ, i < v.nx → j < v.ny → ∃ c : ℕ, v.index i j = c ∧ c < v.nx * v.ny ∧ v.rgrid[c]? = some (centre v i j)) := by
  refine ⟨by rw [rgrid_length, mul_comm], ?_, ?_⟩
  · intro c hc
    obtain ⟨i, j, hi, hj, h⟩ := index_surj v (c := c) (by omega) (by exact_mod_cast hc)
    refine ⟨(i.toNat, j.toNat), ⟨by simp only; omega, by simp only; omega, ?_⟩, ?_⟩
    · simp only
      rw [Int.toNat_of_nonneg hi.1, Int.toNat_of_nonneg hj.1, h]
    · rintro ⟨i', j'⟩ ⟨hi', hj', h'⟩
      have := index_inj v (i := i) (j := j) (i' := i') (j' := j') hi (by simp only at hi'; omega) (h.trans h'.symm)
      simp only [Prod.mk.injEq]
      omega
  · intro i j hi hj
    have hr := index_range v (i := i) (j := j) (by omega) (by omega)
    refine ⟨(v.index i j).toNat, by omega, ?_, rgrid_get v i j hi hj⟩
    have : ((v.nx * v.ny : ℕ) : ℤ) = v.nx * v.ny := by push_cast; rfl
    omega

example : c82View.index 0 1 = 0 ∧ c82View.index 3 0 = 7 := by
  constructor <;> norm_num [View.index, c82View]

/-- The value of a pixel of a slice is the smoothed value of the quantity, over all particles, divided by that of one, at the
lower left corner of the pixel. -/
theorem C82_slice {W : ℝ → ℝ} {R : ℝ} (hR : 0 < R) (hW : ∀ q, R ≤ q → W q = 0) {v : View} (F : Fine v) (ps : List Dot)
    (hp : ∀ p ∈ ps, 0 < p.h) (z : ℝ) (i j : ℕ) (hi : i < v.nx) (hj : j < v.ny)
    (hn : 1 / 10000000000 < smooth3 W ps (fun _ => 1) (corner v i j).1 (corner v i j).2 z) :
    image (slice z) W R 3 v ps (v.index i j)
      = smooth3 W ps (fun p => p.A) (corner v i j).1 (corner v i j).2 z
        / smooth3 W ps (fun _ => 1) (corner v i j).1 (corner v i j).2 z := by
  have h := sums_pixel (nd := 3) F (sound_slice z) hR hW ps hp (i := i) (j := j) (by omega) (by omega)
  have hk : ∀ p : Dot, wkern (slice z) W v p i j
      = W (√(((corner v i j).1 - p.x) ^ 2 + ((corner v i j).2 - p.y) ^ 2 + (z - p.z) ^ 2) / p.h) := by
    intro p
    simp only [wkern, slice, corner, View.dx, View.dy, mul_one_div, Int.cast_natCast]
    congr 3
    ring
  have e1 : (ps.map fun p => wnorm 3 p * p.A * wkern (slice z) W v p i j).sum
      = smooth3 W ps (fun p => p.A) (corner v i j).1 (corner v i j).2 z := by
    unfold smooth3
    congr 1
    apply List.map_congr_left
    intro p _
    rw [hk, wnorm, one_div, inv_pow]
    ring
  have e2 : (ps.map fun p => wnorm 3 p * wkern (slice z) W v p i j).sum
      = smooth3 W ps (fun _ => 1) (corner v i j).1 (corner v i j).2 z := by
    unfold smooth3
    congr 1
    apply List.map_congr_left
    intro p _
    rw [hk, wnorm, one_div, inv_pow]
    ring
  rw [image, h, e1, e2, normalise, if_pos hn]

/-- The same for an image of a simulation in two dimensions. -/
theorem C82_plane {W : ℝ → ℝ} {R : ℝ} (hR : 0 < R) (hW : ∀ q, R ≤ q → W q = 0) {v : View} (F : Fine v) (ps : List Dot)
    (hp : ∀ p ∈ ps, 0 < p.h) (i j : ℕ) (hi : i < v.nx) (hj : j < v.ny)
    (hn : 1 / 10000000000 < smooth2 W ps (fun _ => 1) (corner v i j).1 (corner v i j).2) :
    image column W R 2 v ps (v.index i j)
      = smooth2 W ps (fun p => p.A) (corner v i j).1 (corner v i j).2 / smooth2 W ps (fun _ => 1) (corner v i j).1 (corner v i j).2 := by
  have h := sums_pixel (nd := 2) F sound_column hR hW ps hp (i := i) (j := j) (by omega) (by omega)
  have hk : ∀ p : Dot, wkern column W v p i j = W (√(((corner v i j).1 - p.x) ^ 2 + ((corner v i j).2 - p.y) ^ 2) / p.h) := by
    intro p
    simp only [wkern, column, corner, View.dx, View.dy, mul_one_div, Int.cast_natCast]
    congr 3
    ring
  have e1 : (ps.map fun p => wnorm 2 p * p.A * wkern column W v p i j).sum
      = smooth2 W ps (fun p => p.A) (corner v i j).1 (corner v i j).2 := by
    unfold smooth2
    congr 1
    apply List.map_congr_left
    intro p _
    rw [hk, wnorm, one_div, inv_pow]
    ring
  have e2 : (ps.map fun p => wnorm 2 p * wkern column W v p i j).sum
      = smooth2 W ps (fun _ => 1) (corner v i j).1 (corner v i j).2 := by
    unfold smooth2
    congr 1
    apply List.map_congr_left
    intro p _
    rw [hk, wnorm, one_div, inv_pow]
    ring
  rw [image, h, e1, e2, normalise, if_pos hn]

/-- the hypotheses can be met -/
example : 1 / 10000000000 < smooth2 c82W [⟨1, 1, 0, 1, 1, 1, 5⟩] (fun _ => 1) (corner c82View 1 1).1 (corner c82View 1 1).2 := by
  norm_num [smooth2, corner, c82View, c82W]

/-- Neither kind of image depends on the order of the particles. -/
theorem C82_order {W : ℝ → ℝ} {R : ℝ} (hR : 0 < R) (hW : ∀ q, R ≤ q → W q = 0) {v : View} (F : Fine v) (nd : ℕ) {M : Mode}
    (hM : M = column ∨ ∃ z, M = slice z) {ps qs : List Dot} (h : ps.Perm qs)
    (hp : ∀ p ∈ ps, 0 < p.h) (c : ℕ) (hc : c < v.nx * v.ny) : image M W R nd v ps c = image M W R nd v qs c := by
  have S : Sound M := by
    rcases hM with rfl | ⟨z, rfl⟩
    · exact sound_column
    · exact sound_slice z
  obtain ⟨i, j, hi, hj, e⟩ := index_surj v (c := c) (by omega) (by exact_mod_cast hc)
  rw [← e, image, image, sums_pixel F S hR hW ps hp hi hj,
    sums_pixel F S hR hW qs (fun p hq => hp p (h.mem_iff.2 hq)) hi hj, (h.map _).sum_eq, (h.map _).sum_eq]

example : ([⟨1, 1, 0, 1, 1, 1, 5⟩, ⟨2, 1, 0, 1, 1, 1, 7⟩] : List Dot).Perm [⟨2, 1, 0, 1, 1, 1, 7⟩, ⟨1, 1, 0, 1, 1, 1, 5⟩] :=
  List.Perm.swap _ _ _

/-- A bright pixel is an average of the values of the particles (whatever the kernel, the power of `h` and the kind of image):
it is between the least and the greatest, and a constant is reproduced.
Missing: the pixels whose norm is not above `1e-10`, see `C82_faint_fails`. -/
theorem C82_average_partial {W : ℝ → ℝ} {R : ℝ} (hR : 0 < R) (hW : ∀ q, R ≤ q → W q = 0) (h0 : ∀ q, 0 ≤ W q) {v : View} (F : Fine v)
    (nd : ℕ) {M : Mode} (hM : M = column ∨ ∃ z, M = slice z) (ps : List Dot) (hp : ∀ p ∈ ps, 0 < p.h ∧ 0 < p.m ∧ 0 < p.rho) (lo hi : ℝ)
    (hA : ∀ p ∈ ps, lo ≤ p.A ∧ p.A ≤ hi) (c : ℕ) (hc : c < v.nx * v.ny) (hn : 1 / 10000000000 < (sums M W R nd v ps c).2) :
    lo ≤ image M W R nd v ps c ∧ image M W R nd v ps c ≤ hi := by
  have S : Sound M := by
    rcases hM with rfl | ⟨z, rfl⟩
    · exact sound_column
    · exact sound_slice z
  obtain ⟨i, j, hi', hj, e⟩ := index_surj v (c := c) (by omega) (by exact_mod_cast hc)
  have hs := sums_pixel (nd := nd) F S hR hW ps (fun p h => (hp p h).1) hi' hj
  rw [e] at hs
  rw [image, normalise, if_pos hn]
  have hpos : 0 < (sums M W R nd v ps c).2 := lt_trans (by norm_num) hn
  rw [le_div_iff₀ hpos, div_le_iff₀ hpos, hs]
  have hw : ∀ p ∈ ps, 0 ≤ wnorm nd p * wkern M W v p i j := by
    intro p h
    obtain ⟨h1, h2, h3⟩ := hp p h
    unfold wnorm wkern
    have := h0 (√((v.xmin + v.dx * i - p.x) * (v.xmin + v.dx * i - p.x) + (v.ymin + v.dy * j - p.y) * (v.ymin + v.dy * j - p.y)
      + M.dz2 p) * (1 / p.h))
    positivity
  clear hs hn hpos e
  induction ps with
  | nil => simp
  | cons p ps ih =>
    have ih := ih (fun q h => hp q (List.mem_cons_of_mem _ h)) (fun q h => hA q (List.mem_cons_of_mem _ h))
      (fun q h => hw q (List.mem_cons_of_mem _ h))
    have h1 := hw p List.mem_cons_self
    have h2 := hA p List.mem_cons_self
    simp only [List.map_cons, List.sum_cons] at ih ⊢
    constructor
    · have := mul_le_mul_of_nonneg_left h2.1 h1
      rw [mul_add]
      refine add_le_add ?_ ih.1
      calc _ = wnorm nd p * wkern M W v p i j * lo := by ring
        _ ≤ _ := this
        _ = _ := by ring
    · have := mul_le_mul_of_nonneg_left h2.2 h1
      rw [mul_add]
      refine add_le_add ?_ ih.2
      calc _ = wnorm nd p * wkern M W v p i j * p.A := by ring
        _ ≤ _ := this
        _ = _ := by ring

/-- A pixel whose norm is at most `1e-10` is not normalised: one light particle of temperature 10, say in units where its
volume is small, gives `1e-10` where it is. -/
theorem C82_faint_fails : ∃ p : Dot, 0 < p.h ∧ 0 < p.m ∧ 0 < p.rho ∧ p.A = 10 ∧
    (p.x, p.y) = corner c82View 1 1 ∧ image column c82W 1 2 c82View [p] (c82View.index 1 1) = 1 / 10000000000 := by
  refine ⟨⟨1, 1, 0, 1 / 100000000000, 1, 1, 10⟩, by norm_num, by norm_num, by norm_num, rfl, by norm_num [corner, c82View], ?_⟩
  have hs := sums_pixel (nd := 2) c82View_fine sound_column one_pos c82W_zero [⟨1, 1, 0, 1 / 100000000000, 1, 1, 10⟩]
    (by intro p h; simp at h; subst h; norm_num) (i := 1) (j := 1) (by norm_num [c82View]) (by norm_num [c82View])
  rw [image, hs]
  norm_num [normalise, wnorm, wkern, column, View.dx, View.dy, c82View, c82W]

/-- the window shifted to the lower left by half a pixel -/
def c82Lower (v : View) : View :=
  ⟨v.nx, v.ny, v.xmin - (v.xmax - v.xmin) / v.nx / 2, v.xmax - (v.xmax - v.xmin) / v.nx / 2,
    v.ymin - (v.ymax - v.ymin) / v.ny / 2, v.ymax - (v.ymax - v.ymin) / v.ny / 2⟩

theorem c82_corner (v : View) (i j : ℕ) : corner v i j = centre (c82Lower v) i j := by
  simp only [corner, centre, c82Lower, Prod.mk.injEq]
  constructor
  · rw [show v.xmax - (v.xmax - v.xmin) / v.nx / 2 - (v.xmin - (v.xmax - v.xmin) / v.nx / 2) = v.xmax - v.xmin by ring]
    ring
  · rw [show v.ymax - (v.ymax - v.ymin) / v.ny / 2 - (v.ymin - (v.ymax - v.ymin) / v.ny / 2) = v.ymax - v.ymin by ring]
    ring

/-- The image shows the values at the centres of the pixels of the window that is shifted to the lower left by half a pixel,
not at those of the window asked for (which are in `rgrid`, `C82_index`, and where the display draws the pixels). -/
theorem C82_shift_fails {W : ℝ → ℝ} {R : ℝ} (hR : 0 < R) (hW : ∀ q, R ≤ q → W q = 0) {v : View} (F : Fine v) (ps : List Dot)
    (hp : ∀ p ∈ ps, 0 < p.h) (i j : ℕ) (hi : i < v.nx) (hj : j < v.ny)
    (hn : 1 / 10000000000 < smooth2 W ps (fun _ => 1) (centre (c82Lower v) i j).1 (centre (c82Lower v) i j).2) :
    image column W R 2 v ps (v.index i j)
      = smooth2 W ps (fun p => p.A) (centre (c82Lower v) i j).1 (centre (c82Lower v) i j).2
        / smooth2 W ps (fun _ => 1) (centre (c82Lower v) i j).1 (centre (c82Lower v) i j).2 ∧
    centre (c82Lower v) i j ≠ centre v i j := by
  rw [← c82_corner] at hn ⊢
  refine ⟨C82_plane hR hW F ps hp i j hi hj hn, ?_⟩
  intro h
  have h1 := congrArg Prod.fst h
  have hd := F.dx
  simp only [corner, centre, View.dx] at h1 hd
  nlinarith

/-- So a particle in the middle of a pixel whose kernel reaches at most to the edges is in no pixel, although the smoothed
field at the centre of its pixel is not zero. -/
theorem C82_lost_fails {W : ℝ → ℝ} {R : ℝ} (hR : 0 < R) (hW : ∀ q, R ≤ q → W q = 0) (hW0 : 0 < W 0) {v : View} (F : Fine v) (nd : ℕ)
    (p : Dot) (hh : 0 < p.h) (hm : 0 < p.m) (hr : 0 < p.rho) (hA : 0 < p.A) (i j : ℕ)
    (hc : (p.x, p.y) = centre v i j) (hs : R * p.h ≤ v.dx / 2) :
    (∀ c : ℕ, c < v.nx * v.ny → image column W R nd v [p] c = 0) ∧
    0 < smooth2 W [p] (fun p => p.A) (centre v i j).1 (centre v i j).2 := by
  constructor
  · intro c hc'
    obtain ⟨i', j', hi, hj, e⟩ := index_surj v (c := c) (by omega) (by exact_mod_cast hc')
    have hz : wkern column W v p i' j' = 0 := by
      apply hW
      rw [mul_one_div, le_div_iff₀ hh]
      apply Real.le_sqrt_of_sq_le
      have hx : p.x = v.xmin + ((i : ℝ) + 1 / 2) * v.dx := congrArg Prod.fst hc
      rw [hx]
      simp only [column]
      have hd := F.dx
      have h1 : (1 / 2 : ℝ) ^ 2 ≤ ((i' : ℝ) - i - 1 / 2) ^ 2 := by
        have hn : (0 : ℤ) ≤ (i' - i) * (i' - i - 1) := by
          rcases le_or_gt (i' - i : ℤ) 0 with h | h
          · exact mul_nonneg_of_nonpos_of_nonpos h (by omega)
          · exact mul_nonneg h.le (by omega)
        have : (0 : ℝ) ≤ ((i' : ℝ) - i) * (i' - i - 1) := by exact_mod_cast hn
        nlinarith
      have h2 : (R * p.h) ^ 2 ≤ (v.dx / 2) ^ 2 := pow_le_pow_left₀ (by positivity) hs 2
      have h3 := mul_le_mul_of_nonneg_left h1 (sq_nonneg v.dx)
      nlinarith [mul_self_nonneg (v.ymin + v.dy * j' - p.y)]
    have := sums_pixel (nd := nd) F sound_column hR hW [p] (by simpa using hh) hi hj
    rw [e] at this
    rw [image, this]
    simp [hz, normalise]
  · rw [← hc]
    simp only [smooth2, List.map_cons, List.map_nil, List.sum_cons, List.sum_nil, sub_self, add_zero]
    norm_num
    positivity

example : ((3 / 2 : ℝ), (3 / 2 : ℝ)) = centre c82View 1 1 ∧ (1 : ℝ) * (1 / 2) ≤ c82View.dx / 2 := by
  constructor <;> norm_num [centre, c82View, View.dx]

/-- In three dimensions, with equal smoothing lengths and the exact kernel along lines of sight, a pixel of a column image is
the ratio of the integrals of the smoothed fields along the line through its lower left corner.
Missing: smoothing lengths that differ, see `C82_column_fails`. -/
theorem C82_column_partial {W : ℝ → ℝ} {R : ℝ} (hc : Continuous W) (hR : 0 < R) (hW : ∀ q, R ≤ q → W q = 0) {v : View} (F : Fine v)
    (ps : List Dot) (h0 : ℝ) (hh : 0 < h0) (hp : ∀ p ∈ ps, p.h = h0) (i j : ℕ) (hi : i < v.nx) (hj : j < v.ny)
    (hn : 1 / 10000000000 < (sums column (sight W) R 3 v ps (v.index i j)).2) :
    image column (sight W) R 3 v ps (v.index i j)
      = (∫ Z, smooth3 W ps (fun p => p.A) (corner v i j).1 (corner v i j).2 Z)
        / ∫ Z, smooth3 W ps (fun _ => 1) (corner v i j).1 (corner v i j).2 Z := by
  have hp' : ∀ p ∈ ps, 0 < p.h := fun p h => by rw [hp p h]; exact hh
  have hS : ∀ q, R ≤ q → sight W q = 0 := by
    intro q hq
    unfold sight
    have : (fun s => W (√(q ^ 2 + s ^ 2))) = fun _ => 0 := by
      funext s
      apply hW
      apply Real.le_sqrt_of_sq_le
      nlinarith [sq_nonneg s]
    rw [this]
    simp
  have h := sums_pixel (nd := 3) F sound_column hR hS ps hp' (i := i) (j := j) (by omega) (by omega)
  have hk : ∀ p : Dot, wkern column (sight W) v p i j
      = sight W (√(((corner v i j).1 - p.x) ^ 2 + ((corner v i j).2 - p.y) ^ 2) / p.h) := by
    intro p
    simp only [wkern, column, corner, View.dx, View.dy, mul_one_div, Int.cast_natCast]
    congr 3
    ring
  have e : ∀ f : Dot → ℝ, (ps.map fun p => wnorm 3 p * f p * wkern column (sight W) v p i j).sum
      = h0⁻¹ * ∫ Z, smooth3 W ps f (corner v i j).1 (corner v i j).2 Z := by
    intro f
    rw [(column_integral hc hR hW ps hp' f _ _).1, ← List.sum_map_mul_left]
    congr 1
    apply List.map_congr_left
    intro p hpp
    rw [hk, wnorm, one_div, inv_pow, hp p hpp]
    ring
  have e2 : (ps.map fun p => wnorm 3 p * wkern column (sight W) v p i j).sum
      = h0⁻¹ * ∫ Z, smooth3 W ps (fun _ => 1) (corner v i j).1 (corner v i j).2 Z := by
    rw [← e]
    congr 1
    apply List.map_congr_left
    intro p _
    ring
  rw [image, normalise, if_pos hn, h]
  simp only
  rw [e, e2, mul_div_mul_left _ _ (inv_ne_zero hh.ne')]

/-- Two particles of equal mass and density on one line, the second twice as wide: the value of the first is weighed by
8/9 in the column image, but by 4/5 in the integrals along the line. -/
theorem C82_column_fails : ∃ p q : Dot, p.A = 1 ∧ q.A = 0 ∧ p.h = 1 ∧ q.h = 2 ∧
    image column (sight c82W) 1 3 c82View [p, q] (c82View.index 1 1) = 8 / 9 ∧
    (∫ Z, smooth3 c82W [p, q] (fun p => p.A) (corner c82View 1 1).1 (corner c82View 1 1).2 Z)
        / (∫ Z, smooth3 c82W [p, q] (fun _ => 1) (corner c82View 1 1).1 (corner c82View 1 1).2 Z) = 4 / 5 := by
  refine ⟨⟨1, 1, 0, 1, 1, 1, 1⟩, ⟨1, 1, 0, 1, 1, 2, 0⟩, rfl, rfl, rfl, rfl, ?_, ?_⟩
  · have hS : ∀ q, 1 ≤ q → sight c82W q = 0 := by
      intro q hq
      unfold sight
      have : (fun s => c82W (√(q ^ 2 + s ^ 2))) = fun _ => 0 := by
        funext s
        apply c82W_zero
        apply Real.le_sqrt_of_sq_le
        nlinarith [sq_nonneg s]
      rw [this]
      simp
    have hs := sums_pixel (nd := 3) c82View_fine sound_column one_pos hS [⟨1, 1, 0, 1, 1, 1, 1⟩, ⟨1, 1, 0, 1, 1, 2, 0⟩]
      (by intro p h; simp at h; rcases h with rfl | rfl <;> norm_num) (i := 1) (j := 1) (by norm_num [c82View]) (by norm_num [c82View])
    rw [image, hs]
    norm_num [normalise, wnorm, wkern, column, View.dx, View.dy, c82View, c82W_sight]
  · rw [(column_integral c82W_continuous one_pos c82W_zero _ (by intro p h; simp at h; rcases h with rfl | rfl <;> norm_num) _ _ _).1,
      (column_integral c82W_continuous one_pos c82W_zero _ (by intro p h; simp at h; rcases h with rfl | rfl <;> norm_num) _ _ _).1]
    norm_num [corner, c82View, c82W_sight]

/-- The table of the kernel along lines of sight is never below the integral and above it by at most one step of the
integration times twice the kernel at the closest point; with more steps it tends to the integral. -/
theorem C82_sight {W : ℝ → ℝ} {R : ℝ} (hR : 0 < R) (hW : ∀ q, R ≤ q → W q = 0) (ha : AntitoneOn W (Set.Ici 0)) (b : ℝ) (h0 : 0 ≤ b)
    (h1 : b < R) :
    (∀ steps : ℕ, 0 < steps → sight W b ≤ tableLOS W R steps b ∧
      tableLOS W R steps b ≤ sight W b + 2 * W b * (√(R ^ 2 - b ^ 2) / steps)) ∧
    Filter.Tendsto (fun steps => tableLOS W R steps b) Filter.atTop (nhds (sight W b)) := by
  have h := fun steps (hs : 0 < steps) => table_bounds hR hW ha steps hs b h0 h1
  refine ⟨h, ?_⟩
  have hl : Filter.Tendsto (fun steps : ℕ => sight W b + 2 * W b * (√(R ^ 2 - b ^ 2) / steps)) Filter.atTop (nhds (sight W b)) := by
    have := ((tendsto_const_div_atTop_nhds_zero_nat (√(R ^ 2 - b ^ 2))).const_mul (2 * W b)).const_add (sight W b)
    simpa using this
  refine tendsto_of_tendsto_of_tendsto_of_le_of_le' tendsto_const_nhds hl ?_ ?_
  · filter_upwards [Filter.eventually_gt_atTop 0] with s hs using (h s hs).1
  · filter_upwards [Filter.eventually_gt_atTop 0] with s hs using (h s hs).2

/-- for the M4 kernel in three dimensions and the 4000 steps of the code -/
example (b : ℝ) (h0 : 0 ≤ b) (h1 : b < (m4Kernel 3).kernrange) :
    sight (m4Kernel 3).w0 b ≤ tableLOS (m4Kernel 3).w0 (m4Kernel 3).kernrange 4000 b := by
  have V := C30_m4_valid 3 (by norm_num)
  exact ((C82_sight V.range_pos V.support V.antitone b h0 h1).1 4000 (by norm_num)).1

end

end Gandalf
