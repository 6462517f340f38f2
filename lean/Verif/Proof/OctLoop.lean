import Verif.Proof.OctBuild

/-! The loop over the levels of the oct-tree. -/

set_option autoImplicit false
set_option linter.unusedSectionVars false

namespace Gandalf.Oct
open LeafList

variable {n : ℕ} {α : Type*} [Field α] [LinearOrder α] [IsStrictOrderedRing α]

/-- the state at the head of the loop, `cs` being the cells still to be divided -/
structure Head (r : ℕ → Vec n α) (ctr0 : Vec n α) (S : α) (Nleafmax Ncellmax : ℕ) (l : List ℕ) (s : State n α)
    (cs : List ℕ) (f : Forest) (lst : ℕ → List ℕ) : Prop where
  inv : Inv r ctr0 S Ncellmax s.Ncell l s f lst
  nodup : cs.Nodup
  todo : ∀ c ∈ cs, c ∈ f.leaves ∧ s.level c = s.ltot
  small : ∀ c ∈ f.leaves, c ∉ cs → (lst c).length ≤ Nleafmax
  last : s.lastCell s.ltot + 1 = s.Ncell
  lastlt : ∀ L ≤ s.ltot, s.lastCell L < s.Ncell
  lev : ∀ c < s.Ncell, s.level c ≤ s.ltot
  ranges : ∀ L ≤ s.ltot, ∀ c < s.Ncell, (s.firstCell L ≤ c ∧ c ≤ s.lastCell L ↔ s.level c = L)

/-- one turn of the loop -/
theorem turn {r : ℕ → Vec n α} {ctr0 : Vec n α} {S : α} {Nleafmax Ncellmax pfuel : ℕ} {l : List ℕ}
    (hl : l.length ≤ pfuel) {s : State n α} {cs : List ℕ} {f : Forest} {lst : ℕ → List ℕ}
    (h : Head r ctr0 S Nleafmax Ncellmax l s cs f lst) (hcs : cs ≠ [])
    (hmem : s.Ncell + 2 ^ n * cs.length ≤ Ncellmax) :
    ∃ s1 f' lst', divideAll r (S * (1 / 2) ^ (s.ltot + 1)) pfuel cs 0 s = some s1 ∧ s1.ltot = s.ltot ∧
      s1.Ncell = s.Ncell ∧
      Head r ctr0 S Nleafmax Ncellmax l (newLevel cs.length s1) (unfinished Nleafmax (newLevel cs.length s1)) f' lst' ∧
      PassOK r (S * (1 / 2) ^ (s.ltot + 1)) s.Ncell (s.Ncell + 2 ^ n * cs.length) cs s s1 f f' lst lst' := by
  have e0 : s.Ncell + (0 + cs.length) * 2 ^ n = s.Ncell + 2 ^ n * cs.length := by ring
  obtain ⟨s1, f', lst', hd, hI, hp⟩ := divideAll_inv (size := S * (1 / 2) ^ (s.ltot + 1)) hl cs 0 s f lst
    (by simpa using h.inv) h.nodup h.todo (by rw [e0]; exact hmem) rfl
  rw [e0] at hI hp
  rw [Nat.zero_mul, Nat.add_zero] at hp
  refine ⟨s1, f', lst', hd, hp.ltot, hp.Ncell, ?_, hp⟩
  have hN : (newLevel cs.length s1).Ncell = s.Ncell + 2 ^ n * cs.length := by simp [newLevel, hp.Ncell]
  have hpos : 0 < 2 ^ n * cs.length := Nat.mul_pos (Nat.two_pow_pos n) (List.length_pos_iff.mpr hcs)
  have hlt : (newLevel cs.length s1).ltot = s.ltot + 1 := by simp [newLevel, hp.ltot]
  have hfc : (newLevel cs.length s1).firstCell (s.ltot + 1) = s.Ncell := by
    simp [newLevel, hp.ltot, hp.lastCell, h.last]
  have hlc : (newLevel cs.length s1).lastCell (s.ltot + 1) = s.Ncell + 2 ^ n * cs.length - 1 := by
    simp [newLevel, hp.ltot, hp.Ncell]
  have hmemu : ∀ c, c ∈ unfinished Nleafmax (newLevel cs.length s1) ↔
      (s.Ncell ≤ c ∧ c < s.Ncell + 2 ^ n * cs.length) ∧ Nleafmax < s1.lists.N c := by
    intro c
    unfold unfinished
    rw [hlt, hfc, hlc, List.mem_filter, List.mem_range'_1, decide_eq_true_eq]
    have : s.Ncell + (s.Ncell + 2 ^ n * cs.length - 1 + 1 - s.Ncell) = s.Ncell + 2 ^ n * cs.length := by omega
    rw [this]
    rfl
  have hlev1 : ∀ d, (newLevel cs.length s1).level d = s1.level d := fun _ => rfl
  have hleaf : ∀ c, s.Ncell ≤ c → c < s.Ncell + 2 ^ n * cs.length → Nleafmax < s1.lists.N c → c ∈ f'.leaves := by
    intro c h1 h2 _
    exact hp.leafNew c h1 h2
  constructor
  · rw [hN]
    exact ⟨hI.linked, hI.root, hI.cells, hI.held, hI.perm, hI.fresh, hI.levels, hI.nodup, hI.cube⟩
  · exact (List.nodup_range' ..).filter _
  · intro c hc
    rw [hmemu] at hc
    refine ⟨hleaf c hc.1.1 hc.1.2 hc.2, ?_⟩
    rw [hlev1, hp.levelNew c hc.1.1 hc.1.2, hlt]
  · intro c hc hcu
    rw [hmemu] at hcu
    by_cases hcn : c < s.Ncell
    · obtain ⟨a1, a2⟩ := hp.old c hc hcn
      rw [(hp.keep c a1 a2).2.1]
      exact h.small c a1 a2
    · have hct := hI.lt ((Forest.leaves_sub f').subset hc)
      have hN2 := (hI.held c hc).N
      rw [← hN2]
      by_contra hgt
      exact hcu ⟨⟨by omega, hct⟩, by omega⟩
  · rw [hlt, hlc, hN]; omega
  · intro L hL
    rw [hlt] at hL
    rw [hN]
    by_cases hLe : L = s.ltot + 1
    · rw [hLe, hlc]; omega
    · have a2 : (newLevel cs.length s1).lastCell L = s.lastCell L := by
        simp only [newLevel, hp.ltot, hp.lastCell]
        exact Function.update_of_ne hLe _ _
      rw [a2]
      have := h.lastlt L (by omega)
      omega
  · intro c hc
    rw [hN] at hc
    rw [hlev1, hlt]
    by_cases hcn : c < s.Ncell
    · rw [hp.level c hcn]; have := h.lev c hcn; omega
    · rw [hp.levelNew c (by omega) hc]
  · intro L hL c hc
    rw [hN] at hc
    rw [hlt] at hL
    rw [hlev1]
    by_cases hLe : L = s.ltot + 1
    · subst hLe
      rw [hfc, hlc]
      by_cases hcn : c < s.Ncell
      · have := h.lev c hcn
        rw [hp.level c hcn]
        constructor
        · intro h'; omega
        · intro h'; omega
      · rw [hp.levelNew c (by omega) hc]
        constructor
        · intro _; rfl
        · intro _; omega
    · have a1 : (newLevel cs.length s1).firstCell L = s.firstCell L := by
        simp only [newLevel, hp.ltot, hp.firstCell]
        exact Function.update_of_ne hLe _ _
      have a2 : (newLevel cs.length s1).lastCell L = s.lastCell L := by
        simp only [newLevel, hp.ltot, hp.lastCell]
        exact Function.update_of_ne hLe _ _
      rw [a1, a2]
      by_cases hcn : c < s.Ncell
      · rw [hp.level c hcn]; exact h.ranges L (by omega) c hcn
      · rw [hp.levelNew c (by omega) hc]
        constructor
        · intro h'
          have := h.lastlt L (by omega)
          omega
        · intro h'; omega

end Gandalf.Oct

namespace Gandalf.Oct
open LeafList

variable {n : ℕ} {α : Type*} [Field α] [LinearOrder α] [IsStrictOrderedRing α]

theorem rootSize_nonneg (bbmin bbmax : Vec n α) : 0 ≤ rootSize bbmin bbmax := by
  unfold rootSize
  have : ∀ (l : List (Fin n)) (a : α), 0 ≤ a →
      0 ≤ l.foldl (fun a k => max a (bbmax k - 1 / 2 * (bbmin k + bbmax k))) a := by
    intro l
    induction l with
    | nil => intro a h; exact h
    | cons k l ih => intro a h; exact ih _ (le_max_of_le_left h)
  exact this _ _ le_rfl

theorem chained_range (f : ℕ → Option ℕ) : ∀ (N i0 : ℕ), (∀ i, i0 ≤ i → i + 1 < i0 + N → f i = some (i + 1)) →
    Chained f (List.range' i0 N) := by
  intro N
  induction N with
  | zero => intro i0 _; exact List.isChain_nil
  | succ N ih =>
    intro i0 h
    cases N with
    | zero => exact List.isChain_singleton _
    | succ N =>
      rw [List.range'_succ]
      have h' := ih (i0 + 1) fun i h1 h2 => h i (by omega) (by omega)
      rw [List.range'_succ] at h' ⊢
      exact List.isChain_cons_cons.mpr ⟨h i0 le_rfl (by omega), h'⟩

theorem start_head (r : ℕ → Vec n α) (i0 N Nleafmax Ncellmax : ℕ) (hN : 0 < N) (hM : 1 ≤ Ncellmax)
    (bbmin bbmax : Vec n α) (junk : State n α) :
    Head r (fun k => 1 / 2 * (bbmin k + bbmax k)) (rootSize bbmin bbmax) Nleafmax Ncellmax (List.range' i0 N)
      (start i0 N Ncellmax bbmin bbmax junk) [0] (.cons 0 .nil .nil) (fun _ => List.range' i0 N) := by
  constructor
  · constructor
    · refine ⟨?_, ?_, trivial, trivial⟩
      · simp only [State.links, start, Forest.entry]; rw [if_pos (by omega)]
      · simp only [State.links, start]; rw [if_pos (by omega)]
    · rfl
    · simp [Forest.cells, start, List.range_succ]
    · intro c hc
      simp only [Forest.leaves, List.mem_singleton] at hc
      subst hc
      constructor
      · obtain ⟨m, rfl⟩ : ∃ m, N = m + 1 := ⟨N - 1, by omega⟩
        simp [start, List.range'_succ]
      · obtain ⟨m, rfl⟩ : ∃ m, N = m + 1 := ⟨N - 1, by omega⟩
        simp [start, List.range'_1_concat]
      · simp [start]
      · refine chained_range _ N i0 fun i h1 h2 => ?_
        simp only [start]
        rw [if_pos ⟨h1, by omega⟩]
    · simp [Forest.leaves]
    · intro c h1 h2
      have h1' : 1 ≤ c := h1
      refine ⟨⟨?_, ?_, ?_, List.isChain_nil⟩, ?_⟩
      · simp only [start]; rw [Function.update_of_ne (by omega), if_pos h2]; rfl
      · simp only [start]; rw [Function.update_of_ne (by omega), if_pos h2]; rfl
      · simp only [start]; rw [Function.update_of_ne (by omega), if_pos h2]; rfl
      · simp only [start]; rw [if_pos h2]
    · exact ⟨by simp [start], trivial, trivial⟩
    · exact List.nodup_range'
    · intro hin c hc i hi k
      simp only [Forest.leaves, List.mem_singleton] at hc
      subst hc
      have := hin i hi k
      simpa [start] using this
  · simp
  · intro c hc
    simp only [List.mem_singleton] at hc
    subst hc
    exact ⟨by simp [Forest.leaves], by simp [start]⟩
  · intro c hc h
    simp only [Forest.leaves, List.mem_singleton] at hc
    exact absurd (by simp [hc]) h
  · simp [start]
  · intro L hL
    have : L = 0 := by simpa [start] using hL
    subst this
    simp [start]
  · intro c hc
    have : c = 0 := by simpa [start] using hc
    subst this
    simp [start]
  · intro L hL c hc
    have h1 : L = 0 := by simpa [start] using hL
    have h2 : c = 0 := by simpa [start] using hc
    subst h1 h2
    simp [start]

theorem Head.built {r : ℕ → Vec n α} {ctr0 : Vec n α} {S : α} {Nleafmax Ncellmax : ℕ} {l : List ℕ} {s : State n α}
    {f : Forest} {lst : ℕ → List ℕ} (h : Head r ctr0 S Nleafmax Ncellmax l s [] f lst) (hfit : s.Ncell ≤ Ncellmax) :
    Built Nleafmax Ncellmax l s f lst where
  linked := h.inv.linked
  root := h.inv.root
  cells := h.inv.cells
  fits := hfit
  lists := fun c hc => ⟨(h.inv.held c hc).ifirst, (h.inv.held c hc).ilast, (h.inv.held c hc).chain,
    (h.inv.held c hc).N, h.small c hc (by simp)⟩
  perm := h.inv.perm
  levels := h.inv.levels
  deepest := h.lev
  ranges := fun L hL c => by
    constructor
    · intro h'
      have := h.lastlt L hL
      exact ⟨by omega, (h.ranges L hL c (by omega)).mp h'⟩
    · intro h'
      exact (h.ranges L hL c h'.1).mpr h'.2

/-- the loop from a good state -/
theorem buildLoop_spec {r : ℕ → Vec n α} {ctr0 : Vec n α} {S : α} {Nleafmax Ncellmax lmax pfuel : ℕ} {l : List ℕ}
    (hl : l.length ≤ pfuel) : ∀ (fuel : ℕ) (s : State n α) (cs : List ℕ) (f : Forest) (lst : ℕ → List ℕ),
    Head r ctr0 S Nleafmax Ncellmax l s cs f lst → cs ≠ [] → s.ltot < lmax → lmax ≤ fuel + s.ltot →
    buildLoop r Nleafmax Ncellmax lmax pfuel fuel (S * (1 / 2) ^ s.ltot) cs s = .overflow ∨
    buildLoop r Nleafmax Ncellmax lmax pfuel fuel (S * (1 / 2) ^ s.ltot) cs s = .levels ∨
    ∃ s' f' lst', buildLoop r Nleafmax Ncellmax lmax pfuel fuel (S * (1 / 2) ^ s.ltot) cs s = .done s' ∧
      Head r ctr0 S Nleafmax Ncellmax l s' [] f' lst' ∧ s'.Ncell ≤ Ncellmax ∧ s'.ltot < lmax := by
  intro fuel
  induction fuel with
  | zero => intro s cs f lst _ _ h1 h2; omega
  | succ fuel ih =>
    intro s cs f lst h hcs h1 h2
    by_cases hmem : s.Ncell + 2 ^ n * cs.length > Ncellmax
    · left; rw [buildLoop, if_pos hmem]
    · obtain ⟨s1, f', lst', hd, hlt, hNc, hH, hp⟩ := turn hl h hcs (not_lt.mp hmem)
      have esz : 1 / 2 * (S * (1 / 2) ^ s.ltot) = S * (1 / 2) ^ (s.ltot + 1) := by rw [pow_succ]; ring
      rw [buildLoop, if_neg hmem, esz, hd]
      simp only []
      by_cases hlv : s1.ltot + 1 ≥ lmax
      · right; left; rw [if_pos hlv]
      · rw [if_neg hlv]
        have hlt2 : (newLevel cs.length s1).ltot = s.ltot + 1 := by simp [newLevel, hlt]
        cases hu : unfinished Nleafmax (newLevel cs.length s1) with
        | nil =>
          right; right
          rw [hu] at hH
          refine ⟨_, f', lst', rfl, hH, ?_, ?_⟩
          · simp only [newLevel, hNc]; omega
          · rw [hlt2]; omega
        | cons c cs' =>
          rw [hu] at hH
          have := ih (newLevel cs.length s1) (c :: cs') f' lst' hH (by simp) (by rw [hlt2]; omega)
            (by rw [hlt2]; omega)
          rw [hlt2] at this
          exact this

theorem build_spec (r : ℕ → Vec n α) (i0 N Nleafmax Ncellmax lmax : ℕ) (hN : 0 < N) (hM : 1 ≤ Ncellmax)
    (hlm : 1 ≤ lmax) (bbmin bbmax : Vec n α) (junk : State n α) :
    build r i0 N Nleafmax Ncellmax lmax bbmin bbmax junk = .overflow ∨
    build r i0 N Nleafmax Ncellmax lmax bbmin bbmax junk = .levels ∨
    ∃ s f lst, build r i0 N Nleafmax Ncellmax lmax bbmin bbmax junk = .done s ∧
      Head r (fun k => 1 / 2 * (bbmin k + bbmax k)) (rootSize bbmin bbmax) Nleafmax Ncellmax (List.range' i0 N) s
        [] f lst ∧ s.Ncell ≤ Ncellmax ∧ s.ltot < lmax := by
  have := buildLoop_spec (pfuel := N) (lmax := lmax) (by simp) lmax _ _ _ _
    (start_head r i0 N Nleafmax Ncellmax hN hM bbmin bbmax junk) (by simp) (by simp [start]; omega)
    (by simp [start])
  have e : rootSize bbmin bbmax * (1 / 2) ^ (start i0 N Ncellmax bbmin bbmax junk).ltot = rootSize bbmin bbmax := by
    simp [start]
  rw [e] at this
  exact this

end Gandalf.Oct

namespace Gandalf.Oct
open LeafList

variable {n : ℕ} {α : Type*} [Field α] [LinearOrder α] [IsStrictOrderedRing α]

/-- Particles that fall into the same child at every level are never separated. -/
theorem buildLoop_crowd {r : ℕ → Vec n α} {ctr0 : Vec n α} {S : α} {Nleafmax Ncellmax lmax pfuel : ℕ} {l : List ℕ}
    (hl : l.length ≤ pfuel) (X : List ℕ) (hXn : X.Nodup) (hX : Nleafmax < X.length) (ctr : ℕ → Vec n α)
    (kd : ℕ → ℕ) (hkd : ∀ L, L + 1 < lmax → ∀ i ∈ X, octant (r i) (ctr L) = kd L)
    (hctr : ∀ L, ctr (L + 1) = childCentre (ctr L) (S * (1 / 2) ^ (L + 1)) (kd L)) (hk : ∀ L, kd L < 2 ^ n) :
    ∀ (fuel : ℕ) (s : State n α) (cs : List ℕ) (f : Forest) (lst : ℕ → List ℕ) (size : α),
    size = S * (1 / 2) ^ s.ltot →
    Head r ctr0 S Nleafmax Ncellmax l s cs f lst → (∃ c ∈ cs, s.rcentre c = ctr s.ltot ∧ X ⊆ lst c) →
    ∀ s', buildLoop r Nleafmax Ncellmax lmax pfuel fuel size cs s ≠ .done s' := by
  intro fuel
  induction fuel with
  | zero => intro s cs f lst size _ _ _ s'; rw [buildLoop]; simp
  | succ fuel ih =>
    intro s cs f lst size hsz h hc s'
    obtain ⟨c, hc, hr, hsub⟩ := hc
    have hcs : cs ≠ [] := List.ne_nil_of_mem hc
    by_cases hmem : s.Ncell + 2 ^ n * cs.length > Ncellmax
    · rw [buildLoop, if_pos hmem]; simp
    · obtain ⟨s1, f', lst', hd, hlt, hNc, hH, hp⟩ := turn hl h hcs (not_lt.mp hmem)
      have esz : 1 / 2 * size = S * (1 / 2) ^ (s.ltot + 1) := by rw [hsz, pow_succ]; ring
      rw [buildLoop, if_neg hmem, esz, hd]
      simp only []
      by_cases hlv : s1.ltot + 1 ≥ lmax
      · rw [if_pos hlv]; simp
      · rw [if_neg hlv]
        have hlt2 : (newLevel cs.length s1).ltot = s.ltot + 1 := by simp [newLevel, hlt]
        obtain ⟨d, hdl, _, _, hld, hcd⟩ := hp.kids c hc (kd s.ltot) (hk _)
        have hsub' : X ⊆ lst' d := by
          intro i hi
          rw [hld, List.mem_filter, decide_eq_true_eq, hr]
          exact ⟨hsub hi, hkd s.ltot (by omega) i hi⟩
        have hdu : d ∈ unfinished Nleafmax (newLevel cs.length s1) := by
          by_contra hno
          have h1 := hH.small d hdl hno
          have h2 := (List.subperm_of_subset hXn hsub').length_le
          omega
        cases hu : unfinished Nleafmax (newLevel cs.length s1) with
        | nil => rw [hu] at hdu; simp at hdu
        | cons c' cs' =>
          rw [hu] at hH hdu
          refine ih (newLevel cs.length s1) (c' :: cs') f' lst' _ (by rw [hlt2]) hH ⟨d, hdu, ?_, hsub'⟩ s'
          rw [hlt2, hctr, ← hr]
          exact hcd

theorem build_crowd (r : ℕ → Vec n α) (i0 N Nleafmax Ncellmax lmax : ℕ) (hN : 0 < N) (hM : 1 ≤ Ncellmax)
    (bbmin bbmax : Vec n α) (junk : State n α) (X : List ℕ) (hXn : X.Nodup) (hXs : X ⊆ List.range' i0 N)
    (hX : Nleafmax < X.length) (ctr : ℕ → Vec n α) (kd : ℕ → ℕ)
    (hkd : ∀ L, L + 1 < lmax → ∀ i ∈ X, octant (r i) (ctr L) = kd L)
    (h0 : ctr 0 = fun k => 1 / 2 * (bbmin k + bbmax k))
    (hctr : ∀ L, ctr (L + 1) = childCentre (ctr L) (rootSize bbmin bbmax * (1 / 2) ^ (L + 1)) (kd L))
    (hk : ∀ L, kd L < 2 ^ n) (s : State n α) :
    build r i0 N Nleafmax Ncellmax lmax bbmin bbmax junk ≠ .done s := by
  refine buildLoop_crowd (by simp) X hXn hX ctr kd hkd hctr hk lmax _ _ _ _ _ (by simp [start])
    (start_head r i0 N Nleafmax Ncellmax hN hM bbmin bbmax junk) ⟨0, by simp, ?_, hXs⟩ s
  simp [start, h0]

theorem unfinished_count {r : ℕ → Vec n α} {ctr0 : Vec n α} {S : α} {Nleafmax Ncellmax : ℕ} {l : List ℕ}
    {s : State n α} {cs : List ℕ} {f : Forest} {lst : ℕ → List ℕ}
    (h : Head r ctr0 S Nleafmax Ncellmax l s cs f lst) (hbig : ∀ c ∈ cs, Nleafmax < (lst c).length) :
    cs.length ≤ l.length / (Nleafmax + 1) := by
  rw [Nat.le_div_iff_mul_le (by omega)]
  have h1 : (f.leaves.map fun c => (lst c).length).sum = l.length := by
    rw [← h.inv.perm.length_eq, List.length_flatMap]
  obtain ⟨cs', hp, hs⟩ := List.subperm_of_subset h.nodup (fun c hc => (h.todo c hc).1)
  have h2 : (cs'.map fun c => (lst c).length).sum ≤ l.length := by
    rw [← h1]
    exact (hs.map _).sum_le_sum (fun _ _ => Nat.zero_le _)
  have h3 : (cs.map fun c => (lst c).length).sum = (cs'.map fun c => (lst c).length).sum := ((hp.map _).sum_eq).symm
  have h4 : (cs.map fun c => (lst c).length).length • (Nleafmax + 1) ≤ (cs.map fun c => (lst c).length).sum := by
    refine List.card_nsmul_le_sum _ _ fun x hx => ?_
    obtain ⟨c, hc, rfl⟩ := List.mem_map.mp hx
    exact hbig c hc
  rw [List.length_map, smul_eq_mul] at h4
  omega

/-- Enough cells and no crowd smaller than the cells of the last level: the build ends. -/
theorem buildLoop_done {r : ℕ → Vec n α} {ctr0 : Vec n α} {S : α} {Nleafmax Ncellmax lmax pfuel : ℕ} {l : List ℕ}
    (hl : l.length ≤ pfuel) (hin : ∀ i ∈ l, ∀ k, |r i k - ctr0 k| ≤ S)
    (hcrowd : ∀ x : Vec n α,
      (l.filter fun i => decide (∀ k, |r i k - x k| ≤ S * (1 / 2) ^ (lmax - 1))).length ≤ Nleafmax) :
    ∀ (fuel : ℕ) (s : State n α) (cs : List ℕ) (f : Forest) (lst : ℕ → List ℕ) (size : α),
    size = S * (1 / 2) ^ s.ltot →
    Head r ctr0 S Nleafmax Ncellmax l s cs f lst → cs ≠ [] → s.ltot + 2 ≤ lmax → lmax ≤ fuel + s.ltot →
    s.Ncell + 2 ^ n * (cs.length + (lmax - 2 - s.ltot) * (l.length / (Nleafmax + 1))) ≤ Ncellmax →
    ∃ s', buildLoop r Nleafmax Ncellmax lmax pfuel fuel size cs s = .done s' := by
  intro fuel
  induction fuel with
  | zero => intro s cs f lst size _ _ _ h1 h2; omega
  | succ fuel ih =>
    intro s cs f lst size hsz h hcs h1 h2 hM
    rw [Nat.mul_add] at hM
    have hmem : ¬ s.Ncell + 2 ^ n * cs.length > Ncellmax := by omega
    obtain ⟨s1, f', lst', hd, hlt, hNc, hH, hp⟩ := turn hl h hcs (not_lt.mp hmem)
    have esz : 1 / 2 * size = S * (1 / 2) ^ (s.ltot + 1) := by rw [hsz, pow_succ]; ring
    rw [buildLoop, if_neg hmem, esz, hd]
    simp only []
    rw [if_neg (by omega)]
    have hlt2 : (newLevel cs.length s1).ltot = s.ltot + 1 := by simp [newLevel, hlt]
    have hbig : ∀ c ∈ unfinished Nleafmax (newLevel cs.length s1), Nleafmax < (lst' c).length := by
      intro c hc
      have hN := (hH.inv.held c (hH.todo c hc).1).N
      unfold unfinished at hc
      rw [List.mem_filter, decide_eq_true_eq] at hc
      rw [← hN]
      exact hc.2
    cases hu : unfinished Nleafmax (newLevel cs.length s1) with
    | nil => exact ⟨_, rfl⟩
    | cons c' cs' =>
      rw [hu] at hH hbig
      by_cases hend : s.ltot + 2 = lmax
      · exfalso
        have hb := hbig c' (by simp)
        obtain ⟨hcl, hcv⟩ := hH.todo c' (by simp)
        have hcube := hH.inv.cube hin c' hcl
        rw [hcv, hlt2, show s.ltot + 1 = lmax - 1 by omega] at hcube
        have hnd : (lst' c').Nodup := by
          obtain ⟨a, b, e⟩ := mem_split lst' hcl
          have := hH.inv.perm.nodup_iff.mpr hH.inv.nodup
          rw [e] at this
          exact (List.nodup_append.mp (List.nodup_append.mp this).1).2.1
        have hsub : lst' c' ⊆ l.filter fun i =>
            decide (∀ k, |r i k - (newLevel cs.length s1).rcentre c' k| ≤ S * (1 / 2) ^ (lmax - 1)) := by
          intro i hi
          rw [List.mem_filter, decide_eq_true_eq]
          exact ⟨hH.inv.sub hcl hi, hcube i hi⟩
        have := (List.subperm_of_subset hnd hsub).length_le
        have := hcrowd ((newLevel cs.length s1).rcentre c')
        omega
      · have hcnt := unfinished_count hH hbig
        refine ih (newLevel cs.length s1) (c' :: cs') f' lst' _ (by rw [hlt2]) hH (by simp) (by rw [hlt2]; omega)
          (by rw [hlt2]; omega) ?_
        have eN : (newLevel cs.length s1).Ncell = s.Ncell + 2 ^ n * cs.length := by simp [newLevel, hNc]
        rw [eN, hlt2]
        obtain ⟨m, hm⟩ : ∃ m, lmax - 2 - s.ltot = m + 1 := ⟨lmax - 2 - s.ltot - 1, by omega⟩
        rw [hm] at hM
        rw [show lmax - 2 - (s.ltot + 1) = m by omega]
        refine le_trans ?_ hM
        rw [Nat.add_assoc]
        refine Nat.add_le_add_left (Nat.add_le_add_left (Nat.mul_le_mul_left _ ?_) _) _
        rw [Nat.add_mul, Nat.one_mul]
        omega

end Gandalf.Oct
