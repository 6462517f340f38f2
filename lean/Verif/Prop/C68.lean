import Verif.Proof.CheckIc

/-! # C68: the check of the initial conditions -/

set_option autoImplicit false

namespace Gandalf

open CheckIc

/-! ### specification -/

/-- all numbers of the particle can be used: a mass that is neither zero nor denormal, and finite values -/
def ValidNumbers {n : ℕ} (p : Part n) : Prop :=
  (∃ q : ℚ, p.m = .fin q ∧ (1 / 2 ^ 1022 : ℚ) ≤ |q|) ∧ (∃ q, p.u = .fin q) ∧
    ∀ k, (∃ q, p.r k = .fin q) ∧ ∃ q, p.v k = .fin q

/-- the particle is beyond a side of the box that is closed by a periodic or mirror boundary -/
def BeyondClosed {n : ℕ} (box : Domain n ℚ) (p : Part n) : Prop :=
  ∃ k q, p.r k = .fin q ∧ ((q < box.min k ∧ (box.lhs k = .periodic ∨ box.lhs k = .mirror)) ∨
    (box.max k < q ∧ (box.rhs k = .periodic ∨ box.rhs k = .mirror)))

theorem C68_ok_iff {n : ℕ} (p : Part n) : okflag p = true ↔ ValidNumbers p := by
  have f : ∀ x : Fl, x.isfinite = true ↔ ∃ q, x = .fin q := by
    intro x; cases x <;> simp [Fl.isfinite]
  have g : ∀ x : Fl, x.isnormal = true ↔ ∃ q : ℚ, x = .fin q ∧ (1 / 2 ^ 1022 : ℚ) ≤ |q| := by
    intro x; cases x <;> simp only [Fl.isnormal] <;> simp
  unfold okflag ValidNumbers
  rw [Bool.and_eq_true, Bool.and_eq_true, List.all_eq_true, f, g, and_assoc]
  refine and_congr Iff.rfl (and_congr Iff.rfl ?_)
  constructor
  · intro h k
    have := h k (List.mem_finRange k)
    rw [Bool.and_eq_true, f, f] at this
    exact this
  · intro h k _
    rw [Bool.and_eq_true, f, f]
    exact h k

/-- **Acceptance.** The check passes if and only if all numbers of all particles are valid and the particles are
in the order of their types; an invalid number is reported as such, whatever the order. -/
theorem C68_accept {n : ℕ} (cutbox : Bool) (box : Domain n ℚ) (ps : List (Part n))
    (ht : ∀ p ∈ ps, 0 ≤ p.ptype) :
    ((∃ qs pr, check cutbox box ps = .ok qs pr) ↔
      (∀ p ∈ ps, ValidNumbers p) ∧ ps.Pairwise (fun p q => p.ptype ≤ q.ptype)) ∧
    (check cutbox box ps = .badNumber ↔ ¬ ∀ p ∈ ps, ValidNumbers p) := by
  have hn := particles_none cutbox box ps 0
  have hn' : particles cutbox box 0 ps = none ↔ ¬ ∀ p ∈ ps, ValidNumbers p := by
    rw [hn]
    push Not
    refine exists_congr fun p => and_congr Iff.rfl ?_
    rw [← C68_ok_iff, Bool.not_eq_true]
  unfold check
  cases hp : particles cutbox box 0 ps with
  | none =>
    have := hn'.1 hp
    simp only [reduceCtorEq, exists_const, false_iff, true_iff]
    exact ⟨fun h => this h.1, this⟩
  | some x =>
    obtain ⟨qs, pr⟩ := x
    have hv : ∀ p ∈ ps, ValidNumbers p := by
      by_contra hc
      rw [hn'.2 hc] at hp
      simp at hp
    obtain ⟨e, -⟩ := particles_some cutbox box ps 0 qs pr hp
    have ho : ordered (-1) qs = true ↔ ps.Pairwise (fun p q => p.ptype ≤ q.ptype) := by
      rw [ordered_iff, e, List.pairwise_map]
      simp only [mark_ptype]
      constructor
      · exact fun h => h.2
      · refine fun h => ⟨?_, h⟩
        intro p hq
        obtain ⟨q, hq', rfl⟩ := List.mem_map.1 hq
        rw [mark_ptype]
        have := ht q hq'
        omega
    constructor
    · constructor
      · rintro ⟨a, b, h⟩
        refine ⟨hv, ho.1 ?_⟩
        by_contra hc
        simp only [hc] at h
        simp at h
      · rintro ⟨-, h⟩
        exact ⟨qs, pr, by simp only [ho.2 h]; rfl⟩
    · constructor
      · intro h
        by_cases hc : ordered (-1) qs = true
        · simp only [hc] at h; simp at h
        · simp only [hc] at h; simp at h
      · intro h
        exact absurd hv h

/-- gas before dust passes, dust before gas does not -/
example : (∃ qs pr, check (n := 1) false ⟨fun _ => 0, fun _ => 1, fun _ => .periodic, fun _ => .periodic, fun _ => 1,
      fun _ => 1 / 2⟩ [⟨.fin 1, .fin 1, fun _ => .fin 0, fun _ => .fin 0, 0, false⟩,
        ⟨.fin 1, .fin 0, fun _ => .fin 1, fun _ => .fin 0, 3, false⟩] = .ok qs pr) ∧
    check (n := 1) false ⟨fun _ => 0, fun _ => 1, fun _ => .periodic, fun _ => .periodic, fun _ => 1,
      fun _ => 1 / 2⟩ [⟨.fin 1, .fin 1, fun _ => .fin 0, fun _ => .fin 0, 0, false⟩,
        ⟨.fin 1, .nan, fun _ => .fin 1, fun _ => .fin 0, 3, false⟩] = .badNumber := by
  have hb : (1 / 2 ^ 1022 : ℚ) ≤ |1| := by
    rw [abs_one, div_le_one (by positivity)]
    exact one_le_pow₀ (by norm_num)
  constructor
  · refine (C68_accept false _ _ ?_).1.2 ⟨?_, ?_⟩
    · simp
    · simp [ValidNumbers]
      norm_num at hb
      exact hb
    · simp
  · refine (C68_accept false _ _ ?_).2.2 ?_
    · simp
    · simp [ValidNumbers]

/-- the comparisons of the code with the sides of the box -/
theorem C68_outside_iff {n : ℕ} (box : Domain n ℚ) (p : Part n) (hv : ValidNumbers p) :
    outside box p = true ↔ ∃ k q, p.r k = .fin q ∧
      ((q < box.min k ∧ (box.lhs k = .periodic ∨ box.lhs k = .mirror)) ∨
        (box.max k < q ∧ (box.rhs k = .periodic ∨ box.lhs k = .mirror))) := by
  unfold outside
  rw [List.any_eq_true]
  constructor
  · rintro ⟨k, -, h⟩
    obtain ⟨q, hq⟩ := (hv.2.2 k).1
    refine ⟨k, q, hq, ?_⟩
    rw [Bool.or_eq_true] at h
    rcases h with h | h
    · left
      simp [outLhs, hq, Fl.lt] at h
      exact h
    · right
      simp [outRhs, hq, Fl.lt] at h
      exact h
  · rintro ⟨k, q, hq, h⟩
    refine ⟨k, List.mem_finRange k, ?_⟩
    rw [Bool.or_eq_true]
    rcases h with h | h
    · left; simp [outLhs, hq, Fl.lt]; exact h
    · right; simp [outRhs, hq, Fl.lt]; exact h

/-- **Cutting the box.** If mirrors come in pairs, accepted particles keep all their values, and with `cut_box`
exactly the particles beyond closed sides are marked dead (besides those already dead); without it none is, and
the numbers printed are exactly those of the particles beyond closed sides. (Single mirrors: `C68_mirror_fails`.) -/
theorem C68_cut_partial {n : ℕ} (cutbox : Bool) (box : Domain n ℚ) (ps qs : List (Part n)) (pr : List ℕ)
    (hm : ∀ k, box.lhs k = .mirror ↔ box.rhs k = .mirror) (h : check cutbox box ps = .ok qs pr) :
    qs.length = ps.length ∧
    (∀ (i : ℕ) (p : Part n), ps[i]? = some p → ∃ q, qs[i]? = some q ∧ q.m = p.m ∧ q.u = p.u ∧ q.r = p.r ∧
      q.v = p.v ∧ q.ptype = p.ptype ∧
      (q.dead = true ↔ p.dead = true ∨ (cutbox = true ∧ BeyondClosed box p))) ∧
    ∀ i, i ∈ pr ↔ cutbox = false ∧ ∃ p, ps[i]? = some p ∧ BeyondClosed box p := by
  unfold check at h
  cases hp : particles cutbox box 0 ps with
  | none => rw [hp] at h; simp at h
  | some x =>
    obtain ⟨qs', pr'⟩ := x
    rw [hp] at h
    by_cases hc : ordered (-1) qs' = true
    · simp only [hc, if_true, Outcome.ok.injEq] at h
      obtain ⟨rfl, rfl⟩ := h
      obtain ⟨e, e2⟩ := particles_some cutbox box ps 0 qs' pr' hp
      have hv : ∀ p ∈ ps, ValidNumbers p := by
        intro p hps
        rw [← C68_ok_iff]
        by_contra hcc
        have := (particles_none cutbox box ps 0).2 ⟨p, hps, by simpa using hcc⟩
        rw [this] at hp
        simp at hp
      have hb : ∀ p ∈ ps, (outside box p = true ↔ BeyondClosed box p) := by
        intro p hps
        rw [C68_outside_iff box p (hv p hps)]
        unfold BeyondClosed
        simp only [hm]
      refine ⟨by rw [e, List.length_map], ?_, ?_⟩
      · intro i p hi
        refine ⟨mark cutbox box p, by rw [e, List.getElem?_map, hi]; rfl, ?_⟩
        have := hb p (List.mem_of_getElem? hi)
        unfold mark
        by_cases ho : (outside box p && cutbox) = true
        · rw [if_pos ho]
          refine ⟨rfl, rfl, rfl, rfl, rfl, ?_⟩
          rw [Bool.and_eq_true, this] at ho
          exact ⟨fun _ => Or.inr ⟨ho.2, ho.1⟩, fun _ => rfl⟩
        · rw [if_neg ho]
          refine ⟨rfl, rfl, rfl, rfl, rfl, ?_⟩
          rw [Bool.and_eq_true, this] at ho
          exact ⟨Or.inl, fun h => h.resolve_right fun h => ho ⟨h.2, h.1⟩⟩
      · intro i
        rw [e2]
        constructor
        · rintro ⟨c, p, -, g, o⟩
          rw [Nat.sub_zero] at g
          exact ⟨c, p, g, (hb p (List.mem_of_getElem? g)).1 o⟩
        · rintro ⟨c, p, g, o⟩
          exact ⟨c, p, Nat.zero_le _, by simpa using g, (hb p (List.mem_of_getElem? g)).2 o⟩
    · simp only [hc] at h
      simp at h

/-- one gas particle of mass 1 at rest at `x`, in one dimension -/
def partAt (x : ℚ) : Part 1 := ⟨.fin 1, .fin 1, fun _ => .fin x, fun _ => .fin 0, 0, false⟩

/-- the interval from 0 to 1 -/
def unitBox (l r : Bnd) : Domain 1 ℚ := ⟨fun _ => 0, fun _ => 1, fun _ => l, fun _ => r, fun _ => 1, fun _ => 1 / 2⟩

theorem partAt_ok (x : ℚ) : okflag (partAt x) = true := by
  rw [C68_ok_iff]
  refine ⟨⟨1, rfl, ?_⟩, ⟨1, rfl⟩, fun k => ⟨⟨x, rfl⟩, ⟨0, rfl⟩⟩⟩
  rw [abs_one, div_le_one (by positivity)]
  exact one_le_pow₀ (by norm_num)

/-- the hypotheses of `C68_cut_partial` -/
example : check true (unitBox .periodic .periodic) [partAt (1 / 2), partAt 2] =
      .ok [partAt (1 / 2), { partAt 2 with dead := true }] [] ∧
    BeyondClosed (unitBox .periodic .periodic) (partAt 2) := by
  constructor
  · simp only [check, particles, partAt_ok]
    simp [outside, outLhs, outRhs, partAt, unitBox, Fl.lt, ordered, List.finRange_succ]
    norm_num
  · exact ⟨0, 2, rfl, Or.inr ⟨by simp [unitBox], Or.inl rfl⟩⟩

/-- The test of the upper side asks for a mirror on the lower side: with a mirror on the left and an open right
side `cut_box` kills particles that are nowhere closed off; with a mirror on the right and an open left side it
keeps particles behind the mirror. -/
theorem C68_mirror_fails :
    (check true (unitBox .mirror .open_) [partAt 2] = .ok [{ partAt 2 with dead := true }] [] ∧
      ¬ BeyondClosed (unitBox .mirror .open_) (partAt 2)) ∧
    (check true (unitBox .open_ .mirror) [partAt 2] = .ok [partAt 2] [] ∧
      BeyondClosed (unitBox .open_ .mirror) (partAt 2)) := by
  refine ⟨⟨?_, ?_⟩, ?_, ?_⟩
  · simp only [check, particles, partAt_ok]
    simp [outside, outLhs, outRhs, partAt, unitBox, Fl.lt, ordered, List.finRange_succ]
  · rintro ⟨k, q, hq, h⟩
    simp [partAt] at hq
    subst hq
    simp [unitBox] at h
    norm_num at h
  · simp only [check, particles, partAt_ok]
    simp [outside, outLhs, outRhs, partAt, unitBox, Fl.lt, ordered, List.finRange_succ]
  · exact ⟨0, 2, rfl, Or.inr ⟨by simp [unitBox], Or.inr rfl⟩⟩

/-- Without `cut_box` a particle outside of a periodic box, however far, is printed and accepted. -/
theorem C68_box_fails (x : ℚ) (hx : 1 < x) :
    check false (unitBox .periodic .periodic) [partAt x] = .ok [partAt x] [0] ∧
      BeyondClosed (unitBox .periodic .periodic) (partAt x) := by
  constructor
  · simp only [check, particles, partAt_ok]
    simp [outside, outLhs, outRhs, partAt, unitBox, Fl.lt, ordered, List.finRange_succ, hx]
  · exact ⟨0, x, rfl, Or.inr ⟨by simpa [unitBox] using hx, Or.inl rfl⟩⟩

end Gandalf
