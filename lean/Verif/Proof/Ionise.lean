import Verif.Spec.Ionise
import Mathlib.Tactic

set_option autoImplicit false
set_option linter.unusedSectionVars false

namespace Gandalf.Ion
open IonSpec

variable {α : Type} [Field α] [LinearOrder α] {G : Net α}

namespace Net

theorem set2_same {β : Type} (a : ℕ → ℕ → β) (i p : ℕ) (x : β) : set2 a i p x i p = x := by simp [set2]

theorem set2_ne {β : Type} (a : ℕ → ℕ → β) {i p j q : ℕ} (x : β) (h : ¬(j = i ∧ q = p)) : set2 a i p x j q = a j q := by
  unfold set2
  by_cases hj : j = i
  · subst hj
    have hq : q ≠ p := fun hq => h ⟨rfl, hq⟩
    simp [hq]
  · simp [hj]

/-- what one evaluation in a pass from `s0` has left in `s` -/
structure Eval (G : Net α) (s0 s : St α) (j p : ℕ) : Prop where
  flag : s.ionised j p = decide (0 < G.ndot p - s.photons j p)
  src : G.sink j = true → s.photons j p = 0
  dum : G.sink j = false → G.neigh j p = G.N → s.photons j p = G.ndot p
  gas : G.sink j = false → G.neigh j p ≠ G.N → s.checked (G.neigh j p) p = true ∧
    ∃ F : ℕ → α, (∀ k, k < G.nos → F k = G.flux s0 j k ∨ (s.checked (G.neigh j k) k = true ∧ F k = G.flux s j k)) ∧
      s.photons j p = G.coef j p * G.share F p + s.photons (G.neigh j p) p

/-- `t` has what was evaluated in `s` -/
def Keep (s t : St α) : Prop :=
  ∀ j p, s.checked j p = true → t.checked j p = true ∧ t.photons j p = s.photons j p ∧ t.ionised j p = s.ionised j p

theorem Keep.refl (s : St α) : Keep s s := fun _ _ h => ⟨h, rfl, rfl⟩

theorem Keep.trans {s t u : St α} (h : Keep s t) (h' : Keep t u) : Keep s u := fun j p hj => by
  obtain ⟨a, b, c⟩ := h j p hj
  obtain ⟨a', b', c'⟩ := h' j p a
  exact ⟨a', b'.trans b, c'.trans c⟩

theorem Keep.flux {s t : St α} (h : Keep s t) {j k : ℕ} (hc : s.checked (G.neigh j k) k = true) : G.flux t j k = G.flux s j k := by
  obtain ⟨_, b, c⟩ := h _ _ hc
  unfold Net.flux
  rw [b, c]

theorem Eval.mono {s0 s t : St α} {j p : ℕ} (e : Eval G s0 s j p) (hc : s.checked j p = true) (h : Keep s t) : Eval G s0 t j p := by
  obtain ⟨_, b, c⟩ := h j p hc
  refine ⟨by rw [b, c, e.flag], fun h1 => by rw [b, e.src h1], fun h1 h2 => by rw [b, e.dum h1 h2], fun h1 h2 => ?_⟩
  obtain ⟨hq, F, hF, hv⟩ := e.gas h1 h2
  refine ⟨(h _ _ hq).1, F, fun k hk => ?_, by rw [b, hv, (h _ _ hq).2.1]⟩
  rcases hF k hk with h3 | ⟨h3, h4⟩
  · exact Or.inl h3
  · exact Or.inr ⟨(h _ _ h3).1, by rw [h.flux h3, h4]⟩

/-- the state inside of a pass from `s0` -/
structure Inv (G : Net α) (s0 s : St α) : Prop where
  old : ∀ j p, s.checked j p = false → s.photons j p = s0.photons j p ∧ s.ionised j p = s0.ionised j p
  ev : ∀ j p, s.checked j p = true → Eval G s0 s j p
  same : s.change = 0 → ∀ j p, s.checked j p = true → s.ionised j p = s0.ionised j p
  diff : s.change ≠ 0 → ∃ j p, s.checked j p = true ∧ s.ionised j p ≠ s0.ionised j p
  rng : ∀ j p, s.checked j p = true → (1 ≤ j ∧ j < G.N) ∧ p < G.nos

/-- links go down in rank and not to particle 0 -/
structure Ranked (G : Net α) (rk : ℕ → ℕ → ℕ) : Prop where
  down : ∀ i p, i < G.n → p < G.nos → G.neigh i p ≠ G.N → rk p (G.neigh i p) < rk p i
  first : ∀ i p, i < G.n → p < G.nos → G.neigh i p ≠ G.N → 1 ≤ G.neigh i p ∧ G.neigh i p < G.N

theorem gas_lt {i : ℕ} (h : i < G.N) (hs : G.sink i = false) : i < G.n := by
  simp only [sink, Bool.and_eq_false_iff, decide_eq_false_iff_not] at hs
  omega

theorem sink_iff (i : ℕ) : G.sink i = true ↔ G.n ≤ i ∧ i < G.n + G.nos := by
  rw [sink, Bool.and_eq_true, decide_eq_true_eq, decide_eq_true_eq]
  rfl

theorem Inv.probs {s0 s : St α} (h : Inv G s0 s) (i : ℕ) : Inv G s0 (G.probs s i) := by
  obtain ⟨a, b, c, d, e⟩ := h
  refine ⟨a, ?_, c, d, e⟩
  intro j p hj
  obtain ⟨e1, e2, e3, e4⟩ := b j p hj
  exact ⟨e1, e2, e3, e4⟩

theorem Inv.finish {s0 s : St α} (h : Inv G s0 s) {p i : ℕ} {a : α} (hi : 1 ≤ i ∧ i < G.N) (hp : p < G.nos)
    (hc : s.checked i p = false) (h1 : G.sink i = true → a = 0) (h2 : G.sink i = false → G.neigh i p = G.N → a = G.ndot p)
    (h3 : G.sink i = false → G.neigh i p ≠ G.N → s.checked (G.neigh i p) p = true ∧
      ∃ F : ℕ → α, (∀ k, k < G.nos → F k = G.flux s0 i k ∨ (s.checked (G.neigh i k) k = true ∧ F k = G.flux s i k)) ∧
      a = G.coef i p * G.share F p + s.photons (G.neigh i p) p) :
    Inv G s0 (G.finish s p i a) ∧ Keep s (G.finish s p i a) ∧ (G.finish s p i a).checked i p = true ∧
      (∀ j q, (G.finish s p i a).checked j q = true → s.checked j q = true ∨ (j = i ∧ q = p)) := by
  have hk : Keep s (G.finish s p i a) := by
    intro j q hj
    have hne : ¬(j = i ∧ q = p) := by
      rintro ⟨rfl, rfl⟩
      rw [hc] at hj
      cases hj
    simp only [Net.finish]
    rw [set2_ne _ _ hne, set2_ne _ _ hne, set2_ne _ _ hne]
    exact ⟨hj, rfl, rfl⟩
  have hself : (G.finish s p i a).checked i p = true := by simp [Net.finish, set2_same]
  have hback : ∀ j q, (G.finish s p i a).checked j q = true → s.checked j q = true ∨ (j = i ∧ q = p) := by
    intro j q hj
    by_cases hne : j = i ∧ q = p
    · exact Or.inr hne
    · simp only [Net.finish] at hj
      rw [set2_ne _ _ hne] at hj
      exact Or.inl hj
  have ef : (G.finish s p i a).ionised i p = decide (0 < G.ndot p - a) := by simp [Net.finish, set2_same]
  have ep : (G.finish s p i a).photons i p = a := by simp [Net.finish, set2_same]
  have eo := (h.old i p hc).2
  refine ⟨⟨?_, ?_, ?_, ?_, ?_⟩, hk, hself, hback⟩
  · intro j q hj
    have hne : ¬(j = i ∧ q = p) := by
      rintro ⟨rfl, rfl⟩
      rw [hself] at hj
      cases hj
    simp only [Net.finish] at hj ⊢
    rw [set2_ne _ _ hne] at hj
    rw [set2_ne _ _ hne, set2_ne _ _ hne]
    exact h.old j q hj
  · intro j q hj
    rcases hback j q hj with hj' | ⟨rfl, rfl⟩
    · exact (h.ev j q hj').mono hj' hk
    · refine ⟨by rw [ef, ep], fun h => by rw [ep, h1 h], fun h h' => by rw [ep, h2 h h'], fun hs hn => ?_⟩
      obtain ⟨hq, F, hF, hv⟩ := h3 hs hn
      refine ⟨(hk _ _ hq).1, F, fun k hk' => ?_, by rw [ep, (hk _ _ hq).2.1, hv]⟩
      rcases hF k hk' with h4 | ⟨h4, h5⟩
      · exact Or.inl h4
      · exact Or.inr ⟨(hk _ _ h4).1, by rw [hk.flux h4, h5]⟩
  · intro h0 j q hj
    have hch : (G.finish s p i a).change = if s.ionised i p = decide (0 < G.ndot p - a) then s.change else s.change + 1 := rfl
    rw [hch] at h0
    by_cases he : s.ionised i p = decide (0 < G.ndot p - a)
    · rw [if_pos he] at h0
      rcases hback j q hj with hj' | ⟨rfl, rfl⟩
      · rw [(hk _ _ hj').2.2]
        exact h.same h0 j q hj'
      · rw [ef, ← he, eo]
    · rw [if_neg he] at h0
      omega
  · intro h0
    have hch : (G.finish s p i a).change = if s.ionised i p = decide (0 < G.ndot p - a) then s.change else s.change + 1 := rfl
    rw [hch] at h0
    by_cases he : s.ionised i p = decide (0 < G.ndot p - a)
    · rw [if_pos he] at h0
      obtain ⟨j, q, hj, hd⟩ := h.diff h0
      exact ⟨j, q, (hk _ _ hj).1, by rw [(hk _ _ hj).2.2]; exact hd⟩
    · refine ⟨i, p, hself, ?_⟩
      rw [ef, ← eo]
      exact fun h => he h.symm
  · intro j q hj
    rcases hback j q hj with hj' | ⟨rfl, rfl⟩
    · exact h.rng j q hj'
    · exact ⟨hi, hp⟩

theorem lost_spec {rk : ℕ → ℕ → ℕ} (R : Ranked G rk) {s0 : St α} (f : ℕ) : ∀ (s t : St α) (p i : ℕ), Inv G s0 s → 1 ≤ i ∧ i < G.N →
    p < G.nos → G.lost f s p i = some t →
    Inv G s0 t ∧ Keep s t ∧ t.checked i p = true ∧
      (∀ j q, t.checked j q = true → s.checked j q = true ∨ (q = p ∧ rk p j ≤ rk p i)) ∧ t.fion = s.fion := by
  induction f with
  | zero => intro s t p i _ _ _ h; cases h
  | succ f ih =>
    intro s t p i I hi hp h
    rw [lost] at h
    by_cases hc : s.checked i p = true
    · rw [if_pos hc] at h
      cases h
      exact ⟨I, Keep.refl _, hc, fun j q h => Or.inl h, rfl⟩
    rw [if_neg hc] at h
    have hcf : s.checked i p = false := by simpa using hc
    by_cases hs : G.sink i = true
    · rw [if_pos hs] at h
      cases h
      obtain ⟨a, b, c, d⟩ := I.finish (a := 0) hi hp hcf (fun _ => rfl) (fun h => by rw [hs] at h; cases h) (fun h => by rw [hs] at h; cases h)
      exact ⟨a, b, c, fun j q h => (d j q h).imp_right fun ⟨h1, h2⟩ => ⟨h2, by rw [h1]⟩, rfl⟩
    rw [if_neg hs] at h
    have hsf : G.sink i = false := by simpa using hs
    by_cases hn : G.neigh i p = G.N
    · rw [if_pos hn] at h
      cases h
      obtain ⟨a, b, c, d⟩ := (I.probs i).finish (a := G.ndot p) hi hp hcf (fun h => by rw [hsf] at h; cases h) (fun _ _ => rfl)
        (fun _ h => absurd hn h)
      exact ⟨a, b, c, fun j q h => (d j q h).imp_right fun ⟨h1, h2⟩ => ⟨h2, by rw [h1]⟩, rfl⟩
    rw [if_neg hn] at h
    have hin := gas_lt hi.2 hsf
    cases hl : G.lost f (G.probs s i) p (G.neigh i p) with
    | none => rw [hl] at h; cases h
    | some u =>
      rw [hl] at h
      simp only [Option.some.injEq] at h
      obtain ⟨Iu, Ku, cu, bu, fu⟩ := ih _ _ _ _ (I.probs i) (R.first i p hin hp hn) hp hl
      have hcu : u.checked i p = false := by
        by_contra hcu
        rcases bu i p (by simpa using hcu) with h1 | ⟨_, h1⟩
        · exact hc h1
        · have := R.down i p hin hp hn
          omega
      obtain ⟨a, b, c, d⟩ := Iu.finish (a := G.coef i p * (G.probs s i).prob i p + u.photons (G.neigh i p) p) hi hp hcu
        (fun h => by rw [hsf] at h; cases h) (fun _ h => absurd h hn) (fun _ _ => ⟨cu, G.flux s i, fun k hk => by
            by_cases hck : s.checked (G.neigh i k) k = true
            · exact Or.inr ⟨(Ku _ _ hck).1, ((Keep.flux (G := G) Ku hck)).symm⟩
            · left
              have := I.old _ _ (by simpa using hck)
              unfold flux
              rw [this.1, this.2], by
            have : (G.probs s i).prob i p = G.share (G.flux s i) p := by simp [probs, hp]
            rw [this]⟩)
      rw [← h]
      refine ⟨a, Keep.trans Ku b, c, ?_, fu⟩
      intro j q hj
      rcases d j q hj with h1 | ⟨h1, h2⟩
      · rcases bu j q h1 with h3 | ⟨h3, h4⟩
        · exact Or.inl h3
        · have := R.down i p hin hp hn
          exact Or.inr ⟨h3, by omega⟩
      · exact Or.inr ⟨h2, by rw [h1]⟩

theorem lost_some {rk : ℕ → ℕ → ℕ} (R : Ranked G rk) (f : ℕ) : ∀ (s : St α) (p i : ℕ), i < G.N → p < G.nos → rk p i < f →
    ∃ t, G.lost f s p i = some t := by
  induction f with
  | zero => intro s p i _ _ h; omega
  | succ f ih =>
    intro s p i hi hp h
    rw [lost]
    by_cases hc : s.checked i p = true
    · exact ⟨_, by rw [if_pos hc]⟩
    rw [if_neg hc]
    by_cases hs : G.sink i = true
    · exact ⟨_, by rw [if_pos hs]⟩
    rw [if_neg hs]
    by_cases hn : G.neigh i p = G.N
    · exact ⟨_, by rw [if_pos hn]⟩
    rw [if_neg hn]
    have hin := gas_lt hi (by simpa using hs)
    have := R.down i p hin hp hn
    obtain ⟨t, ht⟩ := ih (G.probs s i) p (G.neigh i p) (R.first i p hin hp hn).2 hp (by omega)
    exact ⟨_, by rw [ht]⟩

theorem overSources_spec {rk : ℕ → ℕ → ℕ} (R : Ranked G rk) {s0 : St α} (f i : ℕ) (hi : 1 ≤ i ∧ i < G.N) (ps : List ℕ) :
    ∀ (s t : St α), Inv G s0 s → (∀ p ∈ ps, p < G.nos) → G.overSources f i ps s = some t →
    Inv G s0 t ∧ Keep s t ∧ (∀ p ∈ ps, t.checked i p = true) ∧ t.fion = s.fion := by
  induction ps with
  | nil => intro s t I _ h; cases h; exact ⟨I, Keep.refl _, by simp, rfl⟩
  | cons p ps ih =>
    intro s t I hp h
    rw [overSources] at h
    obtain ⟨u, hu, ht⟩ := Option.bind_eq_some_iff.1 h
    obtain ⟨a, b, c, _, e⟩ := lost_spec R f s u p i I hi (hp p List.mem_cons_self) hu
    obtain ⟨a', b', c', e'⟩ := ih u t a (fun q hq => hp q (List.mem_cons_of_mem _ hq)) ht
    refine ⟨a', b.trans b', ?_, e'.trans e⟩
    intro q hq
    rcases List.mem_cons.1 hq with rfl | hq
    · exact (b' _ _ c).1
    · exact c' q hq

theorem overSources_some {rk : ℕ → ℕ → ℕ} (R : Ranked G rk) (f i : ℕ) (hi : i < G.N) (hf : ∀ p i, p < G.nos → i < G.N → rk p i < f) (ps : List ℕ) :
    ∀ (s : St α), (∀ p ∈ ps, p < G.nos) → ∃ t, G.overSources f i ps s = some t := by
  induction ps with
  | nil => intro s _; exact ⟨s, rfl⟩
  | cons p ps ih =>
    intro s hp
    have hp0 := hp p List.mem_cons_self
    obtain ⟨u, hu⟩ := lost_some R f s p i hi hp0 (hf p i hp0 hi)
    obtain ⟨t, ht⟩ := ih u fun q hq => hp q (List.mem_cons_of_mem _ hq)
    exact ⟨t, by rw [overSources, hu]; exact ht⟩

theorem Inv.fion {s0 s : St α} (h : Inv G s0 s) (g : ℕ → Bool) : Inv G s0 { s with
    fion := g } := by
  obtain ⟨a, b, c, d, e⟩ := h
  refine ⟨a, ?_, c, d, e⟩
  intro j p hj
  obtain ⟨e1, e2, e3, e4⟩ := b j p hj
  exact ⟨e1, e2, e3, e4⟩

theorem overParticles_spec {rk : ℕ → ℕ → ℕ} (R : Ranked G rk) {s0 : St α} (f : ℕ) (is : List ℕ) :
    ∀ (s t : St α), Inv G s0 s → (∀ i ∈ is, 1 ≤ i ∧ i < G.N) → G.overParticles f is s = some t →
    Inv G s0 t ∧ Keep s t ∧ (∀ i ∈ is, (∀ p, p < G.nos → t.checked i p = true) ∧ (t.fion i = true ↔ ∃ p, p < G.nos ∧ t.ionised i p = true)) ∧
      (∀ i, i ∉ is → t.fion i = s.fion i) := by
  induction is with
  | nil => intro s t I _ h; cases h; exact ⟨I, Keep.refl _, by simp, fun _ _ => rfl⟩
  | cons i is ih =>
    intro s t I hi h
    rw [overParticles] at h
    obtain ⟨u, hu, ht⟩ := Option.bind_eq_some_iff.1 h
    rw [photoncount] at hu
    obtain ⟨v, hv, rfl⟩ := Option.map_eq_some_iff.1 hu
    obtain ⟨a, b, c, e⟩ := overSources_spec R f i (hi i List.mem_cons_self) _ s v I (by simp) hv
    set u : St α := { v with
      fion := Function.update v.fion i ((List.range G.nos).any fun p => v.ionised i p) } with hu
    have Iu : Inv G s0 u := a.fion _
    have Ku : Keep s u := fun j p hj => b j p hj
    obtain ⟨a', b', c', e'⟩ := ih u t Iu (fun q hq => hi q (List.mem_cons_of_mem _ hq)) ht
    have hci : ∀ p, p < G.nos → u.checked i p = true := fun p hp => c p (by simpa using hp)
    refine ⟨a', Ku.trans b', ?_, ?_⟩
    · intro q hq
      by_cases hqi : q ∈ is
      · exact c' q hqi
      · rcases List.mem_cons.1 hq with rfl | hq
        · refine ⟨fun p hp => (b' _ _ (hci p hp)).1, ?_⟩
          rw [e' q hqi]
          have : u.fion q = (List.range G.nos).any fun p => v.ionised q p := by simp [hu]
          rw [this, List.any_eq_true]
          constructor
          · rintro ⟨p, hp, h1⟩
            rw [List.mem_range] at hp
            exact ⟨p, hp, by rw [(b' _ _ (hci p hp)).2.2]; exact h1⟩
          · rintro ⟨p, hp, h1⟩
            rw [(b' _ _ (hci p hp)).2.2] at h1
            exact ⟨p, by simpa using hp, h1⟩
        · exact absurd hq hqi
    · intro q hq
      rw [List.mem_cons, not_or] at hq
      rw [e' q hq.2]
      simp [hu, hq.1, e]

theorem overParticles_some {rk : ℕ → ℕ → ℕ} (R : Ranked G rk) (f : ℕ) (hf : ∀ p i, p < G.nos → i < G.N → rk p i < f) (is : List ℕ) :
    ∀ (s : St α), (∀ i ∈ is, i < G.N) → ∃ t, G.overParticles f is s = some t := by
  induction is with
  | nil => intro s _; exact ⟨s, rfl⟩
  | cons i is ih =>
    intro s hi
    obtain ⟨v, hv⟩ := overSources_some R f i (hi i List.mem_cons_self) hf (List.range G.nos) s (by simp)
    obtain ⟨t, ht⟩ := ih { v with
      fion := Function.update v.fion i ((List.range G.nos).any fun p => v.ionised i p) } fun q hq => hi q (List.mem_cons_of_mem _ hq)
    exact ⟨t, by rw [overParticles, photoncount, hv]; exact ht⟩

/-- what a pass from `s` leaves in `t` -/
structure PassOut (G : Net α) (s t : St α) : Prop where
  flag : ∀ i p, 1 ≤ i → i < G.N → p < G.nos → t.ionised i p = decide (0 < G.ndot p - t.photons i p)
  src : ∀ i p, 1 ≤ i → i < G.N → p < G.nos → G.sink i = true → t.photons i p = 0
  dum : ∀ i p, 1 ≤ i → i < G.N → p < G.nos → G.sink i = false → G.neigh i p = G.N → t.photons i p = G.ndot p
  gas : ∀ i p, 1 ≤ i → i < G.N → p < G.nos → G.sink i = false → G.neigh i p ≠ G.N →
    ∃ F : ℕ → α, (∀ k, k < G.nos → F k = G.flux s i k ∨ F k = G.flux t i k) ∧
      t.photons i p = G.coef i p * G.share F p + t.photons (G.neigh i p) p
  change : t.change = 0 ↔ ∀ i p, 1 ≤ i → i < G.N → p < G.nos → t.ionised i p = s.ionised i p
  checked : ∀ i p, t.checked i p = false
  fion : ∀ i, 1 ≤ i → i < G.N → (t.fion i = true ↔ ∃ p, p < G.nos ∧ t.ionised i p = true)
  zero : t.fion 0 = s.fion 0

theorem pass_spec {rk : ℕ → ℕ → ℕ} (R : Ranked G rk) {f : ℕ} {s t : St α} (hs : ∀ i p, s.checked i p = false) (h : G.pass f s = some t) :
    PassOut G s t := by
  rw [pass] at h
  obtain ⟨u, hu, rfl⟩ := Option.map_eq_some_iff.1 h
  have I0 : Inv G s { s with
      change := 0 } := by
    refine ⟨fun _ _ _ => ⟨rfl, rfl⟩, ?_, ?_, ?_, ?_⟩
    · intro j p hj
      simp only [hs] at hj
      cases hj
    · intro _ j p hj
      simp only [hs] at hj
      cases hj
    · intro h; exact absurd rfl h
    · intro j p hj
      simp only [hs] at hj
      cases hj
  have hmem : ∀ i, i ∈ List.range' 1 (G.N - 1) ↔ 1 ≤ i ∧ i < G.N := by
    intro i
    rw [List.mem_range'_1]
    omega
  obtain ⟨I, _, c, e⟩ := overParticles_spec R f _ _ u I0 (fun i hi => (hmem i).1 hi) hu
  have hc : ∀ i p, 1 ≤ i → i < G.N → p < G.nos → u.checked i p = true := fun i p h1 h2 hp => (c i ((hmem i).2 ⟨h1, h2⟩)).1 p hp
  refine ⟨?_, ?_, ?_, ?_, ?_, ?_, ?_, ?_⟩
  · intro i p h1 h2 hp
    exact (I.ev i p (hc i p h1 h2 hp)).flag
  · intro i p h1 h2 hp
    exact (I.ev i p (hc i p h1 h2 hp)).src
  · intro i p h1 h2 hp
    exact (I.ev i p (hc i p h1 h2 hp)).dum
  · intro i p h1 h2 hp hsk hn
    obtain ⟨_, F, hF, hv⟩ := (I.ev i p (hc i p h1 h2 hp)).gas hsk hn
    exact ⟨F, fun k hk => (hF k hk).imp_right And.right, hv⟩
  · constructor
    · intro h0 i p h1 h2 hp
      exact I.same h0 i p (hc i p h1 h2 hp)
    · intro h0
      by_contra hne
      obtain ⟨j, p, hj, hd⟩ := I.diff hne
      obtain ⟨⟨h1, h2⟩, h3⟩ := I.rng j p hj
      exact hd (h0 j p h1 h2 h3)
  · intro i p
    simp only
    by_cases h1 : 1 ≤ i ∧ i < G.N ∧ p < G.nos
    · rw [if_pos h1]
    · rw [if_neg h1]
      by_contra h2
      have := I.rng i p (by simpa using h2)
      exact h1 ⟨this.1.1, this.1.2, this.2⟩
  · intro i h1 h2
    exact (c i ((hmem i).2 ⟨h1, h2⟩)).2
  · exact e 0 (by rw [hmem]; omega)

theorem pass_some {rk : ℕ → ℕ → ℕ} (R : Ranked G rk) (f : ℕ) (hf : ∀ p i, p < G.nos → i < G.N → rk p i < f) (s : St α) :
    ∃ t, G.pass f s = some t := by
  obtain ⟨u, hu⟩ := overParticles_some R f hf (List.range' 1 (G.N - 1)) { s with
    change := 0 } (by intro i hi; rw [List.mem_range'_1] at hi; omega)
  exact ⟨_, by rw [pass, hu]; rfl⟩

/-- the ranks of the links: how many particles are closer to the source -/
def rank (G : Net α) (p i : ℕ) : ℕ := ((Finset.range G.N).filter fun j => G.dist j p < G.dist i p).card

theorem rank_lt {p i : ℕ} (hi : i < G.N) : G.rank p i < G.N := by
  have : (Finset.range G.N).filter (fun j => G.dist j p < G.dist i p) ⊂ Finset.range G.N := by
    refine ⟨Finset.filter_subset _ _, fun h => ?_⟩
    have := h (Finset.mem_range.2 hi)
    simp at this
  have h := Finset.card_lt_card this
  rw [Finset.card_range] at h
  exact h

theorem ranked (T : Towards G) (h0 : ∀ i p, i < G.n → p < G.nos → G.neigh i p ≠ 0) : Ranked G G.rank := by
  constructor
  · intro i p hi hp hn
    have hd := T.closer i p hi hp hn
    have hq : G.neigh i p < G.N := by
      rcases T.link i p hi hp with h | h | h
      · exact absurd h hn
      · rw [h, N]; omega
      · rw [N]; omega
    apply Finset.card_lt_card
    refine ⟨?_, fun h => ?_⟩
    · intro j hj
      simp only [Finset.mem_filter] at hj ⊢
      exact ⟨hj.1, hj.2.trans hd⟩
    · have := h (Finset.mem_filter.2 ⟨Finset.mem_range.2 hq, hd⟩)
      simp at this
  · intro i p hi hp hn
    refine ⟨Nat.pos_of_ne_zero (h0 i p hi hp), ?_⟩
    rcases T.link i p hi hp with h | h | h
    · exact absurd h hn
    · rw [h, N]; omega
    · rw [N]; omega

/-! ### the loop -/

theorem loop_inv {rk : ℕ → ℕ → ℕ} (R : Ranked G rk) (f : ℕ) (k : ℕ) : ∀ (final : Bool) (s t : St α), (∀ i p, s.checked i p = false) →
    (s.change ≠ 0 ∨ ∃ r, PassOut G r s) → (final = true → ∃ q r, PassOut G q r ∧ PassOut G r s) → G.loop k f final s = some t →
    ∃ q r, PassOut G q r ∧ PassOut G r t ∧ t.change = 0 := by
  induction k with
  | zero => intro _ _ _ _ _ _ h; cases h
  | succ k ih =>
    intro final s t hc h1 h2 h
    rw [loop] at h
    by_cases hx : s.change ≠ 0 ∨ final = false
    · rw [if_pos hx] at h
      obtain ⟨u, hu, ht⟩ := Option.bind_eq_some_iff.1 h
      have P := pass_spec R hc hu
      refine ih _ u t P.checked (Or.inr ⟨s, P⟩) ?_ ht
      intro hf
      rcases Bool.or_eq_true_iff.1 hf with hf | hf
      · obtain ⟨q, r, _, hr⟩ := h2 hf
        exact ⟨r, s, hr, P⟩
      · rw [decide_eq_true_eq] at hf
        rcases h1 with h1 | ⟨r, hr⟩
        · exact absurd hf h1
        · exact ⟨r, s, hr, P⟩
    · rw [if_neg hx] at h
      cases h
      push Not at hx
      obtain ⟨q, r, h3, h4⟩ := h2 (by simpa using hx.2)
      exact ⟨q, r, h3, h4, hx.1⟩

section
variable [IsStrictOrderedRing α]

theorem share_one (h : G.nos = 1) (F : ℕ → α) : G.share F 0 = if 0 < F 0 then 1 else F 0 := by
  unfold share
  simp only [h, Finset.sum_range_one]
  by_cases hF : 0 < F 0
  · rw [if_pos hF, if_pos hF, div_self hF.ne']
  · rw [if_neg hF, if_neg hF]

theorem coef_gas {i : ℕ} (h : G.neigh i 0 < G.n) :
    G.coef i 0 = recomb (G.rho i) (G.rho (G.neigh i 0)) (G.dist i 0) (G.dist (G.neigh i 0) 0) := by
  have : G.sink (G.neigh i 0) = false := by
    rw [← Bool.not_eq_true, sink_iff]
    omega
  simp only [coef, this, recomb, Bool.false_eq_true, if_false]
  ring

theorem coef_source (hn : G.nos = 1) {i : ℕ} (h : G.neigh i 0 = G.n) :
    G.coef i 0 = recomb (G.rho i) (G.rho i) (G.dist i 0) (G.dist G.n 0) := by
  have : G.sink (G.neigh i 0) = true := by
    rw [sink_iff]
    omega
  rw [h] at this
  simp only [coef, h, this, recomb, if_true]
  have h2 : (G.rho i + G.rho i) / 2 = G.rho i := by ring
  rw [h2]
  ring

/-- photons and flag belong to `a` -/
def Good (G : Net α) (s : St α) (i : ℕ) (a : α) : Prop := s.photons i 0 = a ∧ s.ionised i 0 = decide (0 < G.ndot 0 - a)

/-- what happens at a linked particle if the light that reaches the next one is known -/
theorem photons_linked (hn : G.nos = 1) {s t : St α} (P : PassOut G s t) {i : ℕ} (h1 : 1 ≤ i) (h2 : i < G.n) {a : α}
    (hl : G.neigh i 0 ≠ G.N) (ht : t.photons (G.neigh i 0) 0 = a)
    (hF : ∀ x, x = s ∨ x = t → (a < G.ndot 0 → 0 < G.flux x i 0) ∧ (G.ndot 0 ≤ a → G.flux x i 0 = 0)) :
    Good G t i (a + if a < G.ndot 0 then G.coef i 0 else 0) := by
  have hi : i < G.N := by rw [N]; omega
  have hs : G.sink i = false := by
    rw [← Bool.not_eq_true, sink_iff]
    omega
  obtain ⟨F, hFk, hv⟩ := P.gas i 0 h1 hi (by omega) hs hl
  have hF0 : (a < G.ndot 0 → 0 < F 0) ∧ (G.ndot 0 ≤ a → F 0 = 0) := by
    rcases hFk 0 (by omega) with h | h
    · rw [h]; exact hF s (Or.inl rfl)
    · rw [h]; exact hF t (Or.inr rfl)
  have e : t.photons i 0 = a + if a < G.ndot 0 then G.coef i 0 else 0 := by
    rw [hv, share_one hn, ht]
    by_cases ha : a < G.ndot 0
    · rw [if_pos (hF0.1 ha), if_pos ha]
      ring
    · have := hF0.2 (not_lt.1 ha)
      rw [this, if_neg (lt_irrefl _), if_neg ha]
      ring
  exact ⟨e, by rw [P.flag i 0 h1 hi (by omega), e]⟩

theorem flux_good {x : St α} {i : ℕ} {a : α} (h : Good G x (G.neigh i 0) a) :
    (a < G.ndot 0 → 0 < G.flux x i 0) ∧ (G.ndot 0 ≤ a → G.flux x i 0 = 0) := by
  unfold flux
  rw [h.2, h.1]
  constructor
  · intro ha
    have : 0 < G.ndot 0 - a := sub_pos.2 ha
    simp [this]
  · intro ha
    have : ¬0 < G.ndot 0 - a := by rw [sub_pos]; exact not_lt.2 ha
    simp [this]

theorem flux_flag {x : St α} {i : ℕ} {a : α} (h : x.ionised (G.neigh i 0) 0 = decide (0 < G.ndot 0 - a))
    (h' : x.ionised (G.neigh i 0) 0 = decide (0 < G.ndot 0 - x.photons (G.neigh i 0) 0)) :
    (a < G.ndot 0 → 0 < G.flux x i 0) ∧ (G.ndot 0 ≤ a → G.flux x i 0 = 0) := by
  unfold flux
  constructor
  · intro ha
    have h1 : 0 < G.ndot 0 - a := sub_pos.2 ha
    have h2 : x.ionised (G.neigh i 0) 0 = true := by rw [h]; simpa using h1
    rw [if_pos h2]
    rw [h2] at h'
    simpa using h'.symm
  · intro ha
    have h1 : ¬0 < G.ndot 0 - a := by rw [sub_pos]; exact not_lt.2 ha
    have h2 : x.ionised (G.neigh i 0) 0 = false := by rw [h]; simpa using h1
    rw [h2]
    simp

/-- The induction over the way of the light: what is known of the particle after a pass from what is known of the next one. -/
theorem used_pass (hn : G.nos = 1) {rk : ℕ → ℕ → ℕ} (R : Ranked G rk) {s t : St α} (P : PassOut G s t) (C : ℕ → Prop)
    (hC : ∀ i, i < G.n → G.neigh i 0 ≠ G.N → C i → C (G.neigh i 0))
    (hF : ∀ i a, i < G.n → C i → G.neigh i 0 ≠ G.N → Used G (G.neigh i 0) a → Good G t (G.neigh i 0) a →
      ∀ x, x = s ∨ x = t → (a < G.ndot 0 → 0 < G.flux x i 0) ∧ (G.ndot 0 ≤ a → G.flux x i 0 = 0))
    {i : ℕ} {a : α} (h : Used G i a) : C i → 1 ≤ i → Good G t i a := by
  have hp : 0 < G.nos := by omega
  induction h with
  | source h =>
    intro _ h1
    subst h
    have hi : G.n < G.N := by rw [N]; omega
    have e := P.src _ 0 h1 hi hp (by rw [sink_iff]; omega)
    exact ⟨e, by rw [P.flag _ 0 h1 hi hp, e]⟩
  | @unlinked i h hl =>
    intro _ h1
    have hi : i < G.N := by rw [N]; omega
    have e := P.dum i 0 h1 hi hp (by rw [← Bool.not_eq_true, sink_iff]; omega) (by rw [hl, N])
    exact ⟨e, by rw [P.flag i 0 h1 hi hp, e]⟩
  | @first i h hl h0 =>
    intro hc h1
    have hne : G.neigh i 0 ≠ G.N := by rw [hl, N]; omega
    have hq1 := (R.first i 0 h hp hne).1
    have hi : G.n < G.N := by rw [N]; omega
    have e := P.src G.n 0 (by omega) hi hp (by rw [sink_iff]; omega)
    have hq : Good G t (G.neigh i 0) 0 := by
      rw [hl]
      exact ⟨e, by rw [P.flag _ 0 (by omega) hi hp, e]⟩
    have := photons_linked hn P h1 h hne hq.1 (hF i 0 h hc hne (Used.source hl) hq)
    rw [if_pos h0, zero_add, coef_source hn hl] at this
    exact this
  | @lit i a h hl hu ha ih =>
    intro hc h1
    have hne : G.neigh i 0 ≠ G.N := by rw [N]; omega
    have hq := ih (hC i h hne hc) (R.first i 0 h hp hne).1
    have := photons_linked hn P h1 h hne hq.1 (hF i a h hc hne hu hq)
    rw [if_pos ha, coef_gas hl] at this
    exact this
  | @dark i a h hl hu ha ih =>
    intro hc h1
    have hne : G.neigh i 0 ≠ G.N := by rw [N]; omega
    have hq := ih (hC i h hne hc) (R.first i 0 h hp hne).1
    have := photons_linked hn P h1 h hne hq.1 (hF i a h hc hne hu hq)
    rw [if_neg (not_lt.2 ha), add_zero] at this
    exact this

/-- one more rank is right after each pass -/
theorem good_pass (hn : G.nos = 1) {rk : ℕ → ℕ → ℕ} (R : Ranked G rk) {s t : St α} (P : PassOut G s t) (k : ℕ)
    (h : ∀ i a, 1 ≤ i → rk 0 i < k → Used G i a → Good G s i a) :
    ∀ i a, 1 ≤ i → rk 0 i < k + 1 → Used G i a → Good G t i a := by
  intro i a h1 hk hu
  have hp : 0 < G.nos := by omega
  refine used_pass hn R P (fun i => rk 0 i < k + 1) ?_ ?_ hu hk h1
  · intro j hj hl hc
    have := R.down j 0 hj hp hl
    omega
  · intro j b hj hc hl hu hq x hx
    have := R.down j 0 hj hp hl
    rcases hx with rfl | rfl
    · exact flux_good (h _ b (R.first j 0 hj hp hl).1 (by omega) hu)
    · exact flux_good hq

/-- a pass without changes of flags after another pass leaves the right values -/
theorem good_end (hn : G.nos = 1) {rk : ℕ → ℕ → ℕ} (R : Ranked G rk) {r s t : St α} (Q : PassOut G r s) (P : PassOut G s t)
    (h0 : t.change = 0) {i : ℕ} {a : α} (h1 : 1 ≤ i) (hu : Used G i a) : Good G t i a := by
  have hp : 0 < G.nos := by omega
  refine used_pass hn R P (fun _ => True) (fun _ _ _ _ => trivial) ?_ hu trivial h1
  intro j b hj _ hl _ hq x hx
  obtain ⟨q1, q2⟩ := R.first j 0 hj hp hl
  rcases hx with rfl | rfl
  · refine flux_flag ?_ (Q.flag _ 0 q1 q2 hp)
    rw [← P.change.1 h0 _ 0 q1 q2 hp, hq.2]
  · exact flux_good hq

theorem used_exists (hn : G.nos = 1) {rk : ℕ → ℕ → ℕ} (R : Ranked G rk) (T : Towards G) (h0 : 0 < G.ndot 0) :
    ∀ k i, rk 0 i < k → i < G.N → ∃ a, Used G i a := by
  have hp : 0 < G.nos := by omega
  intro k
  induction k with
  | zero => intro i h; omega
  | succ k ih =>
    intro i hk hi
    rw [N] at hi
    by_cases hs : i = G.n
    · exact ⟨0, Used.source hs⟩
    have hin : i < G.n := by omega
    by_cases hl : G.neigh i 0 = G.n + G.nos
    · exact ⟨_, Used.unlinked hin hl⟩
    rcases T.link i 0 hin hp with h | h | h
    · exact absurd h hl
    · exact ⟨_, Used.first hin (by simpa using h) h0⟩
    · have hd := R.down i 0 hin hp (by rw [N]; exact hl)
      obtain ⟨a, ha⟩ := ih (G.neigh i 0) (by omega) (by rw [N]; omega)
      rcases lt_or_ge a (G.ndot 0) with h' | h'
      · exact ⟨_, Used.lit hin h ha h'⟩
      · exact ⟨_, Used.dark hin h ha h'⟩

theorem used_unique (hn : G.nos = 1) {i : ℕ} {a b : α} (h : Used G i a) (h' : Used G i b) : a = b := by
  induction h generalizing b with
  | source h =>
    cases h' with
    | source _ => rfl
    | unlinked h1 _ => omega
    | first h1 _ _ => omega
    | lit h1 _ _ _ => omega
    | dark h1 _ _ _ => omega
  | unlinked h1 h2 =>
    cases h' with
    | source _ => omega
    | unlinked _ _ => rfl
    | first _ _ _ => omega
    | lit _ _ _ _ => omega
    | dark _ _ _ _ => omega
  | first h1 h2 h3 =>
    cases h' with
    | source _ => omega
    | unlinked _ _ => omega
    | first _ _ _ => rfl
    | lit _ _ _ _ => omega
    | dark _ _ _ _ => omega
  | lit h1 h2 h3 h4 ih =>
    cases h' with
    | source _ => omega
    | unlinked _ _ => omega
    | first _ _ _ => omega
    | lit _ _ h5 _ => rw [ih h5]
    | dark _ _ h5 h6 =>
      rw [ih h5] at h4
      exact absurd h4 (not_lt.2 h6)
  | dark h1 h2 h3 h4 ih =>
    cases h' with
    | source _ => omega
    | unlinked _ _ => omega
    | first _ _ _ => omega
    | lit _ _ h5 h6 =>
      rw [ih h5] at h4
      exact absurd h6 (not_lt.2 h4)
    | dark _ _ h5 _ => exact ih h5

theorem change_zero (hn : G.nos = 1) {s t : St α} (P : PassOut G s t) (hex : ∀ i, i < G.N → ∃ a, Used G i a)
    (h1 : ∀ i a, 1 ≤ i → i < G.N → Used G i a → Good G s i a) (h2 : ∀ i a, 1 ≤ i → i < G.N → Used G i a → Good G t i a) : t.change = 0 := by
  rw [P.change]
  intro i p hi hN hp
  obtain ⟨a, ha⟩ := hex i hN
  obtain rfl : p = 0 := by omega
  rw [(h1 i a hi hN ha).2, (h2 i a hi hN ha).2]

theorem loop_some (hn : G.nos = 1) {rk : ℕ → ℕ → ℕ} (R : Ranked G rk) (f : ℕ) (hf : ∀ p i, p < G.nos → i < G.N → rk p i < f)
    (hex : ∀ i, i < G.N → ∃ a, Used G i a) (d : ℕ) : ∀ (k K : ℕ) (final : Bool) (s : St α), f ≤ k + d → d + 3 ≤ K →
    (∀ i p, s.checked i p = false) → (∀ i a, 1 ≤ i → rk 0 i < k → Used G i a → Good G s i a) →
    ∃ t, G.loop K f final s = some t := by
  have hp : 0 < G.nos := by omega
  induction d with
  | zero =>
    intro k K final s hk hK hc hg
    obtain ⟨K, rfl⟩ : ∃ m, K = m + 3 := ⟨K - 3, by omega⟩
    have all : ∀ {x y : St α}, (∀ i p, x.checked i p = false) → (∀ i a, 1 ≤ i → rk 0 i < k → Used G i a → Good G x i a) →
        G.pass f x = some y → (∀ i p, y.checked i p = false) ∧ (∀ i a, 1 ≤ i → rk 0 i < k → Used G i a → Good G y i a) ∧ y.change = 0 := by
      intro x y hc hg hy
      have P := pass_spec R hc hy
      have hg' := good_pass hn R P k hg
      refine ⟨P.checked, fun i a h1 h2 => hg' i a h1 (by omega), change_zero hn P hex (fun i a h1 h2 => hg i a h1 ?_) fun i a h1 h2 => hg' i a h1 ?_⟩
      · have := hf 0 i hp h2
        omega
      · have := hf 0 i hp h2
        omega
    rw [loop]
    by_cases hx : s.change ≠ 0 ∨ final = false
    · rw [if_pos hx]
      obtain ⟨t, ht⟩ := pass_some R f hf s
      obtain ⟨c1, g1, z1⟩ := all hc hg ht
      rw [ht, Option.bind_some, loop]
      by_cases hy : t.change ≠ 0 ∨ (final || decide (s.change = 0)) = false
      · rw [if_pos hy]
        obtain ⟨u, hu⟩ := pass_some R f hf t
        obtain ⟨_, _, z2⟩ := all c1 g1 hu
        rw [hu, Option.bind_some, loop]
        have : (final || decide (s.change = 0) || decide (t.change = 0)) = true := by simp [z1]
        rw [this, if_neg (by simp [z2])]
        exact ⟨_, rfl⟩
      · rw [if_neg hy]
        exact ⟨_, rfl⟩
    · rw [if_neg hx]
      exact ⟨_, rfl⟩
  | succ d ih =>
    intro k K final s hk hK hc hg
    obtain ⟨K, rfl⟩ : ∃ m, K = m + 1 := ⟨K - 1, by omega⟩
    rw [loop]
    by_cases hx : s.change ≠ 0 ∨ final = false
    · rw [if_pos hx]
      obtain ⟨t, ht⟩ := pass_some R f hf s
      have P := pass_spec R hc ht
      rw [ht, Option.bind_some]
      exact ih (k + 1) K _ t (by omega) (by omega) P.checked (good_pass hn R P k hg)
    · rw [if_neg hx]
      exact ⟨_, rfl⟩

end

end Net

end Gandalf.Ion
