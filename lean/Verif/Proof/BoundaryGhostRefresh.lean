import Verif.Proof.BoundaryGhostSearch

set_option autoImplicit false
set_option linter.unusedSectionVars false

namespace Gandalf

variable {n : ℕ} {α τ τ' : Type*} [Field α] [LinearOrder α]

/-- `reflect` twice about the same plane gives back the particle -/
theorem GPart.reflect_reflect (p : GPart n α τ τ') (k : Fin n) (x : α) :
    (p.reflect k x).reflect k x = p := by
  have e1 : ∀ (m : ℕ) (f : Fin m → α) (i : Fin m) (g : α → α), g (g (f i)) = f i →
      Function.update (Function.update f i (g (f i))) i (g (Function.update f i (g (f i)) i)) = f := by
    intro m f i g hg
    funext j
    by_cases hj : j = i
    · subst hj; simp [hg]
    · simp [Function.update_of_ne hj]
  have e2 : ∀ (c : Prop) [Decidable c] (x : α), negIf c (negIf c x) = x := by
    intro c _ x; unfold negIf; split_ifs <;> ring
  have e3 : ∀ (c c' : Prop) [Decidable c] [Decidable c'] (x : α),
      negIf c (negIf c' (negIf c (negIf c' x))) = x := by
    intro c c' _ _ x; unfold negIf; split_ifs <;> ring
  cases p with
  | mk r v a r0 v0 a0 m h th flags iorig Wprim dQ dQdt grad B ext =>
    simp only [GPart.reflect, GPart.mk.injEq, true_and, and_true]
    refine ⟨e1 _ r k (fun y => 2 * x - y) (by ring), e1 _ v k (fun y => y * -1) (by ring),
      e1 _ a k (fun y => y * -1) (by ring), e1 _ Wprim _ (fun y => y * -1) (by ring),
      e1 _ dQ _ (fun y => y * -1) (by ring), e1 _ dQdt _ (fun y => y * -1) (by ring), ?_, ?_⟩
    · funext i j; exact e3 _ _ _
    · funext i j; exact e3 _ _ _

theorem isFullImage_refl (d : Domain n α) (p : GPart n α τ τ') :
    IsFullImage d (fun _ => none) p p := by
  have h1 : ∀ k, d.imageSign (fun _ => none) k = 1 := fun k => rfl
  have h2 : ∀ i, d.fluidSign (fun _ => none) i = 1 := fun i => by
    unfold Domain.fluidSign; split_ifs <;> rfl
  refine ⟨rfl, ?_, ?_, rfl, rfl, rfl, ⟨rfl, rfl, rfl⟩, rfl, ?_, ?_, ?_, ?_, ?_⟩ <;> intros <;> simp [h1, h2]

theorem velIdx_val (k : Fin n) : (velIdx k).val = k.val := rfl

theorem fluidSign_velIdx (d : Domain n α) (σ : Fin n → Option Side) (k : Fin n) :
    d.fluidSign σ (velIdx k) = d.imageSign σ k := by
  unfold Domain.fluidSign
  rw [dif_pos (by rw [velIdx_val]; exact k.isLt)]
  rfl

theorem fluidSign_update_of_ne (d : Domain n α) (σ : Fin n → Option Side) (k : Fin n) (o : Option Side)
    {i : Fin (n + 2)} (h : i ≠ velIdx k) :
    d.fluidSign (Function.update σ k o) i = d.fluidSign σ i := by
  unfold Domain.fluidSign
  by_cases hi : i.val < n
  · rw [dif_pos hi, dif_pos hi, imageSign_update_of_ne]
    rintro rfl
    exact h (Fin.ext rfl)
  · rw [dif_neg hi, dif_neg hi]

/-- adding a periodic side -/
theorem isFullImage_shift {d : Domain n α} {σ : Fin n → Option Side} {p q : GPart n α τ τ'}
    (h : IsFullImage d σ p q) {k : Fin n} (hk : σ k = none) (sd : Side)
    (hs : d.side k sd = .periodic) :
    IsFullImage d (Function.update σ k (some sd)) p
      { q with r := Function.update q.r k (if sd = 0 then q.r k + d.size k else q.r k - d.size k) } := by
  have hS : ∀ j, d.imageSign (Function.update σ k (some sd)) j = d.imageSign σ j := by
    intro j
    by_cases hj : j = k
    · subst hj; simp [Domain.imageSign, hs, hk]
    · exact imageSign_update_of_ne d σ _ hj
  have hF : ∀ i, d.fluidSign (Function.update σ k (some sd)) i = d.fluidSign σ i := by
    intro i; unfold Domain.fluidSign; split_ifs <;> simp [hS]
  refine ⟨?_, fun j => by rw [hS]; exact h.v j, fun j => by rw [hS]; exact h.a j, h.m, h.h, h.th, h.start, h.ext,
    fun i => by rw [hF]; exact h.Wprim i, fun i => by rw [hF]; exact h.dQ i,
    fun i => by rw [hF]; exact h.dQdt i, fun i j => by rw [hF, hS]; exact h.grad i j,
    fun i j => by rw [hS, hS]; exact h.B i j⟩
  funext j
  by_cases hj : j = k
  · subst hj
    simp only [Function.update_self]
    rw [imagePos_update_self, h.r, imagePos_none d _ hk]
    simp [Domain.sidePos, hs]
  · simp only [Function.update_of_ne hj]
    rw [imagePos_update_of_ne d σ _ _ hj, h.r]

theorem negIf_eq (c : Prop) [Decidable c] (x : α) : negIf c x = (if c then -1 else 1) * x := by
  unfold negIf; split_ifs <;> ring

/-- adding a mirror side -/
theorem isFullImage_mirror {d : Domain n α} {σ : Fin n → Option Side} {p q : GPart n α τ τ'}
    (h : IsFullImage d σ p q) {k : Fin n} (hk : σ k = none) (sd : Side)
    (hs : d.side k sd = .mirror) :
    IsFullImage d (Function.update σ k (some sd)) p
      (q.reflect k (if sd = 0 then d.min k else d.max k)) := by
  have hS : ∀ j, d.imageSign (Function.update σ k (some sd)) j =
      (if j = k then -1 else 1) * d.imageSign σ j := by
    intro j
    by_cases hj : j = k
    · subst hj; simp [Domain.imageSign, hs, hk]
    · rw [imageSign_update_of_ne d σ _ hj, if_neg hj, one_mul]
  have hF : ∀ i, d.fluidSign (Function.update σ k (some sd)) i =
      (if i = velIdx k then -1 else 1) * d.fluidSign σ i := by
    intro i
    by_cases hi : i = velIdx k
    · subst hi; rw [fluidSign_velIdx, fluidSign_velIdx, hS]; simp
    · rw [fluidSign_update_of_ne d σ k _ hi, if_neg hi, one_mul]
  have up : ∀ (m : ℕ) (f : Fin m → α) (i j : Fin m),
      Function.update f i (f i * -1) j = (if j = i then -1 else 1) * f j := by
    intro m f i j
    by_cases hj : j = i
    · subst hj; simp
    · simp [Function.update_of_ne hj, hj]
  refine ⟨?_, fun j => ?_, fun j => ?_, h.m, h.h, h.th, h.start, h.ext, fun i => ?_, fun i => ?_, fun i => ?_,
    fun i j => ?_, fun i j => ?_⟩
  · funext j
    by_cases hj : j = k
    · subst hj
      simp only [GPart.reflect, Function.update_self]
      rw [imagePos_update_self, h.r, imagePos_none d _ hk]
      simp [Domain.sidePos, hs]
    · simp only [GPart.reflect, Function.update_of_ne hj]
      rw [imagePos_update_of_ne d σ _ _ hj, h.r]
  · simp only [GPart.reflect]; rw [up, hS, h.v]; ring
  · simp only [GPart.reflect]; rw [up, hS, h.a]; ring
  · simp only [GPart.reflect]; rw [up, hF, h.Wprim]; ring
  · simp only [GPart.reflect]; rw [up, hF, h.dQ]; ring
  · simp only [GPart.reflect]; rw [up, hF, h.dQdt]; ring
  · simp only [GPart.reflect]; rw [negIf_eq, negIf_eq, hF, hS, h.grad]; ring
  · simp only [GPart.reflect]; rw [negIf_eq, negIf_eq, hS, hS, h.B]; ring

theorem find_top (P : Fin n → Bool) (k : Fin n) (hk : P k = true) : ∀ (l : List (Fin n)),
    l.Pairwise (· > ·) → k ∈ l → (∀ j ∈ l, k < j → P j = false) → l.find? P = some k
  | [], _, h, _ => by cases h
  | a :: l, hp, hm, ht => by
    rw [List.pairwise_cons] at hp
    by_cases e : a = k
    · subst e; exact List.find?_cons_of_pos hk
    · have hkl : k ∈ l := by
        rcases List.mem_cons.mp hm with h | h
        · exact absurd h.symm e
        · exact h
      have : P a = false := ht a List.mem_cons_self (hp.1 k hkl)
      rw [List.find?_cons_of_neg (by simp [this])]
      exact find_top P k hk l hp.2 hkl fun j hj => ht j (List.mem_cons_of_mem _ hj)

theorem refreshOp_image (hn : n ≤ 3) {d : Domain n α} {σ : Fin n → Option Side} {itype : BitVec 32}
    {p q : GPart n α τ τ'} {k : Fin n} {sd : Side} (him : d.Imaging k sd) (hk : σ k = some sd)
    (htop : ∀ j, k < j → σ j = none)
    (hper : ∀ k s, itype &&& Flags.periodic_bound_flags (dimFlag k) s ≠ 0 ↔
      σ k = some s ∧ d.side k s = .periodic)
    (hmir : ∀ k s, itype &&& Flags.mirror_bound_flags (dimFlag k) s ≠ 0 ↔
      σ k = some s ∧ d.side k s = .mirror)
    (h : IsFullImage d (Function.update σ k none) p q) :
    IsFullImage d σ p (refreshOp d itype q) ∧ (refreshOp d itype q).flags = q.flags ∧
      (refreshOp d itype q).iorig = q.iorig := by
  have hbne : ∀ j : Fin n, (itype &&& Flags.periodic_bound_flags (dimFlag j) 0 != 0 ||
      itype &&& Flags.periodic_bound_flags (dimFlag j) 1 != 0 ||
      itype &&& Flags.mirror_bound_flags (dimFlag j) 0 != 0 ||
      itype &&& Flags.mirror_bound_flags (dimFlag j) 1 != 0) = true ↔
      ∃ s, σ j = some s ∧ d.Imaging j s := by
    intro j
    simp only [Bool.or_eq_true, bne_iff_ne]
    rw [hper, hper, hmir, hmir]
    constructor
    · rintro (((⟨a, b⟩ | ⟨a, b⟩) | ⟨a, b⟩) | ⟨a, b⟩)
      · exact ⟨0, a, Or.inl b⟩
      · exact ⟨1, a, Or.inl b⟩
      · exact ⟨0, a, Or.inr b⟩
      · exact ⟨1, a, Or.inr b⟩
    · rintro ⟨s, a, b⟩
      fin_cases s <;> rcases b with b | b <;> simp_all
  have hfind : (List.finRange n).reverse.find? (fun k =>
      itype &&& Flags.periodic_bound_flags (dimFlag k) 0 != 0 ||
      itype &&& Flags.periodic_bound_flags (dimFlag k) 1 != 0 ||
      itype &&& Flags.mirror_bound_flags (dimFlag k) 0 != 0 ||
      itype &&& Flags.mirror_bound_flags (dimFlag k) 1 != 0) = some k := by
    apply find_top _ _ ((hbne k).mpr ⟨sd, hk, him⟩)
    · rw [List.pairwise_reverse]; exact List.pairwise_lt_finRange n
    · simp
    · intro j _ hj
      rw [← Bool.not_eq_true, hbne]
      rintro ⟨s, a, -⟩
      rw [htop j hj] at a; cases a
  have hupd : Function.update (Function.update σ k none) k (some sd) = σ := by
    funext j
    by_cases hj : j = k
    · subst hj; simp [hk]
    · simp [Function.update_of_ne hj]
  have hkn : Function.update σ k none k = none := by simp
  have hsd : ∀ s, σ k = some s ↔ s = sd := by
    intro s; rw [hk]; simp [eq_comm]
  unfold refreshOp
  rw [hfind]
  simp only [bne_iff_ne]
  rw [if_congr (hper k 0) rfl rfl, if_congr (hper k 1) rfl rfl, if_congr (hmir k 0) rfl rfl]
  rcases him with hp | hm
  · have := isFullImage_shift h hkn sd hp
    rw [hupd] at this
    have hnm : d.side k sd ≠ .mirror := by rw [hp]; simp
    have h01 : sd = 0 ∨ sd = 1 := by fin_cases sd <;> simp
    rcases h01 with rfl | rfl
    · rw [if_pos ⟨hk, hp⟩]; exact ⟨by simpa using this, rfl, rfl⟩
    · rw [if_neg (by rw [hsd]; simp), if_pos ⟨hk, hp⟩]
      exact ⟨by simpa using this, rfl, rfl⟩
  · have := isFullImage_mirror h hkn sd hm
    rw [hupd] at this
    have h01 : sd = 0 ∨ sd = 1 := by fin_cases sd <;> simp
    rcases h01 with rfl | rfl
    · rw [if_neg (by rw [hm]; simp), if_neg (by rw [hsd]; simp), if_pos ⟨hk, hm⟩]
      exact ⟨by simpa using this, rfl, rfl⟩
    · rw [if_neg (by rw [hsd]; simp), if_neg (by rw [hm]; simp), if_neg (by rw [hsd]; simp)]
      exact ⟨by simpa using this, rfl, rfl⟩

/-- what the refresh needs to know about the ghosts: labels, flags and parents -/
structure GhostLinks (d : Domain n α) (N : ℕ) (part : ℕ → GPart n α τ τ') (L : List (Lab n)) :
    Prop where
  per : ∀ i x, L[i]? = some x → ∀ k s,
    (part (N + i)).flags &&& Flags.periodic_bound_flags (dimFlag k) s ≠ 0 ↔
      x.2 k = some s ∧ d.side k s = .periodic
  mir : ∀ i x, L[i]? = some x → ∀ k s,
    (part (N + i)).flags &&& Flags.mirror_bound_flags (dimFlag k) s ≠ 0 ↔
      x.2 k = some s ∧ d.side k s = .mirror
  chain : ∀ i x, L[i]? = some x → (part (N + i)).flags &&& Flags.active = 0 ∧ x.1 < N ∧
    ∃ k sd, d.Imaging k sd ∧ x.2 k = some sd ∧ (∀ j, k < j → x.2 j = none) ∧
      (part (N + i)).iorig < N + i ∧
      labOf N L (part (N + i)).iorig = some (x.1, Function.update x.2 k none)

theorem labOf_add (N : ℕ) (L : List (Lab n)) (i : ℕ) : labOf N L (N + i) = L[i]? := by
  unfold labOf; rw [if_neg (by omega)]; congr 1; omega

theorem GhostInv.links {d : Domain n α} {p0 : ℕ → GPart n α τ τ'} {N : ℕ} {s : HState n α τ τ'}
    {L : List (Lab n)} (h : GhostInv d p0 N s L) : GhostLinks d N s.part L where
  per := fun i x hx => (h.img (N + i) x (by rw [labOf_add]; exact hx)).2.periodic
  mir := fun i x hx => (h.img (N + i) x (by rw [labOf_add]; exact hx)).2.mirror
  chain := fun i x hx => ⟨(h.chain i x hx).1, (h.img (N + i) x (by rw [labOf_add]; exact hx)).1,
    (h.chain i x hx).2⟩

theorem GhostLinks.congr {d : Domain n α} {N : ℕ} {p q : ℕ → GPart n α τ τ'} {L : List (Lab n)}
    (h : GhostLinks d N p L) (hf : ∀ i, i < L.length → (q (N + i)).flags = (p (N + i)).flags)
    (hi : ∀ i, i < L.length → (q (N + i)).iorig = (p (N + i)).iorig) : GhostLinks d N q L where
  per := fun i x hx => by
    rw [hf i (List.getElem?_eq_some_iff.mp hx).1]; exact h.per i x hx
  mir := fun i x hx => by
    rw [hf i (List.getElem?_eq_some_iff.mp hx).1]; exact h.mir i x hx
  chain := fun i x hx => by
    rw [hf i (List.getElem?_eq_some_iff.mp hx).1, hi i (List.getElem?_eq_some_iff.mp hx).1]
    exact h.chain i x hx

theorem unset_of_zero {f m : BitVec 32} (h : f &&& m = 0) : Flags.unset f m = f := by
  apply BitVec.eq_of_getLsbD_eq
  intro i hi
  have := congrArg (fun x : BitVec 32 => x.getLsbD i) h
  simp only [BitVec.getLsbD_and] at this
  simp only [Flags.unset, BitVec.getLsbD_and, BitVec.getLsbD_not, hi, decide_true, Bool.true_and]
  cases h1 : f.getLsbD i <;> cases h2 : m.getLsbD i <;> simp_all

/-- state during the refresh: the first `m` ghosts are up to date -/
structure RefreshInv (d : Domain n α) (N : ℕ) (p1 : ℕ → GPart n α τ τ') (L : List (Lab n))
    (part : ℕ → GPart n α τ τ') (m : ℕ) : Prop where
  links : GhostLinks d N part L
  real : ∀ i, i < N → part i = p1 i
  img : ∀ i x, i < m → L[i]? = some x → IsFullImage d x.2 (p1 x.1) (part (N + i))

theorem refreshStep_inv (hn : n ≤ 3) {d : Domain n α} {N : ℕ} {p1 : ℕ → GPart n α τ τ'}
    {L : List (Lab n)} {s : HState n α τ τ'} (hN : s.Nhydro = N) {m : ℕ} (hm : m < L.length)
    (h : RefreshInv d N p1 L s.part m) :
    RefreshInv d N p1 L (s.refreshStep d m).part (m + 1) ∧
      (∀ i, ((s.refreshStep d m).part i).flags = (s.part i).flags ∧
        ((s.refreshStep d m).part i).iorig = (s.part i).iorig) ∧
      (s.refreshStep d m).Nhydro = N := by
  have hx : L[m]? = some L[m] := List.getElem?_eq_getElem hm
  obtain ⟨ha, ho, k, sd, c1, c2, c3, c4, c5⟩ := h.links.chain m _ hx
  set io := (s.part (N + m)).iorig with hio
  -- the parent is up to date
  have hpar : IsFullImage d (Function.update L[m].2 k none) (p1 L[m].1) (s.part io) := by
    by_cases hioN : io < N
    · rw [labOf, if_pos hioN] at c5
      obtain ⟨e1, e2⟩ := Prod.mk.inj (Option.some.inj c5)
      rw [← e2, ← e1, h.real io hioN]
      exact isFullImage_refl d _
    · rw [labOf, if_neg hioN] at c5
      have := h.img (io - N) _ (by omega) c5
      rwa [show N + (io - N) = io by omega] at this
  have hq : IsFullImage d (Function.update L[m].2 k none) (p1 L[m].1)
      { s.part io with
        iorig := io
        flags := Flags.unset (s.part (N + m)).flags Flags.active } :=
    ⟨hpar.r, hpar.v, hpar.a, hpar.m, hpar.h, hpar.th, hpar.start, hpar.ext, hpar.Wprim, hpar.dQ, hpar.dQdt,
      hpar.grad, hpar.B⟩
  obtain ⟨r1, r2, r3⟩ := refreshOp_image hn c1 c2 c3 (h.links.per m _ hx) (h.links.mir m _ hx) hq
  have hpart : (s.refreshStep d m).part = Function.update s.part (N + m)
      (refreshOp d (s.part (N + m)).flags { s.part io with
        iorig := io
        flags := Flags.unset (s.part (N + m)).flags Flags.active }) := by
    simp only [HState.refreshStep, hN, hio]
  have hfl : ∀ i, ((s.refreshStep d m).part i).flags = (s.part i).flags ∧
        ((s.refreshStep d m).part i).iorig = (s.part i).iorig := by
    intro i
    rw [hpart]
    by_cases hi : i = N + m
    · subst hi
      rw [Function.update_self, r2, r3]
      exact ⟨unset_of_zero ha, rfl⟩
    · rw [Function.update_of_ne hi]; exact ⟨rfl, rfl⟩
  refine ⟨⟨h.links.congr (fun i _ => (hfl _).1) (fun i _ => (hfl _).2), fun i hi => ?_,
    fun i x hi hxi => ?_⟩, hfl, hN⟩
  · rw [hpart, Function.update_of_ne (by omega)]; exact h.real i hi
  · rw [hpart]
    by_cases hi' : i = m
    · subst hi'
      rw [hx] at hxi
      obtain rfl := Option.some.inj hxi
      rw [Function.update_self]; exact r1
    · rw [Function.update_of_ne (by omega)]
      exact h.img i x (by omega) hxi

theorem refresh_inv (hn : n ≤ 3) {d : Domain n α} {N : ℕ} {p1 : ℕ → GPart n α τ τ'}
    {L : List (Lab n)} {s : HState n α τ τ'} (hN : s.Nhydro = N) (hP : s.NPeriodicGhost = L.length)
    (h : RefreshInv d N p1 L s.part 0) :
    RefreshInv d N p1 L (s.refresh d).part L.length ∧
      ∀ i, ((s.refresh d).part i).flags = (s.part i).flags ∧
        ((s.refresh d).part i).iorig = (s.part i).iorig := by
  have key : ∀ m, m ≤ L.length →
      RefreshInv d N p1 L ((List.range m).foldl (HState.refreshStep d) s).part m ∧
      (∀ i, (((List.range m).foldl (HState.refreshStep d) s).part i).flags = (s.part i).flags ∧
        (((List.range m).foldl (HState.refreshStep d) s).part i).iorig = (s.part i).iorig) ∧
      ((List.range m).foldl (HState.refreshStep d) s).Nhydro = N := by
    intro m
    induction m with
    | zero => intro _; exact ⟨h, fun i => ⟨rfl, rfl⟩, hN⟩
    | succ m ih =>
      intro hm
      obtain ⟨a, b, c⟩ := ih (by omega)
      rw [List.range_succ, List.foldl_append, List.foldl_cons, List.foldl_nil]
      obtain ⟨a', b', c'⟩ := refreshStep_inv hn c (by omega : m < L.length) a
      exact ⟨a', fun i => ⟨(b' i).1.trans (b i).1, (b' i).2.trans (b i).2⟩, c'⟩
  obtain ⟨a, b, -⟩ := key L.length le_rfl
  unfold HState.refresh
  rw [hP]
  exact ⟨a, b⟩

end Gandalf
