import Verif.Proof.Accretion

/-!
# Accretion: the totals of one sink and its neighbours
-/

set_option autoImplicit false
set_option linter.unusedSectionVars false

namespace Gandalf.Sinks

open scoped Matrix

variable {n : ℕ} {α : Type*} [Field α] [LinearOrder α] [IsStrictOrderedRing α]

/-- the components written out in the code are the cross product -/
theorem spin_eq (hn : n ≤ 3) (x y : Vec n α) : spin x y = crossProduct (embed x) (embed y) := by
  have h : n = 0 ∨ n = 1 ∨ n = 2 ∨ n = 3 := by omega
  rcases h with rfl | rfl | rfl | rfl <;>
    (rw [cross_apply]; funext k; fin_cases k <;> simp [spin, embed] <;> rfl)

theorem embed_sub (x y : Vec n α) : embed (fun k => x k - y k) = embed x - embed y := by
  funext k
  simp only [embed, Pi.sub_apply]
  split_ifs <;> simp

theorem embed_sum (T : List (ℕ × α)) (f : ℕ → Vec n α) :
    (T.map fun x => x.2 • embed (f x.1)).sum = embed (fun k => (T.map fun x => x.2 * f x.1 k).sum) := by
  induction T with
  | nil =>
    funext k
    simp [embed]
  | cons a T ih =>
    rw [List.map_cons, List.sum_cons, ih]
    funext k
    simp only [embed, Pi.add_apply, Pi.smul_apply, smul_eq_mul, List.map_cons, List.sum_cons]
    split_ifs <;> simp

/-- the spins about a moving point -/
theorem sum_spin (T : List (ℕ × α)) (r v : ℕ → Vec 3 α) (R V : Vec 3 α) :
    (T.map fun x => x.2 • crossProduct (r x.1 - R) (v x.1 - V)).sum =
      (T.map fun x => x.2 • crossProduct (r x.1) (v x.1)).sum -
      crossProduct (T.map fun x => x.2 • r x.1).sum V - crossProduct R (T.map fun x => x.2 • v x.1).sum +
      (T.map fun x => x.2).sum • crossProduct R V := by
  induction T with
  | nil => simp
  | cons a T ih =>
    rw [List.map_cons, List.sum_cons, ih]
    simp only [List.map_cons, List.sum_cons, map_add, map_sub, LinearMap.add_apply, LinearMap.sub_apply,
      map_smul, LinearMap.smul_apply, smul_sub, smul_add, add_smul]
    abel

/-- König's theorem for the merger of a body with pieces of others -/
theorem merge_angMom {m M S : α} {x y X Y Sr Sv Sx : Vec 3 α} (hM : M = m + S)
    (hX : M • X = m • x + Sr) (hY : M • Y = m • y + Sv) :
    M • crossProduct X Y + (m • crossProduct (x - X) (y - Y) +
      (Sx - crossProduct Sr Y - crossProduct X Sv + S • crossProduct X Y)) = m • crossProduct x y + Sx := by
  have e1 : crossProduct Sr Y = M • crossProduct X Y - m • crossProduct x Y := by
    have : Sr = M • X - m • x := by rw [hX]; abel
    rw [this]
    simp only [map_sub, LinearMap.sub_apply, map_smul, LinearMap.smul_apply]
  have e2 : crossProduct X Sv = M • crossProduct X Y - m • crossProduct X y := by
    have : Sv = M • Y - m • y := by rw [hY]; abel
    rw [this]
    simp only [map_sub, map_smul]
  rw [e1, e2]
  simp only [map_sub, LinearMap.sub_apply, smul_sub]
  have e3 : S • crossProduct X Y = M • crossProduct X Y - m • crossProduct X Y := by
    rw [hM, add_smul]; abel
  rw [e3]
  abel

theorem sum_smul_one {M : Type*} [AddCommGroup M] [Module α M] (T : List (ℕ × α)) (c : M) :
    (T.map fun x => x.2 • c).sum = (T.map fun x => x.2).sum • c := by
  induction T with
  | nil => simp
  | cons a T ih => rw [List.map_cons, List.map_cons, List.sum_cons, List.sum_cons, ih, add_smul]

/-- mass of the sink afterwards -/
theorem accreteList_m (prm : Prm α) (g : ℕ → Gas n α) (l : List ℕ) (macc : α) (sk : Sink n α) :
    (accreteList prm g l macc sk).2.star.m =
      sk.star.m + ((takes prm sk.trot g l macc).map fun x => x.2).sum :=
  (loop1_eq prm sk.trot g l macc _).1

theorem accreteList_r (prm : Prm α) (g : ℕ → Gas n α) (l : List ℕ) (macc : α) (sk : Sink n α)
    (hM : (accreteList prm g l macc sk).2.star.m ≠ 0) (k : Fin n) :
    (accreteList prm g l macc sk).2.star.m * (accreteList prm g l macc sk).2.star.r k =
      sk.star.m * sk.star.r k + ((takes prm sk.trot g l macc).map fun x => x.2 * (g x.1).r k).sum := by
  have h := (loop1_eq prm sk.trot g l macc
    { m := sk.star.m
      r := fun k => sk.star.r k * sk.star.m
      v := fun k => sk.star.v k * sk.star.m
      a := fun k => sk.star.a k * sk.star.m
      utot := sk.utot }).2.1 k
  simp only [accreteList, absorb] at hM ⊢
  rw [mul_div_cancel₀ _ hM, h]
  ring

theorem accreteList_v (prm : Prm α) (g : ℕ → Gas n α) (l : List ℕ) (macc : α) (sk : Sink n α)
    (hM : (accreteList prm g l macc sk).2.star.m ≠ 0) (k : Fin n) :
    (accreteList prm g l macc sk).2.star.m * (accreteList prm g l macc sk).2.star.v k =
      sk.star.m * sk.star.v k + ((takes prm sk.trot g l macc).map fun x => x.2 * (g x.1).v k).sum := by
  have h := (loop1_eq prm sk.trot g l macc
    { m := sk.star.m
      r := fun k => sk.star.r k * sk.star.m
      v := fun k => sk.star.v k * sk.star.m
      a := fun k => sk.star.a k * sk.star.m
      utot := sk.utot }).2.2.1 k
  simp only [accreteList, absorb] at hM ⊢
  rw [mul_div_cancel₀ _ hM, h]
  ring

theorem accreteList_a (prm : Prm α) (g : ℕ → Gas n α) (l : List ℕ) (macc : α) (sk : Sink n α)
    (hM : (accreteList prm g l macc sk).2.star.m ≠ 0) (k : Fin n) :
    (accreteList prm g l macc sk).2.star.m * (accreteList prm g l macc sk).2.star.a k =
      sk.star.m * sk.star.a k + ((takes prm sk.trot g l macc).map fun x => x.2 * (g x.1).a k).sum := by
  have h := (loop1_eq prm sk.trot g l macc
    { m := sk.star.m
      r := fun k => sk.star.r k * sk.star.m
      v := fun k => sk.star.v k * sk.star.m
      a := fun k => sk.star.a k * sk.star.m
      utot := sk.utot }).2.2.2.1 k
  simp only [accreteList, absorb] at hM ⊢
  rw [mul_div_cancel₀ _ hM, h]
  ring

theorem accreteList_kept (prm : Prm α) (g : ℕ → Gas n α) (l : List ℕ) (macc : α) (sk : Sink n α) (i : ℕ) :
    Kept (g i) ((accreteList prm g l macc sk).1 i) :=
  loop2_kept prm sk.trot _ _ l macc (g, _) i

theorem accreteList_sum {M : Type*} [AddCommGroup M] [Module α M] {prm : Prm α} {g : ℕ → Gas n α}
    {l : List ℕ} {macc : α} {sk : Sink n α} (hl : l.Nodup) {N : ℕ} (hN : ∀ i ∈ l, i < N) (f : ℕ → M) :
    ∑ i ∈ Finset.range N, ((accreteList prm g l macc sk).1 i).m • f i +
      ((takes prm sk.trot g l macc).map fun x => x.2 • f x.1).sum =
    ∑ i ∈ Finset.range N, (g i).m • f i :=
  loop2_sum hl hN macc g _ f

theorem accreteList_totals {prm : Prm α} {g : ℕ → Gas n α} {l : List ℕ} {macc : α} {sk : Sink n α}
    (hn : n ≤ 3) (hl : l.Nodup) {N : ℕ} (hN : ∀ i ∈ l, i < N)
    (hM : (accreteList prm g l macc sk).2.star.m ≠ 0) :
    SameTotals N g [sk] (accreteList prm g l macc sk).1 [(accreteList prm g l macc sk).2] := by
  have hk := accreteList_kept prm g l macc sk
  refine ⟨?_, ?_, ?_, ?_, ?_, ?_⟩
  · have h := accreteList_sum (prm := prm) (g := g) (macc := macc) (sk := sk) hl hN (fun _ => (1 : α))
    simp only [smul_eq_mul, mul_one] at h
    simp only [totalMass, List.map_cons, List.map_nil, List.sum_cons, List.sum_nil, add_zero, accreteList_m]
    rw [← h]
    ring
  · funext k
    have h := accreteList_sum (prm := prm) (g := g) (macc := macc) (sk := sk) hl hN (fun i => (g i).r k)
    simp only [smul_eq_mul] at h
    simp only [totalMoment, List.map_cons, List.map_nil, List.sum_cons, List.sum_nil, add_zero,
      accreteList_r prm g l macc sk hM, (hk _).r]
    rw [← h]
    ring
  · funext k
    have h := accreteList_sum (prm := prm) (g := g) (macc := macc) (sk := sk) hl hN (fun i => (g i).v k)
    simp only [smul_eq_mul] at h
    simp only [totalMomentum, List.map_cons, List.map_nil, List.sum_cons, List.sum_nil, add_zero,
      accreteList_v prm g l macc sk hM, (hk _).v]
    rw [← h]
    ring
  · funext k
    have h := accreteList_sum (prm := prm) (g := g) (macc := macc) (sk := sk) hl hN (fun i => (g i).a k)
    simp only [smul_eq_mul] at h
    simp only [totalForce, List.map_cons, List.map_nil, List.sum_cons, List.sum_nil, add_zero,
      accreteList_a prm g l macc sk hM, (hk _).a]
    rw [← h]
    ring
  · have h := accreteList_sum (prm := prm) (g := g) (macc := macc) (sk := sk) hl hN (fun i => (g i).u)
    simp only [smul_eq_mul] at h
    have hu : (accreteList prm g l macc sk).2.utot =
        sk.utot + ((takes prm sk.trot g l macc).map fun x => x.2 * (g x.1).u).sum :=
      (loop1_eq prm sk.trot g l macc _).2.2.2.2
    simp only [totalThermal, List.map_cons, List.map_nil, List.sum_cons, List.sum_nil, add_zero, hu, (hk _).u]
    rw [← h]
    ring
  · have h := accreteList_sum (prm := prm) (g := g) (macc := macc) (sk := sk) hl hN
      (fun i => crossProduct (embed (g i).r) (embed (g i).v))
    simp only [totalAngMom, List.map_cons, List.map_nil, List.sum_cons, List.sum_nil, add_zero, (hk _).r,
      (hk _).v]
    rw [← h]
    set T := takes prm sk.trot g l macc with hT
    set R := (accreteList prm g l macc sk).2.star.r with hR
    set V := (accreteList prm g l macc sk).2.star.v with hV
    set M := (accreteList prm g l macc sk).2.star.m with hMd
    have hs : (accreteList prm g l macc sk).2.angmom =
        (sk.angmom + sk.star.m • spin (fun k => sk.star.r k - R k) (fun k => sk.star.v k - V k)) +
        (T.map fun x => x.2 • spin (fun k => (g x.1).r k - R k) (fun k => (g x.1).v k - V k)).sum :=
      loop2_spin hl macc g _
    have hr : M • embed R = sk.star.m • embed sk.star.r + (T.map fun x => x.2 • embed (g x.1).r).sum := by
      rw [embed_sum T fun i => (g i).r]
      funext k
      simp only [embed, Pi.add_apply, Pi.smul_apply, smul_eq_mul]
      split_ifs with hk'
      · exact accreteList_r prm g l macc sk hM _
      · simp
    have hv : M • embed V = sk.star.m • embed sk.star.v + (T.map fun x => x.2 • embed (g x.1).v).sum := by
      rw [embed_sum T fun i => (g i).v]
      funext k
      simp only [embed, Pi.add_apply, Pi.smul_apply, smul_eq_mul]
      split_ifs with hk'
      · exact accreteList_v prm g l macc sk hM _
      · simp
    have hm : M = sk.star.m + (T.map fun x => x.2).sum := accreteList_m prm g l macc sk
    have key := merge_angMom (Sx := (T.map fun x => x.2 • crossProduct (embed (g x.1).r) (embed (g x.1).v)).sum)
      hm hr hv
    rw [← sum_spin T (fun i => embed (g i).r) (fun i => embed (g i).v)] at key
    rw [hs]
    simp only [spin_eq hn, embed_sub]
    have key' : M • crossProduct (embed R) (embed V) + (sk.angmom +
        sk.star.m • crossProduct (embed sk.star.r - embed R) (embed sk.star.v - embed V) +
        (T.map fun x => x.2 • crossProduct (embed (g x.1).r - embed R) (embed (g x.1).v - embed V)).sum) =
        sk.angmom + (sk.star.m • crossProduct (embed sk.star.r) (embed sk.star.v) +
        (T.map fun x => x.2 • crossProduct (embed (g x.1).r) (embed (g x.1).v)).sum) := by
      rw [← key]
      abel
    rw [key']
    abel

end Gandalf.Sinks
