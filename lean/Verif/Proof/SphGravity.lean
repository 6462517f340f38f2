import Verif.Proof.SphForces

/-! Closed forms of `UpdateAllSphForces` when no distant cell is accepted. -/

set_option autoImplicit false
set_option linter.unusedSectionVars false

namespace Gandalf.Sph

variable {n N : ℕ}

/-- what `UpdateAllSphForces` leaves, in terms of sums over the three lists -/
theorem updateGrav_lists (par : Par) (K : Kernel) (sm : ℝ) (eosP : Fin N → ℝ) (sphdata : ℕ → Part n)
    (hyd smo dir : Fin N → Neibs n N) (sys : Fin N → Part n) (i : Fin N) :
    (∀ k, (updateGrav par K sm eosP sphdata hyd smo dir sys i).a k =
      ((copies sys (hyd i)).map fun q => q.m * unit sm (fun k => q.r k - (sys i).r k) k *
        (presPaux K sm (sys i) q - viscPaux par K sm (sys i) q)).sum +
      (((copies sys (hyd i)).map fun q => q.m * unit sm (fun k => q.r k - (sys i).r k) k * gravPaux K sm (sys i) q).sum +
       ((copies sys (smo i)).map fun q => q.m * unit sm (fun k => q.r k - (sys i).r k) k * gravPaux K sm (sys i) q).sum +
       ((copies sys (dir i)).map fun q => q.m * (q.r k - (sys i).r k) * (1 / dist sm (sys i) q) ^ 3).sum)) ∧
    (updateGrav par K sm eosP sphdata hyd smo dir sys i).gpot =
      (sys i).m / (sys i).h * K.wpot 0 +
      ((copies sys (hyd i)).map fun q => q.m * gravGaux K sm (sys i) q).sum +
      ((copies sys (smo i)).map fun q => q.m * gravGaux K sm (sys i) q).sum +
      ((copies sys (dir i)).map fun q => q.m * (1 / dist sm (sys i) q)).sum ∧
    (updateGrav par K sm eosP sphdata hyd smo dir sys i).dudt =
      ((copies sys (hyd i)).map fun q => condHeat par K sm (sys i) q - viscHeat par K sm (sys i) q).sum +
      eosP i * (1 / (sys i).rho) * (1 / (sys i).rho) * (sys i).invomega *
      ((copies sys (hyd i)).map fun q => q.m * dvdr sm (sys i) q * wkern K sm (sys i) q).sum := by
  by_cases h : hyd i = []
  · simp only [updateGrav, h]
    simp only [gravForces, directGravForces, foldl_grav, foldl_direct, addGrav, zeroAcc, startGrav]
    refine ⟨fun k => ?_, ?_, ?_⟩
    · change 0 + 0 + (0 + ((copies sys (smo i)).map fun q => q.m * unit sm (fun k => q.r k - (sys i).r k) k *
          gravPaux K sm (sys i) q).sum +
        ((copies sys (dir i)).map fun q => q.m * (q.r k - (sys i).r k) * (1 / dist sm (sys i) q) ^ 3).sum) = _
      simp [copies]
    · change 0 + ((sys i).m / (sys i).h * K.wpot 0 + ((copies sys (smo i)).map fun q => q.m * gravGaux K sm (sys i) q).sum +
        ((copies sys (dir i)).map fun q => q.m * (1 / dist sm (sys i) q)).sum) = _
      simp [copies]
    · simp [copies]
  · simp only [updateGrav, if_neg h]
    simp only [gravForces, directGravForces, foldl_grav, foldl_direct, addGrav, hydroGravForces, setDalphadt_a,
      setDalphadt_atree, setDalphadt_dudt, setDalphadt_gpot, foldl_hydroGrav, finish]
    refine ⟨fun k => ?_, ?_, ?_⟩
    · generalize hx : setDalphadt par _ _ = x
      have xr : x.r = (sys i).r ∧ x.h = (sys i).h ∧ x.hfactor = (sys i).hfactor ∧ x.zeta = (sys i).zeta := by
        rw [← hx]
        unfold setDalphadt
        split_ifs <;> exact ⟨rfl, rfl, rfl, rfl⟩
      have e1 : ∀ q : Part n, dist sm x q = dist sm (sys i) q := fun q => by
        unfold dist; rw [xr.1]
      have e2 : ∀ q : Part n, gravPaux K sm x q = gravPaux K sm (sys i) q := fun q => by
        unfold gravPaux wkern dist; rw [xr.1, xr.2.1, xr.2.2.1, xr.2.2.2]
      change 0 + (0 + ((copies sys (hyd i)).map fun q => q.m * unit sm (fun k => q.r k - (sys i).r k) k *
          (presPaux K sm (sys i) q - viscPaux par K sm (sys i) q)).sum) +
        (0 + ((copies sys (hyd i)).map fun q => q.m * unit sm (fun k => q.r k - (sys i).r k) k *
          gravPaux K sm (sys i) q).sum +
         ((copies sys (smo i)).map fun q => q.m * unit sm (fun k => q.r k - x.r k) k * gravPaux K sm x q).sum +
         ((copies sys (dir i)).map fun q => q.m * (q.r k - x.r k) * (1 / dist sm x q) ^ 3).sum) = _
      simp only [e1, e2, xr.1]
      ring
    · generalize hx : setDalphadt par _ _ = x
      have xr : x.r = (sys i).r ∧ x.h = (sys i).h := by
        rw [← hx]
        unfold setDalphadt
        split_ifs <;> exact ⟨rfl, rfl⟩
      have e1 : ∀ q : Part n, dist sm x q = dist sm (sys i) q := fun q => by
        unfold dist; rw [xr.1]
      have e2 : ∀ q : Part n, gravGaux K sm x q = gravGaux K sm (sys i) q := fun q => by
        unfold gravGaux dist; rw [xr.1, xr.2]
      change 0 + ((sys i).m / (sys i).h * K.wpot 0 + ((copies sys (hyd i)).map fun q => q.m * gravGaux K sm (sys i) q).sum +
          ((copies sys (smo i)).map fun q => q.m * gravGaux K sm x q).sum +
         ((copies sys (dir i)).map fun q => q.m * (1 / dist sm x q)).sum) = _
      simp only [e1, e2]
      ring
    · change 0 + (0 + ((copies sys (hyd i)).map fun q => condHeat par K sm (sys i) q - viscHeat par K sm (sys i) q).sum -
        eosP i * ((0 - ((copies sys (hyd i)).map fun q => q.m * dvdr sm (sys i) q * wkern K sm (sys i) q).sum) *
          (1 / (sys i).rho)) * (1 / (sys i).rho) * (sys i).invomega) = _
      ring

/-- outside both kernels smoothed gravity is Newton's -/
theorem gravPaux_far {K : Kernel} {n' : ℕ} (hK : K.Valid n') (hG : K.GravityOK) {sm : ℝ} (hsm : 0 ≤ sm)
    {p q : Part n} (hp : 0 < p.h) (hq : 0 < q.h) (hi : ¬ Interacts K p q) :
    0 < dist sm p q ∧ gravPaux K sm p q = (1 / dist sm p q) ^ 2 ∧ gravGaux K sm p q = 1 / dist sm p q := by
  have e1 := wkern_zero hK hsm hp hi
  have e2 := wkern_zero' hK hsm hq hi
  unfold Interacts at hi
  push Not at hi
  have l1 : K.kernrange * p.h ≤ dist sm p q := le_trans hi.1 (le_dist hsm p q)
  have l2 : K.kernrange * q.h ≤ dist sm p q := le_trans hi.2 (le_dist hsm p q)
  have hd : 0 < dist sm p q := lt_of_lt_of_le (mul_pos hK.range_pos hp) l1
  have g1 := hG.newton (dist sm p q * (1 / p.h)) (by rw [mul_one_div, le_div_iff₀ hp]; exact l1)
  have g2 := hG.newton (dist sm p q * (1 / q.h)) (by rw [mul_one_div, le_div_iff₀ hq]; exact l2)
  refine ⟨hd, ?_, ?_⟩
  · unfold gravPaux
    rw [e1, e2, dist_comm sm p q, g1.1, g2.1]
    field_simp
    norm_num
  · unfold gravGaux
    rw [dist_comm sm p q, g1.2, g2.2]
    field_simp
    norm_num

theorem unit_eq {sm : ℝ} {p q : Part n} (h : 0 < dist sm p q) (k : Fin n) :
    unit sm (fun k => q.r k - p.r k) k = (q.r k - p.r k) / dist sm p q := by
  unfold unit
  exact if_pos h

/-- a sum over the three lists is the sum over all particles -/
theorem sum_split {K : Kernel} {sys : Fin N → Part n} {i : Fin N} {hyd smo dir : Neibs n N}
    (h : Split K sys i hyd smo dir) (f : Part n → ℝ) :
    ((copies sys (hyd ++ smo ++ dir)).map f).sum = ∑ j, f (sys j) := by
  rw [copies, List.map_map, ← List.sum_toFinset _ h.nodup]
  have : ∀ j, f (sys j) = ∑ s ∈ ({0} : Finset (Vec n ℝ)), f (image (sys j) s) := by
    intro j
    rw [Finset.sum_singleton, image_zero]
  simp only [this]
  rw [← Finset.sum_product' Finset.univ ({0} : Finset (Vec n ℝ)) (fun j s => f (image (sys j) s))]
  refine Finset.sum_subset ?_ ?_
  · intro x hx
    have hx' := List.mem_toFinset.mp hx
    rw [Finset.mem_product]
    exact ⟨Finset.mem_univ _, Finset.mem_singleton.mpr (h.shifts x hx')⟩
  · intro x hx hn
    rw [Finset.mem_product, Finset.mem_singleton] at hx
    exfalso
    obtain ⟨y, hy, e⟩ := h.all x.1
    refine hn (List.mem_toFinset.mpr ?_)
    have : x = y := Prod.ext e.symm (by rw [hx.2, h.shifts y hy])
    rwa [this]

theorem Split.complete {K : Kernel} {sys : Fin N → Part n} {i : Fin N} {hyd smo dir : Neibs n N}
    (h : Split K sys i hyd smo dir) : Complete K {0} sys i hyd where
  nodup := (List.nodup_append.mp (List.nodup_append.mp h.nodup).1).1
  shifts := fun x hx => Finset.mem_singleton.mpr (h.shifts x (by simp [hx]))
  all := by
    intro j s hs hne hi
    rw [Finset.mem_singleton] at hs
    subst hs
    rw [image_zero] at hi
    exact h.hydro j hi

/-- gravity of all three lists as one sum -/
theorem grav_sum {K : Kernel} {n' : ℕ} (hK : K.Valid n') (hG : K.GravityOK) {sm : ℝ} (hsm : 0 ≤ sm)
    {sys : Fin N → Part n} (hg : ∀ i, Good (sys i)) {i : Fin N} {hyd smo dir : Neibs n N}
    (h : Split K sys i hyd smo dir) (k : Fin n) :
    ((copies sys hyd).map fun q => q.m * unit sm (fun k => q.r k - (sys i).r k) k * gravPaux K sm (sys i) q).sum +
    ((copies sys smo).map fun q => q.m * unit sm (fun k => q.r k - (sys i).r k) k * gravPaux K sm (sys i) q).sum +
    ((copies sys dir).map fun q => q.m * (q.r k - (sys i).r k) * (1 / dist sm (sys i) q) ^ 3).sum =
    ∑ j, (sys j).m * unit sm (fun k => (sys j).r k - (sys i).r k) k * gravPaux K sm (sys i) (sys j) := by
  have e : ((copies sys dir).map fun q => q.m * (q.r k - (sys i).r k) * (1 / dist sm (sys i) q) ^ 3) =
      (copies sys dir).map fun q => q.m * unit sm (fun k => q.r k - (sys i).r k) k * gravPaux K sm (sys i) q := by
    simp only [copies, List.map_map]
    refine List.map_congr_left fun x hx => ?_
    have hs : x.2 = 0 := h.shifts x (by simp [hx])
    have hf := h.far x hx
    simp only [Function.comp, hs, image_zero]
    obtain ⟨hd, hp, _⟩ := gravPaux_far hK hG hsm (hg i).h (hg x.1).h hf
    rw [hp, unit_eq hd]
    field_simp
  rw [e]
  have := sum_split h (fun q => q.m * unit sm (fun k => q.r k - (sys i).r k) k * gravPaux K sm (sys i) q)
  rw [← List.sum_append, ← List.sum_append, ← List.map_append, ← List.map_append]
  simp only [copies, List.map_append] at this ⊢
  rw [this]

theorem gpot_sum {K : Kernel} {n' : ℕ} (hK : K.Valid n') (hG : K.GravityOK) {sm : ℝ} (hsm : 0 ≤ sm)
    {sys : Fin N → Part n} (hg : ∀ i, Good (sys i)) {i : Fin N} {hyd smo dir : Neibs n N}
    (h : Split K sys i hyd smo dir) :
    ((copies sys hyd).map fun q => q.m * gravGaux K sm (sys i) q).sum +
    ((copies sys smo).map fun q => q.m * gravGaux K sm (sys i) q).sum +
    ((copies sys dir).map fun q => q.m * (1 / dist sm (sys i) q)).sum =
    ∑ j, (sys j).m * gravGaux K sm (sys i) (sys j) := by
  have e : ((copies sys dir).map fun q => q.m * (1 / dist sm (sys i) q)) =
      (copies sys dir).map fun q => q.m * gravGaux K sm (sys i) q := by
    simp only [copies, List.map_map]
    refine List.map_congr_left fun x hx => ?_
    have hs : x.2 = 0 := h.shifts x (by simp [hx])
    have hf := h.far x hx
    simp only [Function.comp, hs, image_zero]
    obtain ⟨hd, _, hp⟩ := gravPaux_far hK hG hsm (hg i).h (hg x.1).h hf
    rw [hp]
  rw [e]
  have := sum_split h (fun q => q.m * gravGaux K sm (sys i) q)
  rw [← List.sum_append, ← List.sum_append, ← List.map_append, ← List.map_append]
  simp only [copies, List.map_append] at this ⊢
  rw [this]

end Gandalf.Sph
