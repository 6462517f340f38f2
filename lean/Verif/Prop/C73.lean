import Verif.Proof.StarGas
import Verif.Prop.C58Tree
import Verif.Prop.C09Star
import Verif.Prop.C45
import Verif.Proof.Supernova

/-!
# C73 – gravity of the gas on the stars
-/

set_option autoImplicit false
set_option linter.unusedSectionVars false

namespace Gandalf

open StarGas Stars KD Gravity Multipole

variable {n : ℕ}

/-! ### the search -/

/-- **C73, the lists are found.** With room for one leaf more than there are particles the search for a star ends after
finitely many repetitions, wherever the star is and however few cells there was room for; every further repetition
allowed changes nothing. -/
theorem C73_found (T : Tree n) (cfg : Cfg) (P : Parts n) (pfuel : ℕ) (f : Forest) (l : List ℕ)
    (hT : T.OK cfg P pfuel f l) (hlive : ∀ i ∈ l, P.dead i = false) (hK : 0 ≤ cfg.kernrange) (hh : ∀ i, 0 ≤ P.h i)
    (rs : Vec n ℝ) (hs : ℝ) (hhs : 0 ≤ hs) (Ntot fuel M : ℕ) (hN : l.length + T.Nleafmax ≤ Ntot)
    (hfuel : f.cells.length ≤ fuel) (hM : 0 < M) :
    ∃ L, ∀ tries, f.cells.length ≤ tries → 0 < tries →
      findLists T P cfg.kernrange rs hs Ntot pfuel fuel tries M = some L := by
  have key : ∀ t, f.cells.length ≤ M * 2 ^ t → ∃ L, findLists T P cfg.kernrange rs hs Ntot pfuel fuel (t + 1) M = some L := by
    intro t ht
    refine findLists_some (C := f.cells.length) (fun M' hM' => ?_) (fun M' => ?_) t M ht
    · exact C09_star_room T cfg P pfuel f l hT cfg.kernrange rs hs Ntot Ntot M' fuel hfuel hN hN hM'
    · rcases C09_star_partition T cfg P pfuel f l hT hlive rs hs hK hhs hh Ntot Ntot M' fuel hfuel with h | ⟨_, _, _, _, h, _⟩
      · rw [h]; simp
      · rw [h]; simp
  have hp : f.cells.length ≤ M * 2 ^ (f.cells.length - 1) := by
    have h1 : f.cells.length ≤ 2 ^ (f.cells.length - 1) := by
      rcases Nat.eq_zero_or_pos f.cells.length with h | h
      · rw [h]; exact Nat.zero_le _
      · have := Nat.lt_two_pow_self (n := f.cells.length - 1)
        omega
    calc f.cells.length ≤ 1 * 2 ^ (f.cells.length - 1) := by omega
      _ ≤ _ := Nat.mul_le_mul_right _ hM
  obtain ⟨L, hL⟩ := key _ hp
  exact ⟨L, fun tries h1 h2 => findLists_mono (by omega) hL⟩

/-- **C73, negation: the search does not end.** Both lists have room for `Ntot` particles, but a leaf is only read if
there is room for a full one (Tree.cpp:804, 815, HydroTree.cpp:593): when fewer particles are left than fit into a leaf (six
by default), as where sinks have taken nearly all gas, and a star is among them, the search is repeated for ever. -/
theorem C73_hang_fails (T : Tree n) (P : Parts n) (rs : Vec n ℝ) (hs kernrange : ℝ) (Ntot pfuel fuel : ℕ)
    (hroot : T.links.copen 0 = none) (hcell : 0 < T.Ncell) (hfew : Ntot < T.Nleafmax)
    (hnear : Tree.distsqd (T.cell 0).rcell rs <
      (0.5 * (kernrange * hs) + (T.cell 0).rmax + 0.5 * kernrange * (T.cell 0).hmax) ^ 2) (tries M : ℕ) :
    findLists T P kernrange rs hs Ntot pfuel (fuel + 1) tries M = none := by
  refine findLists_none (fun M => ?_) tries M
  rw [Tree.starGravityWalk, Walk.walk, if_pos hcell]
  have : T.starGravityBody P kernrange rs hs Ntot Ntot M pfuel 0 ⟨[], [], []⟩ = .abort := by
    simp only [Tree.starGravityBody]
    rw [if_pos hnear, if_neg (not_not.mpr hroot), if_neg]
    simpa using hfew
  simp only [this]

/-! ### a tree of one leaf -/

/-- particles `0, …, N - 1` in a single leaf -/
noncomputable def StarGas.leafTree (cfg : Cfg) (P : Parts 1) (l : List ℕ) (Nleafmax : ℕ) : Tree 1 where
  links := ⟨fun _ => none, fun _ => some 1⟩
  Ncell := 1
  Nend := 1
  Nleafmax := Nleafmax
  cell := fun _ => stockLeafProps cfg P l blank
  mac := fun _ => 0
  ifirst := fun _ => l.head?
  ilast := fun _ => l.getLast?
  inext := fun i => some (i + 1)

theorem StarGas.leaf_summary (cfg : Cfg) (P : Parts 1) (l : List ℕ) (M : ℕ) (hd : ∀ i ∈ l, P.dead i = false) :
    Summary cfg P l ((leafTree cfg P l M).cell 0) := stockLeaf_summary _ _ _ _ hd

/-- two particles -/
theorem StarGas.leafTree_ok (cfg : Cfg) (P : Parts 1) (M : ℕ) (hM : 2 ≤ M) (hd : ∀ i, P.dead i = false) :
    (leafTree cfg P [0, 1] M).OK cfg P 2 (.cons 0 .nil .nil) [0, 1] where
  linked := by simp [Forest.Linked, Forest.entry, leafTree]
  root := rfl
  ends := le_rfl
  cells := by simp [Forest.cells, leafTree]
  covers := ⟨[0, 1], [], rfl, ⟨leaf_summary cfg P [0, 1] M fun i _ => hd i, by simpa [leafTree] using hM⟩,
    fun _ => by simp [Tree.leafList, leafTree, LeafList.traverse], by simp, rfl⟩
  nodup := by decide

theorem StarGas.leaf_list (cfg : Cfg) (P : Parts 1) (M : ℕ) : (leafTree cfg P [0, 1] M).leafList 2 0 = some [0, 1] := by
  simp [Tree.leafList, leafTree, LeafList.traverse]

/-- two gas particles at 0 and 1 in a tree with leaves of six, a star between them: the hypotheses of both theorems -/
example : (leafTree (lineCfg 10 (1 / 4)) (linePart (fun i => i) 1) [0, 1] 6).OK (lineCfg 10 (1 / 4))
      (linePart (fun i => i) 1) 2 (.cons 0 .nil .nil) [0, 1] ∧
    (∀ tries M, findLists (leafTree (lineCfg 10 (1 / 4)) (linePart (fun i => i) 1) [0, 1] 6) (linePart (fun i => i) 1) 2
      (fun _ => 1 / 2) 1 2 2 1 tries M = none) ∧
    ∃ L, ∀ tries, 1 ≤ tries → 0 < tries → findLists (leafTree (lineCfg 10 (1 / 4)) (linePart (fun i => i) 1) [0, 1] 6)
      (linePart (fun i => i) 1) 2 (fun _ => 1 / 2) 1 8 2 1 tries 1 = some L := by
  have hok := leafTree_ok (lineCfg 10 (1 / 4)) (linePart (fun i => i) 1) 6 (by norm_num) fun _ => rfl
  have S := leaf_summary (lineCfg 10 (1 / 4)) (linePart (fun i => i) 1) [0, 1] 6 fun _ _ => rfl
  have hN : (leafTree (lineCfg 10 (1 / 4)) (linePart (fun i => i) 1) [0, 1] 6).Nleafmax = 6 := rfl
  have hC : (leafTree (lineCfg 10 (1 / 4)) (linePart (fun i => i) 1) [0, 1] 6).Ncell = 1 := rfl
  have hO : (leafTree (lineCfg 10 (1 / 4)) (linePart (fun i => i) 1) [0, 1] 6).links.copen 0 = none := rfl
  set T := leafTree (lineCfg 10 (1 / 4)) (linePart (fun i => i) 1) [0, 1] 6
  have g := box_of S (a := 0) (b := 1) (by simp) (by simp)
    (by simp only [List.mem_cons, List.not_mem_nil, or_false, linePart]
        rintro i (rfl | rfl) <;> norm_num)
    (by norm_num [linePart, lineCfg]) (by norm_num [linePart, lineCfg])
  norm_num [linePart] at g
  refine ⟨hok, fun tries M => C73_hang_fails _ _ _ _ _ 2 2 0 hO (by omega) (by omega) ?_ tries M, ?_⟩
  · have e : Tree.distsqd (T.cell 0).rcell (fun _ => 1 / 2) = 0 := by
      simp only [Tree.distsqd, dot, Fin.sum_univ_one, g.1]
      norm_num
    rw [e]
    have h0 := S.rmaxNonneg
    have h1 := S.hmaxNonneg
    have : (0 : ℝ) < 0.5 * (2 * 1) + (T.cell 0).rmax + 0.5 * 2 * (T.cell 0).hmax := by
      norm_num
      linarith
    positivity
  · exact C73_found _ (lineCfg 10 (1 / 4)) _ 2 _ _ hok (fun _ _ => rfl) (by norm_num [lineCfg])
      (fun _ => by norm_num [linePart]) _ 1 (by norm_num) 8 1 1 (by simp [hN]) (by simp [Forest.cells]) one_pos

/-! ### the forces -/

/-- relative errors of the cells under the ratio `χ`; `δ` bounds `small_number` over the squared distances -/
noncomputable def StarGas.errPot : Order → ℝ → ℝ → ℝ
  | .monopole, χ, _ => (1 + 1 / (1 - χ)) * χ ^ 2
  | .quadrupole, χ, δ => (15 / 4 + 1 / (1 - χ)) * χ ^ 3 + δ * χ ^ 2 / 2

noncomputable def StarGas.errAcc : Order → ℝ → ℝ → ℝ
  | .monopole, χ, _ => 21 * (1 / (1 - χ)) ^ 3 * χ ^ 2
  | .quadrupole, χ, δ => 69 * (1 / (1 - χ)) ^ 3 * χ ^ 3 + 5 * δ * χ ^ 2 / 2

/-- **C73, partial: the gravity of all gas.** In an open box, if every particle in the tree gravitates: the potential
and acceleration a star gets from neighbours, from particles summed directly and from cells is the sum over all
particles of the softened gravity of each, up to the error of the cells (second or third order in the opening angle
`θ < 1/3`) and that of `small_number`. Missing: periodic boxes (`C73_periodic_fails`) and particles that do not gravitate
(`C73_types_fails`). -/
theorem C73_force_partial (hn : n = 1 ∨ n = 2 ∨ n = 3) (T : Tree n) (cfg : Cfg) (P : Parts n) (pfuel : ℕ) (f : Forest)
    (l : List ℕ) (hT : T.OK cfg P pfuel f l) (hlive : ∀ i ∈ l, P.dead i = false) (hgrav : ∀ i ∈ l, P.grav i = true)
    (hh : ∀ i, 0 ≤ P.h i) (hm : ∀ i ∈ l, 0 ≤ P.m i) (K : Kernel) (hG : K.GravityOK) (hK : 0 < K.kernrange)
    (hcfg : cfg.kernrange = K.kernrange) (d : Domain n ℝ) (hd : ∀ k, ¬Per d k) (herm : Bool) (o : Order)
    (θ eps : ℝ) (hθ0 : 0 < θ) (hθ1 : θ < 1 / 3) (hθ : cfg.thetamaxsqd = θ ^ 2) (he : 0 ≤ eps) (s : Star n) (hs : 0 < s.h)
    (Ntot fuel tries M : ℕ) (hfuel : f.cells.length ≤ fuel) (s' : Star n)
    (hrun : starForces herm o eps K d none T P Ntot pfuel fuel tries M s = some s') :
    ∃ near ps cs : List ℕ, (near ++ ps).Perm l ∧
      ∀ δ, (o = .quadrupole → cfg.needQuad = true ∧ ∀ c ∈ cs, eps ≤ δ * gdist eps s.r (T.cell c).r ^ 2) →
      |s'.gpot - (s.gpot + (l.map fun i => Gravity.softPot K s.r s.h (P.r i) (P.h i) (P.m i)).sum)| ≤
        (cs.map fun c => (T.cell c).m / gdist eps s.r (T.cell c).r).sum * errPot o (2 * θ / (1 - θ)) δ +
        (ps.map fun i => P.m i / gdist 0 s.r (P.r i) ^ 3).sum * (eps / 2) ∧
      ∀ k, |s'.a k - (s.a k + (l.map fun i => softAcc K s.r s.h (P.r i) (P.h i) (P.m i) k).sum)| ≤
        (cs.map fun c => (T.cell c).m / gdist eps s.r (T.cell c).r ^ 2).sum * errAcc o (2 * θ / (1 - θ)) δ +
        (ps.map fun i => P.m i / gdist 0 s.r (P.r i) ^ 4).sum * (3 * eps / 2) := by
  obtain ⟨L, hL, rfl⟩ := Option.map_eq_some_iff.mp hrun
  obtain ⟨M', hw⟩ := findLists_walk hL
  rw [← hcfg] at hw
  have hK' : 0 ≤ cfg.kernrange := by rw [hcfg]; exact hK.le
  obtain ⟨ps, hp, hE⟩ := C58_star_error hn T cfg P pfuel f l hT hlive s.r s.h hK' hs.le hh Ntot Ntot M' fuel hfuel hm θ
    eps hθ0 hθ1 hθ he L.neib L.direct L.cells hw
  have hnear : ∀ j ∈ l, Tree.distsqd (P.r j) s.r < (cfg.kernrange * (1 / 2 * (s.h + P.h j))) ^ 2 → j ∈ L.neib := by
    rcases C09_star_partition T cfg P pfuel f l hT hlive s.r s.h hK' hs.le hh Ntot Ntot M' fuel hfuel with
      h | ⟨nb', dr', cs', parts, h, _, _, _, _, _, h3⟩
    · rw [hw] at h
      exact absurd h (by simp)
    · rw [hw] at h
      simp only [Walk.Res.done.injEq] at h
      rw [h]
      exact h3
  have hnd := hp.nodup_iff.mpr hT.nodup
  rw [List.append_assoc] at hnd
  have hfar : ∀ j ∈ L.direct ++ ps, K.kernrange * (1 / 2 * (s.h + P.h j)) ≤ gdist 0 s.r (P.r j) := by
    intro j hj
    have hjl : j ∈ l := hp.mem_iff.mp (by rw [List.append_assoc]; exact List.mem_append_right _ hj)
    have hjn : j ∉ L.neib := fun h => (List.nodup_append.mp hnd).2.2 j h j hj rfl
    have h1 := not_lt.mp fun h => hjn (hnear j hjl h)
    rw [distsqd_gdist, hcfg, gdist_comm] at h1
    exact (abs_le_of_sq_le_sq' h1 (gdist_nonneg _ _ _)).2
  have hnewt : ∀ j ∈ L.direct ++ ps, _ := fun j hj =>
    soft_newton hG hK (P.m j) (by linarith [hh j]) (hfar j hj)
  have hρ : ∀ j ∈ ps, 0 < gdist 0 s.r (P.r j) := fun j hj =>
    lt_of_lt_of_le (by have := hh j; positivity) (hfar j (List.mem_append_right _ hj))
  have hml : ∀ i ∈ ps, 0 ≤ P.m i := fun i hi => hm i (hp.mem_iff.mp (List.mem_append_right _ hi))
  have hfil : ps.filter P.grav = ps := List.filter_eq_self.mpr fun i hi =>
    hgrav i (hp.mem_iff.mp (List.mem_append_right _ hi))
  refine ⟨L.neib ++ L.direct, ps, L.cells, hp, fun δ hδ => ?_⟩
  have hr : (hydroForces herm K d none P L.neib L.direct s).r = s.r := by rw [hydroForces_eq]; rfl
  have hgp : (hydroForces herm K d none P L.neib L.direct s).gpot = s.gpot +
      ((L.neib ++ L.direct).map fun i => Gravity.softPot K s.r s.h (P.r i) (P.h i) (P.m i)).sum := by
    rw [hydroForces_eq, List.map_append, List.sum_append]
    simp only [add, corr, add_zero]
    congr 2
    · exact congrArg List.sum (List.map_congr_left fun j _ => smoothPot_soft K hd s (gas P j))
    · refine congrArg List.sum (List.map_congr_left fun j hj => ?_)
      rw [directPot_open hd, (hnewt j (List.mem_append_left _ hj)).2]
      rfl
  have hac : ∀ k, (hydroForces herm K d none P L.neib L.direct s).a k = s.a k +
      ((L.neib ++ L.direct).map fun i => softAcc K s.r s.h (P.r i) (P.h i) (P.m i) k).sum := by
    intro k
    rw [hydroForces_eq, List.map_append, List.sum_append]
    simp only [add, corr, add_zero]
    congr 2
    · exact congrArg List.sum (List.map_congr_left fun j _ => smoothAcc_soft K hd s (gas P j) k)
    · refine congrArg List.sum (List.map_congr_left fun j hj => ?_)
      rw [directAcc_open hd, (hnewt j (List.mem_append_left _ hj)).1]
      rfl
  have e1 : |pot eps (masses P ps) s.r - (ps.map fun i => Gravity.softPot K s.r s.h (P.r i) (P.h i) (P.m i)).sum| ≤
      (ps.map fun i => P.m i / gdist 0 s.r (P.r i) ^ 3).sum * (eps / 2) := by
    rw [pot, masses, hfil, List.map_map]
    refine err_list ps _ _ _ _ fun j hj => ?_
    rw [(hnewt j (List.mem_append_right _ hj)).2]
    exact eps_pot he (hρ j hj) (hml j hj)
  have e2 : ∀ k, |acc eps (masses P ps) s.r k - (ps.map fun i => softAcc K s.r s.h (P.r i) (P.h i) (P.m i) k).sum| ≤
      (ps.map fun i => P.m i / gdist 0 s.r (P.r i) ^ 4).sum * (3 * eps / 2) := by
    intro k
    rw [acc, masses, hfil, List.map_map]
    refine err_list ps _ _ _ _ fun j hj => ?_
    rw [(hnewt j (List.mem_append_right _ hj)).1]
    exact eps_acc he (hρ j hj) (hml j hj) k
  have comb : ∀ (X s0 h p B E : ℝ) (F : ℕ → ℝ), |X - (h + p)| ≤ B → h = s0 + ((L.neib ++ L.direct).map F).sum →
      |p - (ps.map F).sum| ≤ E → |X - (s0 + (l.map F).sum)| ≤ B + E := by
    intro X s0 h p B E F h1 h2 h3
    rw [← (hp.map F).sum_eq, List.map_append, List.sum_append]
    rw [abs_le] at h1 h3 ⊢
    constructor <;> linarith [h1.1, h1.2, h3.1, h3.2]
  cases o with
  | monopole =>
    obtain ⟨m1, m2⟩ := hE.monopole ⟨(hydroForces herm K d none P L.neib L.direct s).gpot,
      (hydroForces herm K d none P L.neib L.direct s).a⟩
    simp only [cellForces, hr, errPot, errAcc]
    exact ⟨comb _ _ _ _ _ _ _ m1 hgp e1, fun k => comb _ _ _ _ _ _ _ (m2 k) (hac k) (e2 k)⟩
  | quadrupole =>
    obtain ⟨m1, m2⟩ := hE.quadrupole (hδ rfl).1 δ (hδ rfl).2
      ⟨(hydroForces herm K d none P L.neib L.direct s).gpot, (hydroForces herm K d none P L.neib L.direct s).a⟩
    simp only [cellForces, hr, errPot, errAcc]
    exact ⟨comb _ _ _ _ _ _ _ m1 hgp e1, fun k => comb _ _ _ _ _ _ _ (m2 k) (hac k) (e2 k)⟩

/-- four gas particles at 0, 1, 2, 3 and a star at 100: the turn of the loop ends -/
example : ∃ s', starForces (n := 1) true .monopole 0 (m4Kernel 3) (bigBox 1 .open_) none
    (lineTree (fun i => i) 1 10 (1 / 4)) (linePart (fun i => i) 1) 10 2 3 3 1
    ⟨fun _ => 100, fun _ => 0, fun _ => 0, fun _ => 0, 1, 1, 0, true⟩ = some s' := by
  obtain ⟨L, hL⟩ := C73_found _ _ _ 2 _ _ (lineTree_ok (fun i => (i : ℝ)) 1 10 (1 / 4)) (fun _ _ => rfl)
    (by norm_num [lineCfg]) (fun _ => by norm_num [linePart]) (fun _ => 100) 1 (by norm_num) 10 3 1
    (by simp [lineTree]) (by simp [Forest.cells]) one_pos
  have h2 : (lineCfg 10 (1 / 4)).kernrange = (m4Kernel 3).kernrange := rfl
  rw [h2] at hL
  exact ⟨_, by rw [starForces, hL 3 (by simp [Forest.cells]) (by norm_num)]; rfl⟩

/-- **C73, partial: star and gas.** The forces by which the gas pulls a star and the star the gas (`gasFromStar`,
GradhSph.cpp:719-735, without `small_number`) cancel up to the same errors times the mass of the star. Missing: as in
`C73_force_partial`. -/
theorem C73_reaction_partial (hn : n = 1 ∨ n = 2 ∨ n = 3) (T : Tree n) (cfg : Cfg) (P : Parts n) (pfuel : ℕ)
    (f : Forest) (l : List ℕ) (hT : T.OK cfg P pfuel f l) (hlive : ∀ i ∈ l, P.dead i = false)
    (hgrav : ∀ i ∈ l, P.grav i = true) (hh : ∀ i, 0 ≤ P.h i) (hm : ∀ i ∈ l, 0 ≤ P.m i) (K : Kernel) (hG : K.GravityOK)
    (hK : 0 < K.kernrange) (hcfg : cfg.kernrange = K.kernrange) (d : Domain n ℝ) (hd : ∀ k, ¬Per d k) (herm : Bool)
    (o : Order) (θ eps : ℝ) (hθ0 : 0 < θ) (hθ1 : θ < 1 / 3) (hθ : cfg.thetamaxsqd = θ ^ 2) (he : 0 ≤ eps) (s : Star n)
    (hs : 0 < s.h) (hms : 0 ≤ s.m) (ha : s.a = fun _ => 0) (Ntot fuel tries M : ℕ) (hfuel : f.cells.length ≤ fuel)
    (s' : Star n) (hrun : starForces herm o eps K d none T P Ntot pfuel fuel tries M s = some s') :
    ∃ near ps cs : List ℕ, (near ++ ps).Perm l ∧
      ∀ δ, (o = .quadrupole → cfg.needQuad = true ∧ ∀ c ∈ cs, eps ≤ δ * gdist eps s.r (T.cell c).r ^ 2) →
      ∀ k, |s.m * s'.a k + (l.map fun i => P.m i * gasFromStar K 0 (P.r i) (P.h i) s.r s.h s.m k).sum| ≤
        s.m * ((cs.map fun c => (T.cell c).m / gdist eps s.r (T.cell c).r ^ 2).sum * errAcc o (2 * θ / (1 - θ)) δ +
        (ps.map fun i => P.m i / gdist 0 s.r (P.r i) ^ 4).sum * (3 * eps / 2)) := by
  obtain ⟨near, ps, cs, hp, h⟩ := C73_force_partial hn T cfg P pfuel f l hT hlive hgrav hh hm K hG hK hcfg d hd herm o θ
    eps hθ0 hθ1 hθ he s hs Ntot fuel tries M hfuel s' hrun
  refine ⟨near, ps, cs, hp, fun δ hδ k => ?_⟩
  have h1 := (h δ hδ).2 k
  have e : (l.map fun i => P.m i * gasFromStar K 0 (P.r i) (P.h i) s.r s.h s.m k).sum =
      -(s.m * (l.map fun i => softAcc K s.r s.h (P.r i) (P.h i) (P.m i) k).sum) := by
    rw [← List.sum_map_mul_left, ← Sn.sum_map_neg]
    refine congrArg List.sum (List.map_congr_left fun i _ => ?_)
    have h2 := C45_star_gas_partial K d hd s.r (P.r i) s.h (P.h i) s.m (P.m i) k
    have h3 : starFromGas K d s.r s.h (P.r i) (P.h i) (P.m i) k = softAcc K s.r s.h (P.r i) (P.h i) (P.m i) k :=
      smoothAcc_soft K hd s (gas P i) k
    rw [h3] at h2
    linarith
  rw [e, ← sub_eq_add_neg, ← mul_sub, abs_mul, abs_of_nonneg hms]
  rw [ha, zero_add] at h1
  exact mul_le_mul_of_nonneg_left h1 hms

/-! ### the rate of change -/

/-- gas of fixed masses and smoothing lengths that moves with its velocities -/
structure StarGas.Moves (P : ℝ → Parts n) (t : ℝ) : Prop where
  m : ∀ τ j, (P τ).m j = (P t).m j
  h : ∀ τ j, (P τ).h j = (P t).h j
  vel : ∀ j k, HasDerivAt (fun τ => (P τ).r j k) ((P t).v j k) t

theorem StarGas.hasDerivAt_sum {f : ℕ → ℝ → ℝ} {f' : ℕ → ℝ} {t : ℝ} (l : List ℕ)
    (h : ∀ j ∈ l, HasDerivAt (f j) (f' j) t) : HasDerivAt (fun τ => (l.map fun j => f j τ).sum) (l.map f').sum t := by
  induction l with
  | nil => simpa using hasDerivAt_const t (0 : ℝ)
  | cons a l ih =>
    simp only [List.map_cons, List.sum_cons]
    exact (h a (by simp)).fun_add (ih fun j hj => h j (by simp [hj]))

/-- **C73, partial: the rate of the acceleration.** In three dimensions, without Ewald corrections, the Hermite schemes
give a star the time derivative of the acceleration it gets from neighbours and from particles summed directly. Missing:
the cells and the Ewald corrections (`C73_jerk_fails`), fewer dimensions (`C45_smoothed_jerk_1d_fails`). -/
theorem C73_jerk_partial (K : Kernel) (hK : Continuous K.w0) (hG : K.GravityOK) (d : Domain 3 ℝ) (P : ℝ → Parts 3)
    (s : ℝ → Star 3) (t : ℝ) (hP : Moves P t) (hh : ∀ j, 0 ≤ (P t).h j) (hs : 0 < (s t).h)
    (hsh : ∀ τ, (s τ).h = (s t).h) (hv : ∀ k, HasDerivAt (fun τ => (s τ).r k) ((s t).v k) t)
    (ha : ∀ τ, (s τ).a = fun _ => 0) (hj : (s t).adot = fun _ => 0) (nb dr : List ℕ)
    (hap : ∀ j ∈ nb ++ dr, Apart d (s t).r ((P t).r j)) (k : Fin 3) :
    HasDerivAt (fun τ => (hydroForces true K d none (P τ) nb dr (s τ)).a k)
      ((hydroForces true K d none (P t) nb dr (s t)).adot k) t := by
  simp only [hydroForces_eq, add, corr, add_zero, ha, hj, zero_add, if_true]
  refine HasDerivAt.fun_add (hasDerivAt_sum nb fun j hjm => ?_) (hasDerivAt_sum dr fun j hjm => ?_)
  · have hA := hap j (List.mem_append_left _ hjm)
    have hsep := fun k => hasDerivAt_sep (x := fun τ => (s τ).r) (y := fun τ => (P τ).r j) hA hv (hP.vel j) k
    have hpos : 0 < √(dot (sep d (s t).r ((P t).r j)) (sep d (s t).r ((P t).r j))) :=
      Real.sqrt_pos.mpr (dot_self_pos' hA.1)
    have hq : 0 < invhmean (s t).h ((P t).h j) := by
      have := hh j
      simp only [invhmean]; positivity
    have e : (fun τ => smoothAcc K 0 d (s τ) (gas (P τ) j) k) = fun τ => (P t).m j *
        (soft K (invhmean (s t).h ((P t).h j)) (√(dot (sep d (s τ).r ((P τ).r j)) (sep d (s τ).r ((P τ).r j)))) *
          sep d (s τ).r ((P τ).r j) k) := by
      funext τ
      simp only [smoothAcc, paux, drmag, add_zero, gas, soft, hP.m τ j, hP.h τ j, hsh τ]
      ring
    rw [e]
    refine ((hasDerivAt_central hsep hA.1 (hasDerivAt_soft hK hG hq hpos) k).const_mul _).congr_deriv ?_
    simp only [smoothJerk, paux, soft, drmag, gas, add_zero]
    have := hpos.ne'
    field_simp
    ring
  · have hA := hap j (List.mem_append_right _ hjm)
    have hsep := fun k => hasDerivAt_sep (x := fun τ => (s τ).r) (y := fun τ => (P τ).r j) hA hv (hP.vel j) k
    have hpos : 0 < √(dot (sep d (s t).r ((P t).r j)) (sep d (s t).r ((P t).r j))) :=
      Real.sqrt_pos.mpr (dot_self_pos' hA.1)
    have e : (fun τ => directAcc d (s τ) (gas (P τ) j) k) = fun τ => (P t).m j *
        (newton (√(dot (sep d (s τ).r ((P τ).r j)) (sep d (s τ).r ((P τ).r j)))) * sep d (s τ).r ((P τ).r j) k) := by
      funext τ
      simp only [directAcc, gas, newton, hP.m τ j]
      ring
    rw [e]
    refine ((hasDerivAt_central hsep hA.1 (hasDerivAt_newton hpos) k).const_mul _).congr_deriv ?_
    simp only [directJerk, gas, newton]
    have := hpos.ne'
    field_simp
    ring

/-! ### where it is wrong -/

/-- a leaf beyond reach and opening distance is taken as one cell -/
theorem StarGas.leaf_far (cfg : Cfg) (P : Parts 1) (Nl : ℕ) (hd : ∀ i, P.dead i = false) (K hs : ℝ) (rs : Vec 1 ℝ)
    (Ntot M : ℕ) (hM : 0 < M)
    (h1 : (0.5 * (K * hs) + ((leafTree cfg P [0, 1] Nl).cell 0).rmax +
      0.5 * K * ((leafTree cfg P [0, 1] Nl).cell 0).hmax) ^ 2 ≤
        Tree.distsqd ((leafTree cfg P [0, 1] Nl).cell 0).rcell rs)
    (h2 : ((leafTree cfg P [0, 1] Nl).cell 0).cdistsqd < Tree.distsqd ((leafTree cfg P [0, 1] Nl).cell 0).rcell rs) :
    findLists (leafTree cfg P [0, 1] Nl) P K rs hs Ntot 2 1 1 M = some ⟨[], [], [0]⟩ := by
  have N0 : ((leafTree cfg P [0, 1] Nl).cell 0).N = 2 := (leaf_summary cfg P [0, 1] Nl fun i _ => hd i).N
  have b : (leafTree cfg P [0, 1] Nl).starGravityBody P K rs hs Ntot Ntot M 2 0 ⟨[], [], []⟩ = .next ⟨[], [], [0]⟩ := by
    simp only [Tree.starGravityBody]
    rw [if_neg (not_lt.mpr h1), if_pos ⟨h2, by rw [N0]; norm_num⟩, if_neg, if_pos]
    · simp
    · exact ⟨by simpa using hM, by rw [N0]; norm_num⟩
    · rw [N0]; simp
  have hl : (leafTree cfg P [0, 1] Nl).links.cnext 0 = some 1 := rfl
  have hN : (leafTree cfg P [0, 1] Nl).Ncell = 1 := rfl
  rw [findLists, Tree.starGravityWalk, hN, Walk.walk, if_pos (by norm_num), b, hl]
  simp only []
  rw [Walk.walk, if_neg (by norm_num)]

/-- a leaf within reach is taken as neighbours -/
theorem StarGas.leaf_near (cfg : Cfg) (P : Parts 1) (Nl : ℕ) (hd : ∀ i, P.dead i = false) (K hs : ℝ) (rs : Vec 1 ℝ)
    (Ntot M : ℕ) (hN : Nl ≤ Ntot)
    (h1 : Tree.distsqd ((leafTree cfg P [0, 1] Nl).cell 0).rcell rs <
      (0.5 * (K * hs) + ((leafTree cfg P [0, 1] Nl).cell 0).rmax +
      0.5 * K * ((leafTree cfg P [0, 1] Nl).cell 0).hmax) ^ 2) :
    findLists (leafTree cfg P [0, 1] Nl) P K rs hs Ntot 2 1 1 M = some ⟨[0, 1], [], []⟩ := by
  have b : (leafTree cfg P [0, 1] Nl).starGravityBody P K rs hs Ntot Ntot M 2 0 ⟨[], [], []⟩ =
      .next ⟨[0, 1], [], []⟩ := by
    have hl := leaf_list cfg P Nl
    simp only [Tree.starGravityBody]
    rw [if_pos h1, if_neg (by simp [leafTree]), if_pos (by simpa [leafTree] using hN), hl]
    simp [hd]
  have hl : (leafTree cfg P [0, 1] Nl).links.cnext 0 = some 1 := rfl
  have hN : (leafTree cfg P [0, 1] Nl).Ncell = 1 := rfl
  rw [findLists, Tree.starGravityWalk, hN, Walk.walk, if_pos (by norm_num), b, hl]
  simp only []
  rw [Walk.walk, if_neg (by norm_num)]

/-- **C73, negation: periodic boxes.** Neither the distance of a cell nor its force is that of the nearest image
(Tree.cpp:789-790, NeighbourSearch.h:361-371), and no Ewald correction is added for it: in a box of size one a star at
0.05 with gas at 0.94 and 0.96, whose nearest images are to the left, is pulled to the right, whatever the corrections
are. -/
theorem C73_periodic_fails : ∃ (T : Tree 1) (cfg : Cfg) (P : Parts 1) (f : Forest) (s : Star 1),
    T.OK cfg P 2 f [0, 1] ∧ (∀ j ∈ [0, 1], P.grav j = true ∧ 0 < P.m j ∧ sep unitPeriodic s.r (P.r j) 0 < 0) ∧
    s.a 0 = 0 ∧ ∀ (herm : Bool) (K : Kernel) (ew : Option (ℝ → Vec 1 ℝ → Vec 1 ℝ × ℝ)) (eps : ℝ), K.kernrange = 2 → 0 ≤ eps →
      ∃ s', starForces herm .monopole eps K unitPeriodic ew T P 8 2 1 1 16 s = some s' ∧ 0 < s'.a 0 := by
  set P := linePart (fun i => 47 / 50 + i / 50) (1 / 1000) with hP
  have hok := leafTree_ok (lineCfg 10 (1 / 4)) P 6 (by norm_num) fun _ => rfl
  have S := leaf_summary (lineCfg 10 (1 / 4)) P [0, 1] 6 fun _ _ => rfl
  refine ⟨leafTree (lineCfg 10 (1 / 4)) P [0, 1] 6, lineCfg 10 (1 / 4), P, _,
    ⟨fun _ => 1 / 20, fun _ => 0, fun _ => 0, fun _ => 0, 1, 1 / 1000, 0, true⟩, hok, ?_, rfl, ?_⟩
  · simp only [List.mem_cons, List.not_mem_nil, or_false]
    rintro j (rfl | rfl) <;> refine ⟨rfl, ?_, ?_⟩ <;>
      norm_num [hP, linePart, sep, nearestPeriodicVector, unitPeriodic]
  intro herm K ew eps hK he
  have g := box_of S (a := 0) (b := 1) (by simp) (by simp)
    (by simp only [List.mem_cons, List.not_mem_nil, or_false, hP, linePart]
        rintro i (rfl | rfl) <;> norm_num)
    (by norm_num [hP, linePart, lineCfg]) (by norm_num [hP, linePart, lineCfg])
  have hh : ((leafTree (lineCfg 10 (1 / 4)) P [0, 1] 6).cell 0).hmax ≤ 1 / 1000 := by
    rcases S.hmaxTight with h | ⟨i, _, h⟩
    · rw [h]; norm_num
    · rw [h]; exact le_rfl
  have hh0 := S.hmaxNonneg
  have N0 := S.N
  have hc := S.cdist (by rw [N0]; simp)
  have hm : ((leafTree (lineCfg 10 (1 / 4)) P [0, 1] 6).cell 0).m = 2 := by
    rw [S.m]; norm_num [gsum, hP, linePart]
  have hr := S.com (by rw [hm]; norm_num) 0
  rw [hm] at hr
  have hfar := leaf_far (lineCfg 10 (1 / 4)) P 6 (fun _ => rfl) 2 (1 / 1000) (fun _ => 1 / 20) 8 16 (by norm_num)
  generalize (leafTree (lineCfg 10 (1 / 4)) P [0, 1] 6) = T at *
  have g1 : (T.cell 0).rcell 0 = 19 / 20 := by rw [g.1]; norm_num [hP, linePart]
  have g2 : (T.cell 0).rmax = 1 / 100 := by rw [g.2]; norm_num [hP, linePart]
  have hr1 : (T.cell 0).r 0 = 19 / 20 := by
    have : gsum P [0, 1] (fun i => P.m i * P.r i 0) = 19 / 10 := by norm_num [gsum, hP, linePart]
    rw [this] at hr
    linarith
  have ed : Tree.distsqd (T.cell 0).rcell (fun _ => 1 / 20) = 81 / 100 := by
    simp only [Tree.distsqd, dot, Fin.sum_univ_one, g1]
    norm_num
  have hL := hfar (by
      rw [ed, g2]
      have : (0.5 * (2 * (1 / 1000)) + 1 / 100 + 0.5 * 2 * (T.cell 0).hmax) ^ 2 ≤ (9 / 10 : ℝ) ^ 2 :=
        pow_le_pow_left₀ (by norm_num; linarith) (by norm_num; linarith) 2
      norm_num at this ⊢
      exact this) (by
      rw [ed, hc, g2, lineCfg, div_lt_iff₀ (by norm_num)]
      refine max_lt (by norm_num) ?_
      nlinarith)
  refine ⟨_, by rw [starForces, hK, hL]; rfl, ?_⟩
  simp only [cellForces, hydroForces, List.foldl_nil, List.map_cons, List.map_nil]
  rw [monopole_field he]
  simp only [List.map_cons, List.map_nil, List.sum_cons, List.sum_nil, ofCell, hm, hr1]
  have hpos : 0 < gdist eps (fun _ : Fin 1 => (1 / 20 : ℝ)) (T.cell 0).r := by
    rw [gdist]
    refine Real.sqrt_pos.mpr ?_
    simp only [Fin.sum_univ_one, hr1]
    positivity
  have : 0 < 2 * ((19 : ℝ) / 20 - 1 / 20) / gdist eps (fun _ : Fin 1 => (1 / 20 : ℝ)) (T.cell 0).r ^ 3 := by
    apply div_pos (by norm_num) (pow_pos hpos 3)
  linarith

/-- two particles at 0 and 1, masses 1, smoothing lengths 1, gravitating or not: what the leaf knows -/
theorem StarGas.pair_leaf (P : Parts 1) (hr : ∀ i, P.r i = fun _ => (i : ℝ)) (hh : ∀ i, P.h i = 1)
    (hd : ∀ i, P.dead i = false) :
    ((leafTree (lineCfg 10 (1 / 4)) P [0, 1] 6).cell 0).rcell 0 = 1 / 2 ∧
    ((leafTree (lineCfg 10 (1 / 4)) P [0, 1] 6).cell 0).rmax = 1 / 2 ∧
    ((leafTree (lineCfg 10 (1 / 4)) P [0, 1] 6).cell 0).hmax = 1 ∧
    ((leafTree (lineCfg 10 (1 / 4)) P [0, 1] 6).cell 0).cdistsqd = 16 := by
  have S := leaf_summary (lineCfg 10 (1 / 4)) P [0, 1] 6 fun i _ => hd i
  have g := box_of S (a := 0) (b := 1) (by simp) (by simp)
    (by simp only [List.mem_cons, List.not_mem_nil, or_false, hr]
        rintro i (rfl | rfl) <;> norm_num)
    (by norm_num [hr, lineCfg]) (by norm_num [hr, lineCfg])
  have h1 : ((leafTree (lineCfg 10 (1 / 4)) P [0, 1] 6).cell 0).hmax = 1 := by
    rcases S.hmaxTight with h | ⟨i, _, h⟩
    · have := S.hmax 0 (by simp)
      rw [h, hh] at this
      norm_num at this
    · rw [h, hh]
  have N0 := S.N
  have hc := S.cdist (by rw [N0]; simp)
  have g2 : ((leafTree (lineCfg 10 (1 / 4)) P [0, 1] 6).cell 0).rmax = 1 / 2 := by rw [g.2, hr, hr]; norm_num
  refine ⟨by rw [g.1, hr, hr]; norm_num, g2, h1, ?_⟩
  rw [hc, g2, h1, lineCfg]
  norm_num

/-- a star at `x` at rest -/
def StarGas.starAt (x : ℝ) (v : ℝ) : Star 1 := ⟨fun _ => x, fun _ => v, fun _ => 0, fun _ => 0, 1, 1, 0, true⟩

theorem StarGas.pair_far (P : Parts 1) (hr : ∀ i, P.r i = fun _ => (i : ℝ)) (hh : ∀ i, P.h i = 1)
    (hd : ∀ i, P.dead i = false) :
    findLists (leafTree (lineCfg 10 (1 / 4)) P [0, 1] 6) P 2 (fun _ => 100) 1 8 2 1 1 16 = some ⟨[], [], [0]⟩ := by
  obtain ⟨h1, h2, h3, h4⟩ := pair_leaf P hr hh hd
  have ed : Tree.distsqd ((leafTree (lineCfg 10 (1 / 4)) P [0, 1] 6).cell 0).rcell (fun _ => 100) = (199 / 2) ^ 2 := by
    simp only [Tree.distsqd, dot, Fin.sum_univ_one, h1]
    norm_num
  refine leaf_far (lineCfg 10 (1 / 4)) P 6 hd 2 1 (fun _ => 100) 8 16 (by norm_num) ?_ ?_
  · rw [ed, h2, h3]; norm_num
  · rw [ed, h4]; norm_num

/-- **C73, negation: types that do not gravitate.** Neighbours and particles summed directly pull a star whatever their
type, while cells count only the mass of the types that gravitate (KDTree.cpp:884, 926): two particles of test dust pull
a star beside them and do not pull it from afar. -/
theorem C73_types_fails : ∃ (T : Tree 1) (cfg : Cfg) (P : Parts 1) (f : Forest) (near far near' far' : Star 1),
    T.OK cfg P 2 f [0, 1] ∧ (∀ j, P.grav j = false) ∧ near.a 0 = 0 ∧ far.a 0 = 0 ∧
    starForces false .monopole 0 (m4Kernel 3) (bigBox 1 .open_) none T P 8 2 1 1 16 near = some near' ∧ 0 < near'.a 0 ∧
    starForces false .monopole 0 (m4Kernel 3) (bigBox 1 .open_) none T P 8 2 1 1 16 far = some far' ∧ far'.a 0 = 0 := by
  set P : Parts 1 := { linePart (fun i => i) 1 with
    grav := fun _ => false } with hP
  have hok := leafTree_ok (lineCfg 10 (1 / 4)) P 6 (by norm_num) fun _ => rfl
  have S := leaf_summary (lineCfg 10 (1 / 4)) P [0, 1] 6 fun _ _ => rfl
  obtain ⟨h1, h2, h3, h4⟩ := pair_leaf P (fun _ => rfl) (fun _ => rfl) fun _ => rfl
  have hn := leaf_near (lineCfg 10 (1 / 4)) P 6 (fun _ => rfl) 2 1 (fun _ => -1) 8 16 (by norm_num) (by
    rw [h2, h3]
    simp only [Tree.distsqd, dot, Fin.sum_univ_one, h1]
    norm_num)
  have hf := pair_far P (fun _ => rfl) (fun _ => rfl) fun _ => rfl
  have hm : ((leafTree (lineCfg 10 (1 / 4)) P [0, 1] 6).cell 0).m = 0 := by
    rw [S.m]; simp [gsum, hP]
  have hK : (m4Kernel 3).kernrange = 2 := rfl
  refine ⟨leafTree (lineCfg 10 (1 / 4)) P [0, 1] 6, lineCfg 10 (1 / 4), P, _, starAt (-1) 0, starAt 100 0,
    hydroForces false (m4Kernel 3) (bigBox 1 .open_) none P [0, 1] [] (starAt (-1) 0), starAt 100 0, hok, fun _ => rfl, rfl,
    rfl, ?_, ?_, ?_, rfl⟩
  · rw [starForces, hK]
    change Option.map _ (findLists (leafTree (lineCfg 10 (1 / 4)) P [0, 1] 6) P 2 (fun _ => -1) 1 8 2 1 1 16) = _
    rw [hn]
    simp [cellForces, cellMonopoleForces]
  · have hd : ∀ k, ¬Per (bigBox 1 .open_) k := fun k h => by cases h.1
    rw [hydroForces_eq]
    simp only [add, corr, add_zero, List.map_cons, List.map_nil, List.sum_cons, List.sum_nil, smoothAcc_soft _ hd]
    have g : ∀ y : ℝ, gdist 0 (fun _ : Fin 1 => (-1 : ℝ)) (fun _ => y) = |y + 1| := by
      intro y
      rw [gdist, add_zero, Fin.sum_univ_one, Real.sqrt_sq_eq_abs, ← abs_neg]
      congr 1
      ring
    have e0 : (gas P 0).r = fun _ => 0 := by funext k; simp [gas, hP, linePart]
    have e1 : (gas P 1).r = fun _ => 1 := by funext k; simp [gas, hP, linePart]
    have er : (starAt (-1) 0).r = fun _ => -1 := rfl
    have hs : (starAt (-1) 0).h = 1 := rfl
    have hh : ∀ j, (gas P j).h = 1 ∧ (gas P j).m = 1 := fun j => ⟨rfl, rfl⟩
    have ha : (starAt (-1) 0).a 0 = 0 := rfl
    simp only [softAcc, e0, e1, er, g, hs, hh, ha, m4Kernel, M4.wgrav]
    norm_num
  · rw [starForces, hK]
    change Option.map _ (findLists (leafTree (lineCfg 10 (1 / 4)) P [0, 1] 6) P 2 (fun _ => 100) 1 8 2 1 1 16) = _
    rw [hf]
    simp only [Option.map_some, cellForces, hydroForces, List.foldl_nil, List.map_cons, List.map_nil,
      monopole_field le_rfl, ofCell, hm]
    simp [starAt]

/-- **C73, negation: the rate of the acceleration.** The cells add nothing to `adot`: a star that moves away from gas at
rest gets a jerk of zero, although the acceleration by the gas changes. -/
theorem C73_jerk_fails : ∃ (T : Tree 1) (cfg : Cfg) (P : Parts 1) (f : Forest) (s s' : Star 1),
    T.OK cfg P 2 f [0, 1] ∧ (∀ j, P.grav j = true ∧ P.v j = fun _ => 0) ∧ s.adot = (fun _ => 0) ∧
    starForces true .monopole 0 (m4Kernel 3) (bigBox 1 .open_) none T P 8 2 1 1 16 s = some s' ∧
    s'.adot = (fun _ => 0) ∧
    ∃ jerk, jerk ≠ 0 ∧ HasDerivAt (fun τ => ([0, 1].map fun i => softAcc (m4Kernel 3) (fun k => s.r k + τ * s.v k) s.h
      (P.r i) (P.h i) (P.m i) 0).sum) jerk 0 := by
  set P : Parts 1 := linePart (fun i => i) 1 with hP
  have hok := leafTree_ok (lineCfg 10 (1 / 4)) P 6 (by norm_num) fun _ => rfl
  have hf := pair_far P (fun _ => rfl) (fun _ => rfl) fun _ => rfl
  have hK : (m4Kernel 3).kernrange = 2 := rfl
  refine ⟨leafTree (lineCfg 10 (1 / 4)) P [0, 1] 6, lineCfg 10 (1 / 4), P, _, starAt 100 1,
    cellForces .monopole 0 (leafTree (lineCfg 10 (1 / 4)) P [0, 1] 6) [0] (starAt 100 1), hok, fun _ => ⟨rfl, rfl⟩, rfl,
    ?_, rfl, 2 / 100 ^ 3 + 2 / 99 ^ 3, by norm_num, ?_⟩
  · rw [starForces, hK]
    change Option.map _ (findLists (leafTree (lineCfg 10 (1 / 4)) P [0, 1] 6) P 2 (fun _ => 100) 1 8 2 1 1 16) = _
    rw [hf]
    rfl
  · have key : ∀ y : ℝ, 0 ≤ y → y ≤ 1 → HasDerivAt (fun τ : ℝ => softAcc (n := 1) (m4Kernel 3) (fun _ => 100 + τ * 1) 1
        (fun _ => y) 1 1 0) (2 / (100 - y) ^ 3) 0 := by
      intro y h0 h1
      have hx : HasDerivAt (fun τ : ℝ => 100 + τ * 1 - y) 1 0 := by
        simpa using (((hasDerivAt_id (0 : ℝ)).mul_const 1).const_add 100).sub_const y
      have h2 := ((hx.fun_pow 2).inv (by nlinarith)).neg
      have h3 : HasDerivAt (fun τ : ℝ => -((100 + τ * 1 - y) ^ 2)⁻¹) (2 / (100 - y) ^ 3) 0 := by
        refine h2.congr_deriv ?_
        have : (100 - y) ≠ 0 := by linarith
        norm_num
        field_simp
      refine h3.congr_of_eventuallyEq ?_
      filter_upwards [Ioo_mem_nhds (show (-1 : ℝ) < 0 by norm_num) (show (0 : ℝ) < 1 by norm_num)] with τ hτ
      have hp : 0 < 100 + τ * 1 - y := by linarith [hτ.1]
      have g : gdist 0 (fun _ : Fin 1 => 100 + τ * 1) (fun _ => y) = 100 + τ * 1 - y := by
        rw [gdist, add_zero, Fin.sum_univ_one, Real.sqrt_sq_eq_abs, abs_of_pos hp]
      rw [(soft_newton (n := 1) C31_m4_gravity (by rw [hK]; norm_num) 1 (by norm_num) (by
        rw [hK, g]; linarith [hτ.1])).1, g]
      simp only []
      rw [show 1 * (y - (100 + τ * 1)) = -(100 + τ * 1 - y) by ring]
      have := hp.ne'
      generalize 100 + τ * 1 - y = z at *
      field_simp
    have e : (fun τ => ([0, 1].map fun i => softAcc (m4Kernel 3) (fun k => (starAt 100 1).r k + τ * (starAt 100 1).v k)
        (starAt 100 1).h (P.r i) (P.h i) (P.m i) 0).sum) = fun τ : ℝ =>
        softAcc (n := 1) (m4Kernel 3) (fun _ => 100 + τ * 1) 1 (fun _ => 0) 1 1 0 +
          softAcc (n := 1) (m4Kernel 3) (fun _ => 100 + τ * 1) 1 (fun _ => 1) 1 1 0 := by
      funext τ
      have e0 : P.r 0 = fun _ => 0 := by funext k; simp [hP, linePart]
      have e1 : P.r 1 = fun _ => 1 := by funext k; simp [hP, linePart]
      simp only [List.map_cons, List.map_nil, List.sum_cons, List.sum_nil, add_zero, e0, e1]
      rfl
    rw [e]
    refine ((key 0 le_rfl zero_le_one).fun_add (key 1 zero_le_one le_rfl)).congr_deriv ?_
    norm_num

/-- a star that passes gas at rest: the hypotheses of `C73_jerk_partial` -/
example : ∃ (P : ℝ → Parts 3) (s : ℝ → Star 3), Moves P 0 ∧ (∀ j, 0 ≤ (P 0).h j) ∧ 0 < (s 0).h ∧
    (∀ τ, (s τ).h = (s 0).h) ∧ (∀ k, HasDerivAt (fun τ => (s τ).r k) ((s 0).v k) 0) ∧
    (∀ j ∈ [0] ++ [1], Apart (bigBox 3 .open_) (s 0).r ((P 0).r j)) := by
  refine ⟨fun _ => ⟨fun j _ => j + 1, fun _ _ => 0, fun _ => 1, fun _ => 1, fun _ => 1, fun _ => 0, fun _ => 0,
    fun _ => false, fun _ => true, fun _ => true⟩,
    fun τ => ⟨fun _ => τ, fun _ => 1, fun _ => 0, fun _ => 0, 1, 1, 0, true⟩,
    ⟨fun _ _ => rfl, fun _ _ => rfl, fun j k => by simpa using hasDerivAt_const (0 : ℝ) ((j : ℝ) + 1)⟩,
    fun _ => zero_le_one, one_pos, fun _ => rfl, fun k => hasDerivAt_id _, fun j _ => ⟨fun h => ?_, fun k h => by cases h.1⟩⟩
  have := congrFun h 0
  rw [sep_open (fun k h => by cases h.1)] at this
  simp only [sub_zero, Pi.zero_apply] at this
  have : (0 : ℝ) < j + 1 := by positivity
  linarith

/-! ### all stars -/

theorem StarGas.add_keeps (s : Star n) (g : ℝ) (a j : Fin n → ℝ) :
    (add s g a j).r = s.r ∧ (add s g a j).v = s.v ∧ (add s g a j).m = s.m ∧ (add s g a j).h = s.h ∧
      (add s g a j).active = s.active := ⟨rfl, rfl, rfl, rfl, rfl⟩

theorem StarGas.ewald_keeps (ew : Option (ℝ → Vec n ℝ → Vec n ℝ × ℝ)) (d : Domain n ℝ) (s g : Star n) :
    (ewald ew d s g).r = s.r ∧ (ewald ew d s g).v = s.v ∧ (ewald ew d s g).m = s.m ∧ (ewald ew d s g).h = s.h ∧
      (ewald ew d s g).active = s.active := by
  cases ew <;> exact ⟨rfl, rfl, rfl, rfl, rfl⟩

theorem StarGas.foldl_keeps (step : Star n → ℕ → Star n) (hstep : ∀ s j, (step s j).r = s.r ∧ (step s j).v = s.v ∧
    (step s j).m = s.m ∧ (step s j).h = s.h ∧ (step s j).active = s.active) (l : List ℕ) : ∀ s : Star n,
    (l.foldl step s).r = s.r ∧ (l.foldl step s).v = s.v ∧ (l.foldl step s).m = s.m ∧ (l.foldl step s).h = s.h ∧
      (l.foldl step s).active = s.active := by
  induction l with
  | nil => intro s; exact ⟨rfl, rfl, rfl, rfl, rfl⟩
  | cons j l ih =>
    intro s
    obtain ⟨h1, h2, h3, h4, h5⟩ := ih (step s j)
    obtain ⟨g1, g2, g3, g4, g5⟩ := hstep s j
    exact ⟨h1.trans g1, h2.trans g2, h3.trans g3, h4.trans g4, h5.trans g5⟩

theorem StarGas.starForces_keeps {herm : Bool} {o : Order} {eps : ℝ} {K : Kernel} {d : Domain n ℝ}
    {ew : Option (ℝ → Vec n ℝ → Vec n ℝ × ℝ)} {T : Tree n} {P : Parts n} {Ntot pfuel fuel tries M : ℕ} {s s' : Star n}
    (h : starForces herm o eps K d ew T P Ntot pfuel fuel tries M s = some s') :
    s'.r = s.r ∧ s'.v = s.v ∧ s'.m = s.m ∧ s'.h = s.h ∧ s'.active = s.active := by
  simp only [starForces, Option.map_eq_some_iff] at h
  obtain ⟨L, _, rfl⟩ := h
  obtain ⟨h1, h2, h3, h4, h5⟩ := foldl_keeps (near herm K d ew P) (fun s j => by
    obtain ⟨a1, a2, a3, a4, a5⟩ := ewald_keeps ew d (add s (smoothPot K 0 d s (gas P j)) (smoothAcc K 0 d s (gas P j))
      (if herm then smoothJerk K 0 d s (gas P j) else fun _ => 0)) (gas P j)
    exact ⟨a1, a2, a3, a4, a5⟩) L.neib s
  obtain ⟨g1, g2, g3, g4, g5⟩ := foldl_keeps (direct herm d ew P) (fun s j => by
    obtain ⟨a1, a2, a3, a4, a5⟩ := ewald_keeps ew d (add s (directPot d s (gas P j)) (directAcc d s (gas P j))
      (if herm then directJerk d s (gas P j) else fun _ => 0)) (gas P j)
    exact ⟨a1, a2, a3, a4, a5⟩) L.direct (L.neib.foldl (near herm K d ew P) s)
  exact ⟨g1.trans h1, g2.trans h2, g3.trans h3, g4.trans h4, g5.trans h5⟩

/-- **C73, every active star and no other.** With room for one leaf more than there are particles the loop over all stars
ends; each active star has got the gravity of the gas (`starForces`, the subject of the theorems above), an inactive star
is as it was, and positions, velocities, masses and smoothing lengths have not changed. -/
theorem C73_update (T : Tree n) (cfg : Cfg) (P : Parts n) (pfuel : ℕ) (f : Forest) (l : List ℕ)
    (hT : T.OK cfg P pfuel f l) (hlive : ∀ i ∈ l, P.dead i = false) (hh : ∀ i, 0 ≤ P.h i) (K : Kernel) (hK : 0 ≤ K.kernrange)
    (hcfg : cfg.kernrange = K.kernrange) (herm : Bool) (o : Order) (eps : ℝ) (d : Domain n ℝ)
    (ew : Option (ℝ → Vec n ℝ → Vec n ℝ × ℝ)) (Ntot fuel tries M : ℕ) (hN : l.length + T.Nleafmax ≤ Ntot)
    (hfuel : f.cells.length ≤ fuel) (ht : f.cells.length ≤ tries) (ht0 : 0 < tries) (hM : 0 < M) (stars : List (Star n))
    (hs : ∀ s ∈ stars, 0 ≤ s.h) :
    ∃ stars', updateAll herm o eps K d ew T P Ntot pfuel fuel tries M stars = some stars' ∧
      stars'.length = stars.length ∧
      ∀ i (h : i < stars.length) (h' : i < stars'.length),
        (stars[i].active = false → stars'[i] = stars[i]) ∧
        (stars[i].active = true → starForces herm o eps K d ew T P Ntot pfuel fuel tries M stars[i] = some stars'[i]) ∧
        stars'[i].r = stars[i].r ∧ stars'[i].v = stars[i].v ∧ stars'[i].m = stars[i].m ∧ stars'[i].h = stars[i].h ∧
        stars'[i].active = stars[i].active := by
  induction stars with
  | nil => exact ⟨[], rfl, rfl, fun i h => absurd h (by simp)⟩
  | cons s stars ih =>
    obtain ⟨out, h1, h2, h3⟩ := ih fun x hx => hs x (by simp [hx])
    have key : ∃ s', (if s.active then starForces herm o eps K d ew T P Ntot pfuel fuel tries M s else some s) = some s' ∧
        (s.active = false → s' = s) ∧
        (s.active = true → starForces herm o eps K d ew T P Ntot pfuel fuel tries M s = some s') ∧
        s'.r = s.r ∧ s'.v = s.v ∧ s'.m = s.m ∧ s'.h = s.h ∧ s'.active = s.active := by
      by_cases ha : s.active = true
      · obtain ⟨L, hL⟩ := C73_found T cfg P pfuel f l hT hlive (hcfg ▸ hK) hh s.r s.h (hs s (by simp)) Ntot fuel M hN hfuel hM
        have e : ∃ s', starForces herm o eps K d ew T P Ntot pfuel fuel tries M s = some s' := by
          have := hL tries ht ht0
          rw [hcfg] at this
          simp only [starForces, this, Option.map_some]
          exact ⟨_, rfl⟩
        obtain ⟨s', e⟩ := e
        exact ⟨s', by rw [if_pos ha, e], fun h => by simp [ha] at h, fun _ => e, starForces_keeps e⟩
      · exact ⟨s, by rw [if_neg ha], fun _ => rfl, fun h => absurd h ha, rfl, rfl, rfl, rfl, rfl⟩
    obtain ⟨s', k1, k2⟩ := key
    refine ⟨s' :: out, ?_, by simp [h2], ?_⟩
    · rw [updateAll] at h1 ⊢
      rw [List.mapM_cons, h1, k1]
      rfl
    · intro i hi hi'
      cases i with
      | zero => exact k2
      | succ i => exact h3 i (by simpa using hi) (by simpa using hi')

/-- one star that is active and one that is not, between two gas particles -/
example : ∃ stars', updateAll true .monopole 0 (m4Kernel 1) (bigBox 1 .open_)
      none (leafTree (lineCfg 10 (1 / 4)) (linePart (fun i => i) 1) [0, 1] 6) (linePart (fun i => i) 1) 8 2 1 1 1
      [⟨fun _ => 1 / 2, 0, 0, 0, 1, 1, 0, true⟩, ⟨fun _ => 1 / 2, 0, 0, 0, 1, 1, 0, false⟩] = some stars' := by
  obtain ⟨out, h, _⟩ := C73_update _ (lineCfg 10 (1 / 4)) (linePart (fun i => i) 1) 2 _ _
    (leafTree_ok (lineCfg 10 (1 / 4)) (linePart (fun i => i) 1) 6 (by norm_num) fun _ => rfl) (fun _ _ => rfl)
    (fun _ => by norm_num [linePart]) (m4Kernel 1) (by norm_num [m4Kernel]) (by norm_num [lineCfg, m4Kernel]) true .monopole 0
    (bigBox 1 .open_) none 8 1 1 1
    (by simp [leafTree]) (by simp [Forest.cells]) (by simp [Forest.cells]) one_pos one_pos
    [⟨fun _ => 1 / 2, 0, 0, 0, 1, 1, 0, true⟩, ⟨fun _ => 1 / 2, 0, 0, 0, 1, 1, 0, false⟩]
    (by simp)
  exact ⟨out, h⟩

end Gandalf
