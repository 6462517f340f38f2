import Verif.Proof.MpiSplit
import Verif.Prop.C05

/-!
# C91: the first distribution of the particles among the processes
(src/Mpi/MpiTree.cpp:230-424, src/Mpi/MpiKDTreeDecomposition.cpp:56-275)

`t` are the links made by `CreateTreeStructure` for `2^L` leaves; process `p` gets the particles of leaf `g2c p`. `junk` and
`D` hold whatever was in the memory of the cells and of the index arrays.
-/

set_option autoImplicit false

namespace Gandalf

open Mpi KD LeafList QuickSelect

section
variable {n : ℕ} [NeZero n] {α : Type*} [Field α] [LinearOrder α] [IsStrictOrderedRing α]

/-- What a user expects of the distribution of particles `0, ..., N - 1` at `r` over `M` processes: `lists p` go to `p`. -/
structure SharedOut (simbox : Box n α) (r : ℕ → Vec n α) (N M : ℕ) (dom : ℕ → Box n α) (lists : ℕ → List ℕ) : Prop where
  /-- each particle is in exactly one list, once -/
  once : ((List.range M).flatMap lists).Perm (List.range N)
  /-- the shares differ by one particle at most -/
  even : ∀ p < M, N / M ≤ (lists p).length ∧ (lists p).length ≤ N / M + 1
  /-- the domains cut up the simulation box -/
  cut : CutsUp simbox M dom
  /-- a particle does not lie beyond a face of the domain of its process -/
  place : ∀ p < M, ∀ i ∈ lists p, ∀ k, (dom p).min k ≤ r i k ∧ r i k ≤ (dom p).max k

/-- With at least as many particles as processes, all inside the simulation box, the division ends, reads no index -1, and
shares out the particles; the root cell lists all processes in their order. -/
theorem C91_shared_out (L gmax : ℕ) (hg : 2 ^ L ≤ gmax) (s0 : Links) (r : ℕ → Vec n α) (big : α) (simbox : Box n α) (N : ℕ)
    (hN : 2 ^ L ≤ N) (hbox : ∀ i < N, ∀ k, simbox.min k ≤ r i k ∧ r i k ≤ simbox.max k) (D : Division n α) (ids : ℕ → ℕ)
    (inext : ℕ → Option ℕ) :
    ∃ (t : Links) (s : Split n α) (lists : ℕ → List ℕ), createTreeStructure L gmax s0 = some t ∧ firstSplit t L r big simbox N D ids inext = some s ∧
      (∀ p < 2 ^ L, nodeIds t s N p = some (lists p)) ∧
      SharedOut simbox r N (2 ^ L) (domainOf t s.D) lists ∧
      s.nodes 0 = List.range (2 ^ L) := by
  obtain ⟨t, h1, h2, -⟩ := C05_structure_is_preorder L gmax hg s0
  have hpos : 1 ≤ 2 ^ L := Nat.one_le_two_pow
  have hsl : slice (splitInit simbox N D ids inext).ids 0 N = List.range N := by
    rw [slice, ← List.range_eq_range']
    conv_rhs => rw [← List.map_id (List.range N)]
    exact List.map_congr_left fun i hi => if_pos (List.mem_range.mp hi)
  obtain ⟨s, lst, e, H⟩ := divideTree_spec t L r big L 0 0 h2 (L + 1) (by omega) (splitInit simbox N D ids inext) 0 N hN
    (by simp [splitInit]) (by simp [splitInit]) (by simp [splitInit]; omega) (by rw [hsl]; exact List.nodup_range)
    (by
      rw [hsl]
      intro i hi
      have : (splitInit simbox N D ids inext).D.box 0 = simbox := by simp [splitInit]
      rw [this]
      exact hbox i (List.mem_range.mp hi))
  have hb0 : s.D.box 0 = simbox := by rw [H.ownBox]; simp [splitInit]
  have hp0 : (slice s.ids 0 N).Perm (List.range N) := by
    have := H.perm.slice_perm
    rw [Nat.add_sub_cancel_left, hsl] at this
    exact this
  have hparts := H.parts
  rw [← List.range_eq_range'] at hparts
  have honce : ((List.range (2 ^ L)).flatMap lst).Perm (List.range N) := hparts ▸ hp0
  have hnd : ((List.range (2 ^ L)).flatMap lst).Nodup := honce.nodup_iff.mpr List.nodup_range
  have hlen : ∀ p < 2 ^ L, (lst p).length ∈ leafCounts L N := by
    intro p hp
    rw [← H.counts]
    exact List.mem_map.mpr ⟨p, List.mem_range'_1.mpr ⟨Nat.zero_le _, by omega⟩, rfl⟩
  have hle : ∀ p < 2 ^ L, (lst p).length ≤ N := by
    intro p hp
    have hsub : (lst p).Sublist ((List.range (2 ^ L)).flatMap lst) :=
      List.sublist_flatten_of_mem (List.mem_map.mpr ⟨p, List.mem_range.mpr hp, rfl⟩)
    have := hsub.length_le
    rwa [honce.length_eq, List.length_range] at this
  refine ⟨t, s, lst, h1, by simpa [firstSplit] using e, fun p hp => ?_, ⟨honce, fun p hp => ?_, ?_, ?_⟩, ?_⟩
  · have O := H.own p (Nat.zero_le _) (by omega)
    unfold nodeIds
    rw [O.first, O.last]
    refine traverse_chained _ _ O.chain ?_ (hle p hp)
    exact hnd.sublist (List.sublist_flatten_of_mem (List.mem_map.mpr ⟨p, List.mem_range.mpr hp, rfl⟩))
  · refine ⟨leafCounts_ge L N _ (Nat.div_mul_le_self N (2 ^ L)) _ (hlen p hp), leafCounts_le L N _ ?_ _ (hlen p hp)⟩
    have a1 := Nat.div_add_mod N (2 ^ L)
    have a2 := Nat.mod_lt N (Nat.two_pow_pos L)
    rw [add_mul, one_mul, mul_comm (N / 2 ^ L)]
    omega
  · rw [← hb0]
    exact cuts_up h2 H.consistent H.within
  · intro p hp
    exact (H.own p (Nat.zero_le _) (by omega)).box
  · rw [H.nodes, List.range_eq_range']

/-- If moreover no two particles share a coordinate, and none is on an upper face of the simulation box, each particle is in
the domain of its process (lower faces included, upper not), which is the only domain that holds it. -/
theorem C91_own_domain (L gmax : ℕ) (hg : 2 ^ L ≤ gmax) (s0 : Links) (r : ℕ → Vec n α) (big : α) (simbox : Box n α) (N : ℕ)
    (hN : 2 ^ L ≤ N) (hbox : ∀ i < N, simbox.Holds (r i)) (hties : ∀ k, ∀ i < N, ∀ j < N, r i k = r j k → i = j)
    (D : Division n α) (ids : ℕ → ℕ) (inext : ℕ → Option ℕ) :
    ∃ (t : Links) (s : Split n α) (lists : ℕ → List ℕ), createTreeStructure L gmax s0 = some t ∧ firstSplit t L r big simbox N D ids inext = some s ∧
      (∀ p < 2 ^ L, nodeIds t s N p = some (lists p)) ∧
      ∀ p < 2 ^ L, ∀ i < N, i ∈ lists p ↔ (domainOf t s.D p).Holds (r i) := by
  obtain ⟨t, s, lists, e1, e2, e3, S, -⟩ := C91_shared_out L gmax hg s0 r big simbox N hN
    (fun i hi k => ⟨(hbox i hi k).1, (hbox i hi k).2.le⟩) D ids inext
  obtain ⟨t', h1, h2, -⟩ := C05_structure_is_preorder L gmax hg s0
  obtain rfl : t = t' := by rw [e1] at h1; exact Option.some.inj h1
  have hpos : 1 ≤ 2 ^ L := Nat.one_le_two_pow
  have hsl : slice (splitInit simbox N D ids inext).ids 0 N = List.range N := by
    rw [slice, ← List.range_eq_range']
    conv_rhs => rw [← List.map_id (List.range N)]
    exact List.map_congr_left fun i hi => if_pos (List.mem_range.mp hi)
  have hb : (splitInit simbox N D ids inext).D.box 0 = simbox := by simp [splitInit]
  obtain ⟨s', lst, e, H⟩ := divideTree_spec t L r big L 0 0 h2 (L + 1) (by omega) (splitInit simbox N D ids inext) 0 N hN
    (by simp [splitInit]) (by simp [splitInit]) (by simp [splitInit]; omega) (by rw [hsl]; exact List.nodup_range)
    (by
      rw [hsl, hb]
      intro i hi k
      have := hbox i (List.mem_range.mp hi) k
      exact ⟨this.1, this.2.le⟩)
  obtain rfl : s = s' := by
    have : firstSplit t L r big simbox N D ids inext = some s' := by simpa [firstSplit] using e
    rw [e2] at this
    exact Option.some.inj this
  have hin : ∀ p < 2 ^ L, ∀ i ∈ lists p, (domainOf t s.D p).Holds (r i) := by
    intro p hp i hi
    have O := H.own p (Nat.zero_le _) (by omega)
    have hl : lists p = lst p := by
      have := e3 p hp
      unfold nodeIds at this
      rw [O.first, O.last] at this
      have hnd : ((List.range (2 ^ L)).flatMap lst).Nodup := by
        have hp0 := H.perm.slice_perm
        rw [Nat.add_sub_cancel_left, hsl] at hp0
        rw [List.range_eq_range', H.parts]
        exact hp0.nodup_iff.mpr List.nodup_range
      have hsub : (lst p).Sublist ((List.range (2 ^ L)).flatMap lst) :=
        List.sublist_flatten_of_mem (List.mem_map.mpr ⟨p, List.mem_range.mpr hp, rfl⟩)
      have hle : (lst p).length ≤ N := by
        have := hsub.length_le
        rwa [List.range_eq_range', H.parts, slice_length] at this
      rw [traverse_chained _ _ O.chain (hnd.sublist hsub) hle] at this
      exact (Option.some.inj this).symm
    rw [hl] at hi
    refine H.halfOpen ?_ ?_ p (Nat.zero_le _) (by omega) i hi
    · rw [hsl]
      intro k x hx y hy h
      exact hties k x (List.mem_range.mp hx) y (List.mem_range.mp hy) h
    · rw [hsl, hb]
      exact fun i hi => hbox i (List.mem_range.mp hi)
  refine ⟨t, s, lists, e1, e2, e3, fun p hp i hi => ⟨hin p hp i, fun hh => ?_⟩⟩
  have hm : i ∈ (List.range (2 ^ L)).flatMap lists := S.once.mem_iff.mpr (List.mem_range.mpr hi)
  obtain ⟨q, hq, hiq⟩ := List.mem_flatMap.mp hm
  rw [List.mem_range] at hq
  by_cases hpq : q = p
  · exact hpq ▸ hiq
  · exact (S.cut.disjoint q hq p hp hpq (r i) ⟨hin q hq i hiq, hh⟩).elim

/-- Cells are divided along a longest side of their box, at the coordinate of a particle, into halves `leftBox`, `rightBox`. -/
theorem C91_division (L gmax : ℕ) (hg : 2 ^ L ≤ gmax) (s0 : Links) (r : ℕ → Vec n α) (big : α) (simbox : Box n α) (N : ℕ)
    (hN : 2 ^ L ≤ N) (hbox : ∀ i < N, ∀ k, simbox.min k ≤ r i k ∧ r i k ≤ simbox.max k) (D : Division n α) (ids : ℕ → ℕ)
    (inext : ℕ → Option ℕ) (t : Links) (s : Split n α) (ht : createTreeStructure L gmax s0 = some t)
    (hs : firstSplit t L r big simbox N D ids inext = some s) (hv : ∀ k, simbox.min k ≤ simbox.max k) :
    Nodes L 0 fun c _ => ∀ j, (s.D.box c).max j - (s.D.box c).min j ≤
      (s.D.box c).max (s.D.k c) - (s.D.box c).min (s.D.k c) := by
  obtain ⟨t', h1, h2, -⟩ := C05_structure_is_preorder L gmax hg s0
  obtain rfl : t = t' := by rw [ht] at h1; exact Option.some.inj h1
  have hpos : 1 ≤ 2 ^ L := Nat.one_le_two_pow
  have hsl : slice (splitInit simbox N D ids inext).ids 0 N = List.range N := by
    rw [slice, ← List.range_eq_range']
    conv_rhs => rw [← List.map_id (List.range N)]
    exact List.map_congr_left fun i hi => if_pos (List.mem_range.mp hi)
  have hb : (splitInit simbox N D ids inext).D.box 0 = simbox := by simp [splitInit]
  obtain ⟨s', lst, e, H⟩ := divideTree_spec t L r big L 0 0 h2 (L + 1) (by omega) (splitInit simbox N D ids inext) 0 N hN
    (by simp [splitInit]) (by simp [splitInit]) (by simp [splitInit]; omega) (by rw [hsl]; exact List.nodup_range)
    (by
      rw [hsl, hb]
      exact fun i hi => hbox i (List.mem_range.mp hi))
  obtain rfl : s = s' := by
    have : firstSplit t L r big simbox N D ids inext = some s' := by simpa [firstSplit] using e
    rw [hs] at this
    exact Option.some.inj this
  have hb0 : s.D.box 0 = simbox := by rw [H.ownBox, hb]
  have hvalid : ∀ d c, Nodes d c (ConsistentAt s.D) → Nodes d c (fun c _ => WithinAt s.D c) →
      Nodes d c (fun c _ => s.D.k c = longSide (s.D.box c)) → (∀ k, (s.D.box c).min k ≤ (s.D.box c).max k) →
      Nodes d c fun c _ => ∀ j, (s.D.box c).max j - (s.D.box c).min j ≤
        (s.D.box c).max (s.D.k c) - (s.D.box c).min (s.D.k c) := by
    intro d
    induction d with
    | zero => intro c _ _ _ _; trivial
    | succ d ih =>
      rintro c ⟨c1, c2, c3⟩ ⟨w1, w2, w3⟩ ⟨l1, l2, l3⟩ hvc
      refine ⟨fun j => by rw [l1]; exact longSide_spec _ hvc j, ih _ c2 w2 l2 ?_, ih _ c3 w3 l3 ?_⟩
      · rw [c1.1]
        intro k
        show (s.D.box c).min k ≤ Function.update (s.D.box c).max _ _ k
        by_cases h : k = s.D.k c
        · subst h; rw [Function.update_self]; exact w1.1
        · rw [Function.update_of_ne h]; exact hvc k
      · rw [c1.2]
        intro k
        show Function.update (s.D.box c).min _ _ k ≤ (s.D.box c).max k
        by_cases h : k = s.D.k c
        · subst h; rw [Function.update_self]; exact w1.2
        · rw [Function.update_of_ne h]; exact hvc k
  exact hvalid L 0 H.consistent H.within H.long (by rw [hb0]; exact hv)

/-- The particles of all processes together are those the root process had. -/
theorem C91_nothing_lost {P : Type*} (part : ℕ → P) (lists : ℕ → List ℕ) (N M : ℕ)
    (h : ((List.range M).flatMap lists).Perm (List.range N)) :
    ((List.range M).flatMap (afterSplit part lists)).Perm ((List.range N).map part) := by
  have e : ∀ p, afterSplit part lists p = (lists p).map part := by
    intro p
    unfold afterSplit
    split_ifs with hp
    · subst hp
      apply List.ext_getElem
      · simp
      · intro i hi _
        simp only [List.length_map, List.length_range] at hi
        simp [hi]
    · rfl
  have : (List.range M).flatMap (afterSplit part lists) = ((List.range M).flatMap lists).map part := by
    rw [List.map_flatMap]
    exact List.flatMap_congr fun p _ => e p
  rw [this]
  exact h.map part

/-- **Negation.** With fewer than half as many particles as processes the division uses index -1. -/
theorem C91_few_particles_fails (L gmax : ℕ) (hg : 2 ^ (L + 1) ≤ gmax) (s0 : Links) (r : ℕ → Vec n α) (big : α)
    (simbox : Box n α) (N : ℕ) (h1 : 1 ≤ N) (hN : N < 2 ^ L) (D : Division n α) (ids : ℕ → ℕ) (inext : ℕ → Option ℕ) :
    ∃ t, createTreeStructure (L + 1) gmax s0 = some t ∧ firstSplit t (L + 1) r big simbox N D ids inext = none := by
  obtain ⟨t, e1, h2, -⟩ := C05_structure_is_preorder (L + 1) gmax hg s0
  refine ⟨t, e1, ?_⟩
  have := divideTree_few t (L + 1) r big L 0 0 h2 (L + 1 + 1) (splitInit simbox N D ids inext) 0 N hN
    (by simp [splitInit]) (by rw [if_neg (by omega)]; simp [splitInit])
    (by intro i hi _; simp [splitInit, Function.update_of_ne (show i ≠ 0 by omega)])
  simpa [firstSplit] using this
end

/-! ### Cases -/

/-- memory of the cells and of the index arrays at the start -/
def C91.links0 : Links := ⟨fun _ => 0, fun _ => none, fun _ => none, fun _ => none, fun _ => none, fun _ => 0, fun _ => 0, 0⟩

/-- Five particles on the line for four processes. -/
def C91.pos5 : ℕ → Vec 1 ℚ := fun i _ => [3, 1, 9, 5, 7].getD i 0

/-- The division of `[0, 10]` at `5`, `3` and `7`; the second process gets particle 0 at `3`, the last gets two. -/
example : ∃ t s, createTreeStructure 2 4 C91.links0 = some t ∧
    firstSplit t 2 C91.pos5 1000 ⟨fun _ => 0, fun _ => 10⟩ 5 ⟨fun _ => ⟨fun _ => 0, fun _ => 0⟩, fun _ => 0, fun _ => 0⟩
      (fun _ => 0) (fun _ => none) = some s ∧
    (List.range 4).map (nodeIds t s 5) = [some [1], some [0], some [3], some [4, 2]] ∧
    (List.range 4).map (fun p => ((domainOf t s.D p).min 0, (domainOf t s.D p).max 0)) =
      [(0, 3), (3, 5), (5, 7), (7, 10)] := by
  refine ⟨_, _, rfl, rfl, ?_, ?_⟩
  · decide +kernel
  · decide +kernel

example : ∃ (t : Links) (s : Split 1 ℚ) (lists : ℕ → List ℕ), createTreeStructure 2 4 C91.links0 = some t ∧
    firstSplit t 2 C91.pos5 1000 ⟨fun _ => 0, fun _ => 10⟩ 5 ⟨fun _ => ⟨fun _ => 0, fun _ => 0⟩, fun _ => 0, fun _ => 0⟩
      (fun _ => 0) (fun _ => none) = some s ∧
    (∀ p < 2 ^ 2, nodeIds t s 5 p = some (lists p)) ∧
    SharedOut ⟨fun _ => 0, fun _ => 10⟩ C91.pos5 5 (2 ^ 2) (domainOf t s.D) lists ∧ s.nodes 0 = List.range (2 ^ 2) :=
  C91_shared_out 2 4 (by norm_num) _ C91.pos5 1000 _ 5 (by norm_num) (by decide +kernel) _ _ _

example : ∃ (t : Links) (s : Split 1 ℚ) (lists : ℕ → List ℕ), createTreeStructure 2 4 C91.links0 = some t ∧
    firstSplit t 2 C91.pos5 1000 ⟨fun _ => 0, fun _ => 10⟩ 5 ⟨fun _ => ⟨fun _ => 0, fun _ => 0⟩, fun _ => 0, fun _ => 0⟩
      (fun _ => 0) (fun _ => none) = some s ∧
    (∀ p < 2 ^ 2, nodeIds t s 5 p = some (lists p)) ∧
    ∀ p < 2 ^ 2, ∀ i < 5, i ∈ lists p ↔ (domainOf t s.D p).Holds (C91.pos5 i) :=
  C91_own_domain 2 4 (by norm_num) _ C91.pos5 1000 ⟨fun _ => 0, fun _ => 10⟩ 5 (by norm_num)
    (by unfold Box.Holds; decide +kernel) (by decide +kernel) _ _ _

/-- The hypotheses of `C91_division` hold here. -/
example : ∃ (t : Links) (s : Split 1 ℚ), createTreeStructure 2 4 C91.links0 = some t ∧
    firstSplit t 2 C91.pos5 1000 ⟨fun _ => 0, fun _ => 10⟩ 5 ⟨fun _ => ⟨fun _ => 0, fun _ => 0⟩, fun _ => 0, fun _ => 0⟩
      (fun _ => 0) (fun _ => none) = some s ∧
    Nodes 2 0 fun c _ => ∀ j, (s.D.box c).max j - (s.D.box c).min j ≤
      (s.D.box c).max (s.D.k c) - (s.D.box c).min (s.D.k c) := by
  obtain ⟨t, s, -, e1, e2, -⟩ := C91_shared_out (n := 1) (α := ℚ) 2 4 (by norm_num) C91.links0 C91.pos5 1000
    ⟨fun _ => 0, fun _ => 10⟩ 5 (by norm_num) (by decide +kernel)
    ⟨fun _ => ⟨fun _ => 0, fun _ => 0⟩, fun _ => 0, fun _ => 0⟩ (fun _ => 0) (fun _ => none)
  exact ⟨t, s, e1, e2, C91_division 2 4 (by norm_num) _ _ _ _ 5 (by norm_num) (by decide +kernel) _ _ _ t s e1 e2
    (by decide +kernel)⟩

/-- Particles with masses 10, 11, 12 on two processes. -/
example : ((List.range 2).flatMap (afterSplit (fun i => 10 + i) fun p => if p = 0 then [2] else [1, 0])).Perm [10, 11, 12] :=
  C91_nothing_lost (fun i => 10 + i) (fun p => if p = 0 then [2] else [1, 0]) 3 2 (by decide)

/-- One particle, four processes. -/
example : ∃ t, createTreeStructure 2 4 C91.links0 = some t ∧
    firstSplit t 2 C91.pos5 1000 ⟨fun _ => 0, fun _ => 10⟩ 1 ⟨fun _ => ⟨fun _ => 0, fun _ => 0⟩, fun _ => 0, fun _ => 0⟩
      (fun _ => 0) (fun _ => none) = none :=
  C91_few_particles_fails 1 4 (by norm_num) _ _ _ _ 1 (by norm_num) (by norm_num) _ _ _

/-- **Negation.** Particles that share the dividing coordinate, as on a lattice, may be sent to the process below it, in whose
domain they are not: four particles at 0, 1, 1, 2. -/
theorem C91_ties_fail : ∃ (t : Links) (s : Split 1 ℚ) (l : List ℕ), createTreeStructure 1 2 C91.links0 = some t ∧
    firstSplit (α := ℚ) t 1 (fun i _ => [0, 1, 1, 2].getD i 0) 1000 ⟨fun _ => 0, fun _ => 3⟩ 4
      ⟨fun _ => ⟨fun _ => 0, fun _ => 0⟩, fun _ => 0, fun _ => 0⟩ (fun _ => 0) (fun _ => none) = some s ∧
    nodeIds t s 4 0 = some l ∧
    ∃ i ∈ l, ¬ (domainOf t s.D 0).Holds (fun _ => [0, 1, 1, 2].getD i 0) ∧
      (domainOf t s.D 1).Holds (fun _ => [0, 1, 1, 2].getD i 0) := by
  refine ⟨_, _, _, rfl, rfl, rfl, ?_⟩
  unfold Box.Holds
  decide +kernel

end Gandalf
