import Verif.Proof.Signal
import Verif.Proof.SignalWitness

/-!
# C84: limits on time steps from distant particles
-/

set_option autoImplicit false

namespace Gandalf
open Walk KD SignalSpec Signal

variable {n : ℕ}

/-- **C84** A tree that is stocked as in C06 and C60 has the bounds this walk needs. -/
theorem C84_stocked (T : Tree n) (cfg : Cfg) (P : Parts n) (pfuel : ℕ) (f : Forest) (l : List ℕ) (h : T.OK cfg P pfuel f l) :
    BoundTree T P pfuel f l :=
  ⟨h.linked, h.root, h.ends, h.cells, covers_mono (fun _ _ q => ⟨q.1.N, q.1.bb, q.1.vbox, q.1.maxsound⟩) h.covers⟩

example : BoundTree (pairTree 1 (boxProps 2 1 ![0] ![5] ![-3] ![0]) (boxProps 1 1 ![0] ![0] ![0] ![0]) (boxProps 1 1 ![5] ![5] ![-3] ![-3]))
    (parts [![0], ![5]] [![0], ![-3]] (fun _ => 1)) 2 pairForest [0, 1] := line_tree

/-- **C84** The walk always ends; it lowers no signal speed, and every new value is the one that some pair asks for: sound speeds and
approach, times the smoothing length over the distance. -/
theorem C84_never_over (T : Tree n) (P : Parts n) (pfuel : ℕ) (f : Forest) (l : List ℕ) (h : BoundTree T P pfuel f l) (big : ℝ)
    (cell : Props n) (act : List ℕ) (vs : ℕ → ℝ) (hpos : ∀ j ∈ act, 0 < vs j) (fuel : ℕ) (hf : f.cells.length ≤ fuel) :
    ∃ vs', signalWalk (openSetup P 0 big false) T P pfuel cell act vs fuel = .done vs' ∧ ∀ j, vs j ≤ vs' j ∧
      (vs' j = vs j ∨ (j ∈ act ∧ ∃ i ∈ l, P.r j ≠ P.r i ∧ vs' j = closing P i j * P.h j / max (distance (P.r j) (P.r i)) (P.h j))) := by
  obtain ⟨vs', e, g, -⟩ := fold_spec (openSetup P 0 big false) T P pfuel cell act rfl (fun _ _ _ => False) (fun _ _ _ h => h.elim)
    (fun _ _ _ _ _ _ _ _ _ _ _ h => h.elim) f T.Nend l vs h.linked h.covers hpos
  refine ⟨vs', by rw [walk_fold _ cell act h vs fuel hf, e], fun j => ⟨g.le j, ?_⟩⟩
  refine (g.from_ j).imp_right fun ⟨hj, i, hi, hx⟩ => ⟨hj, i, hi, ?_⟩
  exact (asks_open P big false j i _).1 hx

/-- beside each other: particles 1, 2, 3 at a distance of at least 3 from particle 0, in the cells of which it is not known in advance -/
example : ∃ vs', signalWalk (openSetup besideParts 0 1000 false) beside besideParts 4 (beside.cell 1) [0] (fun _ => 1) 3 = .done vs' ∧
    ∀ j, 1 ≤ vs' j := by
  obtain ⟨vs', e, h⟩ := C84_never_over _ _ 4 pairForest _ beside_tree 1000 (beside.cell 1) [0] (fun _ => 1) (by simp) 3 (by simp [pairForest, Forest.cells])
  exact ⟨vs', e, fun j => (h j).1⟩

/-- **C84** In any number of dimensions of an open box, every particle inside the box of the active cell is respected. -/
theorem C84_inside (T : Tree n) (P : Parts n) (pfuel : ℕ) (f : Forest) (l : List ℕ) (h : BoundTree T P pfuel f l) (big : ℝ)
    (cell : Props n) (act : List ℕ) (vs : ℕ → ℝ) (hpos : ∀ j ∈ act, 0 < vs j) (fuel : ℕ) (hf : f.cells.length ≤ fuel) :
    ∃ vs', signalWalk (openSetup P 0 big false) T P pfuel cell act vs fuel = .done vs' ∧ ∀ j ∈ act, ∀ i ∈ l,
      (∀ k, cell.bbmin k < P.r i k ∧ P.r i k < cell.bbmax k) → P.r j ≠ P.r i →
        closing P i j * P.h j / max (distance (P.r j) (P.r i)) (P.h j) ≤ vs' j := by
  obtain ⟨vs', e, g, nd⟩ := fold_spec (openSetup P 0 big false) T P pfuel cell act rfl
    (fun j i x => (∀ k, cell.bbmin k < P.r i k ∧ P.r i k < cell.bbmax k) ∧ Asks 0 P (openSetup P 0 big false).img j i x)
    (fun _ _ _ h => h.2)
    (fun c l' vs q _ hno j _ i hi x hx => absurd (opens_of_inside q hi hx.1) hno) f T.Nend l vs h.linked h.covers hpos
  refine ⟨vs', by rw [walk_fold _ cell act h vs fuel hf, e], fun j hj i hi hin hne => ?_⟩
  exact nd j hj i hi _ ⟨hin, (asks_open P big false j i _).2 ⟨hne, rfl⟩⟩

/-- a wide active cell with a fast particle in it: it asks for 2 + 16 over 10 -/
example : ∃ vs', signalWalk (openSetup obliqueParts 0 1000 false) oblique obliqueParts 3 (boxProps 3 1 ![-1, -1] ![7, 9] ![0, -20] ![0, 0]) [0]
    (fun _ => 3 / 2) 3 = .done vs' ∧ 9 / 5 ≤ vs' 0 := by
  obtain ⟨vs', e, h⟩ := C84_inside _ _ 3 pairForest _ oblique_tree 1000 (boxProps 3 1 ![-1, -1] ![7, 9] ![0, -20] ![0, 0]) [0] (fun _ => 3 / 2) (by simp)
    3 (by simp [pairForest, Forest.cells])
  have := h 0 (by simp) 2 (by simp) (by simp [obliqueParts, parts, boxProps, Fin.forall_fin_two]; norm_num) (fun h => by
    have := congrFun h 0
    simp [obliqueParts, parts] at this)
  have hd : distance (obliqueParts.r 0) (obliqueParts.r 2) = 10 := by
    unfold distance
    rw [Fin.sum_univ_two, show ((obliqueParts.r 0 0 - obliqueParts.r 2 0) ^ 2 + (obliqueParts.r 0 1 - obliqueParts.r 2 1) ^ 2 : ℝ) = 10 ^ 2 by
      simp [obliqueParts, parts]; norm_num, Real.sqrt_sq (by norm_num)]
  rw [hd] at this
  unfold closing approach at this
  rw [hd] at this
  refine ⟨vs', e, le_trans (le_of_eq ?_) this⟩
  simp [obliqueParts, parts]
  norm_num

/-- **C84 (partial)** One dimension, open box: the new signal speed of every active particle is the greatest of its old one and those of
*all* pairs, whether the cells were opened or not.  Missing: two and three dimensions and periodic boxes, where it is wrong, see below. -/
theorem C84_signal_partial (T : Tree 1) (P : Parts 1) (pfuel : ℕ) (f : Forest) (l : List ℕ) (h : BoundTree T P pfuel f l) (big : ℝ)
    (cell : Props 1) (la act : List ℕ) (hc : Bounds P la cell) (hact : ∀ j ∈ act, j ∈ la) (hs : ∀ i, 0 < P.sound i)
    (hh : ∀ j ∈ act, 0 < P.h j) (vs : ℕ → ℝ) (hpos : ∀ j ∈ act, 0 < vs j) (fuel : ℕ) (hf : f.cells.length ≤ fuel) :
    ∃ vs', signalWalk (openSetup P 0 big false) T P pfuel cell act vs fuel = .done vs' ∧ (∀ j, j ∉ act → vs' j = vs j) ∧
      ∀ j ∈ act, IsGreatest ({vs j} ∪ {x | ∃ i ∈ l, P.r j ≠ P.r i ∧ x = closing P i j * P.h j / max (distance (P.r j) (P.r i)) (P.h j)})
        (vs' j) := by
  obtain ⟨vs', e, g, nd⟩ := fold_spec (openSetup P 0 big false) T P pfuel cell act rfl
    (fun j i x => Asks 0 P (openSetup P 0 big false).img j i x) (fun _ _ _ h => h)
    (fun c l' vs q hp hno j hj i hi x hx => by
      obtain ⟨hne, rfl⟩ := (asks_open P big false j i _).1 hx
      exact unopened_one hc q hact hp hh hs hno hj hi hne) f T.Nend l vs h.linked h.covers hpos
  refine ⟨vs', by rw [walk_fold _ cell act h vs fuel hf, e], fun j hj => ?_, fun j hj => ⟨?_, ?_⟩⟩
  · exact (g.from_ j).resolve_right fun h => hj h.1
  · refine (g.from_ j).imp id fun ⟨_, i, hi, hx⟩ => ⟨i, hi, ?_⟩
    exact (asks_open P big false j i _).1 hx
  · rintro x (rfl | ⟨i, hi, hne, rfl⟩)
    · exact g.le j
    · exact nd j hj i hi _ ((asks_open P big false j i _).2 ⟨hne, rfl⟩)

/-- two particles at 0 and 5, the second one moving towards the first with 3: the first asks for (1+1+3)/5 -/
example : ∃ vs', signalWalk (openSetup (parts [![0], ![5]] [![0], ![-3]] (fun _ => 1)) 0 1000 false)
      (pairTree 1 (boxProps 2 1 ![0] ![5] ![-3] ![0]) (boxProps 1 1 ![0] ![0] ![0] ![0]) (boxProps 1 1 ![5] ![5] ![-3] ![-3]))
      (parts [![0], ![5]] [![0], ![-3]] (fun _ => 1)) 2 (boxProps 1 1 ![0] ![0] ![0] ![0]) [0] (fun _ => 1 / 2) 3 = .done vs' ∧
    1 ≤ vs' 0 := by
  obtain ⟨vs', e, -, hg⟩ := C84_signal_partial _ _ 2 pairForest [0, 1] line_tree 1000 (boxProps 1 1 ![0] ![0] ![0] ![0]) [0] [0]
    line_cell (fun _ h => h) (fun _ => by simp [parts]) (fun _ _ => by simp [parts]) (fun _ => 1 / 2) (fun _ _ => by norm_num) 3
    (by simp [pairForest, Forest.cells])
  refine ⟨vs', e, (hg 0 (by simp)).2 (Or.inr ⟨1, by simp, ?_, ?_⟩)⟩
  · intro h
    have := congrFun h 0
    simp [parts] at this
  · have hd : distance ((parts [![0], ![5]] [![0], ![-3]] (fun _ => 1) : Parts 1).r 0) ((parts [![0], ![5]] [![0], ![-3]] (fun _ => 1) : Parts 1).r 1) = 5 := by
      simp [distance, parts]
    rw [hd]
    unfold closing approach
    rw [hd]
    simp [parts]
    norm_num

/-- **C84 (partial)** One dimension, open box: when a pruned tree of another processor does not ask for the cell to be sent there, the
particles of that processor ask for nothing.  Missing: as before. -/
theorem C84_export_partial (T : Tree 1) (P : Parts 1) (pfuel : ℕ) (f : Forest) (l : List ℕ) (h : BoundTree T P pfuel f l) (big : ℝ)
    (cell : Props 1) (la act : List ℕ) (hc : Bounds P la cell) (hact : ∀ j ∈ act, j ∈ la) (hs : ∀ i, 0 < P.sound i)
    (hh : ∀ j ∈ act, 0 < P.h j) (vs : ℕ → ℝ) (hpos : ∀ j ∈ act, 0 < vs j) (fuel : ℕ) (hf : f.cells.length ≤ fuel) :
    signalWalk (openSetup P 0 big true) T P pfuel cell act vs fuel = .fail ∨
      (signalWalk (openSetup P 0 big true) T P pfuel cell act vs fuel = .done vs ∧
        ∀ j ∈ act, ∀ i ∈ l, P.r j ≠ P.r i → closing P i j * P.h j / max (distance (P.r j) (P.r i)) (P.h j) ≤ vs j) := by
  rcases fold_pruned (openSetup P 0 big true) T P pfuel cell act rfl
    (fun j i x => Asks 0 P (openSetup P 0 big true).img j i x) vs
    (fun c l' q hno j hj i hi x hx => by
      obtain ⟨hne, rfl⟩ := (asks_open P big true j i _).1 hx
      exact unopened_one hc q hact hpos hh hs hno hj hi hne) f T.Nend l h.linked h.covers with e | ⟨e, nd⟩
  · exact Or.inl (by rw [walk_fold _ cell act h vs fuel hf, e])
  · refine Or.inr ⟨by rw [walk_fold _ cell act h vs fuel hf, e], fun j hj i hi hne => ?_⟩
    exact nd j hj i hi _ ((asks_open P big true j i _).2 ⟨hne, rfl⟩)

/-- the two particles above with a slow first guess: the cell is sent -/
example : signalWalk (openSetup (parts [![0], ![5]] [![0], ![-3]] (fun _ => 1)) 0 1000 true)
      (pairTree 1 (boxProps 2 1 ![0] ![5] ![-3] ![0]) (boxProps 1 1 ![0] ![0] ![0] ![0]) (boxProps 1 1 ![5] ![5] ![-3] ![-3]))
      (parts [![0], ![5]] [![0], ![-3]] (fun _ => 1)) 2 (boxProps 1 1 ![0] ![0] ![0] ![0]) [0] (fun _ => 1 / 2) 3 = .fail := by
  rcases C84_export_partial _ _ 2 pairForest [0, 1] line_tree 1000 (boxProps 1 1 ![0] ![0] ![0] ![0]) [0] [0]
    line_cell (fun _ h => h) (fun _ => by simp [parts]) (fun _ _ => by simp [parts]) (fun _ => 1 / 2) (fun _ _ => by norm_num) 3
    (by simp [pairForest, Forest.cells]) with e | ⟨-, hg⟩
  · exact e
  · exfalso
    have := hg 0 (by simp) 1 (by simp) (fun h => by
      have := congrFun h 0
      simp [parts] at this)
    have hd : distance ((parts [![0], ![5]] [![0], ![-3]] (fun _ => 1) : Parts 1).r 0) ((parts [![0], ![5]] [![0], ![-3]] (fun _ => 1) : Parts 1).r 1) = 5 := by
      simp [distance, parts]
    rw [hd] at this
    unfold closing approach at this
    rw [hd] at this
    simp [parts] at this
    norm_num at this

/-- **C84** What this is for: with the signal speed found, within one time step of the active particle the waves of a pair move towards
each other by at most twice the Courant number times their distance (or the smoothing length, if larger). -/
theorem C84_step (selfGravity : Bool) (courant accel visc viscMult big anorm : ℝ) (P : Parts n) (i j : ℕ) (vsig : ℝ) (hcour : 0 < courant)
    (hh : 0 < P.h j) (hv : 0 < vsig) (hac : 0 ≤ accel) (hvm : 0 ≤ viscMult)
    (hlim : closing P i j * P.h j / max (distance (P.r j) (P.r i)) (P.h j) ≤ vsig) :
    0 ≤ timestep true selfGravity courant accel visc viscMult big anorm (P.h j) vsig ∧
    timestep true selfGravity courant accel visc viscMult big anorm (P.h j) vsig * closing P i j ≤
      2 * courant * max (distance (P.r j) (P.r i)) (P.h j) := by
  have hm : 0 < max (distance (P.r j) (P.r i)) (P.h j) := lt_max_of_lt_right hh
  have hle : timestep true selfGravity courant accel visc viscMult big anorm (P.h j) vsig ≤ 2 * courant * P.h j / vsig := by
    unfold timestep
    simp only [if_true]
    refine (min_le_left _ _).trans ?_
    split_ifs
    · exact min_le_left _ _
    · exact le_rfl
  have h0 : 0 ≤ timestep true selfGravity courant accel visc viscMult big anorm (P.h j) vsig := by
    unfold timestep
    simp only [if_true]
    refine le_min ?_ (by positivity)
    split_ifs
    · exact le_min (by positivity) (by positivity)
    · positivity
  refine ⟨h0, ?_⟩
  by_cases hcl : closing P i j ≤ 0
  · exact (mul_nonpos_of_nonneg_of_nonpos h0 hcl).trans (by positivity)
  · push Not at hcl
    rw [div_le_iff₀ hm] at hlim
    calc _ ≤ 2 * courant * P.h j / vsig * closing P i j := mul_le_mul_of_nonneg_right hle hcl.le
      _ = 2 * courant * (closing P i j * P.h j) / vsig := by ring
      _ ≤ 2 * courant * (vsig * max (distance (P.r j) (P.r i)) (P.h j)) / vsig := by gcongr
      _ = _ := by field_simp

example : timestep true false (2 / 5) 1 0 0 0 1 1 2 = min (2 / 5) 1 := by
  norm_num [timestep]

/-- **C84 fails** in two dimensions for cells beside each other: a coordinate in which the boxes overlap adds to the distance between them,
so that a cell is passed by though a particle in it asks for more. -/
theorem C84_overlap_fails (small big : ℝ) : ∃ (T : Tree 2) (P : Parts 2) (vs : ℕ → ℝ),
    BoundTree T P 4 pairForest [0, 1, 2, 3] ∧ Bounds P [0] (T.cell 1) ∧ (∀ i, 0 < P.sound i) ∧ (∀ i, 0 < P.h i) ∧ (∀ i, 0 < vs i) ∧
      signalWalk (openSetup P small big false) T P 4 (T.cell 1) [0] vs 3 = .done vs ∧
      vs 0 < closing P 2 0 * P.h 0 / max (distance (P.r 0) (P.r 2)) (P.h 0) := by
  refine ⟨beside, besideParts, fun _ => 5 / 2, beside_tree, beside_cell, fun i => ?_, fun i => ?_, fun i => by norm_num, beside_walk small big, ?_⟩
  · rcases i with _ | i <;> simp [besideParts, parts]
  · simp [besideParts, parts]
  · have hd : distance (besideParts.r 0) (besideParts.r 2) = 3 := by
      unfold distance
      rw [Fin.sum_univ_two, show ((besideParts.r 0 0 - besideParts.r 2 0) ^ 2 + (besideParts.r 0 1 - besideParts.r 2 1) ^ 2 : ℝ) = 3 ^ 2 by
        simp [besideParts, parts], Real.sqrt_sq (by norm_num)]
    rw [hd]
    unfold closing approach
    rw [hd]
    simp [besideParts, parts]
    norm_num

/-- **C84 fails** in two dimensions for oblique motion: the bound on the approach uses the direction of the gap between the boxes, and
particles approach along another one. -/
theorem C84_direction_fails (small big : ℝ) : ∃ (T : Tree 2) (P : Parts 2) (vs : ℕ → ℝ),
    BoundTree T P 3 pairForest [0, 1, 2] ∧ Bounds P [0] (T.cell 1) ∧ (∀ i, 0 < P.sound i) ∧ (∀ i, 0 < P.h i) ∧ (∀ i, 0 < vs i) ∧
      signalWalk (openSetup P small big false) T P 3 (T.cell 1) [0] vs 3 = .done vs ∧
      vs 0 < closing P 2 0 * P.h 0 / max (distance (P.r 0) (P.r 2)) (P.h 0) := by
  refine ⟨oblique, obliqueParts, fun _ => 3 / 2, oblique_tree, oblique_cell, fun i => ?_, fun i => ?_, fun i => by norm_num, oblique_walk small big, ?_⟩
  · simp [obliqueParts, parts]
  · simp [obliqueParts, parts]
  · have hd : distance (obliqueParts.r 0) (obliqueParts.r 2) = 10 := by
      unfold distance
      rw [Fin.sum_univ_two, show ((obliqueParts.r 0 0 - obliqueParts.r 2 0) ^ 2 + (obliqueParts.r 0 1 - obliqueParts.r 2 1) ^ 2 : ℝ) = 10 ^ 2 by
        simp [obliqueParts, parts]; norm_num, Real.sqrt_sq (by norm_num)]
    rw [hd]
    unfold closing approach
    rw [hd]
    simp [obliqueParts, parts]
    norm_num

/-- **C84 fails** in a periodic box already in one dimension: the nearest image of a cell is not that of all its particles.  Here the image
of particle 2 at −3.2 runs into particle 0 and asks for more, but its cell recedes on the other side. -/
theorem C84_periodic_fails (small big : ℝ) (hsm : 0 ≤ small) : ∃ (T : Tree 1) (P : Parts 1) (vs : ℕ → ℝ) (x : Vec 1 ℝ),
    BoundTree T P 3 pairForest [0, 1, 2] ∧ Bounds P [0] (T.cell 1) ∧ (∀ i, 0 < P.sound i) ∧ (∀ i, 0 < P.h i) ∧ (∀ i, 0 < vs i) ∧
      (∀ i ∈ [0, 1, 2], ∀ k, 0 ≤ P.r i k ∧ P.r i k < 10) ∧ (∀ k, x k = P.r 2 k - 10) ∧
      signalWalk (boxSetup ring10 (T.cell 1) P small big false) T P 3 (T.cell 1) [0] vs 3 = .done vs ∧
      vs 0 < (P.sound 0 + P.sound 2 + approach (P.r 0) (P.v 0) x (P.v 2)) * P.h 0 / max (distance (P.r 0) x) (P.h 0) := by
  refine ⟨around, aroundParts, fun _ => 3 / 2, fun _ => 34 / 5 - 10, around_tree, around_cell, fun i => ?_, fun i => ?_, fun i => by norm_num,
    ?_, ?_, around_walk small big hsm, ?_⟩
  · simp [aroundParts, parts]
  · simp [aroundParts, parts]
  · intro i hi k
    obtain rfl : k = 0 := Subsingleton.elim _ _
    fin_cases hi <;> simp [aroundParts, parts] <;> norm_num
  · intro k
    obtain rfl : k = 0 := Subsingleton.elim _ _
    simp [aroundParts, parts]
  · have hd : distance (aroundParts.r 0) (fun _ => 34 / 5 - 10) = 21 / 5 := by
      unfold distance
      rw [Fin.sum_univ_one, show ((aroundParts.r 0 0 - (34 / 5 - 10)) ^ 2 : ℝ) = (21 / 5) ^ 2 by
        simp [aroundParts, parts]; norm_num, Real.sqrt_sq (by norm_num)]
    rw [hd]
    unfold approach
    rw [hd]
    simp [aroundParts, parts]
    norm_num

end Gandalf
