import Verif.Spec.Output
import Verif.Proof.Params
import Mathlib.Tactic.Linarith
import Mathlib.Tactic.Ring
import Mathlib.Tactic.Push
import Mathlib.Tactic.IntervalCases

/-! Lemmas about the output schedule. -/

set_option autoImplicit false
set_option linter.unusedSectionVars false

namespace Gandalf.Output

variable {α : Type*} [Field α] [LinearOrder α] [IsStrictOrderedRing α]

/-! ### Names -/

theorem digitsVal_zeros (m : ℕ) (s : List Char) :
    Params.digitsVal (List.replicate m '0' ++ s) = Params.digitsVal s := by
  unfold Params.digitsVal
  induction m with
  | zero => rfl
  | succ m ih => rw [List.replicate_succ, List.cons_append, List.foldl_cons]; exact ih

theorem pad5_inj {a b : ℕ} (h : pad5 a = pad5 b) : a = b := by
  have := congrArg Params.digitsVal h
  rwa [pad5, pad5, digitsVal_zeros, digitsVal_zeros, Params.showNat_val, Params.showNat_val] at this

theorem pad5_ne_tmp (a : ℕ) : pad5 a ≠ "tmp".toList := by
  intro h
  have ht : 't' ∈ pad5 a := by rw [h]; simp
  rw [pad5, List.mem_append] at ht
  rcases ht with ht | ht
  · have := List.eq_of_mem_replicate ht
    exact absurd this (by decide)
  · obtain ⟨d, hd, e⟩ := Params.showNat_digit ht
    interval_cases d <;> exact absurd e (by decide)

theorem fileName_inj (run_id form : List Char) (hf : form ∈ formats) {a b : Name}
    (h : fileName run_id form a = fileName run_id form b) : a = b := by
  have hform : ∀ x : List Char, '.' :: (form ++ x) ≠ ".restart".toList ∧
      ∀ y, '.' :: (form ++ x) ≠ ".slite.".toList ++ y := by
    intro x
    simp only [formats, List.mem_cons, List.not_mem_nil, or_false] at hf
    rcases hf with rfl | rfl | rfl | rfl | rfl <;> simp
  cases a <;> cases b <;> simp only [fileName, List.append_assoc, List.append_cancel_left_eq] at h
  all_goals first
    | rfl
    | (simp only [List.cons_append, List.cons.injEq, true_and, List.append_cancel_left_eq] at h
       rw [pad5_inj h])
    | (rw [pad5_inj h])
    | exact absurd h (hform _).1
    | exact absurd h.symm (hform _).1
    | exact absurd h ((hform _).2 _)
    | exact absurd h.symm ((hform _).2 _)
    | (simp at h; done)
    | skip
  · have h' : '.' :: pad5 _ = '.' :: "tmp".toList := h
    exact absurd (List.cons.inj h').2 (pad5_ne_tmp _)
  · have h' : '.' :: "tmp".toList = '.' :: pad5 _ := h
    exact absurd (List.cons.inj h').2.symm (pad5_ne_tmp _)

/-! ### Numbers -/

theorem snapNumbers_append (a b : List (Op α)) : snapNumbers (a ++ b) = snapNumbers a ++ snapNumbers b := by
  induction a with
  | nil => rfl
  | cons o a ih =>
    rw [List.cons_append]
    match o with
    | .opened (.snap k) => simp only [snapNumbers, ih, List.cons_append]
    | .opened .tmp => simp only [snapNumbers, ih]
    | .opened (.lite k) => simp only [snapNumbers, ih]
    | .opened .restart => simp only [snapNumbers, ih]
    | .closed _ _ => simp only [snapNumbers, ih]

theorem liteNumbers_append (a b : List (Op α)) : liteNumbers (a ++ b) = liteNumbers a ++ liteNumbers b := by
  induction a with
  | nil => rfl
  | cons o a ih =>
    rw [List.cons_append]
    match o with
    | .opened (.snap k) => simp only [liteNumbers, ih]
    | .opened .tmp => simp only [liteNumbers, ih]
    | .opened (.lite k) => simp only [liteNumbers, ih, List.cons_append]
    | .opened .restart => simp only [liteNumbers, ih]
    | .closed _ _ => simp only [liteNumbers, ih]

/-- what one call of `Output` does to the schedule -/
theorem output_spec (cfg : Cfg α) (resync : Bool) (s : St α) :
    let s' := (output cfg resync s).1
    let ops := (output cfg resync s).2.1
    s'.t = s.t ∧ s'.Nsteps = s.Nsteps ∧
    ((s.tsnapnext ≤ s.t ∧ s'.Noutsnap = s.Noutsnap + 1 ∧ s'.tsnaplast = s.tsnapnext ∧
        s'.tsnapnext = s.tsnapnext + cfg.dt_snap ∧ snapNumbers ops = [s.Noutsnap + 1]) ∨
      (s.t < s.tsnapnext ∧ s'.Noutsnap = s.Noutsnap ∧ s'.tsnaplast = s.tsnaplast ∧
        s'.tsnapnext = s.tsnapnext ∧ snapNumbers ops = [])) ∧
    ((cfg.litesnap = true ∧ s.tlitesnapnext ≤ s.t ∧ s'.Noutlitesnap = s.Noutlitesnap + 1 ∧
        s'.tlitesnaplast = s.tlitesnapnext ∧ s'.tlitesnapnext = s.tlitesnapnext + cfg.dt_litesnap ∧
        liteNumbers ops = [s.Noutlitesnap + 1]) ∨
      ((cfg.litesnap = true → s.t < s.tlitesnapnext) ∧ s'.Noutlitesnap = s.Noutlitesnap ∧
        s'.tlitesnaplast = s.tlitesnaplast ∧ s'.tlitesnapnext = s.tlitesnapnext ∧ liteNumbers ops = [])) := by
  intro s' ops
  have hl : (cfg.litesnap = true ∧ s.tlitesnapnext ≤ s.t) ∨ ¬(cfg.litesnap = true ∧ s.tlitesnapnext ≤ s.t) :=
    em _
  have ht : ∀ x : St α, (tmpPart cfg resync x).1.t = x.t ∧ (tmpPart cfg resync x).1.Nsteps = x.Nsteps ∧
      (tmpPart cfg resync x).1.Noutsnap = x.Noutsnap ∧ (tmpPart cfg resync x).1.tsnaplast = x.tsnaplast ∧
      (tmpPart cfg resync x).1.tsnapnext = x.tsnapnext ∧
      (tmpPart cfg resync x).1.Noutlitesnap = x.Noutlitesnap ∧
      (tmpPart cfg resync x).1.tlitesnaplast = x.tlitesnaplast ∧
      (tmpPart cfg resync x).1.tlitesnapnext = x.tlitesnapnext ∧
      snapNumbers (tmpPart cfg resync x).2 = [] ∧ liteNumbers (tmpPart cfg resync x).2 = [] := by
    intro x
    unfold tmpPart
    split_ifs
    · exact ⟨rfl, rfl, rfl, rfl, rfl, rfl, rfl, rfl, rfl, rfl⟩
    · exact ⟨rfl, rfl, rfl, rfl, rfl, rfl, rfl, rfl, rfl, rfl⟩
  have e1 : s' = (tmpPart cfg resync (snapPart cfg (litePart cfg s).1).1).1 := rfl
  have e2 : ops = (litePart cfg s).2.1 ++ (snapPart cfg (litePart cfg s).1).2.1 ++
    (tmpPart cfg resync (snapPart cfg (litePart cfg s).1).1).2 := rfl
  obtain ⟨t1, t2, t3, t4, t5, t6, t7, t8, t9, t10⟩ := ht (snapPart cfg (litePart cfg s).1).1
  rw [e2, snapNumbers_append, snapNumbers_append, liteNumbers_append, liteNumbers_append, t9, t10, e1,
    t1, t2, t3, t4, t5, t6, t7, t8]
  by_cases h1 : cfg.litesnap = true ∧ s.tlitesnapnext ≤ s.t
  · by_cases h2 : s.tsnapnext ≤ s.t
    · simp only [litePart, if_pos h1, snapPart, if_pos h2]
      exact ⟨trivial, trivial, Or.inl ⟨h2, by trivial, by trivial, by trivial, by trivial⟩, Or.inl ⟨h1.1, h1.2, by trivial, by trivial, by trivial, by trivial⟩⟩
    · simp only [litePart, if_pos h1, snapPart, if_neg h2]
      exact ⟨trivial, trivial, Or.inr ⟨not_le.mp h2, by trivial, by trivial, by trivial, by trivial⟩,
        Or.inl ⟨h1.1, h1.2, by trivial, by trivial, by trivial, by trivial⟩⟩
  · have h1' : cfg.litesnap = true → s.t < s.tlitesnapnext := fun h => not_le.mp fun h' => h1 ⟨h, h'⟩
    by_cases h2 : s.tsnapnext ≤ s.t
    · simp only [litePart, if_neg h1, snapPart, if_pos h2]
      exact ⟨trivial, trivial, Or.inl ⟨h2, by trivial, by trivial, by trivial, by trivial⟩, Or.inr ⟨h1', by trivial, by trivial, by trivial, by trivial⟩⟩
    · simp only [litePart, if_neg h1, snapPart, if_neg h2]
      exact ⟨trivial, trivial, Or.inr ⟨not_le.mp h2, by trivial, by trivial, by trivial, by trivial⟩, Or.inr ⟨h1', by trivial, by trivial, by trivial, by trivial⟩⟩

/-- what one pass does -/
theorem pass_spec (cfg : Cfg α) (resync kill : Bool) (t' : α) (s : St α) :
    (pass cfg resync kill t' s).1 = (output cfg resync { s with t := t', Nsteps := s.Nsteps + 1 }).1 ∧
    snapNumbers (pass cfg resync kill t' s).2 =
      snapNumbers (output cfg resync { s with t := t', Nsteps := s.Nsteps + 1 }).2.1 ∧
    liteNumbers (pass cfg resync kill t' s).2 =
      liteNumbers (output cfg resync { s with t := t', Nsteps := s.Nsteps + 1 }).2.1 := by
  refine ⟨rfl, ?_, ?_⟩
  · unfold pass
    simp only []
    split_ifs
    · rw [snapNumbers_append]
      exact List.append_nil _
    · rfl
  · unfold pass
    simp only []
    split_ifs
    · rw [liteNumbers_append]
      exact List.append_nil _
    · rfl

/-! ### Schedule of a state -/

/-- state on schedule -/
structure OnTime (first dt next last t : α) (N : ℕ) : Prop where
  next : next = first + N * dt
  zero : N = 0 → last = 0
  last : 1 ≤ N → last = outTime first dt N ∧ last ≤ t

theorem OnTime.mono {first dt nx last t t' : α} {N : ℕ} (h : OnTime first dt nx last t N) (ht : t ≤ t') :
    OnTime first dt nx last t' N :=
  ⟨h.next, h.zero, fun hN => ⟨(h.last hN).1, (h.last hN).2.trans ht⟩⟩

theorem OnTime.step {first dt nx last t : α} {N : ℕ} (h : OnTime first dt nx last t N) (ht : nx ≤ t) :
    OnTime first dt (nx + dt) nx t (N + 1) := by
  refine ⟨?_, fun h0 => absurd h0 (by omega), fun _ => ⟨?_, ht⟩⟩
  · rw [h.next]; push_cast; ring
  · rw [h.next, outTime]; push_cast; ring

/-- both schedules of a state -/
def Sched (cfg : Cfg α) (s : St α) : Prop :=
  OnTime cfg.tsnapfirst cfg.dt_snap s.tsnapnext s.tsnaplast s.t s.Noutsnap ∧
  OnTime cfg.tlitesnapfirst cfg.dt_litesnap s.tlitesnapnext s.tlitesnaplast s.t s.Noutlitesnap

theorem sched_fresh (cfg : Cfg α) : Sched cfg (fresh cfg) := by
  constructor <;> exact ⟨by simp [fresh], fun _ => rfl, fun h => absurd h (by simp [fresh])⟩

theorem sched_lite {cfg : Cfg α} {s : St α} (h : Sched cfg s) : Sched cfg (litePart cfg s).1 := by
  unfold litePart
  by_cases h1 : cfg.litesnap = true ∧ s.tlitesnapnext ≤ s.t
  · rw [if_pos h1]; exact ⟨h.1, h.2.step h1.2⟩
  · rw [if_neg h1]; exact h

theorem sched_snap {cfg : Cfg α} {s : St α} (h : Sched cfg s) : Sched cfg (snapPart cfg s).1 := by
  unfold snapPart
  by_cases h1 : s.tsnapnext ≤ s.t
  · rw [if_pos h1]; exact ⟨h.1.step h1, h.2⟩
  · rw [if_neg h1]; exact h

theorem sched_tmp {cfg : Cfg α} {s : St α} (r : Bool) (h : Sched cfg s) :
    Sched cfg (tmpPart cfg r s).1 := by
  unfold tmpPart
  split_ifs
  · exact h
  · exact h

theorem sched_output {cfg : Cfg α} {s : St α} (resync : Bool) (h : Sched cfg s) :
    Sched cfg (output cfg resync s).1 := sched_tmp resync (sched_snap (sched_lite h))

theorem sched_pass {cfg : Cfg α} {s : St α} {resync kill : Bool} {t' : α} (h : Sched cfg s)
    (ht : s.t ≤ t') : Sched cfg (pass cfg resync kill t' s).1 := by
  rw [(pass_spec cfg resync kill t' s).1]
  exact sched_output resync ⟨h.1.mono ht, h.2.mono ht⟩

/-! ### File operations in blocks -/

/-- header on schedule -/
def HeadOK (cfg : Cfg α) (h : Header α) : Prop :=
  (h.Noutsnap = 0 → h.tsnaplast = 0) ∧
  (1 ≤ h.Noutsnap → h.tsnaplast = outTime cfg.tsnapfirst cfg.dt_snap h.Noutsnap ∧ h.tsnaplast ≤ h.t) ∧
  (h.Noutlitesnap = 0 → h.tlitesnaplast = 0) ∧
  (1 ≤ h.Noutlitesnap → h.tlitesnaplast = outTime cfg.tlitesnapfirst cfg.dt_litesnap h.Noutlitesnap ∧
    h.tlitesnaplast ≤ h.t)

theorem headOK_of_sched {cfg : Cfg α} {s : St α} (h : Sched cfg s) : HeadOK cfg (header s) :=
  ⟨h.1.zero, h.1.last, h.2.zero, h.2.last⟩

/-- `Blocks cfg N ops N'`: writing lite snapshots, snapshots and temporary snapshots one after the other,
the number of snapshots going from `N` to `N'` -/
inductive Blocks (Ok : Header α → Prop) : ℕ → List (Op α) → ℕ → Prop
  | nil (N : ℕ) : Blocks Ok N [] N
  | lite (N k : ℕ) (h : Header α) (ops : List (Op α)) (N' : ℕ) (hn : h.Noutlitesnap = k) (ok : Ok h)
      (r : Blocks Ok N ops N') :
      Blocks Ok N (.opened (.lite k) :: .closed (.lite k) (.data h) :: ops) N'
  | snap (N : ℕ) (h : Header α) (ops : List (Op α)) (N' : ℕ) (hn : h.Noutsnap = N + 1) (ok : Ok h)
      (r : Blocks Ok (N + 1) ops N') :
      Blocks Ok N (.opened (.snap (N + 1)) :: .closed (.snap (N + 1)) (.data h) :: .opened .restart ::
        .closed .restart (.pointer (.snap (N + 1))) :: ops) N'
  | tmp (N : ℕ) (h : Header α) (ops : List (Op α)) (N' : ℕ) (hn : h.Noutsnap = N) (ok : Ok h)
      (r : Blocks Ok N ops N') :
      Blocks Ok N (.opened .tmp :: .closed .tmp (.data h) :: .opened .restart ::
        .closed .restart (.pointer .tmp) :: ops) N'

theorem Blocks.append {Ok : Header α → Prop} {N N' N'' : ℕ} {a b : List (Op α)} (h : Blocks Ok N a N') :
    Blocks Ok N' b N'' → Blocks Ok N (a ++ b) N'' := by
  induction h with
  | nil N => exact id
  | lite N k h ops N' hn ok _ ih => exact fun hb => .lite N k h _ _ hn ok (ih hb)
  | snap N h ops N' hn ok _ ih => exact fun hb => .snap N h _ _ hn ok (ih hb)
  | tmp N h ops N' hn ok _ ih => exact fun hb => .tmp N h _ _ hn ok (ih hb)

theorem blocks_output {cfg : Cfg α} {s : St α} {resync : Bool} {Ok : Header α → Prop}
    (ok1 : Ok (header (litePart cfg s).1)) (ok2 : Ok (header (snapPart cfg (litePart cfg s).1).1)) :
    Blocks Ok s.Noutsnap (output cfg resync s).2.1 (output cfg resync s).1.Noutsnap := by
  have e : (output cfg resync s).2.1 = (litePart cfg s).2.1 ++ (snapPart cfg (litePart cfg s).1).2.1 ++
    (tmpPart cfg resync (snapPart cfg (litePart cfg s).1).1).2 := rfl
  have e' : (output cfg resync s).1 = (tmpPart cfg resync (snapPart cfg (litePart cfg s).1).1).1 := rfl
  rw [e, e']
  have b1 : Blocks Ok s.Noutsnap (litePart cfg s).2.1 (litePart cfg s).1.Noutsnap := by
    unfold litePart at ok1 ⊢
    by_cases h1 : cfg.litesnap = true ∧ s.tlitesnapnext ≤ s.t
    · rw [if_pos h1] at ok1 ⊢
      exact .lite _ _ _ _ _ rfl ok1 (.nil _)
    · rw [if_neg h1]; exact .nil _
  generalize litePart cfg s = a at *
  have b2 : Blocks Ok a.1.Noutsnap (snapPart cfg a.1).2.1 (snapPart cfg a.1).1.Noutsnap := by
    unfold snapPart at ok2 ⊢
    by_cases h1 : a.1.tsnapnext ≤ a.1.t
    · rw [if_pos h1] at ok2 ⊢
      exact .snap _ _ _ _ rfl ok2 (.nil _)
    · rw [if_neg h1]; exact .nil _
  generalize snapPart cfg a.1 = b at *
  have b3 : Blocks Ok b.1.Noutsnap (tmpPart cfg resync b.1).2 (tmpPart cfg resync b.1).1.Noutsnap := by
    unfold tmpPart
    split_ifs with h1
    · exact .tmp _ _ _ _ rfl ok2 (.nil _)
    · exact .nil _
  exact (b1.append b2).append b3

theorem blocks_pass {cfg : Cfg α} {s : St α} {resync kill : Bool} {t' : α} {Ok : Header α → Prop}
    (ok1 : Ok (header (litePart cfg { s with t := t', Nsteps := s.Nsteps + 1 }).1))
    (ok2 : Ok (header (snapPart cfg (litePart cfg { s with t := t', Nsteps := s.Nsteps + 1 }).1).1))
    (ok3 : Ok (header (pass cfg resync kill t' s).1)) :
    Blocks Ok s.Noutsnap (pass cfg resync kill t' s).2 (pass cfg resync kill t' s).1.Noutsnap := by
  have h := blocks_output (resync := resync) ok1 ok2
  have e : (pass cfg resync kill t' s).1 =
    (output cfg resync { s with t := t', Nsteps := s.Nsteps + 1 }).1 := rfl
  unfold pass at ok3 ⊢
  simp only [] at ok3 ⊢
  split_ifs
  · exact h.append (.tmp _ _ _ _ rfl ok3 (.nil _))
  · exact h

/-! ### The disk -/

/-- all complete snapshots on disk are what their names say -/
structure DiskOK (Ok : Header α → Prop) (d : Disk α) : Prop where
  snap : ∀ k h, d (.snap k) = some (some (.data h)) → h.Noutsnap = k ∧ Ok h
  lite : ∀ k h, d (.lite k) = some (some (.data h)) → h.Noutlitesnap = k ∧ Ok h
  tmp : ∀ h, d .tmp = some (some (.data h)) → Ok h
  pointer : ∀ c, d .restart = some (some c) → c = .pointer .tmp ∨ ∃ k, c = .pointer (.snap k)

/-- what the restart file names is a complete snapshot, with a number at most `N` -/
def Sound (N : ℕ) (d : Disk α) : Prop :=
  d .restart = none ∨
  (∃ h, d .restart = some (some (.pointer .tmp)) ∧ d .tmp = some (some (.data h)) ∧ h.Noutsnap ≤ N) ∨
  ∃ k h, d .restart = some (some (.pointer (.snap k))) ∧ d (.snap k) = some (some (.data h)) ∧ k ≤ N

theorem Sound.mono {N N' : ℕ} {d : Disk α} (h : Sound N d) (hN : N ≤ N') : Sound N' d := by
  rcases h with h | ⟨g, h1, h2, h3⟩ | ⟨k, g, h1, h2, h3⟩
  · exact Or.inl h
  · exact Or.inr (Or.inl ⟨g, h1, h2, h3.trans hN⟩)
  · exact Or.inr (Or.inr ⟨k, g, h1, h2, h3.trans hN⟩)

/-- sound except perhaps for the temporary snapshot -/
def SoundButTmp (N : ℕ) (d : Disk α) : Prop :=
  d .restart = none ∨ d .restart = some (some (.pointer .tmp)) ∨
  ∃ k h, d .restart = some (some (.pointer (.snap k))) ∧ d (.snap k) = some (some (.data h)) ∧ k ≤ N

/-- where a process stands in writing its files -/
inductive Stage (Ok : Header α → Prop) : List (Op α) → Disk α → ℕ → Prop
  | idle (N : ℕ) (ops : List (Op α)) (d : Disk α) (N' : ℕ) (b : Blocks Ok N ops N') (s : Sound N d) :
      Stage Ok ops d N'
  | lite (N k : ℕ) (h : Header α) (ops : List (Op α)) (d : Disk α) (N' : ℕ) (hn : h.Noutlitesnap = k)
      (ok : Ok h) (b : Blocks Ok N ops N') (s : Sound N d) :
      Stage Ok (.closed (.lite k) (.data h) :: ops) d N'
  | snap1 (N : ℕ) (h : Header α) (ops : List (Op α)) (d : Disk α) (N' : ℕ) (hn : h.Noutsnap = N + 1)
      (ok : Ok h) (b : Blocks Ok (N + 1) ops N') (s : Sound N d) :
      Stage Ok (.closed (.snap (N + 1)) (.data h) :: .opened .restart ::
        .closed .restart (.pointer (.snap (N + 1))) :: ops) d N'
  | snap2 (N : ℕ) (h : Header α) (ops : List (Op α)) (d : Disk α) (N' : ℕ) (hn : h.Noutsnap = N + 1)
      (b : Blocks Ok (N + 1) ops N') (s : Sound N d) (hd : d (.snap (N + 1)) = some (some (.data h))) :
      Stage Ok (.opened .restart :: .closed .restart (.pointer (.snap (N + 1))) :: ops) d N'
  | snap3 (N : ℕ) (h : Header α) (ops : List (Op α)) (d : Disk α) (N' : ℕ) (hn : h.Noutsnap = N + 1)
      (b : Blocks Ok (N + 1) ops N') (hr : d .restart = some none)
      (hd : d (.snap (N + 1)) = some (some (.data h))) :
      Stage Ok (.closed .restart (.pointer (.snap (N + 1))) :: ops) d N'
  | tmp1 (N : ℕ) (h : Header α) (ops : List (Op α)) (d : Disk α) (N' : ℕ) (hn : h.Noutsnap = N)
      (ok : Ok h) (b : Blocks Ok N ops N') (s : SoundButTmp N d) (hd : d .tmp = some none) :
      Stage Ok (.closed .tmp (.data h) :: .opened .restart :: .closed .restart (.pointer .tmp) :: ops) d N'
  | tmp2 (N : ℕ) (h : Header α) (ops : List (Op α)) (d : Disk α) (N' : ℕ) (hn : h.Noutsnap = N)
      (b : Blocks Ok N ops N') (s : Sound N d) (hd : d .tmp = some (some (.data h))) :
      Stage Ok (.opened .restart :: .closed .restart (.pointer .tmp) :: ops) d N'
  | tmp3 (N : ℕ) (h : Header α) (ops : List (Op α)) (d : Disk α) (N' : ℕ) (hn : h.Noutsnap = N)
      (b : Blocks Ok N ops N') (hr : d .restart = some none) (hd : d .tmp = some (some (.data h))) :
      Stage Ok (.closed .restart (.pointer .tmp) :: ops) d N'

theorem Sound.update {N : ℕ} {d : Disk α} (h : Sound N d) (f : Name) (x : Option (Option (Content α)))
    (h1 : f ≠ .restart) (h2 : f ≠ .tmp) (h3 : ∀ k, k ≤ N → f ≠ .snap k) :
    Sound N (Function.update d f x) := by
  unfold Sound at h ⊢
  rw [Function.update_of_ne h1.symm, Function.update_of_ne h2.symm]
  rcases h with h | ⟨g, e1, e2, e3⟩ | ⟨k, g, e1, e2, e3⟩
  · exact Or.inl h
  · exact Or.inr (Or.inl ⟨g, e1, e2, e3⟩)
  · exact Or.inr (Or.inr ⟨k, g, e1, by rw [Function.update_of_ne (h3 k e3).symm]; exact e2, e3⟩)

/-- the stages follow each other -/
theorem Stage.write {Ok : Header α → Prop} {o : Op α} {ops : List (Op α)} {d : Disk α} {N' : ℕ}
    (h : Stage Ok (o :: ops) d N') : Stage Ok ops (o.apply d) N' := by
  generalize hl : o :: ops = l at h
  cases h with
  | idle N _ _ _ b s =>
    cases b with
    | nil => simp at hl
    | lite _ k h ops' _ hn ok r =>
      obtain ⟨rfl, rfl⟩ := List.cons.inj hl
      exact .lite N k h _ _ _ hn ok r (s.update _ _ (by simp) (by simp) (by simp))
    | snap _ h ops' _ hn ok r =>
      obtain ⟨rfl, rfl⟩ := List.cons.inj hl
      refine .snap1 N h _ _ _ hn ok r (s.update _ _ (by simp) (by simp) ?_)
      intro k hk h; injection h; omega
    | tmp _ h ops' _ hn ok r =>
      obtain ⟨rfl, rfl⟩ := List.cons.inj hl
      refine .tmp1 N h _ _ _ hn ok r ?_ (by simp [Op.apply])
      rcases s with s | ⟨g, e1, e2, e3⟩ | ⟨k, g, e1, e2, e3⟩
      · left; simp [Op.apply, s]
      · right; left; simp [Op.apply, e1]
      · right; right; exact ⟨k, g, by simp [Op.apply, e1], by simp [Op.apply, e2], e3⟩
  | lite N k h _ _ _ hn ok b s =>
    obtain ⟨rfl, rfl⟩ := List.cons.inj hl
    exact .idle N _ _ _ b (s.update _ _ (by simp) (by simp) (by simp))
  | snap1 N h _ _ _ hn ok b s =>
    obtain ⟨rfl, rfl⟩ := List.cons.inj hl
    refine .snap2 N h _ _ _ hn b (s.update _ _ (by simp) (by simp) ?_) (by simp [Op.apply])
    intro k hk h; injection h; omega
  | snap2 N h _ _ _ hn b s hd =>
    obtain ⟨rfl, rfl⟩ := List.cons.inj hl
    exact .snap3 N h _ _ _ hn b (by simp [Op.apply]) (by simp [Op.apply, hd])
  | snap3 N h _ _ _ hn b hr hd =>
    obtain ⟨rfl, rfl⟩ := List.cons.inj hl
    exact .idle (N + 1) _ _ _ b (Or.inr (Or.inr ⟨N + 1, h, by simp [Op.apply], by simp [Op.apply, hd],
      le_rfl⟩))
  | tmp1 N h _ _ _ hn ok b s hd =>
    obtain ⟨rfl, rfl⟩ := List.cons.inj hl
    refine .tmp2 N h _ _ _ hn b ?_ (by simp [Op.apply])
    rcases s with s | s | ⟨k, g, e1, e2, e3⟩
    · left; simp [Op.apply, s]
    · right; left; exact ⟨h, by simp [Op.apply, s], by simp [Op.apply], hn.le⟩
    · right; right; exact ⟨k, g, by simp [Op.apply, e1], by simp [Op.apply, e2], e3⟩
  | tmp2 N h _ _ _ hn b s hd =>
    obtain ⟨rfl, rfl⟩ := List.cons.inj hl
    exact .tmp3 N h _ _ _ hn b (by simp [Op.apply]) (by simp [Op.apply, hd])
  | tmp3 N h _ _ _ hn b hr hd =>
    obtain ⟨rfl, rfl⟩ := List.cons.inj hl
    exact .idle N _ _ _ b (Or.inr (Or.inl ⟨h, by simp [Op.apply], by simp [Op.apply, hd], hn.le⟩))

/-- the disk stays what its names say -/
theorem DiskOK.write {Ok : Header α → Prop} {o : Op α} {ops : List (Op α)} {d : Disk α} {N' : ℕ}
    (h : Stage Ok (o :: ops) d N') (hd : DiskOK Ok d) : DiskOK Ok (o.apply d) := by
  have opened : ∀ f, DiskOK Ok (Function.update d f (some none)) := by
    intro f
    refine ⟨?_, ?_, ?_, ?_⟩
    · intro k g hg
      by_cases e : Name.snap k = f
      · rw [e, Function.update_self] at hg; simp at hg
      · rw [Function.update_of_ne e] at hg; exact hd.snap k g hg
    · intro k g hg
      by_cases e : Name.lite k = f
      · rw [e, Function.update_self] at hg; simp at hg
      · rw [Function.update_of_ne e] at hg; exact hd.lite k g hg
    · intro g hg
      by_cases e : Name.tmp = f
      · rw [e, Function.update_self] at hg; simp at hg
      · rw [Function.update_of_ne e] at hg; exact hd.tmp g hg
    · intro c hc
      by_cases e : Name.restart = f
      · rw [e, Function.update_self] at hc; simp at hc
      · rw [Function.update_of_ne e] at hc; exact hd.pointer c hc
  have point : ∀ c, (c = .pointer .tmp ∨ ∃ k, c = .pointer (.snap k)) →
      DiskOK Ok (Function.update d .restart (some (some c))) := by
    intro c hc
    refine ⟨?_, ?_, ?_, ?_⟩
    · intro k g hg
      rw [Function.update_of_ne (by simp)] at hg; exact hd.snap k g hg
    · intro k g hg
      rw [Function.update_of_ne (by simp)] at hg; exact hd.lite k g hg
    · intro g hg
      rw [Function.update_of_ne (by simp)] at hg; exact hd.tmp g hg
    · intro c' hc'
      rw [Function.update_self] at hc'
      obtain rfl := Option.some.inj (Option.some.inj hc')
      exact hc
  generalize hl : o :: ops = l at h
  cases h with
  | idle N _ _ _ b s =>
    cases b with
    | nil => simp at hl
    | lite _ k h ops' _ hn ok r => obtain ⟨rfl, rfl⟩ := List.cons.inj hl; exact opened _
    | snap _ h ops' _ hn ok r => obtain ⟨rfl, rfl⟩ := List.cons.inj hl; exact opened _
    | tmp _ h ops' _ hn ok r => obtain ⟨rfl, rfl⟩ := List.cons.inj hl; exact opened _
  | lite N k h _ _ _ hn ok b s =>
    obtain ⟨rfl, rfl⟩ := List.cons.inj hl
    refine ⟨?_, ?_, ?_, ?_⟩
    · intro k' g hg
      rw [Op.apply, Function.update_of_ne (by simp)] at hg; exact hd.snap k' g hg
    · intro k' g hg
      by_cases e : k' = k
      · subst e
        rw [Op.apply, Function.update_self] at hg
        obtain rfl : h = g := by simpa using hg
        exact ⟨hn, ok⟩
      · rw [Op.apply, Function.update_of_ne (by simp [e])] at hg; exact hd.lite k' g hg
    · intro g hg
      rw [Op.apply, Function.update_of_ne (by simp)] at hg; exact hd.tmp g hg
    · intro c hc
      rw [Op.apply, Function.update_of_ne (by simp)] at hc; exact hd.pointer c hc
  | snap1 N h _ _ _ hn ok b s =>
    obtain ⟨rfl, rfl⟩ := List.cons.inj hl
    refine ⟨?_, ?_, ?_, ?_⟩
    · intro k' g hg
      by_cases e : k' = N + 1
      · subst e
        rw [Op.apply, Function.update_self] at hg
        obtain rfl : h = g := by simpa using hg
        exact ⟨hn, ok⟩
      · rw [Op.apply, Function.update_of_ne (by simp [e])] at hg; exact hd.snap k' g hg
    · intro k' g hg
      rw [Op.apply, Function.update_of_ne (by simp)] at hg; exact hd.lite k' g hg
    · intro g hg
      rw [Op.apply, Function.update_of_ne (by simp)] at hg; exact hd.tmp g hg
    · intro c hc
      rw [Op.apply, Function.update_of_ne (by simp)] at hc; exact hd.pointer c hc
  | snap2 N h _ _ _ hn b s _ => obtain ⟨rfl, rfl⟩ := List.cons.inj hl; exact opened _
  | snap3 N h _ _ _ hn b hr _ => obtain ⟨rfl, rfl⟩ := List.cons.inj hl; exact point _ (Or.inr ⟨_, rfl⟩)
  | tmp1 N h _ _ _ hn ok b s _ =>
    obtain ⟨rfl, rfl⟩ := List.cons.inj hl
    refine ⟨?_, ?_, ?_, ?_⟩
    · intro k' g hg
      rw [Op.apply, Function.update_of_ne (by simp)] at hg; exact hd.snap k' g hg
    · intro k' g hg
      rw [Op.apply, Function.update_of_ne (by simp)] at hg; exact hd.lite k' g hg
    · intro g hg
      rw [Op.apply, Function.update_self] at hg
      obtain rfl : h = g := by simpa using hg
      exact ok
    · intro c hc
      rw [Op.apply, Function.update_of_ne (by simp)] at hc; exact hd.pointer c hc
  | tmp2 N h _ _ _ hn b s _ => obtain ⟨rfl, rfl⟩ := List.cons.inj hl; exact opened _
  | tmp3 N h _ _ _ hn b hr _ => obtain ⟨rfl, rfl⟩ := List.cons.inj hl; exact point _ (Or.inl rfl)

/-- a resumed state (Seren formats) comes from a complete snapshot named by the restart file -/
theorem resume_ok {cfg : Cfg α} {d : Disk α} {s : St α} (h : resume cfg d = .ok s) :
    ∃ f g, d .restart = some (some (.pointer f)) ∧ d f = some (some (.data g)) ∧ s = restore cfg g := by
  unfold resume at h
  split at h
  · simp at h
  · rename_i f hf
    split at h
    · rename_i g hg
      exact ⟨f, g, hf, hg, (Resume.ok.inj h).symm⟩
    · simp at h
  · simp at h

theorem resume_fromStart {cfg : Cfg α} {d : Disk α} (h : resume cfg d = .fromStart) : d .restart = none := by
  unfold resume at h
  split at h
  · assumption
  · split at h <;> simp at h
  · simp at h

theorem sched_restore {cfg : Cfg α} {g : Header α} (hc : cfg.column = false) (hg : HeadOK cfg g)
    (h1 : g.Noutsnap = 0 → cfg.tsnapfirst = cfg.dt_snap)
    (h2 : g.Noutlitesnap = 0 → cfg.tlitesnapfirst = cfg.dt_litesnap) : Sched cfg (restore cfg g) := by
  obtain ⟨a1, a2, a3, a4⟩ := hg
  unfold restore
  rw [hc]
  simp only [Bool.false_eq_true, if_false]
  refine ⟨⟨?_, a1, a2⟩, ⟨?_, a3, a4⟩⟩
  · simp only
    by_cases h : g.Noutsnap = 0
    · rw [a1 h, h, h1 h]; simp
    · rw [(a2 (by omega)).1, outTime]; ring
  · simp only
    by_cases h : g.Noutlitesnap = 0
    · rw [a3 h, h, h2 h]; simp
    · rw [(a4 (by omega)).1, outTime]; ring

/-- The invariant of all executions. -/
theorem exec_invariant (cfg : Cfg α) (crashes : Bool)
    (h : crashes = true → cfg.column = false ∧ cfg.tsnapfirst = cfg.dt_snap ∧
      cfg.tlitesnapfirst = cfg.dt_litesnap) {s : St α} {ops : List (Op α)} {d : Disk α}
    (he : Exec cfg crashes s ops d) :
    Sched cfg s ∧ Stage (HeadOK cfg) ops d s.Noutsnap ∧ DiskOK (HeadOK cfg) d := by
  have start : ∀ (s1 : St α) (resync : Bool) (d : Disk α), Sched cfg s1 → Sound s1.Noutsnap d →
      DiskOK (HeadOK cfg) d → Sched cfg (output cfg resync s1).1 ∧
        Stage (HeadOK cfg) (output cfg resync s1).2.1 d (output cfg resync s1).1.Noutsnap ∧
        DiskOK (HeadOK cfg) d := by
    intro s1 resync d h1 h2 h3
    exact ⟨sched_output resync h1, .idle _ _ _ _ (blocks_output (headOK_of_sched (sched_lite h1))
      (headOK_of_sched (sched_snap (sched_lite h1)))) h2, h3⟩
  have empty : DiskOK (HeadOK cfg) (fun _ => none : Disk α) :=
    ⟨fun _ _ h => by simp at h, fun _ _ h => by simp at h, fun _ h => by simp at h, fun _ h => by simp at h⟩
  induction he with
  | boot resync => exact start (fresh cfg) resync _ (sched_fresh cfg) (Or.inl rfl) empty
  | write s o ops d _ ih => exact ⟨ih.1, ih.2.1.write, DiskOK.write ih.2.1 ih.2.2⟩
  | pass s d _ resync kill t' ht ih =>
    refine ⟨sched_pass ih.1 ht, ?_, ih.2.2⟩
    have hs : Sched cfg { s with t := t', Nsteps := s.Nsteps + 1 } := ⟨ih.1.1.mono ht, ih.1.2.mono ht⟩
    have hsound : Sound s.Noutsnap d := by
      have hst := ih.2.1
      generalize hl : ([] : List (Op α)) = l at hst
      cases hst with
      | idle N _ _ _ b s => subst hl; cases b; exact s
      | lite => simp at hl
      | snap1 => simp at hl
      | snap2 => simp at hl
      | snap3 => simp at hl
      | tmp1 => simp at hl
      | tmp2 => simp at hl
      | tmp3 => simp at hl
    exact .idle _ _ _ _ (blocks_pass (headOK_of_sched (sched_lite hs))
      (headOK_of_sched (sched_snap (sched_lite hs))) (headOK_of_sched (sched_pass ih.1 ht))) hsound
  | crash s s1 ops d _ hc hr resync ih =>
    obtain ⟨f, g, e1, e2, rfl⟩ := resume_ok hr
    obtain ⟨c1, c2, c3⟩ := h hc
    have hg : HeadOK cfg g ∧ Sound g.Noutsnap d := by
      rcases ih.2.2.pointer _ e1 with hp | ⟨k, hp⟩
      · obtain rfl : f = .tmp := by injection hp
        exact ⟨ih.2.2.tmp g e2, Or.inr (Or.inl ⟨g, e1, e2, le_rfl⟩)⟩
      · obtain rfl : f = .snap k := by injection hp
        have := ih.2.2.snap k g e2
        exact ⟨this.2, Or.inr (Or.inr ⟨k, g, e1, e2, this.1.ge⟩)⟩
    have hN : (restore cfg g).Noutsnap = g.Noutsnap := by unfold restore; rw [c1]; rfl
    exact start _ resync d (sched_restore c1 hg.1 (fun _ => c2) (fun _ => c3)) (by rw [hN]; exact hg.2)
      ih.2.2
  | crashEarly s ops d _ hc hr resync ih =>
    exact start (fresh cfg) resync d (sched_fresh cfg) (Or.inl (resume_fromStart hr)) ih.2.2

/-- For Seren formats the restart file is sound whatever the schedule. -/
theorem exec_sound (cfg : Cfg α) (crashes : Bool) (hcol : crashes = true → cfg.column = false) {s : St α}
    {ops : List (Op α)} {d : Disk α} (he : Exec cfg crashes s ops d) :
    Stage (fun _ => True) ops d s.Noutsnap ∧ DiskOK (fun _ => True) d := by
  have start : ∀ (s1 : St α) (resync : Bool) (d : Disk α), Sound s1.Noutsnap d →
      DiskOK (fun _ => True) d →
        Stage (fun _ => True) (output cfg resync s1).2.1 d (output cfg resync s1).1.Noutsnap ∧
        DiskOK (fun _ => True) d := by
    intro s1 resync d h2 h3
    exact ⟨.idle _ _ _ _ (blocks_output trivial trivial) h2, h3⟩
  have empty : DiskOK (fun _ => True) (fun _ => none : Disk α) :=
    ⟨fun _ _ h => by simp at h, fun _ _ h => by simp at h, fun _ h => by simp at h, fun _ h => by simp at h⟩
  induction he with
  | boot resync => exact start (fresh cfg) resync _ (Or.inl rfl) empty
  | write s o ops d _ ih => exact ⟨ih.1.write, DiskOK.write ih.1 ih.2⟩
  | pass s d _ resync kill t' ht ih =>
    refine ⟨?_, ih.2⟩
    have hsound : Sound s.Noutsnap d := by
      have hst := ih.1
      generalize hl : ([] : List (Op α)) = l at hst
      cases hst with
      | idle N _ _ _ b s => subst hl; cases b; exact s
      | lite => simp at hl
      | snap1 => simp at hl
      | snap2 => simp at hl
      | snap3 => simp at hl
      | tmp1 => simp at hl
      | tmp2 => simp at hl
      | tmp3 => simp at hl
    exact .idle _ _ _ _ (blocks_pass trivial trivial trivial) hsound
  | crash s s1 ops d _ hc hr resync ih =>
    obtain ⟨f, g, e1, e2, rfl⟩ := resume_ok hr
    have c1 := hcol hc
    have hg : Sound g.Noutsnap d := by
      rcases ih.2.pointer _ e1 with hp | ⟨k, hp⟩
      · obtain rfl : f = .tmp := by injection hp
        exact Or.inr (Or.inl ⟨g, e1, e2, le_rfl⟩)
      · obtain rfl : f = .snap k := by injection hp
        have := ih.2.snap k g e2
        exact Or.inr (Or.inr ⟨k, g, e1, e2, this.1.ge⟩)
    have hN : (restore cfg g).Noutsnap = g.Noutsnap := by unfold restore; rw [c1]; rfl
    exact start _ resync d (by rw [hN]; exact hg) ih.2
  | crashEarly s ops d _ hc hr resync ih =>
    exact start (fresh cfg) resync d (Or.inl (resume_fromStart hr)) ih.2

/-- the restart file can be used unless it or the temporary snapshot is being written -/
theorem Stage.resume {cfg : Cfg α} {Ok : Header α → Prop} {ops : List (Op α)} {d : Disk α} {N : ℕ}
    (h : Stage Ok ops d N) :
    (d .restart = none ∨ ∃ f g, d .restart = some (some (.pointer f)) ∧ d f = some (some (.data g)) ∧
      resume cfg d = .ok (restore cfg g)) ∨
    (d .restart = some none ∧ ∃ f ops', ops = .closed .restart (.pointer f) :: ops') ∨
    (d .restart = some (some (.pointer .tmp)) ∧ d .tmp = some none ∧
      ∃ g ops', ops = .closed .tmp (.data g) :: ops') := by
  have snd : ∀ {M : ℕ} {d : Disk α}, Sound M d → d .restart = none ∨
      ∃ f g, d .restart = some (some (.pointer f)) ∧ d f = some (some (.data g)) ∧
        Output.resume cfg d = .ok (restore cfg g) := by
    intro M d hs
    rcases hs with hs | ⟨g, e1, e2, e3⟩ | ⟨k, g, e1, e2, e3⟩
    · exact Or.inl hs
    · exact Or.inr ⟨.tmp, g, e1, e2, by simp [Output.resume, e1, e2]⟩
    · exact Or.inr ⟨.snap k, g, e1, e2, by simp [Output.resume, e1, e2]⟩
  cases h with
  | idle M _ _ _ b s => exact Or.inl (snd s)
  | lite M k h _ _ _ hn ok b s => exact Or.inl (snd s)
  | snap1 M h _ _ _ hn ok b s => exact Or.inl (snd s)
  | snap2 M h _ _ _ hn b s hd => exact Or.inl (snd s)
  | snap3 M h _ _ _ hn b hr hd => exact Or.inr (Or.inl ⟨hr, _, _, rfl⟩)
  | tmp1 M h _ _ _ hn ok b s hd =>
    rcases s with s | s | ⟨k, g, e1, e2, e3⟩
    · exact Or.inl (Or.inl s)
    · exact Or.inr (Or.inr ⟨s, hd, _, _, rfl⟩)
    · exact Or.inl (Or.inr ⟨.snap k, g, e1, e2, by simp [Output.resume, e1, e2]⟩)
  | tmp2 M h _ _ _ hn b s hd => exact Or.inl (snd s)
  | tmp3 M h _ _ _ hn b hr hd => exact Or.inr (Or.inl ⟨hr, _, _, rfl⟩)

end Gandalf.Output

namespace Gandalf.Output

variable {α : Type*} [Field α] [LinearOrder α] [IsStrictOrderedRing α]

theorem Blocks.mem_snap {Ok : Header α → Prop} {N N' : ℕ} {ops : List (Op α)} (b : Blocks Ok N ops N')
    {k : ℕ} {g : Header α} (h : Op.closed (.snap k) (.data g) ∈ ops) : g.Noutsnap = k ∧ Ok g := by
  induction b with
  | nil => simp at h
  | lite N j h' ops N' hn ok _ ih =>
    simp only [List.mem_cons, reduceCtorEq, Op.closed.injEq, false_and, false_or] at h
    exact ih h
  | snap N h' ops N' hn ok _ ih =>
    simp only [List.mem_cons, reduceCtorEq, Op.closed.injEq, false_and, false_or, Name.snap.injEq,
      Content.data.injEq] at h
    rcases h with ⟨rfl, rfl⟩ | h
    · exact ⟨hn, ok⟩
    · exact ih h
  | tmp N h' ops N' hn ok _ ih =>
    simp only [List.mem_cons, reduceCtorEq, Op.closed.injEq, false_and, false_or] at h
    exact ih h

theorem Blocks.mem_lite {Ok : Header α → Prop} {N N' : ℕ} {ops : List (Op α)} (b : Blocks Ok N ops N')
    {k : ℕ} {g : Header α} (h : Op.closed (.lite k) (.data g) ∈ ops) : g.Noutlitesnap = k ∧ Ok g := by
  induction b with
  | nil => simp at h
  | lite N j h' ops N' hn ok _ ih =>
    simp only [List.mem_cons, reduceCtorEq, Op.closed.injEq, false_and, false_or, Name.lite.injEq,
      Content.data.injEq] at h
    rcases h with ⟨rfl, rfl⟩ | h
    · exact ⟨hn, ok⟩
    · exact ih h
  | snap N h' ops N' hn ok _ ih =>
    simp only [List.mem_cons, reduceCtorEq, Op.closed.injEq, false_and, false_or] at h
    exact ih h
  | tmp N h' ops N' hn ok _ ih =>
    simp only [List.mem_cons, reduceCtorEq, Op.closed.injEq, false_and, false_or] at h
    exact ih h

theorem run_spec (cfg : Cfg α) : ∀ (l : List (Bool × Bool × α)) (s : St α), Sched cfg s →
    Increasing s.t l →
    Sched cfg (run cfg l s).1 ∧ Blocks (HeadOK cfg) s.Noutsnap (run cfg l s).2 (run cfg l s).1.Noutsnap ∧
    snapNumbers (run cfg l s).2 =
      List.range' (s.Noutsnap + 1) ((run cfg l s).1.Noutsnap - s.Noutsnap) ∧
    s.Noutsnap ≤ (run cfg l s).1.Noutsnap ∧
    liteNumbers (run cfg l s).2 =
      List.range' (s.Noutlitesnap + 1) ((run cfg l s).1.Noutlitesnap - s.Noutlitesnap) ∧
    s.Noutlitesnap ≤ (run cfg l s).1.Noutlitesnap := by
  intro l
  induction l with
  | nil =>
    intro s h _
    exact ⟨h, .nil _, by simp [run, snapNumbers], le_rfl, by simp [run, liteNumbers], le_rfl⟩
  | cons x l ih =>
    obtain ⟨resync, kill, t'⟩ := x
    rintro s h ⟨ht, hinc⟩
    have hs : Sched cfg { s with t := t', Nsteps := s.Nsteps + 1 } := ⟨h.1.mono ht, h.2.mono ht⟩
    have hp := sched_pass (resync := resync) (kill := kill) h ht
    obtain ⟨p1, p2, p3⟩ := pass_spec cfg resync kill t' s
    obtain ⟨o1, o2, o3, o4⟩ := output_spec cfg resync { s with t := t', Nsteps := s.Nsteps + 1 }
    rw [← p1] at o1 o2 o3 o4
    rw [← p2] at o3
    rw [← p3] at o4
    simp only [] at o1 o2 o3 o4
    have b := blocks_pass (resync := resync) (kill := kill) (headOK_of_sched (sched_lite hs))
      (headOK_of_sched (sched_snap (sched_lite hs))) (headOK_of_sched hp)
    obtain ⟨i1, i2, i3, i4, i5, i6⟩ := ih (pass cfg resync kill t' s).1 hp (by rw [o1]; exact hinc)
    have e1 : (run cfg ((resync, kill, t') :: l) s).1 = (run cfg l (pass cfg resync kill t' s).1).1 := rfl
    have e2 : (run cfg ((resync, kill, t') :: l) s).2 =
      (pass cfg resync kill t' s).2 ++ (run cfg l (pass cfg resync kill t' s).1).2 := rfl
    rw [e1, e2, snapNumbers_append, liteNumbers_append, i3, i5]
    refine ⟨i1, b.append i2, ?_, ?_, ?_, ?_⟩
    · rcases o3 with ⟨_, g1, _, _, g2⟩ | ⟨_, g1, _, _, g2⟩
      · rw [g1] at i4
        rw [g2, g1, List.singleton_append, ← List.range'_succ]
        congr 1; omega
      · rw [g2, g1, List.nil_append]
    · rcases o3 with ⟨_, g1, _⟩ | ⟨_, g1, _⟩ <;> omega
    · rcases o4 with ⟨_, _, g1, _, _, g2⟩ | ⟨_, g1, _, _, g2⟩
      · rw [g1] at i6
        rw [g2, g1, List.singleton_append, ← List.range'_succ]
        congr 1; omega
      · rw [g2, g1, List.nil_append]
    · rcases o4 with ⟨_, _, g1, _⟩ | ⟨_, g1, _⟩ <;> omega

theorem run_prompt (cfg : Cfg α) : ∀ (l : List (Bool × Bool × α)) (s : St α), s.t < s.tsnapnext →
    StepsWithin cfg.dt_snap s.t l → (run cfg l s).1.t < (run cfg l s).1.tsnapnext := by
  intro l
  induction l with
  | nil => intro s h _; exact h
  | cons x l ih =>
    obtain ⟨resync, kill, t'⟩ := x
    rintro s h ⟨ht, hw⟩
    obtain ⟨p1, _, _⟩ := pass_spec cfg resync kill t' s
    obtain ⟨o1, o2, o3, _⟩ := output_spec cfg resync { s with t := t', Nsteps := s.Nsteps + 1 }
    rw [← p1] at o1 o2 o3
    simp only [] at o1 o3
    refine ih (pass cfg resync kill t' s).1 ?_ (by rw [o1]; exact hw)
    rw [o1]
    rcases o3 with ⟨_, _, _, g, _⟩ | ⟨g0, _, _, g, _⟩
    · rw [g]; linarith
    · rw [g]; exact g0

theorem outTime_le (first dt : α) (hdt : 0 < dt) {next t : α} {N : ℕ} (hn : next = first + N * dt)
    (h1 : 1 ≤ N → outTime first dt N ≤ t) (h2 : t < next) (k : ℕ) (hk : 1 ≤ k) :
    outTime first dt k ≤ t ↔ k ≤ N := by
  constructor
  · intro h
    by_contra hc
    push Not at hc
    have : (N : α) + 1 ≤ k := by exact_mod_cast hc
    have : (N : α) * dt ≤ (k - 1) * dt := mul_le_mul_of_nonneg_right (by linarith) hdt.le
    unfold outTime at h
    linarith
  · intro h
    refine le_trans ?_ (h1 (by omega))
    have : (k : α) ≤ N := by exact_mod_cast h
    have : ((k : α) - 1) * dt ≤ (N - 1) * dt := mul_le_mul_of_nonneg_right (by linarith) hdt.le
    unfold outTime
    linarith

end Gandalf.Output
