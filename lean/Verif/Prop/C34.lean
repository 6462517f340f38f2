import Verif.Model.Flags

/-!
# C34 – particle flags behave as a set
-/

set_option autoImplicit false

namespace Gandalf
open Flags

/-- the call puts bit `b` in -/
def Flags.Op.Sets (b : ℕ) : Op → Prop
  | .set m => m.getLsbD b = true
  | .setTo m v => v = true ∧ m.getLsbD b = true
  | _ => False

/-- the call takes bit `b` out -/
def Flags.Op.Clears (b : ℕ) : Op → Prop
  | .unset m => m.getLsbD b = true
  | .setTo m v => v = false ∧ m.getLsbD b = true
  | .reset => True
  | .set _ => False

/-- **C34.** After any sequence of calls a flag is present exactly if some call set it and no later
call cleared it, or it was there from the beginning and was never cleared. In particular calls for
other flags do not matter. -/
theorem C34_flag_history (f0 : BitVec 32) (ops : List Op) (b : ℕ) (hb : b < 32) :
    (run f0 ops).getLsbD b = true ↔
      (∃ pre o post, ops = pre ++ o :: post ∧ o.Sets b ∧ ∀ p ∈ post, ¬ p.Clears b) ∨
      (f0.getLsbD b = true ∧ ∀ p ∈ ops, ¬ p.Clears b) := by
  have step : ∀ (f : BitVec 32) (o : Op), (o.apply f).getLsbD b = true ↔
      o.Sets b ∨ (f.getLsbD b = true ∧ ¬ o.Clears b) := by
    intro f o
    cases o with
    | set m =>
      simp only [Op.apply, Flags.set, BitVec.getLsbD_or, Bool.or_eq_true, Op.Sets, Op.Clears,
        not_false_eq_true, and_true]
      tauto
    | unset m =>
      simp only [Op.apply, Flags.unset, BitVec.getLsbD_and, BitVec.getLsbD_not, Bool.and_eq_true,
        Op.Sets, Op.Clears, hb, decide_true, Bool.true_and, Bool.not_eq_true', false_or]
      cases m.getLsbD b <;> simp
    | setTo m v =>
      cases v
      · simp only [Op.apply, Flags.setTo, Flags.unset, BitVec.getLsbD_and, BitVec.getLsbD_not,
          Bool.and_eq_true, Op.Sets, Op.Clears, hb, decide_true, Bool.true_and, Bool.not_eq_true',
          Bool.false_eq_true, if_false, false_and, false_or, true_and]
        cases m.getLsbD b <;> simp
      · simp only [Op.apply, Flags.setTo, Flags.set, BitVec.getLsbD_or, Bool.or_eq_true, Op.Sets,
          Op.Clears, if_true, true_and, Bool.true_eq_false, false_and, not_false_eq_true, and_true]
        tauto
    | reset =>
      simp [Op.apply, Flags.reset, none_, Op.Sets, Op.Clears]
  induction ops using List.reverseRecOn with
  | nil => simp [run]
  | append_singleton ops o ih =>
    have e : run f0 (ops ++ [o]) = o.apply (run f0 ops) := by simp [run]
    rw [e, step]
    replace ih := Iff.intro ih.1 ih.2
    rw [ih]
    constructor
    · rintro (h | ⟨⟨pre, q, post, rfl, h1, h2⟩ | ⟨h1, h2⟩, h3⟩)
      · exact Or.inl ⟨ops, o, [], rfl, h, by simp⟩
      · refine Or.inl ⟨pre, q, post ++ [o], by simp, h1, ?_⟩
        intro p hp
        rcases List.mem_append.mp hp with hp | hp
        · exact h2 p hp
        · rw [List.mem_singleton.mp hp]; exact h3
      · refine Or.inr ⟨h1, ?_⟩
        intro p hp
        rcases List.mem_append.mp hp with hp | hp
        · exact h2 p hp
        · rw [List.mem_singleton.mp hp]; exact h3
    · rintro (⟨pre, q, post, he, h1, h2⟩ | ⟨h1, h2⟩)
      · rcases List.eq_nil_or_concat post with rfl | ⟨post', p, rfl⟩
        · have := List.append_inj' he rfl
          obtain rfl : o = q := by simpa using this.2
          exact Or.inl h1
        · rw [List.concat_eq_append] at he h2
          rw [show pre ++ q :: (post' ++ [p]) = (pre ++ q :: post') ++ [p] by simp] at he
          have := List.append_inj' he rfl
          obtain rfl : o = p := by simpa using this.2
          refine Or.inr ⟨Or.inl ⟨pre, q, post', this.1, h1, ?_⟩, h2 o (by simp)⟩
          intro x hx; exact h2 x (by simp [hx])
      · refine Or.inr ⟨Or.inr ⟨h1, ?_⟩, h2 o (by simp)⟩
        intro x hx; exact h2 x (by simp [hx])

/-- **C34 (checks).** `check` is true exactly if the flag word and the mask share a bit. -/
theorem C34_check_iff (f m : BitVec 32) :
    check f m = true ↔ ∃ b, b < 32 ∧ f.getLsbD b = true ∧ m.getLsbD b = true := by
  simp only [check, bne_iff_ne, ne_eq]
  constructor
  · intro h
    by_contra hc
    apply h
    apply BitVec.eq_of_getLsbD_eq
    intro i hi
    rw [BitVec.getLsbD_and]
    cases h1 : f.getLsbD i <;> cases h2 : m.getLsbD i <;> simp
    exact hc ⟨i, hi, h1, h2⟩
  · rintro ⟨b, _, h1, h2⟩ h
    have := congrArg (fun x => x.getLsbD b) h
    simp [h1, h2] at this

/-- the twelve boundary flags -/
def boundaryFlags : List (BitVec 32) :=
  (List.finRange 3).flatMap fun k => (List.finRange 2).flatMap fun s =>
    [periodic_bound_flags k s, mirror_bound_flags k s]

/-- **C34 (groups).** The twelve boundary flags and the six state flags are eighteen different
non-zero words, any two of them without a common bit. -/
theorem C34_flags_disjoint :
    ((dead :: active :: end_timestep :: potmin :: update_density :: bad_gradients ::
      boundaryFlags).Pairwise fun a b => a &&& b = 0) ∧
    0 ∉ dead :: active :: end_timestep :: potmin :: update_density :: bad_gradients ::
      boundaryFlags := by
  decide +kernel

/-- **C34 (unions).** For every flag word: `is_periodic` (`is_mirror`) holds exactly if one of the six
periodic (mirror) flags is present, and `is_boundary` exactly if one of both groups is. -/
theorem C34_group_checks (f : BitVec 32) :
    (is_periodic f = true ↔ ∃ k s, check f (periodic_bound_flags k s) = true) ∧
    (is_mirror f = true ↔ ∃ k s, check f (mirror_bound_flags k s) = true) ∧
    (is_boundary f = true ↔ is_periodic f = true ∨ is_mirror f = true) := by
  have key : ∀ a b : BitVec 32, f &&& (a ||| b) ≠ 0 ↔ f &&& a ≠ 0 ∨ f &&& b ≠ 0 := by
    intro a b
    have h := C34_check_iff f (a ||| b)
    have ha := C34_check_iff f a
    have hb := C34_check_iff f b
    simp only [check, bne_iff_ne, ne_eq] at h ha hb
    rw [ne_eq, ne_eq, ne_eq, h, ha, hb]
    simp only [BitVec.getLsbD_or, Bool.or_eq_true]
    constructor
    · rintro ⟨i, h1, h2, h3 | h3⟩
      · exact Or.inl ⟨i, h1, h2, h3⟩
      · exact Or.inr ⟨i, h1, h2, h3⟩
    · rintro (⟨i, h1, h2, h3⟩ | ⟨i, h1, h2, h3⟩)
      · exact ⟨i, h1, h2, Or.inl h3⟩
      · exact ⟨i, h1, h2, Or.inr h3⟩
  refine ⟨?_, ?_, ?_⟩
  · simp only [is_periodic, periodic_boundary, x_periodic, y_periodic, z_periodic, bne_iff_ne, key,
      check, Fin.exists_fin_succ, IsEmpty.exists_iff, or_false,
      periodic_bound_flags]
    simp only [or_assoc]
    rfl
  · simp only [is_mirror, mirror_boundary, x_mirror, y_mirror, z_mirror, bne_iff_ne, key,
      check, Fin.exists_fin_succ, IsEmpty.exists_iff, or_false, mirror_bound_flags]
    simp only [or_assoc]
    rfl
  · simp only [is_boundary, any_boundary, is_periodic, is_mirror, bne_iff_ne, key]

/-- a particle which is activated, hits the left x boundary, is killed, and deactivated again -/
example : is_dead (run none_ [.set active, .set (periodic_bound_flags 0 0), .set dead,
      .unset active]) = true ∧
    check (run none_ [.set active, .set (periodic_bound_flags 0 0), .set dead, .unset active])
      active = false ∧
    is_periodic (run none_ [.set active, .set (periodic_bound_flags 0 0), .set dead,
      .unset active]) = true := by decide +kernel

end Gandalf
