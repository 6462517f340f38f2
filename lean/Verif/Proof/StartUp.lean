import Verif.Spec.StartUp
import Mathlib.Tactic.Ring
import Mathlib.Tactic.Linarith
import Mathlib.Tactic.NormNum

set_option autoImplicit false
set_option linter.unusedSectionVars false

namespace Gandalf

noncomputable section

namespace StartUp

variable {n : ℕ} {ι δ : Type}

theorem sphPass_val (F : Law n ι δ) (P : (ι → δ) → ι → δ) (mac : Mac) (s : Mac × (ι → Part n δ))
    (iter : ℕ) (i : ι) (D : ι → δ)
    (hD : D = if iter = 0 then P (fun j => (s.2 j).rest) else fun j => (s.2 j).rest) :
    (sphPass F P mac s iter).1 = passMac mac iter ∧
    (sphPass F P mac s iter).2 i =
      ⟨true, D i, (F (build (passMac mac iter) s.2) D i).a,
        (F (build (passMac mac iter) s.2) D i).atree, (F (build (passMac mac iter) s.2) D i).gpot,
        (s.2 i).gpot_hydro + (F (build (passMac mac iter) s.2) D i).gpot_hydro,
        (F (build (passMac mac iter) s.2) D i).dudt, (F (build (passMac mac iter) s.2) D i).div_v,
        (s.2 i).a0⟩ := by
  refine ⟨rfl, ?_⟩
  have hb : build (passMac mac iter) (activate s.2) = build (passMac mac iter) s.2 := by
    unfold build activate
    cases passMac mac iter <;> rfl
  have hr : (fun j => (properties P iter (sphClear (activate s.2)) j).rest) = D := by
    rw [hD]
    funext j
    by_cases h : iter = 0 <;> simp [properties, sphClear, activate, h]
  have hp : properties P iter (sphClear (activate s.2)) i =
      ⟨true, D i, fun _ => 0, fun _ => 0, 0, (s.2 i).gpot_hydro, 0, 0, (s.2 i).a0⟩ := by
    rw [← hr]
    by_cases h : iter = 0 <;> simp [properties, sphClear, activate, h]
  show addForces F (build (passMac mac iter) (activate s.2))
    (properties P iter (sphClear (activate s.2))) i = _
  unfold addForces
  rw [hb, hp, hr]
  simp

theorem mfvPass_val (F : Law n ι δ) (P : (ι → δ) → ι → δ) (sg st : Bool) (hgs : (sg || st) = true)
    (mac : Mac) (s : Mac × (ι → Part n δ)) (hact : ∀ j, (s.2 j).active = true)
    (iter : ℕ) (i : ι) (D : ι → δ)
    (hD : D = if iter = 0 then P (fun j => (s.2 j).rest) else fun j => (s.2 j).rest) :
    (mfvPass F P sg st mac s iter).1 = passMac mac iter ∧
    (mfvPass F P sg st mac s iter).2 i =
      ⟨true, D i, (F (build (passMac mac iter) s.2) D i).a,
        (F (build (passMac mac iter) s.2) D i).atree, (F (build (passMac mac iter) s.2) D i).gpot,
        (F (build (passMac mac iter) s.2) D i).gpot_hydro,
        (s.2 i).dudt + (F (build (passMac mac iter) s.2) D i).dudt,
        (s.2 i).div_v + (F (build (passMac mac iter) s.2) D i).div_v,
        (s.2 i).a0⟩ := by
  refine ⟨rfl, ?_⟩
  have hz : ∀ j, mfvZero (properties P iter s.2) j =
      ⟨true, D j, fun _ => 0, fun _ => 0, 0, 0, (s.2 j).dudt, (s.2 j).div_v, (s.2 j).a0⟩ := by
    intro j
    rw [hD]
    by_cases h : iter = 0 <;> simp [properties, mfvZero, h, hact j]
  have hr : (fun j => (mfvZero (properties P iter s.2) j).rest) = D := by
    funext j
    rw [hz]
  show (if sg || st then addForces F (build (passMac mac iter) s.2) (mfvZero (properties P iter s.2))
    else properties P iter s.2) i = _
  rw [if_pos hgs]
  unfold addForces
  rw [hr, hz]
  simp

theorem range_two {α : Type} (f : α → ℕ → α) (a : α) : (List.range 2).foldl f a = f (f a 0) 1 := rfl

theorem range_one {α : Type} (f : α → ℕ → α) (a : α) : (List.range 1).foldl f a = f a 0 := rfl

end StartUp

end

end Gandalf
