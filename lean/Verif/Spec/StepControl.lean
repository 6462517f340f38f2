import Verif.Model.StepControl

/-! The clock of the controller. -/

set_option autoImplicit false

namespace Gandalf

namespace StepControl

/-- what holds between calls: time since `t0` is counted in steps of the finest level -/
structure Counts {α : Type} [Field α] (t0 dtMax : α) (s : Ctl α) : Prop where
  time : s.t = t0 + s.n * (dtMax / 2 ^ s.lmax)
  levels : ∀ i, s.dt i = dtMax / 2 ^ i
  small : s.lmax < 32

end StepControl

end Gandalf
