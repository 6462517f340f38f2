import Verif.Model.StartUp

/-! What the first forces are meant to be. -/

set_option autoImplicit false

namespace Gandalf

noncomputable section

namespace StartUp

variable {n : ℕ} {ι δ : Type}

/-- Forces with the geometric criterion -/
def rough (F : Law n ι δ) (D : ι → δ) : ι → Found n := F .geometric D

/-- Forces with the criterion chosen, which reads the accelerations and potentials of the rough
forces -/
def meant (F : Law n ι δ) (mac : Mac) (D : ι → δ) : ι → Found n :=
  if mac = .geometric then rough F D
  else F (.relative mac fun i => ((rough F D i).atree, (rough F D i).gpot)) D

end StartUp

end

end Gandalf
