import Verif.Model.FvFlux

/-!
# What a flux loop should do: a list of transfers between particles
-/

set_option autoImplicit false

namespace Gandalf.Fv

variable {n nv N : ℕ} {α : Type*} [CommRing α]

/-- something passes from particle `src` to particle `dst` (`none`: to a mirror image outside the box) -/
structure Transfer (n nv N : ℕ) (α : Type*) where
  src : Fin N
  dst : Option (Fin N)
  /-- separation `r_src - r_dst` -/
  dr : Vec n α
  amount : Fin nv → α

/-- the transfers of a cell: one for every active particle and every neighbour it shares a face with -/
def transfers (dt : Fin N → α) (r : Fin N → Vec n α) (c : Cell n N α) (flux : FluxFn N nv α) :
    List (Transfer n nv N α) :=
  c.acts.flatMap fun a => a.2.filterMap fun j => (flux a.1 j).map fun f =>
    { src := a.1
      dst := if c.mirror j then none else some (c.idx j)
      dr := fun k => r a.1 k - c.r j k
      amount := fun v => f v * dt a.1 }

/-- all transfers of a flux loop -/
def allTransfers (dt : Fin N → α) (r : Fin N → Vec n α) (threads : List (List (Work n nv N α))) :
    List (Transfer n nv N α) :=
  threads.flatten.flatMap fun c => transfers dt r c.1 c.2

/-- what a transfer does to the conserved variables of particle `i` -/
def Transfer.gain (t : Transfer n nv N α) (i : Fin N) (v : Fin nv) : α :=
  (if t.dst = some i then t.amount v else 0) - if t.src = i then t.amount v else 0

/-- neighbours are named by positions within the list of copies -/
def Cell.WF (c : Cell n N α) : Prop := ∀ a ∈ c.acts, ∀ j ∈ a.2, j < c.ncopy

end Gandalf.Fv
