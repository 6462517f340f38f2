import Verif.Common

/-!
# Particle flags, src/Headers/Flags.h
`unsigned int` is `BitVec 32`.
-/

set_option autoImplicit false

namespace Gandalf.Flags

/-- `enum flags`, Flags.h:29-70 -/
def none_ : BitVec 32 := 0
def dead : BitVec 32 := 1 <<< 0
def active : BitVec 32 := 1 <<< 1
def end_timestep : BitVec 32 := 1 <<< 2
def potmin : BitVec 32 := 1 <<< 3
def update_density : BitVec 32 := 1 <<< 4
def bad_gradients : BitVec 32 := 1 <<< 5
def x_periodic_lhs : BitVec 32 := 1 <<< 7
def y_periodic_lhs : BitVec 32 := 1 <<< 8
def z_periodic_lhs : BitVec 32 := 1 <<< 9
def x_periodic_rhs : BitVec 32 := 1 <<< 10
def y_periodic_rhs : BitVec 32 := 1 <<< 11
def z_periodic_rhs : BitVec 32 := 1 <<< 12
def x_periodic : BitVec 32 := x_periodic_lhs ||| x_periodic_rhs
def y_periodic : BitVec 32 := y_periodic_lhs ||| y_periodic_rhs
def z_periodic : BitVec 32 := z_periodic_lhs ||| z_periodic_rhs
def x_mirror_lhs : BitVec 32 := 1 <<< 13
def y_mirror_lhs : BitVec 32 := 1 <<< 14
def z_mirror_lhs : BitVec 32 := 1 <<< 15
def x_mirror_rhs : BitVec 32 := 1 <<< 16
def y_mirror_rhs : BitVec 32 := 1 <<< 17
def z_mirror_rhs : BitVec 32 := 1 <<< 18
def x_mirror : BitVec 32 := x_mirror_lhs ||| x_mirror_rhs
def y_mirror : BitVec 32 := y_mirror_lhs ||| y_mirror_rhs
def z_mirror : BitVec 32 := z_mirror_lhs ||| z_mirror_rhs
def periodic_boundary : BitVec 32 := x_periodic ||| y_periodic ||| z_periodic
def mirror_boundary : BitVec 32 := x_mirror ||| y_mirror ||| z_mirror
def any_boundary : BitVec 32 := periodic_boundary ||| mirror_boundary

/-- `periodic_bound_flags[k][side]`, Flags.h:73-77 -/
def periodic_bound_flags (k : Fin 3) (side : Fin 2) : BitVec 32 :=
  match k, side with
  | 0, 0 => x_periodic_lhs | 0, 1 => x_periodic_rhs
  | 1, 0 => y_periodic_lhs | 1, 1 => y_periodic_rhs
  | 2, 0 => z_periodic_lhs | 2, 1 => z_periodic_rhs

/-- `mirror_bound_flags[k][side]`, Flags.h:80-84 -/
def mirror_bound_flags (k : Fin 3) (side : Fin 2) : BitVec 32 :=
  match k, side with
  | 0, 0 => x_mirror_lhs | 0, 1 => x_mirror_rhs
  | 1, 0 => y_mirror_lhs | 1, 1 => y_mirror_rhs
  | 2, 0 => z_mirror_lhs | 2, 1 => z_mirror_rhs

/-- `set(flag)`, Flags.h:107-109 -/
def set (f m : BitVec 32) : BitVec 32 := f ||| m
/-- `unset(flag)`, Flags.h:110-112 -/
def unset (f m : BitVec 32) : BitVec 32 := f &&& ~~~m
/-- `set(flag, value)`, Flags.h:101-106 -/
def setTo (f m : BitVec 32) (v : Bool) : BitVec 32 := if v then set f m else unset f m
/-- `reset()`, Flags.h:116-118 -/
def reset : BitVec 32 := none_
/-- `check(flag)`, Flags.h:120-122 (conversion of the unsigned to `bool`) -/
def check (f m : BitVec 32) : Bool := f &&& m != 0
/-- Flags.h:123-134 -/
def is_dead (f : BitVec 32) : Bool := f &&& dead != 0
def is_boundary (f : BitVec 32) : Bool := f &&& any_boundary != 0
def is_periodic (f : BitVec 32) : Bool := f &&& periodic_boundary != 0
def is_mirror (f : BitVec 32) : Bool := f &&& mirror_boundary != 0

/-- One call of a modifying member function. -/
inductive Op where
  | set (m : BitVec 32)
  | unset (m : BitVec 32)
  | setTo (m : BitVec 32) (v : Bool)
  | reset

def Op.apply (f : BitVec 32) : Op → BitVec 32
  | .set m => Flags.set f m
  | .unset m => Flags.unset f m
  | .setTo m v => Flags.setTo f m v
  | .reset => Flags.reset

/-- A sequence of calls. -/
def run (f : BitVec 32) (ops : List Op) : BitVec 32 := ops.foldl Op.apply f

end Gandalf.Flags
