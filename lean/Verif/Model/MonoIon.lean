import Verif.Model.KDStructure
import Mathlib.Algebra.Order.Field.Basic

/-!
# Model of the ionisation balance of the Monte-Carlo scheme
(src/Thermal/MonochromaticIonisationMonteCarlo.cpp, src/Thermal/MCRadiationEOS.cpp)

* FLOAT is an arbitrary ordered field; `small` is `small_number`.
* `Par` holds the members set in the constructor (lines 40-73).
* The list of the particles of a leaf is given by `mem`; the linked list the code walks along is the one
  of C03.
* Not modelled: the checks for NaN (lines 492-498, 737-741) and the counts of cells (lines 474, 505, 515),
  which are only printed; the gathering and weighting of cells in `InterpolateParticleProperties` (lines
  752-817), the outcome of which is overwritten in line 819.
-/

set_option autoImplicit false

namespace Gandalf.MonoIon

/-- Constants of the scheme, MonochromaticIonisationMonteCarlo.cpp:63-73. -/
structure Par (α : Type) where
  ionconst : α
  tempIon : α
  across : α
  invmh : α
  small : α

/-- The part of a `MonoIonTreeCell` (Headers/KDRadiationTree.h:46-95) dealt with here. -/
structure Cell (α : Type) where
  N : ℕ
  m : α
  rho : α
  volume : α
  lsum : α
  Xion : α
  Xold : α
  temp : α
  opacity : α
  deriving DecidableEq

variable {α : Type} [Field α] [LinearOrder α]

/-- Opacity of a cell, MonochromaticIonisationMonteCarlo.cpp:485, 689, 701. -/
def opac (P : Par α) (X rho : α) : α := (1 - X) * P.across * rho * P.invmh

/-- One turn of the inner loop, MonochromaticIonisationMonteCarlo.cpp:478-485. -/
def relax (P : Par α) (Nphoton : ℕ) (c : Cell α) : Cell α :=
  let Xold := c.Xion + P.small
  let nfrac := P.ionconst * c.lsum / (Nphoton * c.volume * c.rho * Xold)
  let Xion := nfrac / (1 + nfrac)
  { c with
    Xold := Xold, Xion := Xion, temp := P.tempIon * Xion, opacity := opac P Xion c.rho }

/-- The inner loop, MonochromaticIonisationMonteCarlo.cpp:477-500. -/
def solve (P : Par α) (Nphoton : ℕ) (c : Cell α) : Cell α := (relax P Nphoton)^[20] c

/-- Line 504: the test behind which the rest of the turn is left out. -/
def bothTiny (P : Par α) (c : Cell α) : Prop := c.Xion < P.small ∧ c.Xold < P.small

/-- Lines 508 and 511: has the cell not settled? -/
def unsettled (P : Par α) (c : Cell α) : Prop :=
  (P.small < c.Xion ∧ 1 / 50 < |c.Xion - c.Xold| / c.Xion) ∨
    (P.small < c.Xold ∧ 1 / 50 < |c.Xion - c.Xold| / c.Xold)

instance (P : Par α) (c : Cell α) : Decidable (bothTiny P c) := by unfold bothTiny; infer_instance
instance (P : Par α) (c : Cell α) : Decidable (unsettled P c) := by unfold unsettled; infer_instance

/-- What a cell hands to a child, lines 524-527 and 529-532. -/
def hand (a b : Cell α) : Cell α :=
  { b with Xion := a.Xion, Xold := a.Xold, temp := a.temp, opacity := a.opacity }

/-- Lines 522-534. -/
def handDown (t : KD.Links) (ltot level c : ℕ) (cells : ℕ → Cell α) : ℕ → Cell α :=
  if level ≤ t.level c ∧ t.level c < ltot then
    match t.c1 c, t.c2 c with
    | some c1, some c2 =>
      let f := Function.update cells c1 (hand (cells c) (cells c1))
      Function.update f c2 (hand (f c) (f c2))
    | _, _ => cells
  else cells

/-- One turn of the loop over the cells, MonochromaticIonisationMonteCarlo.cpp:465-537; the second
component is `converged`. -/
def turn (P : Par α) (t : KD.Links) (ltot level Nphoton : ℕ) (s : (ℕ → Cell α) × Bool) (c : ℕ) :
    (ℕ → Cell α) × Bool :=
  if t.level c ≤ level then
    if (s.1 c).N = 0 then s
    else
      let x := solve P Nphoton (s.1 c)
      let f := Function.update s.1 c x
      if bothTiny P x then (f, s.2)
      else (handDown t ltot level c f, s.2 && !decide (unsettled P x))
  else (handDown t ltot level c s.1, s.2)

/-- `UpdateIonisationFraction`, MonochromaticIonisationMonteCarlo.cpp:449-545. -/
def update (P : Par α) (t : KD.Links) (ltot level Nphoton Ncell : ℕ) (cells : ℕ → Cell α) :
    (ℕ → Cell α) × Bool :=
  (List.range Ncell).foldl (turn P t ltot level Nphoton) (cells, true)

/-- `UpdateCellOpacity`, MonochromaticIonisationMonteCarlo.cpp:662-707, for the cell `c`. `mem` are the
particles of a leaf, `pm` and `pX` their masses and ionisation fractions. `none`: fuel used up or no
children. -/
def cellOpacity (P : Par α) (t : KD.Links) (ltot : ℕ) (mem : ℕ → List ℕ) (pm pX : ℕ → α) :
    (fuel c : ℕ) → (ℕ → Cell α) → Option (ℕ → Cell α)
  | 0, _, _ => none
  | fuel + 1, c, f =>
    if t.level c ≠ ltot then
      match t.c1 c, t.c2 c with
      | some c1, some c2 => do
        let f1 ← cellOpacity P t ltot mem pm pX fuel c1 f
        let f2 ← cellOpacity P t ltot mem pm pX fuel c2 f1
        -- lines 695-701
        let X := if 0 < (f2 c).m then
          ((f2 c1).m * (f2 c1).Xion + (f2 c2).m * (f2 c2).Xion) / (f2 c).m else 0
        some (Function.update f2 c { f2 c with Xion := X, opacity := opac P X (f2 c).rho })
      | _, _ => none
    else
      -- lines 679-689
      let S := (mem c).foldl (fun (x : α) (i : ℕ) => x + pm i * pX i) 0
      let X := if 0 < (f c).m then S / (f c).m else S
      some (Function.update f c { f c with Xion := X, opacity := opac P X (f c).rho })

/-- The levels on which the photons are followed, one for each turn of the loop of
MonochromaticIonisationMonteCarlo.cpp:185-212, and the level after the loop. -/
def levels (ltot : ℤ) : (Nit : ℕ) → (level : ℤ) → List ℤ × ℤ
  | 0, level => ([], level)
  | k + 1, level =>
    let q := levels ltot k (if level ≠ ltot then level + 1 else level)
    (level :: q.1, q.2)

/-- Lines 171-172: number of turns and first level. -/
def schedule (ltot Nradlevels Nraditerations : ℕ) : List ℤ × ℤ :=
  levels ltot (Nraditerations + Nradlevels - 1) ((ltot : ℤ) - Nradlevels + 1)

/-- `InterpolateParticleProperties`, MonochromaticIonisationMonteCarlo.cpp:746-826: the ionisation
fractions given to the particles (`part.Xion` and `part.ionfrac`, lines 818-819). -/
def interpolate (t : KD.Links) (level Ncell : ℕ) (mem : ℕ → List ℕ) (cells : ℕ → Cell α) (pX : ℕ → α) :
    ℕ → α :=
  (List.range Ncell).foldl (fun (f : ℕ → α) (c : ℕ) =>
    if t.level c = level ∧ (cells c).N ≠ 0 then
      (mem c).foldl (fun (g : ℕ → α) (i : ℕ) => Function.update g i (cells c).Xion) f
    else f) pX

/-- `MCRadiationEOS::SpecificInternalEnergy`, MCRadiationEOS.cpp:109-110; `u0` is the value of the
equation of state of the neutral gas. -/
def energy (gammam1 tempIon muIon X u0 : α) : α := X * tempIon / gammam1 / muIon + (1 - X) * u0

/-- `MCRadiationEOS::Temperature`, MCRadiationEOS.cpp:122. -/
def temperature (tempIon X T0 : α) : α := X * tempIon + (1 - X) * T0

/-- `MCRadiationEOS::SoundSpeed`, MCRadiationEOS.cpp:95; `cIon = sqrt(temp_ion/mu_ion)`. -/
def sound (cIon X c0 : α) : α := X * cIon + (1 - X) * c0

end Gandalf.MonoIon
