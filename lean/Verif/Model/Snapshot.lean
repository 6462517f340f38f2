import Verif.Model.Vec
import Verif.Model.Units

/-!
# Snapshot files

src/Common/SimulationIO.hpp: the column format, the formatted and the binary Seren format, written by one process or by
several, their readers, and the conversion to code units after reading.

A file is the list of the values in it.  Simplifications: in the formatted files a value is one word (unit names contain
no blank, neighbouring numbers do not run together); in the binary files names are not longer than 20 characters, and a
value is read back with the type with which it was written or not at all; decimal rounding is a function `rnd`;
`dudt` (not in the files) is left out; `raise` ends the run (`none`).
-/

set_option autoImplicit false

noncomputable section

namespace Gandalf.Snap
open Units (Quantity SimUnit)

/-- `parttype`, src/Headers/Particle.h:43 -/
inductive PType | gas | icm | cdm | dust | boundary
  deriving DecidableEq

/-- The particle data in snapshots, src/Headers/Particle.h:130-180 -/
structure Part (n : ℕ) where
  ptype : PType
  dead : Bool
  iorig : ℤ
  r : Vec n ℝ
  v : Vec n ℝ
  m : ℝ
  h : ℝ
  rho : ℝ
  u : ℝ

/-- The star data in snapshots. -/
structure Star (n : ℕ) where
  r : Vec n ℝ
  v : Vec n ℝ
  m : ℝ
  h : ℝ
  radius : ℝ

/-- The part of the simulation that snapshots are about; `sinkRadius` lists `sinks->sink[i].radius`, with one sink for
each star (`Nsink = Nstar` after a read). -/
structure Sim (n : ℕ) where
  parts : List (Part n)
  stars : List (Star n)
  sinkRadius : List ℝ
  t : ℝ
  tsnaplast : ℝ
  tlitesnaplast : ℝ
  mmean : ℝ
  hfac : ℝ
  noutsnap : ℤ
  nsteps : ℤ
  noutlite : ℤ
  hGiven : Bool

/-- One value in a file. -/
inductive Tok
  | int (i : ℤ)
  | long (i : ℤ)
  | real (x : ℝ)
  | double (x : ℝ)
  | str (s : String)
  | flag (b : Bool)

/-- Bytes of a value in a binary file, with `FLOAT` of double precision; names are padded to `string_length`
(SimulationIO.hpp:44). -/
def Tok.size : Tok → ℕ
  | .int _ => 4
  | .long _ => 8
  | .real _ => 8
  | .double _ => 8
  | .str _ => 20
  | .flag _ => 1

/-- The two Seren formats; `rnd` is what a number becomes when it is written with ten decimals
(SimulationIO.hpp:1018) and read again. -/
structure Fmt where
  binary : Bool
  rnd : ℝ → ℝ

namespace Fmt
variable (f : Fmt)

def real (x : ℝ) : Tok := .real (if f.binary then x else f.rnd x)
def double (x : ℝ) : Tok := .double (if f.binary then x else f.rnd x)
/-- `long ilpdata[50]` (SimulationIO.hpp:2020), `int` in the formatted writer (1002) -/
def long (i : ℤ) : Tok := if f.binary then .long i else .int i
/-- logical values: an integer in binary files (BinaryIO.h:42-45), a letter in formatted ones
(formatted_output.h:56-63) -/
def flag (b : Bool) : Tok := if f.binary then .int (if b then 1 else 0) else .flag b
/-- names: an empty one leaves no word in a formatted file -/
def strs (l : List String) : List Tok := (if f.binary then l else l.filter (· ≠ "")).map .str
/-- SimulationIO.hpp:42-43 -/
def tag : String := if f.binary then "SERENBINARYDUMPV3" else "SERENASCIIDUMPV2"
/-- the precision written: 8 in binary files (2173), always 4 in formatted ones (1150) -/
def prec : ℤ := if f.binary then 8 else 4

end Fmt

/-- The units: scales and names of each quantity (C49), and whether the run is dimensionless. -/
structure Scale where
  unit : Quantity → SimUnit
  dimensionless : Bool

/-- `x*simunits.q.outscale` -/
def Scale.out (U : Scale) (q : Quantity) (x : ℝ) : ℝ := x * (U.unit q).outscale

/-! ## Writers -/

/-- the particles of one type that are alive, in their order (SimulationIO.hpp:944-946) -/
def ofType {n : ℕ} (ps : List (Part n)) (ty : PType) : List (Part n) := ps.filter fun p => p.ptype = ty ∧ p.dead = false

/-- the live particles (1024-1027) -/
def live {n : ℕ} (ps : List (Part n)) : List (Part n) := ps.filter fun p => p.dead = false

/-- the order of the types in the files (1102-1106) -/
def types : List PType := [.icm, .gas, .cdm, .dust]

/-- `WriteSerenFormArrayScalar`, 932-953, `WriteSerenUnformArrayScalar`, 1962-1981 -/
def scalarArray {n : ℕ} (ps : List (Part n)) (g : Part n → Tok) : List Tok :=
  types.flatMap fun ty => (ofType ps ty).map g

/-- `WriteSerenFormArrayVector`, 961-984, `WriteSerenUnformArrayVector`, 1983-2005 -/
def vectorArray {n : ℕ} (ps : List (Part n)) (g : Part n → Vec n ℝ) (put : ℝ → Tok) : List Tok :=
  types.flatMap fun ty => (ofType ps ty).flatMap fun p => (List.ofFn (g p)).map put

/-- the unit names written, 1030-1053 and 2045-2068 -/
def unitNames (U : Scale) : List String :=
  if U.dimensionless then [] else
    [Quantity.r, .m, .t, .v, .a, .rho, .sigma, .press, .f, .E, .mom, .angmom, .angvel, .dmdt, .L, .kappa, .B, .Q, .Jcur,
      .u, .temp].map fun q => (U.unit q).outunit

/-- names of the arrays with their five numbers, 1058-1100 and 2072-2114 -/
def arrayInfo {n : ℕ} (s : Sim n) : List (String × List ℤ) :=
  let N : ℤ := ((live s.parts).length : ℤ)
  (if 0 < (live s.parts).length then
    [("porig", [1, 1, N, 2, 0]), ("r", [(n : ℤ), 1, N, 4, 1]), ("m", [1, 1, N, 4, 2]), ("h", [1, 1, N, 4, 1]),
      ("v", [(n : ℤ), 1, N, 4, 4]), ("rho", [1, 1, N, 4, 6]), ("u", [1, 1, N, 4, 20])] else []) ++
  (if 0 < s.stars.length then [("sink_v1", [1, 1, (s.stars.length : ℤ), 7, 0])] else [])

/-- `idata`, 1126-1133 and 2141-2148 -/
def idata {n : ℕ} (U : Scale) (s : Sim n) (i : ℕ) : ℤ :=
  if i = 0 then ((live s.parts).length : ℤ)
  else if i = 1 then (s.stars.length : ℤ)
  else if i = 3 then ((ofType s.parts .icm).length : ℤ)
  else if i = 4 then ((ofType s.parts .gas).length : ℤ)
  else if i = 5 then ((ofType s.parts .cdm).length : ℤ)
  else if i = 6 then ((ofType s.parts .dust).length : ℤ)
  else if i = 19 then ((unitNames U).length : ℤ)
  else if i = 20 then ((arrayInfo s).length : ℤ)
  else 0

/-- `ilpdata`, 1134-1136 and 2149-2151 -/
def ilpdata {n : ℕ} (s : Sim n) (i : ℕ) : ℤ :=
  if i = 0 then s.noutsnap else if i = 1 then s.nsteps else if i = 10 then s.noutlite else 0

/-- `rdata`, 1137-1138 and 2152-2153 -/
def rdata {n : ℕ} (s : Sim n) (i : ℕ) : ℝ := if i = 0 then s.hfac else 0

/-- `ddata`, 1139-1142 and 2154-2157 -/
def ddata {n : ℕ} (U : Scale) (s : Sim n) (i : ℕ) : ℝ :=
  if i = 0 then U.out .t s.t
  else if i = 1 then U.out .t s.tsnaplast
  else if i = 2 then U.out .m s.mmean
  else if i = 10 then U.out .t s.tlitesnaplast
  else 0

/-- length of the record of a star, 1210 and 2019 -/
def sinkLength (n : ℕ) : ℕ := 12 + 2 * n

/-- `sdata`, 1213-1223 and 2229-2242 -/
def sdata {n : ℕ} (U : Scale) (a : Star n) (i : ℕ) : ℝ :=
  if h : 1 ≤ i ∧ i - 1 < n then U.out .r (a.r ⟨i - 1, h.2⟩)
  else if h : 1 + n ≤ i ∧ i - (1 + n) < n then U.out .v (a.v ⟨i - (1 + n), h.2⟩)
  else if i = 1 + 2 * n then U.out .m a.m
  else if i = 2 + 2 * n then U.out .r a.h
  else if i = 3 + 2 * n then U.out .r a.radius
  else 0

/-- the record of star `i`, 1217-1225 and 2234-2245 -/
def starRecord {n : ℕ} (f : Fmt) (U : Scale) (a : Star n) (i : ℕ) : List Tok :=
  [f.flag true, f.flag true, .int (i + 1), .int 0] ++ (List.range (sinkLength n)).map fun k => f.real (sdata U a k)

/-- the header, 1149-1170 and 2164-2196 -/
def header {n : ℕ} (f : Fmt) (U : Scale) (s : Sim n) : List Tok :=
  [.str f.tag, .int f.prec, .int n, .int n, .int n]
    ++ (List.range 50).map (fun i => .int (idata U s i))
    ++ (List.range 50).map (fun i => f.long (ilpdata s i))
    ++ (List.range 50).map (fun i => f.real (rdata s i))
    ++ (List.range 50).map (fun i => f.double (ddata U s i))
    ++ f.strs (unitNames U)
    ++ (arrayInfo s).map (fun a => .str a.1)
    ++ (arrayInfo s).flatMap (fun a => a.2.map .int)

/-- the arrays of the particles, 1174-1203 and 2200-2223 -/
def hydroArrays {n : ℕ} (f : Fmt) (U : Scale) (ps : List (Part n)) : List Tok :=
  scalarArray ps (fun p => .int p.iorig)
    ++ vectorArray ps (fun p k => U.out .r (p.r k)) f.real
    ++ scalarArray ps (fun p => f.real (U.out .m p.m))
    ++ scalarArray ps (fun p => f.real (U.out .r p.h))
    ++ vectorArray ps (fun p k => U.out .v (p.v k)) f.real
    ++ scalarArray ps (fun p => f.real (U.out .rho p.rho))
    ++ scalarArray ps (fun p => f.real (U.out .u p.u))

/-- the stars, 1209-1227 and 2228-2247 -/
def sinkArray {n : ℕ} (f : Fmt) (U : Scale) (stars : List (Star n)) : List Tok :=
  [2, 2, 0, (sinkLength n : ℤ), 0, 0].map .int ++ (stars.zipIdx).flatMap fun a => starRecord f U a.1 a.2

/-- `WriteSerenFormSnapshotFile`, 992-1234, and the serial `WriteSerenUnformSnapshotFile`, 2008-2253.  A live particle of
another type ends the run (1120-1121, 2135-2136). -/
def writeSeren {n : ℕ} (f : Fmt) (U : Scale) (s : Sim n) : Option (List Tok) :=
  if (live s.parts).any (fun p => p.ptype = .boundary) then none else
    some (header f U s
      ++ (if 0 < (live s.parts).length then hydroArrays f U s.parts else [])
      ++ (if 0 < s.stars.length then sinkArray f U s.stars else []))

/-! ## Readers -/

/-- A reader takes values from the front of the file. -/
abbrev Rd (β : Type) := StateT (List Tok) Option β

def fail {β : Type} : Rd β := fun _ => none

def rInt : Rd ℤ := fun l => match l with
  | .int i :: l => some (i, l)
  | _ => none

/-- `long` values are read as such from binary files, as `int` from formatted ones (615, 1302) -/
def rLong (f : Fmt) : Rd ℤ := fun l => match l with
  | .int i :: l => if f.binary then none else some (i, l)
  | .long i :: l => if f.binary then some (i, l) else none
  | _ => none

def rReal : Rd ℝ := fun l => match l with
  | .real x :: l => some (x, l)
  | _ => none

def rDouble : Rd ℝ := fun l => match l with
  | .double x :: l => some (x, l)
  | _ => none

def rStr : Rd String := fun l => match l with
  | .str x :: l => some (x, l)
  | _ => none

/-- a letter (859-860) or an integer (1517-1518) -/
def rFlag (f : Fmt) : Rd Unit := fun l => match l with
  | .int _ :: l => if f.binary then some ((), l) else none
  | .flag _ :: l => if f.binary then none else some ((), l)
  | _ => none

/-- any one word -/
def rAny : Rd Unit := fun l => match l with
  | _ :: l => some ((), l)
  | [] => none

/-- `for (i=0; i<n; i++)` around a reader -/
def rN {β : Type} (r : Rd β) : ℕ → Rd (List β)
  | 0 => pure []
  | n + 1 => do
    let x ← r
    let xs ← rN r n
    pure (x :: xs)

/-- `infile.seekg(n, ios_base::cur)` in a binary file; a position inside a value is an error -/
def skip (n : ℕ) : Rd Unit := fun l => go n l
where
  go : ℕ → List Tok → Option (Unit × List Tok)
    | 0, l => some ((), l)
    | n + 1, a :: l => if a.size ≤ n + 1 then go (n + 1 - a.size) l else none
    | _ + 1, [] => none
  termination_by _ l => l.length

/-- what is put into the fields of the particles by one array -/
def setEach {n : ℕ} {β : Type} (g : Part n → β → Part n) (ps : List (Part n)) (xs : List β) : List (Part n) :=
  List.zipWith g ps xs

/-- a vector from the numbers read -/
def toVec (n : ℕ) (xs : List ℝ) : Vec n ℝ := fun k => xs.getD k 0

/-- one star, 857-872 and 1514-1531 -/
def rStar (f : Fmt) (n : ℕ) : Rd (Star n) := do
  let _ ← rFlag f
  let _ ← rFlag f
  let _ ← rInt
  let _ ← rInt
  let d ← rN rReal (sinkLength n)
  pure ⟨fun k => d.getD (k + 1) 0, fun k => d.getD (k + 1 + n) 0, d.getD (1 + 2 * n) 0, d.getD (2 + 2 * n) 0,
    d.getD (3 + 2 * n) 0⟩

/-- one array of the file, 740-885 and 1423-1541; `N` is `hydro->Nhydro`, `Nstar` is `nbody->Nstar`.  The assertions on
the six numbers before the stars are checks of debug builds and left out. -/
def rArray {n : ℕ} (f : Fmt) (N Nstar : ℕ) (a : String × List ℤ) (s : Sim n) : Rd (Sim n) :=
  if a.1 = "porig" then do
    let xs ← rN rInt N
    pure { s with parts := setEach (fun p x => { p with iorig := x }) s.parts xs }
  else if a.1 = "r" then do
    let xs ← rN (rN rReal n) N
    pure { s with parts := setEach (fun p x => { p with r := toVec n x }) s.parts xs }
  else if a.1 = "m" then do
    let xs ← rN rReal N
    pure { s with parts := setEach (fun p x => { p with m := x }) s.parts xs }
  else if a.1 = "h" then do
    let xs ← rN rReal N
    pure { s with
      parts := setEach (fun p x => { p with h := x }) s.parts xs
      hGiven := if f.binary then s.hGiven else true }
  else if a.1 = "v" then do
    let xs ← rN (rN rReal n) N
    pure { s with parts := setEach (fun p x => { p with v := toVec n x }) s.parts xs }
  else if a.1 = "temp" then do
    let _ ← rN rAny N
    pure s
  else if a.1 = "rho" then do
    let xs ← rN rReal N
    pure { s with parts := setEach (fun p x => { p with rho := x }) s.parts xs }
  else if a.1 = "u" then do
    let xs ← rN rReal N
    pure { s with parts := setEach (fun p x => { p with u := x }) s.parts xs }
  else if a.1 = "sink_v1" then do
    let _ ← rN rInt 6
    let xs ← rN (rStar f n) Nstar
    pure { s with
      stars := xs
      sinkRadius := xs.map (·.radius) }
  else if 1 ≤ a.2.getD 0 0 then
    if f.binary then fail else do
      let _ ← rN rAny ((a.2.getD 2 0 - (a.2.getD 1 0 - 1)).toNat * (a.2.getD 0 0).toNat)
      pure s
  else pure s

/-- the loop over the arrays -/
def rArrays {n : ℕ} (f : Fmt) (N Nstar : ℕ) : List (String × List ℤ) → Sim n → Rd (Sim n)
  | [], s => pure s
  | a :: l, s => do
    let s ← rArray f N Nstar a s
    rArrays f N Nstar l s

/-- the types by the counts of the header, 888-918 and 1544-1574: types 3 and 4 (icm and gas) both become gas -/
def countedTypes (idata : ℕ → ℤ) : List PType :=
  List.replicate (idata 3).toNat .gas ++ List.replicate (idata 4).toNat .gas ++ List.replicate (idata 5).toNat .cdm
    ++ List.replicate (idata 6).toNat .dust

/-- particle by particle; more types than particles is a write beyond the array -/
def setTypes {n : ℕ} : List PType → List (Part n) → Option (List (Part n))
  | [], ps => some ps
  | _ :: _, [] => none
  | ty :: tys, p :: ps => (setTypes tys ps).map fun l => { p with ptype := ty, dead := false } :: l

/-- the header of the Seren formats up to the floating point data -/
structure Head where
  idata : List ℤ
  ilpdata : List ℤ
  rdata : List ℝ
  ddata : List ℝ

/-- 634-668 and 1317-1381 -/
def rHead (f : Fmt) (n : ℕ) : Rd Head := do
  let tag ← rStr
  let pr ← rInt
  let d1 ← rInt
  let d2 ← rInt
  let d3 ← rInt
  if (tag = f.tag ∨ (f.binary = false ∧ tag = "SERENASCIIDUMPV3")) ∧ (f.binary = true → pr = 8) ∧
      d1 = n ∧ d2 = n ∧ d3 = n then do
    let i ← rN rInt 50
    let l ← rN (rLong f) 50
    let r ← rN rReal 50
    let d ← rN rDouble 50
    pure ⟨i, l, r, d⟩
  else fail

/-- the scalars of the simulation set from the header: always time and step number from binary files (1375, 1382), the
rest at a restart only (678-686, 1386-1394) -/
def setScalars {n : ℕ} (f : Fmt) (restart : Bool) (H : Head) (s : Sim n) : Sim n :=
  let s := if f.binary then { s with t := H.ddata.getD 0 0, nsteps := H.ilpdata.getD 1 0 } else s
  if restart then
    { s with
      noutsnap := H.ilpdata.getD 0 0
      nsteps := H.ilpdata.getD 1 0
      noutlite := H.ilpdata.getD 10 0
      t := H.ddata.getD 0 0
      tsnaplast := H.ddata.getD 1 0
      mmean := H.ddata.getD 2 0
      tlitesnaplast := H.ddata.getD 10 0 }
  else s

/-- `ReadSerenFormSnapshotFile`, 601-924, and `ReadSerenUnformSnapshotFile`, 1294-1579.  `blank` and `blankStar` are what
freshly allocated particles and stars hold.  (The unit names read go to `inunit`, from which nothing is computed, see
`C49_snapshot_units_ignored`.) -/
def readSeren {n : ℕ} (f : Fmt) (restart : Bool) (blank : Part n) (blankStar : Star n) (s : Sim n) : Rd (Sim n) := do
  let H ← rHead f n
  let N := (H.idata.getD 0 0).toNat
  let Nstar := (H.idata.getD 1 0).toNat
  let nunit := (H.idata.getD 19 0).toNat
  let ndata := (H.idata.getD 20 0).toNat
  let _ ← rN rStr nunit
  let ids ← rN rStr ndata
  let td ← rN (rN rInt 5) ndata
  let s := setScalars f restart H s
  let s := { s with
    parts := List.replicate N blank
    stars := List.replicate Nstar blankStar
    sinkRadius := List.replicate Nstar 0 }
  let s ← rArrays f N Nstar (ids.zip td) s
  if H.idata.getD 2 0 ≠ 0 ∨ H.idata.getD 7 0 ≠ 0 then fail else
    match setTypes (countedTypes fun i => H.idata.getD i 0) s.parts with
    | some ps => pure { s with parts := ps }
    | none => fail

/-- `ConvertToCodeUnits`, 2507-2559 (the next output times are modelled in C47 and C48) -/
def convert {n : ℕ} (U : Scale) (s : Sim n) : Sim n :=
  { s with
    parts := s.parts.map fun p =>
      { p with
        r := fun k => p.r k / (U.unit .r).inscale
        v := fun k => p.v k / (U.unit .v).inscale
        m := p.m / (U.unit .m).inscale
        h := p.h / (U.unit .r).inscale
        u := p.u / (U.unit .u).inscale
        rho := p.rho / (U.unit .rho).inscale }
    stars := s.stars.map fun a =>
      ⟨fun k => a.r k / (U.unit .r).inscale, fun k => a.v k / (U.unit .v).inscale, a.m / (U.unit .m).inscale,
        a.h / (U.unit .r).inscale, a.radius / (U.unit .r).inscale⟩
    sinkRadius := s.sinkRadius.map fun x => x / (U.unit .r).inscale
    t := s.t / (U.unit .t).inscale
    tsnaplast := s.tsnaplast / (U.unit .t).inscale
    tlitesnaplast := s.tlitesnaplast / (U.unit .t).inscale
    mmean := s.mmean / (U.unit .m).inscale }

/-- reading a snapshot and converting it (SimulationIC.hpp:74-75, 89 and 217, SphSnapshot.cpp:647-653) -/
def loadSeren {n : ℕ} (f : Fmt) (U : Scale) (restart : Bool) (blank : Part n) (blankStar : Star n) (s : Sim n)
    (file : List Tok) : Option (Sim n) :=
  ((readSeren f restart blank blankStar s).run file).map fun x => convert U x.1

/-- `HeaderInfo` -/
structure Info where
  ndim : ℤ
  nhydro : ℤ
  nstar : ℤ
  t : ℝ

/-- `ReadSerenFormHeaderFile`, 551-592 -/
def rFormHeader (U : Scale) (n : ℕ) : Rd Info := do
  let _ ← rAny
  let _ ← rAny
  let d ← rInt
  let _ ← rAny
  let _ ← rAny
  let i ← rN rInt 50
  let _ ← rN rInt 50
  let _ ← rN rReal 50
  let x ← rN rDouble 50
  if d = n then pure ⟨d, i.getD 0 0, i.getD 1 0, x.getD 0 0 / (U.unit .t).inscale⟩ else fail

/-- `ReadSerenUnformHeaderFile`, 1244-1285 -/
def rUnformHeader (U : Scale) (n : ℕ) : Rd Info := do
  skip 20
  skip 4
  let d ← rInt
  skip 8
  let N ← rInt
  let Ns ← rInt
  skip (48 * 4 + 50 * 8 + 50 * 8)
  let t ← rDouble
  if d = n then pure ⟨d, N, Ns, t / (U.unit .t).inscale⟩ else fail

/-! ## The column format -/

/-- one line of a particle, 462-497; `rnd` for the default six digits -/
def columnRow {n : ℕ} (rnd : ℝ → ℝ) (U : Scale) (p : Part n) : List Tok :=
  (List.ofFn fun k => Tok.real (rnd (U.out .r (p.r k)))) ++ (List.ofFn fun k => Tok.real (rnd (U.out .v (p.v k)))) ++
    [.real (rnd (U.out .m p.m)), .real (rnd (U.out .r p.h)), .real (rnd (U.out .rho p.rho)), .real (rnd (U.out .u p.u))]

/-- one line of a star, 501-535 -/
def columnStar {n : ℕ} (rnd : ℝ → ℝ) (U : Scale) (a : Star n) : List Tok :=
  (List.ofFn fun k => Tok.real (rnd (U.out .r (a.r k)))) ++ (List.ofFn fun k => Tok.real (rnd (U.out .v (a.v k)))) ++
    [.real (rnd (U.out .m a.m)), .real (rnd (U.out .r a.h)), .real (rnd 0), .real (rnd 0)]

/-- `WriteColumnSnapshotFile`, 443-540 -/
def writeColumn {n : ℕ} (rnd : ℝ → ℝ) (U : Scale) (s : Sim n) : List Tok :=
  [.int s.parts.length, .int s.stars.length, .int n, .real (rnd (U.out .t s.t))]
    ++ s.parts.flatMap (columnRow rnd U) ++ s.stars.flatMap (columnStar rnd U)

/-- `ReadColumnHeaderFile`, 162-184 -/
def rColumnHeader (U : Scale) (n : ℕ) : Rd Info := do
  let N ← rInt
  let Ns ← rInt
  let d ← rInt
  let t ← rReal
  if d = n then pure ⟨d, N, Ns, t / (U.unit .t).inscale⟩ else fail

/-- the loops over the lines, 215-229 and 240-258: they end at the end of the file (a line is there or not) -/
def rRows (w : ℕ) : ℕ → Rd (List (Option (List ℝ)))
  | 0 => pure []
  | N + 1 => fun l => match l with
    | [] => some (List.replicate (N + 1) none, [])
    | a :: l => ((do
        let x ← rN rReal w
        let xs ← rRows w N
        pure (some x :: xs) : Rd (List (Option (List ℝ))))) (a :: l)

/-- a particle from the numbers of a line, 217-227 -/
def columnPart {n : ℕ} (blank : Part n) : Option (List ℝ) → Part n
  | none => blank
  | some x => { blank with
    r := fun k => x.getD k 0
    v := fun k => x.getD (n + k) 0
    m := x.getD (2 * n) 0
    h := x.getD (2 * n + 1) 0
    rho := x.getD (2 * n + 2) 0
    u := x.getD (2 * n + 3) 0 }

/-- a star from the numbers of a line, 241-254 -/
def columnReadStar {n : ℕ} (blank : Star n) : Option (List ℝ) → Star n
  | none => blank
  | some x => { blank with
    r := fun k => x.getD k 0
    v := fun k => x.getD (n + k) 0
    m := x.getD (2 * n) 0
    h := x.getD (2 * n + 1) 0 }

/-- `ReadColumnSnapshotFile`, 193-264; the radius of a sink is set to the kernel range times `h` (255) -/
def readColumn {n : ℕ} (kernrange : ℝ) (U : Scale) (blank : Part n) (blankStar : Star n) (s : Sim n) : Rd (Sim n) := do
  let I ← rColumnHeader U n
  let rows ← rRows (2 * n + 4) I.nhydro.toNat
  let stars ← rRows (2 * n + 4) I.nstar.toNat
  pure { s with
    t := I.t
    tsnaplast := I.t
    parts := rows.map (columnPart blank)
    stars := stars.map (columnReadStar blankStar)
    sinkRadius := stars.map fun x => kernrange * (columnReadStar blankStar x).h }

/-- reading a column file and converting it -/
def loadColumn {n : ℕ} (kernrange : ℝ) (U : Scale) (blank : Part n) (blankStar : Star n) (s : Sim n)
    (file : List Tok) : Option (Sim n) :=
  ((readColumn kernrange U blank blankStar s).run file).map fun x => convert U x.1

/-! ## Several processes -/

/-- `WriteColumnSnapshotFile` with MPI, 273-434: the root writes the header with the sums of the counts, then every
process its particles; the lines of the stars are put into a buffer that is never written (412-429). -/
def writeColumnMpi {n : ℕ} (rnd : ℝ → ℝ) (U : Scale) (ranks : List (Sim n)) (t : ℝ) : List Tok :=
  [.int ((ranks.map fun s => (s.parts.length : ℤ)).sum), .int ((ranks.map fun s => (s.stars.length : ℤ)).sum), .int n,
    .real (rnd (U.out .t t))]
    ++ ranks.flatMap fun s => s.parts.flatMap (columnRow rnd U)

/-- A file under construction: the value at each position, if written. -/
abbrev Disk := ℕ → Option Tok

/-- `MPI_File_seek` and `MPI_File_write_all` of a buffer -/
def Disk.write (d : Disk) (pos : ℕ) (buf : List Tok) : Disk :=
  fun i => if pos ≤ i ∧ i - pos < buf.length then buf[i - pos]? else d i

/-- `Nbefore` of process `k` by `MPI_Exscan`, 1792-1795: the sum of the counts of the processes before it -/
def before (counts : List ℕ) (k : ℕ) : ℕ := (counts.take k).sum

/-- `WriteSerenFormArrayScalar_MPI`, 1584-1615, for one type: every process writes its buffer at its place behind
`offset`; the order of the writes is arbitrary. -/
def writeBlocks (d : Disk) (offset width : ℕ) (bufs : List (List Tok)) (counts : List ℕ) : List ℕ → Disk
  | [] => d
  | k :: order => (writeBlocks d offset width bufs counts order).write (offset + width * before counts k) (bufs.getD k [])

/-- `WriteSerenFormArrayScalar_MPI` (`width` 1) and `WriteSerenFormArrayVector_MPI` (1618-1650, `width` `ndim`): the loop
over the types.  `g` gives the values of one particle, `order ty` is the order in which the processes write. -/
def writeArrayMpi {n : ℕ} (ranks : List (List (Part n))) (width : ℕ) (g : Part n → List Tok)
    (order : PType → List ℕ) : List PType → Disk × ℕ → Disk × ℕ
  | [], x => x
  | ty :: tys, (d, offset) =>
    let counts := ranks.map fun ps => (ofType ps ty).length
    let bufs := ranks.map fun ps => (ofType ps ty).flatMap g
    writeArrayMpi ranks width g order tys
      (writeBlocks d offset width bufs counts (order ty), offset + width * counts.sum)

end Gandalf.Snap
