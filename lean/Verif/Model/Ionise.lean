import Mathlib.Algebra.Order.Field.Basic
import Mathlib.Algebra.BigOperators.Group.Finset.Basic
import Mathlib.Logic.Function.Basic
import Mathlib.Data.Real.Basic

/-!
# Ionisation by several stars, src/Thermal/MultipleSourceIonisation.cpp

Particles `0 .. n-1` are gas, `n .. n+nos-1` the sources, `N = n+nos` the dummy particle.  Loops over particles run one after another
(no races between threads).  Memory that the code does not set before it reads it (`photons` in the first pass) is part of the
initial state, which is arbitrary.  Recursion and the `while` loop have fuel; `none` is "still running".
-/

set_option autoImplicit false

namespace Gandalf.Ion

/-- what the passes do not change: densities, distances from the sources, links and photon rates (`ndot`, already divided by `4 pi`
times the recombination rate), MultipleSourceIonisation.cpp:302-437 -/
structure Net (α : Type) where
  n : ℕ
  nos : ℕ
  rho : ℕ → α
  /-- distance of a particle from a source -/
  dist : ℕ → ℕ → α
  /-- the next particle on the way to a source -/
  neigh : ℕ → ℕ → ℕ
  ndot : ℕ → α

/-- the arrays `photons`, `prob`, `ionised`, `checked`, `fionised` and the counter `change` -/
structure St (α : Type) where
  photons : ℕ → ℕ → α
  prob : ℕ → ℕ → α
  ionised : ℕ → ℕ → Bool
  checked : ℕ → ℕ → Bool
  fion : ℕ → Bool
  change : ℕ

section
variable {α : Type} [Field α] [LinearOrder α]

namespace Net
variable (G : Net α)

/-- the dummy particle -/
def N : ℕ := G.n + G.nos

/-- field `sink`, MultipleSourceIonisation.cpp:332, 377, 418 -/
def sink (i : ℕ) : Bool := decide (G.n ≤ i) && decide (i < G.N)

/-- `fluxcontrole`, MultipleSourceIonisation.cpp:98-101 -/
def flux (s : St α) (i p : ℕ) : α :=
  if s.ionised (G.neigh i p) p then G.ndot p - s.photons (G.neigh i p) p else 0

/-- the share of source `p`, MultipleSourceIonisation.cpp:102, 106-112 -/
def share (F : ℕ → α) (p : ℕ) : α :=
  if 0 < ∑ k ∈ Finset.range G.nos, F k then F p / ∑ k ∈ Finset.range G.nos, F k else F p

/-- function `probs`, MultipleSourceIonisation.cpp:82-113 -/
def probs (s : St α) (i : ℕ) : St α :=
  { s with
    prob := Function.update s.prob i fun p => if p < G.nos then G.share (G.flux s i) p else s.prob i p }

/-- what a particle absorbs if the source is alone, MultipleSourceIonisation.cpp:143-153 -/
def coef (i p : ℕ) : α :=
  (if G.sink (G.neigh i p) then G.rho i ^ 2 else ((G.rho i + G.rho (G.neigh i p)) / 2) ^ 2) / 3
    * (G.dist i p ^ 3 - G.dist (G.neigh i p) p ^ 3)

/-- `a[i][p] = x` -/
def set2 {β : Type} (a : ℕ → ℕ → β) (i p : ℕ) (x : β) : ℕ → ℕ → β := Function.update a i (Function.update (a i) p x)

/-- the end of `lost`, MultipleSourceIonisation.cpp:161-179 -/
def finish (s : St α) (p i : ℕ) (a : α) : St α :=
  { s with
    photons := set2 s.photons i p a
    ionised := set2 s.ionised i p (decide (0 < G.ndot p - a))
    checked := set2 s.checked i p true
    change := if s.ionised i p = decide (0 < G.ndot p - a) then s.change else s.change + 1 }

/-- function `lost`, MultipleSourceIonisation.cpp:120-188: the number returned is in `photons` afterwards -/
def lost : ℕ → St α → ℕ → ℕ → Option (St α)
  | 0, _, _, _ => none
  | f + 1, s, p, i =>
    if s.checked i p then some s
    else if G.sink i then some (G.finish s p i 0)
    else if G.neigh i p = G.N then some (G.finish (G.probs s i) p i (G.ndot p))
    else match lost f (G.probs s i) p (G.neigh i p) with
      | none => none
      | some t => some (G.finish t p i (G.coef i p * (G.probs s i).prob i p + t.photons (G.neigh i p) p))

/-- the loop over sources in `photoncount`, MultipleSourceIonisation.cpp:208-211 -/
def overSources (f : ℕ) (i : ℕ) : List ℕ → St α → Option (St α)
  | [], s => some s
  | p :: ps, s => (G.lost f s p i).bind (overSources f i ps)

/-- function `photoncount`, MultipleSourceIonisation.cpp:193-219 -/
def photoncount (f : ℕ) (s : St α) (i : ℕ) : Option (St α) :=
  (G.overSources f i (List.range G.nos) s).map fun t =>
    { t with
      fion := Function.update t.fion i ((List.range G.nos).any fun p => t.ionised i p) }

/-- the loop over particles, MultipleSourceIonisation.cpp:606-610 -/
def overParticles (f : ℕ) : List ℕ → St α → Option (St α)
  | [], s => some s
  | i :: is, s => (G.photoncount f s i).bind (overParticles f is)

/-- one pass, MultipleSourceIonisation.cpp:601-618 -/
def pass (f : ℕ) (s : St α) : Option (St α) :=
  (G.overParticles f (List.range' 1 (G.N - 1)) { s with
    change := 0 }).map fun t =>
    { t with
      checked := fun i p => if 1 ≤ i ∧ i < G.N ∧ p < G.nos then false else t.checked i p }

/-- the `while` loop, MultipleSourceIonisation.cpp:591-619; `final` is `finalcheck`; the first number is the fuel of the loop, the
second that of the recursion -/
def loop : ℕ → ℕ → Bool → St α → Option (St α)
  | 0, _, _, _ => none
  | k + 1, f, final, s =>
    if s.change ≠ 0 ∨ final = false then
      (G.pass f s).bind fun t => loop k f (final || decide (s.change = 0)) t
    else some s

/-- the state before the loop: what is set in MultipleSourceIonisation.cpp:332-365, 377-405, 419-437, 589-590; `old` are the flags kept from the
last call, `junk` is what is in the memory of `photons` -/
def start (old : ℕ → ℕ → Bool) (junk : ℕ → ℕ → α) : St α where
  photons := junk
  prob := fun _ _ => 0
  ionised := fun i p => if i < G.n then old i p else decide (i = G.n + p ∧ p < G.nos)
  checked := fun _ _ => false
  fion := G.sink
  change := G.N

end Net

/-! ### links -/

/-- a test for a closer neighbour, MultipleSourceIonisation.cpp:502-522, 551-571, for particle `i` and candidate `j`: `near`
is the source, `sink` whether the candidate is one, `angle` the angle at the source (`none`: not a number), `big` is `2*pi` and `low` is `-1e50` -/
def linkTest (near : ℕ) (sink : ℕ → Bool) (dist : ℕ → α) (angle : ℕ → Option α) (big low : α) (i : ℕ) (cur : α × ℕ) (j : ℕ) : α × ℕ :=
  if dist j < dist i ∧ i ≠ j then
    match (if j = near then some low else if sink j then some big else angle j) with
    | none => cur
    | some a => if a < cur.1 then (a, j) else cur
  else cur

/-- both loops over candidates for one source, MultipleSourceIonisation.cpp:474-524, 542-574; `l` are the neighbours (and sources
within the kernel), `l'` the particles that have `i` as a neighbour; `dummy` is `N` -/
def link (near : ℕ) (sink : ℕ → Bool) (dist : ℕ → α) (angle : ℕ → Option α) (big low : α) (i dummy : ℕ) (l l' : List ℕ) : α × ℕ :=
  l'.foldl (linkTest near sink dist angle big low i) (l.foldl (linkTest near sink dist angle big low i) (big, dummy))

/-! ### temperatures -/

/-- kernel of the smoothing, MultipleSourceIonisation.cpp:648-650 -/
def w (s : α) : α := if s < 1 then 1 - 3 / 2 * s ^ 2 + 3 / 4 * s ^ 3 else if s < 2 then 1 / 4 * (2 - s) ^ 3 else 0

/-- one neighbour `j` of an ionised particle `i`, MultipleSourceIonisation.cpp:642-660; `sep` is the distance, `h` the smoothing length -/
def heat (fion : ℕ → Bool) (sep : ℕ → ℕ → α) (h : ℕ → α) (ti : α) (i : ℕ) (t : ℕ → α) (j : ℕ) : ℕ → α :=
  if fion j then Function.update t j ti
  else if t j < ti * w (sep j i / (h i * (3 / 2))) then Function.update t j (ti * w (sep j i / (h i * (3 / 2)))) else t

/-- the loop over ionised particles and their neighbours `nb`, MultipleSourceIonisation.cpp:634-663 -/
def smooth (fion : ℕ → Bool) (sep : ℕ → ℕ → α) (h : ℕ → α) (ti : α) (nb : ℕ → List ℕ) (is : List ℕ) (t : ℕ → α) : ℕ → α :=
  is.foldl (fun t i => if fion i then (nb i).foldl (heat fion sep h ti i) t else t) t

/-- the final temperature, MultipleSourceIonisation.cpp:680-685 -/
def finalT (fion : Bool) (tn ti t : α) : α := if (if fion then ti else t) < tn then tn else (if fion then ti else t)

/-- `invmu`, MultipleSourceIonisation.cpp:687 -/
def invmu (tn ti mubar muion t : α) : α := ((t - tn) / muion + (ti - t) / mubar) / (ti - tn)

/-- internal energy, MultipleSourceIonisation.cpp:688 with the argument of line 72 (`gammam1` is `1./gamma_eos`) -/
def energy (tempscale gamma t im : α) : α := t / tempscale / (1 / gamma) * im

/-- `ionstate`, MultipleSourceIonisation.cpp:691-702 -/
def ionstate (fion : Bool) (tn t : α) : ℕ := if t = tn then 0 else if fion then 2 else 1

end

end Gandalf.Ion
