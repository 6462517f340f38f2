import Verif.Model.Snapshot
import Mathlib.Tactic.Ring
import Mathlib.Tactic.FieldSimp
import Mathlib.Tactic.NormNum
import Mathlib.Data.List.Perm.Basic
import Mathlib.Data.List.Nodup

/-! Lemmas on snapshot files (C80). -/

set_option autoImplicit false
set_option linter.unusedSectionVars false

namespace Gandalf.Snap
open Units (Quantity SimUnit)

/-- The reader takes the values `l` from the front of any file and returns `x`. -/
def Reads {β : Type} (r : Rd β) (l : List Tok) (x : β) : Prop := ∀ rest, r (l ++ rest) = some (x, rest)

theorem reads_bind {β γ : Type} {r : Rd β} {k : β → Rd γ} {l l' : List Tok} {x : β} {y : γ} (h : Reads r l x)
    (h' : Reads (k x) l' y) : Reads (r >>= k) (l ++ l') y := by
  intro rest
  show (StateT.bind r k) _ = _
  simp only [StateT.bind, List.append_assoc]
  rw [h]
  exact h' rest

theorem reads_pure {β : Type} (x : β) : Reads (pure x : Rd β) [] x := fun _ => rfl

theorem reads_bind_pure {β γ : Type} {r : Rd β} {g : β → γ} {l : List Tok} {x : β} (h : Reads r l x) :
    Reads (r >>= fun x => pure (g x)) l (g x) := by
  have := reads_bind (k := fun x => (pure (g x) : Rd γ)) h (reads_pure (g x))
  simpa using this

theorem Reads.cast {β : Type} {r : Rd β} {l : List Tok} {x y : β} (h : Reads r l x) (e : x = y) : Reads r l y := e ▸ h

theorem reads_int (i : ℤ) : Reads rInt [.int i] i := fun _ => rfl
theorem reads_real (x : ℝ) : Reads rReal [.real x] x := fun _ => rfl
theorem reads_double (x : ℝ) : Reads rDouble [.double x] x := fun _ => rfl
theorem reads_str (x : String) : Reads rStr [.str x] x := fun _ => rfl
theorem reads_any (a : Tok) : Reads rAny [a] () := fun _ => rfl
theorem reads_long (f : Fmt) (i : ℤ) : Reads (rLong f) [f.long i] i := by
  intro rest
  unfold Fmt.long rLong
  cases hb : f.binary <;> simp [hb]
theorem reads_flag (f : Fmt) (b : Bool) : Reads (rFlag f) [f.flag b] () := by
  intro rest
  unfold Fmt.flag rFlag
  cases hb : f.binary <;> simp [hb]

/-- what a number becomes in the file -/
noncomputable def Fmt.val (f : Fmt) (x : ℝ) : ℝ := if f.binary then x else f.rnd x

theorem reads_fmt_real (f : Fmt) (x : ℝ) : Reads rReal [f.real x] (f.val x) := fun _ => rfl
theorem reads_fmt_double (f : Fmt) (x : ℝ) : Reads rDouble [f.double x] (f.val x) := fun _ => rfl

theorem reads_rN {β γ : Type} {r : Rd β} {g : γ → List Tok} {v : γ → β} (as : List γ)
    (h : ∀ a ∈ as, Reads r (g a) (v a)) {N : ℕ} (hN : N = as.length) : Reads (rN r N) (as.flatMap g) (as.map v) := by
  subst hN
  induction as with
  | nil => exact reads_pure _
  | cons a as ih =>
    simp only [List.length_cons, List.flatMap_cons, List.map_cons]
    unfold rN
    exact reads_bind (h a (by simp)) (reads_bind_pure (ih fun b hb => h b (by simp [hb])))

theorem reads_rN_map {β γ : Type} {r : Rd β} {g : γ → Tok} {v : γ → β} (as : List γ)
    (h : ∀ a ∈ as, Reads r [g a] (v a)) {N : ℕ} (hN : N = as.length) : Reads (rN r N) (as.map g) (as.map v) := by
  have := reads_rN (g := fun a => [g a]) as h hN
  rwa [← List.map_eq_flatMap] at this

theorem getD_range {β : Type} (f : ℕ → β) (d : β) {k N : ℕ} (h : k < N) :
    ((List.range N).map f).getD k d = f k := by
  simp [List.getD_eq_getElem?_getD, h]

/-- the particles in the order of the file -/
noncomputable def sorted {n : ℕ} (ps : List (Part n)) : List (Part n) := types.flatMap (ofType ps)

theorem scalarArray_eq {n : ℕ} (ps : List (Part n)) (g : Part n → Tok) : scalarArray ps g = (sorted ps).map g := by
  unfold scalarArray sorted
  simp [List.map_flatMap]

theorem vectorArray_eq {n : ℕ} (ps : List (Part n)) (g : Part n → Vec n ℝ) (put : ℝ → Tok) :
    vectorArray ps g put = (sorted ps).flatMap fun p => (List.ofFn (g p)).map put := by
  unfold vectorArray sorted
  simp [List.flatMap_assoc]

theorem sorted_length {n : ℕ} (ps : List (Part n)) :
    (sorted ps).length = (ofType ps .icm).length + ((ofType ps .gas).length + ((ofType ps .cdm).length +
      (ofType ps .dust).length)) := by
  simp [sorted, types]

theorem sorted_perm {n : ℕ} (ps : List (Part n)) (h : (live ps).any (fun p => p.ptype = .boundary) = false) :
    (sorted ps).Perm (live ps) := by
  induction ps with
  | nil => simp [sorted, types, ofType, live]
  | cons p ps ih =>
    cases hd : p.dead with
    | true =>
      have e1 : live (p :: ps) = live ps := by simp [live, hd]
      have e2 : sorted (p :: ps) = sorted ps := by simp [sorted, types, ofType, hd]
      rw [e1] at h ⊢
      rw [e2]
      exact ih h
    | false =>
      have e1 : live (p :: ps) = p :: live ps := by simp [live, hd]
      rw [e1] at h ⊢
      simp only [List.any_cons, Bool.or_eq_false_iff, decide_eq_false_iff_not] at h
      have := ih h.2
      refine List.Perm.trans ?_ (this.cons p)
      have e (ty : PType) : ofType (p :: ps) ty = if p.ptype = ty then p :: ofType ps ty else ofType ps ty := by
        by_cases ht : p.ptype = ty <;> simp [ofType, hd, ht]
      simp only [sorted, types, List.flatMap_cons, List.flatMap_nil, e, List.append_nil]
      cases ht : p.ptype with
      | boundary => exact absurd ht h.1
      | icm => simp
      | gas => simpa using List.perm_middle
      | cdm =>
        simp only [reduceCtorEq, if_false, if_true, List.cons_append]
        rw [← List.append_assoc, ← List.append_assoc]
        exact List.perm_middle
      | dust =>
        simp only [reduceCtorEq, if_false, if_true]
        rw [← List.append_assoc, ← List.append_assoc, ← List.append_assoc, ← List.append_assoc]
        exact List.perm_middle

theorem sorted_ofType {n : ℕ} (ps : List (Part n)) (ty : PType) (h : ty ≠ .boundary) :
    (sorted ps).filter (fun p => p.ptype = ty) = ofType ps ty := by
  have e (a b : PType) : (ofType ps a).filter (fun p => p.ptype = b) = if a = b then ofType ps a else [] := by
    unfold ofType
    rw [List.filter_filter]
    by_cases hab : a = b
    · subst hab
      rw [if_pos rfl]
      refine List.filter_congr fun p _ => ?_
      by_cases hp : p.ptype = a <;> simp [hp]
    · rw [if_neg hab]
      refine List.filter_eq_nil_iff.2 fun p _ => ?_
      by_cases hp : p.ptype = b
      · have : b ≠ a := Ne.symm hab
        simp [hp, this]
      · simp [hp]
  simp only [sorted, types, List.flatMap_cons, List.flatMap_nil, List.filter_append, e, List.append_nil]
  cases ty <;> simp at h ⊢

theorem sorted_mem {n : ℕ} {ps : List (Part n)} {p : Part n} (h : p ∈ sorted ps) : p ∈ ps ∧ p.dead = false := by
  simp only [sorted, List.mem_flatMap, ofType, List.mem_filter] at h
  obtain ⟨ty, _, h1, h2⟩ := h
  simp at h2
  exact ⟨h1, h2.2⟩

theorem setEach_map {n : ℕ} {β γ : Type} (g : Part n → β → Part n) (l : List γ) (a : γ → Part n) (b : γ → β) :
    setEach g (l.map a) (l.map b) = l.map fun x => g (a x) (b x) := by
  unfold setEach
  induction l with
  | nil => rfl
  | cons x l ih => simp [ih]

theorem toVec_ofFn {n : ℕ} (x : Vec n ℝ) (g : ℝ → ℝ) : toVec n ((List.ofFn x).map g) = fun k => g (x k) := by
  funext k
  simp [toVec, List.getD_eq_getElem?_getD]

/-- reading the record of a star -/
noncomputable def Star.val {n : ℕ} (f : Fmt) (U : Scale) (a : Star n) : Star n :=
  ⟨fun k => f.val (U.out .r (a.r k)), fun k => f.val (U.out .v (a.v k)), f.val (U.out .m a.m), f.val (U.out .r a.h),
    f.val (U.out .r a.radius)⟩

theorem reads_star {n : ℕ} (f : Fmt) (U : Scale) (a : Star n) (i : ℕ) :
    Reads (rStar f n) (starRecord f U a i) (a.val f U) := by
  unfold rStar starRecord
  have h := reads_rN_map (r := rReal) (g := fun k => f.real (sdata U a k)) (v := fun k => f.val (sdata U a k))
    (List.range (sinkLength n)) (fun k _ => reads_fmt_real f _) (N := sinkLength n) (by simp)
  show Reads _ ([f.flag true] ++ ([f.flag true] ++ ([Tok.int (i + 1)] ++ ([Tok.int 0] ++
    (List.range (sinkLength n)).map fun k => f.real (sdata U a k))))) _
  refine reads_bind (reads_flag f true) (reads_bind (reads_flag f true) (reads_bind (reads_int _) (reads_bind
    (reads_int _) ((reads_bind_pure h).cast ?_))))
  unfold Star.val
  have e : ∀ j, j < sinkLength n → ((List.range (sinkLength n)).map fun k => f.val (sdata U a k)).getD j 0 =
      f.val (sdata U a j) := fun j hj => getD_range _ _ hj
  have hs : sinkLength n = 12 + 2 * n := rfl
  congr 1
  · funext k
    rw [e _ (by omega)]
    have : 1 ≤ (k : ℕ) + 1 ∧ (k : ℕ) + 1 - 1 < n := ⟨by omega, by omega⟩
    simp [sdata, this]
  · funext k
    rw [e _ (by omega)]
    have h1 : ¬ (1 ≤ (k : ℕ) + 1 + n ∧ (k : ℕ) + 1 + n - 1 < n) := by omega
    have h2 : 1 + n ≤ (k : ℕ) + 1 + n ∧ (k : ℕ) + 1 + n - (1 + n) < n := ⟨by omega, by omega⟩
    unfold sdata
    rw [dif_neg h1, dif_pos h2]
    congr 4
    omega
  · rw [e _ (by omega)]
    have h1 : ¬ (1 ≤ 1 + 2 * n ∧ 1 + 2 * n - 1 < n) := by omega
    have h2 : ¬ (1 + n ≤ 1 + 2 * n ∧ 1 + 2 * n - (1 + n) < n) := by omega
    unfold sdata
    rw [dif_neg h1, dif_neg h2, if_pos rfl]
  · rw [e _ (by omega)]
    have h1 : ¬ (1 ≤ 2 + 2 * n ∧ 2 + 2 * n - 1 < n) := by omega
    have h2 : ¬ (1 + n ≤ 2 + 2 * n ∧ 2 + 2 * n - (1 + n) < n) := by omega
    unfold sdata
    rw [dif_neg h1, dif_neg h2, if_neg (by omega), if_pos rfl]
  · rw [e _ (by omega)]
    have h1 : ¬ (1 ≤ 3 + 2 * n ∧ 3 + 2 * n - 1 < n) := by omega
    have h2 : ¬ (1 + n ≤ 3 + 2 * n ∧ 3 + 2 * n - (1 + n) < n) := by omega
    unfold sdata
    rw [dif_neg h1, dif_neg h2, if_neg (by omega), if_neg (by omega), if_pos rfl]

theorem setTypes_map {n : ℕ} {γ : Type} (l : List γ) (ty : γ → PType) (a : γ → Part n) :
    setTypes (l.map ty) (l.map a) = some (l.map fun x => { a x with ptype := ty x, dead := false }) := by
  induction l with
  | nil => rfl
  | cons x l ih => simp [setTypes, ih]

/-- the type under which a particle comes back -/
def back : PType → PType
  | .icm => .gas
  | ty => ty

theorem countedTypes_sorted {n : ℕ} (U : Scale) (s : Sim n) :
    countedTypes (idata U s) = (sorted s.parts).map fun p => back p.ptype := by
  have e (ty : PType) : (ofType s.parts ty).map (fun p => back p.ptype) =
      List.replicate (ofType s.parts ty).length (back ty) := by
    refine List.eq_replicate_iff.2 ⟨by simp, fun b hb => ?_⟩
    obtain ⟨p, hp, rfl⟩ := List.mem_map.1 hb
    simp only [ofType, List.mem_filter] at hp
    have := hp.2
    simp at this
    rw [this.1]
  simp only [sorted, types, List.flatMap_cons, List.flatMap_nil, List.map_append, e, List.append_nil]
  simp [countedTypes, idata, back]
  rw [List.replicate_add, List.append_assoc]

theorem rArrays_append {n : ℕ} (f : Fmt) (N Ns : ℕ) (l l' : List (String × List ℤ)) (s : Sim n) :
    rArrays f N Ns (l ++ l') s = rArrays f N Ns l s >>= rArrays f N Ns l' := by
  induction l generalizing s with
  | nil => simp [rArrays]
  | cons a l ih => simp [rArrays, ih]

/-- a particle as it comes back, before conversion -/
noncomputable def Part.val {n : ℕ} (f : Fmt) (U : Scale) (p : Part n) : Part n :=
  ⟨back p.ptype, false, p.iorig, fun k => f.val (U.out .r (p.r k)), fun k => f.val (U.out .v (p.v k)),
    f.val (U.out .m p.m), f.val (U.out .r p.h), f.val (U.out .rho p.rho), f.val (U.out .u p.u)⟩

section
variable {n : ℕ} (f : Fmt) (l : List (Part n)) (a : Part n → Part n) (s : Sim n) (N Ns : ℕ) (td : List ℤ)

theorem reads_vec (hN : N = l.length) (g : Part n → Vec n ℝ) : Reads (rN (rN rReal n) N)
    (l.flatMap fun p => (List.ofFn (g p)).map f.real) (l.map fun p => (List.ofFn (g p)).map f.val) :=
  reads_rN _ (fun p _ => reads_rN_map _ (fun x _ => reads_fmt_real f x) (by simp)) hN

theorem reads_scal (hN : N = l.length) (g : Part n → ℝ) : Reads (rN rReal N) (l.map fun p => f.real (g p))
    (l.map fun p => f.val (g p)) := reads_rN_map _ (fun p _ => reads_fmt_real f _) hN

theorem reads_porig (hN : N = l.length) (hs : s.parts = l.map a) :
    Reads (rArray f N Ns ("porig", td) s) (l.map fun p => Tok.int p.iorig)
      { s with parts := l.map fun p => { a p with iorig := p.iorig } } := by
  rw [show rArray f N Ns ("porig", td) s = (rN rInt N >>= fun xs =>
    pure { s with parts := setEach (fun p x => { p with iorig := x }) s.parts xs }) by simp [rArray]]
  refine (reads_bind_pure (reads_rN_map _ (fun p _ => reads_int _) hN)).cast ?_
  rw [hs, setEach_map]

theorem reads_r (hN : N = l.length) (hs : s.parts = l.map a) (g : Part n → Vec n ℝ) :
    Reads (rArray f N Ns ("r", td) s) (l.flatMap fun p => (List.ofFn (g p)).map f.real)
      { s with parts := l.map fun p => { a p with r := fun k => f.val (g p k) } } := by
  rw [show rArray f N Ns ("r", td) s = (rN (rN rReal n) N >>= fun xs =>
    pure { s with parts := setEach (fun p x => { p with r := toVec n x }) s.parts xs }) by simp [rArray]]
  refine (reads_bind_pure (reads_vec f l N hN g)).cast ?_
  rw [hs, setEach_map]
  simp only [toVec_ofFn]

theorem reads_v (hN : N = l.length) (hs : s.parts = l.map a) (g : Part n → Vec n ℝ) :
    Reads (rArray f N Ns ("v", td) s) (l.flatMap fun p => (List.ofFn (g p)).map f.real)
      { s with parts := l.map fun p => { a p with v := fun k => f.val (g p k) } } := by
  rw [show rArray f N Ns ("v", td) s = (rN (rN rReal n) N >>= fun xs =>
    pure { s with parts := setEach (fun p x => { p with v := toVec n x }) s.parts xs }) by simp [rArray]]
  refine (reads_bind_pure (reads_vec f l N hN g)).cast ?_
  rw [hs, setEach_map]
  simp only [toVec_ofFn]

theorem reads_m (hN : N = l.length) (hs : s.parts = l.map a) (g : Part n → ℝ) :
    Reads (rArray f N Ns ("m", td) s) (l.map fun p => f.real (g p))
      { s with parts := l.map fun p => { a p with m := f.val (g p) } } := by
  rw [show rArray f N Ns ("m", td) s = (rN rReal N >>= fun xs =>
    pure { s with parts := setEach (fun p x => { p with m := x }) s.parts xs }) by simp [rArray]]
  refine (reads_bind_pure (reads_scal f l N hN g)).cast ?_
  rw [hs, setEach_map]

theorem reads_rho (hN : N = l.length) (hs : s.parts = l.map a) (g : Part n → ℝ) :
    Reads (rArray f N Ns ("rho", td) s) (l.map fun p => f.real (g p))
      { s with parts := l.map fun p => { a p with rho := f.val (g p) } } := by
  rw [show rArray f N Ns ("rho", td) s = (rN rReal N >>= fun xs =>
    pure { s with parts := setEach (fun p x => { p with rho := x }) s.parts xs }) by simp [rArray]]
  refine (reads_bind_pure (reads_scal f l N hN g)).cast ?_
  rw [hs, setEach_map]

theorem reads_u (hN : N = l.length) (hs : s.parts = l.map a) (g : Part n → ℝ) :
    Reads (rArray f N Ns ("u", td) s) (l.map fun p => f.real (g p))
      { s with parts := l.map fun p => { a p with u := f.val (g p) } } := by
  rw [show rArray f N Ns ("u", td) s = (rN rReal N >>= fun xs =>
    pure { s with parts := setEach (fun p x => { p with u := x }) s.parts xs }) by simp [rArray]]
  refine (reads_bind_pure (reads_scal f l N hN g)).cast ?_
  rw [hs, setEach_map]

theorem reads_h (hN : N = l.length) (hs : s.parts = l.map a) (g : Part n → ℝ) :
    Reads (rArray f N Ns ("h", td) s) (l.map fun p => f.real (g p))
      { s with
        parts := l.map fun p => { a p with h := f.val (g p) }
        hGiven := if f.binary then s.hGiven else true } := by
  rw [show rArray f N Ns ("h", td) s = (rN rReal N >>= fun xs => pure { s with
    parts := setEach (fun p x => { p with h := x }) s.parts xs
    hGiven := if f.binary then s.hGiven else true }) by simp [rArray]]
  refine (reads_bind_pure (reads_scal f l N hN g)).cast ?_
  rw [hs, setEach_map]

end

/-- the array part of the file gives the values, with the types still to be set -/
theorem reads_hydro {n : ℕ} (f : Fmt) (U : Scale) (ps : List (Part n)) (blank : Part n) (s : Sim n) (N Ns : ℕ)
    (hN : N = (sorted ps).length) (hs : s.parts = (sorted ps).map fun _ => blank) (a1 a2 a3 a4 a5 a6 a7 : List ℤ) :
    Reads (rArrays f N Ns [("porig", a1), ("r", a2), ("m", a3), ("h", a4), ("v", a5), ("rho", a6), ("u", a7)] s)
      (hydroArrays f U ps)
      { s with
        parts := (sorted ps).map fun p => { p.val f U with ptype := blank.ptype, dead := blank.dead }
        hGiven := if f.binary then s.hGiven else true } := by
  unfold hydroArrays
  simp only [scalarArray_eq, vectorArray_eq, List.append_assoc]
  simp only [rArrays]
  refine reads_bind (reads_porig f _ _ s N Ns a1 hN hs) ?_
  refine reads_bind (reads_r f _ _ _ N Ns a2 hN rfl _) ?_
  refine reads_bind (reads_m f _ _ _ N Ns a3 hN rfl _) ?_
  refine reads_bind (reads_h f _ _ _ N Ns a4 hN rfl _) ?_
  refine reads_bind (reads_v f _ _ _ N Ns a5 hN rfl _) ?_
  refine reads_bind (reads_rho f _ _ _ N Ns a6 hN rfl _) ?_
  refine (reads_bind_pure (g := fun x => x) (reads_u f _ _ _ N Ns a7 hN rfl _)).cast ?_
  rfl

theorem zipIdx_map_fst {β : Type} (l : List β) (k : ℕ) : (l.zipIdx k).map Prod.fst = l := by simp

/-- the stars -/
theorem reads_sinks {n : ℕ} (f : Fmt) (U : Scale) (stars : List (Star n)) (s : Sim n) (N Ns : ℕ)
    (hN : Ns = stars.length) (td : List ℤ) :
    Reads (rArrays f N Ns [("sink_v1", td)] s) (sinkArray f U stars)
      { s with
        stars := stars.map (Star.val f U)
        sinkRadius := stars.map fun a => f.val (U.out .r a.radius) } := by
  simp only [rArrays]
  rw [show rArray f N Ns ("sink_v1", td) s = (rN rInt 6 >>= fun _ => rN (rStar f n) Ns >>= fun xs => pure { s with
      stars := xs
      sinkRadius := xs.map (·.radius) }) by simp [rArray]]
  unfold sinkArray
  refine reads_bind_pure (g := fun x => x) (reads_bind (reads_rN_map (v := id) _ (fun i _ => reads_int i) (by simp)) ?_)
  refine (reads_bind_pure (reads_rN (v := fun a => Star.val f U a.1) _ (fun a _ => reads_star f U a.1 a.2)
    (by simpa using hN))).cast ?_
  have e : (stars.zipIdx.map fun a => Star.val f U a.1) = stars.map (Star.val f U) := by
    conv_rhs => rw [← zipIdx_map_fst stars 0, List.map_map]
    rfl
  rw [e]
  simp [Star.val, Function.comp_def]

/-- all arrays of a file -/
theorem reads_arrays {n : ℕ} (f : Fmt) (U : Scale) (x : Sim n) (blank : Part n) (blankStar : Star n) (s : Sim n)
    (N Ns : ℕ) (hl : (sorted x.parts).length = (live x.parts).length) (hN : N = (live x.parts).length)
    (hNs : Ns = x.stars.length)
    (hs : s.parts = List.replicate N blank) (hst : s.stars = List.replicate Ns blankStar)
    (hsr : s.sinkRadius = List.replicate Ns 0) :
    Reads (rArrays f N Ns (arrayInfo x) s)
      ((if 0 < (live x.parts).length then hydroArrays f U x.parts else [])
        ++ (if 0 < x.stars.length then sinkArray f U x.stars else []))
      { s with
        parts := (sorted x.parts).map fun p => { p.val f U with ptype := blank.ptype, dead := blank.dead }
        stars := x.stars.map (Star.val f U)
        sinkRadius := x.stars.map fun a => f.val (U.out .r a.radius)
        hGiven := if 0 < N ∧ f.binary = false then true else s.hGiven } := by
  have hs' : s.parts = (sorted x.parts).map fun _ => blank := by rw [hs, hN, ← hl]; simp
  unfold arrayInfo
  rw [rArrays_append]
  have h1 : Reads (rArrays f N Ns (if 0 < (live x.parts).length then
      [("porig", [1, 1, ((live x.parts).length : ℤ), 2, 0]), ("r", [(n : ℤ), 1, ((live x.parts).length : ℤ), 4, 1]),
        ("m", [1, 1, ((live x.parts).length : ℤ), 4, 2]), ("h", [1, 1, ((live x.parts).length : ℤ), 4, 1]),
        ("v", [(n : ℤ), 1, ((live x.parts).length : ℤ), 4, 4]), ("rho", [1, 1, ((live x.parts).length : ℤ), 4, 6]),
        ("u", [1, 1, ((live x.parts).length : ℤ), 4, 20])] else []) s)
      (if 0 < (live x.parts).length then hydroArrays f U x.parts else [])
      { s with
        parts := (sorted x.parts).map fun p => { p.val f U with ptype := blank.ptype, dead := blank.dead }
        hGiven := if 0 < N ∧ f.binary = false then true else s.hGiven } := by
    by_cases h : 0 < (live x.parts).length
    · rw [if_pos h, if_pos h]
      refine (reads_hydro f U x.parts blank s N Ns (by rw [hl, hN]) hs' _ _ _ _ _ _ _).cast ?_
      rw [← hN] at h
      cases hb : f.binary <;> simp [h]
    · rw [if_neg h, if_neg h]
      have h0 : (live x.parts).length = 0 := by omega
      have e : sorted x.parts = [] := List.eq_nil_of_length_eq_zero (by rw [hl, h0])
      refine (reads_pure s).cast ?_
      have hN0 : ¬ (0 < N ∧ f.binary = false) := by rw [hN]; omega
      rw [e, if_neg hN0]
      have : s.parts = [] := by rw [hs', e]; rfl
      cases s
      simp_all
  refine reads_bind h1 ?_
  by_cases h : 0 < x.stars.length
  · rw [if_pos h, if_pos h]
    exact reads_sinks f U x.stars _ N Ns hNs _
  · rw [if_neg h, if_neg h]
    have h0 : x.stars = [] := List.eq_nil_of_length_eq_zero (by omega)
    refine (reads_pure _).cast ?_
    have hNs0 : Ns = 0 := by rw [hNs, h0]; rfl
    rw [hNs0] at hst hsr
    cases s
    simp_all

/-- the header as read -/
noncomputable def headOf {n : ℕ} (f : Fmt) (U : Scale) (x : Sim n) : Head :=
  ⟨(List.range 50).map (idata U x), (List.range 50).map (ilpdata x), (List.range 50).map fun i => f.val (rdata x i),
    (List.range 50).map fun i => f.val (ddata U x i)⟩

/-- the five identifying values and the four blocks of numbers -/
noncomputable def headToks {n : ℕ} (f : Fmt) (U : Scale) (x : Sim n) : List Tok :=
  [.str f.tag] ++ ([.int f.prec] ++ ([.int n] ++ ([.int n] ++ ([.int n] ++
    ((List.range 50).map (fun i => .int (idata U x i))
    ++ ((List.range 50).map (fun i => f.long (ilpdata x i))
    ++ ((List.range 50).map (fun i => f.real (rdata x i))
    ++ (List.range 50).map (fun i => f.double (ddata U x i)))))))))

theorem reads_head {n : ℕ} (f : Fmt) (U : Scale) (x : Sim n) : Reads (rHead f n) (headToks f U x) (headOf f U x) := by
  unfold rHead headToks
  refine reads_bind (reads_str _) (reads_bind (reads_int _) (reads_bind (reads_int _) (reads_bind (reads_int _)
    (reads_bind (reads_int _) ?_))))
  have c : (f.tag = f.tag ∨ (f.binary = false ∧ f.tag = "SERENASCIIDUMPV3")) ∧ (f.binary = true → f.prec = 8) ∧
      (n : ℤ) = n ∧ (n : ℤ) = n ∧ (n : ℤ) = n := ⟨Or.inl rfl, fun h => by simp [Fmt.prec, h], rfl, rfl, rfl⟩
  rw [if_pos c]
  refine reads_bind (reads_rN_map _ (fun i _ => reads_int _) (by simp)) (reads_bind (reads_rN_map _
    (fun i _ => reads_long f _) (by simp)) (reads_bind (reads_rN_map _ (fun i _ => reads_fmt_real f _) (by simp))
      (reads_bind_pure (g := fun d => (⟨_, _, _, d⟩ : Head)) (reads_rN_map _ (fun i _ => reads_fmt_double f _)
        (by simp)))))

theorem header_eq {n : ℕ} (f : Fmt) (U : Scale) (x : Sim n) :
    header f U x = headToks f U x ++ (f.strs (unitNames U) ++ ((arrayInfo x).map (fun a => .str a.1)
      ++ (arrayInfo x).flatMap (fun a => a.2.map .int))) := by
  simp [header, headToks]

theorem arrayInfo_length {n : ℕ} (x : Sim n) {a : String × List ℤ} (h : a ∈ arrayInfo x) : a.2.length = 5 := by
  simp only [arrayInfo, List.mem_append] at h
  rcases h with h | h
  · split_ifs at h
    · simp only [List.mem_cons, List.not_mem_nil, or_false] at h
      rcases h with rfl | rfl | rfl | rfl | rfl | rfl | rfl <;> rfl
    · simp at h
  · split_ifs at h
    · simp only [List.mem_cons, List.not_mem_nil, or_false] at h
      rw [h]; rfl
    · simp at h

theorem zip_map_self {β γ : Type} (l : List (β × γ)) : (l.map Prod.fst).zip (l.map Prod.snd) = l := by
  induction l with
  | nil => rfl
  | cons a l ih => simp [ih]

/-- what is read from a file that was written -/
noncomputable def readBack {n : ℕ} (f : Fmt) (U : Scale) (restart : Bool) (x s : Sim n) : Sim n :=
  { setScalars f restart (headOf f U x) s with
    parts := (sorted x.parts).map (Part.val f U)
    stars := x.stars.map (Star.val f U)
    sinkRadius := x.stars.map fun a => f.val (U.out .r a.radius)
    hGiven := if 0 < (live x.parts).length ∧ f.binary = false then true else
      (setScalars f restart (headOf f U x) s).hGiven }

theorem reads_seren {n : ℕ} (f : Fmt) (U : Scale) (restart : Bool) (blank : Part n) (blankStar : Star n) (x s : Sim n)
    (hu : f.binary = false → ∀ u ∈ unitNames U, u ≠ "") {file : List Tok} (hw : writeSeren f U x = some file) :
    Reads (readSeren f restart blank blankStar s) file (readBack f U restart x s) := by
  unfold writeSeren at hw
  by_cases hb : (live x.parts).any (fun p => p.ptype = .boundary) = true
  · rw [if_pos hb] at hw; simp at hw
  rw [if_neg hb] at hw
  obtain rfl := Option.some.inj hw
  have hb' : (live x.parts).any (fun p => p.ptype = .boundary) = false := by simpa using hb
  have hl := (sorted_perm x.parts hb').length_eq
  rw [header_eq]
  simp only [List.append_assoc]
  unfold readSeren
  refine reads_bind (reads_head f U x) ?_
  have g (k : ℕ) (hk : k < 50) : (headOf f U x).idata.getD k 0 = idata U x k := getD_range _ _ hk
  have g0 := g 0 (by norm_num)
  have g1 := g 1 (by norm_num)
  have g2 := g 2 (by norm_num)
  have g7 := g 7 (by norm_num)
  have g19 := g 19 (by norm_num)
  have g20 := g 20 (by norm_num)
  simp only [g0, g1, g2, g7, g19, g20]
  have i0 : (idata U x 0).toNat = (live x.parts).length := by simp [idata]
  have i1 : (idata U x 1).toNat = x.stars.length := by simp [idata]
  have i2 : idata U x 2 = 0 := by simp [idata]
  have i7 : idata U x 7 = 0 := by simp [idata]
  have i19 : (idata U x 19).toNat = (unitNames U).length := by simp [idata]
  have i20 : (idata U x 20).toNat = (arrayInfo x).length := by simp [idata]
  simp only [i0, i1, i2, i7, i19, i20]
  have hst : f.strs (unitNames U) = (unitNames U).map .str := by
    unfold Fmt.strs
    cases hbin : f.binary with
    | true => simp
    | false =>
      have : (unitNames U).filter (· ≠ "") = unitNames U := List.filter_eq_self.2 fun u h => by simpa using hu hbin u h
      simp only [this, Bool.false_eq_true, if_false]
  rw [hst]
  refine reads_bind (reads_rN_map (v := id) _ (fun a _ => reads_str a) rfl) ?_
  refine reads_bind (reads_rN_map (v := Prod.fst) _ (fun a _ => reads_str a.1) rfl) ?_
  refine reads_bind (reads_rN (v := Prod.snd) _ (fun a ha => (reads_rN_map (v := id) _ (fun i _ => reads_int i)
    (arrayInfo_length x ha).symm).cast (by simp)) rfl) ?_
  rw [zip_map_self]
  have ha := reads_arrays f U x blank blankStar { setScalars f restart (headOf f U x) s with
    parts := List.replicate (live x.parts).length blank
    stars := List.replicate x.stars.length blankStar
    sinkRadius := List.replicate x.stars.length 0 } (live x.parts).length x.stars.length hl rfl rfl rfl rfl rfl
  have key := reads_bind (l' := []) ha (k := fun s => if (0 : ℤ) ≠ 0 ∨ (0 : ℤ) ≠ 0 then fail else
    match setTypes (countedTypes fun i => (headOf f U x).idata.getD i 0) s.parts with
    | some ps => pure { s with parts := ps }
    | none => fail) (y := readBack f U restart x s) (by
      rw [if_neg (by simp)]
      have e : countedTypes (fun i => (headOf f U x).idata.getD i 0) = (sorted x.parts).map fun p => back p.ptype := by
        rw [← countedTypes_sorted U]
        simp only [countedTypes, g 3 (by norm_num), g 4 (by norm_num), g 5 (by norm_num), g 6 (by norm_num)]
      simp only [e, setTypes_map]
      exact (reads_pure _).cast rfl)
  rw [List.append_nil] at key
  exact key

end Gandalf.Snap
