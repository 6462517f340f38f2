import Verif.Model.OctTree
import Verif.Proof.LeafList

/-! Distribution of the particles of a divided cell over its children. -/

set_option autoImplicit false

namespace Gandalf.Oct
open LeafList

/-- cell `c` holds the list `b` -/
structure Held (s : Lists) (c : ℕ) (b : List ℕ) : Prop where
  ifirst : s.ifirst c = b.head?
  ilast : s.ilast c = b.getLast?
  N : s.N c = b.length
  chain : Chained s.inext b

/-- the cell's list ends are unchanged -/
structure Same (s s' : Lists) (c : ℕ) : Prop where
  ifirst : s'.ifirst c = s.ifirst c
  ilast : s'.ilast c = s.ilast c
  N : s'.N c = s.N c

theorem Same.trans {a b d : Lists} {c : ℕ} (h : Same a b c) (h' : Same b d c) : Same a d c :=
  ⟨h'.ifirst.trans h.ifirst, h'.ilast.trans h.ilast, h'.N.trans h.N⟩

theorem Held.congr {s s' : Lists} {c : ℕ} {b : List ℕ} (h : Held s c b) (hs : Same s s' c)
    (hx : ∀ x ∈ b, s'.inext x = s.inext x) : Held s' c b :=
  ⟨hs.ifirst.trans h.ifirst, hs.ilast.trans h.ilast, hs.N.trans h.N,
    h.chain.congr fun x hm => hx x (List.mem_of_mem_dropLast hm)⟩

theorem append_held {s : Lists} {c i : ℕ} {b : List ℕ} (h : Held s c b) (hn : b.Nodup) :
    ∃ s', append s c i = some s' ∧ Held s' c (b ++ [i]) ∧ (∀ c', c' ≠ c → Same s s' c') ∧
      ∀ x, x ∉ b → s'.inext x = s.inext x := by
  unfold append
  rcases List.eq_nil_or_concat b with rfl | ⟨b', a, rfl⟩
  · rw [h.ifirst]
    refine ⟨_, rfl, ⟨by simp, by simp, by simp [h.N], by simp⟩, fun c' hc => ?_, fun x _ => rfl⟩
    exact ⟨Function.update_of_ne hc _ _, Function.update_of_ne hc _ _, Function.update_of_ne hc _ _⟩
  · rw [List.concat_eq_append] at h hn ⊢
    have e1 : ∃ y, s.ifirst c = some y := by
      rw [h.ifirst]; cases b' <;> simp
    obtain ⟨y, hy⟩ := e1
    have e2 : s.ilast c = some a := by rw [h.ilast]; simp
    simp only [hy, e2]
    refine ⟨_, rfl, ⟨?_, by simp, by simp [h.N], ?_⟩, fun c' hc => ?_, fun x hx => ?_⟩
    · simp only [h.ifirst]; cases b' <;> simp
    · have hch : Chained (Function.update s.inext a (some i)) (b' ++ [a]) := by
        refine h.chain.congr fun x hx => ?_
        rw [List.dropLast_concat] at hx
        refine Function.update_of_ne ?_ _ _
        rintro rfl
        exact (List.nodup_append.mp hn).2.2 x hx x (by simp) rfl
      rw [Chained, List.isChain_append]
      refine ⟨hch, List.isChain_singleton i, ?_⟩
      intro u hu w hw
      simp only [List.getLast?_append, List.getLast?_singleton, Option.some_or, Option.mem_some_iff] at hu
      simp only [List.head?_cons, Option.mem_some_iff] at hw
      subst hu hw
      simp
    · exact ⟨rfl, Function.update_of_ne hc _ _, Function.update_of_ne hc _ _⟩
    · refine Function.update_of_ne ?_ _ _
      rintro rfl
      exact hx (by simp)

theorem distLoop_held (kid : ℕ → ℕ) (base m : ℕ) (ilast : Option ℕ) :
    ∀ (l p : List ℕ) (s : Lists) (fuel : ℕ), l.length ≤ fuel → (p ++ l).Nodup →
    (l ≠ [] → l.getLast? = ilast) → Chained s.inext l →
    (∀ k < m, Held s (base + k) (p.filter fun i => decide (kid i = k))) → (∀ i ∈ l, kid i < m) →
    ∃ s', distLoop kid base ilast fuel l.head? s = some s' ∧
      (∀ k < m, Held s' (base + k) ((p ++ l).filter fun i => decide (kid i = k))) ∧
      (∀ c, c < base ∨ base + m ≤ c → Same s s' c) ∧ ∀ x, x ∉ p → x ∉ l → s'.inext x = s.inext x := by
  intro l
  induction l with
  | nil =>
    intro p s fuel _ _ _ _ h _
    refine ⟨s, by cases fuel <;> rfl, by simpa using h, fun c _ => ⟨rfl, rfl, rfl⟩, fun _ _ _ => rfl⟩
  | cons i l ih =>
    intro p s fuel hf hn hlast hch hh hk
    obtain ⟨fuel, rfl⟩ : ∃ k, fuel = k + 1 := ⟨fuel - 1, by simp at hf; omega⟩
    have hki := hk i (by simp)
    have hnp : p.Nodup := (List.nodup_append.mp hn).1
    have hip : ∀ x ∈ p, x ∉ i :: l := fun x h1 h2 => (List.nodup_append.mp hn).2.2 x h1 x h2 rfl
    have hil : i ∉ l := (List.nodup_cons.mp (List.nodup_append.mp hn).2.1).1
    have hipp : i ∉ p := fun h => hip i h (by simp)
    obtain ⟨s', e, h1, h2, h3⟩ := append_held (i := i) (hh (kid i) hki) (hnp.filter _)
    have hheld : ∀ k < m, Held s' (base + k) ((p ++ [i]).filter fun j => decide (kid j = k)) := by
      intro k hkm
      rw [List.filter_append]
      by_cases e2 : kid i = k
      · subst e2; simpa using h1
      · have : [i].filter (fun j => decide (kid j = k)) = [] := by simp [e2]
        rw [this, List.append_nil]
        refine (hh k hkm).congr (h2 _ (by omega)) fun x hx => h3 x fun hx' => ?_
        have a1 := (List.mem_filter.mp hx).2
        have a2 := (List.mem_filter.mp hx').2
        simp only [decide_eq_true_eq] at a1 a2
        exact e2 (a2.symm.trans a1)
    have hsame : ∀ c, c < base ∨ base + m ≤ c → Same s s' c := fun c hc => h2 c (by omega)
    simp only [List.head?_cons, distLoop, e]
    cases l with
    | nil =>
      have : some i = ilast := by simpa using hlast (by simp)
      rw [if_pos this]
      exact ⟨s', rfl, hheld, hsame, fun x hx _ => h3 x fun h => hx (List.mem_filter.mp h).1⟩
    | cons j l =>
      have hne : some i ≠ ilast := by
        rw [← hlast (by simp), List.getLast?_cons_cons]
        intro he
        exact hil (List.mem_of_getLast? he.symm)
      rw [if_neg hne]
      rw [Chained, List.isChain_cons_cons] at hch
      have hnx : s'.inext i = some j := by
        rw [h3 i fun h => hipp (List.mem_filter.mp h).1]; exact hch.1
      rw [hnx]
      obtain ⟨s'', e', g1, g2, g3⟩ := ih (p ++ [i]) s' fuel (by simp at hf ⊢; omega) (by simpa using hn)
        (fun _ => by rw [← hlast (by simp), List.getLast?_cons_cons])
        (Chained.congr hch.2 fun x hx => h3 x fun h => hip x (List.mem_filter.mp h).1
          (List.mem_cons_of_mem _ (List.mem_of_mem_dropLast hx)))
        hheld (fun x hx => hk x (List.mem_cons_of_mem _ hx))
      refine ⟨s'', e', by simpa using g1, fun c hc => (hsame c hc).trans (g2 c hc), fun x hx hx2 => ?_⟩
      rw [g3 x (by simp; exact ⟨hx, fun h => hx2 (by simp [h])⟩) (fun h => hx2 (List.mem_cons_of_mem _ h)),
        h3 x fun h => hx (List.mem_filter.mp h).1]

end Gandalf.Oct
