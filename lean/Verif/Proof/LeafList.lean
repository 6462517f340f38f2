import Verif.Model.LeafList
import Mathlib.Data.List.Chain

/-! Lemmas about linked particle lists. -/

set_option autoImplicit false

namespace Gandalf.LeafList

/-- the links lead through the list in order -/
abbrev Chained (inext : ℕ → Option ℕ) (l : List ℕ) : Prop :=
  l.IsChain (fun a b => inext a = some b)

theorem Chained.congr {f g : ℕ → Option ℕ} : ∀ {l : List ℕ}, Chained f l →
    (∀ x ∈ l.dropLast, g x = f x) → Chained g l := by
  intro l
  induction l with
  | nil => intro _ _; exact List.isChain_nil
  | cons a l ih =>
    intro h hx
    cases l with
    | nil => exact List.isChain_singleton a
    | cons b l =>
      rw [Chained, List.isChain_cons_cons] at h ⊢
      refine ⟨by rw [hx a (by simp)]; exact h.1, ih h.2 ?_⟩
      intro x hxm
      exact hx x (by simp only [List.dropLast_cons_cons] at hxm ⊢; exact List.mem_cons_of_mem _ hxm)

theorem traverse_chained {inext : ℕ → Option ℕ} : ∀ (l : List ℕ) (fuel : ℕ), Chained inext l →
    l.Nodup → l.length ≤ fuel → traverse inext l.getLast? fuel l.head? = some l := by
  intro l
  induction l with
  | nil => intro fuel _ _ _; cases fuel <;> rfl
  | cons a l ih =>
    intro fuel h hn hf
    obtain ⟨fuel, rfl⟩ : ∃ k, fuel = k + 1 := ⟨fuel - 1, by simp at hf; omega⟩
    simp only [List.head?_cons, traverse]
    cases l with
    | nil => simp
    | cons b l =>
      rw [Chained, List.isChain_cons_cons] at h
      have hne : some a ≠ (a :: b :: l).getLast? := by
        rw [List.getLast?_cons_cons]
        intro he
        have := List.mem_of_getLast? he.symm
        exact (List.nodup_cons.mp hn).1 this
      rw [if_neg hne, h.1, List.getLast?_cons_cons]
      have := ih fuel h.2 (List.nodup_cons.mp hn).2 (by simp at hf ⊢; omega)
      simp only [List.head?_cons] at this
      rw [this]; rfl

theorem compactLoop_chained (dead : ℕ → Bool) (ilast : Option ℕ) :
    ∀ (l : List ℕ) (p : List ℕ) (s : Compact) (fuel : ℕ), l.length ≤ fuel →
    (p ++ l).Nodup → (l ≠ [] → l.getLast? = ilast) → Chained s.inext l → Chained s.inext p →
    p.head? = s.ifirst → p.getLast? = s.iaux → (∀ x ∈ p, dead x = false) →
    ∃ s', compactLoop dead ilast fuel l.head? s = some s' ∧
      Chained s'.inext (p ++ l.filter fun i => !dead i) ∧
      (p ++ l.filter fun i => !dead i).head? = s'.ifirst ∧
      (p ++ l.filter fun i => !dead i).getLast? = s'.iaux ∧
      ∀ x, x ∉ p → x ∉ l → s'.inext x = s.inext x := by
  intro l
  induction l with
  | nil =>
    intro p s fuel _ hn _ _ hp hh hl _
    exact ⟨s, by cases fuel <;> rfl, by simpa using hp, by simpa using hh, by simpa using hl,
      by simp⟩
  | cons a l ih =>
    intro p s fuel hf hn hlast hc hp hh hl hd
    obtain ⟨fuel, rfl⟩ : ∃ k, fuel = k + 1 := ⟨fuel - 1, by simp at hf; omega⟩
    simp only [List.head?_cons, compactLoop]
    have hnp : a ∉ p := by
      intro h; exact (List.nodup_append.mp hn).2.2 a h a (by simp) rfl
    have hnl : a ∉ l := (List.nodup_cons.mp (List.nodup_append.mp hn).2.1).1
    -- the body
    set s1 := compactBody dead s a with hs1
    -- what the body does
    have key : ∃ p1, p1 = p ++ [a].filter (fun i => !dead i) ∧ Chained s1.inext p1 ∧
        p1.head? = s1.ifirst ∧ p1.getLast? = s1.iaux ∧
        (∀ x, x ∉ p → s1.inext x = s.inext x) := by
      refine ⟨_, rfl, ?_⟩
      by_cases hda : dead a = true
      · have e : s1 = s := by rw [hs1]; simp [compactBody, hda]
        simp only [e, hda, List.filter_cons, List.filter_nil]
        simpa using ⟨hp, hh, hl⟩
      · have hda' : dead a = false := by simpa using hda
        have e0 : [a].filter (fun i => !dead i) = [a] := by simp [hda']
        rw [e0]
        cases hia : s.iaux with
        | none =>
          have hpn : p = [] := by
            rw [hia] at hl; exact List.getLast?_eq_none_iff.mp hl
          have e : s1 = ⟨s.inext, some a, some a⟩ := by
            rw [hs1]; simp [compactBody, hda', hia]
          rw [e, hpn]
          exact ⟨List.isChain_singleton a, rfl, rfl, fun _ _ => rfl⟩
        | some q =>
          have e : s1 = ⟨Function.update s.inext q (some a), s.ifirst, some a⟩ := by
            rw [hs1]; simp [compactBody, hda', hia]
          rw [hia] at hl
          have hqp : q ∈ p := List.mem_of_getLast? hl
          have hpne : p ≠ [] := by rintro rfl; simp at hqp
          rw [e]
          refine ⟨?_, ?_, by simp, ?_⟩
          · rw [Chained, List.isChain_append]
            refine ⟨?_, List.isChain_singleton a, ?_⟩
            · refine Chained.congr hp ?_
              intro x hx
              show Function.update s.inext q (some a) x = _
              rw [Function.update_of_ne]
              rintro rfl
              have hnd : p.Nodup := (List.nodup_append.mp hn).1
              obtain ⟨z, hz⟩ : ∃ z, p = p.dropLast ++ [z] :=
                ⟨p.getLast hpne, (List.dropLast_append_getLast hpne).symm⟩
              have hzx : z = x := by
                rw [hz] at hl; simpa using hl
              rw [hz] at hnd
              subst hzx
              exact (List.nodup_append.mp hnd).2.2 z hx z (by simp) rfl
            · intro x hx y hy
              simp only [List.head?_cons, Option.mem_def, Option.some.injEq] at hy
              rw [hl] at hx
              simp only [Option.mem_def, Option.some.injEq] at hx
              subst hx; subst hy
              simp
          · rw [List.head?_append, hh]
            have : s.ifirst ≠ none := by
              rw [← hh]; simp [List.head?_eq_none_iff, hpne]
            cases h : s.ifirst with
            | none => exact absurd h this
            | some z => rfl
          · intro x hx
            show Function.update s.inext q (some a) x = _
            rw [Function.update_of_ne]; rintro rfl; exact hx hqp
    obtain ⟨p1, hp1, k1, k2, k3, k4⟩ := key
    have hdec : p ++ (a :: l).filter (fun i => !dead i) = p1 ++ l.filter (fun i => !dead i) := by
      rw [hp1, show a :: l = [a] ++ l from rfl, List.filter_append, List.append_assoc]
    have hc' : Chained s.inext l := (List.isChain_cons.mp hc).2
    have hsub : ∀ x ∈ p1, x ∈ p ∨ x = a := by
      intro x hx; rw [hp1, List.mem_append] at hx
      rcases hx with h | h
      · exact Or.inl h
      · rw [List.mem_filter] at h; simp at h; exact Or.inr h.1
    have hdis : ∀ x ∈ l, x ∉ p := by
      intro x hx hxp
      exact (List.nodup_append.mp hn).2.2 x hxp x (List.mem_cons_of_mem _ hx) rfl
    have hn1 : (p1 ++ l).Nodup := by
      refine hn.sublist ?_
      rw [hp1]
      rw [show p ++ a :: l = p ++ [a] ++ l by simp]
      exact List.Sublist.append (List.Sublist.append (List.Sublist.refl _) List.filter_sublist)
        (List.Sublist.refl _)
    have hcl : Chained s1.inext l := by
      refine Chained.congr hc' ?_
      intro x hx
      exact k4 x (hdis x (List.dropLast_subset _ hx))
    have hdead1 : ∀ x ∈ p1, dead x = false := by
      intro x hx; rw [hp1, List.mem_append] at hx
      rcases hx with h | h
      · exact hd x h
      · rw [List.mem_filter] at h; simpa using h.2
    by_cases hl0 : l = []
    · subst hl0
      have : some a = ilast := by simpa using hlast (by simp)
      rw [if_pos this]
      refine ⟨s1, rfl, ?_, ?_, ?_, ?_⟩
      · rw [hdec]; simpa using k1
      · rw [hdec]; simpa using k2
      · rw [hdec]; simpa using k3
      · intro x hx _; exact k4 x hx
    · have hlast' : l.getLast? = ilast := by
        rw [← hlast (by simp)]
        cases l with
        | nil => exact absurd rfl hl0
        | cons b l => rw [List.getLast?_cons_cons]
      have hne : ¬ some a = ilast := by
        rw [← hlast']; intro h; exact hnl (List.mem_of_getLast? h.symm)
      rw [if_neg hne]
      have hnext : s1.inext a = l.head? := by
        rw [k4 a hnp]
        cases l with
        | nil => exact absurd rfl hl0
        | cons b l => rw [Chained, List.isChain_cons_cons] at hc; simpa using hc.1
      rw [hnext]
      obtain ⟨s', h1, h2, h3, h4, h5⟩ := ih p1 s1 fuel (by simp at hf; omega) hn1
        (fun _ => hlast') hcl k1 k2 k3 hdead1
      refine ⟨s', h1, by rw [hdec]; exact h2, by rw [hdec]; exact h3, by rw [hdec]; exact h4, ?_⟩
      intro x hxp hxl
      rw [h5 x ?_ ?_, k4 x hxp]
      · intro h; rcases hsub x h with h | h
        · exact hxp h
        · subst h; simp at hxl
      · intro h; exact hxl (List.mem_cons_of_mem _ h)

/-- Removing dead particles from the list of a leaf leaves exactly the live ones, in order, and only
links of members of the list are written. -/
theorem compact_chained (dead : ℕ → Bool) (inext : ℕ → Option ℕ) (l : List ℕ) (fuel : ℕ)
    (hf : l.length ≤ fuel) (hn : l.Nodup) (hc : Chained inext l) :
    ∃ s', compact dead inext l.head? l.getLast? fuel = some s' ∧
      Chained s'.inext (l.filter fun i => !dead i) ∧
      (l.filter fun i => !dead i).head? = s'.ifirst ∧
      (l.filter fun i => !dead i).getLast? = s'.iaux ∧
      ∀ x, x ∉ l → s'.inext x = inext x := by
  have := compactLoop_chained dead l.getLast? l [] ⟨inext, none, none⟩ fuel hf (by simpa using hn)
    (fun _ => rfl) hc List.isChain_nil rfl rfl (by simp)
  simpa [compact] using this

end Gandalf.LeafList
