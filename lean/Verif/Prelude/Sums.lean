import Verif.Prelude.Basic
import Mathlib.Algebra.BigOperators.Group.Finset.Basic
import Mathlib.Algebra.Order.BigOperators.Group.Finset

/-!
# Finite sums over storage maps

Storage maps are total functions, so totals over "all keys" are stated either as
`SumsTo f t` (the map has finite support and its values add up to `t`) or as `SumLe f b`
(the values over every finite set of keys add up to at most `b`).
-/

set_option linter.unusedSectionVars false
set_option linter.unnecessarySeqFocus false

namespace Verif
open Finset

variable {ι : Type} [DecidableEq ι]

/-- The values of `f` over all keys add up to exactly `t`. -/
def SumsTo (f : ι → Nat) (t : Nat) : Prop :=
  ∃ S : Finset ι, (∀ i, i ∉ S → f i = 0) ∧ ∑ i ∈ S, f i = t

/-- The values of `f` over any finite set of keys add up to at most `b`. -/
def SumLe (f : ι → Nat) (b : Nat) : Prop := ∀ S : Finset ι, ∑ i ∈ S, f i ≤ b

theorem sum_erase_add (f : ι → Nat) (S : Finset ι) (p : ι) :
    ∑ i ∈ S.erase p, f i + f p = ∑ i ∈ insert p S, f i := by
  rw [← Finset.insert_erase (Finset.mem_insert_self p S), Finset.sum_insert (by simp)]
  simp [Finset.erase_insert_eq_erase, add_comm]

theorem sum_congr_off (f f' : ι → Nat) (S : Finset ι) (p : ι) (h : ∀ i, i ≠ p → f' i = f i) :
    ∑ i ∈ S.erase p, f' i = ∑ i ∈ S.erase p, f i :=
  Finset.sum_congr rfl (fun i hi => h i (Finset.ne_of_mem_erase hi))

theorem SumLe.apply {f : ι → Nat} {b : Nat} (h : SumLe f b) (i : ι) : f i ≤ b := by
  simpa using h {i}

theorem SumLe.mono {f g : ι → Nat} {b c : Nat} (h : SumLe f b) (hg : ∀ i, g i ≤ f i)
    (hb : b ≤ c) : SumLe g c := fun S =>
  ((Finset.sum_le_sum (fun i _ => hg i)).trans (h S)).trans hb

/-- One key changes and the bound moves along. -/
theorem SumLe.update {f f' : ι → Nat} {b b' : Nat} (h : SumLe f b) (p : ι)
    (hoff : ∀ i, i ≠ p → f' i = f i) (hp : f' p + b ≤ f p + b') : SumLe f' b' := by
  intro S
  have h1 := h (insert p S)
  have h2 := sum_erase_add f S p
  have h3 := sum_erase_add f' S p
  have h4 := sum_congr_off f f' S p hoff
  have h5 : ∑ i ∈ S, f' i ≤ ∑ i ∈ insert p S, f' i :=
    Finset.sum_le_sum_of_subset (Finset.subset_insert p S)
  omega

theorem SumsTo.le {f : ι → Nat} {t : Nat} (h : SumsTo f t) : SumLe f t := by
  intro S
  obtain ⟨T, hT, hs⟩ := h
  rw [← hs]
  calc ∑ i ∈ S, f i = ∑ i ∈ S ∩ T, f i := by
        symm
        apply Finset.sum_subset Finset.inter_subset_left
        intro i hi hn
        apply hT
        intro hiT
        exact hn (Finset.mem_inter.2 ⟨hi, hiT⟩)
    _ ≤ ∑ i ∈ T, f i := Finset.sum_le_sum_of_subset Finset.inter_subset_right

theorem SumsTo.apply {f : ι → Nat} {t : Nat} (h : SumsTo f t) (i : ι) : f i ≤ t := h.le.apply i

theorem SumsTo.zero : SumsTo (fun _ : ι => 0) 0 := ⟨∅, by simp, by simp⟩

theorem SumLe.zero (b : Nat) : SumLe (fun _ : ι => 0) b := by intro S; simp

theorem SumsTo.update {f f' : ι → Nat} {t t' : Nat} (h : SumsTo f t) (p : ι)
    (hoff : ∀ i, i ≠ p → f' i = f i) (hp : f' p + t = f p + t') : SumsTo f' t' := by
  obtain ⟨S, hS, hs⟩ := h
  refine ⟨insert p S, ?_, ?_⟩
  · intro i hi
    rw [Finset.mem_insert, not_or] at hi
    rw [hoff i hi.1, hS i hi.2]
  · have h2 := sum_erase_add f S p
    have h3 := sum_erase_add f' S p
    have h4 := sum_congr_off f f' S p hoff
    have h5 : ∑ i ∈ insert p S, f i = ∑ i ∈ S, f i := by
      by_cases hpS : p ∈ S
      · rw [Finset.insert_eq_of_mem hpS]
      · rw [Finset.sum_insert hpS, hS p hpS]; omega
    omega

theorem SumsTo.congr {f f' : ι → Nat} {t : Nat} (h : SumsTo f t) (hf : ∀ i, f' i = f i) :
    SumsTo f' t := by
  have : f' = f := funext hf
  rwa [this]

/-- The total is unique. -/
theorem SumsTo.unique {f : ι → Nat} {t t' : Nat} (h : SumsTo f t) (h' : SumsTo f t') : t = t' := by
  obtain ⟨S, hS, hs⟩ := h
  obtain ⟨T, hT, ht⟩ := h'
  have e1 : ∑ i ∈ S, f i = ∑ i ∈ S ∪ T, f i :=
    Finset.sum_subset Finset.subset_union_left (fun i _ hi => hS i hi)
  have e2 : ∑ i ∈ T, f i = ∑ i ∈ S ∪ T, f i :=
    Finset.sum_subset Finset.subset_union_right (fun i _ hi => hT i hi)
  omega

/-- Two keys change at most, total preserved: transfers. -/
theorem SumsTo.move {f f' : ι → Nat} {t : Nat} (h : SumsTo f t) (s d : ι) (m : Nat)
    (hm : m ≤ f s)
    (hf : ∀ i, f' i + (if i = s then m else 0) = f i + (if i = d then m else 0)) :
    SumsTo f' t := by
  by_cases hsd : s = d
  · subst hsd
    apply h.congr
    intro i
    have := hf i
    omega
  · let g : ι → Nat := fun i => if i = s then f s - m else f i
    have hg : SumsTo g (t - m) := by
      apply h.update s
      · intro i hi; simp [g, hi]
      · have := h.apply s
        simp [g]; omega
    apply hg.update d
    · intro i hi
      have := hf i
      simp only [g]
      split_ifs at * <;> simp_all <;> omega
    · have h1 := hf d
      have h2 : ¬ d = s := fun e => hsd e.symm
      have := h.apply s
      simp only [g, h2, if_false, if_true] at *
      omega

end Verif
