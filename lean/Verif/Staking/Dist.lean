import Verif.Staking.Views

/-! # Property C73: how amounts are distributed over the derivative accounts -/

set_option linter.unusedSimpArgs false
set_option linter.unusedVariables false

namespace Verif.Staking
open Verif

/-- Total of a distribution. -/
def given (ds : List (Nat × Nat)) : Nat := (ds.map Prod.snd).sum

@[simp] theorem given_nil : given [] = 0 := rfl
@[simp] theorem given_cons (d : Nat × Nat) (ds : List (Nat × Nat)) : given (d :: ds) = d.2 + given ds := by simp [given]

/-! ### The loops -/

theorem fst_sublist_filterMap {α : Type} {f : α → Option (Nat × Nat)} {g : α → Nat} (hf : ∀ x d, f x = some d → d.1 = g x) :
    ∀ xs : List α, ((xs.filterMap f).map Prod.fst).Sublist (xs.map g)
  | [] => by simp
  | x :: xs => by
    have ih := fst_sublist_filterMap hf xs
    cases hx : f x with
    | none => rw [List.filterMap_cons_none hx, List.map_cons]; exact ih.cons _
    | some d =>
      rw [List.filterMap_cons_some hx, List.map_cons, List.map_cons, hf x d hx]
      exact ih.cons_cons _

theorem given_filterMap_le {α : Type} {f : α → Option (Nat × Nat)} {k : Nat} (hf : ∀ x d, f x = some d → d.2 ≤ k) :
    ∀ xs : List α, given (xs.filterMap f) ≤ xs.length * k
  | [] => by simp
  | x :: xs => by
    have ih := given_filterMap_le hf xs
    rw [List.length_cons, Nat.succ_mul]
    cases hx : f x with
    | none => rw [List.filterMap_cons_none hx]; omega
    | some d => rw [List.filterMap_cons_some hx, given_cons]; have := hf x d hx; omega

theorem avgBond_mem {xs : List (Nat × Nat × Nat)} {input cap mb : Nat} {d : Nat × Nat} (h : d ∈ avgBond xs input cap mb) :
    ∃ a t, (d.1, a, t) ∈ xs ∧ 0 < d.2 ∧ t + d.2 ≤ cap ∧ d.2 ≤ input / xs.length := by
  simp only [avgBond, List.mem_filterMap] at h
  generalize input / xs.length = k at h ⊢
  obtain ⟨⟨i, a, t⟩, hx, h⟩ := h
  split_ifs at h with h1 h2
  simp only [Option.some.injEq] at h
  subst h
  refine ⟨a, t, hx, by simp only at h2 ⊢; omega, ?_, Nat.min_le_right _ _⟩
  simp only at h2 ⊢
  omega

theorem avgUnbond_mem {xs : List (Nat × Nat)} {input mb : Nat} {d : Nat × Nat} (h : d ∈ avgUnbond xs input mb) :
    ∃ a, (d.1, a) ∈ xs ∧ 0 < d.2 ∧ mb ≤ a - d.2 ∧ d.2 = input / xs.length := by
  simp only [avgUnbond, List.mem_filterMap] at h
  generalize input / xs.length = k at h ⊢
  obtain ⟨⟨i, a⟩, hx, h⟩ := h
  split_ifs at h with h1 h2
  simp only [Option.some.injEq] at h
  subst h
  exact ⟨a, hx, by simp only; omega, by simp only at h1 ⊢; omega, rfl⟩

theorem avgRebondGo_mem : ∀ {xs : List (Nat × Nat)} {k : Nat} {d : Nat × Nat}, d ∈ avgRebondGo k xs →
    ∃ u, (d.1, u) ∈ xs ∧ 0 < d.2 ∧ d.2 ≤ u ∧ d.2 ≤ k
  | [], _, _, h => by simp [avgRebondGo] at h
  | x :: xs, k, d, h => by
    simp only [avgRebondGo] at h
    split_ifs at h with h1
    · obtain ⟨u, hu, h2, h3, h4⟩ := avgRebondGo_mem h
      exact ⟨u, List.mem_cons_of_mem _ hu, h2, h3, h4.trans (Nat.min_le_left _ _)⟩
    · rcases List.mem_cons.1 h with rfl | h
      · exact ⟨x.2, List.mem_cons_self, by simp only; omega, Nat.min_le_right _ _, Nat.min_le_left _ _⟩
      · obtain ⟨u, hu, h2, h3, h4⟩ := avgRebondGo_mem h
        exact ⟨u, List.mem_cons_of_mem _ hu, h2, h3, h4.trans (Nat.min_le_left _ _)⟩

theorem avgRebondGo_sum : ∀ (xs : List (Nat × Nat)) (k : Nat), given (avgRebondGo k xs) ≤ xs.length * k
  | [], _ => by simp [avgRebondGo]
  | x :: xs, k => by
    have ih := avgRebondGo_sum xs (min k x.2)
    have h2 : xs.length * min k x.2 ≤ xs.length * k := Nat.mul_le_mul_left _ (Nat.min_le_left _ _)
    simp only [avgRebondGo, List.length_cons, Nat.succ_mul]
    split_ifs
    · omega
    · rw [given_cons]; simp only; have := Nat.min_le_left k x.2; omega

theorem avgRebondGo_fst : ∀ (xs : List (Nat × Nat)) (k : Nat), ((avgRebondGo k xs).map Prod.fst).Sublist (xs.map Prod.fst)
  | [], _ => by simp [avgRebondGo]
  | x :: xs, k => by
    simp only [avgRebondGo]
    split_ifs
    · exact (avgRebondGo_fst xs _).cons _
    · exact (avgRebondGo_fst xs _).cons_cons _

theorem maxMinBondGo_mem {cap mb : Nat} : ∀ {xs : List (Nat × Nat × Nat)} {r : Nat} {d : Nat × Nat},
    d ∈ maxMinBondGo cap mb r xs → ∃ a t, (d.1, a, t) ∈ xs ∧ 0 < d.2 ∧ t + d.2 ≤ cap ∧ mb ≤ d.2 + a
  | [], _, _, h => by simp [maxMinBondGo] at h
  | x :: xs, r, d, h => by
    simp only [maxMinBondGo] at h
    split_ifs at h with h1 h2 h3
    · simp at h
    · simp at h
    · obtain ⟨a, t, hm, hr⟩ := maxMinBondGo_mem h
      exact ⟨a, t, List.mem_cons_of_mem _ hm, hr⟩
    · rcases List.mem_cons.1 h with rfl | h
      · refine ⟨x.2.1, x.2.2, List.mem_cons_self, by simp only; omega, by simp only; omega, ?_⟩
        unfold satAdd at h3
        simp only
        omega
      · obtain ⟨a, t, hm, hr⟩ := maxMinBondGo_mem h
        exact ⟨a, t, List.mem_cons_of_mem _ hm, hr⟩

theorem maxMinBondGo_sum {cap mb : Nat} : ∀ (xs : List (Nat × Nat × Nat)) (r : Nat), given (maxMinBondGo cap mb r xs) ≤ r
  | [], _ => by simp [maxMinBondGo]
  | x :: xs, r => by
    simp only [maxMinBondGo]
    split_ifs
    · simp
    · simp
    · exact maxMinBondGo_sum xs r
    · have := maxMinBondGo_sum (cap := cap) (mb := mb) xs (r - min (cap - x.2.2) r)
      rw [given_cons]; simp only; omega

theorem maxMinBondGo_fst {cap mb : Nat} : ∀ (xs : List (Nat × Nat × Nat)) (r : Nat),
    ((maxMinBondGo cap mb r xs).map Prod.fst).Sublist (xs.map Prod.fst)
  | [], _ => by simp [maxMinBondGo]
  | x :: xs, r => by
    simp only [maxMinBondGo]
    split_ifs
    · simp
    · simp
    · exact (maxMinBondGo_fst xs _).cons _
    · exact (maxMinBondGo_fst xs _).cons_cons _

theorem maxMinBondGo_full {cap mb : Nat} : ∀ (xs : List (Nat × Nat × Nat)) (r : Nat),
    (∀ x ∈ xs, x.2.2 < cap ∧ mb ≤ x.2.1 ∧ x.2.1 ≤ maxU128) →
    given (maxMinBondGo cap mb r xs) = min r ((xs.map (fun x => cap - x.2.2)).sum)
  | [], _, _ => by simp [maxMinBondGo]
  | x :: xs, r, h => by
    have hx := h x List.mem_cons_self
    have ih := fun r => maxMinBondGo_full xs r (fun y hy => h y (List.mem_cons_of_mem _ hy))
    simp only [maxMinBondGo, List.map_cons, List.sum_cons]
    split_ifs with h1 h2 h3
    · simp [h1]
    · omega
    · unfold satAdd at h3; omega
    · rw [given_cons, ih]; simp only; omega

theorem maxMinTakeGo_mem {fl : Nat} : ∀ {xs : List (Nat × Nat)} {r : Nat} {d : Nat × Nat}, d ∈ maxMinTakeGo fl r xs →
    ∃ a, (d.1, a) ∈ xs ∧ 0 < d.2 ∧ fl + d.2 ≤ a
  | [], _, _, h => by simp [maxMinTakeGo] at h
  | x :: xs, r, d, h => by
    simp only [maxMinTakeGo] at h
    split_ifs at h with h1 h2
    · simp at h
    · obtain ⟨a, hm, hr⟩ := maxMinTakeGo_mem h
      exact ⟨a, List.mem_cons_of_mem _ hm, hr⟩
    · rcases List.mem_cons.1 h with rfl | h
      · exact ⟨x.2, List.mem_cons_self, by simp only; omega, by simp only; omega⟩
      · obtain ⟨a, hm, hr⟩ := maxMinTakeGo_mem h
        exact ⟨a, List.mem_cons_of_mem _ hm, hr⟩

theorem maxMinTakeGo_sum {fl : Nat} : ∀ (xs : List (Nat × Nat)) (r : Nat),
    given (maxMinTakeGo fl r xs) = min r ((xs.map (fun x => x.2 - fl)).sum)
  | [], _ => by simp [maxMinTakeGo]
  | x :: xs, r => by
    have ih := fun r => maxMinTakeGo_sum (fl := fl) xs r
    simp only [maxMinTakeGo, List.map_cons, List.sum_cons]
    split_ifs with h1 h2
    · simp [h1]
    · rw [ih]; omega
    · rw [given_cons, ih]; simp only; omega

theorem maxMinTakeGo_fst {fl : Nat} : ∀ (xs : List (Nat × Nat)) (r : Nat),
    ((maxMinTakeGo fl r xs).map Prod.fst).Sublist (xs.map Prod.fst)
  | [], _ => by simp [maxMinTakeGo]
  | x :: xs, r => by
    simp only [maxMinTakeGo]
    split_ifs
    · simp
    · exact (maxMinTakeGo_fst xs _).cons _
    · exact (maxMinTakeGo_fst xs _).cons_cons _

/-! ### C73 -/

/-- C73 (a): bonding.  Both strategies give a positive amount to some of the listed accounts, at most once each, never
more than the input in total and never above an account's cap. -/
theorem C73_bond (st : Strategy) (xs : List (Nat × Nat × Nat)) (input cap mb : Nat) (hn : (xs.map Prod.fst).Nodup) :
    (∀ d ∈ st.bond xs input cap mb, ∃ active total, (d.1, active, total) ∈ xs ∧ 0 < d.2 ∧ total + d.2 ≤ cap) ∧
    ((st.bond xs input cap mb).map Prod.snd).sum ≤ input ∧ ((st.bond xs input cap mb).map Prod.fst).Nodup := by
  cases st with
  | average =>
    refine ⟨?_, ?_, ?_⟩
    · intro d hd
      obtain ⟨a, t, h1, h2, h3, _⟩ := avgBond_mem hd
      exact ⟨a, t, h1, h2, h3⟩
    · refine (given_filterMap_le (k := input / xs.length) ?_ xs).trans (Nat.mul_div_le _ _)
      rintro ⟨i, a, t⟩ d h
      split_ifs at h
      simp only [Option.some.injEq] at h
      subst h
      exact Nat.min_le_right _ _
    · refine (fst_sublist_filterMap (g := Prod.fst) ?_ xs).nodup hn
      rintro ⟨i, a, t⟩ d h
      split_ifs at h
      simp only [Option.some.injEq] at h
      subst h
      rfl
  | maxMin =>
    have hp := List.perm_insertionSort (fun a b : Nat × Nat × Nat => a.2.1 ≤ b.2.1) xs
    refine ⟨?_, maxMinBondGo_sum _ _, (maxMinBondGo_fst _ _).nodup ((hp.map Prod.fst).nodup_iff.2 hn)⟩
    intro d hd
    obtain ⟨a, t, h1, h2, h3, _⟩ := maxMinBondGo_mem hd
    exact ⟨a, t, hp.mem_iff.1 h1, h2, h3⟩

/-- C73 (b): the max-min strategy, which the runtimes use, leaves every account it chooses with the minimum bond. -/
theorem C73_bond_min (xs : List (Nat × Nat × Nat)) (input cap mb : Nat) :
    ∀ d ∈ Strategy.maxMin.bond xs input cap mb, ∃ active total, (d.1, active, total) ∈ xs ∧ mb ≤ active + d.2 := by
  have hp := List.perm_insertionSort (fun a b : Nat × Nat × Nat => a.2.1 ≤ b.2.1) xs
  intro d hd
  obtain ⟨a, t, h1, _, _, h2⟩ := maxMinBondGo_mem hd
  exact ⟨a, t, hp.mem_iff.1 h1, by omega⟩

/-- The average strategy compares the uncapped amount with the minimum bond: here it bonds 5 where 10 are needed. -/
theorem C73_average_below_min : Strategy.average.bond [(0, 0, 95)] 20 100 10 = [(0, 5)] := by decide

/-- C73 (c): unbonding.  Both strategies leave the minimum bond and never take more than the input in total. -/
theorem C73_unbond (st : Strategy) (xs : List (Nat × Nat)) (input mb : Nat) (hm : 0 < mb) (hn : (xs.map Prod.fst).Nodup) :
    (∀ d ∈ st.unbond xs input mb, ∃ active, (d.1, active) ∈ xs ∧ 0 < d.2 ∧ mb + d.2 ≤ active) ∧
    ((st.unbond xs input mb).map Prod.snd).sum ≤ input ∧ ((st.unbond xs input mb).map Prod.fst).Nodup := by
  cases st with
  | average =>
    refine ⟨?_, ?_, ?_⟩
    · intro d hd
      obtain ⟨a, h1, h2, h3, _⟩ := avgUnbond_mem hd
      exact ⟨a, h1, h2, by omega⟩
    · refine (given_filterMap_le (k := input / xs.length) ?_ xs).trans (Nat.mul_div_le _ _)
      rintro ⟨i, a⟩ d h
      split_ifs at h
      simp only [Option.some.injEq] at h
      subst h
      exact Nat.le_refl _
    · refine (fst_sublist_filterMap (g := Prod.fst) ?_ xs).nodup hn
      rintro ⟨i, a⟩ d h
      split_ifs at h
      simp only [Option.some.injEq] at h
      subst h
      rfl
  | maxMin =>
    have hp := List.perm_insertionSort (fun a b : Nat × Nat => b.2 ≤ a.2) xs
    refine ⟨?_, ?_, (maxMinTakeGo_fst _ _).nodup ((hp.map Prod.fst).nodup_iff.2 hn)⟩
    · intro d hd
      obtain ⟨a, h1, h2, h3⟩ := maxMinTakeGo_mem hd
      exact ⟨a, hp.mem_iff.1 h1, h2, h3⟩
    · have := maxMinTakeGo_sum (fl := mb) (xs.insertionSort (fun a b => b.2 ≤ a.2)) input
      show given (maxMinTakeGo mb input _) ≤ input
      omega

/-- C73 (d): rebonding.  Both strategies take at most what each account is unbonding and at most the input in total. -/
theorem C73_rebond (st : Strategy) (xs : List (Nat × Nat)) (input : Nat) (hn : (xs.map Prod.fst).Nodup) :
    (∀ d ∈ st.rebond xs input, ∃ unbonding, (d.1, unbonding) ∈ xs ∧ 0 < d.2 ∧ d.2 ≤ unbonding) ∧
    ((st.rebond xs input).map Prod.snd).sum ≤ input ∧ ((st.rebond xs input).map Prod.fst).Nodup := by
  cases st with
  | average =>
    refine ⟨?_, (avgRebondGo_sum _ _).trans (Nat.mul_div_le _ _), (avgRebondGo_fst _ _).nodup hn⟩
    intro d hd
    obtain ⟨a, h1, h2, h3, _⟩ := avgRebondGo_mem hd
    exact ⟨a, h1, h2, h3⟩
  | maxMin =>
    have hp := List.perm_insertionSort (fun a b : Nat × Nat => b.2 ≤ a.2) xs
    refine ⟨?_, ?_, (maxMinTakeGo_fst _ _).nodup ((hp.map Prod.fst).nodup_iff.2 hn)⟩
    · intro d hd
      obtain ⟨a, h1, h2, h3⟩ := maxMinTakeGo_mem hd
      exact ⟨a, hp.mem_iff.1 h1, h2, by omega⟩
    · have := maxMinTakeGo_sum (fl := 0) (xs.insertionSort (fun a b => b.2 ≤ a.2)) input
      show given (maxMinTakeGo 0 input _) ≤ input
      omega

/-- C73 (e): the max-min strategy unbonds and rebonds as much of the input as the accounts allow. -/
theorem C73_complete (xs : List (Nat × Nat)) (input mb : Nat) :
    ((Strategy.maxMin.unbond xs input mb).map Prod.snd).sum = min input ((xs.map (fun x => x.2 - mb)).sum) ∧
    ((Strategy.maxMin.rebond xs input).map Prod.snd).sum = min input ((xs.map Prod.snd).sum) := by
  have hp := List.perm_insertionSort (fun a b : Nat × Nat => b.2 ≤ a.2) xs
  constructor
  · have := maxMinTakeGo_sum (fl := mb) (xs.insertionSort (fun a b => b.2 ≤ a.2)) input
    rw [(hp.map (fun x : Nat × Nat => x.2 - mb)).sum_eq] at this
    exact this
  · have := maxMinTakeGo_sum (fl := 0) (xs.insertionSort (fun a b => b.2 ≤ a.2)) input
    rw [(hp.map (fun x : Nat × Nat => x.2 - 0)).sum_eq] at this
    exact this

/-- C73 (f), statement: the max-min strategy bonds as much of the input as the caps allow, if every account has the
minimum bond. -/
def C73_bond_complete_statement : Prop := ∀ (xs : List (Nat × Nat × Nat)) (input cap mb : Nat),
  (∀ x ∈ xs, mb ≤ x.2.1 ∧ x.2.1 ≤ x.2.2 ∧ x.2.2 ≤ maxU128) →
  ((Strategy.maxMin.bond xs input cap mb).map Prod.snd).sum = min input ((xs.map (fun x => cap - x.2.2)).sum)

/-- C73 (f) fails: accounts are ordered by their active stake, and the loop stops at the first one whose total, with
what it is unbonding, has reached the cap. -/
theorem C73_bond_complete_refuted : ¬ C73_bond_complete_statement := by
  intro h
  have := h [(0, 10, 100), (1, 50, 50)] 40 100 10 (by decide)
  revert this
  decide

/-- C73 (f), partial: it holds if no account has reached the cap. -/
theorem C73_bond_complete_partial (xs : List (Nat × Nat × Nat)) (input cap mb : Nat)
    (h : ∀ x ∈ xs, mb ≤ x.2.1 ∧ x.2.1 ≤ x.2.2 ∧ x.2.2 ≤ maxU128) (hcap : ∀ x ∈ xs, x.2.2 < cap) :
    ((Strategy.maxMin.bond xs input cap mb).map Prod.snd).sum = min input ((xs.map (fun x => cap - x.2.2)).sum) := by
  have hp := List.perm_insertionSort (fun a b : Nat × Nat × Nat => a.2.1 ≤ b.2.1) xs
  have := maxMinBondGo_full (cap := cap) (mb := mb) (xs.insertionSort (fun a b => a.2.1 ≤ b.2.1)) input (by
    intro x hx
    have hx := hp.mem_iff.1 hx
    have := h x hx; have := hcap x hx
    omega)
  rw [(hp.map (fun x : Nat × Nat × Nat => cap - x.2.2)).sum_eq] at this
  exact this

example : Strategy.maxMin.bond [(0, 30, 40), (1, 20, 20)] 100 60 10 = [(1, 40), (0, 20)] ∧
    Strategy.average.bond [(0, 30, 40), (1, 20, 20)] 100 60 10 = [(0, 20), (1, 40)] := by decide
example : Strategy.maxMin.unbond [(0, 30), (1, 50)] 55 10 = [(1, 40), (0, 15)] ∧
    Strategy.average.unbond [(0, 30), (1, 50)] 41 10 = [(0, 20), (1, 20)] := by decide
example : Strategy.maxMin.rebond [(0, 30), (1, 50)] 55 = [(1, 50), (0, 5)] ∧
    Strategy.average.rebond [(0, 30), (1, 50)] 80 = [(0, 30), (1, 30)] := by decide

end Verif.Staking
