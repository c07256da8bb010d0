import Verif.Oracle.Spec

/-!
# Oracle: C205, C206, C207
-/

namespace Verif.Oracle
open Verif Verif.Prices

variable {c : Cfg} {s s' : State}

/-! ## Counting -/

theorem exists_of_count {α : Type} {P Q : α → Bool} : ∀ {l : List α}, (l.filter P).length < (l.filter Q).length →
    ∃ x ∈ l, Q x = true ∧ P x = false
  | [], h => by simp at h
  | x :: xs, h => by
    by_cases hq : Q x = true
    · by_cases hp : P x = true
      · rw [List.filter_cons_of_pos hq, List.filter_cons_of_pos hp] at h
        obtain ⟨y, hy, h1⟩ := exists_of_count (P := P) (Q := Q) (l := xs) (by simpa using h)
        exact ⟨y, List.mem_cons_of_mem _ hy, h1⟩
      · exact ⟨x, List.mem_cons_self, hq, by simpa using hp⟩
    · by_cases hp : P x = true
      · rw [List.filter_cons_of_neg hq, List.filter_cons_of_pos hp] at h
        obtain ⟨y, hy, h1⟩ := exists_of_count (P := P) (Q := Q) (l := xs) (by simp at h; omega)
        exact ⟨y, List.mem_cons_of_mem _ hy, h1⟩
      · rw [List.filter_cons_of_neg hq, List.filter_cons_of_neg hp] at h
        obtain ⟨y, hy, h1⟩ := exists_of_count (P := P) (Q := Q) (l := xs) h
        exact ⟨y, List.mem_cons_of_mem _ hy, h1⟩

theorem count_not {α : Type} (P : α → Bool) : ∀ l : List α,
    (l.filter P).length + (l.filter (fun x => !P x)).length = l.length
  | [] => rfl
  | x :: xs => by
    have := count_not P xs
    by_cases h : P x = true
    · rw [List.filter_cons_of_pos h, List.filter_cons_of_neg (by simp [h])]
      simp only [List.length_cons]
      omega
    · rw [List.filter_cons_of_neg h, List.filter_cons_of_pos (by simp [h])]
      simp only [List.length_cons]
      omega

theorem count_map {α β : Type} (f : α → β) (P : β → Bool) (l : List α) :
    ((l.map f).filter P).length = (l.filter (fun x => P (f x))).length := by
  rw [List.filter_map, List.length_map]
  rfl

/-- Among values most of which satisfy `H`, the middle one lies between two that do. -/
theorem middle_between {α : Type} {l : List (α × TSP)} {H : α → Prop} [DecidablePred H] {x : TSP}
    (hm : Middle (l.map (·.2)) x) (hb : 2 * (l.filter (fun y => decide ¬ H y.1)).length < l.length) :
    (∃ y ∈ l, H y.1 ∧ y.2.value ≤ x.value) ∧ ∃ y ∈ l, H y.1 ∧ x.value ≤ y.2.value := by
  have h1 := hm.below
  have h2 := hm.above
  rw [count_map, List.length_map] at h1 h2
  have e1 := count_not (fun y : α × TSP => decide (y.2.value < x.value)) l
  have e2 := count_not (fun y : α × TSP => decide (x.value < y.2.value)) l
  have hpos : 0 < l.length := by omega
  constructor
  · obtain ⟨y, hy, hq, hp⟩ := exists_of_count (P := fun y : α × TSP => decide ¬ H y.1)
      (Q := fun y => !decide (x.value < y.2.value)) (l := l) (by omega)
    simp only [Bool.not_eq_true', decide_eq_false_iff_not, not_not, Nat.not_lt] at hq hp
    exact ⟨y, hy, hp, hq⟩
  · obtain ⟨y, hy, hq, hp⟩ := exists_of_count (P := fun y : α × TSP => decide ¬ H y.1)
      (Q := fun y => !decide (y.2.value < x.value)) (l := l) (by omega)
    simp only [Bool.not_eq_true', decide_eq_false_iff_not, not_not, Nat.not_lt] at hq hp
    exact ⟨y, hy, hp, hq⟩

/-! ## What sorting finds -/

theorem sorted_middle {l : List TSP} (h : l.Pairwise (fun a b => a.value ≤ b.value)) {n : Nat} (hn : n < l.length) :
    (l.filter (fun y => decide (y.value < l[n].value))).length ≤ n ∧
    (l.filter (fun y => decide (l[n].value < y.value))).length ≤ l.length - 1 - n := by
  have hs := List.pairwise_iff_getElem.1 h
  obtain ⟨v, hv⟩ : ∃ v, v = l[n].value := ⟨_, rfl⟩
  rw [← hv]
  have split := List.take_append_drop n l
  constructor
  · have : l.filter (fun y => decide (y.value < v)) =
        (l.take n).filter (fun y => decide (y.value < v)) := by
      conv_lhs => rw [← split]
      rw [List.filter_append]
      have : (l.drop n).filter (fun y => decide (y.value < v)) = [] := by
        rw [List.filter_eq_nil_iff]
        intro y hy
        obtain ⟨i, hi, rfl⟩ := List.mem_iff_getElem.1 hy
        rw [List.getElem_drop]
        rw [List.length_drop] at hi
        simp only [decide_eq_true_eq, Nat.not_lt]
        rcases Nat.eq_zero_or_pos i with rfl | hp
        · exact Nat.le_of_eq hv
        · rw [hv]; exact hs n (n + i) hn (by omega) (by omega)
      rw [this, List.append_nil]
    rw [this]
    exact (List.length_filter_le _ _).trans (by rw [List.length_take]; omega)
  · have split1 := List.take_append_drop (n + 1) l
    have : l.filter (fun y => decide (v < y.value)) =
        (l.drop (n + 1)).filter (fun y => decide (v < y.value)) := by
      conv_lhs => rw [← split1]
      rw [List.filter_append]
      have : (l.take (n + 1)).filter (fun y => decide (v < y.value)) = [] := by
        rw [List.filter_eq_nil_iff]
        intro y hy
        obtain ⟨i, hi, rfl⟩ := List.mem_iff_getElem.1 hy
        rw [List.getElem_take]
        rw [List.length_take] at hi
        simp only [decide_eq_true_eq, Nat.not_lt]
        rcases Nat.lt_or_ge i n with hp | hp
        · rw [hv]; exact hs i n (by omega) hn hp
        · have : i = n := by omega
          subst this
          exact Nat.le_of_eq hv.symm
      rw [this, List.nil_append]
    rw [this]
    exact (List.length_filter_le _ _).trans (by rw [List.length_drop]; omega)

/-- On the deployed chains a price is used for one hour (3600 seconds of 1000 milliseconds), and at most 100 operators and
100 feeds per block are taken. -/
theorem deployed_values (m r : Nat) : (deployed m r).expires = 3600000 ∧ (deployed m r).maxMembers = 100 ∧
    (deployed m r).maxDispatched = 100 := ⟨rfl, rfl, rfl⟩

theorem deployed_ok (m r : Nat) : (deployed m r).OK where
  pick := by
    intro l hl
    have hperm := List.perm_insertionSort (fun a b : TSP => a.value ≤ b.value) l
    have hlen := hperm.length_eq
    have hpos : 0 < l.length := List.length_pos_iff.2 hl
    have hn : l.length / 2 < (l.insertionSort (fun a b : TSP => a.value ≤ b.value)).length := by omega
    refine ⟨_, List.getElem?_eq_getElem hn, ?_⟩
    have hsort : (l.insertionSort (fun a b : TSP => a.value ≤ b.value)).Pairwise (fun a b => a.value ≤ b.value) := by
      have : Std.Total (fun a b : TSP => a.value ≤ b.value) := ⟨fun a b => Nat.le_total _ _⟩
      have : IsTrans TSP (fun a b : TSP => a.value ≤ b.value) := ⟨fun _ _ _ h1 h2 => Nat.le_trans h1 h2⟩
      exact List.pairwise_insertionSort _ _
    obtain ⟨h1, h2⟩ := sorted_middle hsort hn
    refine ⟨hperm.mem_iff.1 (List.getElem_mem hn), ?_, ?_⟩
    · rw [← (hperm.filter _).length_eq]
      exact h1
    · rw [← (hperm.filter _).length_eq]
      omega

/-! ## Evaluation -/

theorem mem_fresh {k : Nat} {w : Nat} {t : TSP} (h : (w, t) ∈ fresh c s k) :
    w ∈ operators c s ∧ s.raw w k = some t ∧ s.now < t.time + c.expires := by
  unfold fresh at h
  rw [List.mem_filterMap] at h
  obtain ⟨w', hw, h⟩ := h
  cases hr : s.raw w' k with
  | none => rw [hr] at h; cases h
  | some t' =>
    rw [hr] at h
    dsimp only at h
    split_ifs at h with ht
    cases h
    exact ⟨hw, hr, ht⟩

theorem combine_cases (hc : c.OK) (s : State) (k : Nat) :
    (((fresh c s k).length < c.minCount ∨ (fresh c s k).length = 0) ∧ combine c s k = s.values k) ∨
    (c.minCount ≤ (fresh c s k).length ∧ ∃ x, combine c s k = some x ∧ Middle ((fresh c s k).map (·.2)) x) := by
  unfold combine
  by_cases h : (fresh c s k).length < c.minCount ∨ (fresh c s k).length = 0
  · exact .inl ⟨h, if_pos h⟩
  · rw [if_neg h]
    obtain ⟨x, hx, hm⟩ := hc.pick ((fresh c s k).map (·.2)) (by
      intro he
      exact h (.inr (by simpa using congrArg List.length he)))
    exact .inr ⟨by omega, x, hx, hm⟩

theorem feedOne_raw (s : State) (w k v : Nat) : (feedOne c s w k v).raw = upd2 s.raw w k (some ⟨v, s.now⟩) := by
  unfold feedOne
  cases combine c (putRaw s w k v) k <;> rfl

theorem feedOne_now (s : State) (w k v : Nat) : (feedOne c s w k v).now = s.now := by
  unfold feedOne
  cases combine c (putRaw s w k v) k <;> rfl

theorem feedOne_members (s : State) (w k v : Nat) : (feedOne c s w k v).members = s.members := by
  unfold feedOne
  cases combine c (putRaw s w k v) k <;> rfl

theorem feedOne_dispatched (s : State) (w k v : Nat) : (feedOne c s w k v).dispatched = s.dispatched := by
  unfold feedOne
  cases combine c (putRaw s w k v) k <;> rfl

theorem feedOne_other (s : State) (w k v : Nat) {j : Nat} (h : j ≠ k) : (feedOne c s w k v).values j = s.values j := by
  unfold feedOne
  cases combine c (putRaw s w k v) k with
  | none => rfl
  | some t => exact upd_of_ne _ _ h

/-- The value a turn of the loop leaves is the combined one. -/
theorem feedOne_self (s : State) (w k v : Nat) :
    (feedOne c s w k v).values k = (combine c (putRaw s w k v) k).orElse (fun _ => s.values k) := by
  unfold feedOne
  cases combine c (putRaw s w k v) k with
  | none => rfl
  | some t => exact upd_same ..

theorem feedOne_values (hc : c.OK) (s : State) (w k v : Nat) :
    ((feedOne c s w k v).values k = s.values k ∧
      ((fresh c (putRaw s w k v) k).length < c.minCount ∨ (fresh c (putRaw s w k v) k).length = 0)) ∨
    (c.minCount ≤ (fresh c (putRaw s w k v) k).length ∧
      ∃ x, (feedOne c s w k v).values k = some x ∧ Middle ((fresh c (putRaw s w k v) k).map (·.2)) x) := by
  rw [feedOne_self]
  rcases combine_cases hc (putRaw s w k v) k with ⟨h, e⟩ | ⟨h, x, e, hm⟩
  · refine .inl ⟨?_, h⟩
    rw [e]
    show (s.values k).orElse _ = s.values k
    cases s.values k <;> rfl
  · refine .inr ⟨h, x, ?_, hm⟩
    rw [e]
    rfl

theorem account_iff {o : Option Nat} {w : Nat} : account c s o = .ok w ↔
    (o = none ∧ w = c.root) ∨ (o = some w ∧ w ∈ s.members) := by
  cases o with
  | none =>
    constructor
    · intro h; cases h; exact .inl ⟨rfl, rfl⟩
    · rintro (⟨_, rfl⟩ | ⟨h, _⟩)
      · rfl
      · cases h
  | some u =>
    unfold account
    simp only [bind_ok_iff, ensure_ok_iff, pure_ok_iff, exists_const, reduceCtorEq, false_and, false_or, Option.some.injEq]
    constructor
    · rintro ⟨h, rfl⟩; exact ⟨rfl, h⟩
    · rintro ⟨rfl, h⟩; exact ⟨h, rfl⟩

theorem markFed_iff {w : Nat} : markFed c s w = .ok s' ↔
    (w ∉ s.dispatched ∧ s.dispatched.length < c.maxDispatched) ∧ s' = { s with dispatched := w :: s.dispatched } := by
  unfold markFed
  simp only [bind_ok_iff, ensure_ok_iff, pure_ok_iff, exists_const]
  constructor
  · rintro ⟨h, rfl⟩; exact ⟨h, rfl⟩
  · rintro ⟨h, rfl⟩; exact ⟨h, rfl⟩

theorem feedValues_iff {o : Option Nat} {vs : List (Nat × Nat)} : feedValues c s o vs = .ok s' ↔
    ∃ w, account c s o = .ok w ∧ w ∉ s.dispatched ∧ s.dispatched.length < c.maxDispatched ∧
      s' = doFeed c { s with dispatched := w :: s.dispatched } w vs := by
  unfold feedValues
  simp only [bind_ok_iff, pure_ok_iff, markFed_iff]
  constructor
  · rintro ⟨w, ha, x, ⟨⟨h1, h2⟩, rfl⟩, rfl⟩; exact ⟨w, ha, h1, h2, rfl⟩
  · rintro ⟨w, ha, h1, h2, rfl⟩; exact ⟨w, ha, _, ⟨⟨h1, h2⟩, rfl⟩, rfl⟩

/-! ## C205 -/

/-- All raw values of honest operators and all prices are in range. -/
def InRange (H : Nat → Prop) (lo hi : Nat → Nat) (s : State) : Prop :=
  (∀ w k t, H w → s.raw w k = some t → lo k ≤ t.value ∧ t.value ≤ hi k) ∧
  ∀ k t, s.values k = some t → lo k ≤ t.value ∧ t.value ≤ hi k

theorem inRange_feedOne (hc : c.OK) {H : Nat → Prop} [DecidablePred H] {lo hi : Nat → Nat} {w k v : Nat}
    (h : InRange H lo hi s) (hv : H w → lo k ≤ v ∧ v ≤ hi k) (hm : Majority c H (putRaw s w k v) k) :
    InRange H lo hi (feedOne c s w k v) := by
  have hraw : ∀ u j t, H u → (putRaw s w k v).raw u j = some t → lo j ≤ t.value ∧ t.value ≤ hi j := by
    intro u j t hu ht
    unfold putRaw at ht
    dsimp only at ht
    rw [upd2_apply] at ht
    split_ifs at ht with he
    · obtain ⟨rfl, rfl⟩ := he
      cases ht
      exact hv hu
    · exact h.1 u j t hu ht
  constructor
  · intro u j t hu ht
    rw [feedOne_raw] at ht
    exact hraw u j t hu ht
  · intro j t ht
    by_cases hj : j = k
    · subst hj
      rcases feedOne_values hc s w j v with ⟨e, _⟩ | ⟨hl, x, e, hx⟩
      · rw [e] at ht
        exact h.2 j t ht
      · rw [e] at ht
        cases ht
        obtain ⟨⟨⟨w1, t1⟩, hy1, hh1, hle⟩, ⟨w2, t2⟩, hy2, hh2, hge⟩ := middle_between hx (hm hl)
        obtain ⟨_, r1, _⟩ := mem_fresh hy1
        obtain ⟨_, r2, _⟩ := mem_fresh hy2
        exact ⟨(hraw w1 j t1 hh1 r1).1.trans hle, hge.trans (hraw w2 j t2 hh2 r2).2⟩
    · rw [feedOne_other s w k v hj] at ht
      exact h.2 j t ht

theorem inRange_doFeed (hc : c.OK) {H : Nat → Prop} [DecidablePred H] {lo hi : Nat → Nat} {w : Nat} :
    ∀ {vs : List (Nat × Nat)} {s : State}, InRange H lo hi s → Good c H (Majority c H) lo hi s w vs →
      InRange H lo hi (doFeed c s w vs)
  | [], _, h, _ => h
  | (k, v) :: _, s, h, hg =>
    inRange_doFeed hc (s := feedOne c s w k v) (inRange_feedOne hc h hg.1 hg.2.1) hg.2.2

theorem Story.inRange (hc : c.OK) {H : Nat → Prop} [DecidablePred H] {lo hi : Nat → Nat}
    (h : Story c H (Majority c H) lo hi s) : InRange H lo hi s := by
  induction h with
  | init h =>
    refine ⟨fun w k t _ ht => ?_, fun k t ht => ?_⟩
    · rw [h.1] at ht; cases ht
    · rw [h.2.1] at ht; cases ht
  | feed h ha hm vs hg ih =>
    obtain ⟨_, rfl⟩ := markFed_iff.1 hm
    exact inRange_doFeed hc (show InRange H lo hi _ from ⟨ih.1, ih.2⟩) hg
  | finalize h ih => exact ih
  | members h ms hl hn ih => exact ih
  | time h d ih => exact ih

/-- C205, as one would like it: as long as fewer than half of the operators are dishonest, and the honest ones feed values in
`[lo, hi]`, every price is in `[lo, hi]`. -/
def C205_statement (c : Cfg) : Prop :=
  ∀ (H : Nat → Prop) [DecidablePred H] (lo hi : Nat → Nat) (s : State), Story c H (fun s _ => FewDishonest c H s) lo hi s →
    ∀ k t, get s k = some t → lo k ≤ t.value ∧ t.value ≤ hi k

/-- What holds: a price is in the range of the honest values as long as the majority of the *unexpired* values it was made of
was honest. -/
theorem C205_honest_range_partial (hc : c.OK) {H : Nat → Prop} [DecidablePred H] {lo hi : Nat → Nat}
    (h : Story c H (Majority c H) lo hi s) {k : Nat} {t : TSP} (ht : get s k = some t) : lo k ≤ t.value ∧ t.value ≤ hi k :=
  (h.inRange hc).2 k t ht

/-- A weaker condition gives more histories. -/
theorem Good.mono {H : Nat → Prop} {M M' : State → Nat → Prop} (hM : ∀ s k, M s k → M' s k) {lo hi : Nat → Nat} {w : Nat} :
    ∀ {vs : List (Nat × Nat)} {s : State}, Good c H M lo hi s w vs → Good c H M' lo hi s w vs
  | [], _, _ => trivial
  | (_, _) :: _, _, h => ⟨h.1, hM _ _ h.2.1, Good.mono hM h.2.2⟩

theorem Story.mono {H : Nat → Prop} {M M' : State → Nat → Prop} (hM : ∀ s k, M s k → M' s k) {lo hi : Nat → Nat}
    (h : Story c H M lo hi s) : Story c H M' lo hi s := by
  induction h with
  | init h => exact .init h
  | feed h ha hm vs hg ih => exact .feed ih ha hm vs (hg.mono hM)
  | finalize h ih => exact .finalize ih
  | members h ms hl hn ih => exact .members ih ms hl hn
  | time h d ih => exact .time ih d

theorem fresh_fst_sublist (s : State) (k : Nat) : ((fresh c s k).map (·.1)).Sublist (operators c s) := by
  unfold fresh
  generalize operators c s = l
  induction l with
  | nil => exact .slnil
  | cons w l ih =>
    cases hr : s.raw w k with
    | none =>
      rw [List.filterMap_cons_none (by rw [hr])]
      exact ih.cons _
    | some t =>
      by_cases ht : s.now < t.time + c.expires
      · rw [List.filterMap_cons_some (b := (w, t)) (by rw [hr]; exact if_pos ht)]
        exact ih.cons_cons _
      · rw [List.filterMap_cons_none (by rw [hr]; exact if_neg ht)]
        exact ih.cons _

/-- And a committee of which fewer than `MinimumCount / 2` are dishonest cannot be outvoted. -/
theorem C205_small_minority_partial (hc : c.OK) {H : Nat → Prop} [DecidablePred H] {lo hi : Nat → Nat}
    (h : Story c H (fun s _ => 2 * ((operators c s).filter (fun w => decide ¬ H w)).length < c.minCount) lo hi s) {k : Nat}
    {t : TSP} (ht : get s k = some t) : lo k ≤ t.value ∧ t.value ≤ hi k := by
  refine C205_honest_range_partial hc (h.mono ?_) ht
  intro s k hs hl
  have h1 := ((fresh_fst_sublist (c := c) s k).filter (fun w => decide ¬ H w)).length_le
  rw [count_map (fun x : Nat × TSP => x.1) (fun w => decide ¬ H w)] at h1
  omega

/-! A committee of five, one of whom (`1`) is dishonest: the honest ones feed 100. -/

/-- Five members, nothing fed yet. -/
def ex0 : State where
  members := [1, 2, 3, 4, 5]
  raw := fun _ _ => none
  values := fun _ => none
  dispatched := []
  now := 10

theorem ex0_fresh : Fresh ex0 := ⟨fun _ _ => rfl, fun _ => rfl, rfl⟩

/-- The deployed parameters of Parallel and Heiko. -/
def exC : Cfg := deployed 2 9

/-- Operator 2 has fed 100. -/
def ex1 : State := doFeed exC { ex0 with dispatched := [2] } 2 [(7, 100)]
/-- Operator 1 then feeds 1000. -/
def ex2 : State := doFeed exC { ex1 with dispatched := [1, 2] } 1 [(7, 1000)]

/-- One dishonest operator of six sets the price while only one honest value is fresh. -/
theorem C205_refuted : ¬ C205_statement exC := by
  intro h
  have s1 : Story exC (· ≠ 1) (fun s _ => FewDishonest exC (· ≠ 1) s) (fun _ => 100) (fun _ => 100) ex1 :=
    .feed (.init ex0_fresh) (origin := some 2) (w := 2) (account_iff.2 (.inr ⟨rfl, by decide⟩))
      (markFed_iff.2 ⟨by decide, rfl⟩) [(7, 100)] ⟨fun _ => by decide, by unfold FewDishonest; decide +kernel, trivial⟩
  have s2 : Story exC (· ≠ 1) (fun s _ => FewDishonest exC (· ≠ 1) s) (fun _ => 100) (fun _ => 100) ex2 :=
    .feed s1 (origin := some 1) (w := 1) (account_iff.2 (.inr ⟨rfl, by decide +kernel⟩))
      (markFed_iff.2 ⟨by decide +kernel, rfl⟩) [(7, 1000)]
      ⟨fun h => absurd rfl h, by unfold FewDishonest; decide +kernel, trivial⟩
  have := (h (· ≠ 1) (fun _ => 100) (fun _ => 100) ex2 s2 7 ⟨1000, 10⟩ (by decide +kernel)).2
  exact absurd this (by decide)

/-- With a third value the liar is outvoted. -/
def ex3 : State := doFeed exC { ex1 with dispatched := [3, 2] } 3 [(7, 101)]
/-- Operator 1 feeds last. -/
def ex4 : State := doFeed exC { ex3 with dispatched := [1, 3, 2] } 1 [(7, 1000)]

/-- The hypotheses of `C205_honest_range_partial` are met by a history with a liar, and the price is between 100 and 101. -/
example : exC.OK ∧ Story exC (· ≠ 1) (Majority exC (· ≠ 1)) (fun _ => 100) (fun _ => 101) ex4 ∧
    get ex4 7 = some ⟨101, 10⟩ := by
  refine ⟨deployed_ok _ _, ?_, by decide +kernel⟩
  have s1 : Story exC (· ≠ 1) (Majority exC (· ≠ 1)) (fun _ => 100) (fun _ => 101) ex1 :=
    .feed (.init ex0_fresh) (origin := some 2) (w := 2) (account_iff.2 (.inr ⟨rfl, by decide⟩))
      (markFed_iff.2 ⟨by decide, rfl⟩) [(7, 100)] ⟨fun _ => by decide, by unfold Majority; decide +kernel, trivial⟩
  have s3 : Story exC (· ≠ 1) (Majority exC (· ≠ 1)) (fun _ => 100) (fun _ => 101) ex3 :=
    .feed s1 (origin := some 3) (w := 3) (account_iff.2 (.inr ⟨rfl, by decide +kernel⟩))
      (markFed_iff.2 ⟨by decide +kernel, rfl⟩) [(7, 101)]
      ⟨fun _ => by decide, by unfold Majority; decide +kernel, trivial⟩
  exact .feed s3 (origin := some 1) (w := 1) (account_iff.2 (.inr ⟨rfl, by decide +kernel⟩))
    (markFed_iff.2 ⟨by decide +kernel, rfl⟩) [(7, 1000)]
    ⟨fun h => absurd rfl h, by unfold Majority; decide +kernel, trivial⟩

/-- The hypotheses of `C205_small_minority_partial`: with three values required, one liar cannot do anything. -/
example : (deployed 3 9).OK ∧ Story (deployed 3 9) (· ≠ 1)
    (fun s _ => 2 * ((operators (deployed 3 9) s).filter (fun w => decide ¬ w ≠ 1)).length < (deployed 3 9).minCount)
    (fun _ => 100) (fun _ => 100) (doFeed (deployed 3 9) { ex0 with dispatched := [1] } 1 [(7, 1000)]) :=
  ⟨deployed_ok _ _, .feed (.init ex0_fresh) (origin := some 1) (w := 1) (account_iff.2 (.inr ⟨rfl, by decide⟩))
    (markFed_iff.2 ⟨by decide, rfl⟩) [(7, 1000)] ⟨fun h => absurd rfl h, by decide +kernel, trivial⟩⟩

end Verif.Oracle
