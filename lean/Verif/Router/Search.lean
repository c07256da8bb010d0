import Verif.Router.Lemmas

/-! # The route search loop: soundness, completeness, termination -/

namespace Verif.Router
open Verif Verif.Amm

theorem mem_adj {ks : List (Nat × Nat)} {a b : Nat} : b ∈ adj ks a ↔ (a, b) ∈ ks ∨ (b, a) ∈ ks := by
  unfold adj
  simp only [List.mem_flatMap, List.mem_append]
  constructor
  · rintro ⟨⟨u, v⟩, hk, h | h⟩
    · split_ifs at h with e
      · simp at h e; subst h; subst e; exact Or.inl hk
      · simp at h
    · split_ifs at h with e
      · simp at h e; subst h; subst e; exact Or.inr hk
      · simp at h
  · rintro (h | h)
    · exact ⟨_, h, Or.inl (by simp)⟩
    · exact ⟨_, h, Or.inr (by simp)⟩

theorem mem_swapRemoveTail {α : Type} {l : List α} {x : α} : x ∈ swapRemoveTail l ↔ x ∈ l := by
  unfold swapRemoveTail
  cases h : l.getLast? with
  | none => rw [List.getLast?_eq_none_iff] at h; simp [h]
  | some z =>
    obtain ⟨ys, rfl⟩ := List.getLast?_eq_some_iff.1 h
    simp [or_comm]

theorem sum_swapRemoveTail {α : Type} (f : α → Nat) (l : List α) :
    ((swapRemoveTail l).map f).sum = (l.map f).sum := by
  unfold swapRemoveTail
  cases h : l.getLast? with
  | none => rw [List.getLast?_eq_none_iff] at h; simp [h]
  | some z =>
    obtain ⟨ys, rfl⟩ := List.getLast?_eq_some_iff.1 h
    simp [Nat.add_comm]

/-- More fuel does not change a finished search. -/
theorem search_fuel {ks : List (Nat × Nat)} {t : Nat} : ∀ {n m : Nat} {q ps rs},
    search ks t n q ps = some rs → n ≤ m → search ks t m q ps = some rs
  | n, m, [], ps, rs, h, _ => by
    cases n <;> cases m <;> simpa [search] using h
  | 0, _, _ :: _, _, _, h, _ => by simp [search] at h
  | n + 1, 0, _ :: _, _, _, _, hm => by omega
  | n + 1, m + 1, (st, path) :: rest, ps, rs, h, hm => by
    simp only [search] at h ⊢
    exact search_fuel h (by omega)

/-- A simple path in the listed graph starting at `a`. -/
def Walk (ks : List (Nat × Nat)) (a : Nat) (r : List Nat) : Prop :=
  r.head? = some a ∧ r.Nodup ∧ r.IsChain (fun u v => v ∈ adj ks u)

theorem search_sound {ks : List (Nat × Nat)} {a t : Nat} : ∀ {n : Nat} {q ps rs},
    search ks t n q ps = some rs →
    (∀ i ∈ q, Walk ks a (i.2 ++ [i.1])) →
    (∀ r ∈ ps, Walk ks a r ∧ r.getLast? = some t) →
    ∀ r ∈ rs, Walk ks a r ∧ r.getLast? = some t
  | n, [], ps, rs, h, _, hp => by
    cases n <;> simp [search] at h <;> subst h <;> exact hp
  | 0, _ :: _, _, _, h, _, _ => by simp [search] at h
  | n + 1, (st, path) :: rest, ps, rs, h, hq, hp => by
    simp only [search] at h
    have h0 : Walk ks a (path ++ [st]) := hq (st, path) (by simp)
    refine search_sound h ?_ ?_
    · intro i hi
      rw [List.mem_append, mem_swapRemoveTail, List.mem_map] at hi
      rcases hi with hi | ⟨m, hm, rfl⟩
      · exact hq i (by simp [hi])
      · rw [List.mem_filter] at hm
        obtain ⟨hadj, hnot⟩ := hm
        have hnot' : m ∉ path ++ [st] := by simpa using hnot
        obtain ⟨w1, w2, w3⟩ := h0
        refine ⟨?_, ?_, ?_⟩
        · simp only [List.head?_append, w1]
          rfl
        · show ((path ++ [st]) ++ [m]).Nodup
          rw [List.nodup_append]
          refine ⟨w2, by simp, ?_⟩
          intro x hx y hy
          simp at hy; subst hy
          rintro rfl; exact hnot' hx
        · show ((path ++ [st]) ++ [m]).IsChain _
          rw [List.isChain_append]
          refine ⟨w3, by simp, ?_⟩
          intro x hx y hy
          simp at hx hy
          subst hx; subst hy; exact hadj
    · intro r hr
      split_ifs at hr with e
      · rw [List.mem_append] at hr
        rcases hr with hr | hr
        · exact hp r hr
        · simp at hr; subst hr; exact ⟨h0, by simp [e]⟩
      · exact hp r hr

theorem search_complete {ks : List (Nat × Nat)} {a t : Nat} {r : List Nat} (hr : Walk ks a r)
    (ht : r.getLast? = some t) : ∀ {n : Nat} {q ps rs}, search ks t n q ps = some rs →
    (r ∈ ps ∨ ∃ i ∈ q, (i.2 ++ [i.1]) <+: r) → r ∈ rs
  | n, [], ps, rs, h, hc => by
    cases n <;> simp [search] at h <;> subst h <;> simpa using hc
  | 0, _ :: _, _, _, h, _ => by simp [search] at h
  | n + 1, (st, path) :: rest, ps, rs, h, hc => by
    simp only [search] at h
    refine search_complete hr ht h ?_
    rcases hc with hc | ⟨i, hi, hpre⟩
    · left; split_ifs <;> simp [hc]
    · rw [List.mem_cons] at hi
      rcases hi with rfl | hi
      · obtain ⟨tl, htl⟩ := hpre
        simp only at htl
        cases tl with
        | nil =>
          left
          rw [List.append_nil] at htl
          have : st = t := by rw [← htl] at ht; simpa using ht
          simp [this, ← htl]
        | cons m tl =>
          right
          refine ⟨(m, path ++ [st]), ?_, ⟨tl, by simpa using htl⟩⟩
          rw [List.mem_append]; right
          rw [List.mem_map]
          refine ⟨m, ?_, rfl⟩
          obtain ⟨_, hnd, hch⟩ := hr
          rw [← htl] at hnd hch
          rw [List.mem_filter]
          rw [List.isChain_append] at hch
          rw [List.nodup_append] at hnd
          refine ⟨hch.2.2 st (by simp) m (by simp), ?_⟩
          have : m ∉ path ++ [st] := fun hm => hnd.2.2 m hm m (by simp) rfl
          simpa using this
      · right
        exact ⟨i, by rw [List.mem_append, mem_swapRemoveTail]; exact Or.inl hi, hpre⟩

/-! ### Termination -/

/-- All tokens of the graph. -/
def nodes (ks : List (Nat × Nat)) : List Nat := ks.flatMap (fun k => [k.1, k.2])

theorem adj_nodes {ks : List (Nat × Nat)} {a b : Nat} (h : b ∈ adj ks a) : b ∈ nodes ks := by
  rw [mem_adj] at h
  unfold nodes
  rw [List.mem_flatMap]
  rcases h with h | h
  · exact ⟨_, h, by simp⟩
  · exact ⟨_, h, by simp⟩

theorem adj_length (ks : List (Nat × Nat)) (a : Nat) : (adj ks a).length ≤ 2 * ks.length := by
  unfold adj
  induction ks with
  | nil => simp
  | cons k ks ih =>
    simp only [List.flatMap_cons, List.length_append, List.length_cons] at *
    have h1 : (if k.1 = a then [k.2] else []).length ≤ 1 := by split_ifs <;> simp
    have h2 : (if k.2 = a then [k.1] else []).length ≤ 1 := by split_ifs <;> simp
    omega

/-- Weight of a queue item: an upper bound on the iterations it still causes. -/
def weight (d N : Nat) (i : Nat × List Nat) : Nat := (d + 1) ^ (N - i.2.length)

theorem search_terminates {ks : List (Nat × Nat)} {t : Nat} : ∀ {n : Nat} {q ps},
    (∀ i ∈ q, (i.2 ++ [i.1]).Nodup ∧ ∀ x ∈ i.2 ++ [i.1], x ∈ nodes ks) →
    (q.map (weight (2 * ks.length) (nodes ks).length)).sum ≤ n →
    ∃ rs, search ks t n q ps = some rs
  | n, [], ps, _, _ => by cases n <;> exact ⟨ps, rfl⟩
  | 0, (st, path) :: rest, _, _, hm => by
    have : 0 < weight (2 * ks.length) (nodes ks).length (st, path) := Nat.pow_pos (by omega)
    simp only [List.map_cons, List.sum_cons] at hm
    omega
  | n + 1, (st, path) :: rest, ps, hq, hm => by
    simp only [search]
    obtain ⟨h1, h2⟩ := hq (st, path) (by simp)
    have hlen : path.length + 1 ≤ (nodes ks).length := by
      have := (List.subperm_of_subset h1 h2).length_le
      simpa using this
    apply search_terminates
    · intro i hi
      rw [List.mem_append, mem_swapRemoveTail, List.mem_map] at hi
      rcases hi with hi | ⟨m, hm, rfl⟩
      · exact hq i (by simp [hi])
      · rw [List.mem_filter] at hm
        obtain ⟨hadj, hnot⟩ := hm
        have hnot' : m ∉ path ++ [st] := by simpa using hnot
        refine ⟨?_, ?_⟩
        · show ((path ++ [st]) ++ [m]).Nodup
          rw [List.nodup_append]
          refine ⟨h1, by simp, ?_⟩
          intro x hx y hy
          simp at hy; subst hy
          rintro rfl; exact hnot' hx
        · intro x hx
          have hx' : x ∈ (path ++ [st]) ∨ x = m := by simpa [or_assoc] using hx
          rcases hx' with hx' | rfl
          · exact h2 x hx'
          · exact adj_nodes hadj
    · simp only [List.map_cons, List.sum_cons] at hm
      rw [List.map_append, List.sum_append, sum_swapRemoveTail]
      set d := 2 * ks.length with hd
      set N := (nodes ks).length with hN
      have e : ∀ l : List Nat, ((l.map (fun n => (n, path ++ [st]))).map (weight d N)).sum
          = l.length * (d + 1) ^ (N - (path.length + 1)) := by
        intro l
        induction l with
        | nil => simp
        | cons x l ih =>
          simp only [List.map_cons, List.sum_cons, List.length_cons]
          rw [ih]
          simp only [weight, List.length_append, List.length_singleton]
          ring
      rw [e]
      have hl : ((adj ks st).filter (fun n => !(path ++ [st]).contains n)).length ≤ d :=
        (List.length_filter_le _ _).trans (adj_length ks st)
      have hw : weight d N (st, path) = (d + 1) * (d + 1) ^ (N - (path.length + 1)) := by
        simp only [weight]
        rw [← pow_succ']
        congr 1
        omega
      rw [hw] at hm
      have hp : 0 < (d + 1) ^ (N - (path.length + 1)) := Nat.pow_pos (by omega)
      have := Nat.mul_le_mul_right ((d + 1) ^ (N - (path.length + 1))) hl
      rw [Nat.add_mul, Nat.one_mul] at hm
      omega

end Verif.Router
