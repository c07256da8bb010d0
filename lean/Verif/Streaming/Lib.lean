import Verif.Streaming.Spec

/-! # The stream library: bookkeeping lemmas -/

namespace Verif.Streaming
open Verif

theorem mem_sortDesc {l : List Nat} {x : Nat} : x ∈ sortDesc l ↔ x ∈ l := by
  unfold sortDesc; rw [List.mem_insertionSort]

theorem nodup_sortDesc {l : List Nat} : (sortDesc l).Nodup ↔ l.Nodup :=
  (List.perm_insertionSort _ l).nodup_iff

theorem length_sortDesc {l : List Nat} : (sortDesc l).length = l.length := by
  unfold sortDesc; rw [List.length_insertionSort]

/-- In which role account `a` may list stream `st` under kind `k`. -/
def Party (st : Stream) (a : Nat) : Kind → Prop
  | .send => st.sender = a
  | .receive => st.recipient = a
  | .finish => ¬ st.live ∧ (st.sender = a ∨ st.recipient = a)

/-- Library entries refer to existing streams of the account, without repetition. -/
structure LibInv (s : State) : Prop where
  ref : ∀ a k id, id ∈ s.lib (a, k) → ∃ st, s.streams id = some st ∧ Party st a k
  nodup : ∀ a k, (s.lib (a, k)).Nodup

/-- Everything but the stream map and the library is unchanged. -/
structure Frame (s s' : State) : Prop where
  ledger : s'.ledger = s.ledger
  next : s'.next = s.next
  minDep : s'.minDep = s.minDep
  now : s'.now = s.now
  events : s'.events = s.events

theorem Frame.refl (s : State) : Frame s s := ⟨rfl, rfl, rfl, rfl, rfl⟩
theorem Frame.trans {s s' s'' : State} (h : Frame s s') (h' : Frame s' s'') : Frame s s'' :=
  ⟨h'.ledger.trans h.ledger, h'.next.trans h.next, h'.minDep.trans h.minDep, h'.now.trans h.now,
    h'.events.trans h.events⟩

/-- Only finished streams are removed. -/
def Archive (s s' : State) : Prop := ∀ id, s'.streams id = s.streams id ∨
  (s'.streams id = none ∧ ∃ st, s.streams id = some st ∧ ¬ st.live)

theorem Archive.refl (s : State) : Archive s s := fun _ => Or.inl rfl
theorem Archive.trans {s s' s'' : State} (h : Archive s s') (h' : Archive s' s'') : Archive s s'' := by
  intro id
  rcases h id with e | ⟨e, st, hst, hl⟩
  · rcases h' id with e' | ⟨e', st, hst, hl⟩
    · exact Or.inl (e'.trans e)
    · exact Or.inr ⟨e', st, e ▸ hst, hl⟩
  · rcases h' id with e' | ⟨e', st', hst', _⟩
    · exact Or.inr ⟨e'.trans e, st, hst, hl⟩
    · rw [e] at hst'; cases hst'

theorem pushLib_ok {c : Cfg} {s s' : State} {a id : Nat} {k : Kind} (h : pushLib c s a id k = .ok s') :
    ∃ l, s' = { s with lib := upd s.lib (a, k) l } ∧ (∀ x, x ∈ l ↔ x ∈ s.lib (a, k) ∨ x = id) ∧
      ((s.lib (a, k)).Nodup → l.Nodup) ∧ l.length ≤ (s.lib (a, k)).length + 1 := by
  unfold pushLib at h
  simp only [bind_ok_iff, pure_ok_iff] at h
  obtain ⟨r, hr, rfl⟩ := h
  refine ⟨sortDesc r, rfl, ?_⟩
  unfold pushId at hr
  split_ifs at hr with hm hlt
  · simp only [Except.ok.injEq] at hr
    subst hr
    refine ⟨fun x => ?_, fun hn => nodup_sortDesc.2 hn, by rw [length_sortDesc]; omega⟩
    rw [mem_sortDesc]
    constructor
    · exact Or.inl
    · rintro (h | rfl) <;> assumption
  · simp only [Except.ok.injEq] at hr
    subst hr
    refine ⟨fun x => ?_, fun hn => nodup_sortDesc.2 ?_, by rw [length_sortDesc]; simp⟩
    · rw [mem_sortDesc]; simp
    · rw [List.nodup_append]
      refine ⟨hn, by simp, ?_⟩
      intro x hx y hy
      simp at hy; subst hy
      rintro rfl; exact hm hx

theorem pushLib_succeeds {c : Cfg} {s : State} {a id : Nat} {k : Kind}
    (h : (s.lib (a, k)).length < c.maxStreams) : ∃ s', pushLib c s a id k = .ok s' := by
  unfold pushLib pushId
  by_cases hm : id ∈ s.lib (a, k)
  · simp only [hm, if_true, ok_bind]; exact ⟨_, rfl⟩
  · simp only [hm, h, if_true, if_false, ok_bind]; exact ⟨_, rfl⟩

theorem pushLib_frame {c : Cfg} {s s' : State} {a id : Nat} {k : Kind} (h : pushLib c s a id k = .ok s') :
    Frame s s' ∧ s'.streams = s.streams := by
  obtain ⟨l, rfl, _⟩ := pushLib_ok h
  exact ⟨⟨rfl, rfl, rfl, rfl, rfl⟩, rfl⟩

theorem pushLib_inv {c : Cfg} {s s' : State} {a id : Nat} {k : Kind} (hi : LibInv s) {st : Stream}
    (hst : s.streams id = some st) (hp : Party st a k) (h : pushLib c s a id k = .ok s') : LibInv s' := by
  obtain ⟨l, rfl, hm, hn, _⟩ := pushLib_ok h
  constructor
  · intro b k' x hx
    by_cases hb : (b, k') = (a, k)
    · cases hb
      rw [show ({ s with lib := upd s.lib (a, k) l } : State).lib (a, k) = l from upd_same _ _ _, hm] at hx
      rcases hx with hx | rfl
      · exact hi.ref _ _ _ hx
      · exact ⟨st, hst, hp⟩
    · rw [show ({ s with lib := upd s.lib (a, k) l } : State).lib (b, k') = s.lib (b, k') from
        upd_of_ne _ _ hb] at hx
      exact hi.ref _ _ _ hx
  · intro b k'
    by_cases hb : (b, k') = (a, k)
    · cases hb
      rw [show ({ s with lib := upd s.lib (a, k) l } : State).lib (a, k) = l from upd_same _ _ _]
      exact hn (hi.nodup a k)
    · rw [show ({ s with lib := upd s.lib (a, k) l } : State).lib (b, k') = s.lib (b, k') from
        upd_of_ne _ _ hb]
      exact hi.nodup b k'

theorem pushLib_len {c : Cfg} {s s' : State} {a id : Nat} {k : Kind} (h : pushLib c s a id k = .ok s')
    (b : Nat) (k' : Kind) : (s'.lib (b, k')).length ≤
      (s.lib (b, k')).length + (if b = a ∧ k' = k then 1 else 0) := by
  obtain ⟨l, rfl, hm, hn, hl⟩ := pushLib_ok h
  by_cases hb : (b, k') = (a, k)
  · cases hb
    rw [show ({ s with lib := upd s.lib (a, k) l } : State).lib (a, k) = l from upd_same _ _ _]
    simpa using hl
  · rw [show ({ s with lib := upd s.lib (a, k) l } : State).lib (b, k') = s.lib (b, k') from
        upd_of_ne _ _ hb]
    omega

theorem mem_removeLib {lib : Nat × Kind → List Nat} (hn : ∀ b k, (lib (b, k)).Nodup) {a id b x : Nat}
    {k : Kind} : x ∈ removeLib lib a id (b, k) ↔ x ∈ lib (b, k) ∧ ¬ (b = a ∧ x = id) := by
  have he : ∀ k, x ∈ sortDesc ((lib (a, k)).erase id) ↔ x ∈ lib (a, k) ∧ x ≠ id := by
    intro k; rw [mem_sortDesc, (hn a k).mem_erase_iff]; tauto
  unfold removeLib
  simp only
  by_cases hb : b = a
  · subst hb
    cases k <;> simp [upd_apply, he]
  · simp [upd_apply, hb]

theorem nodup_removeLib {lib : Nat × Kind → List Nat} (hn : ∀ b k, (lib (b, k)).Nodup) (a id b : Nat)
    (k : Kind) : (removeLib lib a id (b, k)).Nodup := by
  have he : ∀ k, (sortDesc ((lib (a, k)).erase id)).Nodup := by
    intro k; rw [nodup_sortDesc]; exact (hn a k).erase id
  unfold removeLib
  simp only
  by_cases hb : b = a
  · subst hb
    cases k <;> simp [upd_apply, he]
  · simp [upd_apply, hb, hn]

theorem length_removeLib (lib : Nat × Kind → List Nat) (a id b : Nat) (k : Kind) :
    (removeLib lib a id (b, k)).length ≤ (lib (b, k)).length := by
  have he : ∀ k, (sortDesc ((lib (a, k)).erase id)).length ≤ (lib (a, k)).length := by
    intro k; rw [length_sortDesc]; exact List.length_erase_le
  unfold removeLib
  simp only
  by_cases hb : b = a
  · subst hb
    cases k <;> simp [upd_apply, he]
  · simp [upd_apply, hb]

/-- Archiving for one account: always succeeds, removes at most one finished stream, keeps the library
consistent and brings the account's list of finished streams towards the limit. -/
theorem popFinished_spec {c : Cfg} {s : State} (hi : LibInv s) (a : Nat) :
    ∃ s', popFinished c s a = .ok s' ∧ LibInv s' ∧ Frame s s' ∧ Archive s s' ∧
      (∀ b k, (s'.lib (b, k)).length ≤ (s.lib (b, k)).length) ∧
      ((s'.lib (a, .finish)).length ≤ c.maxFinished ∨
        (s'.lib (a, .finish)).length + 1 ≤ (s.lib (a, .finish)).length) := by
  unfold popFinished
  simp only
  split_ifs with hlen
  · exact ⟨s, rfl, hi, Frame.refl s, Archive.refl s, fun _ _ => Nat.le_refl _, Or.inl hlen⟩
  · cases hl : (s.lib (a, .finish)).getLast? with
    | none =>
      rw [List.getLast?_eq_none_iff] at hl
      exact absurd (by rw [hl]; simp) hlen
    | some id =>
      have hmem : id ∈ s.lib (a, .finish) := List.mem_of_getLast? hl
      obtain ⟨st, hst, hnl, hpa⟩ := hi.ref _ _ _ hmem
      simp only [hst, okOr_some, ok_bind]
      refine ⟨_, rfl, ?_, ⟨rfl, rfl, rfl, rfl, rfl⟩, ?_, ?_, ?_⟩
      · -- library invariant
        have hn1 := fun b k => nodup_removeLib hi.nodup st.sender id b k
        have hn2 := fun b k => nodup_removeLib hn1 st.recipient id b k
        have hmem2 : ∀ b k x, x ∈ removeLib (removeLib s.lib st.sender id) st.recipient id (b, k) ↔
            x ∈ s.lib (b, k) ∧ ¬ (b = st.sender ∧ x = id) ∧ ¬ (b = st.recipient ∧ x = id) := by
          intro b k x
          rw [mem_removeLib hn1, mem_removeLib hi.nodup]; tauto
        have hlast : ∃ ys, s.lib (a, .finish) = ys ++ [id] := List.getLast?_eq_some_iff.1 hl
        obtain ⟨ys, hys⟩ := hlast
        have hnd := hi.nodup a .finish
        rw [hys, List.nodup_append] at hnd
        -- all listed ids differ from the archived one
        have hne : ∀ b k x, x ∈ upd (removeLib (removeLib s.lib st.sender id) st.recipient id) (a, .finish)
            (s.lib (a, .finish)).dropLast (b, k) → x ≠ id ∧ x ∈ s.lib (b, k) := by
          intro b k x hx
          by_cases hb : (b, k) = (a, .finish)
          · cases hb
            rw [upd_same, hys, List.dropLast_concat] at hx
            refine ⟨?_, by rw [hys]; simp [hx]⟩
            rintro rfl
            exact hnd.2.2 x hx x (by simp) rfl
          · rw [upd_of_ne _ _ hb, hmem2] at hx
            obtain ⟨h1, h2, h3⟩ := hx
            refine ⟨?_, h1⟩
            rintro rfl
            obtain ⟨st', hst', hp⟩ := hi.ref _ _ _ h1
            rw [hst] at hst'; cases hst'
            cases k
            · exact h2 ⟨hp.symm, rfl⟩
            · exact h3 ⟨hp.symm, rfl⟩
            · rcases hp.2 with e | e
              · exact h2 ⟨e.symm, rfl⟩
              · exact h3 ⟨e.symm, rfl⟩
        constructor
        · intro b k x hx
          obtain ⟨h1, h2⟩ := hne b k x hx
          obtain ⟨st', hst', hp⟩ := hi.ref _ _ _ h2
          exact ⟨st', by show upd s.streams id none x = _; rw [upd_of_ne _ _ h1]; exact hst', hp⟩
        · intro b k
          show List.Nodup (upd _ _ _ (b, k))
          by_cases hb : (b, k) = (a, .finish)
          · rw [hb, upd_same, hys, List.dropLast_concat]
            exact hnd.1
          · rw [upd_of_ne _ _ hb]; exact hn2 b k
      · intro x
        by_cases hx : x = id
        · subst hx
          exact Or.inr ⟨upd_same _ _ _, st, hst, hnl⟩
        · exact Or.inl (upd_of_ne _ _ hx)
      · intro b k
        show List.length (upd _ _ _ (b, k)) ≤ _
        by_cases hb : (b, k) = (a, .finish)
        · rw [hb, upd_same]; simp
        · rw [upd_of_ne _ _ hb]
          exact (length_removeLib _ _ _ _ _).trans (length_removeLib _ _ _ _ _)
      · right
        show List.length (upd _ _ _ (a, Kind.finish)) + 1 ≤ _
        rw [upd_same, List.length_dropLast]
        have : 0 < (s.lib (a, .finish)).length := List.length_pos_of_mem hmem
        omega

theorem updateFinished_spec {c : Cfg} {s : State} (hi : LibInv s) (a b : Nat) :
    ∃ s', updateFinished c s a b = .ok s' ∧ LibInv s' ∧ Frame s s' ∧ Archive s s' ∧
      (∀ b k, (s'.lib (b, k)).length ≤ (s.lib (b, k)).length) ∧
      (∀ w, w = a ∨ w = b → (s'.lib (w, .finish)).length ≤ c.maxFinished ∨
        (s'.lib (w, .finish)).length + 1 ≤ (s.lib (w, .finish)).length) := by
  obtain ⟨s1, e1, i1, f1, a1, l1, b1⟩ := popFinished_spec (c := c) hi a
  obtain ⟨s2, e2, i2, f2, a2, l2, b2⟩ := popFinished_spec (c := c) i1 b
  refine ⟨s2, ?_, i2, f1.trans f2, a1.trans a2, fun b k => (l2 b k).trans (l1 b k), ?_⟩
  · unfold updateFinished; rw [e1]; exact e2
  · intro w hw
    have := l2 w .finish
    have := l1 w .finish
    rcases hw with rfl | rfl
    · omega
    · omega

end Verif.Streaming
