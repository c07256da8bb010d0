import Verif.Streaming.Calls

set_option linter.unusedSimpArgs false

/-!
# Streaming: property theorems (C19 – C24)

Vocabulary in `Verif/Streaming/Spec.lean`: `Reach` (all histories), `owed` (remaining balance of live
streams), `deposited / received / refunded` (totals over the event log), `Stream.vested`.
-/

namespace Verif.Streaming
open Verif

/-! Fixture: user 7 streams 1000 of asset 1 to user 8 during seconds 10 – 110; now is second 60. -/
def exCfg : Cfg := ⟨100, 5, 2, 0, 10⟩
theorem exCfg_ok : exCfg.OK := ⟨by decide⟩
@[irreducible] def exL : Ledger := Ledger.ofList [(1, 7, 1000000), (1, 8, 5)]
theorem exL_wf : exL.WF := by unfold exL; exact Ledger.ofList_wf _
def ex0 : State := ⟨exL, fun _ => none, 0, fun _ => [], fun _ => some 0, 5, []⟩
theorem ex0_reach : Reach exCfg ex0 := .init exL _ 5 exL_wf
def ex1 : State := commit ex0 (create exCfg ex0 7 8 1000 1 10 110 true)
theorem ex1_step : create exCfg ex0 7 8 1000 1 10 110 true = .ok ex1 := by
  rcases commit_cases ex0 (create exCfg ex0 7 8 1000 1 10 110 true) with h | ⟨_, e, h⟩
  · exact h
  · have : okAnd (create exCfg ex0 7 8 1000 1 10 110 true) (fun _ => true) = true := by decide +kernel
    rw [h] at this; cases this
theorem exec_create (c : Cfg) (s : State) (sd rc d a st sp : Nat) (cl : Bool) :
    exec c s (.create sd rc d a st sp cl) = create c s sd rc d a st sp cl := rfl
theorem ex1_reach : Reach exCfg ex1 :=
  .step ex0_reach (.call (.create 7 8 1000 1 10 110 true) (by decide : (7 : Nat) ≠ 100)
    ((exec_create _ _ _ _ _ _ _ _ _).trans ex1_step))
def later (s : State) (t : Nat) : State := { s with now := s.now + t }
theorem later_reach {c : Cfg} (hc : c.OK) {s : State} (h : Reach c s) (t : Nat) : Reach c (later s t) :=
  .step h (.env ⟨rfl, rfl, rfl, rfl, rfl, Nat.le_add_right _ _, (h.inv hc).core.wf, fun _ => Nat.le_refl _⟩)
def ex2 : State := later ex1 55
theorem ex2_reach : Reach exCfg ex2 := later_reach exCfg_ok ex1_reach 55
def exSt : Stream := ⟨1000, 1000, 1, 10, 7, 8, 10, 110, .ongoing, true⟩
theorem ex2_stream : ex2.streams 0 = some exSt := by decide +kernel

/-! ## C19 -/

/-- C19: after any history the pallet account holds, in every asset `x`, at least the sum of the remaining
balances of all live streams in `x` (over any finite set of stream ids). -/
theorem C19_solvent {c : Cfg} (hc : c.OK) {s : State} (h : Reach c s) (x : Nat) :
    ∀ S : Finset Nat, ∑ id ∈ S, owed x (s.streams id) ≤ s.ledger.bal x c.acct :=
  (h.inv hc).core.solvent x

example : Reach exCfg ex2 ∧ owed 1 (ex2.streams 0) = 1000 := ⟨ex2_reach, by decide +kernel⟩

/-! ## C20 -/

/-- C20: for every stream id, what was paid to the recipient plus what was refunded to the sender plus the
remaining balance while the stream is live is exactly what was deposited. -/
theorem C20_conservation {c : Cfg} (hc : c.OK) {s : State} (h : Reach c s) (id : Nat) :
    received s id + refunded s id + liveRem (s.streams id) = deposited s id :=
  (h.inv hc).core.account id

/-- C20, link to the ledger: every successful call appends at most one event, and all balances change
exactly as that event says. -/
theorem C20_events_match_ledger {c : Cfg} (hc : c.OK) {s s' : State} (h : Reach c s) {k : Call}
    (hk : k.signerOK c) (he : exec c s k = .ok s') :
    ∃ es : List Event, s'.events = s.events ++ es ∧ es.length ≤ 1 ∧ ∀ x w,
      s'.ledger.bal x w + (es.map (Event.taken c x w)).sum
        = s.ledger.bal x w + (es.map (Event.given c x w)).sum := by
  have hi := h.inv hc
  cases k with
  | create sd rc d a st sp cl =>
    obtain ⟨_, _, _, _, _, ev, tr⟩ := create_eff hi hk (Or.inl he)
    refine ⟨_, ev, by simp, fun x w => ?_⟩
    simpa [Event.taken, Event.given] using Ledger.transfer_bal tr x w
  | traitCreate sd rc d a st sp cl =>
    obtain ⟨_, _, _, _, _, ev, tr⟩ := create_eff hi hk (Or.inr he)
    refine ⟨_, ev, by simp, fun x w => ?_⟩
    simpa [Event.taken, Event.given] using Ledger.transfer_bal tr x w
  | cancel who id =>
    obtain ⟨st, h1, rfl, h2, h3⟩ := cancel_pre he
    obtain ⟨s2, rb, l1, e, i, _, _, t1, t2, ev, _⟩ := cancel_spec hc hi h1 h2 h3
    have : Except.ok s2 = Except.ok s' := e.symm.trans he
    cases this
    refine ⟨_, ev, by simp, fun x w => ?_⟩
    have e1 := Ledger.transfer_bal t1 x w
    have e2 := Ledger.transfer_bal t2 x w
    simp only [Event.taken, Event.given, List.map_cons, List.map_nil, List.sum_cons, List.sum_nil,
      Nat.add_zero]
    by_cases ha : x = st.asset ∧ w = c.acct
    · simp only [ha, and_self, if_true] at e1 e2 ⊢; omega
    · simp only [ha, if_false] at e1 e2 ⊢; omega
  | withdraw who id amt =>
    obtain ⟨st, h1, rfl, h2, h3, h4⟩ := withdraw_pre hi he
    obtain ⟨s2, p, e, i, _, _, t1, ev, _⟩ := withdraw_spec hc hi h1 h2 hk h3 h4
    have : Except.ok s2 = Except.ok s' := e.symm.trans he
    cases this
    refine ⟨_, ev, by simp, fun x w => ?_⟩
    simpa [Event.taken, Event.given] using Ledger.transfer_bal t1 x w
  | setMin a m =>
    have : Except.ok _ = Except.ok s' := he
    cases this
    exact ⟨[], by simp, by simp, fun x w => rfl⟩

example : Reach exCfg ex2 ∧ deposited ex2 0 = 1000 ∧ received ex2 0 = 0 := ⟨ex2_reach, by decide +kernel⟩

/-! ## C21 -/

/-- C21 (a): a live stream never has paid its recipient more than what has vested by now. -/
theorem C21_live_not_ahead {c : Cfg} (hc : c.OK) {s : State} (h : Reach c s) {id : Nat} {st : Stream}
    (hst : s.streams id = some st) (hl : st.live) : received s id ≤ st.vested s.now := by
  have hi := (h.inv hc).core
  obtain ⟨g, _⟩ := hi.good id st hst
  have h1 := hi.account id
  have h2 := hi.dep id st hst
  have h3 := hi.noRefund id st hst hl
  have h4 := g.ahead hl
  have h5 := g.rem
  have e : liveRem (s.streams id) = st.remaining := by simp [hst, liveRem, hl]
  have e2 : received s id = (s.events.map (Event.received id)).sum := rfl
  omega

/-- C21 (b): a withdrawal raises the recipient's total at most to what has vested; for the native currency
it may exceed this by at most the existential deposit, and then it closes the stream. -/
theorem C21_withdraw_not_ahead {c : Cfg} (hc : c.OK) {s s' : State} (h : Reach c s) {who id amt : Nat}
    (hw : who ≠ c.acct) (he : withdraw c s who id amt = .ok s') :
    ∃ st, s.streams id = some st ∧ who = st.recipient ∧
      (received s' id ≤ st.vested s.now ∨
        (st.asset = c.native ∧ received s' id ≤ st.vested s.now + c.ed ∧ received s' id = st.deposit)) := by
  have hi := h.inv hc
  obtain ⟨st, h1, rfl, h2, h3, h4⟩ := withdraw_pre hi he
  obtain ⟨s2, p, e, i, hp, hple, t1, ev, _⟩ := withdraw_spec hc hi h1 h2 hw h3 h4
  have : Except.ok s2 = Except.ok s' := e.symm.trans he
  cases this
  refine ⟨st, h1, rfl, ?_⟩
  have g := (hi.core.good id st h1).1
  have a1 := hi.core.account id
  have a2 := hi.core.dep id st h1
  have a3 := hi.core.noRefund id st h1 h2
  have a4 : liveRem (s.streams id) = st.remaining := by simp [h1, liveRem, h2]
  have a5 : received s' id = (s.events.map (Event.received id)).sum + p := by
    unfold received; rw [ev]; simp [Event.received]
  have a6 := g.rem
  unfold payout at hp
  split_ifs at hp with hc1
  · obtain ⟨hn, hle⟩ := hc1
    have := Nat.min_le_right maxU128 (amt + c.ed)
    right
    exact ⟨hn, by omega, by omega⟩
  · left; omega

/-- C21 (c): a cancellation gives the recipient in total exactly what has vested. -/
theorem C21_cancel_exact {c : Cfg} (hc : c.OK) {s s' : State} (h : Reach c s) {who id : Nat}
    (he : cancel c s who id = .ok s') :
    ∃ st, s.streams id = some st ∧ who = st.sender ∧ received s' id = st.vested s.now ∧
      refunded s' id = st.deposit - st.vested s.now := by
  have hi := h.inv hc
  obtain ⟨st, h1, rfl, h2, h3⟩ := cancel_pre he
  obtain ⟨s2, rb, l1, e, i, hle, hv, t1, t2, ev, _⟩ := cancel_spec hc hi h1 h2 h3
  have : Except.ok s2 = Except.ok s' := e.symm.trans he
  cases this
  refine ⟨st, h1, rfl, ?_⟩
  have g := (hi.core.good id st h1).1
  have a1 := hi.core.account id
  have a2 := hi.core.dep id st h1
  have a3 := hi.core.noRefund id st h1 h2
  have a4 : liveRem (s.streams id) = st.remaining := by simp [h1, liveRem, h2]
  have a5 : received s' id = (s.events.map (Event.received id)).sum + rb := by
    unfold received; rw [ev]; simp [Event.received]
  have a6 : refunded s' id = (s.events.map (Event.refunded id)).sum + (st.remaining - rb) := by
    unfold refunded; rw [ev]; simp [Event.refunded]
  have a7 := g.rem
  omega

example : ∃ s', withdraw exCfg ex2 8 0 300 = .ok s' ∧ received s' 0 = 300 ∧ exSt.vested ex2.now = 500 := by
  have h : okAnd (withdraw exCfg ex2 8 0 300) (fun s => received s 0 = 300) = true := by decide +kernel
  obtain ⟨s', h1, h2⟩ := okAnd_iff.1 h
  exact ⟨s', h1, by simpa using h2, by decide +kernel⟩

example : ∃ s', cancel exCfg ex2 7 0 = .ok s' ∧ received s' 0 = 500 ∧ refunded s' 0 = 500 := by
  have h : okAnd (cancel exCfg ex2 7 0) (fun s => received s 0 = 500 ∧ refunded s 0 = 500) = true := by
    decide +kernel
  obtain ⟨s', h1, h2⟩ := okAnd_iff.1 h
  exact ⟨s', h1, by simpa using h2⟩

/-! ## C22 -/

/-- C22 (a): the sender can cancel every live cancellable stream at any time; both shares are computable,
add up to the remaining balance and are paid. -/
theorem C22_cancel_succeeds {c : Cfg} (hc : c.OK) {s : State} (h : Reach c s) {id : Nat} {st : Stream}
    (hst : s.streams id = some st) (hl : st.live) (hcl : st.cancellable = true) :
    ∃ s' sb rb, cancel c s st.sender id = .ok s' ∧ st.balanceOf s.now st.sender = .ok sb ∧
      st.balanceOf s.now st.recipient = .ok rb ∧ sb + rb = st.remaining ∧
      refunded s' id = refunded s id + sb ∧ received s' id = received s id + rb := by
  have hi := h.inv hc
  obtain ⟨s', rb, l1, e, i, hle, hv, t1, t2, ev, _⟩ := cancel_spec hc hi hst hl hcl
  obtain ⟨rb', _, hrb, hsb, hle', hv'⟩ := (hi.core.good id st hst).1.settle hl
  have : rb' = rb := by omega
  subst this
  refine ⟨s', st.remaining - rb', rb', e, hsb, hrb, by omega, ?_, ?_⟩
  · unfold refunded; rw [ev]; simp [Event.refunded]
  · unfold received; rw [ev]; simp [Event.received]

/-- C22 (b): once a live stream has started the recipient can withdraw any amount up to what has vested and
was not yet withdrawn; after the end this is the whole remaining balance. -/
theorem C22_withdraw_succeeds {c : Cfg} (hc : c.OK) {s : State} (h : Reach c s) {id amt : Nat} {st : Stream}
    (hst : s.streams id = some st) (hl : st.live) (hra : st.recipient ≠ c.acct) (hs : st.start < s.now)
    (hamt : received s id + amt ≤ st.vested s.now) :
    ∃ s', withdraw c s st.recipient id amt = .ok s' := by
  have hi := h.inv hc
  have a1 := hi.core.account id
  have a2 := hi.core.dep id st hst
  have a3 := hi.core.noRefund id st hst hl
  have a4 : liveRem (s.streams id) = st.remaining := by simp [hst, liveRem, hl]
  have a5 : received s id = (s.events.map (Event.received id)).sum := rfl
  have a6 := (hi.core.good id st hst).1.rem
  obtain ⟨s', p, e, _⟩ := withdraw_spec hc hi hst hl hra hs (amount := amt) (by omega)
  exact ⟨s', e⟩

theorem C22_withdraw_all_after_end {c : Cfg} (hc : c.OK) {s : State} (h : Reach c s) {id : Nat} {st : Stream}
    (hst : s.streams id = some st) (hl : st.live) (hra : st.recipient ≠ c.acct) (hs : st.stop ≤ s.now) :
    ∃ s', withdraw c s st.recipient id st.remaining = .ok s' ∧ received s' id = st.deposit := by
  have hi := h.inv hc
  have a1 := hi.core.account id
  have a2 := hi.core.dep id st hst
  have a3 := hi.core.noRefund id st hst hl
  have a4 : liveRem (s.streams id) = st.remaining := by simp [hst, liveRem, hl]
  have a5 : received s id = (s.events.map (Event.received id)).sum := rfl
  have g := (hi.core.good id st hst).1
  have a6 := g.rem
  have a7 := g.time
  have a8 : st.vested s.now = st.deposit := by simp [Stream.vested, hs]
  obtain ⟨s', p, e, _, hp, _, _, ev, _⟩ := withdraw_spec hc hi hst hl hra (by omega) (amount := st.remaining)
    (by omega)
  refine ⟨s', e, ?_⟩
  have hpr : p = st.remaining := by rw [hp]; unfold payout; split_ifs <;> rfl
  have : received s' id = received s id + p := by unfold received; rw [ev]; simp [Event.received]
  omega

example : Reach exCfg ex2 ∧ ex2.streams 0 = some exSt ∧ exSt.live ∧ exSt.cancellable = true ∧
    exSt.start < ex2.now ∧ Reach exCfg (later ex2 100) ∧ exSt.stop ≤ (later ex2 100).now :=
  ⟨ex2_reach, ex2_stream, rfl, rfl, by decide +kernel, later_reach exCfg_ok ex2_reach 100, by decide +kernel⟩

/-! ## C23 -/

/-- C23: a call changes an existing stream only if it is a withdrawal by its recipient or a cancellation of
a cancellable stream by its sender, and then only the remaining balance and the status (or the finished
stream is archived at once); otherwise the stream is unchanged, unless it was already finished and is
archived. -/
theorem C23_only_parties {c : Cfg} (hc : c.OK) {s s' : State} (h : Reach c s) {k : Call}
    (hk : k.signerOK c) (he : exec c s k = .ok s') {id : Nat} {st : Stream} (hst : s.streams id = some st) :
    s'.streams id = some st ∨
    (¬ st.live ∧ s'.streams id = none) ∨
    (st.live ∧ (∃ amt, k = .withdraw st.recipient id amt) ∧
      (s'.streams id = none ∨ ∃ r t, s'.streams id = some { st with remaining := r, status := t })) ∨
    (st.live ∧ st.cancellable = true ∧ k = .cancel st.sender id ∧
      (s'.streams id = none ∨
        ∃ r, s'.streams id = some { st with remaining := r, status := .completed true })) := by
  have hi := h.inv hc
  cases k with
  | create sd rc d a stt sp cl =>
    obtain ⟨_, _, _, _, ho, _⟩ := create_eff hi hk (Or.inl he)
    rcases ho id st hst with e | ⟨e, e'⟩
    · exact Or.inl e
    · exact Or.inr (Or.inl ⟨e', e⟩)
  | traitCreate sd rc d a stt sp cl =>
    obtain ⟨_, _, _, _, ho, _⟩ := create_eff hi hk (Or.inr he)
    rcases ho id st hst with e | ⟨e, e'⟩
    · exact Or.inl e
    · exact Or.inr (Or.inl ⟨e', e⟩)
  | cancel who i =>
    obtain ⟨t, h1, rfl, h2, h3⟩ := cancel_pre he
    obtain ⟨s2, rb, l1, e, _, hle, hv, t1, t2, ev, hs, ho, _⟩ := cancel_spec hc hi h1 h2 h3
    have : Except.ok s2 = Except.ok s' := e.symm.trans he
    cases this
    by_cases hid : id = i
    · subst hid
      rw [hst] at h1; cases h1
      refine Or.inr (Or.inr (Or.inr ⟨h2, h3, rfl, ?_⟩))
      rcases hs with hs | hs
      · exact Or.inr ⟨_, hs⟩
      · exact Or.inl hs
    · rcases ho id st hid hst with e | ⟨e, e'⟩
      · exact Or.inl e
      · exact Or.inr (Or.inl ⟨e', e⟩)
  | withdraw who i amt =>
    obtain ⟨t, h1, rfl, h2, h3, h4⟩ := withdraw_pre hi he
    obtain ⟨s2, p, e, _, hp, hple, t1, ev, hs, ho, _⟩ := withdraw_spec hc hi h1 h2 hk h3 h4
    have : Except.ok s2 = Except.ok s' := e.symm.trans he
    cases this
    by_cases hid : id = i
    · subst hid
      rw [hst] at h1; cases h1
      refine Or.inr (Or.inr (Or.inl ⟨h2, ⟨amt, rfl⟩, ?_⟩))
      rcases hs with hs | hs
      · exact Or.inr ⟨_, _, hs⟩
      · exact Or.inl hs.1
    · rcases ho id st hid hst with e | ⟨e, e'⟩
      · exact Or.inl e
      · exact Or.inr (Or.inl ⟨e', e⟩)
  | setMin a m =>
    have : Except.ok _ = Except.ok s' := he
    cases this
    exact Or.inl hst

example : errIs (exec exCfg ex1 (.withdraw 7 0 1)) .notTheRecipient = true ∧
    errIs (exec exCfg ex1 (.cancel 8 0)) .notTheSender = true := by decide +kernel

/-! ## C24 -/

/-- C24 (a): a stream that disappears in a step was finished before, or was settled in full by that very
step: recipient and sender together have received the whole deposit. -/
theorem C24_archive_only_finished {c : Cfg} (hc : c.OK) {s s' : State} (h : Reach c s) (hs : Step c s s')
    {id : Nat} {st : Stream} (hst : s.streams id = some st) (hn : s'.streams id = none) :
    received s' id + refunded s' id = st.deposit := by
  have hi' := ((Reach.step h hs).inv hc).core
  have hi := (h.inv hc).core
  have a1 := hi'.account id
  rw [hn] at a1
  have a2 := hi.dep id st hst
  have hid : id ≠ s.next := by
    rintro rfl
    rw [(hi.fresh s.next (Nat.le_refl _)).1] at hst; cases hst
  have hd : (s'.events.map (Event.deposited id)).sum = (s.events.map (Event.deposited id)).sum := by
    cases hs with
    | env e => rw [e.events]
    | call k hk he =>
      cases k with
      | create sd rc d a stt sp cl =>
        obtain ⟨_, _, _, _, _, ev, _⟩ := create_eff (h.inv hc) hk (Or.inl he)
        rw [ev]; simp [Event.deposited, Ne.symm hid]
      | traitCreate sd rc d a stt sp cl =>
        obtain ⟨_, _, _, _, _, ev, _⟩ := create_eff (h.inv hc) hk (Or.inr he)
        rw [ev]; simp [Event.deposited, Ne.symm hid]
      | cancel who i =>
        obtain ⟨t, h1, rfl, h2, h3⟩ := cancel_pre he
        obtain ⟨s2, rb, l1, e, _, hle, hv, t1, t2, ev, _⟩ := cancel_spec hc (h.inv hc) h1 h2 h3
        have : Except.ok s2 = Except.ok s' := e.symm.trans he
        cases this
        rw [ev]; simp [Event.deposited]
      | withdraw who i amt =>
        obtain ⟨t, h1, rfl, h2, h3, h4⟩ := withdraw_pre (h.inv hc) he
        obtain ⟨s2, p, e, _, hp, hple, t1, ev, _⟩ := withdraw_spec hc (h.inv hc) h1 h2 hk h3 h4
        have : Except.ok s2 = Except.ok s' := e.symm.trans he
        cases this
        rw [ev]; simp [Event.deposited]
      | setMin a m =>
        have : Except.ok _ = Except.ok s' := he
        cases this; rfl
  simp only [liveRem] at a1
  have e1 : received s' id = (s'.events.map (Event.received id)).sum := rfl
  have e2 : refunded s' id = (s'.events.map (Event.refunded id)).sum := rfl
  omega

/-- C24 (b): library entries always refer to existing streams of the account in the right role, without
repetition, and the list of finished streams respects its limit. -/
theorem C24_library_consistent {c : Cfg} (hc : c.OK) {s : State} (h : Reach c s) (a : Nat) :
    (∀ id ∈ s.lib (a, .send), ∃ st, s.streams id = some st ∧ st.sender = a) ∧
    (∀ id ∈ s.lib (a, .receive), ∃ st, s.streams id = some st ∧ st.recipient = a) ∧
    (∀ id ∈ s.lib (a, .finish), ∃ st, s.streams id = some st ∧ ¬ st.live ∧ (st.sender = a ∨ st.recipient = a)) ∧
    (∀ k, (s.lib (a, k)).Nodup) ∧ (s.lib (a, .finish)).length ≤ c.maxFinished :=
  ⟨fun id => (h.inv hc).lib.ref a .send id, fun id => (h.inv hc).lib.ref a .receive id,
   fun id => (h.inv hc).lib.ref a .finish id, (h.inv hc).lib.nodup a, (h.inv hc).len a⟩

example : Reach exCfg ex2 ∧ ex2.lib (7, .send) = [0] ∧ ex2.lib (8, .receive) = [0] :=
  ⟨ex2_reach, by decide +kernel⟩

end Verif.Streaming
