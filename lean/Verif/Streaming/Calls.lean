import Verif.Streaming.Inv

set_option linter.unusedSimpArgs false

/-! # Streaming: effect of each call, and preservation of the invariant -/

namespace Verif.Streaming
open Verif

theorem Stream.Good.started {st : Stream} {now : Nat} (h : st.Good now) :
    ∃ d, st.deltaOf now = .ok d ∧ (d ≠ 0 ↔ st.start < now) := by
  have := h.time
  unfold Stream.deltaOf
  split_ifs with h1 h2
  · exact ⟨0, rfl, by omega⟩
  · exact ⟨now - st.start, csub_ok_iff.2 ⟨by omega, rfl⟩, by omega⟩
  · exact ⟨st.stop - st.start, csub_ok_iff.2 ⟨by omega, rfl⟩, by omega⟩

theorem Core.owed_le {c : Cfg} {l m nx now ev} (h : Core c l m nx now ev) {id : Nat} {st : Stream}
    (hst : m id = some st) (hl : st.live) : st.remaining ≤ l.bal st.asset c.acct := by
  have := (h.solvent st.asset).apply id
  simpa [hst, owed, hl] using this

/-- `cancel` succeeds on every live cancellable stream, with this effect. -/
theorem cancel_spec {c : Cfg} (hc : c.OK) {s : State} (h : Inv c s) {id : Nat} {st : Stream}
    (hst : s.streams id = some st) (hl : st.live) (hcl : st.cancellable = true) :
    ∃ s' rb l1, cancel c s st.sender id = .ok s' ∧ Inv c s' ∧ rb ≤ st.remaining ∧
      rb + (st.deposit - st.remaining) = st.vested s.now ∧
      s.ledger.transfer st.asset c.acct st.sender (st.remaining - rb) false = .ok l1 ∧
      l1.transfer st.asset c.acct st.recipient rb false = .ok s'.ledger ∧
      s'.events = s.events ++ [.cancelled id st.sender st.recipient st.asset (st.remaining - rb) rb] ∧
      (s'.streams id = some { st with remaining := st.remaining - rb, status := .completed true } ∨
        s'.streams id = none) ∧
      (∀ i t, i ≠ id → s.streams i = some t → s'.streams i = some t ∨ (s'.streams i = none ∧ ¬ t.live)) ∧
      s'.now = s.now ∧ s'.next = s.next ∧ s'.minDep = s.minDep := by
  obtain ⟨g, hsa⟩ := h.core.good id st hst
  obtain ⟨rb, _, hrb, hsb, hle, hv⟩ := g.settle hl
  have hown := h.core.owed_le hst hl
  obtain ⟨l1, t1⟩ := Ledger.transfer_succeeds (l := s.ledger) (a := st.asset) (s := c.acct) (d := st.sender)
    (m := st.remaining - rb) (k := false) (by omega) (by simp)
  have b1 := Ledger.transfer_bal t1
  have hb1 := b1 st.asset c.acct
  simp only [and_self, true_and, if_true, show ¬ c.acct = st.sender from fun e => hsa e.symm, if_false] at hb1
  obtain ⟨l2, t2⟩ := Ledger.transfer_succeeds (l := l1) (a := st.asset) (s := c.acct) (d := st.recipient)
    (m := rb) (k := false) (by omega) (by simp)
  have b2 := Ledger.transfer_bal t2
  set st' : Stream := { st with remaining := st.remaining - rb, status := .completed true } with hst'
  have hnl : ¬ st'.live := by simp [hst', Stream.live]
  have hcore := h.core.pay (st' := st') (e := .cancelled id st.sender st.recipient st.asset (st.remaining - rb) rb)
    (p := rb) (r := st.remaining - rb) hst hl (Ledger.transfer_wf t2 (Ledger.transfer_wf t1 h.core.wf))
    (by
      intro x
      have e1 := b1 x c.acct
      have e2 := b2 x c.acct
      simp only [and_true, show ¬ c.acct = st.sender from fun e => hsa e.symm, and_false, if_false] at e1 e2
      by_cases hx : x = st.asset
      · simp only [hx, true_and, if_true] at e1 e2 ⊢; omega
      · simp only [hx, false_and, if_false] at e1 e2 ⊢; omega)
    (by intro i; simp only [Event.deposited, Event.received, Event.refunded, eq_comm, true_and])
    (by simp only [liveRem, hnl, if_false]; omega) (fun e => absurd e hnl) rfl rfl
    ⟨g.parties, g.time, g.rate, g.dep, by simp only [hst']; have := g.rem; omega, fun e => absurd e hnl⟩ rfl
  have hlib : LibInv { s with ledger := l2, streams := upd s.streams id (some st') } := by
    constructor
    · intro b k x hx
      obtain ⟨t, ht, hp⟩ := h.lib.ref b k x hx
      by_cases hxi : x = id
      · subst hxi
        rw [hst] at ht; cases ht
        refine ⟨st', upd_same _ _ _, ?_⟩
        cases k
        · exact hp
        · exact hp
        · exact ⟨hnl, hp.2⟩
      · exact ⟨t, by show upd s.streams id (some st') x = _; rw [upd_of_ne _ _ hxi]; exact ht, hp⟩
    · exact h.lib.nodup
  obtain ⟨s1, s2, s3, p1, p2, p3, i3, f3, a3, n3⟩ := file_spec hc hlib h.len (id := id) (st := st')
    (upd_same _ _ _) hnl g.parties
  refine ⟨{ s3 with events := s3.events ++ [.cancelled id st.sender st.recipient st.asset (st.remaining - rb) rb] },
    rb, l1, ?_, ⟨?_, ⟨i3.ref, i3.nodup⟩, n3⟩, hle, hv, t1, ?_, ?_, ?_, ?_, f3.now, f3.next, f3.minDep⟩
  · unfold cancel
    simp only [bind_ok_iff, okOr_ok_iff, ensure_ok_iff, pure_ok_iff]
    exact ⟨st, hst, (), rfl, (), finished_iff.2 hl, (), hcl, _, hsb, _, hrb, l1, t1, l2, t2, s1, p1, s2, p2,
      s3, p3, rfl⟩
  · show Core c s3.ledger s3.streams s3.next s3.now (s3.events ++ _)
    rw [f3.ledger, f3.next, f3.now, f3.events]
    exact hcore.archive a3
  · show _ = Except.ok s3.ledger; rw [f3.ledger]; exact t2
  · show s3.events ++ _ = _; rw [f3.events]
  · rcases a3 id with e | ⟨e, _⟩
    · left; show s3.streams id = _; rw [e]; exact upd_same _ _ _
    · right; exact e
  · intro i t hi ht
    have he : ({ s with ledger := l2, streams := upd s.streams id (some st') } : State).streams i = s.streams i :=
      upd_of_ne _ _ hi
    rcases a3 i with e | ⟨e, t', ht', hn⟩
    · left; show s3.streams i = _; rw [e, he]; exact ht
    · right; rw [he, ht] at ht'; cases ht'; exact ⟨e, hn⟩

theorem cancel_pre {c : Cfg} {s s' : State} {who id : Nat} (h : cancel c s who id = .ok s') :
    ∃ st, s.streams id = some st ∧ who = st.sender ∧ st.live ∧ st.cancellable = true := by
  unfold cancel at h
  simp only [bind_ok_iff, okOr_ok_iff, ensure_ok_iff] at h
  obtain ⟨st, h1, _, h2, _, h3, _, h4, _⟩ := h
  exact ⟨st, h1, h2, finished_iff.1 h3, h4⟩

/-- `withdraw` succeeds on every live started stream for any amount up to what has vested, with this
effect. -/
theorem withdraw_spec {c : Cfg} (hc : c.OK) {s : State} (h : Inv c s) {id amount : Nat} {st : Stream}
    (hst : s.streams id = some st) (hl : st.live) (hra : st.recipient ≠ c.acct) (hstart : st.start < s.now)
    (hamt : amount + (st.deposit - st.remaining) ≤ st.vested s.now) :
    ∃ s' p, withdraw c s st.recipient id amount = .ok s' ∧ Inv c s' ∧ p = payout c st amount ∧
      p ≤ st.remaining ∧
      s.ledger.transfer st.asset c.acct st.recipient p false = .ok s'.ledger ∧
      s'.events = s.events ++ [.withdrawn id st.recipient st.asset p] ∧
      (s'.streams id = some { st with
          remaining := st.remaining - p,
          status := if st.remaining - p = 0 then .completed false else st.status } ∨
        (s'.streams id = none ∧ st.remaining = p)) ∧
      (∀ i t, i ≠ id → s.streams i = some t → s'.streams i = some t ∨ (s'.streams i = none ∧ ¬ t.live)) ∧
      s'.now = s.now ∧ s'.next = s.next ∧ s'.minDep = s.minDep := by
  obtain ⟨g, hsa⟩ := h.core.good id st hst
  obtain ⟨rb, _, hrb, hsb, hle, hv⟩ := g.settle hl
  obtain ⟨d, hd, hd0⟩ := g.started
  have hown := h.core.owed_le hst hl
  have hple : payout c st amount ≤ st.remaining := by
    unfold payout; split_ifs <;> omega
  have hpcase : payout c st amount = st.remaining ∨ payout c st amount = amount := by
    unfold payout; split_ifs <;> simp
  set p := payout c st amount with hp
  obtain ⟨l1, t1⟩ := Ledger.transfer_succeeds (l := s.ledger) (a := st.asset) (s := c.acct)
    (d := st.recipient) (m := p) (k := false) (by omega) (by simp)
  have b1 := Ledger.transfer_bal t1
  set st' : Stream := { st with
    remaining := st.remaining - p,
    status := if st.remaining - p = 0 then .completed false else st.status } with hst'
  have hlive : st'.live ↔ st.remaining - p ≠ 0 := by
    simp only [hst', Stream.live]
    have : st.status = .ongoing := hl
    split_ifs with hz <;> simp [hz, this]
  have hgood : st'.Good s.now := by
    refine ⟨g.parties, g.time, g.rate, g.dep, ?_, ?_⟩
    · show st.remaining - p ≤ st.deposit
      have := g.rem; omega
    · intro hl'
      rw [hlive] at hl'
      have e : st'.vested s.now = st.vested s.now := rfl
      rw [e]
      show st.deposit - (st.remaining - p) ≤ _
      rcases hpcase with e | e
      · omega
      · have := g.rem; omega
  have hcore := h.core.pay (st' := st') (e := .withdrawn id st.recipient st.asset p)
    (p := p) (r := 0) hst hl (Ledger.transfer_wf t1 h.core.wf)
    (by
      intro x
      have e1 := b1 x c.acct
      simp only [and_true, show ¬ c.acct = st.recipient from fun e => hra e.symm, and_false, if_false] at e1
      by_cases hx : x = st.asset
      · simp only [hx, if_true] at e1 ⊢; omega
      · simp only [hx, if_false] at e1 ⊢; omega)
    (by intro i; simp only [Event.deposited, Event.received, Event.refunded, eq_comm, true_and, ite_self])
    (by
      simp only [liveRem, hlive]
      split_ifs with hz
      · show _ = p + 0 + (st.remaining - p); omega
      · omega)
    (fun _ => rfl) rfl rfl hgood rfl
  have hlib : LibInv { s with streams := upd s.streams id (some st') } := by
    constructor
    · intro b k x hx
      obtain ⟨t, ht, hpt⟩ := h.lib.ref b k x hx
      by_cases hxi : x = id
      · subst hxi
        rw [hst] at ht; cases ht
        refine ⟨st', upd_same _ _ _, ?_⟩
        cases k
        · exact hpt
        · exact hpt
        · exact absurd hl hpt.1
      · exact ⟨t, by show upd s.streams id (some st') x = _; rw [upd_of_ne _ _ hxi]; exact ht, hpt⟩
    · exact h.lib.nodup
  have hfile : ∃ s3, fileFinished c { s with streams := upd s.streams id (some st') } st' st.recipient id = .ok s3 ∧
      LibInv s3 ∧ Frame { s with streams := upd s.streams id (some st') } s3 ∧
      Archive { s with streams := upd s.streams id (some st') } s3 ∧
      (∀ a, (s3.lib (a, .finish)).length ≤ c.maxFinished) := by
    unfold fileFinished
    by_cases hf : st'.live
    · rw [finished_iff.2 hf]
      simp only [Bool.false_eq_true, if_false]
      exact ⟨_, rfl, hlib, Frame.refl _, Archive.refl _, h.len⟩
    · have hft : st'.finished = true := by
        cases hh : st'.finished with
        | true => rfl
        | false => exact absurd (finished_iff.1 hh) hf
      obtain ⟨s1, s2, s3, p1, p2, p3, i3, f3, a3, n3⟩ := file_spec hc hlib h.len (id := id) (st := st')
        (upd_same _ _ _) hf g.parties
      rw [hft]
      simp only [if_true, bind_ok_iff]
      exact ⟨s3, ⟨s1, p1, s2, p2, p3⟩, i3, f3, a3, n3⟩
  obtain ⟨s3, p3, i3, f3, a3, n3⟩ := hfile
  refine ⟨{ s3 with ledger := l1, events := s3.events ++ [.withdrawn id st.recipient st.asset p] },
    p, ?_, ⟨?_, ⟨i3.ref, i3.nodup⟩, n3⟩, rfl, hple, t1, ?_, ?_, ?_, f3.now, f3.next, f3.minDep⟩
  · unfold withdraw
    simp only [bind_ok_iff, okOr_ok_iff, ensure_ok_iff, pure_ok_iff]
    refine ⟨st, hst, (), rfl, (), finished_iff.2 hl, d, hd, (), hd0.2 hstart, rb, hrb, (), by omega, st', ?_,
      s3, p3, l1, ?_, rfl⟩
    · unfold Stream.deduct
      simp only [bind_ok_iff, csub_ok_iff, pure_ok_iff]
      exact ⟨_, ⟨hple, rfl⟩, rfl⟩
    · rw [f3.ledger]; exact t1
  · show Core c l1 s3.streams s3.next s3.now (s3.events ++ _)
    rw [f3.next, f3.now, f3.events]
    exact hcore.archive a3
  · show s3.events ++ _ = _; rw [f3.events]
  · rcases a3 id with e | ⟨e, t, ht, hn⟩
    · left; show s3.streams id = _; rw [e]; exact upd_same _ _ _
    · right
      refine ⟨e, ?_⟩
      rw [show ({ s with streams := upd s.streams id (some st') } : State).streams id = some st' from
        upd_same _ _ _] at ht
      cases ht
      rw [hlive] at hn
      omega
  · intro i t hi ht
    have he : ({ s with streams := upd s.streams id (some st') } : State).streams i = s.streams i :=
      upd_of_ne _ _ hi
    rcases a3 i with e | ⟨e, t', ht', hn⟩
    · left; show s3.streams i = _; rw [e, he]; exact ht
    · right; rw [he, ht] at ht'; cases ht'; exact ⟨e, hn⟩

theorem withdraw_pre {c : Cfg} {s s' : State} (hi : Inv c s) {who id amount : Nat}
    (h : withdraw c s who id amount = .ok s') :
    ∃ st, s.streams id = some st ∧ who = st.recipient ∧ st.live ∧ st.start < s.now ∧
      amount + (st.deposit - st.remaining) ≤ st.vested s.now := by
  unfold withdraw at h
  simp only [bind_ok_iff, okOr_ok_iff, ensure_ok_iff] at h
  obtain ⟨st, h1, _, h2, _, h3, d, h4, _, h5, rb, h6, _, h7, _⟩ := h
  have hl := finished_iff.1 h3
  obtain ⟨g, _⟩ := hi.core.good id st h1
  obtain ⟨d', hd, hd0⟩ := g.started
  obtain ⟨rb', _, hrb, _, _, hv⟩ := g.settle hl
  rw [hd] at h4; cases h4
  rw [hrb] at h6; cases h6
  exact ⟨st, h1, h2, hl, hd0.1 h5, by omega⟩

theorem create_pre {c : Cfg} {s s' : State} {sd rc d a st sp : Nat} {cl : Bool}
    (h : create c s sd rc d a st sp cl = .ok s') : ∃ s1 s2 id,
      doCreate c s sd rc d a st sp cl = .ok (s1, id) ∧ pushLib c s1 sd id .send = .ok s2 ∧
      pushLib c s2 rc id .receive = .ok s' := by
  unfold create at h
  simp only [bind_ok_iff, okOr_ok_iff, ensure_ok_iff, Prod.exists] at h
  obtain ⟨m, _, _, _, _, _, _, _, s1, id, h1, s2, h2, h3⟩ := h
  exact ⟨s1, s2, id, h1, h2, h3⟩

theorem traitCreate_pre {c : Cfg} {s s' : State} {sd rc d a st sp : Nat} {cl : Bool}
    (h : traitCreate c s sd rc d a st sp cl = .ok s') : ∃ s1 id,
      doCreate c s sd rc d a st sp cl = .ok (s1, id) ∧ pushLib c s1 rc id .receive = .ok s' := by
  unfold traitCreate at h
  simp only [bind_ok_iff, ensure_ok_iff, Prod.exists] at h
  obtain ⟨_, _, s1, id, h1, h2⟩ := h
  exact ⟨s1, id, h1, h2⟩

/-- What both ways to create a stream do. -/
theorem create_eff {c : Cfg} {s s' : State} {sd rc d a start stop : Nat} {cl : Bool} (h : Inv c s)
    (hsa : sd ≠ c.acct) (hk : create c s sd rc d a start stop cl = .ok s' ∨
      traitCreate c s sd rc d a start stop cl = .ok s') :
    Inv c s' ∧ s'.now = s.now ∧ s'.minDep = s.minDep ∧
    (∃ rate, s'.streams s.next = some ⟨d, d, a, rate, sd, rc, start, stop, .ongoing, cl⟩) ∧
    (∀ i st, s.streams i = some st → s'.streams i = some st ∨ (s'.streams i = none ∧ ¬ st.live)) ∧
    s'.events = s.events ++ [.created s.next sd rc d a start stop] ∧
    s.ledger.transfer a sd c.acct d false = .ok s'.ledger := by
  rcases hk with hk | hk
  · obtain ⟨s1, s2, id, h1, h2, h3⟩ := create_pre hk
    obtain ⟨i1, rfl, n1, m1, ⟨rate, hst⟩, hoth, ev, tr⟩ := doCreate_inv h hsa h1
    obtain ⟨i2, f2, e2⟩ := pushLib_Inv i1 (by simp) hst (k := .send) (a := sd) rfl h2
    have hst2 := hst
    rw [← e2] at hst2
    obtain ⟨i3, f3, e3⟩ := pushLib_Inv i2 (by simp) hst2 (k := .receive) (a := rc) rfl h3
    have f := f2.trans f3
    refine ⟨i3, f.now.trans n1, f.minDep.trans m1, ⟨rate, by rw [e3, e2]; exact hst⟩, ?_, f.events.trans ev, ?_⟩
    · intro i st hi; rw [e3, e2]; exact hoth i st hi
    · rw [f.ledger]; exact tr
  · obtain ⟨s1, id, h1, h3⟩ := traitCreate_pre hk
    obtain ⟨i1, rfl, n1, m1, ⟨rate, hst⟩, hoth, ev, tr⟩ := doCreate_inv h hsa h1
    obtain ⟨i3, f, e3⟩ := pushLib_Inv i1 (by simp) hst (k := .receive) (a := rc) rfl h3
    refine ⟨i3, f.now.trans n1, f.minDep.trans m1, ⟨rate, by rw [e3]; exact hst⟩, ?_, f.events.trans ev, ?_⟩
    · intro i st hi; rw [e3]; exact hoth i st hi
    · rw [f.ledger]; exact tr

theorem Inv.call {c : Cfg} (hc : c.OK) {s s' : State} (h : Inv c s) {k : Call} (hk : k.signerOK c)
    (he : exec c s k = .ok s') : Inv c s' := by
  cases k with
  | create sd rc d a st sp cl => exact (create_eff h hk (Or.inl he)).1
  | traitCreate sd rc d a st sp cl => exact (create_eff h hk (Or.inr he)).1
  | cancel who id =>
    obtain ⟨st, h1, rfl, h2, h3⟩ := cancel_pre he
    obtain ⟨s2, _, _, e, i, _⟩ := cancel_spec hc h h1 h2 h3
    have : Except.ok s2 = Except.ok s' := e.symm.trans he
    cases this; exact i
  | withdraw who id amt =>
    obtain ⟨st, h1, rfl, h2, h3, h4⟩ := withdraw_pre h he
    obtain ⟨s2, _, e, i, _⟩ := withdraw_spec hc h h1 h2 hk h3 h4
    have : Except.ok s2 = Except.ok s' := e.symm.trans he
    cases this; exact i
  | setMin a m =>
    have : Except.ok _ = Except.ok s' := he
    cases this
    exact ⟨h.core, ⟨h.lib.ref, h.lib.nodup⟩, h.len⟩

theorem Reach.inv {c : Cfg} (hc : c.OK) {s : State} (h : Reach c s) : Inv c s := by
  induction h with
  | init l m now hw =>
    refine ⟨⟨hw, fun x => SumLe.zero _, fun id _ => ⟨rfl, rfl⟩, ?_, ?_, fun id => rfl, ?_⟩, ⟨?_, ?_⟩, ?_⟩
    all_goals simp
  | step h hs ih =>
    cases hs with
    | call k hk he => exact ih.call hc hk he
    | env e =>
      refine ⟨?_, ⟨?_, ?_⟩, ?_⟩
      · rw [e.streams, e.next, e.events]; exact ih.core.env e.wf e.acct e.time
      · rw [e.lib, e.streams]; exact ih.lib.ref
      · rw [e.lib]; exact ih.lib.nodup
      · rw [e.lib]; exact ih.len

end Verif.Streaming
