import Verif.Streaming.Props2

set_option linter.unusedSimpArgs false

/-!
# C241: the events of streaming tell what happened

`execE` is `exec` (Streaming/Model.lean) that also returns the deposited events with all their fields; `C241_same` says that
the two agree.  Events of other pallets (`pallet_assets` deposits its own for every transfer) are not modelled.
-/

namespace Verif.Streaming
open Verif

/-- `Event` (`pallets/streaming/src/lib.rs:141-172`), fields in the order of the source. -/
inductive Ann where
  | created (id sender recipient deposit asset start stop : Nat) (cancellable : Bool)
  | withdrawn (id recipient asset amount : Nat)
  | cancelled (id sender recipient asset senderAmount recipientAmount : Nat)
  | minimum (asset m : Nat)
deriving DecidableEq

/-- `cancel` with its event (`pallets/streaming/src/lib.rs:262-307`). -/
def cancelE (c : Cfg) (s : State) (who id : Nat) : R (State × List Ann) := do
  let st ← okOr (s.streams id) .invalidStreamId
  ensure (who = st.sender) .notTheSender
  ensure (st.finished = false) .hasFinished
  ensure (st.cancellable = true) .cannotBeCancelled
  let sb ← st.balanceOf s.now st.sender
  let rb ← st.balanceOf s.now st.recipient
  let l ← s.ledger.transfer st.asset c.acct who sb false
  let l ← l.transfer st.asset c.acct st.recipient rb false
  let st' := { st with remaining := sb, status := .completed true }
  let s := { s with ledger := l, streams := upd s.streams id (some st') }
  let s ← pushLib c s st.sender id .finish
  let s ← pushLib c s st.recipient id .finish
  let s ← updateFinished c s st.sender st.recipient
  pure ({ s with events := s.events ++ [.cancelled id who st.recipient st.asset sb rb] },
    [Ann.cancelled id who st.recipient st.asset sb rb])

/-- `withdraw` with its event (`pallets/streaming/src/lib.rs:318-368`): the amount paid is announced. -/
def withdrawE (c : Cfg) (s : State) (who id amount : Nat) : R (State × List Ann) := do
  let st ← okOr (s.streams id) .invalidStreamId
  ensure (who = st.recipient) .notTheRecipient
  ensure (st.finished = false) .hasFinished
  let delta ← st.deltaOf s.now
  ensure (delta ≠ 0) .notStarted
  let rb ← st.balanceOf s.now st.recipient
  ensure (amount ≤ rb) .insufficientStreamBalance
  let amt := payout c st amount
  let st' ← st.deduct amt
  let s := { s with streams := upd s.streams id (some st') }
  let s ← fileFinished c s st' who id
  let l ← s.ledger.transfer st.asset c.acct who amt false
  pure ({ s with ledger := l, events := s.events ++ [.withdrawn id who st.asset amt] }, [Ann.withdrawn id st.recipient st.asset amt])

/-- Dispatch of a call, with the events it deposits.  `do_create` (`pallets/streaming/src/lib.rs:538-540`) announces the id it has
just taken from the counter and the constant `true` for "cancellable"; `set_minimum_deposit` (`lib.rs:387`) its arguments. -/
def execE (c : Cfg) (s : State) : Call → R (State × List Ann)
  | .create sd rc d a st sp cl => do
    let s' ← create c s sd rc d a st sp cl
    pure (s', [Ann.created s.next sd rc d a st sp true])
  | .traitCreate sd rc d a st sp cl => do
    let s' ← traitCreate c s sd rc d a st sp cl
    pure (s', [Ann.created s.next sd rc d a st sp true])
  | .cancel who id => cancelE c s who id
  | .withdraw who id amt => withdrawE c s who id amt
  | .setMin a m => do
    let s' ← setMin s a m
    pure (s', [Ann.minimum a m])

/-! ## Specification -/

/-- What an observer notes down about a stream. -/
structure Line where
  sender : Nat
  recipient : Nat
  asset : Nat
  deposit : Nat
  start : Nat
  stop : Nat
  cancellable : Bool
  remaining : Nat
  done : Bool

/-- The observer's notes: the streams, and the minimum deposits. -/
structure Notes where
  lines : Nat → Option Line
  minDep : Nat → Option Nat

/-- An observer who sees only the events, and takes them at their word. -/
def Notes.see (n : Notes) : Ann → Notes
  | .created id sd rc d a st sp cl => { n with lines := upd n.lines id (some ⟨sd, rc, a, d, st, sp, cl, d, false⟩) }
  | .withdrawn id _ _ m => { n with lines := upd n.lines id ((n.lines id).map (fun g =>
      { g with remaining := g.remaining - m, done := g.done || decide (g.remaining - m = 0) })) }
  | .cancelled id _ _ _ sb _ => { n with lines := upd n.lines id ((n.lines id).map (fun g =>
      { g with remaining := sb, done := true })) }
  | .minimum a m => { n with minDep := upd n.minDep a (some m) }

/-- The notes after a list of events, by somebody who knows the minimum deposits at the start. -/
def Notes.after (m : Nat → Option Nat) (es : List Ann) : Notes := es.foldl Notes.see ⟨fun _ => none, m⟩

/-- A line is right about a stored stream, in all but the question whether it can be cancelled. -/
structure Line.Right (g : Line) (st : Stream) : Prop where
  sender : st.sender = g.sender
  recipient : st.recipient = g.recipient
  asset : st.asset = g.asset
  deposit : st.deposit = g.deposit
  start : st.start = g.start
  stop : st.stop = g.stop
  remaining : st.remaining = g.remaining
  done : st.live ↔ g.done = false

/-- The notes are right in a state: every stored stream has a right line; every stream that the notes say is not over is
stored; and streams are numbered from 0 in the order of their creation. -/
structure Notes.Good (n : Notes) (s : State) : Prop where
  stored : ∀ id st, s.streams id = some st → ∃ g, n.lines id = some g ∧ g.Right st
  live : ∀ id g, n.lines id = some g → g.done = false → (s.streams id).isSome
  count : ∀ id, (n.lines id).isSome ↔ id < s.next
  minDep : n.minDep = s.minDep

/-- Histories with the events of all calls, in order; `m` are the minimum deposits at the start. -/
inductive Told (c : Cfg) (m : Nat → Option Nat) : State → List Ann → Prop
  | init (l : Ledger) (now : Nat) (hw : l.WF) : Told c m ⟨l, fun _ => none, 0, fun _ => [], m, now, []⟩ []
  | call {s s' : State} {es fs : List Ann} (h : Told c m s es) (x : Call) (hk : x.signerOK c)
      (hx : execE c s x = .ok (s', fs)) : Told c m s' (es ++ fs)
  | env {s s' : State} {es : List Ann} (h : Told c m s es) (e : Env c s s') : Told c m s' es

/-- How much of asset `x` an event says `w` has paid. -/
def Ann.paid (x w : Nat) : Ann → Nat
  | .created _ sd _ d a _ _ _ => if w = sd ∧ x = a then d else 0
  | _ => 0

/-- How much of asset `x` an event says `w` has received. -/
def Ann.got (x w : Nat) : Ann → Nat
  | .withdrawn _ rc a m => if w = rc ∧ x = a then m else 0
  | .cancelled _ sd rc a sb rb => (if w = sd ∧ x = a then sb else 0) + (if w = rc ∧ x = a then rb else 0)
  | _ => 0

/-- What else an event says: `s` is the state before the call. -/
def Ann.holds (s : State) : Ann → Prop
  | .created id _ _ _ _ _ _ _ => s.streams id = none ∧ id = s.next
  | .withdrawn id rc a m => ∃ st, s.streams id = some st ∧ rc = st.recipient ∧ a = st.asset ∧ st.live ∧ m ≤ st.remaining
  | .cancelled id sd rc a sb rb => ∃ st, s.streams id = some st ∧ sd = st.sender ∧ rc = st.recipient ∧ a = st.asset ∧ st.live ∧
      st.cancellable = true ∧ sb + rb = st.remaining ∧ rb + (st.deposit - st.remaining) = st.vested s.now
  | .minimum _ _ => True

/-- The stream an event is about. -/
def Ann.stream : Ann → Option Nat
  | .created id _ _ _ _ _ _ _ => some id
  | .withdrawn id _ _ _ => some id
  | .cancelled id _ _ _ _ _ => some id
  | .minimum _ _ => none

/-! ## Proofs -/

theorem map_fst_pure {α : Type} (x : R α) (es : List Ann) : Prod.fst <$> (do let s ← x; pure (s, es)) = x := by
  cases x <;> rfl

/-- **C241** (same) The events are additional: acceptance, errors and the new state are those of `exec`. -/
theorem C241_same (c : Cfg) (s : State) (x : Call) : Prod.fst <$> execE c s x = exec c s x := by
  cases x with
  | cancel who id => simp only [execE, exec, cancelE, cancel, map_bind, map_pure]
  | withdraw who id amt => simp only [execE, exec, withdrawE, withdraw, map_bind, map_pure]
  | _ => exact map_fst_pure _ _

/-- The event log of the model (used by C20) records the same amounts. -/
def Ann.logged : Ann → List Event
  | .created id sd rc d a st sp _ => [.created id sd rc d a st sp]
  | .withdrawn id rc a m => [.withdrawn id rc a m]
  | .cancelled id sd rc a sb rb => [.cancelled id sd rc a sb rb]
  | .minimum _ _ => []

theorem Told.reach {c : Cfg} {m : Nat → Option Nat} {s : State} {es : List Ann} (h : Told c m s es) : Reach c s := by
  induction h with
  | init l now hw => exact .init l m now hw
  | call h x hk hx ih => exact .step ih (.call x hk (by rw [← C241_same, hx]; rfl))
  | env h e ih => exact .step ih (.env e)

/-- A call with its event: what it does, and what it announces. -/
theorem execE_cases {c : Cfg} (hc : c.OK) {s s' : State} (hr : Reach c s) {x : Call} (hk : x.signerOK c) {es : List Ann}
    (h : execE c s x = .ok (s', es)) :
    exec c s x = .ok s' ∧ ∃ e, es = [e] ∧ s'.events = s.events ++ e.logged ∧
      match x with
      | .create sd rc d a st sp _ => e = .created s.next sd rc d a st sp true
      | .traitCreate sd rc d a st sp _ => e = .created s.next sd rc d a st sp true
      | .cancel who id => ∃ rc a sb rb, e = .cancelled id who rc a sb rb
      | .withdraw who id _ => ∃ a m, e = .withdrawn id who a m
      | .setMin a m => e = .minimum a m := by
  have hs : exec c s x = .ok s' := by rw [← C241_same, h]; rfl
  have hi := hr.inv hc
  refine ⟨hs, ?_⟩
  cases x with
  | create sd rc d a st sp cl =>
    obtain ⟨_, _, _, _, _, ev, tr⟩ := create_eff hi hk (Or.inl hs)
    simp only [execE, bind_ok_iff, pure_ok_iff, Prod.mk.injEq] at h
    obtain ⟨t, ht, rfl, rfl⟩ := h
    exact ⟨_, rfl, ev, rfl⟩
  | traitCreate sd rc d a st sp cl =>
    obtain ⟨_, _, _, _, _, ev, tr⟩ := create_eff hi hk (Or.inr hs)
    simp only [execE, bind_ok_iff, pure_ok_iff, Prod.mk.injEq] at h
    obtain ⟨t, ht, rfl, rfl⟩ := h
    exact ⟨_, rfl, ev, rfl⟩
  | cancel who id =>
    have h' := h
    simp only [execE, cancelE, bind_ok_iff, okOr_ok_iff, ensure_ok_iff, pure_ok_iff, Prod.mk.injEq, exists_const] at h
    obtain ⟨st, hst, h1, h2, h3, sb, hsb, rb, hrb, l1, t1, l2, t2, s1, e1, s2, e2, s3, e3, rfl, rfl⟩ := h
    obtain ⟨st0, g1, g2, g3, g4⟩ := cancel_pre (hs : cancel c s who id = _)
    rw [hst] at g1; cases g1
    subst g2
    obtain ⟨s4, rb', l1', e, -, -, -, -, -, ev, -⟩ := cancel_spec hc hi hst g3 g4
    have e4 : Except.ok s4 = Except.ok _ := e.symm.trans hs
    cases e4
    refine ⟨_, rfl, ?_, _, _, _, _, rfl⟩
    have f1 := (pushLib_frame e1).1
    have f2 := (pushLib_frame e2).1
    have := ev
    obtain ⟨q, hq⟩ : ∃ q, s3.events = q := ⟨_, rfl⟩
    simp only [hq] at ev ⊢
    have hl : q.length = s.events.length := by
      have := congrArg List.length ev
      simpa using this
    have := List.append_inj ev hl
    rw [this.1]; rfl
  | withdraw who id amt =>
    simp only [execE, withdrawE, bind_ok_iff, okOr_ok_iff, ensure_ok_iff, pure_ok_iff, Prod.mk.injEq, exists_const] at h
    obtain ⟨st, hst, h1, h2, dl, h3, h4, rb, h5, h6, st', h7, s1, e1, l, t1, rfl, rfl⟩ := h
    obtain ⟨st0, g1, g2, g3, g4, g5⟩ := withdraw_pre hi (hs : withdraw c s who id amt = _)
    rw [hst] at g1; cases g1
    subst g2
    obtain ⟨s4, p, e, -, -, -, -, ev, -⟩ := withdraw_spec hc hi hst g3 hk g4 g5
    have e4 : Except.ok s4 = Except.ok _ := e.symm.trans hs
    cases e4
    refine ⟨_, rfl, ?_, _, _, rfl⟩
    obtain ⟨q, hq⟩ : ∃ q, s1.events = q := ⟨_, rfl⟩
    simp only [hq] at ev ⊢
    have hl : q.length = s.events.length := by
      have := congrArg List.length ev
      simpa using this
    have := List.append_inj ev hl
    rw [this.1]; rfl
  | setMin a m =>
    simp only [execE, bind_ok_iff, pure_ok_iff, Prod.mk.injEq] at h
    obtain ⟨t, ht, rfl, rfl⟩ := h
    have : Except.ok _ = Except.ok t := ht
    cases this
    exact ⟨_, rfl, (List.append_nil _).symm, rfl⟩

theorem next_mono {c : Cfg} (hc : c.OK) {s s' : State} (hr : Reach c s) {x : Call} (hk : x.signerOK c) (hs : exec c s x = .ok s') :
    s'.next = s.next + (match x with | .create .. => 1 | .traitCreate .. => 1 | _ => 0) := by
  have hi := hr.inv hc
  cases x with
  | create sd rc d a st sp cl => exact (C86_create_exact hc hr hk (Or.inl hs)).2.1
  | traitCreate sd rc d a st sp cl => exact (C86_create_exact hc hr hk (Or.inr hs)).2.1
  | cancel who id =>
    obtain ⟨st0, g1, rfl, g3, g4⟩ := cancel_pre (hs : cancel c s who id = _)
    obtain ⟨s4, rb', l1', e, -, -, -, -, -, -, -, -, -, hn, -⟩ := cancel_spec hc hi g1 g3 g4
    have e4 : Except.ok s4 = Except.ok _ := e.symm.trans hs
    cases e4
    exact hn
  | withdraw who id amt =>
    obtain ⟨st0, g1, rfl, g3, g4, g5⟩ := withdraw_pre hi (hs : withdraw c s who id amt = _)
    obtain ⟨s4, p, e, -, -, -, -, -, -, -, -, hn, -⟩ := withdraw_spec hc hi g1 g3 hk g4 g5
    have e4 : Except.ok s4 = Except.ok _ := e.symm.trans hs
    cases e4
    exact hn
  | setMin a m =>
    have : Except.ok _ = Except.ok s' := hs
    cases this
    rfl

theorem popFinished_none {c : Cfg} {s s' : State} {a : Nat} (h : popFinished c s a = .ok s') (i : Nat) :
    s'.streams i = s.streams i ∨ s'.streams i = none := by
  unfold popFinished at h
  dsimp only at h
  split_ifs at h
  · cases h; exact .inl rfl
  · split at h
    · cases h; exact .inl rfl
    · rename_i id hq
      simp only [bind_ok_iff, okOr_ok_iff, pure_ok_iff] at h
      obtain ⟨st, _, rfl⟩ := h
      by_cases e : i = id
      · right; show upd s.streams id none i = none; rw [e]; exact upd_same _ _ _
      · left; exact upd_of_ne _ _ e

theorem updateFinished_none {c : Cfg} {s s' : State} {a b : Nat} (h : updateFinished c s a b = .ok s') (i : Nat) :
    s'.streams i = s.streams i ∨ s'.streams i = none := by
  unfold updateFinished at h
  simp only [bind_ok_iff] at h
  obtain ⟨s1, h1, h2⟩ := h
  rcases popFinished_none h2 i with e | e
  · rw [e]; exact popFinished_none h1 i
  · exact .inr e

/-- A stream stored after a call was stored before, or is the new one. -/
theorem stored_before {c : Cfg} {s s' : State} {x : Call} (hs : exec c s x = .ok s') {i : Nat} {t : Stream}
    (h : s'.streams i = some t) : (s.streams i).isSome ∨ i = s.next := by
  have hdo : ∀ {s1 : State} {id sd rc d a st sp : Nat} {cl : Bool}, doCreate c s sd rc d a st sp cl = .ok (s1, id) →
      s1.streams i = some t → (s.streams i).isSome ∨ i = s.next := by
    intro s1 id sd rc d a st sp cl h1 ht
    unfold doCreate at h1
    simp only [bind_ok_iff, ensure_ok_iff, cadd_ok_iff, pure_ok_iff, Prod.mk.injEq] at h1
    obtain ⟨_, _, dur, _, rate, _, _, _, l, _, nx, ⟨_, rfl⟩, s2, hu, rfl, rfl⟩ := h1
    by_cases e : i = s.next
    · exact .inr e
    · left
      rcases updateFinished_none hu i with q | q
      · replace q := q.trans (upd_of_ne _ _ e)
        rw [← q]
        exact Option.isSome_iff_exists.2 ⟨t, ht⟩
      · rw [show s2.streams i = some t from ht] at q; cases q
  cases x with
  | create sd rc d a st sp cl =>
    obtain ⟨s1, s2, id, h1, h2, h3⟩ := create_pre hs
    exact hdo h1 (by rw [← (pushLib_frame h2).2, ← (pushLib_frame h3).2]; exact h)
  | traitCreate sd rc d a st sp cl =>
    obtain ⟨s1, id, h1, h3⟩ := traitCreate_pre hs
    exact hdo h1 (by rw [← (pushLib_frame h3).2]; exact h)
  | cancel who id =>
    left
    simp only [exec, cancel, bind_ok_iff, okOr_ok_iff, ensure_ok_iff, pure_ok_iff, exists_const] at hs
    obtain ⟨st, hst, h1, h2, h3, sb, hsb, rb, hrb, l1, t1, l2, t2, s1, e1, s2, e2, s3, e3, rfl⟩ := hs
    by_cases e : i = id
    · subst e; rw [hst]; rfl
    · rcases updateFinished_none e3 i with q | q
      · rw [(pushLib_frame e2).2, (pushLib_frame e1).2] at q
        replace q := q.trans (upd_of_ne _ _ e)
        rw [← q]
        exact Option.isSome_iff_exists.2 ⟨t, h⟩
      · rw [show s3.streams i = some t from h] at q; cases q
  | withdraw who id amt =>
    left
    simp only [exec, withdraw, bind_ok_iff, okOr_ok_iff, ensure_ok_iff, pure_ok_iff, exists_const] at hs
    obtain ⟨st, hst, h1, h2, dl, h3, h4, rb, h5, h6, st', h7, s1, e1, l, t1, rfl⟩ := hs
    by_cases e : i = id
    · subst e; rw [hst]; rfl
    · unfold fileFinished at e1
      split_ifs at e1
      · simp only [bind_ok_iff] at e1
        obtain ⟨s2, p1, s3, p2, p3⟩ := e1
        rcases updateFinished_none p3 i with q | q
        · rw [(pushLib_frame p2).2, (pushLib_frame p1).2] at q
          replace q := q.trans (upd_of_ne _ _ e)
          rw [← q]
          exact Option.isSome_iff_exists.2 ⟨t, h⟩
        · rw [show s1.streams i = some t from h] at q; cases q
      · cases e1
        rw [← (upd_of_ne s.streams (some st') e)]
        exact Option.isSome_iff_exists.2 ⟨t, h⟩
  | setMin a m =>
    have : Except.ok _ = Except.ok s' := hs
    cases this
    exact .inl (Option.isSome_iff_exists.2 ⟨t, h⟩)

/-- Streams that a call does not name stay as they are, unless they are over and disappear. -/
def Others (s s' : State) (id : Nat) : Prop :=
  ∀ i t, i ≠ id → s.streams i = some t → s'.streams i = some t ∨ (s'.streams i = none ∧ ¬ t.live)

/-- The notes after the line of one stream has been rewritten. -/
theorem Notes.Good.line {n : Notes} {s s' : State} (h : n.Good s) {id : Nat} {o : Option Line}
    (ho : Others s s' id)
    (hb : ∀ i t, i ≠ id → s'.streams i = some t → (s.streams i).isSome)
    (hst : ∀ st, s'.streams id = some st → ∃ g, o = some g ∧ g.Right st)
    (hlv : ∀ g, o = some g → g.done = false → (s'.streams id).isSome)
    (hcnt : ∀ i, (upd n.lines id o i).isSome ↔ i < s'.next) (hm : s'.minDep = s.minDep) :
    ({ n with lines := upd n.lines id o } : Notes).Good s' := by
  constructor
  · intro i t ht
    by_cases e : i = id
    · subst e
      obtain ⟨g, hg, r⟩ := hst t ht
      exact ⟨g, by rw [← hg]; exact upd_same _ _ _, r⟩
    · obtain ⟨t0, ht0⟩ := Option.isSome_iff_exists.1 (hb i t e ht)
      obtain ⟨g, hg, r⟩ := h.stored i t0 ht0
      have : t = t0 := by
        rcases ho i t0 e ht0 with q | ⟨q, _⟩
        · rw [ht] at q; exact Option.some.inj q
        · rw [ht] at q; cases q
      exact ⟨g, by rw [← hg]; exact upd_of_ne _ _ e, this ▸ r⟩
  · intro i g hg hd
    by_cases e : i = id
    · subst e
      exact hlv g (by rw [← hg]; exact (upd_same _ _ _).symm) hd
    · have hg : n.lines i = some g := by rw [← hg]; exact (upd_of_ne _ _ e).symm
      obtain ⟨t0, ht0⟩ := Option.isSome_iff_exists.1 (h.live i g hg hd)
      obtain ⟨g', hg', r⟩ := h.stored i t0 ht0
      rw [hg] at hg'
      cases hg'
      rcases ho i t0 e ht0 with q | ⟨_, q⟩
      · rw [q]; rfl
      · exact absurd (r.done.2 hd) q
  · exact hcnt
  · rw [hm]; exact h.minDep

theorem create_good {c : Cfg} (hc : c.OK) {s s' : State} (hr : Reach c s) {n : Notes} (hn : n.Good s)
    {sd rc d a st sp : Nat} {cl b : Bool} (hsa : sd ≠ c.acct) (hnx : s'.next = s.next + 1)
    (hs : create c s sd rc d a st sp cl = .ok s' ∨ traitCreate c s sd rc d a st sp cl = .ok s') :
    (n.see (.created s.next sd rc d a st sp b)).Good s' := by
  have hi := hr.inv hc
  obtain ⟨-, -, hm, ⟨rate, hst⟩, hoth, -, -⟩ := create_eff hi hsa hs
  refine hn.line (o := some ⟨sd, rc, a, d, st, sp, b, d, false⟩) (fun i t _ ht => hoth i t ht) ?_ ?_ ?_ ?_ hm
  · intro i t hne ht
    rcases hs with hs | hs
    · exact (stored_before (x := .create sd rc d a st sp cl) hs ht).resolve_right hne
    · exact (stored_before (x := .traitCreate sd rc d a st sp cl) hs ht).resolve_right hne
  · intro t ht
    rw [hst] at ht
    cases ht
    exact ⟨_, rfl, rfl, rfl, rfl, rfl, rfl, rfl, rfl, by simp [Stream.live]⟩
  · intro g _ _; rw [hst]; rfl
  · intro i
    by_cases e : i = s.next
    · subst e; rw [upd_same, hnx]; simp
    · rw [upd_of_ne _ _ e, hn.count, hnx]; omega

theorem execE_good {c : Cfg} (hc : c.OK) {s s' : State} (hr : Reach c s) {x : Call} (hk : x.signerOK c) {es : List Ann}
    {n : Notes} (hn : n.Good s) (h : execE c s x = .ok (s', es)) : (es.foldl Notes.see n).Good s' := by
  have hi := hr.inv hc
  obtain ⟨hs, e, rfl, ev, hx⟩ := execE_cases hc hr hk h
  have hnx := next_mono hc hr hk hs
  have hsb := fun i t ht => stored_before (x := x) hs (i := i) (t := t) ht
  have hi' := (Reach.step hr (.call x hk hs)).inv hc
  rw [List.foldl_cons, List.foldl_nil]
  cases x with
  | create sd rc d a st sp cl =>
    dsimp only at hx; subst hx
    exact create_good hc hr hn hk hnx (.inl hs)
  | traitCreate sd rc d a st sp cl =>
    dsimp only at hx; subst hx
    exact create_good hc hr hn hk hnx (.inr hs)
  | cancel who id =>
    obtain ⟨rc, a, sb, rb, rfl⟩ := hx
    obtain ⟨st0, g1, rfl, g3, g4⟩ := cancel_pre (hs : cancel c s who id = _)
    obtain ⟨s4, rb', l1', e, -, hle, hv, -, -, ev', hst, hoth, -, hn4, hm⟩ := cancel_spec hc hi g1 g3 g4
    have e4 : Except.ok s4 = Except.ok _ := e.symm.trans hs
    cases e4
    rw [ev'] at ev
    have ev := List.append_cancel_left ev
    simp only [Ann.logged, List.cons.injEq, Event.cancelled.injEq, and_true, true_and] at ev
    obtain ⟨rfl, rfl, rfl, rfl⟩ := ev
    obtain ⟨g, hg, r⟩ := hn.stored id st0 g1
    have hlt := (hn.count id).1 (by rw [hg]; rfl)
    refine hn.line (o := (n.lines id).map _) hoth (fun i t hne ht => (hsb i t ht).elim (fun q => q) (fun e => ?_)) ?_ ?_ ?_ hm
    · exfalso
      have := (hi'.core.fresh i (by omega)).1
      rw [ht] at this; cases this
    · intro t ht
      rw [hg]
      rcases hst with q | q
      · rw [ht] at q; cases q
        exact ⟨_, rfl, r.sender, r.recipient, r.asset, r.deposit, r.start, r.stop, rfl, by simp [Stream.live]⟩
      · rw [ht] at q; cases q
    · intro g' hg' hd
      rw [hg] at hg'
      cases hg'
      cases hd
    · intro i
      by_cases e : i = id
      · subst e; rw [upd_same, hg, hn4]; simpa using hlt
      · rw [upd_of_ne _ _ e, hn.count, hn4]
  | withdraw who id amt =>
    obtain ⟨a, m, rfl⟩ := hx
    obtain ⟨st0, g1, rfl, g3, g4, g5⟩ := withdraw_pre hi (hs : withdraw c s who id amt = _)
    obtain ⟨s4, p, e, -, hp, hple, -, ev', hst, hoth, -, hn4, hm⟩ := withdraw_spec hc hi g1 g3 hk g4 g5
    have e4 : Except.ok s4 = Except.ok _ := e.symm.trans hs
    cases e4
    rw [ev'] at ev
    have ev := List.append_cancel_left ev
    simp only [Ann.logged, List.cons.injEq, Event.withdrawn.injEq, and_true, true_and] at ev
    obtain ⟨rfl, rfl⟩ := ev
    obtain ⟨g, hg, r⟩ := hn.stored id st0 g1
    have hgd : g.done = false := r.done.1 g3
    have hlt := (hn.count id).1 (by rw [hg]; rfl)
    refine hn.line (o := (n.lines id).map _) hoth (fun i t hne ht => (hsb i t ht).elim (fun q => q) (fun e => ?_)) ?_ ?_ ?_ hm
    · exfalso
      have := (hi'.core.fresh i (by omega)).1
      rw [ht] at this; cases this
    · intro t ht
      rw [hg]
      rcases hst with q | ⟨q, _⟩
      · rw [ht] at q; cases q
        refine ⟨_, rfl, r.sender, r.recipient, r.asset, r.deposit, r.start, r.stop, by show _ = _ - p; rw [← r.remaining], ?_⟩
        show Stream.live _ ↔ (g.done || decide (g.remaining - p = 0)) = false
        rw [hgd, ← r.remaining]
        by_cases z : st0.remaining - p = 0
        · simp [Stream.live, z]
        · simp only [Stream.live, z, if_false, decide_false, Bool.or_false]
          exact iff_of_true g3 trivial
      · rw [ht] at q; cases q
    · intro g' hg' hd
      rw [hg] at hg'
      cases hg'
      rcases hst with q | ⟨_, q⟩
      · rw [q]; rfl
      · exfalso
        replace hd : (g.done || decide (g.remaining - p = 0)) = false := hd
        rw [← r.remaining, q] at hd
        simp at hd
    · intro i
      by_cases e : i = id
      · subst e; rw [upd_same, hg, hn4]; simpa using hlt
      · rw [upd_of_ne _ _ e, hn.count, hn4]
  | setMin a m =>
    dsimp only at hx; subst hx
    have : Except.ok _ = Except.ok s' := hs
    cases this
    exact ⟨hn.stored, hn.live, hn.count, by show upd n.minDep a _ = upd s.minDep a _; rw [hn.minDep]⟩

/-- **C241** (notes) Whoever has read all events since the start knows every stream that is stored: parties, asset, deposit,
schedule, what remains, and whether it is over; that every stream noted as running is stored; how many streams there have
been; and the minimum deposits. -/
theorem C241_notes {c : Cfg} (hc : c.OK) {m : Nat → Option Nat} {s : State} {es : List Ann} (h : Told c m s es) :
    (Notes.after m es).Good s := by
  induction h with
  | init l now hw => exact ⟨fun _ _ h => (by cases h), fun _ _ h _ => (by cases h), fun i => (by simp [Notes.after]), rfl⟩
  | call h x hk hx ih =>
    have := execE_good hc h.reach hk ih hx
    unfold Notes.after
    rw [List.foldl_append]
    exact this
  | env h e ih =>
    exact ⟨by rw [e.streams]; exact ih.stored, by rw [e.streams]; exact ih.live, by rw [e.next]; exact ih.count,
      by rw [e.minDep]; exact ih.minDep⟩

/-- **C241** (amounts) The events of a call say exactly what everybody but the pallet has paid and received in every asset. -/
theorem C241_amounts {c : Cfg} (hc : c.OK) {s s' : State} (hr : Reach c s) {x : Call} (hk : x.signerOK c) {es : List Ann}
    (h : execE c s x = .ok (s', es)) (a w : Nat) (hw : w ≠ c.acct) :
    s'.ledger.bal a w + (es.map (Ann.paid a w)).sum = s.ledger.bal a w + (es.map (Ann.got a w)).sum := by
  have hi := hr.inv hc
  obtain ⟨hs, e, rfl, ev, hx⟩ := execE_cases hc hr hk h
  simp only [List.map_cons, List.map_nil, List.sum_cons, List.sum_nil, Nat.add_zero]
  have hcr : ∀ {sd rc d b st sp : Nat} {cl : Bool}, sd ≠ c.acct →
      (create c s sd rc d b st sp cl = .ok s' ∨ traitCreate c s sd rc d b st sp cl = .ok s') →
      s'.ledger.bal a w + (if w = sd ∧ a = b then d else 0) = s.ledger.bal a w := by
    intro sd rc d b st sp cl hsa hs
    obtain ⟨-, -, -, -, -, -, tr⟩ := create_eff hi hsa hs
    have := Ledger.transfer_bal tr a w
    rw [if_neg (show ¬ (a = b ∧ w = c.acct) from fun q => hw q.2)] at this
    simp only [and_comm] at this ⊢
    exact this
  cases x with
  | create sd rc d b st sp cl => dsimp only at hx; subst hx; exact hcr hk (.inl hs)
  | traitCreate sd rc d b st sp cl => dsimp only at hx; subst hx; exact hcr hk (.inr hs)
  | cancel who id =>
    obtain ⟨rc, b, sb, rb, rfl⟩ := hx
    obtain ⟨st0, g1, rfl, g3, g4⟩ := cancel_pre (hs : cancel c s who id = _)
    obtain ⟨s4, rb', l1', e, -, hle, hv, t1, t2, ev', -⟩ := cancel_spec hc hi g1 g3 g4
    have e4 : Except.ok s4 = Except.ok _ := e.symm.trans hs
    cases e4
    rw [ev'] at ev
    have ev := List.append_cancel_left ev
    simp only [Ann.logged, List.cons.injEq, Event.cancelled.injEq, and_true, true_and] at ev
    obtain ⟨rfl, rfl, rfl, rfl⟩ := ev
    have b1 := Ledger.transfer_bal t1 a w
    have b2 := Ledger.transfer_bal t2 a w
    rw [if_neg (fun q => hw q.2)] at b1 b2
    simp only [Ann.paid, Ann.got, and_comm] at b1 b2 ⊢
    omega
  | withdraw who id amt =>
    obtain ⟨b, m, rfl⟩ := hx
    obtain ⟨st0, g1, rfl, g3, g4, g5⟩ := withdraw_pre hi (hs : withdraw c s who id amt = _)
    obtain ⟨s4, p, e, -, -, -, t1, ev', -⟩ := withdraw_spec hc hi g1 g3 hk g4 g5
    have e4 : Except.ok s4 = Except.ok _ := e.symm.trans hs
    cases e4
    rw [ev'] at ev
    have ev := List.append_cancel_left ev
    simp only [Ann.logged, List.cons.injEq, Event.withdrawn.injEq, and_true, true_and] at ev
    obtain ⟨rfl, rfl⟩ := ev
    have b1 := Ledger.transfer_bal t1 a w
    rw [if_neg (fun q => hw q.2)] at b1
    simp only [Ann.paid, Ann.got, and_comm] at b1 ⊢
    omega
  | setMin b m =>
    dsimp only at hx; subst hx
    have : Except.ok _ = Except.ok s' := hs
    cases this
    rfl

/-- **C241** (facts) A call that goes through deposits one event; what it says is true of the state before the call; and
streams it does not name are unchanged, or were over already and are dropped from storage. -/
theorem C241_facts {c : Cfg} (hc : c.OK) {s s' : State} (hr : Reach c s) {x : Call} (hk : x.signerOK c) {es : List Ann}
    (h : execE c s x = .ok (s', es)) :
    ∃ e, es = [e] ∧ e.holds s ∧
      ∀ i st, e.stream ≠ some i → s.streams i = some st → s'.streams i = some st ∨ (s'.streams i = none ∧ ¬ st.live) := by
  have hi := hr.inv hc
  obtain ⟨hs, e, rfl, ev, hx⟩ := execE_cases hc hr hk h
  refine ⟨e, rfl, ?_⟩
  cases x with
  | create sd rc d b st sp cl =>
    dsimp only at hx; subst hx
    obtain ⟨-, -, -, -, hoth, -⟩ := create_eff hi hk (.inl hs)
    exact ⟨⟨(hi.core.fresh _ (le_refl _)).1, rfl⟩, fun i st _ hst => hoth i st hst⟩
  | traitCreate sd rc d b st sp cl =>
    dsimp only at hx; subst hx
    obtain ⟨-, -, -, -, hoth, -⟩ := create_eff hi hk (.inr hs)
    exact ⟨⟨(hi.core.fresh _ (le_refl _)).1, rfl⟩, fun i st _ hst => hoth i st hst⟩
  | cancel who id =>
    obtain ⟨rc, b, sb, rb, rfl⟩ := hx
    obtain ⟨st0, g1, rfl, g3, g4⟩ := cancel_pre (hs : cancel c s who id = _)
    obtain ⟨s4, rb', l1', e, -, hle, hv, t1, t2, ev', -, hoth, -⟩ := cancel_spec hc hi g1 g3 g4
    have e4 : Except.ok s4 = Except.ok _ := e.symm.trans hs
    cases e4
    rw [ev'] at ev
    have ev := List.append_cancel_left ev
    simp only [Ann.logged, List.cons.injEq, Event.cancelled.injEq, and_true, true_and] at ev
    obtain ⟨rfl, rfl, rfl, rfl⟩ := ev
    exact ⟨⟨st0, g1, rfl, rfl, rfl, g3, g4, by omega, hv⟩,
      fun i st hne hst => hoth i st (fun q => hne (by rw [q]; rfl)) hst⟩
  | withdraw who id amt =>
    obtain ⟨b, m, rfl⟩ := hx
    obtain ⟨st0, g1, rfl, g3, g4, g5⟩ := withdraw_pre hi (hs : withdraw c s who id amt = _)
    obtain ⟨s4, p, e, -, -, hple, t1, ev', -, hoth, -⟩ := withdraw_spec hc hi g1 g3 hk g4 g5
    have e4 : Except.ok s4 = Except.ok _ := e.symm.trans hs
    cases e4
    rw [ev'] at ev
    have ev := List.append_cancel_left ev
    simp only [Ann.logged, List.cons.injEq, Event.withdrawn.injEq, and_true, true_and] at ev
    obtain ⟨rfl, rfl⟩ := ev
    exact ⟨⟨st0, g1, rfl, rfl, g3, hple⟩,
      fun i st hne hst => hoth i st (fun q => hne (by rw [q]; rfl)) hst⟩
  | setMin b m =>
    dsimp only at hx; subst hx
    have : Except.ok _ = Except.ok s' := hs
    cases this
    exact ⟨trivial, fun i st _ hst => .inl hst⟩

/-- **C241** (every) Every history has its events. -/
theorem C241_every {c : Cfg} {s : State} (h : Reach c s) : ∃ m es, Told c m s es := by
  induction h with
  | init l m now hw => exact ⟨m, [], .init l now hw⟩
  | step h hst ih =>
    obtain ⟨m, es, ht⟩ := ih
    cases hst with
    | call x hk hx =>
      rw [← C241_same] at hx
      cases he : execE c _ x with
      | error e => rw [he] at hx; cases hx
      | ok r =>
        obtain ⟨s1, fs⟩ := r
        rw [he] at hx
        cases hx
        exact ⟨m, _, .call ht x hk he⟩
    | env e => exact ⟨m, es, .env ht e⟩

/-- **C241**, full statement: the notes also know which streams can be cancelled. -/
def C241_statement : Prop :=
  ∀ (c : Cfg) (m : Nat → Option Nat) (s : State) (es : List Ann), c.OK → Told c m s es →
    ∀ id st g, s.streams id = some st → (Notes.after m es).lines id = some g → st.cancellable = g.cancellable

/-- The creation of a stream that cannot be cancelled, announced as one that can. -/
theorem exNot : ∃ s', execE exCfg ex0 (.create 7 8 1000 1 10 110 false) = .ok (s', [.created 0 7 8 1000 1 10 110 true]) ∧
    (s'.streams 0).map Stream.cancellable = some false := by
  have h : okAnd (execE exCfg ex0 (.create 7 8 1000 1 10 110 false))
      (fun r => r.2 = [.created 0 7 8 1000 1 10 110 true] ∧ (r.1.streams 0).map Stream.cancellable = some false) = true := by
    decide +kernel
  obtain ⟨r, hr, hd⟩ := okAnd_iff.1 h
  obtain ⟨h1, h2⟩ := of_decide_eq_true hd
  obtain ⟨s', es⟩ := r
  dsimp only at h1
  subst h1
  exact ⟨s', hr, h2⟩

/-- **C241** is false as stated in full: `StreamCreated` reports "cancellable" for every stream
(`pallets/streaming/src/lib.rs:538-540` announces the constant `true`). -/
theorem C241_refuted : ¬ C241_statement := by
  intro H
  obtain ⟨s', hx, hcl⟩ := exNot
  have ht : Told exCfg (fun _ => some 0) s' _ :=
    .call (s := ex0) (.init exL 5 exL_wf) (.create 7 8 1000 1 10 110 false) (by decide : (7 : Nat) ≠ 100) hx
  cases hst : s'.streams 0 with
  | none => rw [hst] at hcl; cases hcl
  | some st =>
    rw [hst] at hcl
    have h1 : st.cancellable = false := Option.some.inj hcl
    have := H exCfg _ s' _ exCfg_ok ht 0 st _ hst rfl
    rw [h1] at this
    cases this

theorem okE {r : R (State × List Ann)} {es : List Ann} (h : okAnd r (fun q => q.2 = es) = true) :
    ∃ s', r = .ok (s', es) := by
  obtain ⟨q, hq, hd⟩ := okAnd_iff.1 h
  have := of_decide_eq_true hd
  obtain ⟨s', fs⟩ := q
  dsimp only at this
  subst this
  exact ⟨s', hq⟩

theorem ex1_told : Told exCfg (fun _ => some 0) ex1 [.created 0 7 8 1000 1 10 110 true] := by
  refine .call (s := ex0) (.init exL 5 exL_wf) (.create 7 8 1000 1 10 110 true) (by decide : (7 : Nat) ≠ 100) ?_
  show (do
    let s' ← create exCfg ex0 7 8 1000 1 10 110 true
    pure (s', [Ann.created ex0.next 7 8 1000 1 10 110 true])) = _
  rw [ex1_step]
  rfl

theorem ex2_told : Told exCfg (fun _ => some 0) ex2 [.created 0 7 8 1000 1 10 110 true] :=
  .env ex1_told ⟨rfl, rfl, rfl, rfl, rfl, Nat.le_add_right _ _, (ex1_reach.inv exCfg_ok).core.wf, fun _ => Nat.le_refl _⟩

/-- A stream of 1000 over 100 seconds, half of it vested: the recipient withdraws 300, or the sender cancels. -/
example : (∃ s', Told exCfg (fun _ => some 0) s' [.created 0 7 8 1000 1 10 110 true, .withdrawn 0 8 1 300]) ∧
    ∃ s', Told exCfg (fun _ => some 0) s' [.created 0 7 8 1000 1 10 110 true, .cancelled 0 7 8 1 500 500] := by
  constructor
  · obtain ⟨s', h⟩ := okE (r := execE exCfg ex2 (.withdraw 8 0 300)) (es := [.withdrawn 0 8 1 300]) (by decide +kernel)
    exact ⟨s', .call ex2_told (.withdraw 8 0 300) (by decide : (8 : Nat) ≠ 100) h⟩
  · obtain ⟨s', h⟩ := okE (r := execE exCfg ex2 (.cancel 7 0)) (es := [.cancelled 0 7 8 1 500 500]) (by decide +kernel)
    exact ⟨s', .call ex2_told (.cancel 7 0) (by decide : (7 : Nat) ≠ 100) h⟩

end Verif.Streaming
