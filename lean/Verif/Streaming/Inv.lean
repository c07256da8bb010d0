import Verif.Streaming.Lib

set_option linter.unusedSimpArgs false

/-! # Streaming: the invariant -/

namespace Verif.Streaming
open Verif

/-- Facts about every stored stream. -/
structure Stream.Good (st : Stream) (now : Nat) : Prop where
  parties : st.sender ≠ st.recipient
  time : st.start < st.stop
  rate : st.rate = st.deposit / (st.stop - st.start)
  dep : st.deposit ≤ maxU128
  rem : st.remaining ≤ st.deposit
  ahead : st.live → st.deposit - st.remaining ≤ st.vested now

theorem Stream.vested_le {st : Stream} (hr : st.rate = st.deposit / (st.stop - st.start)) (now : Nat) :
    st.vested now ≤ st.deposit := by
  unfold Stream.vested
  split_ifs with h
  · exact Nat.le_refl _
  · rw [hr]
    calc (now - st.start) * (st.deposit / (st.stop - st.start))
        ≤ (st.stop - st.start) * (st.deposit / (st.stop - st.start)) := Nat.mul_le_mul_right _ (by omega)
      _ ≤ st.deposit := Nat.mul_div_le _ _

theorem Stream.vested_mono {st : Stream} (hr : st.rate = st.deposit / (st.stop - st.start)) {t t' : Nat}
    (h : t ≤ t') : st.vested t ≤ st.vested t' := by
  by_cases h' : st.stop ≤ t'
  · have : st.vested t' = st.deposit := by simp [Stream.vested, h']
    rw [this]; exact Stream.vested_le hr t
  · have h'' : ¬ st.stop ≤ t := by omega
    simp only [Stream.vested, h', h'', if_false]
    exact Nat.mul_le_mul_right _ (by omega)

theorem finished_iff {st : Stream} : st.finished = false ↔ st.live := by
  unfold Stream.finished Stream.live
  cases st.status <;> simp

theorem Stream.Good.settle {st : Stream} {now : Nat} (h : st.Good now) (hl : st.live) :
    ∃ rb, st.vestedRest now = .ok rb ∧ st.balanceOf now st.recipient = .ok rb ∧
      st.balanceOf now st.sender = .ok (st.remaining - rb) ∧ rb ≤ st.remaining ∧
      rb + (st.deposit - st.remaining) = st.vested now := by
  have hv := Stream.vested_le h.rate now
  have ha := h.ahead hl
  have hd := h.dep
  have hrem := h.rem
  have ht := h.time
  have hp := h.parties
  have hdelta : ∃ d, st.deltaOf now = .ok d ∧ (d = st.stop - st.start ↔ st.stop ≤ now) ∧
      (¬ st.stop ≤ now → st.vested now = d * st.rate) := by
    unfold Stream.deltaOf
    split_ifs with h1 h2
    · refine ⟨0, rfl, by omega, ?_⟩
      intro h3
      have : now - st.start = 0 := by omega
      simp [Stream.vested, h3, this]
    · refine ⟨now - st.start, csub_ok_iff.2 ⟨by omega, rfl⟩, by omega, ?_⟩
      intro h3
      simp [Stream.vested, h3]
    · refine ⟨st.stop - st.start, csub_ok_iff.2 ⟨by omega, rfl⟩, by omega, ?_⟩
      intro h3; omega
  obtain ⟨d, hd1, hd2, hd3⟩ := hdelta
  have hdur : csub Err.underflow st.stop st.start = .ok (st.stop - st.start) := csub_ok_iff.2 ⟨by omega, rfl⟩
  have hrest : st.vestedRest now = .ok (st.vested now - (st.deposit - st.remaining)) := by
    unfold Stream.vestedRest
    rw [hd1, ok_bind, hdur, ok_bind]
    by_cases he : d = st.stop - st.start
    · simp only [he, if_true, pure_ok_iff]
      have : st.vested now = st.deposit := by simp [Stream.vested, hd2.1 he]
      rw [this]; omega
    · have hns : ¬ st.stop ≤ now := fun e => he (hd2.2 e)
      have hve := hd3 hns
      simp only [he, if_false]
      have hmul : cmul Err.overflow d st.rate = .ok (d * st.rate) := cmul_ok_iff.2 ⟨by omega, rfl⟩
      split_ifs with hw
      · rw [hmul, ok_bind]
        have hcl : st.claimed = .ok (st.deposit - st.remaining) := csub_ok_iff.2 ⟨hrem, rfl⟩
        rw [hcl, ok_bind, csub_ok_iff, ← hve]
        exact ⟨ha, rfl⟩
      · rw [hmul, hve]
        have : st.deposit - st.remaining = 0 := by omega
        rw [this, Nat.sub_zero]
  refine ⟨st.vested now - (st.deposit - st.remaining), hrest, ?_, ?_, by omega, by omega⟩
  · unfold Stream.balanceOf
    rw [hd1, ok_bind, hrest, ok_bind]
    simp only [if_true]
    rw [hdur, ok_bind]
    split_ifs with he
    · have : st.vested now = st.deposit := by simp [Stream.vested, hd2.1 he]
      rw [pure_ok_iff, this]; omega
    · rw [pure_ok_iff]
  · unfold Stream.balanceOf
    rw [hd1, ok_bind, hrest, ok_bind]
    simp only [hp, if_false, if_true]
    rw [csub_ok_iff]
    exact ⟨by omega, rfl⟩

/-- The part of the invariant that does not concern the library. -/
structure Core (c : Cfg) (l : Ledger) (m : Nat → Option Stream) (nx now : Nat) (ev : List Event) : Prop where
  wf : l.WF
  solvent : ∀ x, SumLe (fun id => owed x (m id)) (l.bal x c.acct)
  fresh : ∀ id, nx ≤ id → m id = none ∧ (ev.map (Event.deposited id)).sum = 0
  good : ∀ id st, m id = some st → st.Good now ∧ st.sender ≠ c.acct
  dep : ∀ id st, m id = some st → (ev.map (Event.deposited id)).sum = st.deposit
  account : ∀ id, (ev.map (Event.received id)).sum + (ev.map (Event.refunded id)).sum + liveRem (m id)
    = (ev.map (Event.deposited id)).sum
  noRefund : ∀ id st, m id = some st → st.live → (ev.map (Event.refunded id)).sum = 0

structure Inv (c : Cfg) (s : State) : Prop where
  core : Core c s.ledger s.streams s.next s.now s.events
  lib : LibInv s
  len : ∀ a, (s.lib (a, .finish)).length ≤ c.maxFinished

theorem Core.archive {c : Cfg} {l m m' nx now ev} (h : Core c l m nx now ev)
    (ha : ∀ id, m' id = m id ∨ (m' id = none ∧ ∃ st, m id = some st ∧ ¬ st.live)) :
    Core c l m' nx now ev := by
  have hsome : ∀ id st, m' id = some st → m id = some st := by
    intro id st hst
    rcases ha id with e | ⟨e, _⟩
    · rw [← e]; exact hst
    · rw [e] at hst; cases hst
  constructor
  · exact h.wf
  · intro x
    refine (h.solvent x).mono ?_ (Nat.le_refl _)
    intro id
    rcases ha id with e | ⟨e, _⟩
    · show owed x (m' id) ≤ owed x (m id); rw [e]
    · show owed x (m' id) ≤ _; rw [e]; exact Nat.zero_le _
  · intro id hid
    refine ⟨?_, (h.fresh id hid).2⟩
    rcases ha id with e | ⟨e, _⟩
    · rw [e]; exact (h.fresh id hid).1
    · exact e
  · exact fun id st hst => h.good id st (hsome id st hst)
  · exact fun id st hst => h.dep id st (hsome id st hst)
  · intro id
    have := h.account id
    rcases ha id with e | ⟨e, st, hst, hl⟩
    · rw [e]; exact this
    · rw [e]; simp only [hst, liveRem, hl, if_false] at this ⊢; exact this
  · exact fun id st hst => h.noRefund id st (hsome id st hst)

theorem Core.env {c : Cfg} {l m nx now ev} (h : Core c l m nx now ev) {l' : Ledger} {now' : Nat}
    (hw : l'.WF) (hb : ∀ x, l.bal x c.acct ≤ l'.bal x c.acct) (ht : now ≤ now') :
    Core c l' m nx now' ev where
  wf := hw
  solvent := fun x => (h.solvent x).mono (fun _ => Nat.le_refl _) (hb x)
  fresh := h.fresh
  good := fun id st hst => by
    obtain ⟨g, g'⟩ := h.good id st hst
    exact ⟨⟨g.parties, g.time, g.rate, g.dep, g.rem,
      fun hl => (g.ahead hl).trans (Stream.vested_mono g.rate ht)⟩, g'⟩
  dep := h.dep
  account := h.account
  noRefund := h.noRefund

theorem Core.create {c : Cfg} {l l' m nx now ev} (h : Core c l m nx now ev)
    {sd rc d a start stop rate : Nat} {cl : Bool} (hsa : sd ≠ c.acct) (hsr : sd ≠ rc)
    (ht : start < stop) (hrate : rate = d / (stop - start))
    (htr : l.transfer a sd c.acct d false = .ok l') :
    Core c l' (upd m nx (some ⟨d, d, a, rate, sd, rc, start, stop, .ongoing, cl⟩)) (nx + 1) now
      (ev ++ [.created nx sd rc d a start stop]) := by
  have hle := Ledger.transfer_le htr
  have hd : d ≤ maxU128 := hle.trans ((Ledger.bal_le_iss h.wf a sd).trans (h.wf a).2)
  have hf := h.fresh nx (Nat.le_refl _)
  have hacc := h.account nx
  constructor
  · exact Ledger.transfer_wf htr h.wf
  · intro x
    refine (h.solvent x).update nx ?_ ?_
    · intro i hi; simp [upd_of_ne _ _ hi]
    · have hb := Ledger.transfer_bal htr x c.acct
      simp only [show ¬ c.acct = sd from fun e => hsa e.symm, and_false, if_false, and_true] at hb
      simp only [upd_same, hf.1, owed, Stream.live, true_and]
      by_cases hx : x = a
      · simp only [hx, if_true] at hb ⊢; omega
      · simp only [hx, show ¬ a = x from fun e => hx e.symm, if_false] at hb ⊢; omega
  · intro id hid
    have hne : id ≠ nx := by omega
    refine ⟨by rw [upd_of_ne _ _ hne]; exact (h.fresh id (by omega)).1, ?_⟩
    simp only [List.map_append, List.sum_append, (h.fresh id (by omega)).2]
    simp [Event.deposited, Ne.symm hne]
  · intro id st hst
    by_cases hid : id = nx
    · subst hid
      rw [upd_same] at hst; cases hst
      exact ⟨⟨hsr, ht, hrate, hd, Nat.le_refl _, fun _ => by simp⟩, hsa⟩
    · rw [upd_of_ne _ _ hid] at hst; exact h.good id st hst
  · intro id st hst
    simp only [List.map_append, List.sum_append, List.map_cons, List.map_nil, List.sum_cons, List.sum_nil,
      Event.deposited]
    by_cases hid : id = nx
    · subst hid
      rw [upd_same] at hst; cases hst
      simp [hf.2]
    · rw [upd_of_ne _ _ hid] at hst
      simp [h.dep id st hst, Ne.symm hid]
  · intro id
    simp only [List.map_append, List.sum_append, List.map_cons, List.map_nil, List.sum_cons, List.sum_nil,
      Event.deposited, Event.received, Event.refunded]
    have := h.account id
    by_cases hid : id = nx
    · subst hid
      rw [hf.1, hf.2] at this
      simp only [upd_same, liveRem, Stream.live, if_true, hf.2] at this ⊢
      omega
    · rw [upd_of_ne _ _ hid]
      simp only [show ¬ nx = id from fun e => hid e.symm, if_false]; omega
  · intro id st hst hl
    simp only [List.map_append, List.sum_append, List.map_cons, List.map_nil, List.sum_cons, List.sum_nil,
      Event.refunded]
    by_cases hid : id = nx
    · subst hid
      rw [hf.1, hf.2] at hacc
      omega
    · rw [upd_of_ne _ _ hid] at hst
      have := h.noRefund id st hst hl
      omega

/-- Paying `p` to the recipient and `r` to the sender out of a live stream. -/
theorem Core.pay {c : Cfg} {l l' m nx now ev} (h : Core c l m nx now ev) {id : Nat} {st st' : Stream}
    (hst : m id = some st) (hl : st.live) {e : Event} {p r : Nat} (hw : l'.WF)
    (hbal : ∀ x, l.bal x c.acct ≤ l'.bal x c.acct + (if x = st.asset then p + r else 0))
    (he : ∀ i, e.deposited i = 0 ∧ e.received i = (if i = id then p else 0) ∧
      e.refunded i = (if i = id then r else 0))
    (hrem : st.remaining = p + r + liveRem (some st'))
    (hr : st'.live → r = 0)
    (hasset : st'.asset = st.asset) (hdep : st'.deposit = st.deposit) (hgood : st'.Good now)
    (hsender : st'.sender = st.sender) :
    Core c l' (upd m id (some st')) nx now (ev ++ [e]) := by
  have hid : id < nx := by
    by_contra hh
    have := (h.fresh id (by omega)).1
    rw [hst] at this; cases this
  constructor
  · exact hw
  · intro x
    refine (h.solvent x).update id ?_ ?_
    · intro i hi; simp [upd_of_ne _ _ hi]
    · have hb := hbal x
      simp only [upd_same, hst, owed, hl, true_and, hasset]
      simp only [liveRem] at hrem
      by_cases hx : st.asset = x
      · by_cases hl' : st'.live
        · simp only [hx, hl', if_true, and_self] at hb hrem ⊢; omega
        · simp only [hx, hl', if_true, if_false, false_and] at hb hrem ⊢; omega
      · simp only [hx, Ne.symm hx, if_false, and_false] at hb ⊢; omega
  · intro i hi
    have hne : i ≠ id := by omega
    refine ⟨by rw [upd_of_ne _ _ hne]; exact (h.fresh i hi).1, ?_⟩
    simp only [List.map_append, List.sum_append, List.map_cons, List.map_nil, List.sum_cons, List.sum_nil,
      (he i).1, (h.fresh i hi).2, Nat.add_zero]
  · intro i t ht
    by_cases hi : i = id
    · subst hi
      rw [upd_same] at ht; cases ht
      exact ⟨hgood, hsender ▸ (h.good i st hst).2⟩
    · rw [upd_of_ne _ _ hi] at ht; exact h.good i t ht
  · intro i t ht
    simp only [List.map_append, List.sum_append, List.map_cons, List.map_nil, List.sum_cons, List.sum_nil,
      (he i).1, Nat.add_zero]
    by_cases hi : i = id
    · subst hi
      rw [upd_same] at ht; cases ht
      rw [hdep]; exact h.dep i st hst
    · rw [upd_of_ne _ _ hi] at ht; exact h.dep i t ht
  · intro i
    simp only [List.map_append, List.sum_append, List.map_cons, List.map_nil, List.sum_cons, List.sum_nil,
      (he i).1, (he i).2.1, (he i).2.2]
    have := h.account i
    by_cases hi : i = id
    · subst hi
      have e1 : liveRem (m i) = st.remaining := by simp [hst, liveRem, hl]
      rw [upd_same]
      simp only [if_true]
      omega
    · rw [upd_of_ne _ _ hi]
      simp only [hi, if_false]; omega
  · intro i t ht hlt
    simp only [List.map_append, List.sum_append, List.map_cons, List.map_nil, List.sum_cons, List.sum_nil,
      (he i).2.2]
    by_cases hi : i = id
    · subst hi
      rw [upd_same] at ht; cases ht
      have := h.noRefund i st hst hl
      have := hr hlt
      simp only [if_true]; omega
    · rw [upd_of_ne _ _ hi] at ht
      have := h.noRefund i t ht hlt
      simp only [hi, if_false]; omega

/-! ### The calls -/

theorem doCreate_inv {c : Cfg} {s s' : State} {sd rc d a start stop id : Nat} {cl : Bool} (h : Inv c s)
    (hsa : sd ≠ c.acct) (hd : doCreate c s sd rc d a start stop cl = .ok (s', id)) :
    Inv c s' ∧ id = s.next ∧ s'.now = s.now ∧ s'.minDep = s.minDep ∧
    (∃ rate, s'.streams id = some ⟨d, d, a, rate, sd, rc, start, stop, .ongoing, cl⟩) ∧
    (∀ i st, s.streams i = some st → s'.streams i = some st ∨ (s'.streams i = none ∧ ¬ st.live)) ∧
    s'.events = s.events ++ [.created id sd rc d a start stop] ∧
    s.ledger.transfer a sd c.acct d false = .ok s'.ledger := by
  unfold doCreate at hd
  simp only [bind_ok_iff, ensure_ok_iff, csub_ok_iff, cdiv_ok_iff, cadd_ok_iff, pure_ok_iff,
    Prod.mk.injEq] at hd
  obtain ⟨_, hsr, dur, ⟨hle, rfl⟩, rate, ⟨hdur, rfl⟩, _, hrate, l, htr, nx, ⟨_, rfl⟩, s2, hu, rfl, rfl⟩ := hd
  have ht : start < stop := by omega
  have hc := h.core.create (cl := cl) hsa hsr ht rfl htr
  set st : Stream := ⟨d, d, a, d / (stop - start), sd, rc, start, stop, .ongoing, cl⟩ with hst
  have hfresh := (h.core.fresh s.next (Nat.le_refl _)).1
  have hlib : LibInv { s with ledger := l, next := s.next + 1, streams := upd s.streams s.next (some st) } := by
    constructor
    · intro b k x hx
      obtain ⟨t, ht, hp⟩ := h.lib.ref b k x hx
      refine ⟨t, ?_, hp⟩
      show upd s.streams s.next (some st) x = _
      rw [upd_of_ne _ _ (by rintro rfl; rw [hfresh] at ht; cases ht)]
      exact ht
    · exact h.lib.nodup
  obtain ⟨s3, e3, i3, f3, a3, l3, _⟩ := updateFinished_spec (c := c) hlib sd rc
  rw [e3] at hu; cases hu
  have hnew : s2.streams s.next = some st := by
    rcases a3 s.next with e | ⟨e, t, ht, hnl⟩
    · rw [e]; exact upd_same _ _ _
    · exfalso
      rw [show ({ s with ledger := l, next := s.next + 1, streams := upd s.streams s.next (some st) } :
        State).streams s.next = some st from upd_same _ _ _] at ht
      cases ht
      exact hnl rfl
  refine ⟨⟨?_, ⟨i3.ref, i3.nodup⟩, ?_⟩, rfl, f3.now, f3.minDep, ⟨_, hnew⟩, ?_, ?_, ?_⟩
  · show Core c s2.ledger s2.streams s2.next s2.now (s2.events ++ _)
    rw [f3.ledger, f3.next, f3.now, f3.events]
    exact hc.archive a3
  · intro w
    exact (l3 w .finish).trans (h.len w)
  · intro i t hti
    have hne : i ≠ s.next := by rintro rfl; rw [hfresh] at hti; cases hti
    have he : ({ s with ledger := l, next := s.next + 1, streams := upd s.streams s.next (some st) } :
        State).streams i = s.streams i := upd_of_ne _ _ hne
    rcases a3 i with e | ⟨e, t', ht', hnl⟩
    · left; show s2.streams i = _; rw [e, he]; exact hti
    · right
      rw [he, hti] at ht'; cases ht'
      exact ⟨e, hnl⟩
  · show s2.events ++ _ = _; rw [f3.events]
  · show _ = Except.ok s2.ledger; rw [f3.ledger]; exact htr

theorem pushLib_Inv {c : Cfg} {s s' : State} {a id : Nat} {k : Kind} (h : Inv c s) (hk : k ≠ .finish)
    {st : Stream} (hst : s.streams id = some st) (hp : Party st a k) (hd : pushLib c s a id k = .ok s') :
    Inv c s' ∧ Frame s s' ∧ s'.streams = s.streams := by
  obtain ⟨f, hs⟩ := pushLib_frame hd
  refine ⟨⟨?_, pushLib_inv h.lib hst hp hd, ?_⟩, f, hs⟩
  · rw [f.ledger, f.next, f.now, f.events, hs]; exact h.core
  · intro w
    have := pushLib_len hd w .finish
    simp only [show ¬ Kind.finish = k from fun e => hk e.symm, and_false, if_false] at this
    exact this.trans (h.len w)

/-- Filing a finished stream: always possible, keeps the library consistent. -/
theorem file_spec {c : Cfg} (hc : c.OK) {s : State} (hl : LibInv s)
    (hlen : ∀ a, (s.lib (a, .finish)).length ≤ c.maxFinished) {id : Nat} {st : Stream}
    (hst : s.streams id = some st) (hf : ¬ st.live) (hp : st.sender ≠ st.recipient) :
    ∃ s1 s2 s3, pushLib c s st.sender id .finish = .ok s1 ∧ pushLib c s1 st.recipient id .finish = .ok s2 ∧
      updateFinished c s2 st.sender st.recipient = .ok s3 ∧ LibInv s3 ∧ Frame s s3 ∧ Archive s s3 ∧
      (∀ a, (s3.lib (a, .finish)).length ≤ c.maxFinished) := by
  have hroom := hc.room
  obtain ⟨s1, e1⟩ := pushLib_succeeds (c := c) (s := s) (a := st.sender) (id := id) (k := .finish)
    (Nat.lt_of_le_of_lt (hlen _) hroom)
  obtain ⟨f1, g1⟩ := pushLib_frame e1
  have i1 := pushLib_inv hl hst (a := st.sender) (k := .finish) ⟨hf, Or.inl rfl⟩ e1
  have l1 := fun b => pushLib_len e1 b .finish
  have hlen1 : (s1.lib (st.recipient, .finish)).length < c.maxStreams := by
    have := l1 st.recipient
    simp only [Ne.symm hp, false_and, if_false, Nat.add_zero] at this
    exact Nat.lt_of_le_of_lt (this.trans (hlen _)) hroom
  obtain ⟨s2, e2⟩ := pushLib_succeeds (c := c) (s := s1) (a := st.recipient) (id := id) (k := .finish) hlen1
  obtain ⟨f2, g2⟩ := pushLib_frame e2
  have hst1 : s1.streams id = some st := by rw [g1]; exact hst
  have i2 := pushLib_inv i1 hst1 (a := st.recipient) (k := .finish) ⟨hf, Or.inr rfl⟩ e2
  have l2 := fun b => pushLib_len e2 b .finish
  obtain ⟨s3, e3, i3, f3, a3, l3, b3⟩ := updateFinished_spec (c := c) i2 st.sender st.recipient
  refine ⟨s1, s2, s3, e1, e2, e3, i3, (f1.trans f2).trans f3, ?_, ?_⟩
  · intro i
    have := a3 i
    rw [g2, g1] at this
    exact this
  · intro w
    have h1 := l1 w
    have h2 := l2 w
    have h3 := l3 w .finish
    have h0 := hlen w
    by_cases hw1 : w = st.sender
    · have hw2 : ¬ w = st.recipient := hw1 ▸ hp
      simp only [hw2, hw1, false_and, and_self, if_true, if_false] at h1 h2
      have := b3 w (Or.inl hw1)
      subst hw1
      have hp' := hp
      simp only [hp', false_and, if_false] at h2
      omega
    · by_cases hw2 : w = st.recipient
      · have := b3 w (Or.inr hw2)
        subst hw2
        simp only [hw1, false_and, and_self, if_true, if_false] at h1 h2
        omega
      · simp only [hw1, hw2, false_and, if_false] at h1 h2
        omega

end Verif.Streaming
