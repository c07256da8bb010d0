import Verif.Streaming.Props

set_option linter.unusedSimpArgs false

/-!
# Streaming properties C86–C87: which streams are accepted, exact balances and payments; the library of streams
-/

namespace Verif.Streaming
open Verif

/-! ## C86 -/

/-- What a sender must bring for a new stream: two different parties, a time window, at least one unit per second,
and the deposit. -/
structure Offer (s : State) (sender recipient deposit asset start stop : Nat) : Prop where
  parties : sender ≠ recipient
  window : start < stop
  rate : 0 < deposit / (stop - start)
  funds : deposit ≤ s.ledger.bal asset sender
  counter : s.next < maxU128

theorem doCreate_iff {c : Cfg} {s : State} (h : Inv c s) {sd rc d a start stop : Nat} {cl : Bool} :
    (∃ s' id, doCreate c s sd rc d a start stop cl = .ok (s', id)) ↔ Offer s sd rc d a start stop := by
  constructor
  · rintro ⟨s', id, hd⟩
    unfold doCreate at hd
    simp only [bind_ok_iff, ensure_ok_iff, csub_ok_iff, cdiv_ok_iff, cadd_ok_iff, pure_ok_iff,
      Prod.mk.injEq] at hd
    obtain ⟨_, hsr, dur, ⟨hle, rfl⟩, rate, ⟨hdur, rfl⟩, _, hrate, l, htr, nx, ⟨hn, rfl⟩, s2, hu, rfl, rfl⟩ := hd
    exact ⟨hsr, by omega, Nat.pos_of_ne_zero hrate, Ledger.transfer_le htr, hn⟩
  · rintro ⟨h1, h2, h3, h4, h5⟩
    obtain ⟨l, hl⟩ := Ledger.transfer_succeeds (l := s.ledger) (a := a) (s := sd) (d := c.acct) (m := d)
      (k := false) h4 (by simp)
    have hfresh := (h.core.fresh s.next (Nat.le_refl _)).1
    set st : Stream := ⟨d, d, a, d / (stop - start), sd, rc, start, stop, .ongoing, cl⟩ with hst
    have hlib : LibInv { s with ledger := l, next := s.next + 1, streams := upd s.streams s.next (some st) } := by
      constructor
      · intro b k x hx
        obtain ⟨t, ht, hp⟩ := h.lib.ref b k x hx
        refine ⟨t, ?_, hp⟩
        show upd s.streams s.next (some st) x = _
        rw [upd_of_ne _ _ (by rintro rfl; rw [hfresh] at ht; cases ht)]
        exact ht
      · exact h.lib.nodup
    obtain ⟨s3, e3, _⟩ := updateFinished_spec (c := c) hlib sd rc
    refine ⟨{ s3 with events := s3.events ++ [.created s.next sd rc d a start stop] }, s.next, ?_⟩
    unfold doCreate
    simp only [bind_ok_iff, ensure_ok_iff, csub_ok_iff, cdiv_ok_iff, cadd_ok_iff, pure_ok_iff]
    exact ⟨(), h1, _, ⟨by omega, rfl⟩, _, ⟨by omega, rfl⟩, (), by omega, l, hl, _, ⟨h5, rfl⟩, s3, e3, rfl⟩

theorem doCreate_len {c : Cfg} {s s' : State} (h : Inv c s) {sd rc d a start stop id : Nat} {cl : Bool}
    (hd : doCreate c s sd rc d a start stop cl = .ok (s', id)) (b : Nat) (k : Kind) :
    (s'.lib (b, k)).length ≤ (s.lib (b, k)).length := by
  unfold doCreate at hd
  simp only [bind_ok_iff, ensure_ok_iff, csub_ok_iff, cdiv_ok_iff, cadd_ok_iff, pure_ok_iff,
    Prod.mk.injEq] at hd
  obtain ⟨_, hsr, dur, ⟨hle, rfl⟩, rate, ⟨hdur, rfl⟩, _, hrate, l, htr, nx, ⟨_, rfl⟩, s2, hu, rfl, rfl⟩ := hd
  have hfresh := (h.core.fresh s.next (Nat.le_refl _)).1
  have hlib : LibInv { s with ledger := l, next := s.next + 1, streams := upd s.streams s.next (some ⟨d, d, a, d / (stop - start), sd, rc, start, stop, .ongoing, cl⟩) } := by
    constructor
    · intro b k x hx
      obtain ⟨t, ht, hp⟩ := h.lib.ref b k x hx
      refine ⟨t, ?_, hp⟩
      show upd s.streams s.next _ x = _
      rw [upd_of_ne _ _ (by rintro rfl; rw [hfresh] at ht; cases ht)]
      exact ht
    · exact h.lib.nodup
  obtain ⟨s3, e3, i3, f3, a3, l3, _⟩ := updateFinished_spec (c := c) hlib sd rc
  rw [e3] at hu; cases hu
  exact l3 b k

/-- C86 (a): `create` succeeds whenever the asset is enabled, the deposit meets the asset's minimum, the stream does
not start in the past, the offer is sound, and both parties have room in their lists. -/
theorem C86_create_accepted {c : Cfg} (hc : c.OK) {s : State} (h : Reach c s) {sd rc d a start stop m : Nat}
    {cl : Bool} (hm : s.minDep a = some m) (hd : m ≤ d) (hnow : s.now ≤ start)
    (ho : Offer s sd rc d a start stop)
    (hroom : (s.lib (sd, .send)).length < c.maxStreams ∧ (s.lib (rc, .receive)).length < c.maxStreams) :
    ∃ s', create c s sd rc d a start stop cl = .ok s' := by
  obtain ⟨s1, id, h1⟩ := (doCreate_iff (c := c) (cl := cl) (h.inv hc)).2 ho
  have hl := doCreate_len (h.inv hc) h1
  obtain ⟨s2, h2⟩ := pushLib_succeeds (c := c) (s := s1) (a := sd) (id := id) (k := .send)
    ((hl _ _).trans_lt hroom.1)
  have hl2 := pushLib_len h2 rc .receive
  simp only [reduceCtorEq, and_false, if_false, Nat.add_zero] at hl2
  obtain ⟨s3, h3⟩ := pushLib_succeeds (c := c) (s := s2) (a := rc) (id := id) (k := .receive)
    ((hl2.trans (hl _ _)).trans_lt hroom.2)
  refine ⟨s3, ?_⟩
  unfold create
  simp only [bind_ok_iff, okOr_ok_iff, ensure_ok_iff, Prod.exists]
  exact ⟨m, hm, (), hd, (), hnow, (), ho.window, s1, id, h1, s2, h2, h3⟩

/-- C86 (b): and only then (up to the room in the lists, which the call may itself make by archiving). -/
theorem C86_create_only_if {c : Cfg} (hc : c.OK) {s s' : State} (h : Reach c s) {sd rc d a start stop : Nat}
    {cl : Bool} (he : create c s sd rc d a start stop cl = .ok s') :
    (∃ m, s.minDep a = some m ∧ m ≤ d) ∧ s.now ≤ start ∧ Offer s sd rc d a start stop := by
  unfold create at he
  simp only [bind_ok_iff, okOr_ok_iff, ensure_ok_iff, Prod.exists] at he
  obtain ⟨m, hm, _, hd, _, hnow, _, _, s1, id, h1, _⟩ := he
  exact ⟨⟨m, hm, hd⟩, hnow, (doCreate_iff (h.inv hc)).1 ⟨s1, id, h1⟩⟩

/-- C86 (c): the entry point for other pallets only asks for an enabled asset and a sound offer: neither the minimum
deposit nor the start time is checked. -/
theorem C86_trait_create_iff {c : Cfg} (hc : c.OK) {s : State} (h : Reach c s) {sd rc d a start stop : Nat} {cl : Bool}
    (hroom : (s.lib (rc, .receive)).length < c.maxStreams) :
    (∃ s', traitCreate c s sd rc d a start stop cl = .ok s') ↔
      (∃ m, s.minDep a = some m) ∧ Offer s sd rc d a start stop := by
  constructor
  · rintro ⟨s', he⟩
    unfold traitCreate at he
    simp only [bind_ok_iff, ensure_ok_iff, Prod.exists] at he
    obtain ⟨_, hm, s1, id, h1, _⟩ := he
    exact ⟨Option.isSome_iff_exists.1 hm, (doCreate_iff (h.inv hc)).1 ⟨s1, id, h1⟩⟩
  · rintro ⟨hm, ho⟩
    obtain ⟨s1, id, h1⟩ := (doCreate_iff (c := c) (cl := cl) (h.inv hc)).2 ho
    obtain ⟨s3, h3⟩ := pushLib_succeeds (c := c) (s := s1) (a := rc) (id := id) (k := .receive)
      ((doCreate_len (h.inv hc) h1 _ _).trans_lt hroom)
    refine ⟨s3, ?_⟩
    unfold traitCreate
    simp only [bind_ok_iff, ensure_ok_iff, Prod.exists]
    exact ⟨(), Option.isSome_iff_exists.2 hm, s1, id, h1, h3⟩

/-- C86 (d): the errors, in the order in which they are found. -/
theorem C86_create_errors {c : Cfg} {s : State} {sd rc d a start stop : Nat} {cl : Bool} :
    (s.minDep a = none → create c s sd rc d a start stop cl = .error .invalidAssetId) ∧
    (∀ m, s.minDep a = some m →
      (d < m → create c s sd rc d a start stop cl = .error .depositLowerThanMinimum) ∧
      (m ≤ d → start < s.now → create c s sd rc d a start stop cl = .error .startTimeBeforeCurrentTime) ∧
      (m ≤ d → s.now ≤ start → stop ≤ start →
        create c s sd rc d a start stop cl = .error .endTimeBeforeStartTime) ∧
      (m ≤ d → s.now ≤ start → start < stop → sd = rc →
        create c s sd rc d a start stop cl = .error .recipientIsAlsoSender) ∧
      (m ≤ d → s.now ≤ start → start < stop → sd ≠ rc → d < stop - start →
        create c s sd rc d a start stop cl = .error .invalidRatePerSecond)) := by
  have eT : ∀ {p : Prop} [Decidable p] {e : Err}, p → ensure p e = .ok () := fun h => by
    simp [ensure, h]
  have eF : ∀ {p : Prop} [Decidable p] {e : Err}, ¬ p → ensure p e = .error e := fun h => by
    simp [ensure, h]
  refine ⟨fun h => ?_, fun m h => ⟨fun h1 => ?_, fun h1 h2 => ?_, fun h1 h2 h3 => ?_, fun h1 h2 h3 h4 => ?_,
    fun h1 h2 h3 h4 h5 => ?_⟩⟩
  · unfold create; rw [h]; rfl
  · unfold create; rw [h, okOr_some, ok_bind, eF (by omega)]; rfl
  · unfold create; rw [h, okOr_some, ok_bind, eT h1, ok_bind, eF (by omega)]; rfl
  · unfold create; rw [h, okOr_some, ok_bind, eT h1, ok_bind, eT h2, ok_bind, eF (by omega)]; rfl
  · unfold create
    rw [h, okOr_some, ok_bind, eT h1, ok_bind, eT h2, ok_bind, eT h3, ok_bind]
    unfold doCreate
    rw [eF (by simp [h4])]; rfl
  · unfold create
    rw [h, okOr_some, ok_bind, eT h1, ok_bind, eT h2, ok_bind, eT h3, ok_bind]
    unfold doCreate
    rw [eT h4, ok_bind, csub_ok_iff.2 ⟨h3.le, rfl⟩, ok_bind, cdiv_ok_iff.2 ⟨by omega, rfl⟩, ok_bind,
      eF (by rw [Nat.div_eq_of_lt h5]; simp)]
    rfl

/-- C86 (e): an accepted stream is stored under the next id exactly as requested, live, with the deposit remaining and
the rate `⌊deposit/duration⌋`; the id counter moves on by one and the deposit moves to the pallet account. -/
theorem C86_create_exact {c : Cfg} (hc : c.OK) {s s' : State} (h : Reach c s) {sd rc d a start stop : Nat}
    {cl : Bool} (hsa : sd ≠ c.acct) (he : create c s sd rc d a start stop cl = .ok s' ∨
      traitCreate c s sd rc d a start stop cl = .ok s') :
    s'.streams s.next = some ⟨d, d, a, d / (stop - start), sd, rc, start, stop, .ongoing, cl⟩ ∧
    s'.next = s.next + 1 ∧ s'.minDep = s.minDep ∧
    (∀ x w, s'.ledger.bal x w + (if x = a ∧ w = sd then d else 0)
      = s.ledger.bal x w + (if x = a ∧ w = c.acct then d else 0)) := by
  have hi := h.inv hc
  obtain ⟨i', _, hmd, ⟨rate, hst⟩, _, _, htr⟩ := create_eff hi hsa he
  have hrate := (i'.core.good _ _ hst).1.rate
  simp only at hrate
  refine ⟨by rw [hst, hrate], ?_, hmd, fun x w => Ledger.transfer_bal htr x w⟩
  have key : ∀ s1 id, doCreate c s sd rc d a start stop cl = .ok (s1, id) → s1.next = s.next + 1 := by
    intro s1 id hd
    unfold doCreate at hd
    simp only [bind_ok_iff, ensure_ok_iff, csub_ok_iff, cdiv_ok_iff, cadd_ok_iff, pure_ok_iff,
      Prod.mk.injEq] at hd
    obtain ⟨_, hsr, dur, ⟨hle, rfl⟩, rate, ⟨hdur, rfl⟩, _, hrate, l, htr, nx, ⟨_, rfl⟩, s2, hu, rfl, rfl⟩ := hd
    have hfresh := (hi.core.fresh s.next (Nat.le_refl _)).1
    have hlib : LibInv { s with ledger := l, next := s.next + 1, streams := upd s.streams s.next (some ⟨d, d, a, d / (stop - start), sd, rc, start, stop, .ongoing, cl⟩) } := by
      constructor
      · intro b k x hx
        obtain ⟨t, ht, hp⟩ := hi.lib.ref b k x hx
        refine ⟨t, ?_, hp⟩
        show upd s.streams s.next _ x = _
        rw [upd_of_ne _ _ (by rintro rfl; rw [hfresh] at ht; cases ht)]
        exact ht
      · exact hi.lib.nodup
    obtain ⟨s3, e3, i3, f3, a3, l3, _⟩ := updateFinished_spec (c := c) hlib sd rc
    rw [e3] at hu; cases hu
    exact f3.next
  rcases he with he | he
  · obtain ⟨s1, s2, id, h1, h2, h3⟩ := create_pre he
    rw [(pushLib_frame h3).1.next, (pushLib_frame h2).1.next, key _ _ h1]
  · obtain ⟨s1, id, h1, h3⟩ := traitCreate_pre he
    rw [(pushLib_frame h3).1.next, key _ _ h1]

/-- C86 (f): what `balance_of` answers for a live stream: the recipient owns what has vested and was not paid yet, the
sender the rest of the remaining balance, anybody else nothing. -/
theorem C86_balance_of {c : Cfg} (hc : c.OK) {s : State} (h : Reach c s) {id : Nat} {st : Stream}
    (hst : s.streams id = some st) (hl : st.live) (who : Nat) :
    st.balanceOf s.now who = .ok (
      if who = st.recipient then st.vested s.now - received s id
      else if who = st.sender then st.deposit - st.vested s.now
      else 0) := by
  have hi := (h.inv hc).core
  obtain ⟨g, _⟩ := hi.good id st hst
  have a1 := hi.account id
  have a2 := hi.dep id st hst
  have a3 := hi.noRefund id st hst hl
  have a4 : liveRem (s.streams id) = st.remaining := by simp [hst, liveRem, hl]
  have a5 : received s id = (s.events.map (Event.received id)).sum := rfl
  have a6 := g.rem
  have a7 := g.ahead hl
  have a8 := Stream.vested_le g.rate s.now
  obtain ⟨rb, hvr, hrb, hsb, hle, hv⟩ := g.settle hl
  split_ifs with h1 h2
  · subst h1; rw [hrb]; congr 1; omega
  · subst h2; rw [hsb]; congr 1; omega
  · unfold Stream.balanceOf at hrb ⊢
    simp only [bind_ok_iff] at hrb
    obtain ⟨dl, hdl, _, _, _⟩ := hrb
    rw [hdl, ok_bind, hvr, ok_bind, if_neg h1, if_neg h2]; rfl

/-- C86 (g): a withdrawal pays exactly the requested amount, except that for the native currency the whole remaining
balance is paid if less than or exactly one existential deposit would stay behind. -/
theorem C86_withdraw_exact {c : Cfg} (hc : c.OK) {s s' : State} (h : Reach c s) {who id amt : Nat}
    (hw : who ≠ c.acct) (hed : amt + c.ed ≤ maxU128) (he : withdraw c s who id amt = .ok s') :
    ∃ st p, s.streams id = some st ∧ who = st.recipient ∧
      p = (if st.asset = c.native ∧ st.remaining - amt ≤ c.ed then st.remaining else amt) ∧
      received s' id = received s id + p ∧
      (∀ x w, s'.ledger.bal x w + (if x = st.asset ∧ w = c.acct then p else 0)
        = s.ledger.bal x w + (if x = st.asset ∧ w = who then p else 0)) := by
  have hi := h.inv hc
  obtain ⟨st, h1, rfl, h2, h3, h4⟩ := withdraw_pre hi he
  obtain ⟨s2, p, e, i, hp, hple, t1, ev, _⟩ := withdraw_spec hc hi h1 h2 hw h3 h4
  have : Except.ok s2 = Except.ok s' := e.symm.trans he
  cases this
  refine ⟨st, p, h1, rfl, ?_, ?_, fun x w => Ledger.transfer_bal t1 x w⟩
  · rw [hp]
    unfold payout
    rw [Nat.min_eq_right hed]
    have : st.remaining ≤ amt + c.ed ↔ st.remaining - amt ≤ c.ed := by omega
    simp only [this]
  · unfold received; rw [ev]; simp [Event.received]

/-- C86 (h): governance sets the minimum deposit of one asset, for all later streams, and nothing else. -/
theorem C86_set_minimum {c : Cfg} {s s' : State} {a m : Nat} (he : exec c s (.setMin a m) = .ok s') :
    s'.minDep a = some m ∧ (∀ b, b ≠ a → s'.minDep b = s.minDep b) ∧ s'.streams = s.streams ∧
      s'.ledger = s.ledger ∧ s'.lib = s.lib ∧ s'.next = s.next := by
  have : Except.ok _ = Except.ok s' := he
  cases this
  exact ⟨upd_same _ _ _, fun b hb => upd_of_ne _ _ hb, rfl, rfl, rfl, rfl⟩

example : Reach exCfg ex0 ∧ Offer ex0 7 8 1000 1 10 110 ∧ ex0.minDep 1 = some 0 ∧ ex0.now ≤ 10 := by
  refine ⟨ex0_reach, ⟨by decide, by decide, by decide, ?_, by decide⟩, by decide, by decide⟩
  decide +kernel

-- a native stream: asking for 990 of 1000 with an existential deposit of 10 pays all of it
example : okAnd (create ⟨100, 5, 2, 1, 10⟩ ex0 7 8 1000 1 10 110 true) (fun s =>
    okAnd (withdraw ⟨100, 5, 2, 1, 10⟩ { s with now := 109 } 8 0 990) (fun s' => decide (received s' 0 = 1000)) &&
    okAnd (withdraw ⟨100, 5, 2, 1, 10⟩ { s with now := 109 } 8 0 989) (fun s' => decide (received s' 0 = 989))) = true := by
  decide +kernel

/-! ## C87: the library -/

theorem sortDesc_sorted {l : List Nat} (hn : l.Nodup) : (sortDesc l).Pairwise (· > ·) := by
  have : Std.Total (fun a b : Nat => b ≤ a) := ⟨fun a b => by omega⟩
  have : IsTrans Nat (fun a b : Nat => b ≤ a) := ⟨fun a b c h1 h2 => by omega⟩
  have h1 : (sortDesc l).Pairwise (fun a b => b ≤ a) := List.pairwise_insertionSort _ l
  have h2 : (sortDesc l).Pairwise (· ≠ ·) := nodup_sortDesc.2 hn
  refine (h1.and h2).imp ?_
  intro a b ⟨e1, e2⟩
  omega

/-- Lists are strictly descending: the newest stream first. -/
def Sorted (s : State) : Prop := ∀ a k, (s.lib (a, k)).Pairwise (· > ·)

/-- A stream in the list of finished streams of account `a` is older than all others there. -/
def OldestOf (s' : State) (a id : Nat) : Prop := ∀ x ∈ s'.lib (a, .finish), id < x

/-- What archiving does: each stream is either untouched in storage and in all lists, or it was a finished stream of
which one party has only newer finished streams left, and it is gone. -/
structure PopEff (s s' : State) : Prop where
  sorted : Sorted s'
  sub : ∀ b k x, x ∈ s'.lib (b, k) → x ∈ s.lib (b, k)
  each : ∀ x, (s'.streams x = s.streams x ∧ ∀ b k, x ∈ s.lib (b, k) → x ∈ s'.lib (b, k)) ∨
    (∃ st a, s.streams x = some st ∧ ¬ st.live ∧ s'.streams x = none ∧ (st.sender = a ∨ st.recipient = a) ∧
      OldestOf s' a x)

theorem PopEff.refl {s : State} (h : Sorted s) : PopEff s s := ⟨h, fun _ _ _ h => h, fun _ => Or.inl ⟨rfl, fun _ _ h => h⟩⟩

theorem PopEff.trans {s s' s'' : State} (h : PopEff s s') (h' : PopEff s' s'') : PopEff s s'' := by
  refine ⟨h'.sorted, fun b k x hx => h.sub b k x (h'.sub b k x hx), fun x => ?_⟩
  rcases h.each x with ⟨e, m⟩ | ⟨st, a, h1, h2, h3, h4, h5⟩
  · rcases h'.each x with ⟨e', m'⟩ | ⟨st, a, h1, h2, h3, h4, h5⟩
    · exact Or.inl ⟨e'.trans e, fun b k hx => m' b k (m b k hx)⟩
    · exact Or.inr ⟨st, a, by rw [← e]; exact h1, h2, h3, h4, h5⟩
  · rcases h'.each x with ⟨e', m'⟩ | ⟨st', a', h1', _⟩
    · exact Or.inr ⟨st, a, h1, h2, e'.trans h3, h4, fun y hy => h5 y (h'.sub _ _ _ hy)⟩
    · rw [h3] at h1'; cases h1'

theorem popFinished_eff {c : Cfg} {s s' : State} (hi : LibInv s) (hs : Sorted s) {a : Nat}
    (h : popFinished c s a = .ok s') : PopEff s s' := by
  unfold popFinished at h
  simp only at h
  split_ifs at h with hlen
  · simp only [Except.ok.injEq] at h; subst h; exact .refl hs
  · cases hl : (s.lib (a, .finish)).getLast? with
    | none => rw [hl] at h; simp only [Except.ok.injEq] at h; subst h; exact .refl hs
    | some id =>
      have hmem : id ∈ s.lib (a, .finish) := List.mem_of_getLast? hl
      obtain ⟨st, hst, hnl, hpa⟩ := hi.ref _ _ _ hmem
      rw [hl] at h
      simp only [hst, okOr_some, ok_bind, pure_ok_iff] at h
      subst h
      have hn1 := fun b k => nodup_removeLib hi.nodup st.sender id b k
      have hmem2 : ∀ b k x, x ∈ removeLib (removeLib s.lib st.sender id) st.recipient id (b, k) ↔
          x ∈ s.lib (b, k) ∧ ¬ (b = st.sender ∧ x = id) ∧ ¬ (b = st.recipient ∧ x = id) := by
        intro b k x
        rw [mem_removeLib hn1, mem_removeLib hi.nodup]; tauto
      obtain ⟨ys, hys⟩ := List.getLast?_eq_some_iff.1 hl
      have hsa := hs a .finish
      rw [hys, List.pairwise_append] at hsa
      have hsub : ∀ b k x, x ∈ upd (removeLib (removeLib s.lib st.sender id) st.recipient id) (a, .finish)
            (s.lib (a, .finish)).dropLast (b, k) → x ∈ s.lib (b, k) := by
        intro b k x hx
        by_cases hb : (b, k) = (a, .finish)
        · cases hb
          rw [upd_same] at hx
          exact List.mem_of_mem_dropLast hx
        · rw [upd_of_ne _ _ hb, hmem2] at hx
          exact hx.1
      have hsortRm : ∀ (lib : Nat × Kind → List Nat), (∀ b k, (lib (b, k)).Nodup) →
          (∀ b k, (lib (b, k)).Pairwise (· > ·)) → ∀ w b k, (removeLib lib w id (b, k)).Pairwise (· > ·) := by
        intro lib hn hso w b k
        have he : ∀ k, (sortDesc ((lib (w, k)).erase id)).Pairwise (· > ·) :=
          fun k => sortDesc_sorted ((hn w k).erase id)
        unfold removeLib
        simp only
        by_cases hb : b = w
        · subst hb
          cases k <;> simp [upd_apply, he]
        · simp only [upd_apply, Prod.mk.injEq, hb, false_and, if_false]; exact hso b k
      refine ⟨?_, hsub, fun x => ?_⟩
      · intro b k
        show List.Pairwise _ (upd _ _ _ (b, k))
        by_cases hb : (b, k) = (a, .finish)
        · rw [hb, upd_same, hys, List.dropLast_concat]; exact hsa.1
        · rw [upd_of_ne _ _ hb]
          exact hsortRm _ hn1 (fun b k => hsortRm _ hi.nodup hs _ b k) _ b k
      · by_cases hx : x = id
        · subst hx
          refine Or.inr ⟨st, a, hst, hnl, upd_same _ _ _, hpa, ?_⟩
          intro y hy
          have hy' : y ∈ (s.lib (a, .finish)).dropLast := by
            have : y ∈ upd (removeLib (removeLib s.lib st.sender x) st.recipient x) (a, .finish)
              (s.lib (a, .finish)).dropLast (a, .finish) := hy
            rwa [upd_same] at this
          rw [hys, List.dropLast_concat] at hy'
          exact hsa.2.2 y hy' x (by simp)
        · refine Or.inl ⟨upd_of_ne _ _ hx, fun b k hm => ?_⟩
          show x ∈ upd _ _ _ (b, k)
          by_cases hb : (b, k) = (a, .finish)
          · cases hb
            rw [upd_same, hys, List.dropLast_concat]
            rw [hys] at hm
            rcases List.mem_append.1 hm with h1 | h1
            · exact h1
            · exact absurd (by simpa using h1) hx
          · rw [upd_of_ne _ _ hb, hmem2]
            exact ⟨hm, fun e => hx e.2, fun e => hx e.2⟩

theorem updateFinished_eff {c : Cfg} {s s' : State} (hi : LibInv s) (hs : Sorted s) {a b : Nat}
    (h : updateFinished c s a b = .ok s') : PopEff s s' := by
  unfold updateFinished at h
  simp only [bind_ok_iff] at h
  obtain ⟨s1, h1, h2⟩ := h
  obtain ⟨s1', e1, i1, _⟩ := popFinished_spec (c := c) hi a
  rw [e1] at h1; cases h1
  have p1 := popFinished_eff hi hs e1
  exact p1.trans (popFinished_eff i1 p1.sorted h2)

theorem pushLib_mem {c : Cfg} {s s' : State} {a id : Nat} {k : Kind} (h : pushLib c s a id k = .ok s')
    (b : Nat) (k' : Kind) (x : Nat) : x ∈ s'.lib (b, k') ↔ x ∈ s.lib (b, k') ∨ (b = a ∧ k' = k ∧ x = id) := by
  obtain ⟨l, rfl, hm, _⟩ := pushLib_ok h
  show x ∈ upd s.lib (a, k) l (b, k') ↔ _
  by_cases hb : (b, k') = (a, k)
  · cases hb
    rw [upd_same, hm]; simp
  · rw [upd_of_ne _ _ hb]
    constructor
    · exact Or.inl
    · rintro (h | ⟨rfl, rfl, _⟩)
      · exact h
      · exact absurd rfl hb

theorem pushLib_sorted {c : Cfg} {s s' : State} {a id : Nat} {k : Kind} (hs : Sorted s)
    (h : pushLib c s a id k = .ok s') : Sorted s' := by
  have hnd : (s.lib (a, k)).Nodup := (hs a k).imp (fun h => by omega)
  unfold pushLib at h
  simp only [bind_ok_iff, pure_ok_iff] at h
  obtain ⟨r, hr, rfl⟩ := h
  have hrn : r.Nodup := by
    unfold pushId at hr
    split_ifs at hr with hm hlt
    · simp only [Except.ok.injEq] at hr; subst hr; exact hnd
    · simp only [Except.ok.injEq] at hr; subst hr
      rw [List.nodup_append]
      refine ⟨hnd, by simp, ?_⟩
      intro x hx y hy
      simp at hy; subst hy
      rintro rfl; exact hm hx
  intro b k'
  show (upd s.lib (a, k) (sortDesc r) (b, k')).Pairwise _
  by_cases hb : (b, k') = (a, k)
  · rw [hb, upd_same]; exact sortDesc_sorted hrn
  · rw [upd_of_ne _ _ hb]; exact hs b k'

/-- Every stored stream is listed under its recipient's incoming streams; every finished one under both parties'
finished streams. -/
structure Listed (s : State) : Prop where
  recv : ∀ id st, s.streams id = some st → id ∈ s.lib (st.recipient, .receive)
  fin : ∀ id st, s.streams id = some st → ¬ st.live →
    id ∈ s.lib (st.sender, .finish) ∧ id ∈ s.lib (st.recipient, .finish)

structure Full (s : State) : Prop where
  sorted : Sorted s
  listed : Listed s

/-- What archiving in a step looks like from outside. -/
def Vanish (s s' : State) : Prop := ∀ id st, s.streams id = some st → s'.streams id = none →
  ∃ a, (st.sender = a ∨ st.recipient = a) ∧ OldestOf s' a id

theorem doCreate_full {c : Cfg} {s s' : State} (h : Inv c s) (hf : Full s) {sd rc d a start stop id : Nat} {cl : Bool}
    (hd : doCreate c s sd rc d a start stop cl = .ok (s', id)) :
    Sorted s' ∧ Vanish s s' ∧ id = s.next ∧
    (∀ i st, i ≠ id → s'.streams i = some st → i ∈ s'.lib (st.recipient, .receive)) ∧
    (∀ i st, s'.streams i = some st → ¬ st.live →
      i ∈ s'.lib (st.sender, .finish) ∧ i ∈ s'.lib (st.recipient, .finish)) := by
  unfold doCreate at hd
  simp only [bind_ok_iff, ensure_ok_iff, csub_ok_iff, cdiv_ok_iff, cadd_ok_iff, pure_ok_iff,
    Prod.mk.injEq] at hd
  obtain ⟨_, hsr, dur, ⟨hle, rfl⟩, rate, ⟨hdur, rfl⟩, _, hrate, l, htr, nx, ⟨_, rfl⟩, s2, hu, rfl, rfl⟩ := hd
  have hfresh := (h.core.fresh s.next (Nat.le_refl _)).1
  set st : Stream := ⟨d, d, a, d / (stop - start), sd, rc, start, stop, .ongoing, cl⟩ with hst
  have hlib : LibInv { s with ledger := l, next := s.next + 1, streams := upd s.streams s.next (some st) } := by
    constructor
    · intro b k x hx
      obtain ⟨t, ht, hp⟩ := h.lib.ref b k x hx
      refine ⟨t, ?_, hp⟩
      show upd s.streams s.next _ x = _
      rw [upd_of_ne _ _ (by rintro rfl; rw [hfresh] at ht; cases ht)]
      exact ht
    · exact h.lib.nodup
  have pe := updateFinished_eff hlib hf.sorted hu
  have hold : ∀ i t, s2.streams i = some t → upd s.streams s.next (some st) i = some t ∧
      ∀ b k, i ∈ s.lib (b, k) → i ∈ s2.lib (b, k) := by
    intro i t ht
    rcases pe.each i with ⟨e, m⟩ | ⟨_, _, _, _, e, _⟩
    · exact ⟨by rw [← ht, e], m⟩
    · rw [e] at ht; cases ht
  refine ⟨pe.sorted, ?_, rfl, ?_, ?_⟩
  · intro i t ht hn
    have hne : i ≠ s.next := by rintro rfl; rw [hfresh] at ht; cases ht
    rcases pe.each i with ⟨e, m⟩ | ⟨t', w, h1, _, _, h4, h5⟩
    · have e' : s2.streams i = upd s.streams s.next (some st) i := e
      rw [upd_of_ne _ _ hne, ht] at e'
      have hn' : s2.streams i = none := hn
      rw [hn'] at e'; cases e'
    · have h1' : upd s.streams s.next (some st) i = some t' := h1
      rw [upd_of_ne _ _ hne, ht] at h1'; cases h1'
      exact ⟨w, h4, h5⟩
  · intro i t hne ht
    obtain ⟨e, m⟩ := hold i t ht
    rw [upd_of_ne _ _ hne] at e
    exact m _ _ (hf.listed.recv i t e)
  · intro i t ht hl
    obtain ⟨e, m⟩ := hold i t ht
    by_cases hne : i = s.next
    · subst hne
      rw [upd_same] at e; cases e
      exact absurd rfl hl
    · rw [upd_of_ne _ _ hne] at e
      obtain ⟨m1, m2⟩ := hf.listed.fin i t e hl
      exact ⟨m _ _ m1, m _ _ m2⟩

/-- Filing stream `id` as finished. -/
theorem file_full {c : Cfg} {s s1 s2 s3 : State} (hi : LibInv s) (hs : Sorted s) {id : Nat} {st : Stream}
    (hst : s.streams id = some st) (hnl : ¬ st.live)
    (hrecv : ∀ i t, s.streams i = some t → i ∈ s.lib (t.recipient, .receive))
    (hfin : ∀ i t, i ≠ id → s.streams i = some t → ¬ t.live →
      i ∈ s.lib (t.sender, .finish) ∧ i ∈ s.lib (t.recipient, .finish))
    (h1 : pushLib c s st.sender id .finish = .ok s1) (h2 : pushLib c s1 st.recipient id .finish = .ok s2)
    (h3 : updateFinished c s2 st.sender st.recipient = .ok s3) : Full s3 ∧ Vanish s s3 := by
  obtain ⟨f1, g1⟩ := pushLib_frame h1
  obtain ⟨f2, g2⟩ := pushLib_frame h2
  have i1 := pushLib_inv hi hst (a := st.sender) (k := .finish) ⟨hnl, Or.inl rfl⟩ h1
  have hst1 : s1.streams id = some st := by rw [g1]; exact hst
  have i2 := pushLib_inv i1 hst1 (a := st.recipient) (k := .finish) ⟨hnl, Or.inr rfl⟩ h2
  have so2 := pushLib_sorted (pushLib_sorted hs h1) h2
  have pe := updateFinished_eff i2 so2 h3
  have hkeep : ∀ b k x, x ∈ s.lib (b, k) → x ∈ s2.lib (b, k) := fun b k x hx =>
    (pushLib_mem h2 b k x).2 (Or.inl ((pushLib_mem h1 b k x).2 (Or.inl hx)))
  have hold : ∀ i t, s3.streams i = some t → s.streams i = some t ∧ ∀ b k, i ∈ s2.lib (b, k) → i ∈ s3.lib (b, k) := by
    intro i t ht
    rcases pe.each i with ⟨e, m⟩ | ⟨_, _, _, _, e, _⟩
    · exact ⟨by rw [← ht, e, g2, g1], m⟩
    · rw [e] at ht; cases ht
  refine ⟨⟨pe.sorted, ⟨?_, ?_⟩⟩, ?_⟩
  · intro i t ht
    obtain ⟨e, m⟩ := hold i t ht
    exact m _ _ (hkeep _ _ _ (hrecv i t e))
  · intro i t ht hl
    obtain ⟨e, m⟩ := hold i t ht
    by_cases hne : i = id
    · subst hne
      rw [hst] at e; cases e
      exact ⟨m _ _ ((pushLib_mem h2 _ _ _).2 (Or.inl ((pushLib_mem h1 _ _ _).2 (Or.inr ⟨rfl, rfl, rfl⟩)))),
        m _ _ ((pushLib_mem h2 _ _ _).2 (Or.inr ⟨rfl, rfl, rfl⟩))⟩
    · obtain ⟨m1, m2⟩ := hfin i t hne e hl
      exact ⟨m _ _ (hkeep _ _ _ m1), m _ _ (hkeep _ _ _ m2)⟩
  · intro i t ht hn
    rcases pe.each i with ⟨e, m⟩ | ⟨t', w, h1', _, _, h4, h5⟩
    · rw [g2, g1, ht] at e; rw [hn] at e; cases e
    · rw [g2, g1, ht] at h1'; cases h1'
      exact ⟨w, h4, h5⟩

theorem libInv_upd {s : State} (h : LibInv s) {id : Nat} {st st' : Stream} (hst : s.streams id = some st)
    (hl : st.live) (e1 : st'.sender = st.sender) (e2 : st'.recipient = st.recipient) :
    LibInv { s with streams := upd s.streams id (some st') } := by
  constructor
  · intro b k x hx
    obtain ⟨t, ht, hpt⟩ := h.ref b k x hx
    by_cases hxi : x = id
    · subst hxi
      rw [hst] at ht; cases ht
      refine ⟨st', upd_same _ _ _, ?_⟩
      cases k
      · exact e1.trans hpt
      · exact e2.trans hpt
      · exact absurd hl hpt.1
    · exact ⟨t, by show upd s.streams id (some st') x = _; rw [upd_of_ne _ _ hxi]; exact ht, hpt⟩
  · exact h.nodup

theorem full_call {c : Cfg} {s s' : State} (h : Inv c s) (hf : Full s) {k : Call}
    (he : exec c s k = .ok s') : Full s' ∧ Vanish s s' := by
  have push : ∀ {s0 s1 s2 : State} {rc id : Nat}, Sorted s1 → Vanish s0 s1 →
      (∀ i st, i ≠ id → s1.streams i = some st → i ∈ s1.lib (st.recipient, .receive)) →
      (∀ i st, s1.streams i = some st → ¬ st.live →
        i ∈ s1.lib (st.sender, .finish) ∧ i ∈ s1.lib (st.recipient, .finish)) →
      (∀ st, s1.streams id = some st → st.recipient = rc) →
      pushLib c s1 rc id .receive = .ok s2 → Full s2 ∧ Vanish s0 s2 := by
    intro s0 s1 s2 rc id so va re fi hid hp
    obtain ⟨_, g⟩ := pushLib_frame hp
    refine ⟨⟨pushLib_sorted so hp, ⟨fun i t ht => ?_, fun i t ht hl => ?_⟩⟩, fun i t ht hn => ?_⟩
    · rw [g] at ht
      by_cases e : i = id
      · subst e; exact (pushLib_mem hp _ _ _).2 (Or.inr ⟨hid t ht, rfl, rfl⟩)
      · exact (pushLib_mem hp _ _ _).2 (Or.inl (re i t e ht))
    · rw [g] at ht
      obtain ⟨m1, m2⟩ := fi i t ht hl
      exact ⟨(pushLib_mem hp _ _ _).2 (Or.inl m1), (pushLib_mem hp _ _ _).2 (Or.inl m2)⟩
    · rw [g] at hn
      obtain ⟨w, h1, h2⟩ := va i t ht hn
      refine ⟨w, h1, fun x hx => ?_⟩
      rcases (pushLib_mem hp _ _ _).1 hx with hx | ⟨_, hk, _⟩
      · exact h2 x hx
      · cases hk
  have fresh : ∀ {s1 : State} {sd rc d a start stop id cl}, doCreate c s sd rc d a start stop cl = .ok (s1, id) →
      ∀ st, s1.streams id = some st → st.recipient = rc := by
    intro s1 sd rc d a start stop id cl hd st hst
    unfold doCreate at hd
    simp only [bind_ok_iff, ensure_ok_iff, csub_ok_iff, cdiv_ok_iff, cadd_ok_iff, pure_ok_iff,
      Prod.mk.injEq] at hd
    obtain ⟨_, hsr, dur, ⟨hle, rfl⟩, rate, ⟨hdur, rfl⟩, _, hrate, l, htr, nx, ⟨_, rfl⟩, s2, hu, rfl, rfl⟩ := hd
    have hfresh := (h.core.fresh s.next (Nat.le_refl _)).1
    have hlib : LibInv { s with ledger := l, next := s.next + 1, streams := upd s.streams s.next (some ⟨d, d, a, d / (stop - start), sd, rc, start, stop, .ongoing, cl⟩) } := by
      constructor
      · intro b k x hx
        obtain ⟨t, ht, hp⟩ := h.lib.ref b k x hx
        refine ⟨t, ?_, hp⟩
        show upd s.streams s.next _ x = _
        rw [upd_of_ne _ _ (by rintro rfl; rw [hfresh] at ht; cases ht)]
        exact ht
      · exact h.lib.nodup
    have pe := updateFinished_eff hlib hf.sorted hu
    have hst' : s2.streams s.next = some st := hst
    rcases pe.each s.next with ⟨e, _⟩ | ⟨_, _, _, _, e, _⟩
    · rw [hst'] at e
      have e' : some st = upd s.streams s.next (some ⟨d, d, a, d / (stop - start), sd, rc, start, stop, .ongoing, cl⟩) s.next := e
      rw [upd_same] at e'; cases e'; rfl
    · rw [hst'] at e; cases e
  cases k with
  | create sd rc d a st sp cl =>
    obtain ⟨s1, s2, id, h1, h2, h3⟩ := create_pre he
    obtain ⟨so, va, rfl, re, fi⟩ := doCreate_full h hf h1
    have hid := fresh h1
    obtain ⟨_, g⟩ := pushLib_frame h2
    refine push (s1 := s2) (pushLib_sorted so h2) (fun i t ht hn => ?_) (fun i t hne ht => ?_) (fun i t ht hl => ?_) (fun t ht => ?_) h3
    · rw [g] at hn
      obtain ⟨w, e1, e2⟩ := va i t ht hn
      refine ⟨w, e1, fun x hx => ?_⟩
      rcases (pushLib_mem h2 _ _ _).1 hx with hx | ⟨_, hk, _⟩
      · exact e2 x hx
      · cases hk
    · rw [g] at ht
      exact (pushLib_mem h2 _ _ _).2 (Or.inl (re i t hne ht))
    · rw [g] at ht
      obtain ⟨m1, m2⟩ := fi i t ht hl
      exact ⟨(pushLib_mem h2 _ _ _).2 (Or.inl m1), (pushLib_mem h2 _ _ _).2 (Or.inl m2)⟩
    · rw [g] at ht; exact hid t ht
  | traitCreate sd rc d a st sp cl =>
    obtain ⟨s1, id, h1, h3⟩ := traitCreate_pre he
    obtain ⟨so, va, rfl, re, fi⟩ := doCreate_full h hf h1
    exact push so va re fi (fresh h1) h3
  | cancel who id =>
    simp only [exec] at he
    unfold cancel at he
    simp only [bind_ok_iff, okOr_ok_iff, ensure_ok_iff, pure_ok_iff] at he
    obtain ⟨st, hst, _, rfl, _, hlf, _, _, sb, _, rb, _, l1, _, l2, _, s1, h1, s2, h2, s3, h3, rfl⟩ := he
    have hl := finished_iff.1 hlf
    set st' : Stream := { st with remaining := sb, status := .completed true } with hst'
    have hnl : ¬ st'.live := by simp [Stream.live, hst']
    have key := file_full (s := { s with ledger := l2, streams := upd s.streams id (some st') }) (s1 := s1) (s2 := s2) (s3 := s3)
      (libInv_upd (s := { s with ledger := l2 }) ⟨h.lib.ref, h.lib.nodup⟩ hst hl rfl rfl) hf.sorted (id := id) (st := st')
      (upd_same _ _ _) hnl
      (by
        intro i t ht
        have ht' : upd s.streams id (some st') i = some t := ht
        by_cases e : i = id
        · subst e; rw [upd_same] at ht'; cases ht'; exact hf.listed.recv i st hst
        · rw [upd_of_ne _ _ e] at ht'; exact hf.listed.recv i t ht')
      (by
        intro i t hne ht htl
        have ht' : upd s.streams id (some st') i = some t := ht
        rw [upd_of_ne _ _ hne] at ht'
        exact hf.listed.fin i t ht' htl)
      h1 h2 h3
    refine ⟨⟨key.1.sorted, ⟨key.1.listed.recv, key.1.listed.fin⟩⟩, fun i t ht hn => ?_⟩
    by_cases e : i = id
    · subst e
      rw [hst] at ht; cases ht
      exact key.2 i st' (upd_same _ _ _) hn
    · exact key.2 i t (by show upd s.streams id (some st') i = _; rw [upd_of_ne _ _ e]; exact ht) hn
  | withdraw who id amt =>
    simp only [exec] at he
    unfold withdraw at he
    simp only [bind_ok_iff, okOr_ok_iff, ensure_ok_iff, pure_ok_iff] at he
    obtain ⟨st, hst, _, rfl, _, hlf, _, _, _, _, rb, _, _, _, st', hde, s3, hff, l, _, rfl⟩ := he
    have hl := finished_iff.1 hlf
    have hpar : st'.sender = st.sender ∧ st'.recipient = st.recipient := by
      unfold Stream.deduct at hde
      simp only [bind_ok_iff, csub_ok_iff, pure_ok_iff] at hde
      obtain ⟨_, _, rfl⟩ := hde
      exact ⟨rfl, rfl⟩
    have hrecv : ∀ i t, upd s.streams id (some st') i = some t → i ∈ s.lib (t.recipient, .receive) := by
      intro i t ht
      by_cases e : i = id
      · subst e; rw [upd_same] at ht; cases ht; rw [hpar.2]; exact hf.listed.recv i st hst
      · rw [upd_of_ne _ _ e] at ht; exact hf.listed.recv i t ht
    have hfin : ∀ i t, i ≠ id → upd s.streams id (some st') i = some t → ¬ t.live →
        i ∈ s.lib (t.sender, .finish) ∧ i ∈ s.lib (t.recipient, .finish) := by
      intro i t hne ht htl
      rw [upd_of_ne _ _ hne] at ht
      exact hf.listed.fin i t ht htl
    unfold fileFinished at hff
    split_ifs at hff with hfi
    · simp only [bind_ok_iff] at hff
      obtain ⟨s1, h1, s2, h2, h3⟩ := hff
      have hnl : ¬ st'.live := fun e => by rw [finished_iff.2 e] at hfi; cases hfi
      rw [← hpar.2] at h2 h3
      have key := file_full (s := { s with streams := upd s.streams id (some st') }) (s1 := s1) (s2 := s2) (s3 := s3)
        (libInv_upd h.lib hst hl hpar.1 hpar.2) hf.sorted (id := id) (st := st')
        (upd_same _ _ _) hnl hrecv hfin h1 h2 h3
      refine ⟨⟨key.1.sorted, ⟨key.1.listed.recv, key.1.listed.fin⟩⟩, fun i t ht hn => ?_⟩
      by_cases e : i = id
      · subst e
        rw [hst] at ht; cases ht
        obtain ⟨w, e1, e2⟩ := key.2 i st' (upd_same _ _ _) hn
        exact ⟨w, by rw [hpar.1, hpar.2] at e1; exact e1, e2⟩
      · exact key.2 i t (by show upd s.streams id (some st') i = _; rw [upd_of_ne _ _ e]; exact ht) hn
    · simp only [Except.ok.injEq] at hff
      subst hff
      have hlv : st'.live := by
        cases hh : st'.finished with
        | true => exact absurd hh hfi
        | false => exact finished_iff.1 hh
      refine ⟨⟨hf.sorted, ⟨hrecv, fun i t ht htl => ?_⟩⟩, fun i t ht hn => ?_⟩
      · by_cases e : i = id
        · subst e
          have : upd s.streams i (some st') i = some t := ht
          rw [upd_same] at this; cases this; exact absurd hlv htl
        · exact hfin i t e ht htl
      · have hn' : upd s.streams id (some st') i = none := hn
        by_cases e : i = id
        · subst e; rw [upd_same] at hn'; cases hn'
        · rw [upd_of_ne _ _ e, ht] at hn'; cases hn'
  | setMin a m =>
    have : Except.ok _ = Except.ok s' := he
    cases this
    refine ⟨⟨hf.sorted, ⟨hf.listed.recv, hf.listed.fin⟩⟩, fun i t ht hn => ?_⟩
    have hn' : s.streams i = none := hn
    rw [ht] at hn'; cases hn'

theorem Reach.full {c : Cfg} (hc : c.OK) {s : State} (h : Reach c s) : Full s := by
  induction h with
  | init l m now hw => exact ⟨fun a k => List.Pairwise.nil, ⟨(fun _ _ h => by cases h), (fun _ _ h _ => by cases h)⟩⟩
  | step h hs ih =>
    cases hs with
    | call k hk he => exact (full_call (h.inv hc) ih he).1
    | env e =>
      refine ⟨fun a k => by rw [e.lib]; exact ih.sorted a k, ⟨?_, ?_⟩⟩
      · rw [e.lib, e.streams]; exact ih.listed.recv
      · rw [e.lib, e.streams]; exact ih.listed.fin

/-- C87 (a): every list of the library is strictly descending: no repetitions, the newest stream first. -/
theorem C87_newest_first {c : Cfg} (hc : c.OK) {s : State} (h : Reach c s) (a : Nat) (k : Kind) :
    (s.lib (a, k)).Pairwise (· > ·) := (h.full hc).sorted a k

/-- C87 (b): nothing is missing: a stored stream is in its recipient's list of incoming streams, and a finished one in
both parties' lists of finished streams. -/
theorem C87_nothing_missing {c : Cfg} (hc : c.OK) {s : State} (h : Reach c s) {id : Nat} {st : Stream}
    (hst : s.streams id = some st) :
    id ∈ s.lib (st.recipient, .receive) ∧
    (¬ st.live → id ∈ s.lib (st.sender, .finish) ∧ id ∈ s.lib (st.recipient, .finish)) :=
  ⟨(h.full hc).listed.recv id st hst, (h.full hc).listed.fin id st hst⟩

/-- C87 (c): only the oldest finished stream of one of its parties is ever archived: all finished streams that stay in
that party's list are newer. -/
theorem C87_archives_oldest {c : Cfg} (hc : c.OK) {s s' : State} (h : Reach c s) (hs : Step c s s') {id : Nat}
    {st : Stream} (hst : s.streams id = some st) (hn : s'.streams id = none) :
    ∃ a, (st.sender = a ∨ st.recipient = a) ∧ ∀ x ∈ s'.lib (a, .finish), id < x := by
  cases hs with
  | call k hk he => exact (full_call (h.inv hc) (h.full hc) he).2 id st hst hn
  | env e => rw [e.streams, hst] at hn; cases hn

-- with room for two finished streams, cancelling a third archives the first
example : okAnd (do
    let s ← create exCfg ex0 7 8 1000 1 10 110 true
    let s ← create exCfg s 7 8 1000 1 10 110 true
    let s ← create exCfg s 7 8 1000 1 10 110 true
    let s ← cancel exCfg s 7 1
    let s ← cancel exCfg s 7 0
    pure s) (fun s => okAnd (cancel exCfg s 7 2) (fun s' => s.streams 0 ≠ none && s'.streams 0 = none &&
      s'.streams 1 ≠ none && s'.streams 2 ≠ none)) = true := by decide +kernel

end Verif.Streaming
