import Verif.Bridge.Props

/-!
# Bridge: properties C106-C110 (exact acceptance of teleports and votes, administration, gift, proposal life)
-/

set_option linter.unusedSimpArgs false

namespace Verif.Bridge
open Verif

variable {c : Cfg} {s s' : State}

/-! ## C106: teleports -/

theorem takeIn_succeeds (hw : s.ledger.WF) {tok : Token} {a w m : Nat} (hf : tok.fee ≤ m) (hb : m ≤ s.ledger.bal a w) :
    ∃ l, takeIn c s.ledger tok a w m = .ok l := by
  unfold takeIn
  split_ifs
  · obtain ⟨l, hl⟩ := Ledger.burn_succeeds (l := s.ledger) hb
    have h1 := Ledger.burn_iss hl a
    rw [if_pos rfl] at h1
    have h2 := Ledger.bal_le_iss hw a w
    have h3 := (hw a).2
    obtain ⟨l', hl'⟩ := Ledger.mint_succeeds (l := l) (a := a) (w := c.acct) (m := tok.fee) (by omega)
    exact ⟨l', by rw [bind_ok_iff]; exact ⟨l, hl, hl'⟩⟩
  · exact Ledger.transfer_succeeds hb (by simp)

theorem takeIn_le {tok : Token} {l : Ledger} {a w m : Nat} (h : takeIn c s.ledger tok a w m = .ok l) :
    m ≤ s.ledger.bal a w := by
  unfold takeIn at h
  split_ifs at h
  · rw [bind_ok_iff] at h
    obtain ⟨l1, h1, _⟩ := h
    exact Ledger.burn_le h1
  · exact Ledger.transfer_le h

/-- C106: a teleport is accepted exactly when the target chain and the token are registered, the token is enabled, the
amount is positive, covers the fee, is owned by the caller and fits under the cap (and no counter overflows). -/
theorem C106_teleport_iff (h : Reach c s) {w ch t d m : Nat} :
    (∃ s', teleport c s w ch t d m = .ok s') ↔
      ∃ k a tok, s.nonces ch = some k ∧ s.assetIds t = some a ∧ s.tokens a = some tok ∧ tok.enable = true ∧ 0 < m ∧
        tok.fee ≤ m ∧ m ≤ s.ledger.bal a w ∧ tok.outAmount + m ≤ tok.outCap ∧ tok.outAmount + m ≤ maxU128 ∧
        k < maxU64 := by
  constructor
  · rintro ⟨s', ht⟩
    obtain ⟨k, l, hk, h2, hm, hen, hcap, hfee, hn, hl, _⟩ := teleport_ok ht
    obtain ⟨tok, h3, h4, _, h5⟩ := h.inv.token_get h2
    rw [h5] at hcap hfee hen hl
    refine ⟨k, _, tok, hk, h3, h4, hen, hm, hfee, takeIn_le hl, hcap, ?_, hn⟩
    unfold teleport at ht
    simp only [bind_ok_iff, ensure_ok_iff, pure_ok_iff, exists_const] at ht
    obtain ⟨_, _, _, _, s1, hs1, _⟩ := ht
    unfold updateCap at hs1
    simp only [bind_ok_iff, underCap_out, pure_ok_iff] at hs1
    obtain ⟨_, ⟨h6, _⟩, _⟩ := hs1
    rw [h5] at h6
    exact h6
  · rintro ⟨k, a, tok, hk, h3, h4, hen, hm, hfee, hb, hcap, hov, hn⟩
    have e : s.assetId t = a := by simp [State.assetId, h3]
    have e' : s.token (s.assetId t) = tok := by rw [e]; simp [State.token, h4]
    obtain ⟨l, hl⟩ := takeIn_succeeds (c := c) h.inv.wf hfee hb
    have hu : updateCap s (s.assetId t) m .out = .ok { s with
        tokens := upd s.tokens (s.assetId t) (some { tok with outAmount := tok.outAmount + m }) } := by
      unfold updateCap
      simp only [bind_ok_iff, underCap_out, pure_ok_iff]
      rw [e']
      exact ⟨_, ⟨hov, hcap, rfl⟩, rfl⟩
    have hk' : (s.nonces ch).getD 0 + 1 ≤ maxU64 := by rw [hk]; exact hn
    unfold teleport
    simp only [bind_ok_iff, ensure_ok_iff, pure_ok_iff, exists_const, csub_ok_iff]
    exact ⟨_, by rw [hk]; rfl, by rw [h3]; rfl, hm, by rw [e']; exact hen, _, hu, l, by rw [e', e]; exact hl, _,
      ⟨by rw [e']; exact hfee, rfl⟩, hk', rfl⟩

example : okAnd (teleport exCfg ex1 7 9 100 5 400) (fun _ => true) ∧
    errIs (teleport exCfg ex1 7 9 100 5 401) .bridgeOutCapExceeded ∧
    errIs (teleport exCfg ex1 7 9 100 5 2) .bridgingAmountTooLow ∧
    errIs (teleport exCfg ex1 7 8 100 5 40) .chainIdNotRegistered := by decide +kernel

/-! ## C107: votes -/

/-- Recording nonce `n` of chain `ch` does not trap. -/
def Bookable (s : State) (ch n : Nat) : Prop :=
  ∀ reg, s.registry ch = some reg → ∀ r ∈ reg, n < maxU64 ∧ (n ≠ 0 ∨ r.1 = 1)

/-- The gift a recipient with native balance `have_` gets for a transfer of `amount`, when the gift account holds
`pot`: if the promised gift `g` is positive, not more than the pot, and the recipient has at most `g` (counting one
unit as locked), the balance is topped up to `g` plus the existential deposit. -/
def giftOf (c : Cfg) (asset amount have_ pot : Nat) : Nat :=
  if c.giftConv amount asset ≠ 0 ∧ c.giftConv amount asset ≤ pot ∧ have_ - 1 < c.giftConv amount asset then
    c.ed + c.giftConv amount asset - (have_ - 1)
  else 0

/-- The payout of `call` in asset `a` can be made. -/
def Payable (c : Cfg) (s : State) (a : Nat) (tok : Token) (call : MCall) : Prop :=
  (if tok.external = true then s.ledger.iss a + call.amount ≤ maxU128 else call.amount < s.ledger.bal a c.acct) ∧
  giftOf c a call.amount (s.ledger.bal c.native call.dest) (s.ledger.bal c.native c.gift) ≤ s.ledger.bal c.native c.gift ∧
  (giftOf c a call.amount (s.ledger.bal c.native call.dest) (s.ledger.bal c.native c.gift) ≠ 0 →
    c.ed + c.giftConv call.amount a ≤ maxU128)

theorem addNonce_total {reg : List (Nat × Nat)} {n : Nat} :
    (∃ r, addNonce reg n = .ok r) ↔ ∀ r ∈ reg, n < maxU64 ∧ (n ≠ 0 ∨ r.1 = 1) := by
  unfold addNonce
  simp only [bind_ok_iff, ensure_ok_iff, pure_ok_iff, exists_const]
  constructor
  · rintro ⟨_, h, _⟩ r hr
    refine ⟨(h r hr).1, ?_⟩
    rcases (h r hr).2 with e | e
    · by_cases h0 : n = 0
      · subst h0; exact .inr e
      · exact .inl h0
    · exact .inl e
  · intro h
    refine ⟨_, ?_, rfl⟩
    intro r hr
    refine ⟨(h r hr).1, ?_⟩
    rcases (h r hr).2 with e | e
    · exact .inr e
    · by_cases h0 : n = 0
      · subst h0; exact .inl e
      · exact .inr h0

theorem updateRegistry_total {ch n : Nat} : (∃ t, updateRegistry s ch n = .ok t) ↔ Bookable s ch n := by
  unfold updateRegistry Bookable
  cases hr : s.registry ch with
  | none => simp
  | some reg =>
    simp only [bind_ok_iff, pure_ok_iff, Option.some.injEq]
    constructor
    · rintro ⟨_, r, h, _⟩ reg' rfl
      exact addNonce_total.1 ⟨r, h⟩
    · intro h
      obtain ⟨r, hr⟩ := addNonce_total.2 (h reg rfl)
      exact ⟨_, r, hr, rfl⟩

theorem giftOf_zero_of {a m hv pot : Nat}
    (h : ¬ (c.giftConv m a ≠ 0 ∧ c.giftConv m a ≤ pot ∧ hv - 1 < c.giftConv m a)) : giftOf c a m hv pot = 0 := if_neg h

theorem giftOf_pos {a m hv pot : Nat} (h : giftOf c a m hv pot ≠ 0) :
    c.giftConv m a ≠ 0 ∧ c.giftConv m a ≤ pot ∧ hv - 1 < c.giftConv m a := by
  by_contra hn
  exact h (giftOf_zero_of hn)

/-- What the gift step does. -/
theorem grantBonus_iff {l l' : Ledger} {w a m : Nat} : grantBonus c l w a m = .ok l' ↔
    (giftOf c a m (l.bal c.native w) (l.bal c.native c.gift) ≠ 0 → c.ed + c.giftConv m a ≤ maxU128) ∧
    l.transfer c.native c.gift w (giftOf c a m (l.bal c.native w) (l.bal c.native c.gift)) false = .ok l' := by
  have e1 : l.reducible c.native w true = l.bal c.native w - 1 := rfl
  have e2 : l.reducible c.native c.gift false = l.bal c.native c.gift := rfl
  unfold grantBonus
  simp only [e1, e2]
  by_cases h : c.giftConv m a ≠ 0 ∧ c.giftConv m a ≤ l.bal c.native c.gift ∧ l.bal c.native w - 1 < c.giftConv m a
  · have hg : giftOf c a m (l.bal c.native w) (l.bal c.native c.gift) = c.ed + c.giftConv m a - (l.bal c.native w - 1) :=
      if_pos h
    rw [if_pos h, hg]
    simp only [bind_ok_iff, ensure_ok_iff, exists_const]
    constructor
    · rintro ⟨h1, h2⟩; exact ⟨fun _ => h1, h2⟩
    · rintro ⟨h1, h2⟩
      exact ⟨h1 (by obtain ⟨_, _, _⟩ := h; omega), h2⟩
  · rw [if_neg h, giftOf_zero_of h]
    have : l.transfer c.native c.gift w 0 false = .ok l := if_pos rfl
    rw [this]
    simp

/-- The payout and the gift. -/
theorem pay_total {call : MCall} {a : Nat} {tok : Token} (hm : 0 < call.amount)
    (hnat : a ≠ c.native) :
    (∃ l l', payOut c s.ledger tok a call = .ok l ∧ grantBonus c l call.dest a call.amount = .ok l') ↔
      Payable c s a tok call := by
  have key : ∀ {l : Ledger}, payOut c s.ledger tok a call = .ok l → ∀ w, l.bal c.native w = s.ledger.bal c.native w := by
    intro l hl w
    unfold payOut at hl
    split_ifs at hl
    · rw [Ledger.mint_bal hl, if_neg (fun e => hnat e.1.symm)]; rfl
    · have := Ledger.transfer_bal hl c.native w
      rw [if_neg (fun e => hnat e.1.symm), if_neg (fun e => hnat e.1.symm)] at this
      exact this
  unfold Payable
  constructor
  · rintro ⟨l, l', h1, h2⟩
    rw [grantBonus_iff, key h1, key h1] at h2
    refine ⟨?_, ?_, h2.1⟩
    · unfold payOut at h1
      split_ifs at h1 with he
      · rw [if_pos he]; exact Ledger.mint_le h1
      · rw [if_neg he]
        unfold Ledger.transfer at h1
        rw [if_neg (by omega)] at h1
        by_contra hlt
        by_cases h3 : s.ledger.bal a c.acct < call.amount
        · rw [if_pos h3] at h1; cases h1
        · rw [if_neg h3, if_pos ⟨rfl, by omega⟩] at h1; cases h1
    · have h4 := Ledger.transfer_le h2.2
      rw [key h1] at h4
      exact h4
  · rintro ⟨h1, h2, h3⟩
    have hl : ∃ l, payOut c s.ledger tok a call = .ok l := by
      unfold payOut
      split_ifs at h1 ⊢
      · exact Ledger.mint_succeeds h1
      · exact Ledger.transfer_succeeds (by omega) (fun _ => h1)
    obtain ⟨l, hl⟩ := hl
    have hk := key hl
    obtain ⟨l', hl'⟩ := Ledger.transfer_succeeds (l := l) (a := c.native) (s := c.gift) (d := call.dest)
      (m := giftOf c a call.amount (s.ledger.bal c.native call.dest) (s.ledger.bal c.native c.gift)) (k := false)
      (by rw [hk]; exact h2) (by simp)
    exact ⟨l, l', hl, grantBonus_iff.2 (by rw [hk, hk]; exact ⟨h3, hl'⟩)⟩

theorem execute_total {ch n : Nat} {call : MCall} {a : Nat} {tok : Token} (hn : (s.nonces ch).isSome)
    (ha : s.assetIds call.token = some a) (ht : s.tokens a = some tok) (hm : 0 < call.amount)
    (hcap : tok.inAmount + call.amount ≤ tok.inCap) (hov : tok.inAmount + call.amount ≤ maxU128) (hnat : a ≠ c.native) :
    (∃ t, execute c s ch n call = .ok t) ↔ Payable c s a tok call ∧ Bookable s ch n := by
  have e : s.assetId call.token = a := by simp [State.assetId, ha]
  have e' : s.token a = tok := by simp [State.token, ht]
  constructor
  · rintro ⟨t, h⟩
    obtain ⟨_, _, l, l', reg', h1, h2, hr, _⟩ := execute_ok h
    rw [e, e'] at h1
    rw [e] at h2
    refine ⟨(pay_total hm hnat).1 ⟨l, l', h1, h2⟩, ?_⟩
    intro reg hreg
    rcases hr with ⟨h0, _⟩ | ⟨reg0, r, h0, hadd, _⟩
    · rw [hreg] at h0; cases h0
    · rw [hreg] at h0; cases h0
      exact addNonce_total.1 ⟨r, hadd⟩
  · rintro ⟨hp, hb⟩
    obtain ⟨l, l', h1, h2⟩ := (pay_total hm hnat).2 hp
    have hu : updateCap s a call.amount .inn = .ok { s with
        tokens := upd s.tokens a (some { tok with inAmount := tok.inAmount + call.amount }) } := by
      unfold updateCap
      simp only [bind_ok_iff, underCap_in, pure_ok_iff]
      rw [e']
      exact ⟨_, ⟨hov, hcap, rfl⟩, rfl⟩
    have hp' : payOut c s.ledger (State.token { s with
        tokens := upd s.tokens a (some { tok with inAmount := tok.inAmount + call.amount }) } a) a call = .ok l := by
      have : State.token { s with
        tokens := upd s.tokens a (some { tok with inAmount := tok.inAmount + call.amount }) } a =
          { tok with inAmount := tok.inAmount + call.amount } := by simp [State.token]
      rw [this]
      exact h1
    obtain ⟨t, ht'⟩ := (updateRegistry_total (s := { s with
        tokens := upd s.tokens a (some { tok with inAmount := tok.inAmount + call.amount })
        ledger := l' }) (ch := ch) (n := n)).2 hb
    unfold execute
    simp only [bind_ok_iff, ensure_ok_iff, pure_ok_iff, exists_const]
    rw [e]
    exact ⟨_, hn, by rw [ha]; rfl, _, hu, l, hp', l', h2, t, ht', rfl⟩

/-- Who votes: the root operator for the root origin, otherwise a relay member itself. -/
def IsVoter (c : Cfg) (s : State) (o : Option Nat) (w : Nat) : Prop :=
  (o = none ∧ w = c.rootOp) ∨ (o = some w ∧ w ∈ s.members)

/-- The proposal takes a vote of `w`: it has the approvals `vf` and rejections `va`, none of them by `w`, and has not
been decided or expired; or it does not exist yet. -/
def Opens (c : Cfg) (s : State) (ch n : Nat) (call : MCall) (w : Nat) (vf va : List Nat) : Prop :=
  (∃ e, s.props ch (n, call) = some ⟨vf, va, .initiated, e⟩ ∧ s.now < e ∧ w ∉ vf ∧ w ∉ va) ∨
  (s.props ch (n, call) = none ∧ vf = [] ∧ va = [] ∧ 0 < c.lifetime ∧ s.now + c.lifetime ≤ maxU32)

theorem opens_iff {ch n w : Nat} {call : MCall} {vf va : List Nat} : Opens c s ch n call w vf va ↔
    ∃ p, openProp c s ch n call = .ok p ∧ p.status = .initiated ∧ s.now < p.expiry ∧ p.hasVoted w = false ∧
      p.votesFor = vf ∧ p.votesAgainst = va := by
  unfold Opens openProp
  cases hp : s.props ch (n, call) with
  | none =>
    simp only [bind_ok_iff, ensure_ok_iff, pure_ok_iff, exists_const, Proposal.hasVoted]
    constructor
    · rintro (⟨e, h, _⟩ | ⟨_, rfl, rfl, h1, h2⟩)
      · cases h
      · exact ⟨_, ⟨h2, rfl⟩, rfl, by show s.now < s.now + c.lifetime; omega, rfl, rfl, rfl⟩
    · rintro ⟨p, ⟨h1, rfl⟩, _, h3, _, rfl, rfl⟩
      right
      dsimp only at h3
      exact ⟨trivial, rfl, rfl, by omega, h1⟩
  | some q =>
    constructor
    · rintro (⟨e, h, h1, h2, h3⟩ | ⟨h, _⟩)
      · cases h
        exact ⟨_, rfl, rfl, h1, by simp [Proposal.hasVoted, h2, h3], rfl, rfl⟩
      · cases h
    · rintro ⟨p, h, h1, h2, h3, rfl, rfl⟩
      left
      cases h
      simp only [Proposal.hasVoted, Bool.or_eq_false_iff, List.contains_eq_mem, decide_eq_false_iff_not] at h3
      refine ⟨q.expiry, ?_, h2, h3.1, h3.2⟩
      cases q
      simp_all

theorem materializeAllowed_iff (hi : Inv c s) {t m : Nat} {u : Unit} : materializeAllowed s t m = .ok u ↔
    ∃ a tok, s.assetIds t = some a ∧ s.tokens a = some tok ∧ tok.enable = true ∧ 0 < m ∧
      tok.inAmount + m ≤ tok.inCap ∧ tok.inAmount + m ≤ maxU128 := by
  unfold materializeAllowed
  simp only [bind_ok_iff, ensure_ok_iff, exists_const, underCap_in]
  constructor
  · rintro ⟨h1, h2, x, ⟨h3, h4, rfl⟩, h5⟩
    obtain ⟨tok, g1, g2, _, g3⟩ := hi.token_get h1
    rw [g3] at h2 h3 h4
    exact ⟨_, tok, g1, g2, h2, h5, h4, h3⟩
  · rintro ⟨a, tok, h1, h2, h3, h4, h5, h6⟩
    have e : s.assetId t = a := by simp [State.assetId, h1]
    have e' : s.token a = tok := by simp [State.token, h2]
    rw [e, e']
    exact ⟨by rw [h1]; rfl, h3, _, ⟨h6, h5, rfl⟩, h4⟩

theorem relayMember_iff {o : Option Nat} {w : Nat} : relayMember c s o = .ok w ↔ IsVoter c s o w := by
  constructor
  · exact relayMember_ok
  · rintro (⟨rfl, rfl⟩ | ⟨rfl, h⟩)
    · rfl
    · unfold relayMember
      rw [bind_ok_iff]
      exact ⟨(), by rw [ensure_ok_iff]; exact h, rfl⟩

theorem resolve_cases {q : Proposal} {ch n : Nat} {call : MCall} (hq : s.props ch (n, call) = some q)
    (hst : q.status = .initiated) (hex : s.now < q.expiry) :
    (s.threshold ≤ q.votesFor.length → resolve c s ch n call =
      execute c (setProp s ch n call { q with status := .approved }) ch n call) ∧
    (¬ s.threshold ≤ q.votesFor.length → s.threshold ≤ s.members.length ∧
      s.members.length < q.votesAgainst.length + s.threshold → resolve c s ch n call =
      cancelMat (setProp s ch n call { q with status := .rejected }) ch n) ∧
    (¬ s.threshold ≤ q.votesFor.length → ¬ (s.threshold ≤ s.members.length ∧
      s.members.length < q.votesAgainst.length + s.threshold) → resolve c s ch n call = .ok (setProp s ch n call q)) := by
  have e : resolve c s ch n call = match (q.tryComplete s.threshold s.members.length).2 with
      | .approved => execute c (setProp s ch n call (q.tryComplete s.threshold s.members.length).1) ch n call
      | .rejected => cancelMat (setProp s ch n call (q.tryComplete s.threshold s.members.length).1) ch n
      | .initiated => pure (setProp s ch n call (q.tryComplete s.threshold s.members.length).1) := by
    unfold resolve
    rw [hq]
    simp only [okOr, ensure, hst, hex, bind, Except.bind, if_true]
    cases (q.tryComplete s.threshold s.members.length).2 <;> rfl
  rw [e]
  refine ⟨?_, ?_, ?_⟩
  · intro h1
    have : q.tryComplete s.threshold s.members.length = ({ q with status := .approved }, .approved) := if_pos h1
    rw [this]
  · intro h1 h2
    have : q.tryComplete s.threshold s.members.length = ({ q with status := .rejected }, .rejected) := by
      unfold Proposal.tryComplete
      rw [if_neg h1, if_pos h2]
    rw [this]
  · intro h1 h2
    have : q.tryComplete s.threshold s.members.length = (q, .initiated) := by
      unfold Proposal.tryComplete
      rw [if_neg h1, if_neg h2]
    rw [this]
    rfl

/-- C107: a vote is accepted exactly when the voter is a relay member (or root), the chain and the enabled token are
registered, the nonce is not resolved, the amount is positive and fits under the cap, and the proposal is new or still
open without a vote of this member; a vote that decides the proposal also needs the payout (or, for a rejection, only
the bookkeeping) to be possible. -/
theorem C107_vote_iff (h : Reach c s) {o : Option Nat} {ch n : Nat} {call : MCall} {f : Bool}
    (hnat : s.assetIds call.token ≠ some c.native) :
    (∃ s', materialize c s o ch n call f = .ok s') ↔
      ∃ w a tok vf va, IsVoter c s o w ∧ s.nonces ch ≠ none ∧ hasBridged s ch n = false ∧
        s.assetIds call.token = some a ∧ s.tokens a = some tok ∧ tok.enable = true ∧ 0 < call.amount ∧
        tok.inAmount + call.amount ≤ tok.inCap ∧ tok.inAmount + call.amount ≤ maxU128 ∧
        Opens c s ch n call w vf va ∧
        (s.threshold ≤ vf.length + (if f = true then 1 else 0) → Payable c s a tok call ∧ Bookable s ch n) ∧
        (vf.length + (if f = true then 1 else 0) < s.threshold → s.threshold ≤ s.members.length →
          s.members.length < va.length + (if f = true then 0 else 1) + s.threshold → Bookable s ch n) := by
  have hi := h.inv
  unfold materialize
  simp only [bind_ok_iff, ensure_ok_iff, exists_const]
  have res : ∀ (w : Nat) (p : Proposal), openProp c s ch n call = .ok p → p.hasVoted w = false →
      p.status = .initiated → s.now < p.expiry → (s.nonces ch).isSome →
      ∀ a tok, s.assetIds call.token = some a → s.tokens a = some tok → 0 < call.amount →
        tok.inAmount + call.amount ≤ tok.inCap → tok.inAmount + call.amount ≤ maxU128 →
      ((∃ t, resolve c (castVote s p ch n w call f) ch n call = .ok t) ↔
        (s.threshold ≤ p.votesFor.length + (if f = true then 1 else 0) → Payable c s a tok call ∧ Bookable s ch n) ∧
        (p.votesFor.length + (if f = true then 1 else 0) < s.threshold → s.threshold ≤ s.members.length →
          s.members.length < p.votesAgainst.length + (if f = true then 0 else 1) + s.threshold → Bookable s ch n)) := by
    intro w p hp hv hst hex hn a tok ha ht hm hcap hov
    have hlf : (voted p w f).votesFor.length = p.votesFor.length + (if f = true then 1 else 0) := by
      cases f <;> simp [voted]
    have hla : (voted p w f).votesAgainst.length = p.votesAgainst.length + (if f = true then 0 else 1) := by
      cases f <;> simp [voted]
    have hvs : (voted p w f).status = .initiated := by cases f <;> simpa [voted] using hst
    have hve : s.now < (voted p w f).expiry := by cases f <;> simpa [voted] using hex
    rw [castVote_eq]
    have hget : (setProp s ch n call (voted p w f)).props ch (n, call) = some (voted p w f) := by
      simp [setProp]
    have hset : ∀ st, setProp { setProp s ch n call (voted p w f) with
        events := voteEvent s ch n w call f :: s.events } ch n call { voted p w f with status := st } =
        afterVote s p ch n w call f st := by
      intro st
      unfold afterVote setProp
      simp
    obtain ⟨r1, r2, r3⟩ := resolve_cases (c := c) (s := { setProp s ch n call (voted p w f) with
        events := voteEvent s ch n w call f :: s.events }) hget hvs hve
    rw [hset] at r1 r2
    change (s.threshold ≤ _ → _) at r1
    change (¬ s.threshold ≤ _ → s.threshold ≤ s.members.length ∧ s.members.length < _ + s.threshold → _) at r2
    change (¬ s.threshold ≤ _ → ¬ (s.threshold ≤ s.members.length ∧ s.members.length < _ + s.threshold) → _) at r3
    by_cases c1 : s.threshold ≤ (voted p w f).votesFor.length
    · have hex' := execute_total (c := c) (ch := ch) (n := n) (s := afterVote s p ch n w call f .approved) hn
        (a := a) (tok := tok) ha ht hm hcap hov (fun e => hnat (e ▸ ha))
      have hpay : Payable c (afterVote s p ch n w call f .approved) a tok call ↔ Payable c s a tok call := Iff.rfl
      have hbook : Bookable (afterVote s p ch n w call f .approved) ch n ↔ Bookable s ch n := Iff.rfl
      rw [hpay, hbook] at hex'
      rw [r1 c1, hex']
      exact ⟨fun g => ⟨fun _ => g, fun hlt => absurd hlt (by omega)⟩, fun g => g.1 (by omega)⟩
    · by_cases c2 : s.threshold ≤ s.members.length ∧ s.members.length < (voted p w f).votesAgainst.length + s.threshold
      · have hex' : (∃ t, cancelMat (afterVote s p ch n w call f .rejected) ch n = .ok t) ↔ Bookable s ch n := by
          have hb : Bookable (afterVote s p ch n w call f .rejected) ch n ↔ Bookable s ch n := Iff.rfl
          rw [← hb, ← updateRegistry_total]
          unfold cancelMat
          simp only [bind_ok_iff, pure_ok_iff]
          exact ⟨fun ⟨_, x, hx, _⟩ => ⟨x, hx⟩, fun ⟨x, hx⟩ => ⟨_, x, hx, rfl⟩⟩
        rw [r2 c1 c2, hex']
        exact ⟨fun g => ⟨fun hlt => absurd hlt (by omega), fun _ _ _ => g⟩, fun g => g.2 (by omega) c2.1 (by omega)⟩
      · rw [r3 c1 c2]
        exact ⟨fun _ => ⟨fun hlt => absurd hlt (by omega), fun _ h2 h3 => absurd ⟨h2, by omega⟩ c2⟩, fun _ => ⟨_, rfl⟩⟩
  constructor
  · rintro ⟨s', w, hw, hn, hb, u, hu, p, hp, hst, hex, hv, hr⟩
    obtain ⟨a, tok, h1, h2, h3, h4, h5, h6⟩ := (materializeAllowed_iff hi).1 hu
    have := (res w p hp hv hst hex hn a tok h1 h2 h4 h5 h6).1 ⟨s', hr⟩
    exact ⟨w, a, tok, p.votesFor, p.votesAgainst, relayMember_iff.1 hw, Option.isSome_iff_ne_none.1 hn, hb, h1, h2, h3, h4,
      h5, h6, opens_iff.2 ⟨p, hp, hst, hex, hv, rfl, rfl⟩, this.1, this.2⟩
  · rintro ⟨w, a, tok, vf, va, hw, hn, hb, h1, h2, h3, h4, h5, h6, ho, hd⟩
    obtain ⟨p, hp, hst, hex, hv, rfl, rfl⟩ := opens_iff.1 ho
    have hn' := Option.isSome_iff_ne_none.2 hn
    obtain ⟨t, ht⟩ := (res w p hp hv hst hex hn' a tok h1 h2 h4 h5 h6).2 hd
    exact ⟨t, w, relayMember_iff.2 hw, hn', hb, (), (materializeAllowed_iff hi).2 ⟨a, tok, h1, h2, h3, h4, h5, h6⟩, p, hp,
      hst, hex, hv, ht⟩

example : okAnd (materialize exCfg ex1 (some 11) 9 4 exPay true) (fun _ => true) ∧
    errIs (materialize exCfg ex1 (some 14) 9 4 exPay true) .originNoPermission ∧
    errIs (materialize exCfg ex2 (some 11) 9 4 exPay true) .memberAlreadyVoted ∧
    errIs (materialize exCfg ex1 (some 11) 9 4 ⟨100, 8, 401⟩ true) .bridgeInCapExceeded ∧
    errIs (materialize exCfg ex1 (some 11) 9 4 ⟨100, 8, 0⟩ true) .bridgingAmountTooLow := by decide +kernel

/-! ## C108: administration -/

/-- C108: a chain is registered exactly when it is another chain and not registered; it then starts with outgoing nonce 0
and no resolved nonce, and nothing else changes. -/
theorem C108_register_chain {ch : Nat} :
    (registerChain c s ch = .ok s' ↔ (ch ≠ c.chainId ∧ s.nonces ch = none) ∧
      s'.nonces ch = some 0 ∧ s'.registry ch = some [] ∧
      (∀ x, x ≠ ch → s'.nonces x = s.nonces x ∧ s'.registry x = s.registry x) ∧
      s'.events = .registered ch :: s.events ∧ s'.ledger = s.ledger ∧ s'.threshold = s.threshold ∧
      s'.tokens = s.tokens ∧ s'.assetIds = s.assetIds ∧ s'.props = s.props ∧ s'.members = s.members ∧ s'.now = s.now) := by
  unfold registerChain
  simp only [bind_ok_iff, ensure_ok_iff, pure_ok_iff, exists_const]
  constructor
  · rintro ⟨h, rfl⟩
    exact ⟨h, upd_same _ _ _, upd_same _ _ _, fun x hx => ⟨upd_of_ne _ _ hx, upd_of_ne _ _ hx⟩, rfl, rfl, rfl, rfl, rfl, rfl,
      rfl, rfl⟩
  · rintro ⟨h, h1, h2, h3, e1, e2, e3, e4, e5, e6, e7, e8⟩
    refine ⟨h, ?_⟩
    have n1 : s'.nonces = upd s.nonces ch (some 0) := by
      funext x
      by_cases hx : x = ch
      · subst hx; rw [h1, upd_same]
      · rw [(h3 x hx).1, upd_of_ne _ _ hx]
    have n2 : s'.registry = upd s.registry ch (some []) := by
      funext x
      by_cases hx : x = ch
      · subst hx; rw [h2, upd_same]
      · rw [(h3 x hx).2, upd_of_ne _ _ hx]
    cases s'
    simp_all

/-- C108: a chain is unregistered exactly when it is registered; its nonces are forgotten, nothing else changes. -/
theorem C108_unregister_chain {ch : Nat} :
    (unregisterChain s ch = .ok s' ↔ s.nonces ch ≠ none ∧
      s'.nonces ch = none ∧ s'.registry ch = none ∧
      (∀ x, x ≠ ch → s'.nonces x = s.nonces x ∧ s'.registry x = s.registry x) ∧
      s'.events = .removed ch :: s.events ∧ s'.ledger = s.ledger ∧ s'.threshold = s.threshold ∧
      s'.tokens = s.tokens ∧ s'.assetIds = s.assetIds ∧ s'.props = s.props ∧ s'.members = s.members ∧ s'.now = s.now) := by
  unfold unregisterChain
  simp only [bind_ok_iff, ensure_ok_iff, pure_ok_iff, exists_const, Option.isSome_iff_ne_none]
  constructor
  · rintro ⟨h, rfl⟩
    exact ⟨h, upd_same _ _ _, upd_same _ _ _, fun x hx => ⟨upd_of_ne _ _ hx, upd_of_ne _ _ hx⟩, rfl, rfl, rfl, rfl, rfl, rfl,
      rfl, rfl⟩
  · rintro ⟨h, h1, h2, h3, e1, e2, e3, e4, e5, e6, e7, e8⟩
    refine ⟨h, ?_⟩
    have n1 : s'.nonces = upd s.nonces ch none := by
      funext x
      by_cases hx : x = ch
      · subst hx; rw [h1, upd_same]
      · rw [(h3 x hx).1, upd_of_ne _ _ hx]
    have n2 : s'.registry = upd s.registry ch none := by
      funext x
      by_cases hx : x = ch
      · subst hx; rw [h2, upd_same]
      · rw [(h3 x hx).2, upd_of_ne _ _ hx]
    cases s'
    simp_all

/-- The settings of a token after a configuration call. -/
def setting (x : Call) (t : Token) : Token :=
  match x with
  | .setFee _ f => { t with fee := f }
  | .setStatus _ b => { t with enable := b }
  | .setCap _ .out n => { t with outCap := n }
  | .setCap _ .inn n => { t with inCap := n }
  | .cleanCap _ .out => { t with outAmount := 0 }
  | .cleanCap _ .inn => { t with inAmount := 0 }
  | _ => t

/-- The token a configuration call is about. -/
def configures : Call → Option Nat
  | .setFee t _ => some t
  | .setStatus t _ => some t
  | .setCap t _ _ => some t
  | .cleanCap t _ => some t
  | _ => none

/-- C108: fee, status, cap and counter of a token are set exactly when the token is registered, and then exactly as
requested; no other setting, token, balance, nonce or proposal changes. -/
theorem C108_settings (h : Reach c s) {x : Call} {t : Nat} (hx : configures x = some t) :
    (exec c s x = .ok s' ↔ ∃ a tok, s.assetIds t = some a ∧ s.tokens a = some tok ∧
      s' = { s with tokens := upd s.tokens a (some (setting x tok)) }) := by
  have key : ∀ f : Token → Token, mutateToken s t f = .ok s' ↔ ∃ a tok, s.assetIds t = some a ∧ s.tokens a = some tok ∧
      s' = { s with tokens := upd s.tokens a (some (f tok)) } := by
    intro f
    unfold mutateToken
    simp only [bind_ok_iff, ensure_ok_iff, pure_ok_iff, exists_const]
    constructor
    · rintro ⟨h1, rfl⟩
      obtain ⟨tok, g1, g2, _, g3⟩ := h.inv.token_get h1
      exact ⟨_, tok, g1, g2, by rw [g3]⟩
    · rintro ⟨a, tok, h1, h2, rfl⟩
      have e : s.assetId t = a := by simp [State.assetId, h1]
      have e' : s.token a = tok := by simp [State.token, h2]
      rw [e, e']
      exact ⟨by rw [h1]; rfl, rfl⟩
  cases x with
  | setFee t' f => cases hx; exact key (fun k => { k with fee := f })
  | setStatus t' b => cases hx; exact key (fun k => { k with enable := b })
  | setCap t' d n =>
    cases hx
    cases d
    · exact key (fun k => { k with outCap := n })
    · exact key (fun k => { k with inCap := n })
  | cleanCap t' d =>
    cases hx
    cases d
    · exact key (fun k => { k with outAmount := 0 })
    · exact key (fun k => { k with inAmount := 0 })
  | registerChain _ => cases hx
  | unregisterChain _ => cases hx
  | registerToken _ _ => cases hx
  | unregisterToken _ => cases hx
  | teleport _ _ _ _ _ => cases hx
  | materialize _ _ _ _ _ => cases hx

/-- C108: a token is registered exactly when neither the asset nor the bridge id is in use; unregistered exactly when it
is registered, and then both directions of the table forget it. -/
theorem C108_tokens (h : Reach c s) {a : Nat} {tok : Token} {t : Nat} :
    ((∃ s', registerToken s a tok = .ok s') ↔ s.tokens a = none ∧ s.assetIds tok.id = none) ∧
    (∀ s', registerToken s a tok = .ok s' → s'.tokens a = some tok ∧ s'.assetIds tok.id = some a ∧
      (∀ x, x ≠ a → s'.tokens x = s.tokens x) ∧ s'.ledger = s.ledger) ∧
    ((∃ s', unregisterToken s t = .ok s') ↔ s.assetIds t ≠ none) ∧
    (∀ s', unregisterToken s t = .ok s' → s'.assetIds t = none ∧
      (∃ b, s.assetIds t = some b ∧ s'.tokens b = none ∧ ∀ x, x ≠ b → s'.tokens x = s.tokens x) ∧ s'.ledger = s.ledger) := by
  refine ⟨?_, ?_, ?_, ?_⟩
  · unfold registerToken
    simp only [bind_ok_iff, ensure_ok_iff, pure_ok_iff, exists_const]
    exact ⟨fun ⟨_, h, _⟩ => h, fun h => ⟨_, h, rfl⟩⟩
  · intro s' hr
    unfold registerToken at hr
    simp only [bind_ok_iff, ensure_ok_iff, pure_ok_iff, exists_const] at hr
    obtain ⟨_, rfl⟩ := hr
    exact ⟨upd_same _ _ _, upd_same _ _ _, fun x hx => upd_of_ne _ _ hx, rfl⟩
  · unfold unregisterToken
    simp only [bind_ok_iff, ensure_ok_iff, pure_ok_iff, exists_const, Option.isSome_iff_ne_none]
    exact ⟨fun ⟨_, h, _⟩ => h, fun h => ⟨_, h, rfl⟩⟩
  · intro s' hr
    unfold unregisterToken at hr
    simp only [bind_ok_iff, ensure_ok_iff, pure_ok_iff, exists_const] at hr
    obtain ⟨h1, rfl⟩ := hr
    obtain ⟨_, g1, _⟩ := h.inv.token_get h1
    exact ⟨upd_same _ _ _, ⟨_, g1, upd_same _ _ _, fun x hx => upd_of_ne _ _ hx⟩, rfl⟩

example : okAnd (exec exCfg ex1 (.setCap 100 .inn 77)) (fun s => decide (s.tokens 1 = some ⟨100, false, 3, true, 400, 0, 77, 0⟩)) ∧
    okAnd (exec exCfg ex5 (.cleanCap 100 .out)) (fun s => decide (s.tokens 1 = some ⟨100, false, 3, true, 400, 0, 400, 0⟩)) ∧
    (ex5.tokens 1).map Token.outAmount = some 40 ∧ errIs (exec exCfg ex1 (.setFee 300 1)) .bridgeTokenNotRegistered := by
  decide +kernel

/-! ## C109: the gift -/

/-- C109: with a payout the recipient gets, besides the payout, exactly the gift defined by `giftOf`, taken from the gift
account; nobody else's native balance changes. -/
theorem C109_gift {o : Option Nat} {ch n : Nat} {call : MCall} {f : Bool}
    (hm : materialize c s o ch n call f = .ok s') (hp : s'.events.head? = some (.minted ch n call))
    {a : Nat} (ha : s.assetIds call.token = some a) (hnat : a ≠ c.native) (hd : call.dest ≠ c.gift) :
    s'.ledger.bal c.native call.dest = s.ledger.bal c.native call.dest +
      giftOf c a call.amount (s.ledger.bal c.native call.dest) (s.ledger.bal c.native c.gift) ∧
    s'.ledger.bal c.native c.gift +
      giftOf c a call.amount (s.ledger.bal c.native call.dest) (s.ledger.bal c.native c.gift) =
      s.ledger.bal c.native c.gift ∧
    (∀ w, w ≠ call.dest → w ≠ c.gift → s'.ledger.bal c.native w = s.ledger.bal c.native w) := by
  obtain ⟨w, p, _, _, _, _, _, _, _, h2⟩ := materialize_ok hm
  rcases h2 with ⟨_, h2⟩ | ⟨_, _, _, h2⟩ | ⟨_, rfl⟩
  · obtain ⟨h3, _, l, l', reg', hl, hg, _, rfl⟩ := execute_ok h2
    have e : (afterVote s p ch n w call f .approved).assetId call.token = a := by
      have : (afterVote s p ch n w call f .approved).assetId call.token = s.assetId call.token := rfl
      rw [this]
      simp [State.assetId, ha]
    rw [e] at hl hg
    have key : ∀ w, l.bal c.native w = s.ledger.bal c.native w := by
      intro w'
      unfold payOut at hl
      split_ifs at hl
      · rw [Ledger.mint_bal hl, if_neg (fun e => hnat e.1.symm)]; rfl
      · have := Ledger.transfer_bal hl c.native w'
        rw [if_neg (fun e => hnat e.1.symm), if_neg (fun e => hnat e.1.symm)] at this
        exact this
    obtain ⟨_, htr⟩ := grantBonus_iff.1 hg
    rw [key, key] at htr
    have b := Ledger.transfer_bal htr c.native
    generalize giftOf c a call.amount (s.ledger.bal c.native call.dest) (s.ledger.bal c.native c.gift) = G at *
    refine ⟨?_, ?_, ?_⟩
    · have := b call.dest
      rw [if_neg (fun e => hd e.2), if_pos ⟨rfl, rfl⟩, key] at this
      exact this
    · have := b c.gift
      rw [if_pos ⟨rfl, rfl⟩, if_neg (fun e => hd e.2.symm), key] at this
      exact this
    · intro w' h1 h2
      have := b w'
      rw [if_neg (fun e => h2 e.2), if_neg (fun e => h1 e.2), key] at this
      exact this
  · obtain ⟨reg', _, rfl⟩ := cancelMat_ok h2
    simp at hp
  · cases f <;> simp [afterVote, voteEvent] at hp

/-- With a gift of 20 for every transfer and an existential deposit of 2, a new account gets 22, one with 11 units gets
12, one with 30 units nothing. -/
def exGift : Cfg := ⟨1000, 999, 998, fun _ _ => 20, 0, 2, 1, 100, 50⟩
example : giftOf exGift 1 50 0 500 = 22 ∧ giftOf exGift 1 50 11 500 = 12 ∧ giftOf exGift 1 50 30 500 = 0 ∧
    giftOf exGift 1 50 0 19 = 0 := by decide +kernel

def exGiftRun (s : State) : List Call → State
  | [] => s
  | k :: ks => exGiftRun (commit s (exec exGift s k)) ks
theorem exGiftRun_reach {s : State} (h : Reach exGift s) : ∀ ks : List Call, Reach exGift (exGiftRun s ks)
  | [] => h
  | k :: ks => by
    refine exGiftRun_reach (s := commit s (exec exGift s k)) ?_ ks
    rcases commit_cases s (exec exGift s k) with he | ⟨he, _⟩
    · exact .step h (.call k he)
    · rw [he]; exact h
@[irreducible] def exGiftL : Ledger := Ledger.ofList [(1, 7, 1000), (1, 1000, 500), (0, 998, 21)]
@[irreducible] def exGiftL0 : Ledger := Ledger.ofList [(1, 7, 1000), (1, 1000, 500)]
def exGift0 : State := changeMembers exGift
  ⟨exGiftL, 1, fun _ => none, fun _ => none, fun _ => none, fun _ => none, fun _ _ => none, [], 5, []⟩ [11, 12, 13]
/-- One vote is missing for a payout; the gift account holds 21. -/
def exGift1 : State := exGiftRun exGift0 [.registerChain 9, .registerToken 1 exTok, .materialize (some 11) 9 4 exPay true]
theorem exGift1_reach : Reach exGift exGift1 :=
  exGiftRun_reach (.step (.init exGiftL [] 5 (by unfold exGiftL; exact Ledger.ofList_wf _)) (.members _)) _
/-- The same with an empty gift account. -/
def exGift2 : State := { exGift1 with ledger := exGiftL0 }
theorem env_reach (h : Reach c s) {l : Ledger} (hl : l.WF) : Reach c { s with ledger := l } := .step h (.env ⟨rfl, hl⟩)
theorem exGift2_reach : Reach exGift exGift2 := by
  unfold exGift2
  exact env_reach exGift1_reach (by unfold exGiftL0; exact Ledger.ofList_wf _)

/-- A finding: the check only compares the gift itself with the gift account, but the existential deposit is paid on
top, so a gift account that is nearly empty makes a payout fail that is made when it is empty. -/
theorem C109_low_gift_account_blocks :
    Reach exGift exGift1 ∧ Reach exGift exGift2 ∧
    exGift1.ledger.bal exGift.native exGift.gift = 21 ∧ exGift2.ledger.bal exGift.native exGift.gift = 0 ∧
    errIs (materialize exGift exGift1 (some 12) 9 4 exPay true) .noFunds = true ∧
    okAnd (materialize exGift exGift2 (some 12) 9 4 exPay true)
      (fun t => decide (t.events.head? = some (.minted 9 4 exPay))) = true :=
  ⟨exGift1_reach, exGift2_reach, by decide +kernel, by decide +kernel, by decide +kernel, by decide +kernel⟩

/-! ## C110: the life of a proposal -/

theorem changeThreshold_frame {t : State} (h : changeThreshold c s = .ok t) : t.props = s.props ∧ t.now = s.now := by
  obtain ⟨_, h2⟩ := changeThreshold_ok h
  generalize pmulCeil (min million (c.pct * 10000)) s.members.length = thr at h2
  rw [h2]
  exact ⟨rfl, rfl⟩

theorem changeMembers_frame (ms : List Nat) :
    (changeMembers c s ms).props = s.props ∧ (changeMembers c s ms).now = s.now := by
  have key : ∀ r : R State, (∀ t, r = .ok t → t.props = s.props ∧ t.now = s.now) →
      (commit { s with members := ms } r).props = s.props ∧ (commit { s with members := ms } r).now = s.now := by
    intro r hr
    cases r with
    | error e => exact ⟨rfl, rfl⟩
    | ok t => exact hr t rfl
  unfold changeMembers
  exact key _ fun t ht => changeThreshold_frame (s := { s with members := ms }) ht

/-- C110: every stored proposal is before its expiry, which is at most `lifetime` blocks away. -/
theorem C110_live (h : Reach c s) {ch n : Nat} {call : MCall} {p : Proposal} (hp : s.props ch (n, call) = some p) :
    s.now < p.expiry ∧ p.expiry ≤ s.now + c.lifetime := by
  refine ⟨?_, (h.inv.props ch n call p hp).fresh⟩
  induction h generalizing ch n call p with
  | init l ms now hw => cases hp
  | @step s s' hr hs ih =>
    have same : s'.props = s.props → s'.now = s.now → s'.now < p.expiry := by
      intro e1 e2
      rw [e1] at hp
      rw [e2]
      exact ih hp
    cases hs with
    | call k hk =>
      cases k with
      | registerChain x => obtain ⟨_, _, _, _, _, _, _, _, _, e, _, e'⟩ := C108_register_chain.1 hk; exact same e e'
      | unregisterChain x => obtain ⟨_, _, _, _, _, _, _, _, _, e, _, e'⟩ := C108_unregister_chain.1 hk; exact same e e'
      | registerToken a t =>
        unfold exec registerToken at hk
        simp only [bind_ok_iff, ensure_ok_iff, pure_ok_iff, exists_const] at hk
        obtain ⟨_, rfl⟩ := hk; exact same rfl rfl
      | unregisterToken t =>
        unfold exec unregisterToken at hk
        simp only [bind_ok_iff, ensure_ok_iff, pure_ok_iff, exists_const] at hk
        obtain ⟨_, rfl⟩ := hk; exact same rfl rfl
      | setFee t f => obtain ⟨_, _, _, _, rfl⟩ := (C108_settings hr rfl).1 hk; exact same rfl rfl
      | setStatus t f => obtain ⟨_, _, _, _, rfl⟩ := (C108_settings hr rfl).1 hk; exact same rfl rfl
      | setCap t d f => obtain ⟨_, _, _, _, rfl⟩ := (C108_settings hr rfl).1 hk; exact same rfl rfl
      | cleanCap t d => obtain ⟨_, _, _, _, rfl⟩ := (C108_settings hr rfl).1 hk; exact same rfl rfl
      | teleport w ch' t d m =>
        obtain ⟨k, l, _, _, _, _, _, _, _, _, rfl⟩ := teleport_ok hk
        exact same rfl rfl
      | materialize o ch' n' call' f =>
        obtain ⟨w, q, _, _, _, hq, _, hex, _, h2⟩ := materialize_ok (show materialize c s o ch' n' call' f = .ok s' from hk)
        have key : ∀ st, s'.props = (afterVote s q ch' n' w call' f st).props → s'.now = s.now → s'.now < p.expiry := by
          intro st e1 e2
          rw [e1] at hp
          rw [e2]
          unfold afterVote setProp at hp
          dsimp only at hp
          by_cases h1 : ch = ch'
          · subst h1
            rw [upd_same] at hp
            by_cases h3 : (n, call) = (n', call')
            · rw [h3, upd_same] at hp
              cases hp
              cases f <;> simpa [voted] using hex
            · rw [upd_of_ne _ _ h3] at hp
              exact ih hp
          · rw [upd_of_ne _ _ h1] at hp
            exact ih hp
        rcases h2 with ⟨_, h2⟩ | ⟨_, _, _, h2⟩ | ⟨_, rfl⟩
        · obtain ⟨_, _, l, l', reg', _, _, _, rfl⟩ := execute_ok h2
          exact key .approved rfl rfl
        · obtain ⟨reg', _, rfl⟩ := cancelMat_ok h2
          exact key .rejected rfl rfl
        · exact key .initiated rfl rfl
    | block =>
      have hp' : (match s.props ch (n, call) with
        | some p => if p.expiry ≤ s.now + 1 then none else some p
        | none => none) = some p := hp
      cases hq : s.props ch (n, call) with
      | none => rw [hq] at hp'; cases hp'
      | some q =>
        rw [hq] at hp'
        dsimp only at hp'
        split_ifs at hp' with h1
        cases hp'
        show s.now + 1 < p.expiry
        omega
    | members ms =>
      obtain ⟨hpr, hnw⟩ := changeMembers_frame (c := c) (s := s) ms
      exact same hpr hnw
    | env he => rw [he.eq] at hp ⊢; exact ih hp

/-- C110: a new block removes exactly the proposals that expire with it and changes no other one. -/
theorem C110_expiry (ch n : Nat) (call : MCall) :
    (newBlock s).now = s.now + 1 ∧ (newBlock s).ledger = s.ledger ∧
    (∀ p, s.props ch (n, call) = some p → s.now + 1 < p.expiry → (newBlock s).props ch (n, call) = some p) ∧
    (∀ p, s.props ch (n, call) = some p → p.expiry ≤ s.now + 1 → (newBlock s).props ch (n, call) = none) ∧
    (s.props ch (n, call) = none → (newBlock s).props ch (n, call) = none) := by
  refine ⟨rfl, rfl, ?_, ?_, ?_⟩
  · intro p hp hl
    show (match s.props ch (n, call) with
        | some p => if p.expiry ≤ s.now + 1 then none else some p
        | none => none) = some p
    rw [hp]
    exact if_neg (by omega)
  · intro p hp hl
    show (match s.props ch (n, call) with
        | some p => if p.expiry ≤ s.now + 1 then none else some p
        | none => none) = none
    rw [hp]
    exact if_pos hl
  · intro hp
    show (match s.props ch (n, call) with
        | some p => if p.expiry ≤ s.now + 1 then none else some p
        | none => none) = none
    rw [hp]

/-- C110: an accepted vote is added to the stored votes of exactly this proposal; a new proposal expires `lifetime` blocks
later, an existing one keeps its expiry; every other proposal stays as it is. -/
theorem C110_vote {o : Option Nat} {ch n : Nat} {call : MCall} {f : Bool}
    (hm : materialize c s o ch n call f = .ok s') :
    ∃ w vf va e st, IsVoter c s o w ∧
      ((s.props ch (n, call) = some ⟨vf, va, .initiated, e⟩) ∨
        (s.props ch (n, call) = none ∧ vf = [] ∧ va = [] ∧ e = s.now + c.lifetime)) ∧
      s'.props ch (n, call) = some (if f = true then ⟨vf ++ [w], va, st, e⟩ else ⟨vf, va ++ [w], st, e⟩) ∧
      (st = .initiated ↔ ∃ ev, s'.events = ev :: s.events ∧ ev.resolves ch n = false) ∧
      (∀ ch' k, (ch', k) ≠ (ch, (n, call)) → s'.props ch' k = s.props ch' k) := by
  obtain ⟨w, q, hw, _, _, hq, hst, _, _, h2⟩ := materialize_ok hm
  have hold : (s.props ch (n, call) = some ⟨q.votesFor, q.votesAgainst, .initiated, q.expiry⟩) ∨
      (s.props ch (n, call) = none ∧ q.votesFor = [] ∧ q.votesAgainst = [] ∧ q.expiry = s.now + c.lifetime) := by
    rcases openProp_ok hq with h | ⟨h, rfl⟩
    · left; rw [h, ← hst]
    · exact .inr ⟨h, rfl, rfl, rfl⟩
  have hself : ∀ st, (afterVote s q ch n w call f st).props ch (n, call) =
      some (if f = true then ⟨q.votesFor ++ [w], q.votesAgainst, st, q.expiry⟩
        else ⟨q.votesFor, q.votesAgainst ++ [w], st, q.expiry⟩) := by
    intro st
    unfold afterVote setProp
    dsimp only
    rw [upd_same, upd_same]
    cases f <;> rfl
  have hoth : ∀ st ch' k, (ch', k) ≠ (ch, (n, call)) →
      (afterVote s q ch n w call f st).props ch' k = s.props ch' k := by
    intro st ch' k hne
    unfold afterVote setProp
    dsimp only
    by_cases h1 : ch' = ch
    · subst h1
      rw [upd_same, upd_of_ne _ _ (fun e => hne (by rw [e]))]
    · rw [upd_of_ne _ _ h1]
  have hlen : ∀ (a b : Event) (l : List Event), ¬ ∃ ev, a :: b :: l = ev :: l ∧ ev.resolves ch n = false := by
    rintro a b l ⟨ev, he, _⟩
    have := congrArg List.length he
    simp at this
  rcases h2 with ⟨_, h2⟩ | ⟨_, _, _, h2⟩ | ⟨_, rfl⟩
  · obtain ⟨_, _, l, l', reg', _, _, _, rfl⟩ := execute_ok h2
    exact ⟨w, _, _, _, .approved, relayMember_iff.1 hw, hold, hself _, ⟨(fun h => by cases h), fun h => absurd h (hlen _ _ _)⟩,
      hoth _⟩
  · obtain ⟨reg', _, rfl⟩ := cancelMat_ok h2
    exact ⟨w, _, _, _, .rejected, relayMember_iff.1 hw, hold, hself _, ⟨(fun h => by cases h), fun h => absurd h (hlen _ _ _)⟩,
      hoth _⟩
  · exact ⟨w, _, _, _, .initiated, relayMember_iff.1 hw, hold, hself _,
      ⟨fun _ => ⟨voteEvent s ch n w call f, rfl, by cases f <;> rfl⟩, fun _ => rfl⟩, hoth _⟩

example : ex2.props 9 (4, exPay) = some ⟨[11], [], .initiated, 105⟩ ∧ ex2.now = 5 := by decide +kernel

end Verif.Bridge
