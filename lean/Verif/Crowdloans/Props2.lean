import Verif.Crowdloans.Props

/-! # C96 (balances), C98, C99: payments, derivative tokens, claims -/

set_option linter.unusedSimpArgs false

namespace Verif.Crowdloans
open Verif

variable {c : Cfg} {D : Nat → Prop}

/-- The relay tokens an event gives to `w`. -/
def Ev.gets (w : Nat) : Ev → Nat
  | .back _ _ u m => if w = u then m else 0
  | .withdrew _ u m => if w = u then m else 0
  | .redeemed _ u m => if w = u then m else 0
  | _ => 0

/-- The relay tokens an event takes from `w`. -/
def Ev.pays (w : Nat) : Ev → Nat
  | .paid _ u m => if w = u then m else 0
  | _ => 0

theorem back_gets (l : List (Kind × Entry)) (t w : Nat) :
    logSum (Ev.gets w) (l.map (fun p => Ev.back t p.1 p.2.who p.2.amt)) = paidTo l w := by
  unfold logSum paidTo
  rw [List.map_map]
  rfl

theorem back_pays (l : List (Kind × Entry)) (t w : Nat) :
    logSum (Ev.pays w) (l.map (fun p => Ev.back t p.1 p.2.who p.2.amt)) = 0 := by
  apply logSum_off
  intro e he
  obtain ⟨p, _, rfl⟩ := List.mem_map.mp he
  rfl

/-- The record of payments is what happens to the balances: a user's relay tokens change by exactly what the events of
the call say (`redeem_and_lend_for` is in `C96_lend`). -/
theorem C96_balances (hc : CfgOK c D) {s s' : State} (hr : Reach c D s) {x : Call} (hx : callOK c D x)
    (he : exec c s x = .ok s') (hl : ∀ u k m, x ≠ .redeemAndLend u k m) {w : Nat} (hw : w ≠ c.acct)
    (hwx : w ≠ c.xcmAcct) :
    ∃ ev, s'.log = s.log ++ ev ∧
      s'.tok.bal c.relay w + logSum (Ev.pays w) ev = s.tok.bal c.relay w + logSum (Ev.gets w) ev := by
  have h := hr.inv hc
  have nil : s'.log = s.log → s'.tok.bal c.relay w = s.tok.bal c.relay w →
      ∃ ev, s'.log = s.log ++ ev ∧
        s'.tok.bal c.relay w + logSum (Ev.pays w) ev = s.tok.bal c.relay w + logSum (Ev.gets w) ev := by
    intro h1 h2
    exact ⟨[], by rw [h1, List.append_nil], by rw [h2]; rfl⟩
  have ask : ∀ {para : Nat} {pre target : Phase}, askBack c s para pre target = .ok s' →
      s'.log = s.log ∧ s'.tok.bal c.relay w = s.tok.bal c.relay w := by
    intro para pre target hx
    unfold askBack doWithdraw at hx
    simp only [bind_ok_iff, okOr_ok_iff, ensure_ok_iff, pure_ok_iff, Prod.exists, exists_const] at hx
    obtain ⟨k, v, hcur, hp, s1, h1, rfl⟩ := hx
    obtain ⟨l, hl, _, rfl⟩ := sendXcm_ok h1
    exact ⟨rfl, (fee_ok hc h.wf hl).2.2.2.1 w hwx⟩
  have clm : ∀ {who : Nat} {k : Key} {f : Bool}, claim c s who k f = .ok s' →
      ∃ ev, s'.log = s.log ++ ev ∧
        s'.tok.bal c.relay w + logSum (Ev.pays w) ev = s.tok.bal c.relay w + logSum (Ev.gets w) ev := by
    intro who k f hx
    obtain ⟨v, m, hC, _⟩ := claim_act hc h hx
    obtain ⟨l, h1, h2⟩ := hC.bal
    refine ⟨[.claimed v.trie who m], by rw [hC.state], ?_⟩
    have hD : D v.ctoken := h.ctokD _ _ (h.ctok _ _ hC.vault)
    have q1 := Ledger.mint_bal h1 c.relay w
    rw [if_neg (fun e => by rw [← e.1] at hD; exact hc.relayD hD)] at q1
    have q2 := Ledger.transfer_bal h2 c.relay w
    rw [if_neg (fun e => hc.native e.1.symm), if_neg (fun e => hc.native e.1.symm)] at q2
    simp only [logSum_single, Ev.pays, Ev.gets]
    omega
  have ret : ∀ {kd : Kind} {who m t : Nat} {l : Ledger}, refundPay c s kd who m = .ok l → s'.tok = l →
      s'.log = s.log ++ [.back t kd who m] → ∃ ev, s'.log = s.log ++ ev ∧
        s'.tok.bal c.relay w + logSum (Ev.pays w) ev = s.tok.bal c.relay w + logSum (Ev.gets w) ev := by
    intro kd who m t l h1 h2 h3
    refine ⟨_, h3, ?_⟩
    have := (refundPay_ok hc h.wf h1).2.2.2.1 w hw
    rw [h2, this]
    simp only [logSum_single, Ev.pays, Ev.gets]
    omega
  cases x with
  | createVault k0 ct p cap eb =>
    obtain ⟨_, _, _, hn, _, _, _, rfl⟩ := createVault_ok he
    exact nil rfl rfl
  | updateVault para cap eb p =>
    obtain ⟨k0, v0, v1, _, _, _, _, rfl, _⟩ := updateVault_act h he; exact nil rfl rfl
  | «open» para => obtain ⟨k0, v0, _, _, rfl, _⟩ := movePhase_act h he; exact nil rfl rfl
  | contribute who para m code =>
    obtain ⟨k0, v0, v1, hC, ha⟩ := contribute_act hc h hx he
    refine ⟨_, hC.log, ?_⟩
    obtain ⟨l, htr, hpen, hcon⟩ := hC.bal
    have hb : s'.tok.bal c.relay w = l.bal c.relay w := by
      rcases hC.phase with hp | hp
      · exact (fee_ok hc (Ledger.transfer_wf htr h.wf) (hcon hp).1).2.2.2.1 w hwx
      · rw [(hpen hp).1]
    have := Ledger.transfer_bal htr c.relay w
    rw [if_neg (c := c.relay = c.relay ∧ w = c.acct) (fun e => hw e.2)] at this
    simp only [logSum_single, Ev.pays, Ev.gets, true_and] at this ⊢
    omega
  | setVrf f => cases he; exact nil rfl rfl
  | close para => obtain ⟨k0, v0, _, _, rfl, _⟩ := movePhase_act h he; exact nil rfl rfl
  | reopen para => obtain ⟨k0, v0, _, _, rfl, _⟩ := movePhase_act h he; exact nil rfl rfl
  | auctionSucceeded para => obtain ⟨k0, v0, _, _, rfl, _⟩ := movePhase_act h he; exact nil rfl rfl
  | auctionFailed para => exact nil (ask he).1 (ask he).2
  | claim who k0 => exact clm he
  | withdraw who k0 =>
    obtain ⟨v0, m, hC, _⟩ := withdraw_act hc h he
    refine ⟨[.withdrew v0.trie who m], by rw [hC.state], ?_⟩
    have := Ledger.mint_bal hC.bal c.relay w
    simp only [logSum_single, Ev.pays, Ev.gets, true_and] at this ⊢
    omega
  | redeem who k0 m =>
    obtain ⟨v0, hC, _⟩ := redeem_act hc h he
    refine ⟨[.redeemed v0.trie who m], by rw [hC.state], ?_⟩
    obtain ⟨l, h1, h2⟩ := hC.bal
    have hD : D v0.ctoken := h.ctokD _ _ (h.ctok _ _ hC.vault)
    have q1 := Ledger.burn_bal h1 c.relay w
    rw [if_neg (fun e => by rw [← e.1] at hD; exact hc.relayD hD)] at q1
    have q2 := Ledger.mint_bal h2 c.relay w
    simp only [logSum_single, Ev.pays, Ev.gets, true_and] at q2 ⊢
    omega
  | slotExpired para => exact nil (ask he).1 (ask he).2
  | migratePending para =>
    obtain ⟨_, k0, v0, s1, v1, _, _, _, rfl, hm⟩ := migratePending_inv hc h he
    exact nil hm.log (hm.bal c.relay w (Or.inr hwx))
  | notify q e =>
    have he' : notify c s q e = .ok s' := he
    unfold notify at he'
    split at he'
    · cases he'; exact nil rfl rfl
    · rename_i k0 who m code hq
      rw [bind_ok_iff] at he'
      obtain ⟨s1, h1, h2⟩ := he'
      rw [pure_ok_iff] at h2; subst h2
      obtain ⟨v0, v1, hC, _⟩ := contributed_act hc h (h.reqs _ _ hq).1 h1
      refine ⟨[.executed v0.trie who m], ?_, ?_⟩
      · show s1.log = _; rw [hC.state]
      · have := Ledger.burn_bal hC.bal c.relay w
        rw [if_neg (fun e => hw e.2)] at this
        show s1.tok.bal c.relay w + _ = _
        simp only [logSum_single, Ev.pays, Ev.gets]
        omega
    · rename_i k0 who m code hq
      obtain ⟨v0, v1, l, s1, _, htr, _, hs, _⟩ := bounced_act hc h he'
      refine ret (kd := .flying) (who := who) (m := m) (t := v0.trie) (l := l) ?_ ?_ ?_
      · unfold refundPay; rw [if_neg (by decide)]; exact htr
      · rw [hs]; rfl
      · rw [hs]
    · rename_i k0 m target hq
      rw [bind_ok_iff] at he'
      obtain ⟨s1, h1, h2⟩ := he'
      rw [pure_ok_iff] at h2; subst h2
      obtain ⟨v0, _, rfl, ha⟩ := withdrawn_act h (h.reqs _ _ hq).1 h1
      exact nil rfl rfl
    · cases he'; exact nil rfl rfl
  | refund k0 =>
    obtain ⟨_, v0, s1, v1, hv0, _, rfl, hm⟩ := refund_inv hc h he
    refine ⟨_, hm.log, ?_⟩
    rw [back_gets, back_pays]
    exact hm.bal w hw
  | dissolve k0 =>
    obtain ⟨v0, hv0, _, _, _, _, _, rfl⟩ := dissolve_ok he
    exact nil rfl rfl
  | refundFor who k0 kd m =>
    obtain ⟨v0, v1, l, s1, _, _, _, hl, hu, hs, ha⟩ := refundFor_act hc h he
    refine ret (t := v0.trie) hl ?_ ?_
    · rw [hs]; rfl
    · rw [hs]
  | updateProxy p => cases he; exact nil rfl rfl
  | updateBonus lease b =>
    have he' : updateBonus s lease b = .ok s' := he
    unfold updateBonus at he'
    simp only [bind_ok_iff, ensure_ok_iff, pure_ok_iff, exists_const] at he'
    obtain ⟨_, _, rfl⟩ := he'
    exact nil rfl rfl
  | forceClaim who k0 => exact clm he
  | redeemAndLend who k0 m => exact absurd rfl (hl who k0 m)

/-- `redeem_and_lend_for` burns the user's derivative tokens and moves exactly as many relay tokens into the money
market; the user's own relay tokens stay the same. -/
theorem C96_lend (hc : CfgOK c D) {s s' : State} (hr : Reach c D s) {who : Nat} {k : Key} {m : Nat}
    (hw : who ≠ c.loansAcct) (he : redeemAndLend c s who k m = .ok s') :
    ∃ v, s.vaults k = some v ∧ v.phase = .expired ∧ s'.tok.bal v.ctoken who + m = s.tok.bal v.ctoken who ∧
      s'.tok.bal c.relay who = s.tok.bal c.relay who ∧
      s'.tok.bal c.relay c.loansAcct = s.tok.bal c.relay c.loansAcct + m := by
  have h := hr.inv hc
  obtain ⟨v, s1, hC, htr, _, _, _⟩ := redeemAndLend_act hc h he
  obtain ⟨l, h1, h2⟩ := hC.bal
  have hD : D v.ctoken := h.ctokD _ _ (h.ctok _ _ hC.vault)
  have hne : v.ctoken ≠ c.relay := fun e => by rw [e] at hD; exact hc.relayD hD
  refine ⟨v, hC.vault, hC.phase, ?_, ?_, ?_⟩
  · have q1 := Ledger.burn_bal h1 v.ctoken who
    have q2 := Ledger.mint_bal h2 v.ctoken who
    have q3 := Ledger.transfer_bal htr v.ctoken who
    rw [if_pos ⟨rfl, rfl⟩] at q1
    rw [if_neg (fun e => hne e.1)] at q2
    rw [if_neg (fun e => hne e.1), if_neg (fun e => hne e.1)] at q3
    omega
  · have q1 := Ledger.burn_bal h1 c.relay who
    have q2 := Ledger.mint_bal h2 c.relay who
    have q3 := Ledger.transfer_bal htr c.relay who
    rw [if_neg (fun e => hne e.1.symm)] at q1
    rw [if_pos ⟨rfl, rfl⟩] at q2
    rw [if_pos ⟨rfl, rfl⟩, if_neg (fun e => hw e.2)] at q3
    omega
  · have q1 := Ledger.burn_bal h1 c.relay c.loansAcct
    have q2 := Ledger.mint_bal h2 c.relay c.loansAcct
    have q3 := Ledger.transfer_bal htr c.relay c.loansAcct
    rw [if_neg (fun e => hne e.1.symm)] at q1
    rw [if_neg (fun e => hw e.2.symm)] at q2
    rw [if_neg (fun e => hw e.2.symm), if_pos ⟨rfl, rfl⟩] at q3
    omega

/-! ## A concrete chain with a finished auction -/

/-- A second vault with the same lease: parachain 2001. -/
def exK2 : Key := ⟨2001, 1, 8⟩

/-- Users 7 and 8 contribute 100 each to two parachains with the same lease; both auctions are won, both claim; the
first slot expires. -/
def exCalls2 : List Call :=
  [.createVault exK 50 false 1000 100, .createVault exK2 50 false 1000 100, .open 2000, .open 2001,
   .contribute 7 2000 100 0, .contribute 8 2001 100 0, .notify 0 true, .notify 1 true, .close 2000, .close 2001,
   .auctionSucceeded 2000, .auctionSucceeded 2001, .claim 7 exK, .claim 8 exK2, .slotExpired 2000, .notify 2 true]

def ex2 : State := runAll exC ex0 exCalls2

theorem ex2_reach : Reach exC exD ex2 := by
  apply runAll_reach (Reach.init ex0_genesis)
  intro x hx
  simp only [exCalls2, List.mem_cons, List.not_mem_nil, or_false] at hx
  rcases hx with rfl | rfl | rfl | rfl | rfl | rfl | rfl | rfl | rfl | rfl | rfl | rfl | rfl | rfl | rfl | rfl <;>
    simp [callOK, exC, exD]

theorem ex2_vault : ex2.vaults exK = some ⟨50, .expired, 100, 0, 0, false, 1000, 100, 0⟩ := by decide +kernel

example : logSum (Ev.executedOn 0) ex2.log = 100 ∧ logSum (Ev.mintedOn 0) ex2.log = 0 ∧ ex2.tok.bal 50 7 = 100 := by
  decide +kernel

/-! ## C98: derivative tokens are backed -/

/-- For every derivative token: what the vaults using it have invested on the relay chain is exactly the tokens in
circulation plus the confirmed contributions not yet claimed. -/
theorem C98_backing (hc : CfgOK c D) {s : State} (hr : Reach c D s) {T : Nat} (hT : D T) :
    ∃ A B, SumsTo (fun k => match s.vaults k with
          | some v => if v.ctoken = T then v.contributed else 0
          | none => 0) A ∧
      SumsTo (fun k => match s.vaults k with
          | some v => if v.ctoken = T then ((s.child (v.trie, .contributed)).map Entry.amt).sum else 0
          | none => 0) B ∧ A = s.tok.iss T + B := by
  obtain ⟨B, hB, hA⟩ := (hr.inv hc).claims T hT
  exact ⟨_, B, hA, hB, rfl⟩

/-- Only claims mint derivative tokens and only redemptions burn them: any other call leaves every balance alone. -/
theorem C98_only_claims (hc : CfgOK c D) {s s' : State} (hr : Reach c D s) {x : Call} (hx : callOK c D x)
    (he : exec c s x = .ok s') (h1 : ∀ u k, x ≠ .claim u k) (h2 : ∀ u k, x ≠ .forceClaim u k)
    (h3 : ∀ u k m, x ≠ .redeem u k m) (h4 : ∀ u k m, x ≠ .redeemAndLend u k m) {T w : Nat} (hT : D T) :
    s'.tok.bal T w = s.tok.bal T w := by
  have h := hr.inv hc
  have hne : T ≠ c.relay := by rintro rfl; exact hc.relayD hT
  have ask : ∀ {para : Nat} {pre target : Phase}, askBack c s para pre target = .ok s' →
      s'.tok.bal T w = s.tok.bal T w := by
    intro para pre target hx
    unfold askBack doWithdraw at hx
    simp only [bind_ok_iff, okOr_ok_iff, ensure_ok_iff, pure_ok_iff, Prod.exists, exists_const] at hx
    obtain ⟨k, v, hcur, hp, s1, h1, rfl⟩ := hx
    obtain ⟨l, hl, _, rfl⟩ := sendXcm_ok h1
    exact (fee_ok hc h.wf hl).2.2.2.2 T w hne
  cases x with
  | createVault k0 ct p cap eb => obtain ⟨_, _, _, hn, _, _, _, rfl⟩ := createVault_ok he; rfl
  | updateVault para cap eb p => obtain ⟨k0, v0, v1, _, _, _, _, rfl, _⟩ := updateVault_act h he; rfl
  | «open» para => obtain ⟨k0, v0, _, _, rfl, _⟩ := movePhase_act h he; rfl
  | contribute who para m code =>
    obtain ⟨k0, v0, v1, hC, ha⟩ := contribute_act hc h hx he
    obtain ⟨l, htr, hpen, hcon⟩ := hC.bal
    have hb : s'.tok.bal T w = l.bal T w := by
      rcases hC.phase with hp | hp
      · exact (fee_ok hc (Ledger.transfer_wf htr h.wf) (hcon hp).1).2.2.2.2 T w hne
      · rw [(hpen hp).1]
    have := Ledger.transfer_bal htr T w
    rw [if_neg (fun e => hne e.1), if_neg (fun e => hne e.1)] at this
    rw [hb]; exact this
  | setVrf f => cases he; rfl
  | close para => obtain ⟨k0, v0, _, _, rfl, _⟩ := movePhase_act h he; rfl
  | reopen para => obtain ⟨k0, v0, _, _, rfl, _⟩ := movePhase_act h he; rfl
  | auctionSucceeded para => obtain ⟨k0, v0, _, _, rfl, _⟩ := movePhase_act h he; rfl
  | auctionFailed para => exact ask he
  | claim who k0 => exact absurd rfl (h1 who k0)
  | withdraw who k0 =>
    obtain ⟨v0, m, hC, _⟩ := withdraw_act hc h he
    rw [Ledger.mint_bal hC.bal, if_neg (fun e => hne e.1)]; rfl
  | redeem who k0 m => exact absurd rfl (h3 who k0 m)
  | slotExpired para => exact ask he
  | migratePending para =>
    obtain ⟨_, k0, v0, s1, v1, _, _, _, rfl, hm⟩ := migratePending_inv hc h he
    exact hm.bal T w (Or.inl hne)
  | notify q e =>
    have he' : notify c s q e = .ok s' := he
    unfold notify at he'
    split at he'
    · cases he'; rfl
    · rename_i k0 who m code hq
      rw [bind_ok_iff] at he'
      obtain ⟨s1, h1, h2⟩ := he'
      rw [pure_ok_iff] at h2; subst h2
      obtain ⟨v0, v1, hC, _⟩ := contributed_act hc h (h.reqs _ _ hq).1 h1
      have := Ledger.burn_bal hC.bal T w
      rw [if_neg (fun e => hne e.1)] at this
      exact this
    · obtain ⟨v0, v1, l, s1, _, htr, _, rfl, _⟩ := bounced_act hc h he'
      have := Ledger.transfer_bal htr T w
      rw [if_neg (fun e => hne e.1), if_neg (fun e => hne e.1)] at this
      exact this
    · rename_i k0 m target hq
      rw [bind_ok_iff] at he'
      obtain ⟨s1, h1, h2⟩ := he'
      rw [pure_ok_iff] at h2; subst h2
      obtain ⟨v0, _, rfl, ha⟩ := withdrawn_act h (h.reqs _ _ hq).1 h1
      rfl
    · cases he'; rfl
  | refund k0 =>
    obtain ⟨_, v0, s1, v1, hv0, _, rfl, hm⟩ := refund_inv hc h he
    exact hm.balOff T w hne
  | dissolve k0 => obtain ⟨v0, hv0, _, _, _, _, _, rfl⟩ := dissolve_ok he; rfl
  | refundFor who k0 kd m =>
    obtain ⟨v0, v1, l, s1, _, _, _, hl, hu, rfl, ha⟩ := refundFor_act hc h he
    exact (refundPay_ok hc h.wf hl).2.2.1 T w hne
  | updateProxy p => cases he; rfl
  | updateBonus lease b =>
    have he' : updateBonus s lease b = .ok s' := he
    unfold updateBonus at he'
    simp only [bind_ok_iff, ensure_ok_iff, pure_ok_iff, exists_const] at he'
    obtain ⟨_, _, rfl⟩ := he'
    rfl
  | forceClaim who k0 => exact absurd rfl (h2 who k0)
  | redeemAndLend who k0 m => exact absurd rfl (h4 who k0 m)

theorem payBonus_zero {s : State} {lease : Nat × Nat} {who m : Nat} (h : c.streams = true → bonusOf c s lease m = 0) :
    payBonus c s lease who m = .ok s := by
  unfold payBonus
  cases e : c.streams with
  | false => exact if_pos (.inr rfl)
  | true => exact if_pos (.inl (h e))

theorem redeem_succeeds {s : State} {who : Nat} {k : Key} {m : Nat} {v : Vault} (hct : s.ctokenOf k.lease = some v.ctoken)
    (hv : s.vaults k = some v) (hp : v.phase = .expired) (hb : m ≤ s.tok.bal v.ctoken who) (hle : m ≤ v.contributed)
    (hne : v.ctoken ≠ c.relay) (hov : s.tok.iss c.relay + m ≤ maxU128) : ∃ s', redeem c s who k m = .ok s' := by
  obtain ⟨l, hl⟩ := Ledger.burn_succeeds (l := s.tok) (a := v.ctoken) (w := who) (m := m) hb
  obtain ⟨l2, hl2⟩ := Ledger.mint_succeeds (l := l) (a := c.relay) (w := who) (m := m) (by
    have := Ledger.burn_iss hl c.relay
    rw [if_neg (Ne.symm hne)] at this
    omega)
  unfold redeem
  simp only [bind_ok_iff, okOr_ok_iff, ensure_ok_iff, pure_ok_iff, exists_const, csub_ok_iff]
  exact ⟨_, v.ctoken, hct, v, hv, hp, hb, _, ⟨hle, rfl⟩, l, hl, l2, hl2, rfl⟩

/-- When no other vault with the same derivative token has anything invested, every holder can redeem everything it
holds as soon as the slot has expired. -/
theorem C98_redeemable (hc : CfgOK c D) {s : State} (hr : Reach c D s) {k : Key} {v : Vault}
    (hv : s.vaults k = some v) (hp : v.phase = .expired)
    (ho : ∀ k' v', k' ≠ k → s.vaults k' = some v' → v'.ctoken = v.ctoken → v'.contributed = 0)
    {who m : Nat} (hb : m ≤ s.tok.bal v.ctoken who) (hov : s.tok.iss c.relay + m ≤ maxU128) :
    ∃ s', redeem c s who k m = .ok s' := by
  have h := hr.inv hc
  have hct := h.ctok k v hv
  have hD := h.ctokD _ _ hct
  obtain ⟨B, _, hA⟩ := h.claims _ hD
  have hz : SumsTo (s.invested v.ctoken) v.contributed := by
    have h0 : SumsTo (fun _ : Key => 0) 0 := SumsTo.zero
    apply h0.update k
    · intro x hx
      unfold State.invested
      cases hxv : s.vaults x with
      | none => rfl
      | some w =>
        dsimp only
        split_ifs with hw
        · exact ho x w hx hxv hw
        · rfl
    · unfold State.invested
      rw [hv]
      dsimp only
      rw [if_pos rfl]
      omega
  have he := hz.unique hA
  have hbi := Ledger.bal_le_iss h.wf v.ctoken who
  exact redeem_succeeds hct hv hp hb (by omega) (fun e => by rw [e] at hD; exact hc.relayD hD) hov

/-- What `u` claimed from, and redeemed at, the vault `t`. -/
def Ev.claimedBy (t u : Nat) : Ev → Nat
  | .claimed t' u' m => if t' = t ∧ u' = u then m else 0
  | _ => 0
def Ev.redeemedBy (t u : Nat) : Ev → Nat
  | .redeemed t' u' m => if t' = t ∧ u' = u then m else 0
  | _ => 0

/-- The stronger expectation: once the slot has expired, a user can redeem at a vault the tokens it claimed from that
vault and still holds. -/
def C98_statement : Prop :=
  ∀ (c : Cfg) (D : Nat → Prop) (s : State) (k : Key) (v : Vault) (who m : Nat), CfgOK c D → Reach c D s →
    s.vaults k = some v → v.phase = .expired → m ≤ s.tok.bal v.ctoken who →
    m + logSum (Ev.redeemedBy v.trie who) s.log ≤ logSum (Ev.claimedBy v.trie who) s.log →
    s.tok.iss c.relay + m ≤ maxU128 → ∃ s', redeem c s who k m = .ok s'

/-- User 8, who contributed to parachain 2001, redeems at the vault of 2000 (same lease, same token): user 7 cannot. -/
def ex3 : State := runAll exC ex2 [.redeem 8 exK 100]

theorem ex3_reach : Reach exC exD ex3 := by
  apply runAll_reach ex2_reach
  intro x hx
  rw [List.mem_singleton] at hx
  subst hx
  trivial

theorem C98_refuted : ¬ C98_statement := by
  intro h
  obtain ⟨s', hs'⟩ := h exC exD ex3 exK ⟨50, .expired, 0, 0, 0, false, 1000, 100, 0⟩ 7 100 exC_ok ex3_reach
    (by decide +kernel) rfl (by decide +kernel) (by decide +kernel) (by decide +kernel)
  have : errIs (redeem exC ex3 7 exK 100) .underflow = true := by decide +kernel
  rw [hs'] at this
  cases this

/-! ## C99: claims and withdrawals pay exactly once -/

/-- Without a bonus, a claim succeeds exactly when the auction was won and the user has a confirmed contribution. -/
theorem C99_claim_iff (hc : CfgOK c D) {s : State} (hr : Reach c D s) {who : Nat} {k : Key}
    (hbon : c.streams = true → ∀ m, bonusOf c s k.lease m = 0) :
    (∃ s', claim c s who k false = .ok s') ↔ ∃ v, s.vaults k = some v ∧ v.phase = .succeeded ∧
      s.amount v.trie .contributed who ≠ 0 ∧ s.tok.iss v.ctoken + s.amount v.trie .contributed who ≤ maxU128 := by
  have h := hr.inv hc
  constructor
  · rintro ⟨s', hs⟩
    obtain ⟨v, m, hC, _⟩ := claim_act hc h hs
    obtain ⟨l, hl, _⟩ := hC.bal
    refine ⟨v, hC.vault, ?_, ?_, ?_⟩
    · rcases hC.phase with e | e
      · cases e
      · exact e
    · rw [← hC.amount]; exact hC.pos
    · rw [← hC.amount]; exact Ledger.mint_le hl
  · rintro ⟨v, hv, hp, hm, hov⟩
    obtain ⟨l, hl⟩ := Ledger.mint_succeeds (l := s.tok) (a := v.ctoken) (w := who)
      (m := s.amount v.trie .contributed who) hov
    unfold claim
    simp only [bind_ok_iff, okOr_ok_iff, ensure_ok_iff, pure_ok_iff, exists_const]
    exact ⟨_, v.ctoken, h.ctok k v hv, v, hv, Or.inr hp, hm, l, hl, _, payBonus_zero (fun e => hbon e _), rfl⟩

/-- A claim mints exactly the confirmed contribution in derivative tokens to the contributor, whoever calls, and uses it
up: nothing is left to claim, withdraw or refund, and a second claim or withdrawal is rejected. -/
theorem C99_claim_once (hc : CfgOK c D) {s s' : State} (hr : Reach c D s) {who : Nat} {k : Key} {f : Bool}
    (he : claim c s who k f = .ok s') : ∃ v, s.vaults k = some v ∧
      s'.tok.iss v.ctoken = s.tok.iss v.ctoken + s.amount v.trie .contributed who ∧
      (v.ctoken ≠ c.native →
        s'.tok.bal v.ctoken who = s.tok.bal v.ctoken who + s.amount v.trie .contributed who) ∧
      s'.amount v.trie .contributed who = 0 ∧
      (∀ f' s2, claim c s' who k f' ≠ .ok s2) ∧
      (∀ u, u ≠ who → s'.held v.trie u = s.held v.trie u) := by
  have h := hr.inv hc
  obtain ⟨v, m, hC, ha⟩ := claim_act hc h he
  obtain ⟨l, hl, htr⟩ := hC.bal
  have hm := hC.amount
  have hch : s'.child = upd s.child (v.trie, .contributed) (killEntry (s.child (v.trie, .contributed)) who) := by
    rw [hC.state]
  have hz : s'.amount v.trie .contributed who = 0 := by
    unfold State.amount; rw [hch, upd_same, getEntry_kill]
  refine ⟨v, hC.vault, ?_, ?_, hz, ?_, ?_⟩
  · rw [tr_iss htr, Ledger.mint_iss hl, if_pos rfl, hm]
  · intro hn
    have q1 := Ledger.mint_bal hl v.ctoken who
    have q2 := Ledger.transfer_bal htr v.ctoken who
    rw [if_pos ⟨rfl, rfl⟩] at q1
    rw [if_neg (fun e => hn e.1), if_neg (fun e => hn e.1)] at q2
    omega
  · intro f' s2 h2
    have hv' : s'.vaults k = some v := by rw [ha.vaults]; exact upd_same _ _ _
    unfold claim at h2
    simp only [bind_ok_iff, okOr_ok_iff, ensure_ok_iff, pure_ok_iff, exists_const] at h2
    obtain ⟨_, _, v2, hv2, _, hm2, _⟩ := h2
    rw [hv'] at hv2; cases hv2
    exact hm2 hz
  · intro u hu
    have := held_kill hch u
    rw [if_neg hu] at this
    omega

/-- A withdrawal succeeds exactly when the auction failed and the user has a confirmed contribution the vault still
has. -/
theorem C99_withdraw_iff {s : State} {who : Nat} {k : Key} :
    (∃ s', withdraw c s who k = .ok s') ↔ ∃ v, s.vaults k = some v ∧ v.phase = .failed ∧
      s.amount v.trie .contributed who ≠ 0 ∧ s.amount v.trie .contributed who ≤ v.contributed ∧
      s.tok.iss c.relay + s.amount v.trie .contributed who ≤ maxU128 := by
  constructor
  · rintro ⟨s', hs⟩
    unfold withdraw at hs
    simp only [bind_ok_iff, okOr_ok_iff, ensure_ok_iff, pure_ok_iff, exists_const, csub_ok_iff] at hs
    obtain ⟨v, hv, hp, hm, x, ⟨hle, _⟩, l, hl, _⟩ := hs
    exact ⟨v, hv, hp, hm, hle, Ledger.mint_le hl⟩
  · rintro ⟨v, hv, hp, hm, hle, hov⟩
    obtain ⟨l, hl⟩ := Ledger.mint_succeeds (l := s.tok) (a := c.relay) (w := who) hov
    unfold withdraw
    simp only [bind_ok_iff, okOr_ok_iff, ensure_ok_iff, pure_ok_iff, exists_const, csub_ok_iff]
    exact ⟨_, v, hv, hp, hm, _, ⟨hle, rfl⟩, l, hl, rfl⟩

/-- A withdrawal pays exactly the confirmed contribution in relay tokens and uses it up. -/
theorem C99_withdraw_once (hc : CfgOK c D) {s s' : State} (hr : Reach c D s) {who : Nat} {k : Key}
    (he : withdraw c s who k = .ok s') : ∃ v, s.vaults k = some v ∧
      s'.tok.bal c.relay who = s.tok.bal c.relay who + s.amount v.trie .contributed who ∧
      s'.amount v.trie .contributed who = 0 ∧ (∀ s2, withdraw c s' who k ≠ .ok s2) ∧
      (∀ u, u ≠ who → s'.held v.trie u = s.held v.trie u) := by
  have h := hr.inv hc
  obtain ⟨v, m, hC, ha⟩ := withdraw_act hc h he
  have hm := hC.amount
  have hch : s'.child = upd s.child (v.trie, .contributed) (killEntry (s.child (v.trie, .contributed)) who) := by
    rw [hC.state]
  have hz : s'.amount v.trie .contributed who = 0 := by
    unfold State.amount; rw [hch, upd_same, getEntry_kill]
  refine ⟨v, hC.vault, ?_, hz, ?_, ?_⟩
  · rw [Ledger.mint_bal hC.bal, if_pos ⟨rfl, rfl⟩, hm]
  · have hv' : s'.vaults k = some { v with contributed := v.contributed - m } := by rw [ha.vaults]; exact upd_same _ _ _
    intro s2 h2
    unfold withdraw at h2
    simp only [bind_ok_iff, okOr_ok_iff, ensure_ok_iff, pure_ok_iff, exists_const] at h2
    obtain ⟨v2, hv2, _, hm2, _⟩ := h2
    rw [hv'] at hv2; cases hv2
    exact hm2 hz
  · intro u hu
    have := held_kill hch u
    rw [if_neg hu] at this
    omega

/-- The state of the example just before the claims. -/
def ex4 : State := runAll exC ex0 (exCalls2.take 12)

theorem ex4_reach : Reach exC exD ex4 := by
  apply runAll_reach (Reach.init ex0_genesis)
  intro x hx
  have hx' := List.mem_of_mem_take hx
  simp only [exCalls2, List.mem_cons, List.not_mem_nil, or_false] at hx'
  rcases hx' with rfl | rfl | rfl | rfl | rfl | rfl | rfl | rfl | rfl | rfl | rfl | rfl | rfl | rfl | rfl | rfl <;>
    simp [callOK, exC, exD]

example : ex4.amount 0 .contributed 7 = 100 ∧ bonusOf exC ex4 exK.lease 100 = 0 ∧
    okAnd (claim exC ex4 7 exK false) (fun s => s.tok.bal 50 7 == 100) = true := by decide +kernel

end Verif.Crowdloans
