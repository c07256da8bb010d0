import Verif.System.Deployed
import Verif.Bridge.Props2
import Verif.Crowdloans.Props5

/-!
# What the parameters of the runtimes mean to a user

C215: the gift for newcomers.  C216: how long a bridge proposal lives.  C217: the terms of the deployed chains.
-/

namespace Verif.System
open Verif Verif.Accounts Chain

/-! ## C215: the gift for newcomers -/

/-- The decimals under which the assets that matter for gifts are registered: KSM 12, DOT 10, EUSDT and EUSDC 6. -/
structure UsualDecimals (dec : Nat → Nat) : Prop where
  ksm : dec 100 = 12
  dot : dec 101 = 10
  usdt : dec 201 = 6
  usdc : dec 202 = 6

/-- Who earns a gift: 300 EUSDT or EUSDC on every chain, 4.952 DOT on Parallel and Kerria, 0.099904 KSM on Heiko and Vanilla. -/
inductive Qualifies : Chain → Nat → Nat → Prop
  | usdt (ch : Chain) {m : Nat} (h : 300000000 ≤ m) : Qualifies ch 201 m
  | usdc (ch : Chain) {m : Nat} (h : 300000000 ≤ m) : Qualifies ch 202 m
  | dotP {m : Nat} (h : 49520000000 ≤ m) : Qualifies .parallel 101 m
  | dotK {m : Nat} (h : 49520000000 ≤ m) : Qualifies .kerria 101 m
  | ksmH {m : Nat} (h : 99904000000 ≤ m) : Qualifies .heiko 100 m
  | ksmV {m : Nat} (h : 99904000000 ≤ m) : Qualifies .vanilla 100 m

/-- What an account is given that already holds `holds` native tokens, when the gift account holds `pot`. -/
inductive Gift (ed : Nat) (q : Prop) (holds pot : Nat) : Nat → Prop
  | topUp (h : q) (hp : 650000000000 ≤ pot) (hh : holds ≤ 650000000000) :
      Gift ed q holds pot (ed + 650000000000 - (holds - 1))
  | none (h : ¬ (q ∧ 650000000000 ≤ pot ∧ holds ≤ 650000000000)) : Gift ed q holds pot 0

variable {dec : Nat → Nat} {ch : Chain} {a m : Nat}

/-- **C215, who.** With the usual decimals the gift is 0.65 native tokens for a transfer that qualifies, and nothing for
any other. -/
theorem C215_who (hd : UsualDecimals dec) :
    (Qualifies ch a m → giftConv dec ch m a = 650000000000) ∧ (¬ Qualifies ch a m → giftConv dec ch m a = 0) := by
  have e1 : 5 * (10 ^ 10 - 96000000) = 49520000000 := by decide
  have e2 : 10 ^ (12 - 1) - 96000000 = 99904000000 := by decide
  have e3 : 300 * 10 ^ 6 = 300000000 := by decide
  constructor
  · intro h
    cases h with
    | usdt _ h => simp [giftConv, hd.usdt, gift, h]
    | usdc _ h => simp [giftConv, hd.usdc, gift, h]
    | dotP h => simp [giftConv, hd.dot, gift, native, h]
    | dotK h => simp [giftConv, hd.dot, gift, native, h]
    | ksmH h => simp [giftConv, hd.ksm, gift, native, h]
    | ksmV h => simp [giftConv, hd.ksm, gift, native, h]
  · intro h
    unfold giftConv
    by_cases h0 : dec a = 0
    · rw [if_pos h0]
    rw [if_neg h0, if_neg, if_neg, if_neg]
    · rintro ⟨rfl | rfl, h2⟩
      · rw [hd.usdt, e3] at h2; exact h (.usdt _ h2)
      · rw [hd.usdc, e3] at h2; exact h (.usdc _ h2)
    · rintro ⟨rfl, h1, h2⟩
      rw [hd.ksm, e2] at h2
      cases ch
      · exact absurd h1 (by decide)
      · exact h (.ksmH h2)
      · exact h (.ksmV h2)
      · exact absurd h1 (by decide)
    · rintro ⟨rfl, h1, h2⟩
      rw [hd.dot, e1] at h2
      cases ch
      · exact h (.dotP h2)
      · exact absurd h1 (by decide)
      · exact absurd h1 (by decide)
      · exact h (.dotK h2)

/-- **C215, any decimals.** Whatever decimals are registered, a gift is 0.65 native tokens or nothing, more tokens of the
same asset never earn less, and an asset without decimals earns nothing. -/
theorem C215_any_decimals : (giftConv dec ch m a = 0 ∨ giftConv dec ch m a = 650000000000) ∧
    (∀ m', m ≤ m' → giftConv dec ch m a ≤ giftConv dec ch m' a) ∧ (dec a = 0 → giftConv dec ch m a = 0) := by
  unfold giftConv gift
  refine ⟨?_, ?_, fun h => by rw [if_pos h]⟩
  · split_ifs <;> simp
  · intro m' hm
    generalize 5 * (10 ^ dec a - 96000000) = x
    generalize 10 ^ (dec a - 1) - 96000000 = y
    generalize 300 * 10 ^ dec a = z
    split_ifs <;> omega

/-- **C215, over XCM.** The gift for a transfer from the relay chain is the same as for one over the bridge: `GiftConvert`
of each runtime, when it answers, gives the same amount. -/
theorem C215_same {g : Nat} :
    (Xcm.giftParallel (dec a) m a = .ok g → giftConv dec .parallel m a = g ∧ giftConv dec .kerria m a = g) ∧
    (Xcm.giftHeiko (dec a) m a = .ok g → giftConv dec .heiko m a = g ∧ giftConv dec .vanilla m a = g) := by
  have pw : ∀ n x, Xcm.pow10 n = .ok x → x = 10 ^ n := by
    intro n x h
    unfold Xcm.pow10 at h
    split_ifs at h
    exact (Except.ok.inj h).symm
  constructor
  · intro h
    unfold Xcm.giftParallel at h
    split_ifs at h with h0 h1 h2
    · cases h; simp [giftConv, h0]
    · simp only [bind_ok_iff, pure_ok_iff, cmul_ok_iff] at h
      obtain ⟨p, hp, t, ⟨_, ht⟩, hg⟩ := h
      rw [← hg, ht, pw _ _ hp]
      subst h1
      simp [giftConv, h0, native, gift]
    · simp only [bind_ok_iff, pure_ok_iff, cmul_ok_iff] at h
      obtain ⟨p, hp, t, ⟨_, ht⟩, hg⟩ := h
      rw [← hg, ht, pw _ _ hp]
      have h3 : a ≠ 100 := by omega
      simp [giftConv, h0, h1, h2, h3, gift]
    · cases h
      simp [giftConv, h0, h1, h2, native]
  · intro h
    unfold Xcm.giftHeiko at h
    split_ifs at h with h0 h1 h2
    · cases h; simp [giftConv, h0]
    · simp only [bind_ok_iff, pure_ok_iff] at h
      obtain ⟨p, hp, rfl⟩ := h
      rw [pw _ _ hp]
      subst h1
      simp [giftConv, h0, native, gift]
    · simp only [bind_ok_iff, pure_ok_iff, cmul_ok_iff] at h
      obtain ⟨p, hp, t, ⟨_, ht⟩, hg⟩ := h
      rw [← hg, ht, pw _ _ hp]
      have h3 : a ≠ 101 := by omega
      simp [giftConv, h0, h1, h2, h3, gift]
    · cases h
      simp [giftConv, h0, h1, h2, native]

/-- **C215, over the bridge.** On each of the runtimes, with a payout of `amount` of an asset the recipient is given what
`Gift` says, from the gift account, and nobody else's native balance changes. -/
theorem C215_bridge (hd : UsualDecimals dec) {s s' : Bridge.State} {o : Option Nat} {chain n : Nat} {call : Bridge.MCall}
    {f : Bool} (hm : Bridge.materialize (ch.bridge dec) s o chain n call f = .ok s')
    (hp : s'.events.head? = some (.minted chain n call)) {a : Nat} (ha : s.assetIds call.token = some a)
    (hnat : a ≠ ch.native) (hg : call.dest ≠ pallet idGift) :
    ∃ g, Gift ch.ed (Qualifies ch a call.amount) (s.ledger.bal ch.native call.dest)
        (s.ledger.bal ch.native (pallet idGift)) g ∧
      s'.ledger.bal ch.native call.dest = s.ledger.bal ch.native call.dest + g ∧
      s'.ledger.bal ch.native (pallet idGift) + g = s.ledger.bal ch.native (pallet idGift) ∧
      ∀ w, w ≠ call.dest → w ≠ pallet idGift → s'.ledger.bal ch.native w = s.ledger.bal ch.native w := by
  have key := Bridge.C109_gift hm hp ha hnat hg
  refine ⟨_, ?_, key.1, key.2.1, key.2.2⟩
  have e1 : (ch.bridge dec).giftConv = giftConv dec ch := rfl
  have e2 : (ch.bridge dec).ed = ch.ed := rfl
  have e3 : (ch.bridge dec).gift = pallet idGift := rfl
  have e4 : (ch.bridge dec).native = ch.native := rfl
  unfold Bridge.giftOf
  rw [e1, e2, e3, e4]
  generalize s.ledger.bal ch.native call.dest = hv
  generalize s.ledger.bal ch.native (pallet idGift) = pot
  obtain ⟨w1, w2⟩ := C215_who (ch := ch) (a := a) (m := call.amount) hd
  by_cases hq : Qualifies ch a call.amount
  · rw [w1 hq]
    by_cases hr : 650000000000 ≤ pot ∧ hv ≤ 650000000000
    · rw [if_pos ⟨by omega, hr.1, by omega⟩]
      exact .topUp hq hr.1 hr.2
    · rw [if_neg (by omega)]
      exact .none (fun h => hr h.2)
  · rw [w2 hq, if_neg (fun h => h.1 rfl)]
    exact .none (fun h => hq h.1)

/-- The usual decimals. -/
def exDec : Nat → Nat := fun x => if x = 100 then 12 else if x = 101 then 10 else if x = 201 ∨ x = 202 then 6 else 0
theorem exDec_usual : UsualDecimals exDec := ⟨by decide, by decide, by decide, by decide⟩

/-- Calls of the bridge on Parallel one after another, failing ones leaving the state as it is. -/
def bridgeRun (dec : Nat → Nat) (ch : Chain) (s : Bridge.State) : List Bridge.Call → Bridge.State
  | [] => s
  | k :: ks => bridgeRun dec ch (commit s (Bridge.exec (ch.bridge dec) s k)) ks
theorem bridgeRun_reach {s : Bridge.State} (h : Bridge.Reach (ch.bridge dec) s) :
    ∀ ks : List Bridge.Call, Bridge.Reach (ch.bridge dec) (bridgeRun dec ch s ks)
  | [] => h
  | k :: ks => by
    refine bridgeRun_reach (s := commit s (Bridge.exec (ch.bridge dec) s k)) ?_ ks
    rcases commit_cases s (Bridge.exec (ch.bridge dec) s k) with he | ⟨he, _⟩
    · exact .step h (.call k he)
    · rw [he]; exact h

/-- 300 EUSDT for account 8. -/
def exCall : Bridge.MCall := ⟨7, 8, 300000000⟩
def exPot : Ledger := Ledger.ofList [(1, pallet idGift, 10000000000000)]
/-- Parallel with relayers 11, 12 and 13, EUSDT registered as bridge token 7, ten native tokens in the gift account and
two of three votes for a payout of 300 EUSDT to account 8. -/
def exB : Bridge.State := bridgeRun exDec .parallel (Bridge.changeMembers (Chain.parallel.bridge exDec)
    ⟨exPot, 1, fun _ => none, fun _ => none, fun _ => none, fun _ => none, fun _ _ => none, [], 100, []⟩ [11, 12, 13])
  [.registerChain 5, .registerToken 201 ⟨7, true, 0, true, 1000000000000, 0, 1000000000000, 0⟩,
    .materialize (some 11) 5 1 exCall true, .materialize (some 12) 5 1 exCall true]
theorem exB_reach : Bridge.Reach (Chain.parallel.bridge exDec) exB :=
  bridgeRun_reach (.step (.init exPot [] 100 (Ledger.ofList_wf _)) (.members _)) _

/-- The third vote pays, and account 8, which has nothing, is given 0.1 + 0.65 PARA. -/
example : exB.assetIds exCall.token = some 201 ∧ (201 : Nat) ≠ Chain.parallel.native ∧ exCall.dest ≠ pallet idGift ∧
    exB.ledger.bal 1 8 = 0 ∧ Qualifies .parallel 201 exCall.amount ∧
    okAnd (Bridge.materialize (Chain.parallel.bridge exDec) exB (some 13) 5 1 exCall true) (fun s' =>
      decide (s'.events.head? = some (.minted 5 1 exCall) ∧ s'.ledger.bal 201 8 = 300000000 ∧
        s'.ledger.bal 1 8 = 750000000000)) = true :=
  ⟨by decide +kernel, by decide, by decide +kernel, by decide +kernel, .usdt _ (by decide), by decide +kernel⟩

example : Qualifies .heiko 100 100000000000 ∧ ¬ Qualifies .heiko 101 50000000000 ∧ ¬ Qualifies .parallel 101 49519999999 :=
  ⟨.ksmH (by decide), (fun h => by cases h), fun h => by cases h with | dotP h => exact absurd h (by decide)⟩

/-! ## C216: how long a bridge proposal lives -/

/-- Blocks in a day, one every 12 seconds, runtime/common/src/constants.rs:35-42. -/
def dayBlocks : Nat := 7200

/-- What the runtimes document for `ProposalLifetime`, "About 30 days" (runtime/parallel/src/lib.rs:1737): 31 days after
its first vote a proposal that was not voted on again is gone. -/
def C216_statement : Prop := ∀ (dec : Nat → Nat) (ch : Chain) (s s' : Bridge.State) (o : Option Nat) (chain n : Nat)
    (call : Bridge.MCall) (f : Bool), Bridge.Reach (ch.bridge dec) s → s.props chain (n, call) = none →
  Bridge.materialize (ch.bridge dec) s o chain n call f = .ok s' →
  (Bridge.newBlock^[31 * dayBlocks] s').props chain (n, call) = none

/-- Blocks pass: a stored proposal stays until exactly the block of its expiry. -/
theorem blocks_props {chain n : Nat} {call : Bridge.MCall} {p : Bridge.Proposal} : ∀ (k : Nat) (s : Bridge.State),
    s.props chain (n, call) = some p →
    (Bridge.newBlock^[k] s).now = s.now + k ∧
    (s.now + k < p.expiry → (Bridge.newBlock^[k] s).props chain (n, call) = some p) ∧
    (1 ≤ k → p.expiry ≤ s.now + k → (Bridge.newBlock^[k] s).props chain (n, call) = none)
  | 0, s, h => ⟨rfl, fun _ => h, fun h0 => absurd h0 (by decide)⟩
  | k + 1, s, h => by
    obtain ⟨h1, h2, h3⟩ := blocks_props k s h
    rw [Function.iterate_succ_apply']
    obtain ⟨e1, _, e2, e3, e4⟩ := Bridge.C110_expiry (s := Bridge.newBlock^[k] s) chain n call
    refine ⟨by rw [e1, h1]; rfl, fun hl => ?_, fun _ hl => ?_⟩
    · exact e2 p (h2 (by omega)) (by rw [h1]; omega)
    · by_cases hk : s.now + k < p.expiry
      · exact e3 p (h2 hk) (by rw [h1]; omega)
      · by_cases h0 : k = 0
        · subst h0
          exact e3 p h (by show p.expiry ≤ s.now + 1; omega)
        · exact e4 (h3 (by omega) (by omega))

/-- The lifetime in blocks: 360 days on Parallel and Heiko, 40 minutes on the test networks. -/
def lifeBlocks : Chain → Nat
  | .parallel => 360 * dayBlocks
  | .heiko => 360 * dayBlocks
  | .vanilla => 40 * 5
  | .kerria => 40 * 5

/-- **C216, what holds.** A proposal first voted on in block `b` and not decided by that vote is stored until exactly block
`b + lifeBlocks`: for 360 days on Parallel and Heiko (twelve times what the comment in the runtimes says). -/
theorem C216_life_partial {s s' : Bridge.State} {o : Option Nat} {chain n : Nat} {call : Bridge.MCall} {f : Bool}
    (hn : s.props chain (n, call) = none) (hm : Bridge.materialize (ch.bridge dec) s o chain n call f = .ok s') (k : Nat) :
    (k < lifeBlocks ch → ∃ p, (Bridge.newBlock^[k] s').props chain (n, call) = some p) ∧
    (lifeBlocks ch ≤ k → (Bridge.newBlock^[k] s').props chain (n, call) = none) := by
  obtain ⟨w, vf, va, e, st, _, h1, h2, _, _⟩ := Bridge.C110_vote hm
  have hnow : s'.now = s.now := by
    obtain ⟨w, p, _, _, _, _, _, _, _, h2⟩ := Bridge.materialize_ok hm
    rcases h2 with ⟨_, h2⟩ | ⟨_, _, _, h2⟩ | ⟨_, rfl⟩
    · obtain ⟨_, _, l, l', reg', _, _, _, rfl⟩ := Bridge.execute_ok h2; rfl
    · obtain ⟨reg', _, rfl⟩ := Bridge.cancelMat_ok h2; rfl
    · rfl
  have he : e = s.now + lifeBlocks ch := by
    rcases h1 with h1 | ⟨_, _, _, h1⟩
    · rw [hn] at h1; cases h1
    · rw [h1]; cases ch <;> rfl
  have hpos : 0 < lifeBlocks ch := by cases ch <;> decide
  have hexp : ∀ q : Bridge.Proposal, q = (if f = true then ⟨vf ++ [w], va, st, e⟩ else ⟨vf, va ++ [w], st, e⟩) →
      q.expiry = s'.now + lifeBlocks ch := by
    rintro q rfl
    rw [hnow, ← he]
    split <;> rfl
  generalize hq : (if f = true then (⟨vf ++ [w], va, st, e⟩ : Bridge.Proposal) else ⟨vf, va ++ [w], st, e⟩) = q at h2
  have hx := hexp q hq.symm
  obtain ⟨_, k1, k2⟩ := blocks_props k s' h2
  exact ⟨fun h => ⟨q, k1 (by omega)⟩, fun h => k2 (by omega) (by omega)⟩

/-- Parallel before the first vote. -/
def exB0 : Bridge.State := bridgeRun exDec .parallel (Bridge.changeMembers (Chain.parallel.bridge exDec)
    ⟨exPot, 1, fun _ => none, fun _ => none, fun _ => none, fun _ => none, fun _ _ => none, [], 100, []⟩ [11, 12, 13])
  [.registerChain 5, .registerToken 201 ⟨7, true, 0, true, 1000000000000, 0, 1000000000000, 0⟩]
theorem exB0_reach : Bridge.Reach (Chain.parallel.bridge exDec) exB0 :=
  bridgeRun_reach (.step (.init exPot [] 100 (Ledger.ofList_wf _)) (.members _)) _
theorem exB0_vote : exB0.props 5 (1, exCall) = none ∧
    okAnd (Bridge.materialize (Chain.parallel.bridge exDec) exB0 (some 11) 5 1 exCall true) (fun _ => true) = true :=
  ⟨by decide +kernel, by decide +kernel⟩

/-- C216 is false of the code: on Parallel a proposal is stored for 360 days (a finding). -/
theorem C216_refuted : ¬ C216_statement := by
  intro h
  obtain ⟨s', hs', _⟩ := okAnd_iff.1 exB0_vote.2
  have h1 := h _ _ _ _ _ _ _ _ _ exB0_reach exB0_vote.1 hs'
  obtain ⟨p, h2⟩ := (C216_life_partial exB0_vote.1 hs' (31 * dayBlocks)).1 (by decide)
  rw [h1] at h2
  cases h2

/-! ## C217: the terms of the deployed chains -/

/-- The smallest stake: 1 DOT, 1.1 KSM, and 0.1 KSM on Vanilla. -/
def leastStake : Chain → Nat
  | .parallel => 1 * 10 ^ 10 | .kerria => 1 * 10 ^ 10 | .heiko => 11 * 10 ^ 11 | .vanilla => 10 ^ 11

/-- The smallest unstake: 0.5 sDOT, 0.05 sKSM. -/
def leastUnstake : Chain → Nat
  | .parallel => 5 * 10 ^ 9 | .kerria => 5 * 10 ^ 9 | .heiko => 5 * 10 ^ 10 | .vanilla => 5 * 10 ^ 10

/-- The smallest contribution to a crowdloan: 5 DOT, 0.1 KSM. -/
def leastContribution : Chain → Nat
  | .parallel => 5 * 10 ^ 10 | .kerria => 5 * 10 ^ 10 | .heiko => 10 ^ 11 | .vanilla => 10 ^ 11

/-- The part of a stake kept to pay for messages: 0.05 DOT, 0.005 KSM. -/
def messageFee : Chain → Nat
  | .parallel => 5 * 10 ^ 8 | .kerria => 5 * 10 ^ 8 | .heiko => 5 * 10 ^ 9 | .vanilla => 5 * 10 ^ 9

/-- The number of eras after the current one until unstaked tokens are due: 29 on Parallel and Heiko, 4 on the others. -/
def waitEras : Chain → Nat
  | .parallel => 29 | .heiko => 29 | .vanilla => 4 | .kerria => 4

/-- The number of accounts on the relay chain that are staked with. -/
def stakers : Chain → Nat
  | .parallel => 6 | .heiko => 9 | .vanilla => 2 | .kerria => 2

variable {H : List Nat → Nat}

/-- **C217, staking.** A stake smaller than `leastStake` is refused; of an accepted one exactly `messageFee` goes to the
account that pays for messages (from an account other than the pallet's own). -/
theorem C217_stake {s s' : Staking.State} {w : Nat} (h : Staking.exec (ch.staking H) s (.stake w m) = .ok s')
    (hw : w ≠ pallet idXcm) :
    leastStake ch ≤ m ∧ s'.tok.bal ch.relay (pallet idXcm) = s.tok.bal ch.relay (pallet idXcm) + messageFee ch := by
  have e1 : (ch.staking H).minStake = leastStake ch := by cases ch <;> rfl
  have e2 : (ch.staking H).xcmFees = messageFee ch := by cases ch <;> rfl
  have e3 : (ch.staking H).staking = ch.relay := rfl
  have e4 : (ch.staking H).acct = pallet idStaking := rfl
  have e5 : (ch.staking H).xcmAcct = pallet idXcm := rfl
  have e6 : (ch.staking H).liquid = ch.liquid := rfl
  have h' : Staking.stake (ch.staking H) s w m = .ok s' := h
  unfold Staking.stake at h'
  simp only [bind_ok_iff, ensure_ok_iff, csub_ok_iff, cadd_ok_iff, pure_ok_iff, exists_const, e1, e2, e3, e4, e5, e6] at h'
  obtain ⟨h1, a, ⟨_, rfl⟩, l, h2, l2, h3, a', ⟨_, rfl⟩, q, hq, _, _, l3, h4, hh, h5, t, ⟨_, _⟩, rfl⟩ := h'
  refine ⟨h1, ?_⟩
  show l3.bal ch.relay (pallet idXcm) = _
  have hne : pallet idStaking ≠ pallet idXcm :=
    pallet_ne (by unfold Bytes; decide) (by unfold Bytes; decide) rfl (by decide)
  have b1 := Ledger.transfer_bal h2 ch.relay (pallet idXcm)
  have b2 := Ledger.transfer_bal h3 ch.relay (pallet idXcm)
  have b3 := Ledger.mint_bal h4 ch.relay (pallet idXcm)
  have hl : ch.liquid ≠ ch.relay := by cases ch <;> decide
  rw [if_neg (fun e => hw e.2.symm), if_neg (fun e => hne e.2.symm)] at b1
  rw [if_neg (fun e => hw e.2.symm), if_pos ⟨rfl, rfl⟩] at b2
  rw [if_neg (fun e => hl e.1.symm)] at b3
  omega

/-- **C217, unstaking.** Less than `leastUnstake` is refused; what is accepted through the relay chain is due exactly
`waitEras` eras later. -/
theorem C217_unstake {s s' : Staking.State} {w q : Nat} (h : Staking.exec (ch.staking H) s (.unstake w q .relay) = .ok s') :
    leastUnstake ch ≤ q ∧ ∃ xs x, s'.unlockings w = some (xs ++ [x]) ∧ x.era = s.era + waitEras ch := by
  have e1 : (ch.staking H).minUnstake = leastUnstake ch := by cases ch <;> rfl
  have e2 : s.era + (ch.staking H).bonding + 1 = s.era + waitEras ch := by cases ch <;> rfl
  have h' : Staking.unstake (ch.staking H) s w q .relay = .ok s' := h
  unfold Staking.unstake at h'
  simp only [bind_ok_iff, ensure_ok_iff, csub_ok_iff, cadd_ok_iff, exists_const, reduceCtorEq, if_false, e1] at h'
  obtain ⟨h1, t, ⟨_, rfl⟩, r, _, h2⟩ := h'
  refine ⟨h1, ?_⟩
  unfold Staking.unstakeSlow Staking.viaLoans Staking.targetEra at h2
  simp only [bind_ok_iff, ensure_ok_iff, pure_ok_iff, exists_const, reduceCtorEq, if_false, Staking.unlockKey,
    Staking.eraAdd_ok_iff, Except.ok.injEq, exists_eq_left'] at h2
  obtain ⟨v, _, e, ⟨_, ⟨_, rfl⟩, _, rfl⟩, _, l, _, l2, _, hh, _, rfl⟩ := h2
  rw [e2]
  show ∃ xs x, upd s.unlockings w (some _) w = some (xs ++ [x]) ∧ _
  rw [upd_same]
  rcases Staking.pushChunk_cases ((s.unlockings w).getD []) v (s.era + waitEras ch) with
    hx | ⟨ys, y, _, hx⟩
  · exact ⟨_, _, congrArg some hx, rfl⟩
  · exact ⟨_, _, congrArg some hx, rfl⟩

/-- **C217, contributions.** Less than `leastContribution` is refused. -/
theorem C217_contribute {s s' : Crowdloans.State} {w para code : Nat}
    (h : Crowdloans.exec ch.crowdloans s (.contribute w para m code) = .ok s') : leastContribution ch ≤ m := by
  have e1 : ch.crowdloans.minContribution = leastContribution ch := by cases ch <;> rfl
  have h' : Crowdloans.contribute ch.crowdloans s w para m code = .ok s' := h
  unfold Crowdloans.contribute at h'
  simp only [bind_ok_iff, ensure_ok_iff, exists_const, e1, Prod.exists] at h'
  obtain ⟨_, _, _, _, _, _, h1, _⟩ := h'
  exact h1

/-- The relay block in which lease period `n` begins: every 84 days, 64 days after genesis, on Polkadot; every 42 days on
Kusama (a day has 14400 relay blocks); every two minutes for Vanilla, every four for Kerria (five blocks a minute). -/
def leaseBegins : Chain → Nat → Nat
  | .parallel, n => (84 * n + 64) * 14400
  | .heiko, n => 42 * n * 14400
  | .vanilla, n => 2 * n * 5
  | .kerria, n => 4 * n * 5

theorem years {c : Crowdloans.Cfg} {s : Crowdloans.State} {lease : Nat × Nat} {t y : Nat}
    (h : Crowdloans.termRate c s lease = .ok (some (t, y))) :
    y = min maxU128 (min maxU32 (c.leasePeriod * (lease.2 - lease.1 + 1)) * DIV / min maxU32 (c.leasePerYear * c.leasePeriod)) := by
  unfold Crowdloans.termRate at h
  split at h
  · cases h
  split at h
  · cases h
  simp only [bind_ok_iff, fixSatFromRational_ok_iff] at h
  obtain ⟨y', ⟨hy0, hy⟩, h⟩ := h
  rw [← hy]
  split_ifs at h
  · rw [pure_ok_iff] at h; cases h; rfl
  · simp only [bind_ok_iff, fixSatFromRational_ok_iff, pure_ok_iff] at h
    obtain ⟨_, _, h⟩ := h
    cases h; rfl
  · rw [pure_ok_iff] at h; cases h; rfl

/-- **C217, leases.** As long as the block numbers are representable, the reported progress of the lease `lo` to `hi` is
zero before the first of these periods begins, one when the last is over, and in between at most the elapsed share; its
length in years is a quarter (Parallel, Kerria) or an eighth (Heiko, Vanilla) of the number of periods. -/
theorem C217_lease {s : Crowdloans.State} {lo hi t y : Nat} (h : Crowdloans.termRate ch.crowdloans s (lo, hi) = .ok (some (t, y)))
    (hb : leaseBegins ch (hi + 1) < 2 ^ 32) :
    (s.relayBlock < leaseBegins ch lo → t = 0) ∧ (leaseBegins ch (hi + 1) ≤ s.relayBlock → t = 10 ^ 18) ∧
    (leaseBegins ch lo ≤ s.relayBlock → s.relayBlock < leaseBegins ch (hi + 1) →
      t * (leaseBegins ch (hi + 1) - leaseBegins ch lo) ≤ (s.relayBlock - leaseBegins ch lo) * 10 ^ 18) ∧
    y = (hi - lo + 1) * 10 ^ 18 / (if ch = .parallel ∨ ch = .kerria then 4 else 8) := by
  have hP : ∀ n, leaseBegins ch n = ch.crowdloans.leasePeriod * n + ch.crowdloans.leaseOffset := by
    intro n
    cases ch
    · show (84 * n + 64) * 14400 = 84 * 2 * 7200 * n + 64 * 2 * 7200; omega
    · show 42 * n * 14400 = 42 * 2 * 7200 * n + 0; omega
    · show 2 * n * 5 = 2 * 5 * n + 0; omega
    · show 4 * n * 5 = 2 * 2 * 5 * n + 0; omega
  have hY : ∃ q, 0 < q ∧ q = (if ch = .parallel ∨ ch = .kerria then 4 else 8) ∧
      min maxU32 (ch.crowdloans.leasePerYear * ch.crowdloans.leasePeriod) = q * ch.crowdloans.leasePeriod ∧
      0 < ch.crowdloans.leasePeriod := by
    cases ch
    · exact ⟨4, by decide, by decide, by decide, by decide⟩
    · exact ⟨8, by decide, by decide, by decide, by decide⟩
    · exact ⟨8, by decide, by decide, by decide, by decide⟩
    · exact ⟨4, by decide, by decide, by decide, by decide⟩
  obtain ⟨q, hq, hq', hmin, hpos⟩ := hY
  rw [← hq']
  obtain ⟨_, p1, p2, p3⟩ := Crowdloans.C105_progress h
  have hle : lo ≤ hi := by
    have hw := (Crowdloans.C105_when (c := ch.crowdloans) (s := s) (lease := (lo, hi)) hpos
      (by cases ch <;> decide)).2.1 ⟨_, h⟩
    exact hw.2.1
  have hyr := years h
  simp only at p1 p2 p3 hyr
  rw [hP] at hb ⊢
  rw [hP]
  have hm32 : maxU32 = 2 ^ 32 - 1 := by decide
  have hmul : ch.crowdloans.leasePeriod * (hi + 1) =
      ch.crowdloans.leasePeriod * lo + ch.crowdloans.leasePeriod * (hi - lo + 1) := by
    rw [← Nat.mul_add]; congr 1; omega
  have b1 : Crowdloans.leaseBlock ch.crowdloans lo = ch.crowdloans.leasePeriod * lo + ch.crowdloans.leaseOffset := by
    unfold Crowdloans.leaseBlock; omega
  have b2 : Crowdloans.leaseBlock ch.crowdloans (hi + 1) =
      ch.crowdloans.leasePeriod * (hi + 1) + ch.crowdloans.leaseOffset := by
    unfold Crowdloans.leaseBlock; omega
  have b3 : min maxU32 (ch.crowdloans.leasePeriod * (hi - lo + 1)) = ch.crowdloans.leasePeriod * (hi - lo + 1) := by omega
  rw [b1] at p1 p2 p3
  rw [b2] at p2 p3
  rw [b3] at p3 hyr
  rw [hmin] at hyr
  have hD : DIV = 10 ^ 18 := by decide
  rw [hD] at p2 p3 hyr
  refine ⟨p1, fun g => p2 ?_ g, fun g1 g2 => ?_, ?_⟩
  · refine Nat.le_trans ?_ g
    rw [hmul]
    omega
  · have := (p3 g1 g2).1
    have e : ch.crowdloans.leasePeriod * (hi + 1) + ch.crowdloans.leaseOffset -
        (ch.crowdloans.leasePeriod * lo + ch.crowdloans.leaseOffset) = ch.crowdloans.leasePeriod * (hi - lo + 1) := by
      rw [hmul]; omega
    rw [e]; exact this
  · rw [hyr]
    have e : ch.crowdloans.leasePeriod * (hi - lo + 1) * 10 ^ 18 / (q * ch.crowdloans.leasePeriod) =
        (hi - lo + 1) * 10 ^ 18 / q := by
      rw [Nat.mul_assoc, Nat.mul_comm q]
      exact Nat.mul_div_mul_left _ _ hpos
    rw [e, Nat.min_eq_right]
    have hk : hi - lo + 1 ≤ maxU32 := by
      have : 1 * (hi - lo + 1) ≤ ch.crowdloans.leasePeriod * (hi - lo + 1) := Nat.mul_le_mul_right _ hpos
      omega
    calc (hi - lo + 1) * 10 ^ 18 / q ≤ (hi - lo + 1) * 10 ^ 18 := Nat.div_le_self _ _
      _ ≤ maxU32 * 10 ^ 18 := Nat.mul_le_mul_right _ hk
      _ ≤ maxU128 := by decide

/-- **C217, bonus streams.** Claims on Heiko and Vanilla never open a stream; on Parallel and Kerria one with a bonus does. -/
theorem C217_bonus {D : Nat → Prop} {s s' : Crowdloans.State} {who : Nat} {k : Crowdloans.Key} {f : Bool}
    (he : Crowdloans.claim ch.crowdloans s who k f = .ok s') :
    (ch = .heiko ∨ ch = .vanilla → s'.str.next = s.str.next ∧ s'.str.streams = s.str.streams) ∧
    (ch = .parallel ∨ ch = .kerria → Crowdloans.CfgOK ch.crowdloans D → Crowdloans.Reach ch.crowdloans D s →
      Streaming.LibInv s.str → s.str.streams s.str.next = none →
      ∃ v b, s.vaults k = some v ∧ Crowdloans.Bonussed ch.crowdloans s k.lease (s.amount v.trie .contributed who) b ∧
        s'.str.next = s.str.next + (if b = 0 then 0 else 1)) := by
  constructor
  · intro hc
    have hst : ch.crowdloans.streams = false := by rcases hc with rfl | rfl <;> rfl
    obtain ⟨h1, h2, _⟩ := Crowdloans.C119_no_streaming hst he
    exact ⟨h2, h1⟩
  · intro hc hok hr hl hf
    have hst : ch.crowdloans.streams = true := by rcases hc with rfl | rfl <;> rfl
    obtain ⟨v, b, h1, h2, h3, h4, _⟩ := Crowdloans.C119_claim_stream hok hst hr hl hf he
    refine ⟨v, b, h1, h2, ?_⟩
    by_cases h0 : b = 0
    · rw [if_pos h0]; exact (h3 h0).2
    · rw [if_neg h0]; exact (h4 h0).1

/-- **C217, the bridge.** A chain does not register itself: Parallel and Kerria are chain 1, Heiko and Vanilla chain 0. -/
theorem C217_own_chain {s : Bridge.State} (n : Nat) :
    (∃ s', Bridge.registerChain (ch.bridge dec) s n = .ok s') ↔
      s.nonces n = none ∧ n ≠ (if ch = .parallel ∨ ch = .kerria then 1 else 0) := by
  have e : (ch.bridge dec).chainId = (if ch = .parallel ∨ ch = .kerria then 1 else 0) := by cases ch <;> rfl
  unfold Bridge.registerChain
  simp only [bind_ok_iff, ensure_ok_iff, pure_ok_iff, exists_const, e]
  exact ⟨fun ⟨_, h, _⟩ => ⟨h.2, h.1⟩, fun h => ⟨_, ⟨h.2, h.1⟩, rfl⟩⟩

/-- **C217, currencies.** Each chain's own token, the relay chain's and the liquid one are three different currencies; Parallel
and Kerria use PARA (1), DOT (101) and sDOT (1001), Heiko and Vanilla HKO (0), KSM (100) and sKSM (1000). -/
theorem C217_currencies : (ch.native, ch.relay, ch.liquid) =
    (if ch = .parallel ∨ ch = .kerria then (1, 101, 1001) else (0, 100, 1000)) ∧
    (ch.indices = List.range (stakers ch)) ∧ ch.collateral = 2 ^ 32 - 10000 - (if ch = .parallel ∨ ch = .kerria then 0 else 1) ∧
    ∀ id : List Nat, acctBytes id = "modl".toList.map Char.toNat ++ id ++ List.replicate 20 0 := by
  have e : "modl".toList.map Char.toNat = [109, 111, 100, 108] := by decide
  rw [e]
  cases ch <;> exact ⟨by decide, by decide, by decide, fun _ => rfl⟩

example : leastStake .parallel = 10000000000 ∧ leastStake .heiko = 1100000000000 ∧ lifeBlocks .parallel = 2592000 ∧
    leaseBegins .parallel 8 = 10598400 := by decide

/-- On Parallel account 8 can stake 1 DOT but not less, and account 7 can unstake half an sDOT, due in era 29. -/
example : (8 : Nat) ≠ pallet idXcm ∧
    okAnd (Staking.exec (Chain.parallel.staking exH) exP1.stkV (.stake 8 10000000000)) (fun s =>
      decide (s.tok.bal 101 (pallet idXcm) = exP1.ledger.bal 101 (pallet idXcm) + 500000000)) = true ∧
    errIs (Staking.exec (Chain.parallel.staking exH) exP1.stkV (.stake 8 9999999999)) .stakeTooSmall = true ∧
    okAnd (Staking.exec (Chain.parallel.staking exH) exP1.stkV (.unstake 7 5000000000 .relay)) (fun s =>
      decide ((s.unlockings 7).map (fun l => l.map (·.era)) = some [exP1.stk.era + 29])) = true :=
  ⟨by decide +kernel, by decide +kernel, by decide +kernel, by decide +kernel⟩

/-- Half of the lease of periods 8 to 15 on Polkadot has passed at the beginning of period 12; it is two years long. -/
example : Crowdloans.termRate Chain.parallel.crowdloans { Crowdloans.ex0 with relayBlock := leaseBegins .parallel 12 } (8, 15) =
    .ok (some (500000000000000000, 2000000000000000000)) ∧ leaseBegins .parallel 16 < 2 ^ 32 := by decide +kernel

end Verif.System
