import Verif.Streaming.Model
import Verif.Prelude.Fixed

/-!
# Model of `pallets/crowdloans/src/lib.rs` and `types.rs`

The bonus streams are created in the model of the streaming pallet, whose ledger holds all balances.  The XCM helper
is modelled by its fee account, its fees and a query counter (`pallets/xcm-helper/src/lib.rs`).

Not modelled: origins (the privileged calls may be made by anybody), weights, the storage version, responses that are
not execution results (they are ignored by the source), and `get_exchange_rate` (floating point).  A vault's lease
bounds are its storage key and are not repeated inside it.  A referral code is an opaque number, the empty code is 0.
A child trie is a list of entries in ascending key order; the loops visit that order, and an entry they remove was
already visited, so they are modelled as loops over the list at their start.  The money market's part of
`redeem_and_lend_for` is the transfer of the deposit; the receipt tokens are in `Verif.Loans`.
`State.log` is a record kept by the model alone: who paid in, got back, claimed, withdrew and redeemed how much.
-/

namespace Verif.Crowdloans
open Verif

/-- `VaultPhase`, types.rs:28-47. -/
inductive Phase where
  | pending | contributing | closed | failed | succeeded | expired
deriving DecidableEq

/-- `ChildStorageKind`, types.rs:129-133. -/
inductive Kind where
  | pending | flying | contributed
deriving DecidableEq

/-- The key of a vault: parachain, first and last lease period; lib.rs:351-359. -/
structure Key where
  para : Nat
  start : Nat
  stop : Nat
deriving DecidableEq

/-- The lease of a key, `VaultId`. -/
def Key.lease (k : Key) : Nat × Nat := (k.start, k.stop)

/-- `Vault`, types.rs:51-75; `proxied` is the strategy `XCMPROXY`. -/
structure Vault where
  ctoken : Nat
  phase : Phase
  contributed : Nat
  pending : Nat
  flying : Nat
  proxied : Bool
  cap : Nat
  endBlock : Nat
  trie : Nat
deriving DecidableEq

/-- One contribution in a child trie: account, amount and referral code, lib.rs:1497-1511. -/
structure Entry where
  who : Nat
  amt : Nat
  code : Nat
deriving DecidableEq

/-- `XcmRequest`, types.rs:112-126. -/
inductive Req where
  | contribute (k : Key) (who amt code : Nat)
  | withdraw (k : Key) (amt : Nat) (target : Phase)
deriving DecidableEq

/-- `BonusConfig`, types.rs:150-158. -/
structure Bonus where
  perToken : Nat
  start : Nat
  stop : Nat

/-- The model's record of payments; `t` is the child-trie index of the vault. -/
inductive Ev where
  /-- `who` paid `m` relay tokens into the vault -/
  | paid (t who m : Nat)
  /-- the relay chain confirmed a contribution of `m` -/
  | executed (t who m : Nat)
  /-- a contribution of the given kind was returned to `who` -/
  | back (t : Nat) (k : Kind) (who m : Nat)
  /-- `who` received `m` derivative tokens -/
  | claimed (t who m : Nat)
  /-- `who` withdrew `m` relay tokens after the auction failed -/
  | withdrew (t who m : Nat)
  /-- `who` redeemed `m` derivative tokens -/
  | redeemed (t who m : Nat)
deriving DecidableEq

/-- Kinds of XCM fee, `XcmCall` of xcm-helper. -/
inductive Fee where
  | contribute | proxyContribute | withdraw
deriving DecidableEq

/-- `Config`, lib.rs:105-210. -/
structure Cfg where
  /-- `account_id()`, lib.rs:1228-1230 -/
  acct : Nat
  /-- the account of the XCM helper that pays fees -/
  xcmAcct : Nat
  /-- the account of the money market -/
  loansAcct : Nat
  relay : Nat
  native : Nat
  minContribution : Nat
  migrateLimit : Nat
  removeLimit : Nat
  /-- relay-chain lease parameters -/
  leasePeriod : Nat
  leaseOffset : Nat
  leasePerYear : Nat
  streaming : Streaming.Cfg
  /-- whether `type Streaming` is the streaming pallet (parallel, kerria) or `()`, whose `create` does nothing (heiko,
  vanilla; pallets/traits/src/lib.rs:240-252) -/
  streams : Bool

/-- Storage, lib.rs:349-411, with the streaming pallet and the ledger, and what the pallet asks others about. -/
structure State where
  str : Streaming.State
  vaults : Key → Option Vault
  isVrf : Bool
  ctokenOf : Nat × Nat → Option Nat
  leaseOf : Nat → Option (Nat × Nat)
  nextTrie : Nat
  requests : Nat → Option Req
  proxy : Option Nat
  bonus : Nat × Nat → Bonus
  child : Nat × Kind → List Entry
  nextQuery : Nat
  relayBlock : Nat
  fee : Fee → Nat
  sendOk : Bool
  decimal : Nat → Option Nat
  nonce : Nat → Nat
  log : List Ev

/-- All balances. -/
def State.tok (s : State) : Ledger := s.str.ledger
/-- Replace the balances. -/
def State.withTok (s : State) (l : Ledger) : State := { s with str := { s.str with ledger := l } }

/-! ## Child storage -/

/-- `contribution_get`, lib.rs:1513-1524: absent entries read as zero with an empty code. -/
def getEntry (l : List Entry) (who : Nat) : Entry :=
  match l with
  | [] => ⟨who, 0, 0⟩
  | e :: l => if e.who = who then e else getEntry l who

/-- `contribution_put`, lib.rs:1497-1511. -/
def putEntry (l : List Entry) (n : Entry) : List Entry :=
  match l with
  | [] => [n]
  | e :: l => if n.who < e.who then n :: e :: l else if e.who = n.who then n :: l else e :: putEntry l n

/-- `contribution_kill`, lib.rs:1526-1532. -/
def killEntry (l : List Entry) (who : Nat) : List Entry := l.filter (fun e => decide (e.who ≠ who))

/-- The running total of a kind in the vault. -/
def Vault.get (v : Vault) : Kind → Nat
  | .pending => v.pending
  | .flying => v.flying
  | .contributed => v.contributed

/-- Replace the running total of a kind in the vault. -/
def Vault.set (v : Vault) (k : Kind) (x : Nat) : Vault :=
  match k with
  | .pending => { v with pending := x }
  | .flying => { v with flying := x }
  | .contributed => { v with contributed := x }

/-- `ArithmeticKind` applied with its checked operation, lib.rs:1276-1331. -/
def bump (add : Bool) (x m : Nat) : R Nat := if add = true then cadd .overflow x m else csub .underflow x m

/-- `do_update_contribution`, lib.rs:1262-1345. -/
def updateContribution (s : State) (v : Vault) (who m : Nat) (code : Option Nat) (add : Bool) (k : Kind) :
    R (State × Vault × Nat) := do
  let e := getEntry (s.child (v.trie, k)) who
  let t ← bump add (v.get k) m
  let n ← bump add e.amt m
  pure ({ s with child := upd s.child (v.trie, k) (if n = 0 then killEntry (s.child (v.trie, k)) who
            else putEntry (s.child (v.trie, k)) ⟨who, n, code.getD e.code⟩) },
        v.set k t, code.getD e.code)

/-- `do_migrate_contribution`, lib.rs:1348-1373. -/
def migrateContribution (s : State) (v : Vault) (who m : Nat) (src dst : Kind) : R (State × Vault) := do
  let (s, v, code) ← updateContribution s v who m none false src
  let (s, v, _) ← updateContribution s v who m (some code) true dst
  pure (s, v)

/-! ## XCM -/

/-- The helper's account pays the fee, xcm-helper/src/lib.rs:352-353. -/
def burnFee (c : Cfg) (s : State) (f : Fee) : R Ledger :=
  match s.tok.burn c.relay c.xcmAcct (s.fee f) with
  | .ok l => .ok l
  | .error _ => .error .insufficientXcmFees

/-- Send a message: the helper burns the fee, registers a query and hands the message over
(xcm-helper/src/lib.rs:345-372, 449-572), then `XcmRequests::insert`. -/
def sendXcm (c : Cfg) (s : State) (f : Fee) (r : Req) : R State := do
  let l ← burnFee c s f
  ensure (s.sendOk = true) .sendFailure
  pure { (s.withTok l) with
    requests := upd s.requests s.nextQuery (some r)
    nextQuery := s.nextQuery + 1 }

/-- `do_contribute`, lib.rs:1545-1589. -/
def doContribute (c : Cfg) (s : State) (k : Key) (proxied : Bool) (who m code : Nat) : R State :=
  if proxied = true then do
    let _ ← okOr s.proxy .emptyProxyAddress
    sendXcm c s .proxyContribute (.contribute k who m code)
  else sendXcm c s .contribute (.contribute k who m code)

/-- `do_withdraw`, lib.rs:1592-1628. -/
def doWithdraw (c : Cfg) (s : State) (k : Key) (m : Nat) (target : Phase) : R State :=
  sendXcm c s .withdraw (.withdraw k m target)

/-! ## Vaults -/

/-- The key of the current vault of a parachain, lib.rs:1237-1241. -/
def State.currentKey (s : State) (para : Nat) : Option Key :=
  (s.leaseOf para).map (fun l => ⟨para, l.1, l.2⟩)

/-- `current_vault`, lib.rs:1237-1241, with the key it is stored under. -/
def State.current (s : State) (para : Nat) : Option (Key × Vault) := do
  let k ← s.currentKey para
  let v ← s.vaults k
  some (k, v)

/-- `total_contribution`, lib.rs:1243-1251. -/
def Vault.total (v : Vault) : R Nat := do
  let a ← cadd .overflow v.contributed v.flying
  cadd .overflow a v.pending

/-- `Vaults::insert`. -/
def State.putVault (s : State) (k : Key) (v : Vault) : State := { s with vaults := upd s.vaults k (some v) }

/-- The check against an unfinished predecessor, lib.rs:454-458. -/
def prevFinished (s : State) (para : Nat) : R Unit :=
  match s.current para with
  | some (_, v) => ensure (v.phase = .failed ∨ v.phase = .expired) .vaultNotEnded
  | none => .ok ()

/-- `create_vault`, lib.rs:425-504; the trie index is a `u32`. -/
def createVault (s : State) (k : Key) (ctoken : Nat) (proxied : Bool) (cap endBlock : Nat) : R State := do
  ensure (cap ≠ 0) .invalidCap
  ensure (k.start ≤ k.stop) .lastPeriodBeforeFirstPeriod
  ensure (s.ctokenOf k.lease = none ∨ s.ctokenOf k.lease = some ctoken) .invalidCToken
  ensure (s.vaults k = none) .vaultAlreadyExists
  prevFinished s k.para
  ensure (s.relayBlock ≤ endBlock) .endBlockExceeded
  ensure (s.nextTrie + 1 ≤ maxU32) .overflow
  pure { s with
    nextTrie := s.nextTrie + 1
    vaults := upd s.vaults k (some ⟨ctoken, .pending, 0, 0, 0, proxied, cap, endBlock, s.nextTrie⟩)
    ctokenOf := upd s.ctokenOf k.lease (some ctoken)
    leaseOf := upd s.leaseOf k.para (some k.lease) }

/-- The checks of `update_vault`, lib.rs:521-536. -/
def checkUpdate (s : State) (cap endBlock : Option Nat) : R Unit := do
  ensure (cap ≠ some 0) .invalidCap
  match endBlock with
  | some b => ensure (s.relayBlock ≤ b) .endBlockExceeded
  | none => pure ()

/-- `update_vault`, lib.rs:510-558. -/
def updateVault (s : State) (para : Nat) (cap endBlock : Option Nat) (proxied : Option Bool) : R State := do
  let (k, v) ← okOr (s.current para) .vaultDoesNotExist
  checkUpdate s cap endBlock
  pure (s.putVault k { v with
    cap := cap.getD v.cap
    endBlock := endBlock.getD v.endBlock
    proxied := proxied.getD v.proxied })

/-- `try_mutate_vault` with a callback that only sets the phase, lib.rs:1466-1482. -/
def movePhase (s : State) (para : Nat) (pre post : Phase) : R State := do
  let (k, v) ← okOr (s.current para) .vaultDoesNotExist
  ensure (v.phase = pre) .incorrectVaultPhase
  pure (s.putVault k { v with phase := post })

/-- `auction_failed`, lib.rs:784-802, and `slot_expired`, lib.rs:887-905: ask the relay chain for the money. -/
def askBack (c : Cfg) (s : State) (para : Nat) (pre target : Phase) : R State := do
  let (k, v) ← okOr (s.current para) .vaultDoesNotExist
  ensure (v.phase = pre) .incorrectVaultPhase
  let s ← doWithdraw c s k v.contributed target
  pure (s.putVault k v)

/-- The part of `contribute` after the payment, lib.rs:635-663. -/
def book (c : Cfg) (s : State) (k : Key) (v : Vault) (who m code : Nat) : R (State × Vault) :=
  if v.phase = .contributing then do
    let (s, v', _) ← updateContribution s v who m (some code) true .flying
    let s ← doContribute c s k v'.proxied who m code
    pure (s, v')
  else do
    let (s, v', _) ← updateContribution s v who m (some code) true .pending
    pure (s, v')

/-- `contribute`, lib.rs:590-683. -/
def contribute (c : Cfg) (s : State) (who para m code : Nat) : R State := do
  let (k, v) ← okOr (s.current para) .vaultDoesNotExist
  ensure (m ≠ 0) .invalidParams
  ensure (s.relayBlock ≤ v.endBlock) .endBlockExceeded
  ensure (v.phase = .contributing ∨ v.phase = .pending) .incorrectVaultPhase
  ensure (c.minContribution ≤ m) .insufficientContribution
  ensure (s.isVrf = false) .vrfDelayInProgress
  let t ← v.total
  let t ← cadd .overflow t m
  ensure (t ≤ v.cap) .capExceeded
  let l ← s.tok.transfer c.relay who c.acct m false
  let (s, v) ← book c (s.withTok l) k v who m code
  pure { (s.putVault k v) with log := s.log ++ [.paid v.trie who m] }

/-- `set_vrf`, lib.rs:689-702. -/
def setVrf (s : State) (f : Bool) : State := { s with isVrf := f }

/-- The loop of `migrate_pending`, lib.rs:927-948; the result says whether everything was visited. -/
def migrateLoop (c : Cfg) (k : Key) : Nat → List Entry → State → Vault → R (State × Vault × Bool)
  | _, [], s, v => .ok (s, v, true)
  | 0, _ :: _, s, v => .ok (s, v, false)
  | n + 1, e :: l, s, v => do
    let (s, v) ← migrateContribution s v e.who e.amt .pending .flying
    let s ← doContribute c s k v.proxied e.who e.amt e.code
    migrateLoop c k n l s v

/-- `migrate_pending`, lib.rs:911-968. -/
def migratePending (c : Cfg) (s : State) (para : Nat) : R State := do
  let (k, v) ← okOr (s.current para) .vaultDoesNotExist
  ensure (v.phase = .pending ∨ v.phase = .contributing) .incorrectVaultPhase
  ensure (s.isVrf = false) .vrfDelayInProgress
  let (s, v, _) ← migrateLoop c k c.migrateLimit (s.child (v.trie, .pending)) s v
  pure (s.putVault k v)

/-- The payment of `do_refund_for`, lib.rs:1782-1790. -/
def refundPay (c : Cfg) (s : State) (kind : Kind) (who m : Nat) : R Ledger :=
  if kind = .contributed then s.tok.mint c.relay who m else s.tok.transfer c.relay c.acct who m false

/-- `do_refund_for`, lib.rs:1776-1801. -/
def refundOne (c : Cfg) (s : State) (v : Vault) (kind : Kind) (who m : Nat) : R (State × Vault) := do
  let l ← refundPay c s kind who m
  let (s, v, _) ← updateContribution (s.withTok l) v who m none false kind
  pure ({ s with log := s.log ++ [.back v.trie kind who m] }, v)

/-- The nested loops of `refund`, lib.rs:1020-1031. -/
def refundLoop (c : Cfg) : Nat → List (Kind × Entry) → State → Vault → R (State × Vault × Bool)
  | _, [], s, v => .ok (s, v, true)
  | 0, _ :: _, s, v => .ok (s, v, false)
  | n + 1, e :: l, s, v => do
    let (s, v) ← refundOne c s v e.1 e.2.who e.2.amt
    refundLoop c n l s v

/-- What the nested loops of `refund` visit, in order. -/
def State.contributions (s : State) (t : Nat) : List (Kind × Entry) :=
  (s.child (t, .contributed)).map (fun e => (Kind.contributed, e)) ++
  (s.child (t, .flying)).map (fun e => (Kind.flying, e)) ++
  (s.child (t, .pending)).map (fun e => (Kind.pending, e))

/-- `refund`, lib.rs:1000-1045. -/
def refund (c : Cfg) (s : State) (k : Key) : R State := do
  let v ← okOr (s.vaults k) .vaultDoesNotExist
  ensure (v.phase = .closed ∨ v.phase = .failed) .incorrectVaultPhase
  let (s, v, _) ← refundLoop c c.removeLimit (s.contributions v.trie) s v
  pure (s.putVault k v)

/-- `refund_for`, lib.rs:1101-1137. -/
def refundFor (c : Cfg) (s : State) (who : Nat) (k : Key) (kind : Kind) (m : Nat) : R State := do
  let v ← okOr (s.vaults k) .vaultDoesNotExist
  ensure (v.phase = .closed) .incorrectVaultPhase
  ensure (m ≤ (getEntry (s.child (v.trie, kind)) who).amt) .insufficientContribution
  let (s, v) ← refundOne c s v kind who m
  pure (s.putVault k v)

/-- `dissolve_vault`, lib.rs:1051-1091, with `has_childstorage`, lib.rs:1631-1638. -/
def dissolve (s : State) (k : Key) : R State := do
  let v ← okOr (s.vaults k) .vaultDoesNotExist
  ensure (v.phase = .closed ∨ v.phase = .failed ∨ v.phase = .expired) .incorrectVaultPhase
  ensure (s.contributions v.trie = []) .notReadyToDissolve
  let t ← v.total
  ensure (t = 0) .notReadyToDissolve
  pure { s with
    vaults := upd s.vaults k none
    leaseOf := if s.leaseOf k.para = some k.lease then upd s.leaseOf k.para none else s.leaseOf }

/-- `normalized_amount`, lib.rs:1707-1720. -/
def normalizedAmount (c : Cfg) (s : State) (m : Nat) : Option Nat := do
  let r ← s.decimal c.relay
  let n ← s.decimal c.native
  if r < n then
    if 10 ^ (n - r) ≤ maxU128 ∧ m * 10 ^ (n - r) ≤ maxU128 then some (m * 10 ^ (n - r)) else none
  else if r = n then some m
  else if 10 ^ (r - n) ≤ maxU128 then some (m / 10 ^ (r - n)) else none

/-- The bonus a claim of `m` earns, lib.rs:1680-1682. -/
def bonusOf (c : Cfg) (s : State) (lease : Nat × Nat) (m : Nat) : Nat :=
  (normalizedAmount c s (min maxU128 (m * (s.bonus lease).perToken))).getD 0

/-- Stream the bonus, lib.rs:1683-1693; `Streaming::create` of `()` does nothing. -/
def payBonus (c : Cfg) (s : State) (lease : Nat × Nat) (who m : Nat) : R State :=
  if bonusOf c s lease m = 0 ∨ c.streams = false then .ok s
  else do
    let str ← Streaming.traitCreate c.streaming s.str c.acct who (bonusOf c s lease m) c.native
      (s.bonus lease).start (s.bonus lease).stop false
    pure { s with str := str }

/-- `do_claim_for`, lib.rs:1641-1705, called by `claim`, lib.rs:809-817, `claim_for`, lib.rs:824-834, and
`force_claim_for`, lib.rs:1187-1197. -/
def claim (c : Cfg) (s : State) (who : Nat) (k : Key) (force : Bool) : R State := do
  let ct ← okOr (s.ctokenOf k.lease) .cTokenDoesNotExist
  let v ← okOr (s.vaults k) .vaultDoesNotExist
  ensure (force = true ∨ v.phase = .succeeded) .incorrectVaultPhase
  let m := (getEntry (s.child (v.trie, .contributed)) who).amt
  ensure (m ≠ 0) .noContributions
  let l ← s.tok.mint ct who m
  let s := { (s.withTok l) with
    child := upd s.child (v.trie, .contributed) (killEntry (s.child (v.trie, .contributed)) who) }
  let s ← payBonus c s k.lease who m
  pure { s with log := s.log ++ [.claimed v.trie who m] }

/-- `do_withdraw_for`, lib.rs:1723-1773, called by `withdraw` and `withdraw_for`, lib.rs:840-864. -/
def withdraw (c : Cfg) (s : State) (who : Nat) (k : Key) : R State := do
  let v ← okOr (s.vaults k) .vaultDoesNotExist
  ensure (v.phase = .failed) .incorrectVaultPhase
  let m := (getEntry (s.child (v.trie, .contributed)) who).amt
  ensure (m ≠ 0) .noContributions
  let x ← csub .underflow v.contributed m
  let l ← s.tok.mint c.relay who m
  let s := { (s.withTok l) with
    child := upd s.child (v.trie, .contributed) (killEntry (s.child (v.trie, .contributed)) who) }
  pure { (s.putVault k { v with contributed := x }) with log := s.log ++ [.withdrew v.trie who m] }

/-- `do_redeem`, lib.rs:1804-1857, called by `redeem`, lib.rs:871-880. -/
def redeem (c : Cfg) (s : State) (who : Nat) (k : Key) (m : Nat) : R State := do
  let ct ← okOr (s.ctokenOf k.lease) .cTokenDoesNotExist
  let v ← okOr (s.vaults k) .vaultDoesNotExist
  ensure (v.phase = .expired) .incorrectVaultPhase
  ensure (m ≤ s.tok.reducible ct who false) .insufficientBalance
  let x ← csub .underflow v.contributed m
  let l ← s.tok.burn ct who m
  let l ← l.mint c.relay who m
  let s := s.withTok l
  pure { (s.putVault k { v with contributed := x }) with log := s.log ++ [.redeemed v.trie who m] }

/-- `redeem_and_lend_for`, lib.rs:1204-1223. -/
def redeemAndLend (c : Cfg) (s : State) (who : Nat) (k : Key) (m : Nat) : R State := do
  ensure (0 < s.nonce who) .invalidParams
  let s ← redeem c s who k m
  let l ← s.tok.transfer c.relay who c.loansAcct m false
  pure (s.withTok l)

/-- The success of a contribution, lib.rs:1384-1410. -/
def contributed (c : Cfg) (s : State) (k : Key) (who m : Nat) : R State := do
  let v ← okOr (s.vaults k) .vaultDoesNotExist
  let l ← s.tok.burn c.relay c.acct m
  let (s, v) ← migrateContribution (s.withTok l) v who m .flying .contributed
  pure { (s.putVault k v) with log := s.log ++ [.executed v.trie who m] }

/-- The failure of a contribution, lib.rs:1411-1437. -/
def bounced (c : Cfg) (s : State) (k : Key) (who m : Nat) : R State := do
  let v ← okOr (s.vaults k) .vaultDoesNotExist
  let l ← s.tok.transfer c.relay c.acct who m false
  let (s, v, _) ← updateContribution (s.withTok l) v who m none false .flying
  pure { (s.putVault k v) with log := s.log ++ [.back v.trie .flying who m] }

/-- The success of a withdrawal, lib.rs:1438-1455. -/
def withdrawn (s : State) (k : Key) (target : Phase) : R State := do
  let v ← okOr (s.vaults k) .vaultDoesNotExist
  pure (s.putVault k { v with phase := target })

/-- `notification_received`, lib.rs:973-994, with `do_notification_received`, lib.rs:1376-1463: unknown queries are
ignored; only executed requests are removed. -/
def notify (c : Cfg) (s : State) (q : Nat) (executed : Bool) : R State :=
  match s.requests q, executed with
  | none, _ => .ok s
  | some (.contribute k who m _), true => do
    let s ← contributed c s k who m
    pure { s with requests := upd s.requests q none }
  | some (.contribute k who m _), false => bounced c s k who m
  | some (.withdraw k _ target), true => do
    let s ← withdrawn s k target
    pure { s with requests := upd s.requests q none }
  | some (.withdraw _ _ _), false => .ok s

/-- `update_proxy`, lib.rs:1143-1155. -/
def updateProxy (s : State) (p : Nat) : State := { s with proxy := some p }

/-- `update_leases_bonus`, lib.rs:1161-1180, with `BonusConfig::check`, types.rs:170-174. -/
def updateBonus (s : State) (lease : Nat × Nat) (b : Bonus) : R State := do
  ensure (lease.1 ≤ lease.2) .lastPeriodBeforeFirstPeriod
  ensure (b.start < b.stop) .wrongBonusConfig
  pure { s with bonus := upd s.bonus lease b }

/-! ## Dispatch -/

/-- Every extrinsic. -/
inductive Call where
  | createVault (k : Key) (ctoken : Nat) (proxied : Bool) (cap endBlock : Nat)
  | updateVault (para : Nat) (cap endBlock : Option Nat) (proxied : Option Bool)
  | «open» (para : Nat)
  | contribute (who para m code : Nat)
  | setVrf (f : Bool)
  | close (para : Nat)
  | reopen (para : Nat)
  | auctionSucceeded (para : Nat)
  | auctionFailed (para : Nat)
  | claim (who : Nat) (k : Key)
  | withdraw (who : Nat) (k : Key)
  | redeem (who : Nat) (k : Key) (m : Nat)
  | slotExpired (para : Nat)
  | migratePending (para : Nat)
  | notify (q : Nat) (executed : Bool)
  | refund (k : Key)
  | dissolve (k : Key)
  | refundFor (who : Nat) (k : Key) (kind : Kind) (m : Nat)
  | updateProxy (p : Nat)
  | updateBonus (lease : Nat × Nat) (b : Bonus)
  | forceClaim (who : Nat) (k : Key)
  | redeemAndLend (who : Nat) (k : Key) (m : Nat)

/-- Dispatch; `open`, `close`, `reopen` and `auction_succeeded` are lib.rs:564-584, 708-776. -/
def exec (c : Cfg) (s : State) : Call → R State
  | .createVault k ct p cap eb => createVault s k ct p cap eb
  | .updateVault para cap eb p => updateVault s para cap eb p
  | .open para => movePhase s para .pending .contributing
  | .contribute who para m code => contribute c s who para m code
  | .setVrf f => .ok (setVrf s f)
  | .close para => movePhase s para .contributing .closed
  | .reopen para => movePhase s para .closed .contributing
  | .auctionSucceeded para => movePhase s para .closed .succeeded
  | .auctionFailed para => askBack c s para .closed .failed
  | .claim who k => claim c s who k false
  | .withdraw who k => withdraw c s who k
  | .redeem who k m => redeem c s who k m
  | .slotExpired para => askBack c s para .succeeded .expired
  | .migratePending para => migratePending c s para
  | .notify q e => notify c s q e
  | .refund k => refund c s k
  | .dissolve k => dissolve s k
  | .refundFor who k kind m => refundFor c s who k kind m
  | .updateProxy p => .ok (updateProxy s p)
  | .updateBonus lease b => updateBonus s lease b
  | .forceClaim who k => claim c s who k true
  | .redeemAndLend who k m => redeemAndLend c s who k m

/-- `get_vault_term_rate`, lib.rs:1869-1903: the elapsed share of the lease and its length in years, as fixed-point
numbers.  The multiplications saturate at `u32`, `end_lease + 1` is checked, a zero divisor traps. -/
def termRate (c : Cfg) (s : State) (lease : Nat × Nat) : R (Option (Nat × Nat)) :=
  if s.relayBlock = 0 then .ok none
  else if maxU32 < lease.2 + 1 ∨ lease.2 < lease.1 ∨ maxU32 < lease.2 - lease.1 + 1 then .error .panic
  else do
    let startBlock := min maxU32 (min maxU32 (c.leasePeriod * lease.1) + c.leaseOffset)
    let endBlock := min maxU32 (min maxU32 (c.leasePeriod * (lease.2 + 1)) + c.leaseOffset)
    let len := min maxU32 (c.leasePeriod * (lease.2 - lease.1 + 1))
    let year ← fixSatFromRational len (min maxU32 (c.leasePerYear * c.leasePeriod))
    if s.relayBlock < startBlock then pure (some (0, year))
    else if s.relayBlock < endBlock then do
      let t ← fixSatFromRational (s.relayBlock - startBlock) len
      pure (some (t, year))
    else pure (some (DIV, year))

end Verif.Crowdloans
