import Verif.Prelude.Ledger
import Verif.Prelude.Fixed
import Mathlib.Data.List.Sort

/-!
# Model of `pallets/bridge/src/lib.rs` and `pallets/bridge/src/types.rs`

`ChainNonce` is `u64`, block numbers are `u32`.  Not modelled: the governance origins (any caller may be
governance), weights, the destination address bytes of `teleport` (an opaque number).
The event log is newest first; vote events carry the block in which they were cast (events are emitted in
that block).
-/

namespace Verif.Bridge
open Verif

/-- `Config`, lib.rs:77-137. -/
structure Cfg where
  /-- `account_id()`, lib.rs:671-673 -/
  acct : Nat
  /-- `RootOperatorAccountId` -/
  rootOp : Nat
  /-- `GiftAccount` -/
  gift : Nat
  /-- `GiftConvert::to_asset_balance(amount, asset)`, 0 on error -/
  giftConv : Nat → Nat → Nat
  /-- `NativeCurrencyId` -/
  native : Nat
  /-- `ExistentialDeposit` -/
  ed : Nat
  /-- `ChainId` of this chain -/
  chainId : Nat
  /-- `ProposalLifetime` -/
  lifetime : Nat
  /-- `ThresholdPercentage` -/
  pct : Nat

/-- `BridgeToken`, types.rs:7-17. -/
structure Token where
  id : Nat
  external : Bool
  fee : Nat
  enable : Bool
  outCap : Nat
  outAmount : Nat
  inCap : Nat
  inAmount : Nat
deriving DecidableEq

/-- `BridgeToken::default()` (derived). -/
def Token.default : Token := ⟨0, false, 0, false, 0, 0, 0, 0⟩

/-- `BridgeType`, types.rs:19-25. -/
inductive Dir where
  | out | inn
deriving DecidableEq

/-- `ProposalStatus`, types.rs:27-32. -/
inductive Status where
  | initiated | approved | rejected
deriving DecidableEq

/-- `MaterializeCall`, types.rs:34-39. -/
structure MCall where
  token : Nat
  dest : Nat
  amount : Nat
deriving DecidableEq

/-- `Proposal`, types.rs:41-47. -/
structure Proposal where
  votesFor : List Nat
  votesAgainst : List Nat
  status : Status
  expiry : Nat
deriving DecidableEq

/-- `Event`, lib.rs:178-282 (those the properties speak about). -/
inductive Event where
  | registered (chain : Nat)
  | removed (chain : Nat)
  | teleported (who chain nonce token dst amount fee : Nat)
  | voteFor (chain nonce voter : Nat) (call : MCall) (block : Nat)
  | voteAgainst (chain nonce voter : Nat) (call : MCall) (block : Nat)
  | minted (chain nonce : Nat) (call : MCall)
  | rejected (chain nonce : Nat)
deriving DecidableEq

/-- Storage, lib.rs:284-325, with the ledger, the relay members, the block number and the event log. -/
structure State where
  ledger : Ledger
  threshold : Nat
  nonces : Nat → Option Nat
  registry : Nat → Option (List (Nat × Nat))
  tokens : Nat → Option Token
  assetIds : Nat → Option Nat
  props : Nat → Nat × MCall → Option Proposal
  members : List Nat
  now : Nat
  events : List Event

/-- `Self::asset_id(..)`, `ValueQuery`, lib.rs:306-309. -/
def State.assetId (s : State) (t : Nat) : Nat := (s.assetIds t).getD 0
/-- `Self::bridge_token(..)`, `ValueQuery`, lib.rs:301-304. -/
def State.token (s : State) (a : Nat) : Token := (s.tokens a).getD Token.default

/-- `Proposal::try_to_complete`, types.rs:52-62. -/
def Proposal.tryComplete (p : Proposal) (threshold total : Nat) : Proposal × Status :=
  if threshold ≤ p.votesFor.length then ({ p with status := .approved }, .approved)
  else if threshold ≤ total ∧ total < p.votesAgainst.length + threshold then
    ({ p with status := .rejected }, .rejected)
  else (p, .initiated)

/-- `Proposal::has_voted`, types.rs:75-77. -/
def Proposal.hasVoted (p : Proposal) (w : Nat) : Bool := p.votesFor.contains w || p.votesAgainst.contains w

/-- Membership in a list of intervals, lib.rs:836-838 and 856. -/
def inReg (reg : List (Nat × Nat)) (n : Nat) : Bool := reg.any (fun r => decide (r.1 ≤ n ∧ n ≤ r.2))

/-- `has_bridged`, lib.rs:834-840. -/
def hasBridged (s : State) (chain nonce : Nat) : Bool := match s.registry chain with
  | none => false
  | some reg => inReg reg nonce

/-- `sort_unstable_by(|a, b| a.0.cmp(&b.0))`; starts are distinct in reachable registries. -/
def sortReg (reg : List (Nat × Nat)) : List (Nat × Nat) := reg.insertionSort (fun a b => a.1 ≤ b.1)

/-- The loop of `merge_overlapping_intervals`, lib.rs:819-830, with `cur = merged.last_mut()`. -/
def mergeGo : Nat × Nat → List (Nat × Nat) → List (Nat × Nat)
  | cur, [] => [cur]
  | cur, r :: rs => if cur.2 < r.1 then cur :: mergeGo r rs else mergeGo (cur.1, max r.2 cur.2) rs

/-- `merge_overlapping_intervals`, lib.rs:816-832. -/
def mergeAll (reg : List (Nat × Nat)) : List (Nat × Nat) := match sortReg reg with
  | [] => []
  | r :: rs => mergeGo r rs

/-- The interval update of lib.rs:848-852. -/
def touch (nonce : Nat) (x : Nat × Nat) : Nat × Nat :=
  if x.1 = nonce + 1 then (nonce, x.2) else if x.2 + 1 = nonce then (x.1, nonce) else x

/-- `update_bridge_registry` on a registry, lib.rs:847-859; `nonce + 1` and `nonce - 1` panic on overflow
when they are evaluated (the second only if the first guard fails). -/
def addNonce (reg : List (Nat × Nat)) (nonce : Nat) : R (List (Nat × Nat)) := do
  ensure (∀ x ∈ reg, nonce < maxU64 ∧ (x.1 = nonce + 1 ∨ nonce ≠ 0)) .panic
  let reg := mergeAll (reg.map (touch nonce))
  pure (sortReg (if inReg reg nonce then reg else reg ++ [(nonce, nonce)]))

/-- `update_bridge_registry`, lib.rs:843-862. -/
def updateRegistry (s : State) (chain nonce : Nat) : R State := match s.registry chain with
  | none => .ok s
  | some reg => do
    let reg ← addNonce reg nonce
    pure { s with registry := upd s.registry chain (some reg) }

/-- `register_chain`, lib.rs:335-351. -/
def registerChain (c : Cfg) (s : State) (chain : Nat) : R State := do
  ensure (chain ≠ c.chainId ∧ s.nonces chain = none) .chainIdAlreadyRegistered
  pure { s with
    nonces := upd s.nonces chain (some 0),
    registry := upd s.registry chain (some []),
    events := .registered chain :: s.events }

/-- `unregister_chain`, lib.rs:357-370. -/
def unregisterChain (s : State) (chain : Nat) : R State := do
  ensure ((s.nonces chain).isSome) .chainIdNotRegistered
  pure { s with
    nonces := upd s.nonces chain none,
    registry := upd s.registry chain none,
    events := .removed chain :: s.events }

/-- `register_bridge_token`, lib.rs:380-408. -/
def registerToken (s : State) (asset : Nat) (t : Token) : R State := do
  ensure (s.tokens asset = none ∧ s.assetIds t.id = none) .bridgeTokenAlreadyRegistered
  pure { s with
    tokens := upd s.tokens asset (some t),
    assetIds := upd s.assetIds t.id (some asset) }

/-- `unregister_bridge_token`, lib.rs:414-427. -/
def unregisterToken (s : State) (tok : Nat) : R State := do
  ensure ((s.assetIds tok).isSome) .bridgeTokenNotRegistered
  pure { s with
    tokens := upd s.tokens (s.assetId tok) none,
    assetIds := upd s.assetIds tok none }

/-- `try_mutate_bridge_token`, lib.rs:888-900. -/
def mutateToken (s : State) (tok : Nat) (f : Token → Token) : R State := do
  ensure ((s.assetIds tok).isSome) .bridgeTokenNotRegistered
  let a := s.assetId tok
  pure { s with tokens := upd s.tokens a (some (f (s.token a))) }

/-- `set_bridge_token_fee`, lib.rs:433-446. -/
def setFee (s : State) (tok fee : Nat) : R State := mutateToken s tok (fun t => { t with fee := fee })
/-- `set_bridge_token_status`, lib.rs:452-465. -/
def setStatus (s : State) (tok : Nat) (b : Bool) : R State := mutateToken s tok (fun t => { t with enable := b })
/-- `set_bridge_token_cap`, lib.rs:471-492. -/
def setCap (s : State) (tok : Nat) (d : Dir) (cap : Nat) : R State := mutateToken s tok (fun t => match d with
  | .out => { t with outCap := cap }
  | .inn => { t with inCap := cap })
/-- `clean_cap_accumulated_value`, lib.rs:498-517. -/
def cleanCap (s : State) (tok : Nat) (d : Dir) : R State := mutateToken s tok (fun t => match d with
  | .out => { t with outAmount := 0 }
  | .inn => { t with inAmount := 0 })

/-- `ensure_under_bridge_cap`, lib.rs:747-778. -/
def underCap (t : Token) (amount : Nat) : Dir → R Nat
  | .out => do
    let n ← cadd .overflow t.outAmount amount
    ensure (n ≤ t.outCap) .bridgeOutCapExceeded
    pure n
  | .inn => do
    let n ← cadd .overflow t.inAmount amount
    ensure (n ≤ t.inCap) .bridgeInCapExceeded
    pure n

/-- `update_bridge_token_cap`, lib.rs:866-885. -/
def updateCap (s : State) (asset amount : Nat) (d : Dir) : R State := do
  let t := s.token asset
  let n ← underCap t amount d
  let t' := match d with
    | .out => { t with outAmount := n }
    | .inn => { t with inAmount := n }
  pure { s with tokens := upd s.tokens asset (some t') }

/-- The asset movement of `teleport`, lib.rs:553-558. -/
def takeIn (c : Cfg) (l : Ledger) (t : Token) (asset who amount : Nat) : R Ledger :=
  if t.external then do
    let l ← l.burn asset who amount
    l.mint asset c.acct t.fee
  else l.transfer asset who c.acct amount false

/-- `teleport` with `teleport_internal` and `bump_nonce`, lib.rs:532-565, 904-937, 809-814. -/
def teleport (c : Cfg) (s : State) (who chain tok dst amount : Nat) : R State := do
  ensure ((s.nonces chain).isSome) .chainIdNotRegistered
  ensure ((s.assetIds tok).isSome) .bridgeTokenNotRegistered
  ensure (0 < amount) .bridgingAmountTooLow
  let asset := s.assetId tok
  let t := s.token asset
  ensure (t.enable = true) .bridgeTokenDisabled
  let s ← updateCap s asset amount .out
  let l ← takeIn c s.ledger t asset who amount
  let actual ← csub .bridgingAmountTooLow amount t.fee
  let nonce := (s.nonces chain).getD 0 + 1
  ensure (nonce ≤ maxU64) .panic
  pure { s with
    ledger := l,
    nonces := upd s.nonces chain (some nonce),
    events := .teleported who chain nonce tok dst actual t.fee :: s.events }

/-- `materialize_allowed`, lib.rs:780-794. -/
def materializeAllowed (s : State) (tok amount : Nat) : R Unit := do
  ensure ((s.assetIds tok).isSome) .bridgeTokenNotRegistered
  let t := s.token (s.assetId tok)
  ensure (t.enable = true) .bridgeTokenDisabled
  let _ ← underCap t amount .inn
  ensure (0 < amount) .bridgingAmountTooLow

/-- `grant_incentive_bonus`, lib.rs:1019-1042. -/
def grantBonus (c : Cfg) (l : Ledger) (who asset amount : Nat) : R Ledger :=
  let g := c.giftConv amount asset
  let b := l.reducible c.native who true
  let r := l.reducible c.native c.gift false
  if g ≠ 0 ∧ g ≤ r ∧ b < g then do
    ensure (c.ed + g ≤ maxU128) .panic
    l.transfer c.native c.gift who (c.ed + g - b) false
  else .ok l

/-- The payout of `execute_materialize`, lib.rs:978-983. -/
def payOut (c : Cfg) (l : Ledger) (t : Token) (asset : Nat) (call : MCall) : R Ledger :=
  if t.external then l.mint asset call.dest call.amount
  else l.transfer asset c.acct call.dest call.amount true

/-- `execute_materialize`, lib.rs:966-1006. -/
def execute (c : Cfg) (s : State) (chain nonce : Nat) (call : MCall) : R State := do
  ensure ((s.nonces chain).isSome) .chainIdNotRegistered
  ensure ((s.assetIds call.token).isSome) .bridgeTokenNotRegistered
  let asset := s.assetId call.token
  let s ← updateCap s asset call.amount .inn
  let l ← payOut c s.ledger (s.token asset) asset call
  let l ← grantBonus c l call.dest asset call.amount
  let s := { s with ledger := l }
  let s ← updateRegistry s chain nonce
  pure { s with events := .minted chain nonce call :: s.events }

/-- `cancel_materialize`, lib.rs:1010-1015. -/
def cancelMat (s : State) (chain nonce : Nat) : R State := do
  let s ← updateRegistry s chain nonce
  pure { s with events := .rejected chain nonce :: s.events }

/-- `ProposalVotes::insert`. -/
def setProp (s : State) (chain nonce : Nat) (call : MCall) (p : Proposal) : State :=
  { s with props := upd s.props chain (upd (s.props chain) (nonce, call) (some p)) }

/-- `resolve_proposal`, lib.rs:941-963. -/
def resolve (c : Cfg) (s : State) (chain nonce : Nat) (call : MCall) : R State := do
  let p ← okOr (s.props chain (nonce, call)) .proposalDoesNotExist
  ensure (p.status = .initiated) .proposalAlreadyComplete
  ensure (s.now < p.expiry) .proposalExpired
  let r := p.tryComplete s.threshold s.members.length
  let s := setProp s chain nonce call r.1
  match r.2 with
  | .approved => execute c s chain nonce call
  | .rejected => cancelMat s chain nonce
  | .initiated => pure s

/-- `ensure_relay_member`, lib.rs:676-687; `none` is the root origin. -/
def relayMember (c : Cfg) (s : State) : Option Nat → R Nat
  | none => .ok c.rootOp
  | some w => do
    ensure (w ∈ s.members) .originNoPermission
    pure w

/-- The stored or the new proposal, lib.rs:602-620 (`now + lifetime` panics on overflow). -/
def openProp (c : Cfg) (s : State) (chain nonce : Nat) (call : MCall) : R Proposal :=
  match s.props chain (nonce, call) with
  | some p => .ok p
  | none => do
    ensure (s.now + c.lifetime ≤ maxU32) .panic
    pure ⟨[], [], .initiated, s.now + c.lifetime⟩

/-- Recording a vote, lib.rs:627-644. -/
def castVote (s : State) (p : Proposal) (chain nonce w : Nat) (call : MCall) (favour : Bool) : State :=
  if favour then
    let s := setProp s chain nonce call { p with votesFor := p.votesFor ++ [w] }
    { s with events := .voteFor chain nonce w call s.now :: s.events }
  else
    let s := setProp s chain nonce call { p with votesAgainst := p.votesAgainst ++ [w] }
    { s with events := .voteAgainst chain nonce w call s.now :: s.events }

/-- `materialize`, lib.rs:581-649. -/
def materialize (c : Cfg) (s : State) (origin : Option Nat) (chain nonce : Nat) (call : MCall)
    (favour : Bool) : R State := do
  let w ← relayMember c s origin
  ensure ((s.nonces chain).isSome) .chainIdNotRegistered
  ensure (hasBridged s chain nonce = false) .proposalAlreadyComplete
  materializeAllowed s call.token call.amount
  let p ← openProp c s chain nonce call
  ensure (p.status = .initiated) .proposalAlreadyComplete
  ensure (s.now < p.expiry) .proposalExpired
  ensure (p.hasVoted w = false) .memberAlreadyVoted
  resolve c (castVote s p chain nonce w call favour) chain nonce call

/-- A new block: the number is increased and `on_initialize`, lib.rs:654-664, removes expired proposals. -/
def newBlock (s : State) : State :=
  { s with
    now := s.now + 1,
    props := fun ch k => match s.props ch k with
      | some p => if p.expiry ≤ s.now + 1 then none else some p
      | none => none }

/-- `ensure_valid_threshold`, lib.rs:734-744 (`Ratio::from_rational` rounds down and treats a zero
denominator as 1). -/
def validThreshold (c : Cfg) (thr total : Nat) : Prop :=
  min million (c.pct * 10000) ≤ min million (thr * million / max total 1) ∧ 0 < thr ∧ thr ≤ total

instance (c : Cfg) (a b : Nat) : Decidable (validThreshold c a b) := inferInstanceAs (Decidable (_ ∧ _ ∧ _))

/-- `change_vote_threshold`, lib.rs:796-806. -/
def changeThreshold (c : Cfg) (s : State) : R State := do
  let thr := pmulCeil (min million (c.pct * 10000)) s.members.length
  ensure (validThreshold c thr s.members.length) .invalidVoteThreshold
  pure { s with threshold := thr }

/-- A membership change of the relay committee: the runtime's `ChangeBridgeMembers`
(`runtime/parallel/src/lib.rs:1701-1719`) then tries to recompute the threshold and ignores failures. -/
def changeMembers (c : Cfg) (s : State) (ms : List Nat) : State :=
  commit { s with members := ms } (changeThreshold c { s with members := ms })

/-- Every extrinsic of the pallet. -/
inductive Call where
  | registerChain (chain : Nat)
  | unregisterChain (chain : Nat)
  | registerToken (asset : Nat) (t : Token)
  | unregisterToken (tok : Nat)
  | setFee (tok fee : Nat)
  | setStatus (tok : Nat) (b : Bool)
  | setCap (tok : Nat) (d : Dir) (cap : Nat)
  | cleanCap (tok : Nat) (d : Dir)
  | teleport (who chain tok dst amount : Nat)
  | materialize (origin : Option Nat) (chain nonce : Nat) (call : MCall) (favour : Bool)

/-- Dispatch of a call. -/
def exec (c : Cfg) (s : State) : Call → R State
  | .registerChain ch => registerChain c s ch
  | .unregisterChain ch => unregisterChain s ch
  | .registerToken a t => registerToken s a t
  | .unregisterToken t => unregisterToken s t
  | .setFee t f => setFee s t f
  | .setStatus t b => setStatus s t b
  | .setCap t d x => setCap s t d x
  | .cleanCap t d => cleanCap s t d
  | .teleport w ch t d m => teleport c s w ch t d m
  | .materialize o ch n call f => materialize c s o ch n call f

end Verif.Bridge
