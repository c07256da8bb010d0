import Verif.Prelude.Ledger

/-!
# Model of call dispatch in the runtimes

`pallets/emergency-shutdown/src/lib.rs`, `pallets/evm-signatures/src/{lib,ethereum}.rs`, and of
`runtime/{parallel,heiko,kerria,vanilla}/src/lib.rs` `WhiteListFilter`, `BaseCallFilter` (parallel:253-354, heiko, kerria and
vanilla:248-349), `ProxyType` (parallel:915-1035) and the pallet list (parallel:1955-2038). Line numbers below are those of
`parallel`; where the runtimes differ, all of them are given.

Substrate's own part is modelled as far as these need it: origins with filters (`frame_support`),
`pallet_utility::{batch, batch_all, as_derivative}`, `pallet_proxy::proxy`, account nonces and the removal of
accounts below the existential deposit.  All other calls are leaves: they are carried out or refused by an
arbitrary rule and only leave an entry in a log; calls dispatched by other pallets on their own (collectives,
scheduler, multisig, and `pallet_sudo` of the two test networks) are outside the model.
-/

namespace Verif.Runtime
open Verif

/-- The four runtimes. -/
inductive Chain where
  | parallel | heiko | kerria | vanilla
deriving DecidableEq, Repr

/-- The pallets with calls, runtime/parallel/src/lib.rs:1961-2036, and the two that are not in all runtimes:
`Sudo` (kerria:1969, vanilla:1997) and `StableSwap` (vanilla:2053). -/
inductive Pallet where
  | system | timestamp | utility | multisig | balances | assets | proxy | identity
  | democracy | generalCouncil | technicalCommittee | treasury | scheduler | preimage
  | xcmpQueue | dmpQueue | polkadotXcm | cumulusXcm | collatorSelection | session
  | oracle | xTokens | ormlXcm | vesting | loans | prices | crowdloans | liquidStaking
  | generalCouncilMembership | technicalCommitteeMembership | oracleMembership
  | liquidStakingAgentsMembership | bridgeMembership | crowdloansAutomatorsMembership
  | amm | ammRoute | currencyAdapter | bridge | emergencyShutdown | farming | xcmHelper | streaming
  | assetRegistry | evm | ethereum | baseFee | evmSignatureCall | parachainSystem | sudoKey | stableSwap
deriving DecidableEq, Repr

/-- Pallet indices, runtime/parallel/src/lib.rs:1961-2036. -/
def Pallet.index : Pallet → Nat
  | system => 0 | timestamp => 1 | utility => 2 | multisig => 3 | balances => 4 | assets => 6 | proxy => 7
  | identity => 8 | democracy => 11 | generalCouncil => 12 | technicalCommittee => 13 | treasury => 14
  | scheduler => 15 | preimage => 16 | parachainSystem => 20 | xcmpQueue => 22 | dmpQueue => 23 | polkadotXcm => 24
  | cumulusXcm => 25 | collatorSelection => 31 | session => 32 | oracle => 42 | xTokens => 43 | ormlXcm => 45
  | vesting => 46 | loans => 50 | prices => 51 | crowdloans => 52 | liquidStaking => 60
  | generalCouncilMembership => 70 | technicalCommitteeMembership => 71 | oracleMembership => 72
  | liquidStakingAgentsMembership => 73 | bridgeMembership => 74 | crowdloansAutomatorsMembership => 75
  | amm => 80 | ammRoute => 81 | currencyAdapter => 82 | bridge => 90 | emergencyShutdown => 91 | farming => 92
  | xcmHelper => 93 | streaming => 94 | assetRegistry => 95 | evm => 110 | ethereum => 111 | baseFee => 112
  | evmSignatureCall => 113 | sudoKey => 10 | stableSwap => 96

/-- The functions that the filters name, and all others by number. -/
inductive Fn where
  -- pallet_assets
  | forceCreate | forceSetMetadata | forceAssetStatus | forceClearMetadata | forceCancelApproval | forceTransfer
  | mintAsset | transferAsset | transferKeepAlive | freeze | thaw | freezeAsset | thawAsset | burn
  | approveTransfer | transferApproved | cancelApproval
  -- pallet_xcm
  | forceXcmVersion | forceDefaultXcmVersion | forceSubscribe | forceUnsubscribe
  -- loans
  | mint | redeem | redeemAll | borrow | repayBorrow | repayBorrowAll | collateralAsset | liquidateBorrow
  | addReward | claimReward | claimRewardForMarket
  -- liquid staking, crowdloans, farming, streaming, amm, router
  | stake | unstake | cancelUnstake | contribute | claim | claimFor | withdraw | withdrawFor
  | deposit | create | cancel | addLiquidity | removeLiquidity | swapForExact | swapExactFor
  -- dispatching calls
  | batch | batchAll | asDerivative | proxy | addProxy | removeProxy | evmCall | togglePallet | toggleCall | transfer
  | other (n : Nat)
deriving DecidableEq, Repr

/-- Functions with their own constructor of `Call` below; leaves are calls of all others. -/
def Fn.modelled : Fn → Bool
  | .batch | .batchAll | .asDerivative | .proxy | .addProxy | .removeProxy | .evmCall | .togglePallet | .toggleCall
  | .transfer => true
  | _ => false

/-- A kind of call: pallet and function. -/
structure Kind where
  pallet : Pallet
  fn : Fn
deriving DecidableEq, Repr

/-- `WhiteListFilter`, runtime/parallel/src/lib.rs:253-304 and the others:248-299. kerria and vanilla have `Sudo(_)` and
`CollatorSelection(_)` (263, 281), which are commented out in the other two. -/
def whitelisted (ch : Chain) (k : Kind) : Bool := match k.pallet with
  | .sudoKey | .collatorSelection => match ch with
    | .kerria | .vanilla => true
    | .parallel | .heiko => false
  | .system | .timestamp | .democracy | .generalCouncil | .technicalCommittee | .treasury | .scheduler | .preimage
  | .parachainSystem | .xcmpQueue | .dmpQueue | .cumulusXcm | .session | .utility | .multisig | .proxy | .identity
  | .emergencyShutdown | .xcmHelper | .oracleMembership | .generalCouncilMembership | .technicalCommitteeMembership
  | .liquidStakingAgentsMembership | .crowdloansAutomatorsMembership | .bridgeMembership => true
  | .assets => match k.fn with
    | .forceCreate | .forceSetMetadata | .forceAssetStatus | .forceClearMetadata | .forceCancelApproval
    | .forceTransfer => true
    | _ => false
  | .polkadotXcm => match k.fn with
    | .forceXcmVersion | .forceDefaultXcmVersion | .forceSubscribe | .forceUnsubscribe => true
    | _ => false
  | _ => false

/-- The second list of `BaseCallFilter`, runtime/parallel/src/lib.rs:310-350, the same in all runtimes. -/
def listed (k : Kind) : Bool := match k.pallet with
  | .balances | .currencyAdapter | .oracle | .xTokens | .ormlXcm | .vesting | .loans | .prices | .liquidStaking
  | .amm | .ammRoute | .crowdloans | .bridge | .farming | .streaming | .assetRegistry | .evm | .ethereum | .baseFee
  | .evmSignatureCall => true
  | .assets => match k.fn with
    | .mintAsset | .transferAsset | .transferKeepAlive | .freeze | .thaw | .freezeAsset | .thawAsset | .burn => true
    | _ => false
  | _ => false

/-- `ProxyType`, runtime/parallel/src/lib.rs:915-925. -/
inductive ProxyType where
  | any | loans | staking | crowdloans | farming | streaming | governance | amm | evm
deriving DecidableEq, Repr

/-- `InstanceFilter<RuntimeCall> for ProxyType`, runtime/parallel/src/lib.rs:932-1026. (`pallet_proxy` adds
rules about its own calls; they never refuse anything more: no type but `Any` accepts `Proxy` calls, and
`Any` is a superset of all types.) kerria (920-1013) does not list `add_reward` and `cancel_unstake`. -/
def ProxyType.filter (ch : Chain) (t : ProxyType) (k : Kind) : Bool := match t with
  | .any => true
  | .loans => k.pallet == .loans && (match k.fn with
    | .mint | .redeem | .redeemAll | .borrow | .repayBorrow | .repayBorrowAll | .collateralAsset | .liquidateBorrow
    | .claimReward | .claimRewardForMarket => true
    | .addReward => ch != .kerria
    | _ => false)
  | .staking => k.pallet == .liquidStaking && (match k.fn with
    | .stake | .unstake => true
    | .cancelUnstake => ch != .kerria
    | _ => false)
  | .crowdloans => k.pallet == .crowdloans && (match k.fn with
    | .contribute | .claim | .claimFor | .withdraw | .withdrawFor | .redeem => true
    | _ => false)
  | .farming => k.pallet == .farming && (match k.fn with
    | .deposit | .claim | .withdraw | .redeem => true
    | _ => false)
  | .streaming => k.pallet == .streaming && (match k.fn with
    | .create | .cancel | .withdraw => true
    | _ => false)
  | .governance => match k.pallet with
    | .democracy | .preimage | .generalCouncil | .technicalCommittee | .treasury | .utility => true
    | _ => false
  | .amm => (k.pallet == .amm && (match k.fn with
      | .addLiquidity | .removeLiquidity => true
      | _ => false)) ||
    (k.pallet == .ammRoute && (match k.fn with
      | .swapForExact | .swapExactFor => true
      | _ => false))
  | .evm => match k.pallet with
    | .ethereum | .evm | .baseFee | .evmSignatureCall => true
    | _ => false

/-- `frame_system::RawOrigin`, and the council's collective origin. -/
inductive Caller where
  | root
  | signed (who : Nat)
  | none
  | council
deriving DecidableEq, Repr

/-- `RuntimeOrigin`: the caller and the proxy filters added to the base filter. -/
structure Origin where
  caller : Caller
  filters : List ProxyType

mutual
/-- `RuntimeCall`. -/
inductive Call where
  /-- a call that only leaves an entry in the log -/
  | leaf (k : Kind) (arg : Nat)
  /-- `Balances::transfer` -/
  | transfer (dst amount : Nat)
  /-- `Utility::batch` -/
  | batch (cs : Calls)
  /-- `Utility::batch_all` -/
  | batchAll (cs : Calls)
  /-- `Utility::as_derivative` -/
  | asDerivative (i : Nat) (c : Call)
  /-- `Proxy::proxy` -/
  | proxy (real : Nat) (force : Option ProxyType) (c : Call)
  /-- `Proxy::add_proxy` (without its deposit) -/
  | addProxy (delegate : Nat) (ty : ProxyType) (delay : Nat)
  /-- `Proxy::remove_proxy` (without its deposit) -/
  | removeProxy (delegate : Nat) (ty : ProxyType) (delay : Nat)
  /-- `EmergencyShutdown::toggle_pallet` -/
  | togglePallet (p : Nat)
  /-- `EmergencyShutdown::toggle_call` -/
  | toggleCall (p i : Nat)
  /-- `EVMSignatureCall::call` -/
  | evmCall (c : Call) (signer : Nat) (sig : List Nat) (nonce : Nat)
/-- `Vec<RuntimeCall>`. -/
inductive Calls where
  | nil
  | cons (c : Call) (cs : Calls)
end

/-- The kind of a call. -/
def Call.kind : Call → Kind
  | .leaf k _ => k
  | .transfer _ _ => ⟨.balances, .transfer⟩
  | .batch _ => ⟨.utility, .batch⟩
  | .batchAll _ => ⟨.utility, .batchAll⟩
  | .asDerivative _ _ => ⟨.utility, .asDerivative⟩
  | .proxy _ _ _ => ⟨.proxy, .proxy⟩
  | .addProxy _ _ _ => ⟨.proxy, .addProxy⟩
  | .removeProxy _ _ _ => ⟨.proxy, .removeProxy⟩
  | .togglePallet _ => ⟨.emergencyShutdown, .togglePallet⟩
  | .toggleCall _ _ => ⟨.emergencyShutdown, .toggleCall⟩
  | .evmCall _ _ _ _ => ⟨.evmSignatureCall, .evmCall⟩

/-- `ProxyDefinition` of `pallet_proxy`. -/
structure ProxyDef where
  delegate : Nat
  ty : ProxyType
  delay : Nat
deriving DecidableEq

/-- What happened: a call was carried out for an origin (like the event that the call leaves). -/
structure Entry where
  who : Caller
  kind : Kind
  arg : Nat
  arg2 : Nat
deriving DecidableEq

/-- Storage. -/
structure State where
  /-- `DisabledPallets`, emergency-shutdown/src/lib.rs:75-77 -/
  disP : Nat → Bool
  /-- `DisabledCalls`, emergency-shutdown/src/lib.rs:79-82 -/
  disC : Nat → Nat → Bool
  /-- account nonces (`u32`); 0 for accounts that do not exist -/
  nonce : Nat → Nat
  /-- native balances -/
  bal : Nat → Nat
  /-- `Proxies` of `pallet_proxy` -/
  proxies : Nat → List ProxyDef
  /-- how often an account has been removed (`System::KilledAccount` events) -/
  killed : Nat → Nat
  /-- what was carried out, newest first -/
  log : List Entry

/-- Constants and the parts of the world that are arbitrary. -/
structure Cfg where
  /-- which runtime it is: they differ in the lists of the filters -/
  chain : Chain
  /-- second byte of a call's encoding -/
  callIdx : Kind → Nat
  /-- whether a leaf call is accepted -/
  leafOk : State → Caller → Kind → Nat → Bool
  /-- `derivative_account_id` -/
  derive : Nat → Nat → Nat
  /-- existential deposit -/
  ed : Nat
  /-- the treasury account -/
  treasury : Nat
  /-- `CallFee` -/
  callFee : Nat
  /-- `CallMagicNumber` -/
  magic : Nat
  /-- `VerifySignature` -/
  verify : Bool
  /-- SCALE encoding of a call -/
  enc : Call → List Nat
  keccak : List Nat → List Nat
  /-- `secp256k1_ecdsa_recover_compressed` -/
  recover : List Nat → List Nat → Option (List Nat)
  /-- `MultiSigner::into_account` of a public key -/
  acctOf : List Nat → Nat

/-- `EmergencyCallFilter::contains`, emergency-shutdown/src/lib.rs:115-126. -/
def emergencyOk (c : Cfg) (s : State) (k : Kind) : Bool :=
  whitelisted c.chain k || (!s.disP k.pallet.index && !s.disC k.pallet.index (c.callIdx k))

/-- `BaseCallFilter::contains`, runtime/parallel/src/lib.rs:305-354. -/
def baseFilter (c : Cfg) (s : State) (k : Kind) : Bool := (whitelisted c.chain k || listed k) && emergencyOk c s k

/-- `OriginTrait::filter_call`: root is not filtered, everybody else by the base filter and the added ones. -/
def allowed (c : Cfg) (s : State) (o : Origin) (k : Kind) : Bool :=
  o.caller == .root || (baseFilter c s k && o.filters.all (fun t => t.filter c.chain k))

/-- `ensure_signed`. -/
def signedOf (o : Origin) : Option Nat := match o.caller with
  | .signed w => some w
  | _ => none

/-- Set a native balance; an account below the existential deposit is removed, and its nonce with it. -/
def setBal (c : Cfg) (s : State) (who v : Nat) : State :=
  if v < c.ed then
    { s with bal := upd s.bal who 0, nonce := upd s.nonce who 0, killed := upd s.killed who (s.killed who + 1) }
  else { s with bal := upd s.bal who v }

/-- `Balances::transfer` (allow death). -/
def doTransfer (c : Cfg) (s : State) (src dst amount : Nat) : R State := do
  if amount = 0 ∨ src = dst then pure s
  else do
  ensure (amount ≤ s.bal src) .noFunds
  ensure (c.ed ≤ s.bal dst + amount) .tokenError
  pure (setBal c { s with bal := upd s.bal dst (s.bal dst + amount) } src (s.bal src - amount))

/-- Little-endian bytes. -/
def leBytes : Nat → Nat → List Nat
  | 0, _ => []
  | n + 1, v => v % 256 :: leBytes n (v / 256)

/-- The signed payload: `(CallMagicNumber, nonce, call).encode()`, evm-signatures/src/lib.rs:221. -/
def payload (c : Cfg) (nonce : Nat) (k : Call) : List Nat := leBytes 2 c.magic ++ leBytes 4 nonce ++ c.enc k

/-- `"\x19Ethereum Signed Message:\n32"`. -/
def ethPrefix : List Nat := [0x19, 69, 116, 104, 101, 114, 101, 117, 109, 32, 83, 105, 103, 110, 101, 100, 32, 77,
  101, 115, 115, 97, 103, 101, 58, 10, 51, 50]

/-- `keccak_256(signable_message(payload))`, evm-signatures/src/ethereum.rs:57-62, 75. -/
def digest (c : Cfg) (nonce : Nat) (k : Call) : List Nat := c.keccak (ethPrefix ++ c.keccak (payload c nonce k))

/-- `EthereumSignature::verify`, evm-signatures/src/ethereum.rs:69-83. -/
def verifySig (c : Cfg) (nonce : Nat) (k : Call) (sig : List Nat) (signer : Nat) : Bool :=
  match c.recover sig (digest c nonce k) with
  | some pub => signer == c.acctOf pub
  | none => false

/-- `valid_signature`, evm-signatures/src/lib.rs:214-228. -/
def validSig (c : Cfg) (nonce : Nat) (k : Call) (sig : List Nat) (signer : Nat) : Bool :=
  if c.verify then verifySig c nonce k sig signer else true

/-- `inc_account_nonce`; the addition panics on overflow. -/
def incNonce (s : State) (who : Nat) : R State :=
  if s.nonce who < maxU32 then .ok { s with nonce := upd s.nonce who (s.nonce who + 1) } else .error .panic

/-- The fee of a signature call: withdrawn from the signer (who may die), credited to the treasury,
evm-signatures/src/lib.rs:173-180. -/
def payFee (c : Cfg) (s : State) (who : Nat) : R State := do
  ensure (c.callFee ≤ s.bal who) .noFunds
  let s1 := setBal c s who (s.bal who - c.callFee)
  pure { s1 with bal := upd s1.bal c.treasury (s1.bal c.treasury + c.callFee) }

/-- `toggle_pallet`, emergency-shutdown/src/lib.rs:88-97. -/
def togglePallet (s : State) (o : Caller) (p : Nat) : R State := do
  ensure (o = .root ∨ o = .council) .badOrigin
  pure { s with disP := upd s.disP p (!s.disP p), log := ⟨o, ⟨.emergencyShutdown, .togglePallet⟩, p, 0⟩ :: s.log }

/-- `toggle_call`, emergency-shutdown/src/lib.rs:101-110. -/
def toggleCall (s : State) (o : Caller) (p i : Nat) : R State := do
  ensure (o = .root ∨ o = .council) .badOrigin
  pure { s with disC := upd s.disC p (upd (s.disC p) i (!s.disC p i)),
                log := ⟨o, ⟨.emergencyShutdown, .toggleCall⟩, p, i⟩ :: s.log }

/-- The proxy definition used by `proxy(real, force, _)` for a delegate. -/
def findProxy (s : State) (real who : Nat) (force : Option ProxyType) : Option ProxyDef :=
  (s.proxies real).find? (fun d => decide (d.delegate = who) && decide (force = none ∨ force = some d.ty))

mutual
/-- `dispatch_bypass_filter`: every call runs in a storage layer of its own, so an error has no effect.
`EVMSignatureCall::call` is evm-signatures/src/lib.rs:143-190. -/
def bypass (c : Cfg) (s : State) (o : Origin) : Call → R State
  | .leaf k a =>
    if k.fn.modelled then .error (.other 1)
    else if c.leafOk s o.caller k a then .ok { s with log := ⟨o.caller, k, a, 0⟩ :: s.log }
    else .error (.other 0)
  | .transfer dst amount => do
    let who ← okOr (signedOf o) .badOrigin
    let s1 ← doTransfer c s who dst amount
    pure { s1 with log := ⟨o.caller, ⟨.balances, .transfer⟩, dst, amount⟩ :: s1.log }
  | .batch cs => do
    ensure (o.caller = .root ∨ (signedOf o).isSome) .badOrigin
    pure (runBatch c s o cs)
  | .batchAll cs => do
    ensure (o.caller = .root ∨ (signedOf o).isSome) .badOrigin
    runAll c s o cs
  | .asDerivative i k => do
    let who ← okOr (signedOf o) .badOrigin
    if allowed c s ⟨.signed (c.derive who i), o.filters⟩ k.kind then
      bypass c s ⟨.signed (c.derive who i), o.filters⟩ k
    else .error .callFiltered
  | .proxy real force k => do
    let who ← okOr (signedOf o) .badOrigin
    let d ← okOr (findProxy s real who force) (.other 3)
    ensure (d.delay = 0) (.other 4)
    pure (commit s (if allowed c s ⟨.signed real, [d.ty]⟩ k.kind then bypass c s ⟨.signed real, [d.ty]⟩ k
      else .error .callFiltered))
  | .addProxy delegate ty delay => do
    let who ← okOr (signedOf o) .badOrigin
    ensure (delegate ≠ who) (.other 5)
    ensure (⟨delegate, ty, delay⟩ ∉ s.proxies who) (.other 6)
    pure { s with proxies := upd s.proxies who (⟨delegate, ty, delay⟩ :: s.proxies who),
                  log := ⟨o.caller, ⟨.proxy, .addProxy⟩, delegate, delay⟩ :: s.log }
  | .removeProxy delegate ty delay => do
    let who ← okOr (signedOf o) .badOrigin
    ensure (⟨delegate, ty, delay⟩ ∈ s.proxies who) (.other 7)
    pure { s with proxies := upd s.proxies who ((s.proxies who).erase ⟨delegate, ty, delay⟩),
                  log := ⟨o.caller, ⟨.proxy, .removeProxy⟩, delegate, delay⟩ :: s.log }
  | .togglePallet p => togglePallet s o.caller p
  | .toggleCall p i => toggleCall s o.caller p i
  | .evmCall k signer sig nonce => do
    ensure (o.caller = .none) .badOrigin
    ensure (nonce = s.nonce signer) .badNonce
    ensure (sig.length = 65) .decodeFailure
    ensure (validSig c nonce k sig signer = true) .invalidSignature
    let s1 ← incNonce s signer
    let s2 ← payFee c s1 signer
    pure (commit s2 (bypass c s2 ⟨.signed signer, []⟩ k))
/-- The loop of `Utility::batch`: stops silently at the first error. -/
def runBatch (c : Cfg) (s : State) (o : Origin) : Calls → State
  | .nil => s
  | .cons k ks =>
    match (if allowed c s o k.kind then bypass c s o k else .error .callFiltered) with
    | .ok s' => runBatch c s' o ks
    | .error _ => s
/-- The loop of `Utility::batch_all`: an error fails the whole call. -/
def runAll (c : Cfg) (s : State) (o : Origin) : Calls → R State
  | .nil => .ok s
  | .cons k ks =>
    match (if allowed c s o k.kind then bypass c s o k else .error .callFiltered) with
    | .ok s' => runAll c s' o ks
    | .error e => .error e
end

/-- `Dispatchable::dispatch`: the filter of the origin, then the call. -/
def dispatch (c : Cfg) (s : State) (o : Origin) (k : Call) : R State :=
  if allowed c s o k.kind then bypass c s o k else .error .callFiltered

/-- `validate_unsigned`, evm-signatures/src/lib.rs:246-289 (used by the transaction pool; `pre_dispatch`
accepts everything). -/
def validateUnsigned (c : Cfg) (s : State) : Call → Bool
  | .evmCall k signer sig nonce =>
    decide (nonce = s.nonce signer) && (decide (sig.length = 65) && validSig c nonce k sig signer)
  | _ => false

/-- The ways calls reach the runtime. -/
inductive Ext where
  /-- a signed transaction, with its transaction fee -/
  | signed (who fee : Nat) (k : Call)
  /-- an unsigned transaction -/
  | unsigned (k : Call)
  /-- a call made by governance: root or the council -/
  | governed (o : Caller) (k : Call)

/-- Apply one extrinsic. A signed transaction needs its fee above the existential deposit (`KeepAlive`) and
uses up a nonce whatever becomes of its call. -/
def applyExt (c : Cfg) (s : State) : Ext → State
  | .signed who fee k =>
    if fee + c.ed ≤ s.bal who ∧ s.nonce who < maxU32 then
      let s1 := { s with nonce := upd s.nonce who (s.nonce who + 1), bal := upd s.bal who (s.bal who - fee) }
      commit s1 (dispatch c s1 ⟨.signed who, []⟩ k)
    else s
  | .unsigned k => commit s (dispatch c s ⟨.none, []⟩ k)
  | .governed o k =>
    if o = .root ∨ o = .council then commit s (dispatch c s ⟨o, []⟩ k) else s

/-- `CallMagicNumber`: runtime/parallel/src/lib.rs:838-839, heiko:834-835, kerria:821-822, vanilla:822-823. -/
def Chain.magic : Chain → Nat
  | parallel => 2012 | heiko => 2085 | kerria => 2012 | vanilla => 2085

/-- `VerifySignature`: runtime/parallel/src/lib.rs:881, heiko:877, kerria:864, vanilla:865. -/
def Chain.verify : Chain → Bool
  | parallel => true | heiko => false | kerria => true | vanilla => false

/-- `EnsureAddressTruncated` and `withdraw`, evm-signatures/src/lib.rs:194-209, 230-243: the signer must have
the address as its first 20 bytes. `addrOf` truncates, `evmAcct` is `HashedAddressMapping`. -/
def withdraw (addrOf evmAcct : Nat → Nat) (l : Ledger) (origin : Caller) (asset address value : Nat) : R Ledger :=
  match origin with
  | .signed who => do
    ensure (addrOf who = address) .badOrigin
    l.transfer asset (evmAcct address) who value false
  | _ => .error .badOrigin

end Verif.Runtime
