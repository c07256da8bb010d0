import Verif.System.Spec
import Verif.Router.Model

/-!
# Origins: who may make which call

The first line of every extrinsic checks the origin.  `Tx.need` is that line for every extrinsic of the nine pallets,
`meets` is what the runtimes put in for the abstract origins: `runtime/parallel/src/lib.rs:1482-1485` defines
`EnsureRootOrMoreThanHalfGeneralCouncil`, and all of `UpdateOrigin`, `ReserveOrigin`, `RelayOrigin`,
`CreatePoolOrigin`, `ProtocolFeeUpdateOrigin`, `UpdateChainOrigin`, `UpdateTokenOrigin`, `CapOrigin` and the ten
origins of crowdloans are that type (the same in `runtime/heiko`).  Origins inside proxies, batches and EVM-signed calls
are the subject of `Verif/Runtime`; here an extrinsic comes with the origin it is finally dispatched with.
-/

namespace Verif.System
open Verif

/-- The origins that reach the pallets: root; a signed transaction; a motion of the general council, with the number
of ayes and of members; an unsigned transaction; the response to an XCM query of this chain (`pallet_xcm::Origin`);
the runtime itself (the hooks at the beginning and end of a block). -/
inductive Origin where
  | root
  | signed (who : Nat)
  | council (ayes members : Nat)
  | unsigned
  | response
  | runtime
deriving DecidableEq

/-- Who the members of the two membership pallets are (`LiquidStakingAgentsMembership`,
`CrowdloansAutomatorsMembership`, runtime/parallel/src/lib.rs:575, 1857), and `MaxLengthRoute` of the router. -/
structure Roles where
  agent : Nat → Bool
  automator : Nat → Bool
  maxRoute : Nat

/-- `EnsureRootOrMoreThanHalfGeneralCouncil`, runtime/parallel/src/lib.rs:1482-1485: `EnsureRoot`, or
`EnsureProportionMoreThan<_, GeneralCouncilCollective, 1, 2>`, which is `n * D > N * m` (pallet-collective). -/
def Origin.governs : Origin → Bool
  | .root => true
  | .council ayes members => decide (1 * members < ayes * 2)
  | _ => false

/-- What the first line of an extrinsic asks for. -/
inductive Need where
  /-- `let who = ensure_signed(origin)?`, and the extrinsic acts for `who` -/
  | signer (who : Nat)
  /-- `let _ = ensure_signed(origin)?` -/
  | anyone
  /-- `T::UpdateOrigin::ensure_origin(origin)?` and the like -/
  | governance
  /-- two extrinsics, one for the account itself, one for governance in its name -/
  | signerOrGovernance (who : Nat)
  /-- `Self::ensure_origin`, liquid-staking/src/lib.rs:2004-2015 -/
  | agent
  /-- `ensure_origin!`, crowdloans/src/lib.rs:92-102 -/
  | automator
  /-- `ensure_response(origin).or_else(|_| T::UpdateOrigin::ensure_origin(origin))` -/
  | response
  /-- `ensure_signed_or_root`, and root was given -/
  | root
  /-- hooks -/
  | runtime
  /-- no extrinsic does just this -/
  | never

/-- Whether an origin is accepted. -/
def meets (r : Roles) : Origin → Need → Bool
  | o, .signer w => decide (o = .signed w)
  | .signed _, .anyone => true
  | _, .anyone => false
  | o, .governance => o.governs
  | o, .signerOrGovernance w => decide (o = .signed w) || o.governs
  | .signed w, .agent => r.agent w
  | o, .agent => o.governs
  | .signed w, .automator => r.automator w
  | o, .automator => o.governs
  | .response, .response => true
  | o, .response => o.governs
  | o, .root => decide (o = .root)
  | o, .runtime => decide (o = .runtime)
  | _, .never => false

/-- `pallets/amm/src/lib.rs`:243, 327, 380, 452, 465; swaps come through the router. -/
def needAmm : Amm.Call → Need
  | .add w _ _ _ => .signer w
  | .remove w _ _ => .signer w
  | .create _ _ _ _ => .governance
  | .setFee _ => .governance
  | .setFeeTo _ => .governance
  | .swap _ _ _ _ => .never

/-- `pallets/stableswap/src/lib.rs`:223, 307, 354; no extrinsic swaps in a stableswap pool (the router uses the AMM
pallet), only other pallets can. -/
def needStable : Stable.Call → Need
  | .add w _ _ _ => .signer w
  | .remove w _ _ => .signer w
  | .create _ _ _ _ => .governance
  | .swap _ _ _ _ => .never

/-- `pallets/farming/src/lib.rs`:239, 284, 323, 368, 412, 477, 564, 620, 679. -/
def needFarming : Farming.Call → Need
  | .create _ _ => .governance
  | .setStatus _ _ => .governance
  | .setCool _ _ => .governance
  | .resetUnlock _ => .governance
  | .deposit _ w _ => .signer w
  | .withdraw _ w _ => .signer w
  | .redeem _ w => .signer w
  | .claim _ w => .signer w
  | .dispatch _ _ _ _ => .governance

/-- `pallets/loans/src/lib.rs`:493-1174; `redeem` and `redeem_all` have a twin, `force_redeem` and `force_redeem_all`,
that governance calls for any account.  Transfers of pTokens are no extrinsic of the pallet; the model lets their owner
make them. -/
def needLoans : Loans.Call → Need
  | .addMarket _ _ => .governance
  | .activate _ => .governance
  | .updateModel _ _ => .governance
  | .updateMarket _ _ => .governance
  | .forceUpdate _ _ => .governance
  | .addReward w _ => .signer w
  | .withdrawReward _ _ => .governance
  | .updateSpeed _ _ _ => .governance
  | .claim w => .signer w
  | .claimFor w _ => .signer w
  | .mint w _ _ => .signer w
  | .redeem w _ _ => .signerOrGovernance w
  | .redeemAll w _ => .signerOrGovernance w
  | .borrow w _ _ => .signer w
  | .repay w _ _ => .signer w
  | .repayAll w _ => .signer w
  | .collateral w _ _ => .signer w
  | .liquidate w _ _ _ _ => .signer w
  | .addReserves _ _ _ => .governance
  | .reduceReserves _ _ _ => .governance
  | .reduceIncentive _ _ _ => .governance
  | .updateLfc _ => .governance
  | .transferP _ w _ _ => .signer w

/-- `pallets/streaming/src/lib.rs`:231, 263, 323, 384; `create` of the trait is called by crowdloans only. -/
def needStreaming : Streaming.Call → Need
  | .create w _ _ _ _ _ _ => .signer w
  | .traitCreate _ _ _ _ _ _ _ => .never
  | .cancel w _ => .signer w
  | .withdraw w _ _ => .signer w
  | .setMin _ _ => .governance

/-- `pallets/liquid-staking/src/lib.rs`:479-1115, and its hooks. -/
def needStaking : Staking.Call → Need
  | .stake w _ => .signer w
  | .unstake w _ _ => .signer w
  | .cancelUnstake w _ => .signer w
  | .claimFor _ => .agent
  | .fastMatch _ => .agent
  | .bond _ _ => .governance
  | .bondExtra _ _ => .governance
  | .unbond _ _ => .governance
  | .rebond _ _ => .governance
  | .withdraw _ => .agent
  | .nominate _ => .agent
  | .notify _ _ => .response
  | .setEraStart _ => .governance
  | .forceEra _ => .governance
  | .forceAdvance _ => .governance
  | .forceMatching => .governance
  | .forceLedger _ _ => .governance
  | .setEra _ _ => .agent
  | .setLedger _ _ _ => .agent
  | .reduceReserves _ _ => .governance
  | .reduceUReserves _ _ => .governance
  | .setRf _ => .governance
  | .setUrf _ => .governance
  | .setCap _ => .governance
  | .setCommission _ => .governance
  | .onInit => .runtime
  | .onFinalize => .runtime

/-- `pallets/crowdloans/src/lib.rs`:435-1212; `claim` stands for `claim` and `claim_for`, `withdraw` for `withdraw` and
`withdraw_for`: anybody may have the tokens paid to the contributor. -/
def needCrowdloans : Crowdloans.Call → Need
  | .contribute w _ _ _ => .signer w
  | .redeem w _ _ => .signer w
  | .claim _ _ => .anyone
  | .withdraw _ _ => .anyone
  | .notify _ _ => .response
  | .updateProxy _ => .governance
  | .createVault _ _ _ _ _ => .automator
  | .updateVault _ _ _ _ => .automator
  | .open _ => .automator
  | .setVrf _ => .automator
  | .close _ => .automator
  | .reopen _ => .automator
  | .auctionSucceeded _ => .automator
  | .auctionFailed _ => .automator
  | .slotExpired _ => .automator
  | .migratePending _ => .automator
  | .refund _ => .automator
  | .dissolve _ => .automator
  | .refundFor _ _ _ _ => .automator
  | .updateBonus _ _ => .automator
  | .forceClaim _ _ => .automator
  | .redeemAndLend _ _ _ => .automator

/-- `pallets/bridge/src/lib.rs`:336-539, 676-688; that a signer of `materialize` is a relayer is checked by the call. -/
def needBridge : Bridge.Call → Need
  | .teleport w _ _ _ _ => .signer w
  | .materialize (some w) _ _ _ _ => .signer w
  | .materialize none _ _ _ _ => .root
  | .registerChain _ => .governance
  | .unregisterChain _ => .governance
  | .registerToken _ _ => .governance
  | .unregisterToken _ => .governance
  | .setFee _ _ => .governance
  | .setStatus _ _ => .governance
  | .setCap _ _ _ => .governance
  | .cleanCap _ _ => .governance

/-- What has to come with an origin: a call of one of the eight pallets, or one of the two swaps of the router. -/
inductive Tx where
  | call (k : Call)
  | swapIn (who : Nat) (route : List Nat) (amtIn minOut : Nat)
  | swapOut (who : Nat) (route : List Nat) (amtOut maxIn : Nat)

/-- The origin an extrinsic asks for; `pallets/router/src/lib.rs`:305, 365; `BridgeMembership` calls
`ChangeMembers` on a decision of governance (runtime/parallel/src/lib.rs:1719-1730). -/
def Tx.need : Tx → Need
  | .call (.amm k) => needAmm k
  | .call (.stable k) => needStable k
  | .call (.farming k) => needFarming k
  | .call (.loans k) => needLoans k
  | .call (.streaming k) => needStreaming k
  | .call (.staking k) => needStaking k
  | .call (.crowdloans k) => needCrowdloans k
  | .call (.bridge k) => needBridge k
  | .call .bridgeBlock => .runtime
  | .call (.bridgeMembers _) => .governance
  | .swapIn w _ _ _ => .signer w
  | .swapOut w _ _ _ => .signer w

/-- The rest of an extrinsic. -/
def Tx.run (r : Roles) (c : Cfg) (s : State) : Tx → R State
  | .call k => exec c s k
  | .swapIn w route x m => do
    let y ← Router.swapExactIn c.amm r.maxRoute s.ammV w route x m
    pure (s.putAmm y)
  | .swapOut w route x m => do
    let y ← Router.swapExactOut c.amm r.maxRoute s.ammV w route x m
    pure (s.putAmm y)

/-- An extrinsic with its origin. -/
def dispatch (r : Roles) (c : Cfg) (s : State) (o : Origin) (t : Tx) : R State := do
  ensure (meets r o t.need = true) .badOrigin
  t.run r c s

end Verif.System
