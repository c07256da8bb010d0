import Verif.System.OriginSpec

/-! # Specification vocabulary: who may make which extrinsic

Grouped by who acts, not by pallet. -/

namespace Verif.System
open Verif

/-- The account that an operation of a user is about: it alone makes the operation, with its own signature. -/
def Tx.user : Tx → Option Nat
  -- trading and providing liquidity
  | .swapIn w _ _ _ => some w
  | .swapOut w _ _ _ => some w
  | .call (.amm (.add w _ _ _)) => some w
  | .call (.amm (.remove w _ _)) => some w
  | .call (.stable (.add w _ _ _)) => some w
  | .call (.stable (.remove w _ _)) => some w
  -- farming
  | .call (.farming (.deposit _ w _)) => some w
  | .call (.farming (.withdraw _ w _)) => some w
  | .call (.farming (.redeem _ w)) => some w
  | .call (.farming (.claim _ w)) => some w
  -- lending, borrowing, liquidating, rewards, ptokens
  | .call (.loans (.mint w _ _)) => some w
  | .call (.loans (.redeem w _ _)) => some w
  | .call (.loans (.redeemAll w _)) => some w
  | .call (.loans (.borrow w _ _)) => some w
  | .call (.loans (.repay w _ _)) => some w
  | .call (.loans (.repayAll w _)) => some w
  | .call (.loans (.collateral w _ _)) => some w
  | .call (.loans (.liquidate w _ _ _ _)) => some w
  | .call (.loans (.addReward w _)) => some w
  | .call (.loans (.claim w)) => some w
  | .call (.loans (.claimFor w _)) => some w
  | .call (.loans (.transferP _ w _ _)) => some w
  -- streams
  | .call (.streaming (.create w _ _ _ _ _ _)) => some w
  | .call (.streaming (.cancel w _)) => some w
  | .call (.streaming (.withdraw w _ _)) => some w
  -- liquid staking
  | .call (.staking (.stake w _)) => some w
  | .call (.staking (.unstake w _ _)) => some w
  | .call (.staking (.cancelUnstake w _)) => some w
  -- crowdloans
  | .call (.crowdloans (.contribute w _ _ _)) => some w
  | .call (.crowdloans (.redeem w _ _)) => some w
  -- the bridge; that a vote counts only if it comes from a relayer is a matter of the call itself
  | .call (.bridge (.teleport w _ _ _ _)) => some w
  | .call (.bridge (.materialize (some w) _ _ _ _)) => some w
  | _ => none

/-- Operations that anybody may trigger: what a contributor of a vault is due is paid to the contributor. -/
def Tx.forAll : Tx → Bool
  | .call (.crowdloans (.claim _ _)) => true
  | .call (.crowdloans (.withdraw _ _)) => true
  | _ => false

/-- The daily business of liquid staking. -/
def Tx.forAgents : Tx → Bool
  | .call (.staking (.claimFor _)) => true
  | .call (.staking (.fastMatch _)) => true
  | .call (.staking (.withdraw _)) => true
  | .call (.staking (.nominate _)) => true
  | .call (.staking (.setEra _ _)) => true
  | .call (.staking (.setLedger _ _ _)) => true
  | _ => false

/-- The life cycle of crowdloan vaults: everything in the pallet but what users do, replies, and its proxy account. -/
def Tx.forAutomators : Tx → Bool
  | .call (.crowdloans (.contribute _ _ _ _)) => false
  | .call (.crowdloans (.redeem _ _ _)) => false
  | .call (.crowdloans (.claim _ _)) => false
  | .call (.crowdloans (.withdraw _ _)) => false
  | .call (.crowdloans (.notify _ _)) => false
  | .call (.crowdloans (.updateProxy _)) => false
  | .call (.crowdloans _) => true
  | _ => false

/-- Replies of the relay chain to this chain's messages. -/
def Tx.reply : Tx → Bool
  | .call (.staking (.notify _ _)) => true
  | .call (.crowdloans (.notify _ _)) => true
  | _ => false

/-- What the runtime does by itself at the beginning and the end of blocks. -/
def Tx.hook : Tx → Bool
  | .call (.staking .onInit) => true
  | .call (.staking .onFinalize) => true
  | .call .bridgeBlock => true
  | _ => false

/-- What only other pallets can do: a single swap in a pool of one of the exchanges, a stream for a vault. -/
def Tx.inner : Tx → Bool
  | .call (.amm (.swap _ _ _ _)) => true
  | .call (.stable (.swap _ _ _ _)) => true
  | .call (.streaming (.traitCreate _ _ _ _ _ _ _)) => true
  | _ => false

/-- Redeeming a deposit of somebody, which governance can do as well. -/
def Tx.redeems : Tx → Bool
  | .call (.loans (.redeem _ _ _)) => true
  | .call (.loans (.redeemAll _ _)) => true
  | _ => false

/-- A vote on a transfer from another chain that root gives without being a relayer. -/
def Tx.rootVote : Tx → Bool
  | .call (.bridge (.materialize none _ _ _ _)) => true
  | _ => false

/-- Everything else: parameters, pools, markets, reserves, the bridge's registry, moving the stake by hand. -/
def Tx.governed (t : Tx) : Bool :=
  t.user.isNone && !t.forAll && !t.hook && !t.inner && !t.rootVote

/-- Who may make which extrinsic. -/
inductive Allowed (r : Roles) : Origin → Tx → Prop
  /-- users make their own operations -/
  | user {t : Tx} {w : Nat} (h : t.user = some w) : Allowed r (.signed w) t
  /-- anybody with a signature triggers payments to contributors -/
  | all {t : Tx} {w : Nat} (h : t.forAll = true) : Allowed r (.signed w) t
  /-- agents do the daily business of liquid staking -/
  | agent {t : Tx} {w : Nat} (h : t.forAgents = true) (hr : r.agent w = true) : Allowed r (.signed w) t
  /-- automators run the crowdloan vaults -/
  | automator {t : Tx} {w : Nat} (h : t.forAutomators = true) (hr : r.automator w = true) : Allowed r (.signed w) t
  /-- the relay chain replies -/
  | reply {t : Tx} (h : t.reply = true) : Allowed r .response t
  /-- the runtime runs its hooks -/
  | hook {t : Tx} (h : t.hook = true) : Allowed r .runtime t
  /-- root votes on the bridge -/
  | rootVote {t : Tx} (h : t.rootVote = true) : Allowed r .root t
  /-- governance does everything that is nobody's own business, and redeems deposits -/
  | governance {o : Origin} {t : Tx} (h : t.governed = true ∨ t.redeems = true) (hg : Governance o) : Allowed r o t

end Verif.System
