import Verif.System.Model

/-! # Specification vocabulary for the pallets together -/

namespace Verif.System
open Verif

/-- The pallets. -/
inductive Pallet where
  | amm | stable | farming | loans | streaming | staking | crowdloans | bridge
deriving DecidableEq

/-- The accounts a pallet may spend from without anybody's signature: its own account, the account of the XCM helper
that pays relay-chain fees, the bridge's gift account. -/
def spends (c : Cfg) : Pallet → Nat → Prop
  | .amm => fun w => w = c.amm.acct
  | .stable => fun w => w = c.stb.acct
  | .farming => fun w => ∃ x, w = c.farm.acct x
  | .loans => fun w => w = c.lo.acct ∨ w = c.lo.rewardAcct ∨ w = c.lo.incentiveAcct
  | .streaming => fun w => w = c.str.acct
  | .staking => fun w => w = c.stk.acct ∨ w = c.stk.xcmAcct
  | .crowdloans => fun w => w = c.cl.acct ∨ w = c.cl.xcmAcct
  | .bridge => fun w => w = c.br.acct ∨ w = c.br.gift

/-- The accounts in which a pallet keeps what it owes to users, and the accounts in which the AMM and the stableswap
pallet lock the minimum liquidity for ever. -/
def keeps (c : Cfg) : Pallet → Nat → Prop
  | .amm => fun w => w = c.amm.acct ∨ w = c.amm.lock
  | .stable => fun w => w = c.stb.acct ∨ w = c.stb.lock
  | .farming => fun w => ∃ x, w = c.farm.acct x
  | .loans => fun w => w = c.lo.acct
  | .streaming => fun w => w = c.str.acct
  | .staking => fun w => w = c.stk.acct
  | .crowdloans => fun w => w = c.cl.acct
  | .bridge => fun _ => False

/-- An account that holds what a pallet owes to users: nobody has its key. -/
def Vaulted (c : Cfg) (w : Nat) : Prop := ∃ p, keeps c p w

/-- The currencies only one pallet mints and burns: the liquid staking currency and the derivative tokens of
crowdloans, `D`. -/
def Issued (c : Cfg) (D : Nat → Prop) (a : Nat) : Prop := a = c.stk.liquid ∨ D a

/-- What the runtimes guarantee: each pallet's own configuration is sane, no pallet may spend from the account in which
another one keeps what it owes (all are derived from different `PalletId`s), and the staking currency, the collateral
token and the relay currency are neither the liquid currency nor derivative tokens. -/
structure Cfg.OK (c : Cfg) (D : Nat → Prop) : Prop where
  amm : c.amm.OK
  stb : c.stb.OK
  lo : c.lo.Ok
  str : c.str.OK
  stk : c.stk.Ok
  cl : Crowdloans.CfgOK c.cl D
  apart : ∀ p q w, spends c p w → keeps c q w → p = q
  liquidD : ¬ D c.stk.liquid
  stakingD : ¬ D c.stk.staking
  collateralD : ¬ D c.stk.collateral
  relay : c.cl.relay ≠ c.stk.liquid

/-- Who signs a call or is named in it as the one who acts or pays. -/
def Call.actors : Call → List Nat
  | .amm k => k.payers
  | .stable k => k.payers
  | .farming (.deposit _ w _) => [w]
  | .farming (.withdraw _ w _) => [w]
  | .farming (.redeem _ w) => [w]
  | .farming (.claim _ w) => [w]
  | .farming (.dispatch _ w _ _) => [w]
  | .loans k => k.signers
  | .streaming (.create w _ _ _ _ _ _) => [w]
  | .streaming (.traitCreate w _ _ _ _ _ _) => [w]
  | .streaming (.cancel w _) => [w]
  | .streaming (.withdraw w _ _) => [w]
  | .staking (.stake w _) => [w]
  | .staking (.unstake w _ _) => [w]
  | .staking (.cancelUnstake w _) => [w]
  | .crowdloans k => k.payers
  | .bridge k => k.payers
  | _ => []

/-- Calls that can be made: nobody acts for an account without a key; new pools and new bridged tokens do not use the
liquid currency or a derivative token as their token, new crowdloan vaults use a derivative token; rates given to the
lending pallet are at most 1; governance corrects a staking ledger only to a consistent one and not downwards. -/
structure Call.OK (c : Cfg) (D : Nat → Prop) (s : State) (k : Call) : Prop where
  actors : ∀ w ∈ k.actors, ¬ Vaulted c w
  lp : ∀ x, k = .amm x → ∀ a ∈ x.newLp, ¬ Issued c D a
  slp : ∀ x, k = .stable x → ∀ a ∈ x.newLp, ¬ Issued c D a
  ext : ∀ x, k = .bridge x → ∀ a ∈ x.newExternal, ¬ Issued c D a
  ct : ∀ x, k = .crowdloans x → ∀ a ∈ x.newCtoken, D a
  wt : ∀ x, k = .loans x → x.wt
  force : ∀ i n l, k = .staking (.forceLedger i n) → s.stk.ledgers i = some l →
    l.active ≤ n.active ∧ l.locked ≤ n.locked
  cons : ∀ i n, k = .staking (.forceLedger i n) → n.Consistent

/-- What everything outside the eight pallets may do in between: time passes, prices, fees and the relay chain change,
other pallets move tokens and make XCM queries; but nothing is taken from the accounts nobody has the key of, nobody
else mints or burns the liquid currency or derivative tokens, and relay-chain ledgers are consistent. -/
structure World (c : Cfg) (D : Nat → Prop) (s s' : State) : Prop where
  same : s' = { s with
    ledger := s'.ledger
    query := s'.query
    amm := { s.amm with block := s'.amm.block }
    stb := { s.stb with block := s'.stb.block }
    farm := { s.farm with now := s'.farm.now }
    lo := { s.lo with prices := s'.lo.prices, time := s'.lo.time, block := s'.lo.block }
    str := { s.str with now := s'.str.now }
    stk := { s.stk with
      fee := s'.stk.fee
      link := s'.stk.link
      relayBlock := s'.stk.relayBlock
      relayEra := s'.stk.relayEra
      relayLedger := s'.stk.relayLedger }
    cl := { s.cl with
      relayBlock := s'.cl.relayBlock
      fee := s'.cl.fee
      sendOk := s'.cl.sendOk
      decimal := s'.cl.decimal
      nonce := s'.cl.nonce } }
  wf : s'.ledger.WF
  bal : ∀ w, Vaulted c w → ∀ a, s.ledger.bal a w ≤ s'.ledger.bal a w
  iss : ∀ a, Issued c D a → s'.ledger.iss a = s.ledger.iss a
  query : s.query ≤ s'.query
  amm : s.amm.block ≤ s'.amm.block
  stb : s.stb.block ≤ s'.stb.block
  farm : s.farm.now ≤ s'.farm.now
  time : s.lo.time ≤ s'.lo.time
  block : s.lo.block ≤ s'.lo.block
  str : s.str.now ≤ s'.str.now
  relay : ∀ i l, s'.stk.relayLedger i = some l → l.Consistent

/-- A chain on which none of the pallets has been used. -/
structure Genesis (c : Cfg) (D : Nat → Prop) (s : State) : Prop where
  wf : s.ledger.WF
  amm : ∀ k, s.amm.pools k = none
  stb : ∀ k, s.stb.pools k = none
  farm : s.farmV = ⟨s.ledger, fun _ => none, fun _ _ => Farming.Pos.default, s.farm.now, []⟩
  lo : s.loV = Loans.State.fresh s.ledger s.lo.prices s.lo.time s.lo.block
  str : s.strV = ⟨s.ledger, fun _ => none, 0, fun _ => [], s.str.minDep, s.str.now, []⟩
  stk : Staking.Fresh c.stk s.stkV
  cl : Crowdloans.Genesis D s.clV
  br : s.brV = ⟨s.ledger, 1, fun _ => none, fun _ => none, fun _ => none, fun _ => none, fun _ _ => none,
    s.br.members, s.br.now, []⟩

/-- One step of the chain. -/
inductive Step (c : Cfg) (D : Nat → Prop) : State → State → Prop
  | call {s s' : State} (k : Call) (hk : k.OK c D s) (h : exec c s k = .ok s') : Step c D s s'
  | world {s s' : State} (h : World c D s s') : Step c D s s'

/-- Every state any history of calls to any of the pallets, in any order, can lead to. -/
inductive Reach (c : Cfg) (D : Nat → Prop) : State → Prop
  | init {s : State} (h : Genesis c D s) : Reach c D s
  | step {s s' : State} (h : Reach c D s) (hs : Step c D s s') : Reach c D s'

/-! ### Who pays, which pallets act, what is minted and burnt -/

/-- The accounts a call may take tokens from: the signer of a call that pays something in; the accounts governance
names as receiver of new LP tokens, payer of farming rewards or of reserves, or holder of expired derivative tokens; and
accounts whose pending fast-unstake requests are matched. -/
def Call.takesFrom (s : State) : Call → Nat → Prop
  | .amm k => fun w => w ∈ k.payers
  | .stable k => fun w => w ∈ k.payers
  | .farming k => fun w => w ∈ k.payers
  | .loans k => fun w => w ∈ k.payers
  | .streaming k => fun w => w ∈ k.payers
  | .staking (.stake w' _) => fun w => w = w'
  | .staking (.unstake w' _ _) => fun w => w = w'
  | .staking (.fastMatch ws) => fun w => w ∈ ws ∧ s.stk.fast w ≠ none
  | .staking _ => fun _ => False
  | .crowdloans k => fun w => w ∈ k.payers
  | .bridge k => fun w => w ∈ k.payers
  | .bridgeBlock => fun _ => False
  | .bridgeMembers _ => fun _ => False

/-- The pallets that act in a call. -/
def Call.uses : Call → Pallet → Prop
  | .amm _ => fun p => p = .amm
  | .stable _ => fun p => p = .stable
  | .farming _ => fun p => p = .farming
  | .loans _ => fun p => p = .loans
  | .streaming _ => fun p => p = .streaming
  | .staking _ => fun p => p = .staking ∨ p = .loans
  | .crowdloans _ => fun p => p = .crowdloans ∨ p = .streaming
  | .bridge _ => fun p => p = .bridge
  | .bridgeBlock => fun _ => False
  | .bridgeMembers _ => fun _ => False

/-- The assets a call may mint or burn: LP tokens of the AMM's or the stableswap pallet's pools, external tokens of the
bridge, the staking, liquid and collateral currency, the relay currency and derivative tokens. -/
def Call.issues (c : Cfg) (s : State) : Call → Nat → Prop
  | .amm k => fun a => (∃ i p, s.amm.pools i = some p ∧ p.lp = a) ∨ a ∈ k.newLp
  | .stable k => fun a => (∃ i p, s.stb.pools i = some p ∧ p.lp = a) ∨ a ∈ k.newLp
  | .bridge _ => fun a => ∃ t, s.br.tokens a = some t ∧ t.external = true
  | .staking _ => fun a => a = c.stk.staking ∨ a = c.stk.liquid ∨ a = c.stk.collateral
  | .crowdloans _ => fun a => a = c.cl.relay ∨ ∃ l, s.cl.ctokenOf l = some a
  | _ => fun _ => False

end Verif.System
