import Verif.System.AmmGuar
import Verif.System.StableGuar
import Verif.System.StreamGuar
import Verif.System.FarmGuar
import Verif.System.BridgeGuar
import Verif.System.LoansGuar
import Verif.System.CrowdGuar
import Verif.System.StakeGuar

/-!
# The pallets together, over one token ledger

The models of the single pallets carry a ledger of their own and let "the rest of the chain" change it within the
limits of their `Env`.  Here all of them run over one ledger and one counter of XCM queries, so that the rest of the
chain *is* the other pallets: `runtime/*/src/lib.rs` instantiates every pallet with `type Assets = CurrencyAdapter`,
liquid staking and crowdloans with `type Loans = Loans` and `type XCM = XcmHelper`, and crowdloans with
`type Streaming = Streaming`.  Liquid staking calls the lending pallet, crowdloans calls the streaming and the lending
pallet, in the same transaction.
-/

namespace Verif.System
open Verif

/-- The configuration of all pallets.  The lending pallet's is `stk.lo`, the streaming pallet's is `cl.streaming`. -/
structure Cfg where
  amm : Amm.Cfg
  stb : Stable.Cfg
  farm : Farming.Cfg
  stk : Staking.Cfg
  cl : Crowdloans.Cfg
  br : Bridge.Cfg

/-- The lending pallet's configuration. -/
abbrev Cfg.lo (c : Cfg) : Loans.Cfg := c.stk.lo
/-- The streaming pallet's configuration. -/
abbrev Cfg.str (c : Cfg) : Streaming.Cfg := c.cl.streaming

/-- All balances, the next XCM query id (`pallet_xcm::QueryCounter`), and the storage of every pallet.  The ledgers and
counters inside the components are not used: the views below put the shared ones in their place. -/
structure State where
  ledger : Ledger
  query : Nat
  amm : Amm.State
  stb : Stable.State
  farm : Farming.State
  lo : Loans.State
  str : Streaming.State
  stk : Staking.State
  cl : Crowdloans.State
  br : Bridge.State

namespace State

/-- What each pallet sees. -/
def ammV (s : State) : Amm.State := { s.amm with ledger := s.ledger }
def stbV (s : State) : Stable.State := { s.stb with ledger := s.ledger }
def farmV (s : State) : Farming.State := { s.farm with ledger := s.ledger }
def loV (s : State) : Loans.State := { s.lo with ledger := s.ledger }
def strV (s : State) : Streaming.State := { s.str with ledger := s.ledger }
def stkV (s : State) : Staking.State := { s.stk with lo := s.loV, nextId := s.query }
def clV (s : State) : Crowdloans.State := { s.cl with str := s.strV, nextQuery := s.query }
def brV (s : State) : Bridge.State := { s.br with ledger := s.ledger }

/-- Store what a pallet's call returns. -/
def putAmm (s : State) (x : Amm.State) : State :=
  { s with amm := { x with ledger := s.amm.ledger }, ledger := x.ledger }
def putStb (s : State) (x : Stable.State) : State := { s with stb := x, ledger := x.ledger }
def putFarm (s : State) (x : Farming.State) : State := { s with farm := x, ledger := x.ledger }
def putLo (s : State) (x : Loans.State) : State := { s with lo := x, ledger := x.ledger }
def putStr (s : State) (x : Streaming.State) : State := { s with str := x, ledger := x.ledger }
def putStk (s : State) (x : Staking.State) : State :=
  { s with stk := x, lo := x.lo, ledger := x.lo.ledger, query := x.nextId }
def putCl (s : State) (x : Crowdloans.State) : State :=
  { s with cl := x, str := x.str, ledger := x.str.ledger, query := x.nextQuery }
def putBr (s : State) (x : Bridge.State) : State := { s with br := x, ledger := x.ledger }

end State

/-- The calls of all pallets, and the bridge's two hooks. -/
inductive Call where
  | amm (k : Amm.Call)
  | stable (k : Stable.Call)
  | farming (k : Farming.Call)
  | loans (k : Loans.Call)
  | streaming (k : Streaming.Call)
  | staking (k : Staking.Call)
  | crowdloans (k : Crowdloans.Call)
  | bridge (k : Bridge.Call)
  | bridgeBlock
  | bridgeMembers (ms : List Nat)

/-- `redeem_and_lend_for`, `pallets/crowdloans/src/lib.rs:1204-1223`: redeem, then supply to the lending pallet in the
same transaction. -/
def redeemAndLend (c : Cfg) (s : State) (who : Nat) (k : Crowdloans.Key) (m : Nat) : R State := do
  ensure (0 < s.cl.nonce who) .invalidParams
  let x ← Crowdloans.redeem c.cl s.clV who k m
  let y ← Loans.mint c.lo (s.putCl x).loV who c.cl.relay m
  pure ((s.putCl x).putLo y)

/-- The calls of crowdloans. -/
def crowd (c : Cfg) (s : State) : Crowdloans.Call → R State
  | .redeemAndLend who k m => redeemAndLend c s who k m
  | k => do
    let x ← Crowdloans.exec c.cl s.clV k
    pure (s.putCl x)

/-- Dispatch; a failed call changes nothing. -/
def exec (c : Cfg) (s : State) : Call → R State
  | .amm k => do
    let x ← Amm.exec c.amm s.ammV k
    pure (s.putAmm x)
  | .stable k => do
    let x ← Stable.exec c.stb s.stbV k
    pure (s.putStb x)
  | .farming k => do
    let x ← Farming.exec c.farm s.farmV k
    pure (s.putFarm x)
  | .loans k => do
    let x ← Loans.exec c.lo s.loV k
    pure (s.putLo x)
  | .streaming k => do
    let x ← Streaming.exec c.str s.strV k
    pure (s.putStr x)
  | .staking k => do
    let x ← Staking.exec c.stk s.stkV k
    pure (s.putStk x)
  | .crowdloans k => crowd c s k
  | .bridge k => do
    let x ← Bridge.exec c.br s.brV k
    pure (s.putBr x)
  | .bridgeBlock => .ok (s.putBr (Bridge.newBlock s.brV))
  | .bridgeMembers ms => .ok (s.putBr (Bridge.changeMembers c.br s.brV ms))

end Verif.System
