import Verif.Prelude.Ledger
import Verif.Prelude.Fixed
import Mathlib.Data.Nat.Sqrt

/-!
# Model of `pallets/amm/src/lib.rs`

Not modelled: events, weights, origins of the two governance extrinsics (any caller may be governance),
the `I` instance parameter.
-/

namespace Verif.Amm
open Verif

/-- Runtime constants: `pallets/amm/src/lib.rs:70-120` (`Config`). -/
structure Cfg where
  /-- `account_id()`, lib.rs:476-478 -/
  acct : Nat
  /-- `LockAccountId` -/
  lock : Nat
  /-- `LpFee` in parts per million -/
  lpFee : Nat
  /-- `MinimumLiquidity` -/
  minLiq : Nat
  /-- `GetNativeCurrencyId` -/
  native : Nat

/-- `Pool`, `pallets/traits/src/lib.rs:80-89`. -/
structure Pool where
  base : Nat
  quote : Nat
  baseLast : Nat
  quoteLast : Nat
  lp : Nat
  blockLast : Nat
  price0 : Nat
  price1 : Nat
deriving DecidableEq

/-- `Pool::new`, `pallets/traits/src/lib.rs:92-103`. -/
def Pool.new (lp : Nat) : Pool := ⟨0, 0, 0, 0, lp, 0, 0, 0⟩

/-- `Pool::is_empty`, `pallets/traits/src/lib.rs:105-107`. -/
def Pool.isEmpty (p : Pool) : Bool := p.base = 0 && p.quote = 0

/-- Storage of the pallet (lib.rs:210-232) with the ledger and the block number.
`pools (base, quote)`. -/
structure State where
  ledger : Ledger
  pools : Nat × Nat → Option Pool
  /-- `ProtocolFee` (parts per million) -/
  fee : Nat
  /-- `ProtocolFeeReceiver` -/
  feeTo : Option Nat
  block : Nat

/-- `quote`, lib.rs:488-507. -/
def quote (baseAmount basePool quotePool : Nat) : R Nat := do
  let r ← cdiv .overflow (baseAmount * quotePool) basePool
  toU128 .overflow r

/-- `sort_assets`, lib.rs:509-527: `(is_inverted, base, quote)`. -/
def sortAssets (a b : Nat) : R (Bool × Nat × Nat) :=
  if a > b then .ok (false, a, b)
  else if a < b then .ok (true, b, a)
  else .error .identicalAssets

/-- `get_ideal_amounts`, lib.rs:531-552. -/
def idealAmounts (p : Pool) (baseAmount quoteAmount : Nat) : R (Nat × Nat) :=
  if p.isEmpty then .ok (baseAmount, quoteAmount)
  else do
    let iq ← quote baseAmount p.base p.quote
    if iq ≤ quoteAmount then pure (baseAmount, iq)
    else do
      let ib ← quote quoteAmount p.quote p.base
      pure (ib, quoteAmount)

/-- `protocol_fee_on`, lib.rs:554-556. -/
def feeOn (s : State) : Bool := s.fee ≠ 0 && s.feeTo.isSome

/-- `get_amount_out`, lib.rs:626-669. -/
def amountOut (c : Cfg) (amountIn reserveIn reserveOut : Nat) : R Nat := do
  let net ← csub .underflow amountIn (pmulCeil c.lpFee amountIn)
  let out ← cdiv .underflow (net * reserveOut) (reserveIn + net)
  toU128 .overflow out

/-- `get_amount_in`, lib.rs:681-730. -/
def amountIn (c : Cfg) (amountOut reserveIn reserveOut : Nat) : R Nat := do
  ensure (amountOut < reserveOut) .insufficientSupplyOut
  let q ← cdiv .underflow (reserveIn * amountOut) (reserveOut - amountOut)
  let q ← toU128 .overflow q
  let f ← csub .underflow million c.lpFee
  let r ← precipCeil f q
  cadd .overflow r 1

/-- `get_reserves`, lib.rs:602-616. -/
def reserves (s : State) (assetIn assetOut : Nat) : R (Nat × Nat) := do
  let (inv, b, q) ← sortAssets assetIn assetOut
  let p ← okOr (s.pools (b, q)) .poolDoesNotExist
  if inv then pure (p.quote, p.base) else pure (p.base, p.quote)

/-- The loop of get_amounts_out, lib.rs:571-576: amounts for the hops after the first asset. -/
def amountsOutFrom (c : Cfg) (s : State) : Nat → Nat → List Nat → R (List Nat)
  | _, _, [] => .ok []
  | x, a, b :: rest => do
    let (ri, ro) ← reserves s a b
    let y ← amountOut c x ri ro
    let ys ← amountsOutFrom c s y b rest
    pure (y :: ys)

/-- `get_amounts_out`, lib.rs:564-579.  An empty path panics (`amounts_out[0]`). -/
def amountsOut (c : Cfg) (s : State) (x : Nat) : List Nat → R (List Nat)
  | [] => .error .panic
  | a :: rest => do
    let ys ← amountsOutFrom c s x a rest
    pure (x :: ys)

/-- `get_amounts_in`, lib.rs:583-599, walking the path from its end: the result lists the amounts for the
whole path.  An empty path panics (`amounts_in[len - 1]`). -/
def amountsIn (c : Cfg) (s : State) (out : Nat) : List Nat → R (List Nat)
  | [] => .error .panic
  | [_] => .ok [out]
  | a :: b :: rest => do
    let ys ← amountsIn c s out (b :: rest)
    let (ri, ro) ← reserves s a b
    let x ← amountIn c (ys.headD 0) ri ro
    pure (x :: ys)

/-- `do_update_oracle`, lib.rs:734-780. -/
def updateOracle (s : State) (p : Pool) : R Pool :=
  if p.blockLast ≠ s.block then do
    let dt := s.block - p.blockLast
    let n0 ← toU128 .overflow (dt * p.quote)
    let f0 ← fixSatFromRational n0 p.base
    let n1 ← toU128 .overflow (dt * p.base)
    let f1 ← fixSatFromRational n1 p.quote
    let p0 ← cadd .overflow p.price0 f0
    let p1 ← cadd .overflow p.price1 f1
    pure { p with price0 := p0, price1 := p1, blockLast := s.block }
  else pure p

/-- First deposit into a pool, lib.rs:792-816: locks `MinimumLiquidity`, returns the caller's share. -/
def firstLiquidity (c : Cfg) (l : Ledger) (lp ib iq : Nat) : R (Ledger × Nat) := do
  let l ← l.mint lp c.lock c.minLiq
  let r ← csub .conversionToU128Failed (Nat.sqrt (ib * iq)) c.minLiq
  let r ← toU128 .underflow r
  pure (l, r)

/-- Later deposits, lib.rs:817-834. -/
def shareLiquidity (ts ib iq base quote : Nat) : R Nat := do
  let x ← cdiv .conversionToU128Failed (ib * ts) base
  let x ← toU128 .underflow x
  let y ← cdiv .conversionToU128Failed (iq * ts) quote
  let y ← toU128 .underflow y
  pure (min x y)

/-- The liquidity branch of do_add_liquidity, lib.rs:789-834. -/
def liquidityFor (c : Cfg) (l : Ledger) (p : Pool) (ib iq : Nat) : R (Ledger × Nat) :=
  if l.iss p.lp = 0 then firstLiquidity c l p.lp ib iq
  else do
    let r ← shareLiquidity (l.iss p.lp) ib iq p.base p.quote
    pure (l, r)

/-- `do_add_liquidity`, lib.rs:783-884. -/
def doAdd (c : Cfg) (s : State) (who : Nat) (p : Pool) (ib iq base quote : Nat) :
    R (State × Pool) := do
  let (l, liq) ← liquidityFor c s.ledger p ib iq
  let nb ← cadd .overflow p.base ib
  let nq ← cadd .overflow p.quote iq
  let l ← l.mint p.lp who liq
  let l ← l.transfer base who c.acct ib (base = c.native)
  let l ← l.transfer quote who c.acct iq (quote = c.native)
  let p := { p with base := nb, quote := nq }
  let p := if feeOn s then { p with baseLast := p.base, quoteLast := p.quote } else p
  pure ({ s with ledger := l }, p)

/-- `calculate_reserves_to_remove`, lib.rs:886-907. -/
def reservesToRemove (l : Ledger) (p : Pool) (liq : Nat) : R (Nat × Nat) := do
  let b ← cdiv .conversionToU128Failed (liq * p.base) (l.iss p.lp)
  let b ← toU128 .underflow b
  let q ← cdiv .conversionToU128Failed (liq * p.quote) (l.iss p.lp)
  let q ← toU128 .underflow q
  pure (b, q)

/-- `do_remove_liquidity`, lib.rs:910-963. -/
def doRemove (c : Cfg) (s : State) (who : Nat) (p : Pool) (liq base quote : Nat) :
    R (State × Pool) := do
  let (b, q) ← reservesToRemove s.ledger p liq
  let nb ← csub .insufficientLiquidity p.base b
  let nq ← csub .insufficientLiquidity p.quote q
  let l ← s.ledger.burn p.lp who liq
  let l ← l.transfer base c.acct who b (base = c.native)
  let l ← l.transfer quote c.acct who q (quote = c.native)
  let p := { p with base := nb, quote := nq }
  let p := if feeOn s then { p with baseLast := p.base, quoteLast := p.quote } else p
  pure ({ s with ledger := l }, p)

/-- The number of LP tokens minted by `do_mint_protocol_fee` when the fee is on, lib.rs:987-1027. -/
def protocolFees (s : State) (p : Pool) : R Nat :=
  let rootK := Nat.sqrt (p.base * p.quote)
  let rootKLast := Nat.sqrt (p.baseLast * p.quoteLast)
  if rootK ≤ rootKLast then .ok 0
  else do
    let r ← precipFloor s.fee 1
    let scalar ← csub .underflow r 1
    let f ← cdiv .underflow ((rootK - rootKLast) * s.ledger.iss p.lp) (rootK * scalar + rootKLast)
    toU128 .overflow f

/-- `do_mint_protocol_fee`, lib.rs:966-1045.  (Minting 0 when `root_k ≤ root_k_last` is the same as the
early return.) -/
def mintProtocolFee (s : State) (p : Pool) : R (State × Pool) :=
  if feeOn s then do
    let f ← protocolFees s p
    let rcv ← okOr s.feeTo .protocolFeeReceiverNotSet
    let l ← s.ledger.mint p.lp rcv f
    pure ({ s with ledger := l }, p)
  else if p.baseLast * p.quoteLast ≠ 0 then
    .ok (s, { p with baseLast := 0, quoteLast := 0 })
  else .ok (s, p)

/-- `do_swap`, lib.rs:1047-1132. -/
def doSwap (c : Cfg) (s : State) (who assetIn assetOut amtIn : Nat) : R (State × Nat) := do
  let (inv, b, q) ← sortAssets assetIn assetOut
  let p ← okOr (s.pools (b, q)) .poolDoesNotExist
  let supIn := if inv then p.quote else p.base
  let supOut := if inv then p.base else p.quote
  let minIn ← precipCeil c.lpFee 1
  ensure (minIn ≤ amtIn) .insufficientAmountIn
  ensure (supOut ≠ 0) .insufficientAmountOut
  let out ← amountOut c amtIn supIn supOut
  let newIn ← cadd .overflow supIn amtIn
  let newOut ← csub .underflow supOut out
  let p := if inv then { p with quote := newIn, base := newOut }
           else { p with base := newIn, quote := newOut }
  let p ← updateOracle s p
  let l ← s.ledger.transfer assetIn who c.acct amtIn (assetIn = c.native)
  let l ← l.transfer assetOut c.acct who out (assetOut = c.native)
  pure ({ s with ledger := l, pools := upd s.pools (b, q) (some p) }, out)

/-- `add_liquidity`, lib.rs:237-313. -/
def addLiquidity (c : Cfg) (s : State) (who : Nat) (pair desired minimum : Nat × Nat) : R State := do
  let (inv, b, q) ← sortAssets pair.1 pair.2
  let (ba, qa) := if inv then (desired.2, desired.1) else (desired.1, desired.2)
  let (mb, mq) := if inv then (minimum.2, minimum.1) else (minimum.1, minimum.2)
  let p ← okOr (s.pools (b, q)) .poolDoesNotExist
  let (ib, iq) ← idealAmounts p ba qa
  ensure (ib ≤ ba ∧ iq ≤ qa) .insufficientAmountIn
  ensure (mb ≤ ib ∧ mq ≤ iq) .notAnIdealPrice
  let (s, p) ← mintProtocolFee s p
  let (s, p) ← doAdd c s who p ib iq b q
  pure { s with pools := upd s.pools (b, q) (some p) }

/-- `remove_liquidity`, lib.rs:322-362. -/
def removeLiquidity (c : Cfg) (s : State) (who : Nat) (pair : Nat × Nat) (liq : Nat) : R State := do
  let (_, b, q) ← sortAssets pair.1 pair.2
  let p ← okOr (s.pools (b, q)) .poolDoesNotExist
  let (s, p) ← mintProtocolFee s p
  let (s, p) ← doRemove c s who p liq b q
  pure { s with pools := upd s.pools (b, q) (some p) }

/-- `create_pool`, lib.rs:373-443. -/
def createPool (c : Cfg) (s : State) (pair amounts : Nat × Nat) (receiver lp : Nat) : R State := do
  let (inv, b, q) ← sortAssets pair.1 pair.2
  ensure (s.pools (b, q) = none) .poolAlreadyExists
  let (ba, qa) := if inv then (amounts.2, amounts.1) else (amounts.1, amounts.2)
  ensure (s.ledger.iss lp = 0) .lpTokenAlreadyExists
  let (s, p) ← doAdd c s receiver (Pool.new lp) ba qa b q
  pure { s with pools := upd s.pools (b, q) (some p) }

/-- `update_protocol_fee`, lib.rs:448-456 (a `Permill` is at most one million parts). -/
def updateFee (s : State) (fee : Nat) : R State := do
  ensure (fee ≤ million) .panic
  pure { s with fee := fee }

/-- `update_protocol_fee_receiver`, lib.rs:461-471. -/
def updateFeeTo (s : State) (rcv : Nat) : R State := .ok { s with feeTo := some rcv }

/-- Every way to call the pallet from outside: the five extrinsics, and `AMM::swap`
(lib.rs:1165-1172), which other pallets (the router) call for a trader. -/
inductive Call where
  | add (who : Nat) (pair desired minimum : Nat × Nat)
  | remove (who : Nat) (pair : Nat × Nat) (liq : Nat)
  | create (pair amounts : Nat × Nat) (receiver lp : Nat)
  | setFee (fee : Nat)
  | setFeeTo (rcv : Nat)
  | swap (who assetIn assetOut amtIn : Nat)

/-- Dispatch of a call. -/
def exec (c : Cfg) (s : State) : Call → R State
  | .add who pair d m => addLiquidity c s who pair d m
  | .remove who pair liq => removeLiquidity c s who pair liq
  | .create pair am rcv lp => createPool c s pair am rcv lp
  | .setFee f => updateFee s f
  | .setFeeTo t => updateFeeTo s t
  | .swap who a b x => do
    let (s, _) ← doSwap c s who a b x
    pure s

end Verif.Amm
