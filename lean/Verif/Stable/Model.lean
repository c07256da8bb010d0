import Verif.Prelude.Ledger
import Verif.Prelude.Fixed
import Verif.Amm.Model

/-!
# Model of `pallets/stableswap/src/lib.rs` and `helpers.rs`

The storage type `Pool` is the one of `pallets/traits` and shared with the AMM model.

Not modelled: events, weights, the governance origin of `create_pool`, the `I` instance parameter, and the
functions nothing calls (`get_amount_out_1`, `do_get_delta`, `get_exchange_value`,
`do_get_alternative_var`).
-/

namespace Verif.Stable
open Verif
open Verif.Amm (Pool Pool.new)

/-- Runtime constants: `pallets/stableswap/src/lib.rs:70-110` (`Config`). -/
structure Cfg where
  /-- `account_id()`, lib.rs:1299-1301 -/
  acct : Nat
  /-- `LockAccountId` -/
  lock : Nat
  /-- `ProtocolFeeReceiver` -/
  feeTo : Nat
  /-- `LpFee` in parts per million -/
  lpFee : Nat
  /-- `ProtocolFee` in parts per million -/
  fee : Nat
  /-- `MinimumLiquidity` -/
  minLiq : Nat
  /-- `AmplificationCoefficient` -/
  amp : Nat

/-- Storage of the pallet (`Pools`, lib.rs:194-205) with the ledger and the block number.
`pools (base, quote)`. -/
structure State where
  ledger : Ledger
  pools : Nat × Nat → Option Pool
  block : Nat

/-- `.unwrap()` on a `Result`: every error is a panic. -/
def unwrapR {α : Type} : R α → R α
  | .ok a => .ok a
  | .error _ => .error .panic

/-! ### `helpers.rs` -/

/-- The part of a `BigUint` that survives `u128::try_from(..).unwrap_or(0)`. -/
def fit (a : Nat) : Nat := if a ≤ maxU128 then a else 0

/-- `div`, helpers.rs:5-21: operands that do not fit `u128` count as zero, division by zero gives zero. -/
def hdiv (a b : Nat) : Nat := if fit b = 0 then 0 else fit a / fit b

/-- One round of the loop in `compute_d`, helpers.rs:57-73. -/
def dStep (base quote ann d : Nat) : R Nat := do
  let dp := hdiv (hdiv (d * d) (base * 2) * d) (quote * 2)
  let den ← csub .underflow (ann * d + 3 * dp) d
  pure (hdiv ((ann * (base + quote) + dp * 2) * d) den)

/-- The two convergence tests, helpers.rs:75-82 and 130-137. -/
def close (a b : Nat) : Prop := (b < a ∧ a - b ≤ 1) ∨ (a ≤ b ∧ b - a ≤ 1)

instance (a b : Nat) : Decidable (close a b) := by unfold close; infer_instance

/-- The loop of `compute_d`, helpers.rs:57-84, with `n` rounds left. -/
def dLoop (base quote ann : Nat) : Nat → Nat → R Nat
  | 0, _ => .error (.other 1)
  | n + 1, d => do
    let d' ← dStep base quote ann d
    if close d' d then toU128 .overflow d' else dLoop base quote ann n d'

/-- `compute_d`, helpers.rs:33-85. -/
def computeD (base quote amp : Nat) : R Nat :=
  if base + quote = 0 then .ok 0
  else dLoop base quote (amp * 2 * 2) 255 (base + quote)

/-- One round of the loop in `compute_base`, helpers.rs:119-129. -/
def yStep (s ann d term1 y : Nat) : R Nat := do
  let term2 ← csub .underflow (2 * y + s) d
  pure (hdiv (ann * y * y + term1) (ann * term2 + d))

/-- The loop of `compute_base`, helpers.rs:119-142, with `n` rounds left. -/
def yLoop (s ann d term1 : Nat) : Nat → Nat → R Nat
  | 0, _ => .error (.other 2)
  | n + 1, y => do
    let y' ← yStep s ann d term1 y
    if close y' y then toU128 .overflow y' else yLoop s ann d term1 n y'

/-- `compute_base`, helpers.rs:98-143. -/
def computeBase (newQuote amp d : Nat) : R Nat :=
  yLoop newQuote (amp * 2 * 2) d (hdiv (hdiv d 2 * hdiv d 2 * d) newQuote) 255 d

/-! ### `lib.rs` -/

/-- `delta_util`, lib.rs:966-977. -/
def delta (c : Cfg) (base quote : Nat) : R Nat := computeD base quote c.amp

/-- `sort_assets`, lib.rs:548-566: `(is_inverted, base, quote)`. -/
def sortAssets (a b : Nat) : R (Bool × Nat × Nat) :=
  if a > b then .ok (false, a, b)
  else if a < b then .ok (true, b, a)
  else .error .identicalAssets

/-- The sum of both fees, `checked_add` on `Permill` (lib.rs:447-450, 1199-1202, 1322-1323). -/
def feeSum (c : Cfg) (e : Err) : R Nat := if c.lpFee + c.fee ≤ million then .ok (c.lpFee + c.fee) else .error e

/-- `get_amount_out`, lib.rs:442-477. -/
def amountOut (c : Cfg) (amountIn poolBase poolQuote : Nat) : R Nat := do
  let f ← feeSum c .overflow
  let net ← csub .underflow amountIn (pmulFloor f amountIn)
  let d ← delta c poolBase poolQuote
  let newQuote ← cadd .overflow poolQuote net
  let newBase ← computeBase newQuote c.amp d
  csub .underflow poolBase newBase

/-- `get_amount_in`, lib.rs:1179-1220. -/
def amountIn (c : Cfg) (amountOut reserveIn reserveOut : Nat) : R Nat := do
  ensure (amountOut < reserveOut) .insufficientSupplyOut
  let num ← cmul .overflow reserveIn amountOut
  let q ← cdiv .underflow num (reserveOut - amountOut)
  let f ← feeSum c .underflow
  let r ← precipFloor (million - f) q
  cadd .overflow r 1

/-- `quote`, lib.rs:529-546. -/
def quote (baseAmount basePool quotePool : Nat) : R Nat := do
  let m ← cmul .underflow baseAmount quotePool
  cdiv .underflow m basePool

/-- `get_ideal_amounts`, lib.rs:1271-1292. -/
def idealAmounts (p : Pool) (baseAmount quoteAmount : Nat) : R (Nat × Nat) :=
  if p.isEmpty then .ok (baseAmount, quoteAmount)
  else do
    let iq ← quote baseAmount p.base p.quote
    if iq ≤ quoteAmount then pure (baseAmount, iq)
    else do
      let ib ← quote quoteAmount p.quote p.base
      pure (ib, quoteAmount)

/-- `get_reserves`, lib.rs:1155-1169. -/
def reserves (s : State) (assetIn assetOut : Nat) : R (Nat × Nat) := do
  let (inv, b, q) ← sortAssets assetIn assetOut
  let p ← okOr (s.pools (b, q)) .poolDoesNotExist
  if inv then pure (p.quote, p.base) else pure (p.base, p.quote)

/-- The loop of get_amounts_out, lib.rs:1312-1316. -/
def amountsOutFrom (c : Cfg) (s : State) : Nat → Nat → List Nat → R (List Nat)
  | _, _, [] => .ok []
  | x, a, b :: rest => do
    let (ri, ro) ← reserves s a b
    let y ← amountOut c x ri ro
    let ys ← amountsOutFrom c s y b rest
    pure (y :: ys)

/-- `get_amounts_out`, lib.rs:1304-1319.  An empty path panics (`amounts_out[0]`). -/
def amountsOut (c : Cfg) (s : State) (x : Nat) : List Nat → R (List Nat)
  | [] => .error .panic
  | a :: rest => do
    let ys ← amountsOutFrom c s x a rest
    pure (x :: ys)

/-- `get_amounts_in`, lib.rs:424-440, walking the path from its end. -/
def amountsIn (c : Cfg) (s : State) (out : Nat) : List Nat → R (List Nat)
  | [] => .error .panic
  | [_] => .ok [out]
  | a :: b :: rest => do
    let ys ← amountsIn c s out (b :: rest)
    let (ri, ro) ← reserves s a b
    let x ← amountIn c (ys.headD 0) ri ro
    pure (x :: ys)

/-- `protocol_fee_on`, lib.rs:1293-1295. -/
def feeOn (c : Cfg) : Bool := c.fee ≠ 0

/-- `do_update_oracle`, lib.rs:1222-1268. -/
def updateOracle (s : State) (p : Pool) : R Pool :=
  if p.blockLast ≠ s.block then do
    let dt := s.block - p.blockLast
    let n0 ← toU128 .overflow (dt * p.quote)
    let f0 ← fixSatFromRational n0 p.base
    let n1 ← toU128 .overflow (dt * p.base)
    let f1 ← fixSatFromRational n1 p.quote
    let p0 ← cadd .overflow p.price0 f0
    let p1 ← cadd .overflow p.price1 f1
    pure { p with price0 := p0, price1 := p1, blockLast := s.block }
  else pure p

/-- First deposit, lib.rs:577-592. -/
def firstLiquidity (c : Cfg) (l : Ledger) (lp ib iq : Nat) : R (Ledger × Nat) := do
  let l ← l.mint lp c.lock c.minLiq
  let r ← csub .conversionToU128Failed (Nat.sqrt (ib * iq)) c.minLiq
  let r ← toU128 .underflow r
  pure (l, r)

/-- Later deposits, lib.rs:593-609. -/
def shareLiquidity (ts ib iq base quote : Nat) : R Nat := do
  let x ← cdiv .conversionToU128Failed (ib * ts) base
  let x ← toU128 .underflow x
  let y ← cdiv .conversionToU128Failed (iq * ts) quote
  let y ← toU128 .underflow y
  pure (min x y)

/-- `do_get_liquidity`, lib.rs:570-611. -/
def liquidityFor (c : Cfg) (l : Ledger) (p : Pool) (ib iq : Nat) : R (Ledger × Nat) :=
  if l.iss p.lp = 0 then firstLiquidity c l p.lp ib iq
  else do
    let r ← shareLiquidity (l.iss p.lp) ib iq p.base p.quote
    pure (l, r)

/-- The invariant before the deposit, lib.rs:620-629 (0 when the pool is not in storage yet). -/
def d0Of (c : Cfg) (o : Option Pool) : R Nat := match o with
  | none => .ok 0
  | some p => unwrapR (delta c p.base p.quote)

/-- The invariant after the deposit, lib.rs:651-655. -/
def d1Of (c : Cfg) (o : Option Pool) (d0 nb nq : Nat) : R Nat := match o with
  | none => .ok 0
  | some _ => do
    let d1 ← unwrapR (delta c nb nq)
    ensure (d0 ≤ d1) (.other 3)
    pure d1

/-- The LP tokens to mint, lib.rs:670-674 (plain operators: overflow and division by zero panic). -/
def boostedLiquidity (ts liq d0 d1 : Nat) : R Nat :=
  if 0 < ts then do
    let dd ← csub .panic d1 d0
    let m ← cmul .panic liq dd
    let q ← cdiv .panic m d0
    cadd .panic liq q
  else cadd .panic liq d1

/-- `do_add_liquidity`, lib.rs:614-713. -/
def doAdd (c : Cfg) (s : State) (who : Nat) (p : Pool) (ib iq base quote : Nat) :
    R (State × Pool) := do
  let d0 ← d0Of c (s.pools (base, quote))
  let ts := s.ledger.iss p.lp
  let (l, liq) ← unwrapR (liquidityFor c s.ledger p ib iq)
  let nb ← cadd .overflow p.base ib
  let nq ← cadd .overflow p.quote iq
  let d1 ← d1Of c (s.pools (base, quote)) d0 nb nq
  let liq ← boostedLiquidity ts liq d0 d1
  let l ← l.mint p.lp who liq
  let l ← l.transfer base who c.acct ib true
  let l ← l.transfer quote who c.acct iq true
  let p := { p with base := nb, quote := nq }
  let p := if feeOn c then { p with baseLast := p.base, quoteLast := p.quote } else p
  pure ({ s with ledger := l }, p)

/-- `calculate_reserves_to_remove`, lib.rs:715-736. -/
def reservesToRemove (l : Ledger) (p : Pool) (liq : Nat) : R (Nat × Nat) := do
  let b ← cdiv .conversionToU128Failed (liq * p.base) (l.iss p.lp)
  let b ← toU128 .underflow b
  let q ← cdiv .conversionToU128Failed (liq * p.quote) (l.iss p.lp)
  let q ← toU128 .underflow q
  pure (b, q)

/-- `do_remove_liquidity`, lib.rs:739-781. -/
def doRemove (c : Cfg) (s : State) (who : Nat) (p : Pool) (liq base quote : Nat) :
    R (State × Pool) := do
  let (b, q) ← reservesToRemove s.ledger p liq
  let nb ← csub .insufficientLiquidity p.base b
  let nq ← csub .insufficientLiquidity p.quote q
  let l ← s.ledger.burn p.lp who liq
  let l ← l.transfer base c.acct who b false
  let l ← l.transfer quote c.acct who q false
  let p := { p with base := nb, quote := nq }
  let p := if feeOn c then { p with baseLast := p.base, quoteLast := p.quote } else p
  pure ({ s with ledger := l }, p)

/-- `get_protocol_fee_reciprocal_proportion`, lib.rs:1321-1327. -/
def feeReciprocal (c : Cfg) : R Nat := do
  let f ← feeSum c .underflow
  precipFloor (permillFromRational c.fee f) 1

/-- The number of LP tokens minted by `do_mint_protocol_fee` when the fee is on, lib.rs:808-847. -/
def protocolFees (c : Cfg) (l : Ledger) (p : Pool) : R Nat := do
  let rootKLast ← unwrapR (delta c p.baseLast p.quoteLast)
  let rootK ← unwrapR (delta c p.base p.quote)
  if rootK ≤ rootKLast then pure 0
  else do
    let r ← feeReciprocal c
    let scalar ← csub .underflow r 1
    let f ← cdiv .underflow ((rootK - rootKLast) * l.iss p.lp) (rootK * scalar + rootKLast)
    toU128 .overflow f

/-- `do_mint_protocol_fee`, lib.rs:784-862.  (Minting 0 when `root_k ≤ root_k_last` is the same as the
early return.) -/
def mintProtocolFee (c : Cfg) (s : State) (p : Pool) : R (State × Pool) :=
  if feeOn c then do
    let f ← protocolFees c s.ledger p
    let l ← s.ledger.mint p.lp c.feeTo f
    pure ({ s with ledger := l }, p)
  else if p.baseLast * p.quoteLast ≠ 0 then
    .ok (s, { p with baseLast := 0, quoteLast := 0 })
  else .ok (s, p)

/-- `do_swap`, lib.rs:864-938. -/
def doSwap (c : Cfg) (s : State) (who assetIn assetOut amtIn : Nat) : R (State × Nat) := do
  let (inv, b, q) ← sortAssets assetIn assetOut
  let p ← okOr (s.pools (b, q)) .poolDoesNotExist
  let supIn := if inv then p.quote else p.base
  let supOut := if inv then p.base else p.quote
  let minIn ← precipFloor c.lpFee 1
  ensure (minIn ≤ amtIn) .insufficientAmountIn
  ensure (supOut ≠ 0) .insufficientAmountOut
  let out ← amountOut c amtIn supIn supOut
  let newIn ← cadd .overflow supIn amtIn
  let newOut ← csub .underflow supOut out
  let p := if inv then { p with quote := newIn, base := newOut }
           else { p with base := newIn, quote := newOut }
  let p ← updateOracle s p
  let l ← s.ledger.transfer assetIn who c.acct amtIn true
  let l ← l.transfer assetOut c.acct who out false
  pure ({ s with ledger := l, pools := upd s.pools (b, q) (some p) }, out)

/-- `add_liquidity`, lib.rs:217-294. -/
def addLiquidity (c : Cfg) (s : State) (who : Nat) (pair desired minimum : Nat × Nat) : R State := do
  let (inv, b, q) ← sortAssets pair.1 pair.2
  let (ba, qa) := if inv then (desired.2, desired.1) else (desired.1, desired.2)
  let (mb, mq) := if inv then (minimum.2, minimum.1) else (minimum.1, minimum.2)
  let p ← okOr (s.pools (b, q)) .poolDoesNotExist
  let (ib, iq) ← idealAmounts p ba qa
  ensure (ib ≤ ba ∧ iq ≤ qa) .insufficientAmountIn
  ensure (mb ≤ ib ∧ mq ≤ iq) .notAnIdealPrice
  let (s, p) ← mintProtocolFee c s p
  let (s, p) ← doAdd c s who p ib iq b q
  pure { s with pools := upd s.pools (b, q) (some p) }

/-- `remove_liquidity`, lib.rs:302-342. -/
def removeLiquidity (c : Cfg) (s : State) (who : Nat) (pair : Nat × Nat) (liq : Nat) : R State := do
  let (_, b, q) ← sortAssets pair.1 pair.2
  let p ← okOr (s.pools (b, q)) .poolDoesNotExist
  let (s, p) ← mintProtocolFee c s p
  let (s, p) ← doRemove c s who p liq b q
  pure { s with pools := upd s.pools (b, q) (some p) }

/-- `create_pool`, lib.rs:347-417. -/
def createPool (c : Cfg) (s : State) (pair amounts : Nat × Nat) (receiver lp : Nat) : R State := do
  let (inv, b, q) ← sortAssets pair.1 pair.2
  ensure (s.pools (b, q) = none) .poolAlreadyExists
  let (ba, qa) := if inv then (amounts.2, amounts.1) else (amounts.1, amounts.2)
  ensure (s.ledger.iss lp = 0) .lpTokenAlreadyExists
  let (s, p) ← doAdd c s receiver (Pool.new lp) ba qa b q
  pure { s with pools := upd s.pools (b, q) (some p) }

/-- Every way to call the pallet from outside: the three extrinsics, and `StableSwap::swap`
(lib.rs:1359-1366), which other pallets may call for a trader. -/
inductive Call where
  | add (who : Nat) (pair desired minimum : Nat × Nat)
  | remove (who : Nat) (pair : Nat × Nat) (liq : Nat)
  | create (pair amounts : Nat × Nat) (receiver lp : Nat)
  | swap (who assetIn assetOut amtIn : Nat)

/-- Dispatch of a call. -/
def exec (c : Cfg) (s : State) : Call → R State
  | .add who pair d m => addLiquidity c s who pair d m
  | .remove who pair liq => removeLiquidity c s who pair liq
  | .create pair am rcv lp => createPool c s pair am rcv lp
  | .swap who a b x => do
    let (s, _) ← doSwap c s who a b x
    pure s

end Verif.Stable
