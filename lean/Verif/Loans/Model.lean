import Verif.Prelude.Ledger
import Verif.Loans.Rate

/-!
# Model of `pallets/loans/src/{lib,interest,farming,ptoken,types}.rs`

Citations without a file name refer to `pallets/loans/src/lib.rs`.

Simplifications: origins of governance calls are not modelled (any caller may be governance); events are
not modelled except reward distribution and reward speed changes (`Rewards.log`); weights and storage
migrations are left out. `Markets::iter()` enumerates `ids`, in the order of creation instead of hash order
(the order influences only which error is reported first). `UnixTime` is `time`, in seconds; block numbers
are `block`. Prices come from an arbitrary table `prices` that the environment may change at any time.
-/

namespace Verif.Loans
open Verif

/-- `Config` (lib.rs:104-157) and the derived accounts. -/
structure Cfg where
  /-- `account_id()` -/
  acct : Nat
  /-- `reward_account_id()` -/
  rewardAcct : Nat
  /-- `incentive_reward_account_id()` -/
  incentiveAcct : Nat
  /-- `RewardAssetId` -/
  rewardAsset : Nat
  /-- `LiquidationFreeAssetId` -/
  lfAsset : Nat

/-- `MarketState`, types.rs:36-40. -/
inductive MState where
  | active | pending | supervision
deriving DecidableEq

/-- `Market`, types.rs:47-71; the `Ratio`s are parts per million. -/
structure Market where
  cf : Nat
  lt : Nat
  rf : Nat
  close : Nat
  incentive : Nat
  irf : Nat
  model : RateModel
  state : MState
  supplyCap : Nat
  borrowCap : Nat
  ptoken : Nat
deriving DecidableEq

/-- The per-market storage values `TotalSupply, TotalBorrows, TotalReserves, BorrowIndex, ExchangeRate,
BorrowRate, SupplyRate, UtilizationRatio, LastAccruedInterestTime`, lib.rs:280-367. -/
structure Book where
  supply : Nat
  borrows : Nat
  reserves : Nat
  index : Nat
  rate : Nat
  borrowRate : Nat
  supplyRate : Nat
  util : Nat
  lastTime : Nat
deriving DecidableEq

/-- All zero (`ValueQuery` defaults). -/
def Book.zero : Book := ⟨0, 0, 0, 0, 0, 0, 0, 0, 0⟩

/-- `Deposits`, types.rs:26-31. -/
structure Deposit where
  vouchers : Nat
  coll : Bool
deriving DecidableEq

/-- `BorrowSnapshot`, types.rs:8-13. -/
structure Snapshot where
  principal : Nat
  index : Nat
deriving DecidableEq

/-- `EarnedSnapshot`, types.rs:17-22. -/
structure Earned where
  total : Nat
  rate : Nat
deriving DecidableEq

/-- `RewardSupplySpeed, RewardBorrowSpeed, RewardSupplyState, RewardBorrowState` of one market. -/
structure Rew where
  supSpeed : Nat
  borSpeed : Nat
  supIdx : Nat
  supBlock : Nat
  borIdx : Nat
  borBlock : Nat
deriving DecidableEq

/-- `DistributedSupplierReward`, `DistributedBorrowerReward`, `MarketRewardSpeedUpdated` (the last with the
block it was emitted in). -/
inductive Event where
  | sup (asset who amount : Nat)
  | bor (asset who amount : Nat)
  | speed (asset supply borrow block : Nat)
deriving DecidableEq

/-- Everything the reward code of `farming.rs` writes. -/
structure Rewards where
  mkt : Nat → Rew
  supIx : Nat → Nat → Nat
  borIx : Nat → Nat → Nat
  accrued : Nat → Nat
  log : List Event

/-- Storage, lib.rs:280-474, with the ledger, prices and time. -/
structure State where
  ledger : Ledger
  markets : Nat → Option Market
  ids : List Nat
  underlying : Nat → Option Nat
  books : Nat → Book
  deposits : Nat → Nat → Option Deposit
  debts : Nat → Nat → Snapshot
  earned : Nat → Nat → Earned
  rw : Rewards
  lfc : List Nat
  prices : Nat → Option Nat
  time : Nat
  block : Nat

/-! ### Basic reads -/

/-- `account_deposits(asset, who)`, `ValueQuery`. -/
def State.dep (s : State) (a w : Nat) : Deposit := (s.deposits a w).getD ⟨0, false⟩
/-- `voucher_balance` of an account. -/
def State.vouchers (s : State) (a w : Nat) : Nat := (s.dep a w).vouchers

/-- `market`, lib.rs:2016-2018. -/
def market (s : State) (a : Nat) : R Market := okOr (s.markets a) .marketDoesNotExist

/-- `state == Active`. -/
def isActive (s : State) (a : Nat) : Bool := match s.markets a with
  | some m => decide (m.state = .active)
  | none => false

/-- `ensure_active_market`, lib.rs:1863-1868. -/
def ensureActive (s : State) (a : Nat) : R Market := match s.markets a with
  | some m => if m.state = .active then .ok m else .error .marketNotActivated
  | none => .error .marketNotActivated

/-- `active_markets`, lib.rs:2042-2044. -/
def activeIds (s : State) : List Nat := s.ids.filter (isActive s)

/-- `get_total_cash`, lib.rs:1972-1974. -/
def cash (c : Cfg) (s : State) (a : Nat) : Nat := s.ledger.reducible a c.acct false

/-- `get_price`, lib.rs:1982-1993. -/
def getPrice (s : State) (a : Nat) : R Nat := do
  let p ← okOr (s.prices a) .priceOracleNotReady
  ensure (p ≠ 0) .priceIsZero
  pure p

/-- `get_asset_value`, lib.rs:2002-2011. -/
def assetValue (s : State) (a m : Nat) : R Nat := do
  let p ← getPrice s a
  okOr (fixMul p m) .overflow

/-! ### Interest -/

/-- `MIN_EXCHANGE_RATE` = 0.02, lib.rs:82. -/
def minRate : Nat := 20000000000000000
/-- `MIN_VALID_EXCHANGE_RATE` = 0.015, lib.rs:83. -/
def minValidRate : Nat := 15000000000000000

/-- `calculate_exchange_rate`, interest.rs:193-213, with `ensure_valid_exchange_rate`, interest.rs:155-163. -/
def calcRate (supply cash borrows reserves : Nat) : R Nat :=
  if supply = 0 then .ok minRate
  else do
    let t ← cadd .overflow cash borrows
    let t ← csub .overflow t reserves
    let r ← okOr (fixFromRational t supply) .underflow
    ensure (minValidRate ≤ r ∧ r < DIV) .invalidExchangeRate
    pure r

/-- `exchange_rate_stored`, interest.rs:125-132. -/
def rateStored (c : Cfg) (s : State) (a : Nat) : R Nat :=
  calcRate (s.books a).supply (cash c s a) (s.books a).borrows (s.books a).reserves

/-- `calc_utilization_ratio`, interest.rs:137-152. -/
def utilization (cash borrows reserves : Nat) : R Nat :=
  if borrows = 0 then .ok 0
  else do
    let t ← cadd .overflow cash borrows
    let t ← csub .overflow t reserves
    pure (permillFromRational borrows t)

/-- `SECONDS_PER_YEAR`, primitives/src/lib.rs:104. -/
def secondsPerYear : Nat := 31536000

/-- `accrued_interest`, interest.rs:175-184. -/
def accruedInterest (rate amount dt : Nat) : Option Nat := do
  let x ← fixMulInt rate amount
  let y ← omul x dt
  odiv y secondsPerYear

/-- `increment_index`, interest.rs:186-191. -/
def incrementIndex (rate index dt : Nat) : Option Nat := do
  let x ← fixMul rate index
  let y ← fixMul x (min maxU128 (dt * DIV))
  fixDiv y (secondsPerYear * DIV)

/-- The part of `get_market_status` that advances time, interest.rs:78-105: new borrows, reserves, index. -/
def advance (m : Market) (b : Book) (rate now : Nat) : R (Nat × Nat × Nat) :=
  if b.lastTime < now then do
    let i ← okOr (accruedInterest rate b.borrows (now - b.lastTime)) .overflow
    let tb ← cadd .overflow i b.borrows
    let tr ← cadd .overflow (pmulFloor m.rf i) b.reserves
    let ix ← okOr (incrementIndex rate b.index (now - b.lastTime)) .overflow
    let ix ← cadd .overflow ix b.index
    pure (tb, tr, ix)
  else .ok (b.borrows, b.reserves, b.index)

/-- `get_market_status`, interest.rs:58-120; the result is packed into a `Book` (`lastTime` unchanged). -/
def marketStatus (c : Cfg) (s : State) (a : Nat) : R Book := do
  let m ← market s a
  let b := s.books a
  let u ← utilization (cash c s a) b.borrows b.reserves
  let br ← okOr (m.model.borrowRate u) .overflow
  let x ← advance m b br s.time
  let r ← calcRate b.supply (cash c s a) x.1 x.2.1
  pure { b with
    borrows := x.1,
    reserves := x.2.1,
    index := x.2.2,
    rate := r,
    borrowRate := br,
    supplyRate := Loans.supplyRate br u m.rf,
    util := u }

/-- Overwrite the book of a market. -/
def setBook (s : State) (a : Nat) (b : Book) : State := { s with books := upd s.books a b }

/-- `accrue_interest`, interest.rs:22-56. -/
def accrue (c : Cfg) (s : State) (a : Nat) : R State :=
  if (s.books a).lastTime = 0 then .ok (setBook s a { s.books a with lastTime := s.time })
  else if s.time ≤ (s.books a).lastTime then .ok s
  else do
    let b ← marketStatus c s a
    pure (setBook s a { b with lastTime := s.time })

/-! ### Amount conversions -/

/-- `calc_underlying_amount`, lib.rs:1953-1960. -/
def toUnderlying (v r : Nat) : R Nat := okOr (fixMulInt r v) .overflow
/-- `calc_collateral_amount`, lib.rs:1962-1970. -/
def toVouchers (m r : Nat) : R Nat := okOr (fixDiv m r) .underflow

/-- `current_borrow_balance`, lib.rs:1561-1577. -/
def debt (s : State) (a w : Nat) : R Nat :=
  if (s.debts a w).principal = 0 ∨ (s.debts a w).index = 0 then .ok 0
  else do
    let q ← okOr (fixDiv (s.books a).index (s.debts a w).index) .overflow
    okOr (fixMulInt q (s.debts a w).principal) .overflow

/-! ### Account values -/

/-- `for (asset, _) in ... { total = total.checked_add(f(asset)?)? }`. -/
def sumGo (f : Nat → R Nat) : Nat → List Nat → R Nat
  | acc, [] => .ok acc
  | acc, x :: xs => do
    let v ← f x
    let acc ← cadd .overflow acc v
    sumGo f acc xs

/-- Underlying amount of the collateral deposit of `w`, weighted with a factor; the common body of
`current_collateral_balance` (lib.rs:1338-1359) and `liquidation_threshold_asset_value` (lib.rs:1370-1391). -/
def collAmount (c : Cfg) (s : State) (factor : Market → Nat) (a w : Nat) : R Nat :=
  if (s.dep a w).coll = false ∨ (s.dep a w).vouchers = 0 then .ok 0
  else do
    let r ← rateStored c s a
    let u ← toUnderlying (s.dep a w).vouchers r
    let m ← market s a
    pure (pmulCeil (factor m) u)

/-- `collateral_asset_value`, lib.rs:1361-1368. -/
def collValue (c : Cfg) (s : State) (a w : Nat) : R Nat := do
  let m ← collAmount c s Market.cf a w
  assetValue s a m

/-- `liquidation_threshold_asset_value`, lib.rs:1370-1391 (zero amounts need no price). -/
def threshValue (c : Cfg) (s : State) (a w : Nat) : R Nat :=
  if (s.dep a w).coll = false ∨ (s.dep a w).vouchers = 0 then .ok 0
  else do
    let m ← collAmount c s Market.lt a w
    assetValue s a m

/-- Value of one debt as used in `total_borrowed_value`, lib.rs:1326-1331. -/
def debtValue (s : State) (a w : Nat) : R Nat := do
  let d ← debt s a w
  if d = 0 then .ok 0 else assetValue s a d

/-- `total_borrowed_value`, lib.rs:1323-1336. -/
def totalBorrowed (s : State) (w : Nat) : R Nat := sumGo (fun a => debtValue s a w) 0 (activeIds s)
/-- `total_collateral_value`, lib.rs:1393-1402. -/
def totalColl (c : Cfg) (s : State) (w : Nat) : R Nat := sumGo (fun a => collValue c s a w) 0 (activeIds s)
/-- `total_liquidation_threshold_value`, lib.rs:1404-1417. -/
def totalThresh (c : Cfg) (s : State) (w : Nat) : R Nat := sumGo (fun a => threshValue c s a w) 0 (activeIds s)
/-- Active markets that are liquidation-free collaterals, lib.rs:1201-1203. -/
def lfIds (s : State) : List Nat := (activeIds s).filter (fun a => decide (a ∈ s.lfc))
/-- `get_lf_base_position`, lib.rs:1199-1209. -/
def lfBase (c : Cfg) (s : State) (w : Nat) : R Nat := sumGo (fun a => collValue c s a w) 0 (lfIds s)
/-- `get_lf_liquidation_base_position`, lib.rs:1211-1223. -/
def lfThresh (c : Cfg) (s : State) (w : Nat) : R Nat := sumGo (fun a => threshValue c s a w) 0 (lfIds s)
/-- `get_lf_borrowed_value`, lib.rs:1193-1197. -/
def lfBorrowed (c : Cfg) (s : State) (w : Nat) : R Nat := do
  let d ← debt s c.lfAsset w
  assetValue s c.lfAsset d

/-- `get_account_liquidity`, lib.rs:1225-1271: (liquidity, shortfall, lf liquidity, lf shortfall); the four
match arms are the truncated differences. -/
def liquidity (c : Cfg) (s : State) (w : Nat) : R (Nat × Nat × Nat × Nat) := do
  let b ← totalBorrowed s w
  let t ← totalColl c s w
  let lb ← lfBorrowed c s w
  let lp ← lfBase c s w
  pure (t - b, b - t, lp - lb, lb - lp)

/-- `get_account_liquidation_threshold_liquidity`, lib.rs:1273-1321. -/
def threshLiquidity (c : Cfg) (s : State) (w : Nat) : R (Nat × Nat × Nat × Nat) := do
  let b ← totalBorrowed s w
  let t ← totalThresh c s w
  let lb ← lfBorrowed c s w
  let lp ← lfThresh c s w
  pure (t - b, b - t, lp - lb, lb - lp)

/-- `ensure_liquidity`, lib.rs:1936-1951 (the `+` of the second test panics on overflow). -/
def ensureLiquidity (c : Cfg) (s : State) (w v : Nat) (lf : Bool) : R Unit := do
  let q ← liquidity c s w
  if lf then ensure (v ≤ max q.1 q.2.2.1) .insufficientLiquidity
  else do
    ensure (q.2.2.1 + v ≤ maxU128) .panic
    ensure (q.2.2.1 + v ≤ q.1) .insufficientLiquidity

/-- `ensure_enough_cash`, lib.rs:1902-1911. -/
def ensureCash (c : Cfg) (s : State) (a m : Nat) : R Unit := do
  let x ← csub .underflow (cash c s a) (s.books a).reserves
  ensure (m ≤ x) .insufficientCash

/-- `ensure_under_supply_cap`, lib.rs:1871-1884. -/
def ensureSupplyCap (c : Cfg) (s : State) (a m : Nat) : R Unit := do
  let mk ← market s a
  let t ← cadd .overflow (s.ledger.bal a c.acct) m
  ensure (t ≤ mk.supplyCap) .supplyCapacityExceeded

/-- `ensure_under_borrow_cap`, lib.rs:1887-1899. -/
def ensureBorrowCap (s : State) (a m : Nat) : R Unit := do
  let mk ← market s a
  let t ← cadd .overflow (s.books a).borrows m
  ensure (t ≤ mk.borrowCap) .borrowCapacityExceeded

/-! ### Rewards -/

/-- `reward_scale`, farming.rs:27-29. -/
def scale : Nat := 1000000000000

/-- `calculate_reward_delta_index`, farming.rs:31-48. -/
def deltaIndex (db speed share : Nat) : R Nat :=
  if share = 0 then .ok 0 else toU128 .overflow (db * speed * scale / share)

/-- `calculate_reward_delta`, farming.rs:50-61. -/
def rewardDelta (share di : Nat) : R Nat := toU128 .overflow (share * di / scale)

/-- Overwrite the reward state of a market. -/
def setRew (s : State) (a : Nat) (r : Rew) : State := { s with rw := { s.rw with mkt := upd s.rw.mkt a r } }

/-- `update_reward_supply_index`, farming.rs:63-84. -/
def updSupply (s : State) (a : Nat) : R State :=
  let r := s.rw.mkt a
  if s.block - r.supBlock = 0 then .ok s
  else if r.supSpeed = 0 then .ok (setRew s a { r with supBlock := s.block })
  else do
    let d ← deltaIndex (s.block - r.supBlock) r.supSpeed (s.books a).supply
    let i ← cadd .overflow r.supIdx d
    pure (setRew s a { r with
      supIdx := i,
      supBlock := s.block })

/-- `base_borrow_amount`, farming.rs:96-99, 170-173. -/
def baseBorrow (index m : Nat) : R Nat := okOr ((fixDiv DIV index).bind (fun r => fixMulInt r m)) .overflow

/-- `update_reward_borrow_index`, farming.rs:86-115. -/
def updBorrow (s : State) (a : Nat) : R State :=
  let r := s.rw.mkt a
  if s.block - r.borBlock = 0 then .ok s
  else if r.borSpeed = 0 then .ok (setRew s a { r with borBlock := s.block })
  else do
    let base ← baseBorrow (s.books a).index (s.books a).borrows
    let d ← deltaIndex (s.block - r.borBlock) r.borSpeed base
    let i ← cadd .overflow r.borIdx d
    pure (setRew s a { r with
      borIdx := i,
      borBlock := s.block })

/-- `distribute_supplier_reward`, farming.rs:117-150. -/
def distSupplier (s : State) (a w : Nat) : R State := do
  let d ← csub .underflow (s.rw.mkt a).supIdx (s.rw.supIx a w)
  let x ← rewardDelta (s.vouchers a w) d
  let t ← cadd .overflow (s.rw.accrued w) x
  pure { s with rw := { s.rw with
    supIx := upd2 s.rw.supIx a w (s.rw.mkt a).supIdx,
    accrued := upd s.rw.accrued w t,
    log := .sup a w x :: s.rw.log } }

/-- `distribute_borrower_reward`, farming.rs:152-190. -/
def distBorrower (s : State) (a w : Nat) : R State := do
  let d ← csub .underflow (s.rw.mkt a).borIdx (s.rw.borIx a w)
  let m ← debt s a w
  let base ← baseBorrow (s.books a).index m
  let x ← rewardDelta base d
  let t ← cadd .overflow (s.rw.accrued w) x
  pure { s with rw := { s.rw with
    borIx := upd2 s.rw.borIx a w (s.rw.mkt a).borIdx,
    accrued := upd s.rw.accrued w t,
    log := .bor a w x :: s.rw.log } }

/-- `collect_market_reward`, farming.rs:192-203. -/
def collect (s : State) (a w : Nat) : R State := do
  let s ← updSupply s a
  let s ← distSupplier s a w
  let s ← updBorrow s a
  distBorrower s a w

/-- `pay_reward`, farming.rs:205-215. -/
def payReward (c : Cfg) (s : State) (w : Nat) : R State :=
  if s.rw.accrued w = 0 then .ok s
  else do
    let l ← s.ledger.transfer c.rewardAsset c.rewardAcct w (s.rw.accrued w) true
    pure { s with
      ledger := l,
      rw := { s.rw with accrued := upd s.rw.accrued w 0 } }

/-! ### Markets -/

/-- `add_market`, lib.rs:488-542. -/
def addMarket (s : State) (a : Nat) (m : Market) : R State := do
  ensure (s.markets a = none) .marketAlreadyExists
  ensure (m.state = .pending) .newMarketMustHavePendingState
  ensure (m.model.check = true) .invalidRateModelParam
  ensure (m.cf < million) .invalidFactor
  ensure (m.lt < million ∧ m.cf ≤ m.lt) .invalidFactor
  ensure (0 < m.rf ∧ m.rf < million) .invalidFactor
  ensure (0 < m.irf ∧ m.irf < million) .invalidFactor
  ensure (0 < m.supplyCap) .invalidSupplyCap
  ensure (s.underlying m.ptoken = none) .invalidPtokenId
  ensure (s.markets m.ptoken = none) .invalidPtokenId
  pure { s with
    markets := upd s.markets a (some m),
    ids := s.ids ++ [a],
    underlying := upd s.underlying m.ptoken (some a),
    books := upd s.books a { s.books a with
      rate := minRate,
      index := DIV } }

/-- `mutate_market`, lib.rs:2023-2039. -/
def mutateMarket (s : State) (a : Nat) (f : Market → Market) : R State := do
  let m ← market s a
  pure { s with markets := upd s.markets a (some (f m)) }

/-- `activate_market`, lib.rs:552-566. -/
def activate (s : State) (a : Nat) : R State := mutateMarket s a (fun m => { m with state := .active })

/-- `update_rate_model`, lib.rs:576-590. -/
def updateModel (s : State) (a : Nat) (rm : RateModel) : R State := do
  ensure (rm.check = true) .invalidRateModelParam
  mutateMarket s a (fun m => { m with model := rm })

/-- The optional arguments of `update_market`. -/
structure Patch where
  cf : Option Nat
  lt : Option Nat
  rf : Option Nat
  close : Option Nat
  irf : Option Nat
  incentive : Option Nat
  supplyCap : Option Nat
  borrowCap : Option Nat

/-- The market after an update, lib.rs:617-658. -/
def Patch.apply (p : Patch) (m : Market) : Market := { m with
  cf := p.cf.getD m.cf,
  lt := p.lt.getD m.lt,
  rf := p.rf.getD m.rf,
  close := p.close.getD m.close,
  irf := p.irf.getD m.irf,
  incentive := p.incentive.getD m.incentive,
  supplyCap := p.supplyCap.getD m.supplyCap,
  borrowCap := p.borrowCap.getD m.borrowCap }

/-- `update_market`, lib.rs:603-663. -/
def updateMarket (s : State) (a : Nat) (p : Patch) : R State := do
  let m ← market s a
  let n := p.apply m
  ensure (n.cf < million) .invalidFactor
  ensure (n.cf ≤ n.lt ∧ n.lt < million) .invalidFactor
  ensure (0 < n.rf ∧ n.rf < million) .invalidFactor
  ensure (0 < n.supplyCap) .invalidSupplyCap
  mutateMarket s a p.apply

/-- `force_update_market`, lib.rs:673-697. -/
def forceUpdate (s : State) (a : Nat) (m : Market) : R State := do
  ensure (m.model.check = true) .invalidRateModelParam
  ensure (s.underlying m.ptoken = none ∨ s.underlying m.ptoken = some a) .invalidPtokenId
  mutateMarket { s with underlying := upd s.underlying m.ptoken (some a) } a (fun _ => m)

/-! ### Supplying and redeeming -/

/-- `update_earned_stored`, lib.rs:1580-1608. -/
def updEarned (s : State) (w a r : Nat) : R State :=
  let e := s.earned a w
  if e.rate ≤ r then do
    let x ← okOr (fixMulInt (r - e.rate) (s.vouchers a w)) .overflow
    let t ← cadd .overflow x e.total
    pure { s with earned := upd2 s.earned a w ⟨t, r⟩ }
  else .ok { s with earned := upd2 s.earned a w ⟨e.total, r⟩ }

/-- Write a deposit; `none` removes the storage entry. -/
def setDep (s : State) (a w : Nat) (d : Option Deposit) : State := { s with deposits := upd2 s.deposits a w d }

/-- `do_mint`, lib.rs:2074-2111. -/
def mint (c : Cfg) (s : State) (w a m : Nat) : R State := do
  ensure (m ≠ 0) .invalidAmount
  let _ ← ensureActive s a
  ensureSupplyCap c s a m
  let s ← accrue c s a
  let s ← updSupply s a
  let s ← distSupplier s a w
  let r ← rateStored c s a
  let s ← updEarned s w a r
  let v ← toVouchers m r
  ensure (v ≠ 0) .invalidExchangeRate
  let l ← s.ledger.transfer a w c.acct m false
  let d ← cadd .overflow (s.vouchers a w) v
  let t ← cadd .overflow (s.books a).supply v
  pure { s with
    ledger := l,
    deposits := upd2 s.deposits a w (some { s.dep a w with vouchers := d }),
    books := upd s.books a { s.books a with supply := t } }

/-- `redeem_allowed`, lib.rs:1420-1462. -/
def redeemAllowed (c : Cfg) (s : State) (a w v : Nat) : R Unit := do
  ensure (v ≤ s.vouchers a w) .insufficientDeposit
  let r ← rateStored c s a
  let m ← toUnderlying v r
  ensureCash c s a m
  if (s.dep a w).coll = false then .ok ()
  else do
    let mk ← market s a
    let x ← assetValue s a (pmulCeil mk.cf m)
    ensureLiquidity c s w x (decide (a ∈ s.lfc))

/-- `d.voucher_balance -= v`, removing the entry at zero, lib.rs:1477-1491. -/
def Deposit.minus (d : Deposit) (v : Nat) : Option Deposit :=
  if d.vouchers - v = 0 then none else some { d with vouchers := d.vouchers - v }

/-- `do_redeem_voucher`, lib.rs:1465-1502: the new state and the amount paid. -/
def redeemVoucher (c : Cfg) (s : State) (w a v : Nat) : R (State × Nat) := do
  redeemAllowed c s a w v
  let s ← updSupply s a
  let s ← distSupplier s a w
  let r ← rateStored c s a
  let m ← toUnderlying v r
  let _ ← csub .underflow (s.vouchers a w) v
  let t ← csub .underflow (s.books a).supply v
  let l ← (match s.ledger.transfer a c.acct w m false with
    | .ok l => .ok l
    | .error _ => .error .insufficientCash)
  pure ({ s with
    ledger := l,
    deposits := upd2 s.deposits a w ((s.dep a w).minus v),
    books := upd s.books a { s.books a with supply := t } }, m)

/-- `do_redeem`, lib.rs:2209-2226. -/
def doRedeem (c : Cfg) (s : State) (w a m : Nat) : R (State × Nat) := do
  let _ ← ensureActive s a
  let s ← accrue c s a
  let r ← rateStored c s a
  let s ← updEarned s w a r
  let v ← toVouchers m r
  redeemVoucher c s w a v

/-- `redeem`, lib.rs:857-867; `force_redeem`, lib.rs:1149-1160. -/
def redeem (c : Cfg) (s : State) (w a m : Nat) : R State := do
  ensure (m ≠ 0) .invalidAmount
  let x ← doRedeem c s w a m
  pure x.1

/-- `redeem_all`, lib.rs:875-889; `force_redeem_all`, lib.rs:1169-1184. -/
def redeemAll (c : Cfg) (s : State) (w a : Nat) : R State := do
  let _ ← ensureActive s a
  let s ← accrue c s a
  let r ← rateStored c s a
  let s ← updEarned s w a r
  let x ← redeemVoucher c s w a (s.vouchers a w)
  pure x.1

/-! ### Borrowing and repaying -/

/-- `borrow_allowed`, lib.rs:1505-1520. -/
def borrowAllowed (c : Cfg) (s : State) (a w m : Nat) : R Unit := do
  ensureBorrowCap s a m
  ensureCash c s a m
  let v ← assetValue s a m
  ensureLiquidity c s w v (decide (a = c.lfAsset))

/-- `do_borrow`, lib.rs:2113-2147. -/
def borrow (c : Cfg) (s : State) (w a m : Nat) : R State := do
  let _ ← ensureActive s a
  let s ← accrue c s a
  borrowAllowed c s a w m
  let s ← updBorrow s a
  let s ← distBorrower s a w
  let d ← debt s a w
  let d ← cadd .overflow d m
  let t ← cadd .overflow (s.books a).borrows m
  let l ← s.ledger.transfer a c.acct w m false
  pure { s with
    ledger := l,
    debts := upd2 s.debts a w ⟨d, (s.books a).index⟩,
    books := upd s.books a { s.books a with borrows := t } }

/-- `do_repay_borrow_with_amount`, lib.rs:1523-1557. -/
def repayWith (c : Cfg) (s : State) (w a d m : Nat) : R State := do
  ensure (m ≤ d) .tooMuchRepay
  let s ← updBorrow s a
  let s ← distBorrower s a w
  let l ← s.ledger.transfer a w c.acct m false
  pure { s with
    ledger := l,
    debts := upd2 s.debts a w ⟨d - m, (s.books a).index⟩,
    books := upd s.books a { s.books a with borrows := (s.books a).borrows - m } }

/-- `do_repay_borrow`, lib.rs:2196-2207. -/
def repay (c : Cfg) (s : State) (w a m : Nat) : R State := do
  let _ ← ensureActive s a
  let s ← accrue c s a
  let d ← debt s a w
  repayWith c s w a d m

/-- `repay_borrow_all`, lib.rs:935-946. -/
def repayAll (c : Cfg) (s : State) (w a : Nat) : R State := do
  let _ ← ensureActive s a
  let s ← accrue c s a
  let d ← debt s a w
  repay c s w a d

/-- `do_collateral_asset`, lib.rs:2149-2194. -/
def setCollateral (c : Cfg) (s : State) (w a : Nat) (on : Bool) : R State := do
  let _ ← ensureActive s a
  ensure ((s.deposits a w).isSome) .noDeposit
  if on then .ok (setDep s a w (some { s.dep a w with coll := true }))
  else do
    let t ← totalColl c s w
    let x ← collValue c s a w
    let b ← totalBorrowed s w
    let y ← cadd .overflow b x
    ensure (y ≤ t) .insufficientLiquidity
    pure (setDep s a w (some { s.dep a w with coll := false }))

/-- `collateral_asset`, lib.rs:955-974. -/
def collateralAsset (c : Cfg) (s : State) (w a : Nat) (on : Bool) : R State := do
  let _ ← ensureActive s a
  ensure ((s.deposits a w).isSome) .noDeposit
  ensure ((s.dep a w).coll ≠ on) .duplicateOperation
  setCollateral c s w a on

/-! ### Liquidation -/

/-- `effects_borrows_value`, lib.rs:1644-1653. -/
def effectiveDebt (c : Cfg) (s : State) (w a v : Nat) : R Nat :=
  if a = c.lfAsset then do
    let b ← lfBase c s w
    pure (v - b)
  else .ok v

/-- `liquidate_borrow_allowed`, lib.rs:1611-1663. -/
def liquidateAllowed (c : Cfg) (s : State) (borrower a m : Nat) (mk : Market) : R Unit := do
  let q ← threshLiquidity c s borrower
  ensure (¬ (q.2.1 = 0 ∧ q.2.2.1 ≤ q.1)) .insufficientShortfall
  let d ← debt s a borrower
  let dv ← assetValue s a d
  let rv ← assetValue s a m
  let ev ← effectiveDebt c s borrower a dv
  ensure (rv ≤ pmulCeil mk.close ev) .tooMuchRepay

/-- `liquidated_transfer`, lib.rs:1741-1860. -/
def liquidatedTransfer (c : Cfg) (s : State) (liq borrower a k m und : Nat) (mk : Market) : R State := do
  let s ← updBorrow s a
  let s ← distBorrower s a liq
  let l ← s.ledger.transfer a liq c.acct m false
  let s := { s with ledger := l }
  let d ← debt s a borrower
  let d ← csub .underflow d m
  let t ← csub .underflow (s.books a).borrows m
  let s := { s with
    debts := upd2 s.debts a borrower ⟨d, (s.books a).index⟩,
    books := upd s.books a { s.books a with borrows := t } }
  let s ← updSupply s k
  let s ← distSupplier s k liq
  let s ← distSupplier s k borrower
  let s ← distSupplier s k c.incentiveAcct
  let r ← rateStored c s k
  let v ← toVouchers und r
  let x ← csub .underflow (s.vouchers k borrower) v
  let s := setDep s k borrower (some { s.dep k borrower with vouchers := x })
  let q ← okOr (fixDiv v mk.incentive) .underflow
  let inc := pmulFloor mk.irf q
  let gain ← csub .panic v inc
  let y ← cadd .overflow (s.vouchers k liq) gain
  let s := setDep s k liq (some { s.dep k liq with vouchers := y })
  let z ← cadd .overflow (s.vouchers k c.incentiveAcct) inc
  pure (setDep s k c.incentiveAcct (some { s.dep k c.incentiveAcct with vouchers := z }))

/-- `do_liquidate_borrow`, lib.rs:1675-1738. -/
def doLiquidate (c : Cfg) (s : State) (liq borrower a m k : Nat) : R State := do
  let _ ← ensureActive s a
  let _ ← ensureActive s k
  let mk ← market s a
  ensure (borrower ≠ liq) .liquidatorIsBorrower
  liquidateAllowed c s borrower a m mk
  ensure ((s.dep k borrower).coll = true) .depositsAreNotCollateral
  let r ← rateStored c s k
  let amt ← okOr (fixMulInt r (s.vouchers k borrower)) .overflow
  let cv ← assetValue s k amt
  let rv ← assetValue s a m
  let lv ← okOr (fixMul rv mk.incentive) .overflow
  ensure (lv ≤ cv) .insufficientCollateral
  let p ← getPrice s k
  let und ← okOr (fixDiv lv p) .underflow
  liquidatedTransfer c s liq borrower a k m und mk

/-- `is_auxiliary_token`, primitives/src/tokens.rs:145-147. -/
def isAux (a : Nat) : Bool := decide (maxU32 - 10000 ≤ a)

/-- `liquidate_borrow`, lib.rs:985-1008. -/
def liquidate (c : Cfg) (s : State) (liq borrower a m k : Nat) : R State := do
  ensure (k ∉ s.lfc ∧ isAux k = false) .collateralReserved
  let s ← accrue c s a
  let s ← accrue c s k
  doLiquidate c s liq borrower a m k

/-! ### Reserves and rewards -/

/-- `add_reserves`, lib.rs:1020-1045. -/
def addReserves (c : Cfg) (s : State) (payer a m : Nat) : R State := do
  let _ ← ensureActive s a
  let l ← s.ledger.transfer a payer c.acct m false
  let t ← cadd .overflow (s.books a).reserves m
  pure { s with
    ledger := l,
    books := upd s.books a { s.books a with reserves := t } }

/-- `reduce_reserves`, lib.rs:1057-1091. -/
def reduceReserves (c : Cfg) (s : State) (recv a m : Nat) : R State := do
  let _ ← ensureActive s a
  let t ← csub .insufficientReserves (s.books a).reserves m
  let l ← s.ledger.transfer a c.acct recv m false
  pure { s with
    ledger := l,
    books := upd s.books a { s.books a with reserves := t } }

/-- `reduce_incentive_reserves`, lib.rs:1100-1121. -/
def reduceIncentive (c : Cfg) (s : State) (recv a m : Nat) : R State := do
  ensure (m ≠ 0) .invalidAmount
  let _ ← ensureActive s a
  let r ← rateStored c s a
  let v ← toVouchers m r
  let x ← redeemVoucher c s c.incentiveAcct a v
  let l ← x.1.ledger.transfer a c.incentiveAcct recv x.2 false
  pure { x.1 with ledger := l }

/-- `add_reward`, lib.rs:705-720. -/
def addReward (c : Cfg) (s : State) (w m : Nat) : R State := do
  ensure (m ≠ 0) .invalidAmount
  let l ← s.ledger.transfer c.rewardAsset w c.rewardAcct m true
  pure { s with ledger := l }

/-- `withdraw_missing_reward`, lib.rs:731-747. -/
def withdrawReward (c : Cfg) (s : State) (target m : Nat) : R State := do
  ensure (m ≠ 0) .invalidAmount
  let l ← s.ledger.transfer c.rewardAsset c.rewardAcct target m true
  pure { s with ledger := l }

/-- The supply half of `update_market_reward_speed`, lib.rs:773-779. -/
def setSupSpeed (s : State) (a v : Nat) : R State :=
  if v = (s.rw.mkt a).supSpeed then .ok s
  else do
    let s ← updSupply s a
    pure (setRew s a { s.rw.mkt a with supSpeed := v })

/-- The borrow half of `update_market_reward_speed`, lib.rs:781-787. -/
def setBorSpeed (s : State) (a v : Nat) : R State :=
  if v = (s.rw.mkt a).borSpeed then .ok s
  else do
    let s ← updBorrow s a
    pure (setRew s a { s.rw.mkt a with borSpeed := v })

/-- `update_market_reward_speed`, lib.rs:758-795. -/
def updateSpeed (s : State) (a : Nat) (sup bor : Option Nat) : R State := do
  let _ ← ensureActive s a
  let x := sup.getD (s.rw.mkt a).supSpeed
  let y := bor.getD (s.rw.mkt a).borSpeed
  let s ← setSupSpeed s a x
  let s ← setBorSpeed s a y
  pure { s with rw := { s.rw with log := .speed a x y s.block :: s.rw.log } }

/-- The loop of `claim_reward`, lib.rs:804-806. -/
def collectAll (s : State) (w : Nat) : List Nat → R State
  | [] => .ok s
  | a :: as => do
    let s ← collect s a w
    collectAll s w as

/-- `claim_reward`, lib.rs:801-811. -/
def claim (c : Cfg) (s : State) (w : Nat) : R State := do
  let s ← collectAll s w s.ids
  payReward c s w

/-- `claim_reward_for_market`, lib.rs:819-830. -/
def claimFor (c : Cfg) (s : State) (w a : Nat) : R State := do
  let s ← collect s a w
  payReward c s w

/-! ### Ptokens -/

/-- `underlying_id`, lib.rs:2049-2052. -/
def underlyingId (s : State) (p : Nat) : R Nat := okOr (s.underlying p) .invalidPtokenId

/-- `total_issuance`, ptoken.rs:29-35. -/
def ptokenIssuance (s : State) (p : Nat) : Nat := match s.underlying p with
  | some a => (s.books a).supply
  | none => 0

/-- `balance`, ptoken.rs:43-49. -/
def ptokenBalance (s : State) (p w : Nat) : Nat := match s.underlying p with
  | some a => s.vouchers a w
  | none => 0

/-- `reducible_asset`, ptoken.rs:195-235 (with the stored, possibly outdated, `ExchangeRate`). -/
def reducibleAsset (c : Cfg) (s : State) (p w : Nat) : R Nat := do
  let a ← underlyingId s p
  if (s.dep a w).coll = false then .ok (s.vouchers a w)
  else do
    let mk ← ensureActive s a
    let cv ← collValue c s a w
    let q ← liquidity c s w
    if cv ≤ q.1 then .ok (s.vouchers a w)
    else do
      let pr ← getPrice s a
      let x ← okOr (fixDiv q.1 (ofPermill mk.cf)) .overflow
      let y ← okOr (fixDiv x pr) .underflow
      toVouchers y (s.books a).rate

/-- `reducible_balance`, ptoken.rs:53-59. -/
def reducibleP (c : Cfg) (s : State) (p w : Nat) : Nat := match reducibleAsset c s p w with
  | .ok x => x
  | .error _ => 0

/-- `transfer`, ptoken.rs:134-148, with `do_transfer_ptokens`, ptoken.rs:153-193: rewards are settled
under the *ptoken* id. -/
def transferP (c : Cfg) (s : State) (p src dst m : Nat) : R State := do
  ensure (m ≤ reducibleP c s p src) .insufficientCollateral
  let s ← updSupply s p
  let s ← distSupplier s p src
  let s ← distSupplier s p dst
  let a ← underlyingId s p
  let _ ← csub .underflow (s.vouchers a src) m
  let s := setDep s a src ((s.dep a src).minus m)
  let y ← cadd .overflow (s.vouchers a dst) m
  pure (setDep s a dst (some { s.dep a dst with vouchers := y }))

/-! ### Dispatch -/

/-- Every extrinsic of the pallet, and `Transfer::transfer` on ptokens. -/
inductive Call where
  | addMarket (a : Nat) (m : Market)
  | activate (a : Nat)
  | updateModel (a : Nat) (rm : RateModel)
  | updateMarket (a : Nat) (p : Patch)
  | forceUpdate (a : Nat) (m : Market)
  | addReward (w m : Nat)
  | withdrawReward (target m : Nat)
  | updateSpeed (a : Nat) (sup bor : Option Nat)
  | claim (w : Nat)
  | claimFor (w a : Nat)
  | mint (w a m : Nat)
  | redeem (w a m : Nat)
  | redeemAll (w a : Nat)
  | borrow (w a m : Nat)
  | repay (w a m : Nat)
  | repayAll (w a : Nat)
  | collateral (w a : Nat) (on : Bool)
  | liquidate (liq borrower a m k : Nat)
  | addReserves (payer a m : Nat)
  | reduceReserves (recv a m : Nat)
  | reduceIncentive (recv a m : Nat)
  | updateLfc (as : List Nat)
  | transferP (p src dst m : Nat)

/-- Dispatch of a call. -/
def exec (c : Cfg) (s : State) : Call → R State
  | .addMarket a m => addMarket s a m
  | .activate a => activate s a
  | .updateModel a rm => updateModel s a rm
  | .updateMarket a p => updateMarket s a p
  | .forceUpdate a m => forceUpdate s a m
  | .addReward w m => addReward c s w m
  | .withdrawReward t m => withdrawReward c s t m
  | .updateSpeed a x y => updateSpeed s a x y
  | .claim w => claim c s w
  | .claimFor w a => claimFor c s w a
  | .mint w a m => mint c s w a m
  | .redeem w a m => redeem c s w a m
  | .redeemAll w a => redeemAll c s w a
  | .borrow w a m => borrow c s w a m
  | .repay w a m => repay c s w a m
  | .repayAll w a => repayAll c s w a
  | .collateral w a on => collateralAsset c s w a on
  | .liquidate l b a m k => liquidate c s l b a m k
  | .addReserves w a m => addReserves c s w a m
  | .reduceReserves w a m => reduceReserves c s w a m
  | .reduceIncentive w a m => reduceIncentive c s w a m
  | .updateLfc as => .ok { s with lfc := as }
  | .transferP p x y m => transferP c s p x y m

end Verif.Loans
