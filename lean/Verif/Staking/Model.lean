import Verif.Staking.Types
import Verif.Loans.Model

/-!
# Model of `pallets/liquid-staking/src/lib.rs`

The lending pallet it borrows from is the model of `pallets/loans` (`Verif.Loans`), whose state carries the
token ledger.  The relay chain is represented by what it can tell this chain: responses to requests
(`notify`), and the era and staking ledgers that a storage proof can show (`relayEra`, `relayLedger`).

Simplifications: the staking and liquid currencies have decimals (`staking_currency()` and
`liquid_currency()` always succeed); privileged origins are not modelled (any caller may be governance); the
storage map `StakingLedgers` is iterated along the derivative index list (`Inv.keys` shows that it has no other
keys); query ids do not wrap around; weights are not modelled; the log records stakes, unstakes and claims.
-/

namespace Verif.Staking
open Verif

/-- `Config`, lib.rs:112-224. -/
structure Cfg where
  /-- `account_id()` -/
  acct : Nat
  /-- `pallet_xcm_helper::account_id()` -/
  xcmAcct : Nat
  /-- `ProtocolFeeReceiver` -/
  feeRecv : Nat
  /-- `StakingCurrency`, which is also the relay currency of the XCM helper -/
  staking : Nat
  /-- `LiquidCurrency` -/
  liquid : Nat
  /-- `CollateralCurrency` -/
  collateral : Nat
  /-- `XcmFees` -/
  xcmFees : Nat
  /-- `MinStake` -/
  minStake : Nat
  /-- `MinUnstake` -/
  minUnstake : Nat
  /-- `DerivativeIndexList` -/
  indices : List Nat
  /-- `BondingDuration` -/
  bonding : Nat
  /-- `MinNominatorBond` -/
  minBond : Nat
  /-- `EraLength` -/
  eraLength : Nat
  /-- `ElectionSolutionStoredOffset` -/
  solutionOffset : Nat
  /-- `LoansInstantUnstakeFee` -/
  instantFee : Nat
  /-- `MatchingPoolFastUnstakeFee` -/
  fastFee : Nat
  /-- `DistributionStrategy` -/
  strategy : Strategy
  /-- the configuration of the lending pallet -/
  lo : Loans.Cfg

/-- `loans_account_id()`, lib.rs:1184-1186: the runtimes give this pallet the id of the lending pallet. -/
def Cfg.loansAcct (c : Cfg) : Nat := c.lo.acct

/-- `Event`, lib.rs:226-291: the part that reports users' amounts. -/
inductive Event where
  /-- `Staked`: staked amount after fees and reserves -/
  | staked (who m : Nat)
  /-- `Unstaked`, with the key of the unlocking queue that the amount is added to -/
  | unstaked (key m : Nat)
  /-- `ClaimedFor` -/
  | claimed (who m : Nat)
deriving DecidableEq

/-- Storage, lib.rs:343-448, with the state of the lending pallet and its token ledger (`lo`), the query
counter of `pallet_xcm` (`nextId`), the fees of the XCM helper per kind of request (`fee`), whether the XCM
sender accepts messages (`link`), the relay chain's block number, and what the relay chain's storage root
proves. -/
structure State where
  lo : Loans.State
  rate : Nat
  commission : Nat
  rf : Nat
  urf : Nat
  reserves : Nat
  ureserves : Nat
  pool : Pool
  cap : Nat
  reqs : List (Nat × Req)
  fast : Nat → Option Nat
  era : Nat
  eraStart : Nat
  unlockings : Nat → Option (List Chunk)
  ledgers : Nat → Option SLedger
  updated : Nat → Bool
  matched : Bool
  nextId : Nat
  fee : Nat → Nat
  link : Bool
  relayBlock : Nat
  relayEra : Nat
  relayLedger : Nat → Option SLedger
  log : List Event

/-- The token ledger. -/
def State.tok (s : State) : Ledger := s.lo.ledger
/-- Overwrite the token ledger. -/
def State.setTok (s : State) (l : Ledger) : State := { s with lo := { s.lo with ledger := l } }

/-! ### Reads -/

/-- `a + b` on `u32`: panics on overflow. -/
def eraAdd (a b : Nat) : R Nat := if a + b ≤ maxU32 then .ok (a + b) else .error .panic

@[simp] theorem eraAdd_ok_iff {a b x} : eraAdd a b = .ok x ↔ a + b ≤ maxU32 ∧ x = a + b := by
  unfold eraAdd; split <;> simp_all [eq_comm]

/-- `staking_to_liquid`, lib.rs:2121-2125. -/
def toLiquid (rate m : Nat) : R Nat := okOr ((fixDiv DIV rate).bind (fun r => fixMulInt r m)) .invalidExchangeRate
/-- `liquid_to_staking`, lib.rs:2127-2129. -/
def toStaking (rate m : Nat) : R Nat := okOr (fixMulInt rate m) .invalidExchangeRate

/-- `target_era`, lib.rs:1194-1198. -/
def targetEra (c : Cfg) (s : State) : R Nat := do
  let e ← eraAdd s.era c.bonding
  eraAdd e 1

/-- `get_total_unclaimed`, lib.rs:1215-1219. -/
def unclaimed (c : Cfg) (s : State) : Nat := s.tok.reducible c.staking c.acct false - s.reserves - s.pool.stake.total

/-- `total_bonded_of`, lib.rs:1235-1237. -/
def totalOf (s : State) (i : Nat) : Nat := match s.ledgers i with
  | some l => l.total
  | none => 0
/-- `active_bonded_of`, lib.rs:1239-1241. -/
def activeOf (s : State) (i : Nat) : Nat := match s.ledgers i with
  | some l => l.active
  | none => 0
/-- `unbonding_of`, lib.rs:1243-1247. -/
def unbondingOf (s : State) (i : Nat) : Nat := match s.ledgers i with
  | some l => l.total - l.active
  | none => 0
/-- `unbonded_of`, lib.rs:1249-1260. -/
def unbondedOf (s : State) (i : Nat) : Nat := match s.ledgers i with
  | some l => l.unlocking.foldl (fun acc ch => if ch.era ≤ s.era then satAdd acc ch.value else acc) 0
  | none => 0

/-- A saturating sum over the staking ledgers. -/
def satSum (f : Nat → Nat) (xs : List Nat) : Nat := xs.foldl (fun acc i => satAdd acc (f i)) 0
/-- `get_total_unbonding`, lib.rs:1262-1266. -/
def totalUnbonding (c : Cfg) (s : State) : Nat := satSum (unbondingOf s) c.indices
/-- `get_total_bonded`, lib.rs:1268-1271. -/
def totalBonded (c : Cfg) (s : State) : Nat := satSum (totalOf s) c.indices
/-- `get_total_active_bonded`, lib.rs:1273-1277. -/
def totalActive (c : Cfg) (s : State) : Nat := satSum (activeOf s) c.indices
/-- `get_market_cap`, lib.rs:1279-1282. -/
def marketCap (c : Cfg) (s : State) : Nat := min maxU128 (s.cap * c.indices.length)
/-- `offset`, lib.rs:1227-1233. -/
def eraOffset (c : Cfg) (s : State) : Nat :=
  if s.relayBlock < s.eraStart ∨ c.eraLength = 0 then 0 else (s.relayBlock - s.eraStart) / c.eraLength

/-- `ensure_market_cap`, lib.rs:2015-2021. -/
def ensureMarketCap (c : Cfg) (s : State) (m : Nat) : R Unit :=
  ensure (satAdd (totalBonded c s) m ≤ marketCap c s) .capExceeded
/-- `ensure_staking_ledger_cap`, lib.rs:2023-2033. -/
def ensureLedgerCap (s : State) (i m : Nat) : R Unit := ensure (satAdd (totalOf s i) m ≤ s.cap) .capExceeded

/-! ### Staking and unstaking -/

/-- `stake`, lib.rs:475-524; `add_xcm_fees`, xcm-helper/src/lib.rs:334-343. -/
def stake (c : Cfg) (s : State) (w m : Nat) : R State := do
  ensure (c.minStake ≤ m) .stakeTooSmall
  let a ← csub .underflow m c.xcmFees
  let l ← s.tok.transfer c.staking w c.acct a false
  let l ← l.transfer c.staking w c.xcmAcct c.xcmFees false
  let a ← csub .underflow a (pmulFloor s.rf m)
  let q ← toLiquid s.rate a
  ensureMarketCap c s a
  let l ← l.mint c.liquid w q
  let h ← s.pool.stake.add a
  let t ← cadd .overflow s.reserves (pmulFloor s.rf m)
  pure { s.setTok l with
    pool := { s.pool with stake := h },
    reserves := t,
    log := .staked w a :: s.log }

/-- `T::Loans::get_market_info(asset)?.collateral_factor`, loans/src/lib.rs:2230-2241, 2264-2273: only jump
rate models have a full rate. -/
def collFactor (s : State) (a : Nat) : R Nat := do
  let m ← Loans.market s.lo a
  match m.model with
  | .jump _ _ _ _ => .ok m.cf
  | .curve _ => .error .invalidRateModelParam

/-- `let _ = T::Loans::do_collateral_asset(..)`: the error is ignored. -/
def tryCollateral (c : Cfg) (x : Loans.State) : Loans.State :=
  commit x (Loans.setCollateral c.lo x c.acct c.collateral true)

/-- `do_loans_instant_unstake`, lib.rs:1884-1905. -/
def instantUnstake (c : Cfg) (s : State) (w m : Nat) : R State := do
  let f ← okOr (fixMulInt c.instantFee m) .overflow
  let b ← csub .underflow m f
  let cf ← collFactor s c.collateral
  let k ← precipCeil cf m
  let l ← s.tok.mint c.collateral c.acct k
  let x ← Loans.mint c.lo { s.lo with ledger := l } c.acct c.collateral k
  let x ← Loans.borrow c.lo (tryCollateral c x) c.acct c.staking b
  let l ← x.ledger.transfer c.staking c.acct w b false
  pure { s with lo := { x with ledger := l } }

/-- The fast path of `unstake`, lib.rs:558-566. -/
def requestFast (c : Cfg) (s : State) (w q : Nat) : State :=
  { s with fast := upd s.fast w (some (min (satAdd ((s.fast w).getD 0) q) (s.tok.reducible c.liquid w false))) }

/-- `if unstake_provider.is_loans() { .. }`, lib.rs:594-596. -/
def viaLoans (c : Cfg) (s : State) (w m : Nat) (p : Provider) : R State :=
  if p = .loans then instantUnstake c s w m else .ok s

/-- `unlockings_key`, lib.rs:572-576. -/
def unlockKey (c : Cfg) (w : Nat) (p : Provider) : Nat := if p = .loans then c.loansAcct else w

/-- The slow path of `unstake`, lib.rs:570-613. -/
def unstakeSlow (c : Cfg) (s : State) (w q r : Nat) (p : Provider) : R State := do
  let m ← toStaking s.rate (q - r)
  let e ← targetEra c s
  ensure ((pushChunk ((s.unlockings (unlockKey c w p)).getD []) m e).length ≤ 32) .noMoreChunks
  let l ← s.tok.burn c.liquid w q
  let l ← l.mint c.liquid c.acct r
  let s ← viaLoans c { s.setTok l with
    unlockings := upd s.unlockings (unlockKey c w p)
      (some (pushChunk ((s.unlockings (unlockKey c w p)).getD []) m e)) } w m p
  let h ← s.pool.unstake.add m
  pure { s with pool := { s.pool with unstake := h }, log := .unstaked (unlockKey c w p) m :: s.log }

/-- `unstake`, lib.rs:534-614. -/
def unstake (c : Cfg) (s : State) (w q : Nat) (p : Provider) : R State := do
  ensure (c.minUnstake ≤ q) .unstakeTooSmall
  let t ← cadd .overflow s.ureserves (pmulFloor s.urf q)
  let _ ← csub .underflow q (pmulFloor s.urf q)
  if p = .pool then .ok (requestFast c { s with ureserves := t } w (q - pmulFloor s.urf q))
  else unstakeSlow c { s with ureserves := t } w q (pmulFloor s.urf q) p

/-- `cancel_unstake`, lib.rs:1022-1037. -/
def cancelUnstake (c : Cfg) (s : State) (w m : Nat) : R State :=
  .ok { s with fast := upd s.fast w (some (min ((s.fast w).getD 0) (s.tok.reducible c.liquid w false) - m)) }

/-- `amount += chunk.value` over the due chunks, lib.rs:792-799: the sum panics on overflow. -/
def sumDue (era : Nat) : List Chunk → R Nat
  | [] => .ok 0
  | ch :: xs => do
    let t ← sumDue era xs
    if ch.era ≤ era then cadd .panic ch.value t else .ok t

/-- `do_claim_for` for the lending pallet, lib.rs:1863-1876. -/
def claimLoans (c : Cfg) (s : State) (m : Nat) : R State := do
  let x ← Loans.accrue c.lo s.lo c.staking
  let d ← Loans.debt x c.staking c.acct
  let x ← Loans.repay c.lo x c.acct c.staking (min d m)
  let cf ← collFactor { s with lo := x } c.collateral
  let k ← precipCeil cf m
  let y ← Loans.doRedeem c.lo x c.acct c.collateral k
  let l ← y.1.ledger.burn c.collateral c.acct k
  pure { s with lo := { y.1 with ledger := l } }

/-- `do_claim_for`, lib.rs:1858-1881. -/
def payClaim (c : Cfg) (s : State) (w m : Nat) : R State :=
  if w = c.loansAcct then claimLoans c s m
  else do
    let l ← s.tok.transfer c.staking c.acct w m false
    pure (s.setTok l)

/-- The chunks that stay, `None` if there are none left, lib.rs:792-799 and 820-822. -/
def retained (era : Nat) (xs : List Chunk) : Option (List Chunk) :=
  if xs.filter (fun ch => decide (era < ch.era)) = [] then none
  else some (xs.filter (fun ch => decide (era < ch.era)))

/-- `claim_for`, lib.rs:781-830. -/
def claimFor (c : Cfg) (s : State) (w : Nat) : R State := do
  let xs ← okOr (s.unlockings w) .noUnlockings
  let m ← sumDue s.era xs
  ensure (m ≠ 0) .nothingToClaim
  ensure (m ≤ unclaimed c s) .notWithdrawn
  let s1 ← payClaim c s w m
  pure { s1 with
    unlockings := upd s.unlockings w (retained s.era xs),
    log := .claimed w m :: s.log }

/-! ### Fast unstaking through the matching pool -/

/-- The match itself, lib.rs:1954-1984. -/
def settleFast (c : Cfg) (s : State) (w q : Nat) : R State := do
  let f := fixSatMul c.fastFee q
  let l ← s.tok.burn c.liquid w (q - f)
  let l ← l.transfer c.liquid w c.feeRecv f false
  let m ← toStaking s.rate (q - f)
  let h ← s.pool.stake.sub m
  let l ← l.transfer c.staking c.acct w m false
  pure { s.setTok l with pool := { s.pool with stake := h } }

/-- `if !matched_liquid_amount.is_zero() { .. }`, lib.rs:1954-1984. -/
def trySettle (c : Cfg) (s : State) (w q : Nat) : R State := if q = 0 then .ok s else settleFast c s w q

/-- The unmatched rest of a request, lib.rs:1986-1989. -/
def restOf (q : Nat) : Option Nat := if q = 0 then none else some q

/-- `do_fast_match_unstake` for an account with a request of `q`, capped by its balance, lib.rs:1936-2002. -/
def fastMatchOf (c : Cfg) (s : State) (w q : Nat) : R State := do
  let f ← s.pool.stake.free
  let a ← toLiquid s.rate f
  let s1 ← trySettle c s w (min q a)
  pure { s1 with fast := upd s.fast w (restOf (q - min q a)) }

/-- `do_fast_match_unstake`, lib.rs:1936-2002. -/
def fastMatch (c : Cfg) (s : State) (w : Nat) : R State := match s.fast w with
  | none => .ok s
  | some b => fastMatchOf c s w (min b (s.tok.reducible c.liquid w false))

/-- `fast_match_unstake`, lib.rs:1069-1078. -/
def fastMatchAll (c : Cfg) : State → List Nat → R State
  | s, [] => .ok s
  | s, w :: ws => do
    let s ← fastMatch c s w
    fastMatchAll c s ws

/-! ### Requests to the relay chain -/

/-- Kind of a request, selecting its XCM fee. -/
def Req.kind : Req → Nat
  | .bond _ _ => 0
  | .bondExtra _ _ => 1
  | .unbond _ _ => 2
  | .rebond _ _ => 3
  | .withdraw _ => 4
  | .nominate _ => 5

/-- Send a request: the XCM helper burns the fee from its account, registers a query and hands the message to
the sender (xcm-helper/src/lib.rs:345-372, 574-839), then `XcmRequests::insert`. -/
def send (c : Cfg) (s : State) (r : Req) : R State := do
  let l ← (match s.tok.burn c.staking c.xcmAcct (s.fee r.kind) with
    | .ok l => .ok l
    | .error _ => .error .insufficientXcmFees)
  ensure (s.link = true) .sendFailure
  pure { s.setTok l with reqs := s.reqs ++ [(s.nextId, r)], nextId := s.nextId + 1 }

/-- `do_bond_extra`, lib.rs:1347-1394. -/
def doBondExtra (c : Cfg) (s : State) (i m : Nat) : R State :=
  if m = 0 then .ok s
  else do
    ensure (i ∈ c.indices) .invalidDerivativeIndex
    ensure ((s.ledgers i).isSome) .notBonded
    ensureLedgerCap s i m
    let h ← s.pool.stake.lock m
    send c { s with pool := { s.pool with stake := h } } (.bondExtra i m)

/-- `do_bond`, lib.rs:1285-1344. -/
def doBond (c : Cfg) (s : State) (i m : Nat) : R State :=
  if m = 0 then .ok s
  else if (s.ledgers i).isSome then doBondExtra c s i m
  else do
    ensure (i ∈ c.indices) .invalidDerivativeIndex
    ensure (c.minBond ≤ m) .insufficientBond
    ensureLedgerCap s i m
    let h ← s.pool.stake.lock m
    send c { s with pool := { s.pool with stake := h } } (.bond i m)

/-- `do_unbond`, lib.rs:1397-1442. -/
def doUnbond (c : Cfg) (s : State) (i m : Nat) : R State :=
  if m = 0 then .ok s
  else do
    ensure (i ∈ c.indices) .invalidDerivativeIndex
    let l ← okOr (s.ledgers i) .notBonded
    ensure (l.unlocking.length < 32) .noMoreChunks
    ensure (c.minBond ≤ l.active - m) .insufficientBond
    let h ← s.pool.unstake.lock m
    send c { s with pool := { s.pool with unstake := h } } (.unbond i m)

/-- `do_rebond`, lib.rs:1445-1483. -/
def doRebond (c : Cfg) (s : State) (i m : Nat) : R State :=
  if m = 0 then .ok s
  else do
    ensure (i ∈ c.indices) .invalidDerivativeIndex
    ensure ((s.ledgers i).isSome) .notBonded
    let h ← s.pool.stake.lock m
    send c { s with pool := { s.pool with stake := h } } (.rebond i m)

/-- `do_withdraw_unbonded`, lib.rs:1486-1531. -/
def doWithdraw (c : Cfg) (s : State) (i : Nat) : R State :=
  if unbondedOf s i = 0 then .ok s
  else do
    ensure (i ∈ c.indices) .invalidDerivativeIndex
    ensure ((s.ledgers i).isSome) .notBonded
    send c s (.withdraw i)

/-- `do_nominate`, lib.rs:1534-1570. -/
def doNominate (c : Cfg) (s : State) (i : Nat) : R State := do
  ensure (i ∈ c.indices) .invalidDerivativeIndex
  ensure ((s.ledgers i).isSome) .notBonded
  send c s (.nominate i)

/-- `for (index, amount) in distributions { f(index, amount)?; }`. -/
def forEach {α : Type} (f : State → α → R State) : State → List α → R State
  | s, [] => .ok s
  | s, x :: xs => do
    let s ← f s x
    forEach f s xs

/-- `do_multi_bond`, lib.rs:1573-1604. -/
def multiBond (c : Cfg) (s : State) (m : Nat) : R State :=
  if m = 0 then .ok s
  else forEach (fun s (x : Nat × Nat) => doBond c s x.1 x.2) s
    (c.strategy.bond (c.indices.map (fun i => (i, activeOf s i, totalOf s i))) m s.cap c.minBond)

/-- `do_multi_unbond`, lib.rs:1607-1627. -/
def multiUnbond (c : Cfg) (s : State) (m : Nat) : R State :=
  if m = 0 then .ok s
  else forEach (fun s (x : Nat × Nat) => doUnbond c s x.1 x.2) s
    (c.strategy.unbond (c.indices.map (fun i => (i, activeOf s i))) m c.minBond)

/-- `do_multi_rebond`, lib.rs:1630-1647. -/
def multiRebond (c : Cfg) (s : State) (m : Nat) : R State :=
  if m = 0 then .ok s
  else forEach (fun s (x : Nat × Nat) => doRebond c s x.1 x.2) s
    (c.strategy.rebond (c.indices.map (fun i => (i, unbondingOf s i))) m)

/-- `do_multi_withdraw_unbonded`, lib.rs:1650-1656. -/
def multiWithdraw (c : Cfg) (s : State) : R State :=
  forEach (fun s i => doWithdraw c s i) s (c.indices.filter (fun i => (s.ledgers i).isSome))

/-- `do_matching`, lib.rs:1801-1830. -/
def doMatching (c : Cfg) (s : State) : R State := do
  let x ← s.pool.matching (totalUnbonding c s)
  let s ← multiBond c { s with matched := true } x.1
  let s ← multiRebond c s x.2.1
  let s ← multiUnbond c s x.2.2
  multiWithdraw c s

/-! ### Responses from the relay chain -/

/-- `do_update_ledger`, lib.rs:1784-1798, for a ledger update without other effects. -/
def updLedger (s : State) (i : Nat) (f : SLedger → R SLedger) : R State := do
  let l ← okOr (s.ledgers i) .notBonded
  let l ← f l
  pure { s with ledgers := upd s.ledgers i (some l), updated := upd s.updated i true }

/-- The `WithdrawUnbonded` branch, lib.rs:1738-1749. -/
def applyWithdraw (c : Cfg) (s : State) (i : Nat) : R State := do
  let l ← okOr (s.ledgers i) .notBonded
  let t ← s.tok.mint c.staking c.acct (l.total - (l.consolidate s.era).total)
  updLedger (s.setTok t) i (fun l => .ok (l.consolidate s.era))

/-- The branches of `do_notification_received` for an executed request, lib.rs:1674-1751. -/
def applyReq (c : Cfg) (s : State) : Req → R State
  | .bond i m => do
    ensure ((s.ledgers i).isNone) .alreadyBonded
    let p ← s.pool.consolidateStake m
    let l ← s.tok.burn c.staking c.acct m
    pure { s.setTok l with ledgers := upd s.ledgers i (some (.new m)), pool := p }
  | .bondExtra i m => do
    let s ← updLedger s i (fun l => l.bondExtra m)
    let p ← s.pool.consolidateStake m
    let l ← s.tok.burn c.staking c.acct m
    pure { s.setTok l with pool := p }
  | .unbond i m => do
    let e ← eraAdd s.era c.bonding
    let s ← updLedger s i (fun l => l.unbond m e)
    let p ← s.pool.consolidateUnstake m
    pure { s with pool := p }
  | .rebond i m => do
    let s ← updLedger s i (fun l => l.rebond m)
    let p ← s.pool.consolidateStake m
    pure { s with pool := p }
  | .withdraw i => applyWithdraw c s i
  | .nominate _ => .ok s

/-- `xcm_request(query_id)`. -/
def findReq (xs : List (Nat × Req)) (q : Nat) : Option Req := (xs.find? (fun x => x.1 == q)).map Prod.snd

/-- `notification_received`, lib.rs:753-774, and `do_notification_received`, lib.rs:1659-1754, for execution
results; `ok` says that the relay chain executed the request without error. -/
def notify (c : Cfg) (s : State) (q : Nat) (ok : Bool) : R State := match findReq s.reqs q with
  | none => .ok s
  | some r =>
    if ok = false then .ok s
    else do
      let s ← applyReq c s r
      pure { s with reqs := s.reqs.filter (fun x => x.1 != q) }

/-! ### Eras and the exchange rate -/

/-- `do_update_exchange_rate`, lib.rs:1757-1781: the new rate. -/
def newRate (c : Cfg) (s : State) : R Nat :=
  if s.tok.iss c.liquid = 0 then .ok s.rate
  else do
    let a ← cadd .overflow (totalActive c s) s.pool.stake.total
    let a ← csub .overflow a s.pool.unstake.total
    let r ← okOr (fixFromRational a (s.tok.iss c.liquid)) .invalidExchangeRate
    pure (if s.rate < r then r else s.rate)

/-- `do_advance_era`, lib.rs:1833-1855: errors of the rate update are ignored. -/
def advanceEra (c : Cfg) (s : State) (n : Nat) : State :=
  if n = 0 then s
  else { s with
    eraStart := s.relayBlock,
    era := min maxU32 (s.era + n),
    rate := commit s.rate (newRate c s),
    matched := false }

/-- The first half of the closure of `on_initialize`, lib.rs:1146-1153. -/
def initMatching (c : Cfg) (s : State) : R State :=
  if s.matched = false ∧ min maxU32 (c.solutionOffset + s.eraStart) ≤ s.relayBlock then doMatching c s else .ok s

/-- The closure of `on_initialize`, lib.rs:1145-1161. -/
def initBlock (c : Cfg) (s : State) : R State := do
  let s ← initMatching c s
  pure (advanceEra c s (eraOffset c s))

/-- `on_initialize`, lib.rs:1141-1167: errors roll everything back. -/
def onInit (c : Cfg) (s : State) : State := commit s (initBlock c s)

/-- `on_finalize`, lib.rs:1169-1174. -/
def onFinalize (s : State) : State := { s with updated := fun _ => false }

/-- `get_inflate_liquid_amount`, lib.rs:1908-1933. -/
def inflate (c : Cfg) (s : State) (rewards : Nat) : R Nat :=
  if s.tok.iss c.liquid = 0 ∨ s.commission = 0 ∨ rewards = 0 then .ok 0
  else do
    let a ← cadd .overflow (totalActive c s) s.pool.stake.total
    let a ← csub .overflow a s.pool.unstake.total
    let k := fixSatMul s.commission rewards
    pure (fixSatMul ((fixFromRational k (satAdd a rewards - k)).getD 0) (s.tok.iss c.liquid))

/-- `set_staking_ledger`, lib.rs:935-984.  A proof is valid only for the value in the relay chain's storage
(`verify_merkle_proof`, lib.rs:2042-2073). -/
def setLedger (c : Cfg) (s : State) (i : Nat) (n : SLedger) (proof : Bool) : R State := do
  let l ← okOr (s.ledgers i) .notBonded
  ensure (s.updated i = false ∧ s.reqs = []) .stakingLedgerLocked
  ensure (l.total < n.total ∧ l.active < n.active ∧ n.unlocking = l.unlocking) .invalidStakingLedger
  ensure (proof = true ∧ s.relayLedger i = some n) .invalidProof
  let q ← inflate c s (n.total - l.total)
  let t ← s.tok.mint c.liquid c.feeRecv q
  updLedger (s.setTok t) i (fun _ => .ok n)

/-- `force_set_staking_ledger`, lib.rs:887-905. -/
def forceLedger (s : State) (i : Nat) (n : SLedger) : R State := do
  let _ ← okOr (s.ledgers i) .notBonded
  ensure (s.updated i = false ∧ s.reqs = []) .stakingLedgerLocked
  updLedger s i (fun _ => .ok n)

/-- `set_current_era`, lib.rs:911-929. -/
def setEra (c : Cfg) (s : State) (e : Nat) (proof : Bool) : R State := do
  ensure (proof = true ∧ s.relayEra = e) .invalidProof
  pure (advanceEra c s (e - s.era))

/-! ### Governance -/

/-- `reduce_reserves`, lib.rs:990-1016. -/
def reduceReserves (c : Cfg) (s : State) (recv m : Nat) : R State := do
  let t ← csub .underflow s.reserves m
  let l ← s.tok.transfer c.staking c.acct recv m false
  pure { s.setTok l with reserves := t }

/-- `reduce_unstake_reserves`, lib.rs:1110-1136. -/
def reduceUReserves (c : Cfg) (s : State) (recv m : Nat) : R State := do
  let t ← csub .underflow s.ureserves m
  let l ← s.tok.transfer c.liquid c.acct recv m false
  pure { s.setTok l with ureserves := t }

/-- `update_reserve_factor`, lib.rs:620-640. -/
def setRf (s : State) (p : Nat) : R State := do
  ensure (0 < p ∧ p < million) .invalidFactor
  pure { s with rf := p }

/-- `update_unstake_reserve_factor`, lib.rs:1084-1104. -/
def setUrf (s : State) (p : Nat) : R State := do
  ensure (p < million) .invalidFactor
  pure { s with urf := p }

/-- `update_staking_ledger_cap`, lib.rs:646-662. -/
def setCap (s : State) (m : Nat) : R State := do
  ensure (m ≠ 0) .invalidCap
  pure { s with cap := m }

/-- `update_commission_rate`, lib.rs:1043-1063. -/
def setCommission (s : State) (r : Nat) : R State := do
  ensure (0 < r ∧ r < DIV) .invalidCommissionRate
  pure { s with commission := r }

/-- The dispatchable calls, lib.rs:465-1137, and the block hooks, lib.rs:1140-1175. -/
inductive Call where
  | stake (w m : Nat)
  | unstake (w q : Nat) (p : Provider)
  | cancelUnstake (w m : Nat)
  | claimFor (w : Nat)
  | fastMatch (ws : List Nat)
  | bond (i m : Nat)
  | bondExtra (i m : Nat)
  | unbond (i m : Nat)
  | rebond (i m : Nat)
  | withdraw (i : Nat)
  | nominate (i : Nat)
  | notify (q : Nat) (ok : Bool)
  | setEraStart (b : Nat)
  | forceEra (e : Nat)
  | forceAdvance (n : Nat)
  | forceMatching
  | forceLedger (i : Nat) (l : SLedger)
  | setEra (e : Nat) (proof : Bool)
  | setLedger (i : Nat) (l : SLedger) (proof : Bool)
  | reduceReserves (recv m : Nat)
  | reduceUReserves (recv m : Nat)
  | setRf (p : Nat)
  | setUrf (p : Nat)
  | setCap (m : Nat)
  | setCommission (r : Nat)
  | onInit
  | onFinalize

/-- Dispatch of the calls, lib.rs:465-1175. -/
def exec (c : Cfg) (s : State) : Call → R State
  | .stake w m => stake c s w m
  | .unstake w q p => unstake c s w q p
  | .cancelUnstake w m => cancelUnstake c s w m
  | .claimFor w => claimFor c s w
  | .fastMatch ws => fastMatchAll c s ws
  | .bond i m => doBond c s i m
  | .bondExtra i m => doBondExtra c s i m
  | .unbond i m => doUnbond c s i m
  | .rebond i m => doRebond c s i m
  | .withdraw i => doWithdraw c s i
  | .nominate i => doNominate c s i
  | .notify q ok => notify c s q ok
  | .setEraStart b => .ok { s with eraStart := b }
  | .forceEra e => .ok { s with matched := false, era := e }
  | .forceAdvance n => .ok (advanceEra c s n)
  | .forceMatching => doMatching c s
  | .forceLedger i l => forceLedger s i l
  | .setEra e proof => setEra c s e proof
  | .setLedger i l proof => setLedger c s i l proof
  | .reduceReserves recv m => reduceReserves c s recv m
  | .reduceUReserves recv m => reduceUReserves c s recv m
  | .setRf p => setRf s p
  | .setUrf p => setUrf s p
  | .setCap m => setCap s m
  | .setCommission r => setCommission s r
  | .onInit => .ok (onInit c s)
  | .onFinalize => .ok (onFinalize s)

end Verif.Staking
