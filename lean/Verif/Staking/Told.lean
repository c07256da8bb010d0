import Verif.Staking.Fixture

/-!
# C237: the events of liquid staking tell what happened

`execE` is `exec` (Staking/Model.lean) that also returns the deposited events; `C237_same` says that the two agree.
Events of other pallets are not modelled.  `Bonding` also carries the derivative account and the reward destination,
`WithdrawingUnbonded` the number of slashing spans, `Nominating` the validators: they are left out.
-/

namespace Verif.Staking
open Verif

variable {c : Cfg} {s s' : State}

/-- `Event` (`pallets/liquid-staking/src/lib.rs:232-291`), fields in the order of the source; `sent` stands for the six events
`Bonding`, `BondingExtra`, `Unbonding`, `Rebonding`, `WithdrawingUnbonded` and `Nominating`. -/
inductive Told where
  | staked (who m : Nat)
  | unstaked (who q m : Nat)
  | ledger (i : Nat) (l : SLedger)
  | sent (r : Req)
  | cap (m : Nat)
  | rf (p : Nat)
  | rate (r : Nat)
  | notified (q : Nat) (ok : Bool)
  | claimed (who m : Nat)
  | era (e : Nat)
  | matching (b r u : Nat)
  | reduced (recv m : Nat)
  | cancelled (who a b : Nat)
  | commission (r : Nat)
  | fastMatched (who m q f : Nat)
  | urf (p : Nat)
  | ureduced (recv m : Nat)

/-! ## The calls with their events -/

/-- `stake` with its event (`lib.rs:475-524`): the amount after fees and reserves. -/
def stakeE (c : Cfg) (s : State) (w m : Nat) : R (State × List Told) := do
  ensure (c.minStake ≤ m) .stakeTooSmall
  let a ← csub .underflow m c.xcmFees
  let l ← s.tok.transfer c.staking w c.acct a false
  let l ← l.transfer c.staking w c.xcmAcct c.xcmFees false
  let a ← csub .underflow a (pmulFloor s.rf m)
  let q ← toLiquid s.rate a
  ensureMarketCap c s a
  let l ← l.mint c.liquid w q
  let h ← s.pool.stake.add a
  let t ← cadd .overflow s.reserves (pmulFloor s.rf m)
  pure ({ s.setTok l with
    pool := { s.pool with stake := h },
    reserves := t,
    log := .staked w a :: s.log }, [.staked w a])

/-- The slow path of `unstake` with its event (`lib.rs:570-613`): all of the liquid currency, and the staking currency to
come. -/
def unstakeSlowE (c : Cfg) (s : State) (w q r : Nat) (p : Provider) : R (State × List Told) := do
  let m ← toStaking s.rate (q - r)
  let s ← unstakeSlow c s w q r p
  pure (s, [.unstaked w q m])

/-- `unstake` with its event (`lib.rs:534-614`): the fast path returns without one. -/
def unstakeE (c : Cfg) (s : State) (w q : Nat) (p : Provider) : R (State × List Told) := do
  ensure (c.minUnstake ≤ q) .unstakeTooSmall
  let t ← cadd .overflow s.ureserves (pmulFloor s.urf q)
  let _ ← csub .underflow q (pmulFloor s.urf q)
  if p = .pool then .ok (requestFast c { s with ureserves := t } w (q - pmulFloor s.urf q), [])
  else unstakeSlowE c { s with ureserves := t } w q (pmulFloor s.urf q) p

/-- `claim_for` with its event (`lib.rs:781-830`). -/
def claimForE (c : Cfg) (s : State) (w : Nat) : R (State × List Told) := do
  let xs ← okOr (s.unlockings w) .noUnlockings
  let m ← sumDue s.era xs
  ensure (m ≠ 0) .nothingToClaim
  ensure (m ≤ unclaimed c s) .notWithdrawn
  let s1 ← payClaim c s w m
  pure ({ s1 with
    unlockings := upd s.unlockings w (retained s.era xs),
    log := .claimed w m :: s.log }, [.claimed w m])

/-- The match of a fast unstake with its event (`lib.rs:1954-1984`). -/
def settleFastE (c : Cfg) (s : State) (w q : Nat) : R (State × List Told) := do
  let f := fixSatMul c.fastFee q
  let l ← s.tok.burn c.liquid w (q - f)
  let l ← l.transfer c.liquid w c.feeRecv f false
  let m ← toStaking s.rate (q - f)
  let h ← s.pool.stake.sub m
  let l ← l.transfer c.staking c.acct w m false
  pure ({ s.setTok l with pool := { s.pool with stake := h } }, [.fastMatched w m q f])

/-- No event if nothing is matched (`lib.rs:1954-1984`). -/
def trySettleE (c : Cfg) (s : State) (w q : Nat) : R (State × List Told) :=
  if q = 0 then .ok (s, []) else settleFastE c s w q

/-- `do_fast_match_unstake` for an account with a request (`lib.rs:1936-2002`). -/
def fastMatchOfE (c : Cfg) (s : State) (w q : Nat) : R (State × List Told) := do
  let f ← s.pool.stake.free
  let a ← toLiquid s.rate f
  let (s1, es) ← trySettleE c s w (min q a)
  pure ({ s1 with fast := upd s.fast w (restOf (q - min q a)) }, es)

/-- `do_fast_match_unstake` (`lib.rs:1936-2002`). -/
def fastMatchE (c : Cfg) (s : State) (w : Nat) : R (State × List Told) := match s.fast w with
  | none => .ok (s, [])
  | some b => fastMatchOfE c s w (min b (s.tok.reducible c.liquid w false))

/-- A loop, with the events of all rounds in order. -/
def forEachE {α : Type} (f : State → α → R (State × List Told)) : State → List α → R (State × List Told)
  | s, [] => .ok (s, [])
  | s, x :: xs => do
    let (s, es) ← f s x
    let (s, fs) ← forEachE f s xs
    pure (s, es ++ fs)

/-- `do_bond_extra` with its event (`lib.rs:1347-1394`): the last thing it does. -/
def doBondExtraE (c : Cfg) (s : State) (i m : Nat) : R (State × List Told) :=
  if m = 0 then .ok (s, [])
  else do
    let s ← doBondExtra c s i m
    pure (s, [.sent (.bondExtra i m)])

/-- `do_bond` with its event (`lib.rs:1285-1344`). -/
def doBondE (c : Cfg) (s : State) (i m : Nat) : R (State × List Told) :=
  if m = 0 then .ok (s, [])
  else if (s.ledgers i).isSome then doBondExtraE c s i m
  else do
    let s ← doBond c s i m
    pure (s, [.sent (.bond i m)])

/-- `do_unbond` with its event (`lib.rs:1397-1442`). -/
def doUnbondE (c : Cfg) (s : State) (i m : Nat) : R (State × List Told) :=
  if m = 0 then .ok (s, [])
  else do
    let s ← doUnbond c s i m
    pure (s, [.sent (.unbond i m)])

/-- `do_rebond` with its event (`lib.rs:1445-1483`). -/
def doRebondE (c : Cfg) (s : State) (i m : Nat) : R (State × List Told) :=
  if m = 0 then .ok (s, [])
  else do
    let s ← doRebond c s i m
    pure (s, [.sent (.rebond i m)])

/-- `do_withdraw_unbonded` with its event (`lib.rs:1486-1531`). -/
def doWithdrawE (c : Cfg) (s : State) (i : Nat) : R (State × List Told) :=
  if unbondedOf s i = 0 then .ok (s, [])
  else do
    let s ← doWithdraw c s i
    pure (s, [.sent (.withdraw i)])

/-- `do_nominate` with its event (`lib.rs:1534-1570`). -/
def doNominateE (c : Cfg) (s : State) (i : Nat) : R (State × List Told) := do
  let s ← doNominate c s i
  pure (s, [.sent (.nominate i)])

/-- `do_multi_bond` (`lib.rs:1573-1604`). -/
def multiBondE (c : Cfg) (s : State) (m : Nat) : R (State × List Told) :=
  if m = 0 then .ok (s, [])
  else forEachE (fun s (x : Nat × Nat) => doBondE c s x.1 x.2) s
    (c.strategy.bond (c.indices.map (fun i => (i, activeOf s i, totalOf s i))) m s.cap c.minBond)

/-- `do_multi_unbond` (`lib.rs:1607-1627`). -/
def multiUnbondE (c : Cfg) (s : State) (m : Nat) : R (State × List Told) :=
  if m = 0 then .ok (s, [])
  else forEachE (fun s (x : Nat × Nat) => doUnbondE c s x.1 x.2) s
    (c.strategy.unbond (c.indices.map (fun i => (i, activeOf s i))) m c.minBond)

/-- `do_multi_rebond` (`lib.rs:1630-1647`). -/
def multiRebondE (c : Cfg) (s : State) (m : Nat) : R (State × List Told) :=
  if m = 0 then .ok (s, [])
  else forEachE (fun s (x : Nat × Nat) => doRebondE c s x.1 x.2) s
    (c.strategy.rebond (c.indices.map (fun i => (i, unbondingOf s i))) m)

/-- `do_multi_withdraw_unbonded` (`lib.rs:1650-1656`). -/
def multiWithdrawE (c : Cfg) (s : State) : R (State × List Told) :=
  forEachE (fun s i => doWithdrawE c s i) s (c.indices.filter (fun i => (s.ledgers i).isSome))

/-- `do_matching` with its event (`lib.rs:1801-1830`). -/
def doMatchingE (c : Cfg) (s : State) : R (State × List Told) := do
  let x ← s.pool.matching (totalUnbonding c s)
  let (s, e1) ← multiBondE c { s with matched := true } x.1
  let (s, e2) ← multiRebondE c s x.2.1
  let (s, e3) ← multiUnbondE c s x.2.2
  let (s, e4) ← multiWithdrawE c s
  pure (s, e1 ++ e2 ++ e3 ++ e4 ++ [.matching x.1 x.2.1 x.2.2])

/-- `do_update_ledger` with its event (`lib.rs:1784-1798`). -/
def updLedgerE (s : State) (i : Nat) (f : SLedger → R SLedger) : R (State × List Told) := do
  let l ← okOr (s.ledgers i) .notBonded
  let l ← f l
  pure ({ s with ledgers := upd s.ledgers i (some l), updated := upd s.updated i true }, [.ledger i l])

/-- The branches of `do_notification_received` (`lib.rs:1674-1751`): the ledger of a first bond is stored without an event. -/
def applyReqE (c : Cfg) (s : State) : Req → R (State × List Told)
  | .bond i m => do
    let s ← applyReq c s (.bond i m)
    pure (s, [])
  | .bondExtra i m => do
    let (s, es) ← updLedgerE s i (fun l => l.bondExtra m)
    let p ← s.pool.consolidateStake m
    let l ← s.tok.burn c.staking c.acct m
    pure ({ s.setTok l with pool := p }, es)
  | .unbond i m => do
    let e ← eraAdd s.era c.bonding
    let (s, es) ← updLedgerE s i (fun l => l.unbond m e)
    let p ← s.pool.consolidateUnstake m
    pure ({ s with pool := p }, es)
  | .rebond i m => do
    let (s, es) ← updLedgerE s i (fun l => l.rebond m)
    let p ← s.pool.consolidateStake m
    pure ({ s with pool := p }, es)
  | .withdraw i => do
    let l ← okOr (s.ledgers i) .notBonded
    let t ← s.tok.mint c.staking c.acct (l.total - (l.consolidate s.era).total)
    updLedgerE (s.setTok t) i (fun l => .ok (l.consolidate s.era))
  | .nominate _ => .ok (s, [])

/-- `notification_received` with its event (`lib.rs:753-774`): every execution result is announced. -/
def notifyE (c : Cfg) (s : State) (q : Nat) (ok : Bool) : R (State × List Told) := match findReq s.reqs q with
  | none => .ok (s, [.notified q ok])
  | some r =>
    if ok = false then .ok (s, [.notified q ok])
    else do
      let (s, es) ← applyReqE c s r
      pure ({ s with reqs := s.reqs.filter (fun x => x.1 != q) }, es ++ [.notified q ok])

/-- The events of `do_advance_era` (`lib.rs:1833-1855`) and `do_update_exchange_rate` (`lib.rs:1757-1781`): the rate is
announced if it rises. -/
def advanceEraT (c : Cfg) (s : State) (n : Nat) : List Told :=
  if n = 0 then []
  else (if s.rate < commit s.rate (newRate c s) then [.rate (commit s.rate (newRate c s))] else []) ++
    [.era (min maxU32 (s.era + n))]

/-- The closure of `on_initialize` (`lib.rs:1145-1161`). -/
def initBlockE (c : Cfg) (s : State) : R (State × List Told) := do
  let (s, es) ← (if s.matched = false ∧ min maxU32 (c.solutionOffset + s.eraStart) ≤ s.relayBlock then doMatchingE c s
    else .ok (s, []))
  pure (advanceEra c s (eraOffset c s), es ++ advanceEraT c s (eraOffset c s))

/-- `set_staking_ledger` (`lib.rs:935-984`). -/
def setLedgerE (c : Cfg) (s : State) (i : Nat) (n : SLedger) (proof : Bool) : R (State × List Told) := do
  let l ← okOr (s.ledgers i) .notBonded
  ensure (s.updated i = false ∧ s.reqs = []) .stakingLedgerLocked
  ensure (l.total < n.total ∧ l.active < n.active ∧ n.unlocking = l.unlocking) .invalidStakingLedger
  ensure (proof = true ∧ s.relayLedger i = some n) .invalidProof
  let q ← inflate c s (n.total - l.total)
  let t ← s.tok.mint c.liquid c.feeRecv q
  updLedgerE (s.setTok t) i (fun _ => .ok n)

/-- `force_set_staking_ledger` (`lib.rs:887-905`). -/
def forceLedgerE (s : State) (i : Nat) (n : SLedger) : R (State × List Told) := do
  let _ ← okOr (s.ledgers i) .notBonded
  ensure (s.updated i = false ∧ s.reqs = []) .stakingLedgerLocked
  updLedgerE s i (fun _ => .ok n)

/-- Dispatch of a call, with the events it deposits (`lib.rs:465-1175`).  An error in `on_initialize` rolls the events back
as well; `force_set_era_start_block` and `force_set_current_era` (`lib.rs:836-856`) deposit none. -/
def execE (c : Cfg) (s : State) : Call → R (State × List Told)
  | .stake w m => stakeE c s w m
  | .unstake w q p => unstakeE c s w q p
  | .cancelUnstake w m => do
    let s ← cancelUnstake c s w m
    pure (s, [.cancelled w m m])
  | .claimFor w => claimForE c s w
  | .fastMatch ws => forEachE (fun s w => fastMatchE c s w) s ws
  | .bond i m => doBondE c s i m
  | .bondExtra i m => doBondExtraE c s i m
  | .unbond i m => doUnbondE c s i m
  | .rebond i m => doRebondE c s i m
  | .withdraw i => doWithdrawE c s i
  | .nominate i => doNominateE c s i
  | .notify q ok => notifyE c s q ok
  | .setEraStart b => .ok ({ s with eraStart := b }, [])
  | .forceEra e => .ok ({ s with matched := false, era := e }, [])
  | .forceAdvance n => .ok (advanceEra c s n, advanceEraT c s n)
  | .forceMatching => doMatchingE c s
  | .forceLedger i l => forceLedgerE s i l
  | .setEra e proof => do
    let s' ← setEra c s e proof
    pure (s', advanceEraT c s (e - s.era))
  | .setLedger i l proof => setLedgerE c s i l proof
  | .reduceReserves recv m => do
    let s ← reduceReserves c s recv m
    pure (s, [.reduced recv m])
  | .reduceUReserves recv m => do
    let s ← reduceUReserves c s recv m
    pure (s, [.ureduced recv m])
  | .setRf p => do
    let s ← setRf s p
    pure (s, [.rf p])
  | .setUrf p => do
    let s ← setUrf s p
    pure (s, [.urf p])
  | .setCap m => do
    let s ← setCap s m
    pure (s, [.cap m])
  | .setCommission r => do
    let s ← setCommission s r
    pure (s, [.commission r])
  | .onInit => .ok (commit (s, []) (initBlockE c s))
  | .onFinalize => .ok (onFinalize s, [])

/-! ## Specification -/

/-- What an observer notes down. -/
structure Notes where
  rate : Nat
  commission : Nat
  rf : Nat
  urf : Nat
  cap : Nat
  era : Nat
  ledgers : Nat → Option SLedger

/-- An observer who sees only the events, and takes them at their word. -/
def Notes.see (n : Notes) : Told → Notes
  | .rate r => { n with rate := r }
  | .commission r => { n with commission := r }
  | .rf p => { n with rf := p }
  | .urf p => { n with urf := p }
  | .cap m => { n with cap := m }
  | .era e => { n with era := e }
  | .ledger i l => { n with ledgers := upd n.ledgers i (some l) }
  | _ => n

/-- What the observer reads from the chain before the first event. -/
def Notes.of (s : State) : Notes := ⟨s.rate, s.commission, s.rf, s.urf, s.cap, s.era, s.ledgers⟩

/-- The notes after a list of events. -/
def Notes.after (n : Notes) (es : List Told) : Notes := es.foldl Notes.see n

/-- Histories from a fresh chain `s0` with the events of all calls, in order, and the calls. -/
inductive Heard (c : Cfg) (s0 : State) : State → List Told → List Call → Prop
  | init (h : Fresh c s0) : Heard c s0 s0 [] []
  | call {s s' : State} {es fs : List Told} {ks : List Call} (h : Heard c s0 s es ks) (k : Call) (hk : k.ok c s)
      (he : execE c s k = .ok (s', fs)) : Heard c s0 s' (es ++ fs) (ks ++ [k])
  | env {s s' : State} {es : List Told} {ks : List Call} (h : Heard c s0 s es ks) (e : Env c s s') : Heard c s0 s' es ks

/-- How much of asset `x` an event says `w` has given up. -/
def Told.paid (c : Cfg) (x w : Nat) : Told → Nat
  | .unstaked who q _ => if w = who ∧ x = c.liquid then q else 0
  | .fastMatched who _ q _ => if w = who ∧ x = c.liquid then q else 0
  | _ => 0

/-- How much of asset `x` an event says `w` has received. -/
def Told.got (c : Cfg) (x w : Nat) : Told → Nat
  | .claimed who m => if w = who ∧ x = c.staking then m else 0
  | .fastMatched who m _ _ => if w = who ∧ x = c.staking then m else 0
  | .reduced recv m => if w = recv ∧ x = c.staking then m else 0
  | .ureduced recv m => if w = recv ∧ x = c.liquid then m else 0
  | _ => 0

/-- `Staked` does not say what was paid in all and how much liquid currency was issued; `Unstaked` does not say whether the
staking currency was paid at once, through the lending pallet. -/
def Told.silent (c : Cfg) (x w : Nat) : Told → Prop
  | .staked who _ => w = who
  | .unstaked who _ _ => w = who ∧ x = c.staking
  | _ => False

/-- The request an event announces. -/
def Told.request : Told → Option Req
  | .sent r => some r
  | _ => none

/-- How much an event adds to, or takes from, the two halves of the matching pool and the reserves. -/
def Told.stakeIn : Told → Nat
  | .staked _ m => m
  | _ => 0
def Told.stakeOut : Told → Nat
  | .fastMatched _ m _ _ => m
  | _ => 0
def Told.unstakeIn : Told → Nat
  | .unstaked _ _ m => m
  | _ => 0

/-! ## The events are additional -/

theorem forEachE_same {α : Type} {f : State → α → R (State × List Told)} {g : State → α → R State}
    (h : ∀ s x, Prod.fst <$> f s x = g s x) : ∀ (xs : List α) (s : State), Prod.fst <$> forEachE f s xs = forEach g s xs
  | [], s => rfl
  | x :: xs, s => by
    unfold forEachE forEach
    rw [← h]
    cases hf : f s x with
    | error e => rfl
    | ok r =>
      obtain ⟨s1, es⟩ := r
      have ih := forEachE_same h xs s1
      show Prod.fst <$> ((forEachE f s1 xs).bind _) = forEach g s1 xs
      rw [← ih]
      cases forEachE f s1 xs <;> rfl

theorem fastMatchAll_forEach (c : Cfg) : ∀ (ws : List Nat) (s : State),
    fastMatchAll c s ws = forEach (fun s w => fastMatch c s w) s ws
  | [], s => rfl
  | w :: ws, s => by
    unfold fastMatchAll forEach
    cases fastMatch c s w with
    | error e => rfl
    | ok t => exact fastMatchAll_forEach c ws t

theorem trySettleE_same (c : Cfg) (s : State) (w q : Nat) : Prod.fst <$> trySettleE c s w q = trySettle c s w q := by
  unfold trySettleE trySettle
  split
  · rfl
  · simp only [settleFastE, settleFast, map_bind, map_pure]

theorem fastMatchE_same (c : Cfg) (s : State) (w : Nat) : Prod.fst <$> fastMatchE c s w = fastMatch c s w := by
  unfold fastMatchE fastMatch
  cases s.fast w with
  | none => rfl
  | some b =>
    simp only [fastMatchOfE, fastMatchOf, map_bind, map_pure]
    refine bind_congr fun f => bind_congr fun a => ?_
    rw [← trySettleE_same]
    cases trySettleE c s w (min (min b (s.tok.reducible c.liquid w false)) a) <;> rfl

theorem map_fst_pure (x : R State) (es : List Told) : Prod.fst <$> (do let s ← x; pure (s, es)) = x := by
  cases x <;> rfl

theorem doBondExtraE_same (c : Cfg) (s : State) (i m : Nat) : Prod.fst <$> doBondExtraE c s i m = doBondExtra c s i m := by
  unfold doBondExtraE
  split
  · rename_i h; unfold doBondExtra; rw [if_pos h]; rfl
  · exact map_fst_pure _ _

theorem doBondE_same (c : Cfg) (s : State) (i m : Nat) : Prod.fst <$> doBondE c s i m = doBond c s i m := by
  unfold doBondE
  split
  · rename_i h; unfold doBond; rw [if_pos h]; rfl
  · rename_i h
    split
    · rename_i h2
      rw [doBondExtraE_same]
      unfold doBond
      rw [if_neg h, if_pos h2]
    · exact map_fst_pure _ _

theorem doUnbondE_same (c : Cfg) (s : State) (i m : Nat) : Prod.fst <$> doUnbondE c s i m = doUnbond c s i m := by
  unfold doUnbondE
  split
  · rename_i h; unfold doUnbond; rw [if_pos h]; rfl
  · exact map_fst_pure _ _

theorem doRebondE_same (c : Cfg) (s : State) (i m : Nat) : Prod.fst <$> doRebondE c s i m = doRebond c s i m := by
  unfold doRebondE
  split
  · rename_i h; unfold doRebond; rw [if_pos h]; rfl
  · exact map_fst_pure _ _

theorem doWithdrawE_same (c : Cfg) (s : State) (i : Nat) : Prod.fst <$> doWithdrawE c s i = doWithdraw c s i := by
  unfold doWithdrawE
  split
  · rename_i h; unfold doWithdraw; rw [if_pos h]; rfl
  · exact map_fst_pure _ _

theorem multiBondE_same (c : Cfg) (s : State) (m : Nat) : Prod.fst <$> multiBondE c s m = multiBond c s m := by
  unfold multiBondE multiBond
  split
  · rfl
  · exact forEachE_same (fun s (x : Nat × Nat) => doBondE_same c s x.1 x.2) _ _

theorem multiUnbondE_same (c : Cfg) (s : State) (m : Nat) : Prod.fst <$> multiUnbondE c s m = multiUnbond c s m := by
  unfold multiUnbondE multiUnbond
  split
  · rfl
  · exact forEachE_same (fun s (x : Nat × Nat) => doUnbondE_same c s x.1 x.2) _ _

theorem multiRebondE_same (c : Cfg) (s : State) (m : Nat) : Prod.fst <$> multiRebondE c s m = multiRebond c s m := by
  unfold multiRebondE multiRebond
  split
  · rfl
  · exact forEachE_same (fun s (x : Nat × Nat) => doRebondE_same c s x.1 x.2) _ _

theorem multiWithdrawE_same (c : Cfg) (s : State) : Prod.fst <$> multiWithdrawE c s = multiWithdraw c s :=
  forEachE_same (fun s i => doWithdrawE_same c s i) _ _

theorem fst_bind {x : R (State × List Told)} {y : R State} (h : Prod.fst <$> x = y) (f : State → R State)
    (g : State × List Told → R (State × List Told)) (hg : ∀ a, Prod.fst <$> g a = f a.1) :
    Prod.fst <$> (x >>= g) = y >>= f := by
  subst h
  cases x with
  | error e => rfl
  | ok a => exact hg a

theorem doMatchingE_same (c : Cfg) (s : State) : Prod.fst <$> doMatchingE c s = doMatching c s := by
  unfold doMatchingE doMatching
  rw [map_bind]
  refine bind_congr fun x => ?_
  refine fst_bind (multiBondE_same c _ _) _ _ ?_
  rintro ⟨s1, e1⟩
  refine fst_bind (multiRebondE_same c _ _) _ _ ?_
  rintro ⟨s2, e2⟩
  refine fst_bind (multiUnbondE_same c _ _) _ _ ?_
  rintro ⟨s3, e3⟩
  show Prod.fst <$> (multiWithdrawE c s3 >>= _) = multiWithdraw c s3
  rw [← bind_pure (multiWithdraw c s3)]
  refine fst_bind (multiWithdrawE_same c _) _ _ ?_
  rintro ⟨s4, e4⟩
  rfl

theorem updLedgerE_same (s : State) (i : Nat) (f : SLedger → R SLedger) :
    Prod.fst <$> updLedgerE s i f = updLedger s i f := by
  simp only [updLedgerE, updLedger, map_bind, map_pure]

theorem applyReqE_same (c : Cfg) (s : State) (r : Req) : Prod.fst <$> applyReqE c s r = applyReq c s r := by
  cases r with
  | bond i m => exact map_fst_pure _ _
  | bondExtra i m =>
    refine fst_bind (updLedgerE_same s i _) _ _ ?_
    rintro ⟨s1, e1⟩
    simp only [map_bind, map_pure]
  | unbond i m =>
    unfold applyReqE applyReq
    rw [map_bind]
    refine bind_congr fun e => ?_
    refine fst_bind (updLedgerE_same s i _) _ _ ?_
    rintro ⟨s1, e1⟩
    simp only [map_bind, map_pure]
  | rebond i m =>
    refine fst_bind (updLedgerE_same s i _) _ _ ?_
    rintro ⟨s1, e1⟩
    simp only [map_bind, map_pure]
  | withdraw i => simp only [applyReqE, applyReq, applyWithdraw, map_bind, updLedgerE_same]
  | nominate i => rfl

theorem initBlockE_same (c : Cfg) (s : State) : Prod.fst <$> initBlockE c s = initBlock c s := by
  unfold initBlockE initBlock
  refine fst_bind ?_ _ _ ?_
  · unfold initMatching
    split
    · exact doMatchingE_same c s
    · rfl
  · rintro ⟨s1, e1⟩; rfl

theorem commit_fst (s : State) (x : R (State × List Told)) : (commit (s, []) x).1 = commit s (Prod.fst <$> x) := by
  cases x <;> rfl

/-- The events are additional: acceptance, errors and the new state are those of `exec`. -/
theorem C237_same (c : Cfg) (s : State) (k : Call) : Prod.fst <$> execE c s k = exec c s k := by
  cases k with
  | stake w m => simp only [execE, exec, stakeE, stake, map_bind, map_pure]
  | unstake w q p =>
    simp only [execE, exec, unstakeE, unstake, map_bind]
    refine bind_congr fun _ => bind_congr fun t => bind_congr fun _ => ?_
    split
    · rfl
    · unfold unstakeSlowE
      simp only [map_bind, map_pure, bind_pure]
      unfold unstakeSlow
      cases toStaking s.rate (q - pmulFloor s.urf q) <;> rfl
  | cancelUnstake w m => exact map_fst_pure _ _
  | claimFor w => simp only [execE, exec, claimForE, claimFor, map_bind, map_pure]
  | fastMatch ws =>
    show Prod.fst <$> forEachE _ s ws = fastMatchAll c s ws
    rw [fastMatchAll_forEach]
    exact forEachE_same (fun s w => fastMatchE_same c s w) _ _
  | bond i m => exact doBondE_same c s i m
  | bondExtra i m => exact doBondExtraE_same c s i m
  | unbond i m => exact doUnbondE_same c s i m
  | rebond i m => exact doRebondE_same c s i m
  | withdraw i => exact doWithdrawE_same c s i
  | nominate i => exact map_fst_pure _ _
  | notify q ok =>
    simp only [execE, exec, notifyE, notify]
    cases findReq s.reqs q with
    | none => rfl
    | some r =>
      dsimp only
      split
      · rfl
      · refine fst_bind (applyReqE_same c s r) _ _ ?_
        rintro ⟨s1, e1⟩; rfl
  | setEraStart b => rfl
  | forceEra e => rfl
  | forceAdvance n => rfl
  | forceMatching => exact doMatchingE_same c s
  | forceLedger i l => simp only [execE, exec, forceLedgerE, forceLedger, map_bind, updLedgerE_same]
  | setEra e proof => exact map_fst_pure _ _
  | setLedger i l proof => simp only [execE, exec, setLedgerE, setLedger, map_bind, updLedgerE_same]
  | reduceReserves recv m => exact map_fst_pure _ _
  | reduceUReserves recv m => exact map_fst_pure _ _
  | setRf p => exact map_fst_pure _ _
  | setUrf p => exact map_fst_pure _ _
  | setCap m => exact map_fst_pure _ _
  | setCommission r => exact map_fst_pure _ _
  | onInit =>
    show Except.ok (commit (s, []) (initBlockE c s)).1 = Except.ok (onInit c s)
    rw [commit_fst, initBlockE_same]
    rfl
  | onFinalize => rfl

theorem execE_exec {k : Call} {es : List Told} (h : execE c s k = .ok (s', es)) : exec c s k = .ok s' := by
  rw [← C237_same, h]; rfl

/-! ## Requests -/

/-- Requests are sent, each with its event. -/
structure SentE (c : Cfg) (s s' : State) (es : List Told) : Prop where
  sent : Sent c s s'
  quiet : ∀ e ∈ es, (∃ r, e = .sent r) ∨ ∃ a b u, e = .matching a b u
  reqs : s'.reqs.map Prod.snd = s.reqs.map Prod.snd ++ es.filterMap Told.request

theorem SentE.refl (c : Cfg) (s : State) : SentE c s s [] := ⟨.refl c s, by simp, by simp⟩

theorem SentE.trans {s1 s2 s3 : State} {e1 e2 : List Told} (h1 : SentE c s1 s2 e1) (h2 : SentE c s2 s3 e2) :
    SentE c s1 s3 (e1 ++ e2) := by
  refine ⟨h1.sent.trans h2.sent, ?_, ?_⟩
  · intro e he
    rcases List.mem_append.1 he with h | h
    · exact h1.quiet e h
    · exact h2.quiet e h
  · rw [h2.reqs, h1.reqs, List.filterMap_append, List.append_assoc]

theorem sentE_one {r : Req} {p : Pool} (h : Sent c s s') (hs : send c { s with pool := p } r = .ok s') :
    SentE c s s' [.sent r] := by
  refine ⟨h, ?_, ?_⟩
  · intro e he; exact .inl ⟨r, List.mem_singleton.1 he⟩
  · obtain ⟨l, -, rfl⟩ := send_view hs
    simp [Told.request]

theorem doBondExtraE_sent {i m : Nat} {es : List Told} (h : doBondExtraE c s i m = .ok (s', es)) : SentE c s s' es := by
  unfold doBondExtraE at h
  split at h
  · cases h; exact .refl _ _
  · rename_i hm
    simp only [bind_ok_iff, pure_ok_iff, Prod.mk.injEq] at h
    obtain ⟨t, ht, rfl, rfl⟩ := h
    have h1 := doBondExtra_sent ht
    unfold doBondExtra at ht
    rw [if_neg hm] at ht
    simp only [bind_ok_iff, ensure_ok_iff, exists_const, ensureLedgerCap] at ht
    obtain ⟨_, _, _, h, _, ht⟩ := ht
    exact sentE_one h1 ht

theorem doBondE_sent {i m : Nat} {es : List Told} (h : doBondE c s i m = .ok (s', es)) : SentE c s s' es := by
  unfold doBondE at h
  split at h
  · cases h; exact .refl _ _
  · rename_i hm
    split at h
    · exact doBondExtraE_sent h
    · rename_i hl
      simp only [bind_ok_iff, pure_ok_iff, Prod.mk.injEq] at h
      obtain ⟨t, ht, rfl, rfl⟩ := h
      have h1 := doBond_sent ht
      unfold doBond at ht
      rw [if_neg hm, if_neg hl] at ht
      simp only [bind_ok_iff, ensure_ok_iff, exists_const, ensureLedgerCap] at ht
      obtain ⟨_, _, _, h, _, ht⟩ := ht
      exact sentE_one h1 ht

theorem doUnbondE_sent {i m : Nat} {es : List Told} (h : doUnbondE c s i m = .ok (s', es)) : SentE c s s' es := by
  unfold doUnbondE at h
  split at h
  · cases h; exact .refl _ _
  · rename_i hm
    simp only [bind_ok_iff, pure_ok_iff, Prod.mk.injEq] at h
    obtain ⟨t, ht, rfl, rfl⟩ := h
    have h1 := doUnbond_sent ht
    unfold doUnbond at ht
    rw [if_neg hm] at ht
    simp only [bind_ok_iff, ensure_ok_iff, exists_const] at ht
    obtain ⟨_, _, _, _, _, h, _, ht⟩ := ht
    exact sentE_one h1 ht

theorem doRebondE_sent {i m : Nat} {es : List Told} (h : doRebondE c s i m = .ok (s', es)) : SentE c s s' es := by
  unfold doRebondE at h
  split at h
  · cases h; exact .refl _ _
  · rename_i hm
    simp only [bind_ok_iff, pure_ok_iff, Prod.mk.injEq] at h
    obtain ⟨t, ht, rfl, rfl⟩ := h
    have h1 := doRebond_sent ht
    unfold doRebond at ht
    rw [if_neg hm] at ht
    simp only [bind_ok_iff, ensure_ok_iff, exists_const] at ht
    obtain ⟨_, _, h, _, ht⟩ := ht
    exact sentE_one h1 ht

theorem doWithdrawE_sent {i : Nat} {es : List Told} (h : doWithdrawE c s i = .ok (s', es)) : SentE c s s' es := by
  unfold doWithdrawE at h
  split at h
  · cases h; exact .refl _ _
  · rename_i hm
    simp only [bind_ok_iff, pure_ok_iff, Prod.mk.injEq] at h
    obtain ⟨t, ht, rfl, rfl⟩ := h
    have h1 := doWithdraw_sent ht
    unfold doWithdraw at ht
    rw [if_neg hm] at ht
    simp only [bind_ok_iff, ensure_ok_iff, exists_const] at ht
    obtain ⟨_, _, ht⟩ := ht
    exact sentE_one (p := s.pool) h1 ht

theorem doNominateE_sent {i : Nat} {es : List Told} (h : doNominateE c s i = .ok (s', es)) : SentE c s s' es := by
  unfold doNominateE at h
  simp only [bind_ok_iff, pure_ok_iff, Prod.mk.injEq] at h
  obtain ⟨t, ht, rfl, rfl⟩ := h
  have h1 := doNominate_sent ht
  unfold doNominate at ht
  simp only [bind_ok_iff, ensure_ok_iff, exists_const] at ht
  obtain ⟨_, _, ht⟩ := ht
  exact sentE_one (p := s.pool) h1 ht

theorem forEachE_sent {α : Type} {f : State → α → R (State × List Told)}
    (hf : ∀ {s s' : State} {x : α} {es : List Told}, f s x = .ok (s', es) → SentE c s s' es) :
    ∀ {xs : List α} {s s' : State} {es : List Told}, forEachE f s xs = .ok (s', es) → SentE c s s' es
  | [], s, s', es, h => by cases h; exact .refl _ _
  | x :: xs, s, s', es, h => by
    simp only [forEachE, bind_ok_iff, Prod.exists, pure_ok_iff, Prod.mk.injEq] at h
    obtain ⟨s1, e1, h1, s2, e2, h2, rfl, rfl⟩ := h
    exact (hf h1).trans (forEachE_sent hf h2)

theorem multiBondE_sent {m : Nat} {es : List Told} (h : multiBondE c s m = .ok (s', es)) : SentE c s s' es := by
  unfold multiBondE at h
  split at h
  · cases h; exact .refl _ _
  · exact forEachE_sent (fun h => doBondE_sent h) h

theorem multiUnbondE_sent {m : Nat} {es : List Told} (h : multiUnbondE c s m = .ok (s', es)) : SentE c s s' es := by
  unfold multiUnbondE at h
  split at h
  · cases h; exact .refl _ _
  · exact forEachE_sent (fun h => doUnbondE_sent h) h

theorem multiRebondE_sent {m : Nat} {es : List Told} (h : multiRebondE c s m = .ok (s', es)) : SentE c s s' es := by
  unfold multiRebondE at h
  split at h
  · cases h; exact .refl _ _
  · exact forEachE_sent (fun h => doRebondE_sent h) h

theorem doMatchingE_sent {es : List Told} (h : doMatchingE c s = .ok (s', es)) : SentE c s s' es := by
  have h0 : exec c s .forceMatching = .ok s' := execE_exec (k := .forceMatching) h
  have hs : Sent c s s' := doMatching_sent h0
  simp only [doMatchingE, bind_ok_iff, Prod.exists, pure_ok_iff, Prod.mk.injEq] at h
  obtain ⟨b, r, u, -, s1, e1, h1, s2, e2, h2, s3, e3, h3, s4, e4, h4, rfl, rfl⟩ := h
  have k1 := multiBondE_sent h1
  have k2 := multiRebondE_sent h2
  have k3 := multiUnbondE_sent h3
  have k4 : SentE c s3 s4 e4 := forEachE_sent (fun h => doWithdrawE_sent h) h4
  have k := ((k1.trans k2).trans k3).trans k4
  refine ⟨hs, ?_, ?_⟩
  · intro e he
    rcases List.mem_append.1 he with h | h
    · exact k.quiet e h
    · exact .inr ⟨b, r, u, List.mem_singleton.1 h⟩
  · rw [List.filterMap_append, k.reqs]
    simp [Told.request]

theorem advanceEraT_request (c : Cfg) (s : State) (n : Nat) : (advanceEraT c s n).filterMap Told.request = [] := by
  unfold advanceEraT
  split
  · rfl
  · split <;> simp [Told.request]

theorem advanceEra_reqs (c : Cfg) (s : State) (n : Nat) : (advanceEra c s n).reqs = s.reqs := by
  rw [advanceEra_frame]

/-- Shape of the block hook. -/
theorem onInitE_cases {es : List Told} (h : execE c s .onInit = .ok (s', es)) :
    (s' = s ∧ es = []) ∨ ∃ s1 e1, SentE c s s1 e1 ∧ s' = advanceEra c s1 (eraOffset c s1) ∧
      es = e1 ++ advanceEraT c s1 (eraOffset c s1) := by
  simp only [execE, Except.ok.injEq] at h
  rcases commit_cases (s, ([] : List Told)) (initBlockE c s) with he | he
  · rw [h] at he
    simp only [initBlockE, bind_ok_iff, Prod.exists, pure_ok_iff, Prod.mk.injEq] at he
    obtain ⟨s1, e1, h1, rfl, rfl⟩ := he
    refine .inr ⟨s1, e1, ?_, rfl, rfl⟩
    split at h1
    · exact doMatchingE_sent h1
    · cases h1; exact .refl _ _
  · rw [h] at he
    obtain ⟨rfl, rfl⟩ := Prod.mk.inj he.1
    exact .inl ⟨rfl, rfl⟩

theorem updLedgerE_view {i : Nat} {f : SLedger → R SLedger} {es : List Told} (h : updLedgerE s i f = .ok (s', es)) :
    ∃ l l', s.ledgers i = some l ∧ f l = .ok l' ∧ es = [.ledger i l'] ∧
      s' = { s with ledgers := upd s.ledgers i (some l'), updated := upd s.updated i true } := by
  simp only [updLedgerE, bind_ok_iff, okOr_ok_iff, pure_ok_iff, Prod.mk.injEq] at h
  obtain ⟨l, hl, l', hl', rfl, rfl⟩ := h
  exact ⟨l, l', hl, hl', rfl, rfl⟩

/-- What a reported request does, with its event. -/
theorem applyReqE_view {r : Req} {es : List Told} (h : applyReqE c s r = .ok (s', es)) :
    s'.reqs = s.reqs ∧
    ((∃ i m l p, r = .bond i m ∧ es = [] ∧ s.ledgers i = none ∧
        s' = { s.setTok l with ledgers := upd s.ledgers i (some (.new m)), pool := p }) ∨
     (∃ i x l p u, es = [.ledger i x] ∧
        s' = { s.setTok l with ledgers := upd s.ledgers i (some x), pool := p, updated := u }) ∨
     (es = [] ∧ s' = s)) := by
  cases r with
  | bond i m =>
    simp only [applyReqE, applyReq, bind_ok_iff, ensure_ok_iff, exists_const, pure_ok_iff, Prod.mk.injEq] at h
    obtain ⟨t, ⟨hn, p, hp, l, hl, rfl⟩, rfl, rfl⟩ := h
    exact ⟨rfl, .inl ⟨i, m, l, p, rfl, rfl, by simpa using hn, rfl⟩⟩
  | bondExtra i m =>
    simp only [applyReqE, bind_ok_iff, Prod.exists, pure_ok_iff, Prod.mk.injEq] at h
    obtain ⟨t, e, h1, p, hp, l, hl, rfl, rfl⟩ := h
    obtain ⟨l0, l1, -, -, rfl, rfl⟩ := updLedgerE_view h1
    exact ⟨rfl, .inr (.inl ⟨i, l1, l, p, _, rfl, rfl⟩)⟩
  | unbond i m =>
    simp only [applyReqE, bind_ok_iff, Prod.exists, pure_ok_iff, Prod.mk.injEq] at h
    obtain ⟨_, _, t, e, h1, p, hp, rfl, rfl⟩ := h
    obtain ⟨l0, l1, -, -, rfl, rfl⟩ := updLedgerE_view h1
    exact ⟨rfl, .inr (.inl ⟨i, l1, s.tok, p, _, rfl, rfl⟩)⟩
  | rebond i m =>
    simp only [applyReqE, bind_ok_iff, Prod.exists, pure_ok_iff, Prod.mk.injEq] at h
    obtain ⟨t, e, h1, p, hp, rfl, rfl⟩ := h
    obtain ⟨l0, l1, -, -, rfl, rfl⟩ := updLedgerE_view h1
    exact ⟨rfl, .inr (.inl ⟨i, l1, s.tok, p, _, rfl, rfl⟩)⟩
  | withdraw i =>
    simp only [applyReqE, bind_ok_iff] at h
    obtain ⟨l, _, t, ht, h1⟩ := h
    obtain ⟨l0, l1, -, -, rfl, rfl⟩ := updLedgerE_view h1
    exact ⟨rfl, .inr (.inl ⟨i, l1, t, s.pool, _, rfl, rfl⟩)⟩
  | nominate i =>
    cases h
    exact ⟨rfl, .inr (.inr ⟨rfl, rfl⟩)⟩

theorem notifyE_view {q : Nat} {ok : Bool} {es : List Told} (h : notifyE c s q ok = .ok (s', es)) :
    (s' = s ∧ es = [.notified q ok] ∧ (ok = false ∨ findReq s.reqs q = none)) ∨
    ∃ r s1 e1, ok = true ∧ findReq s.reqs q = some r ∧ applyReqE c s r = .ok (s1, e1) ∧ es = e1 ++ [.notified q ok] ∧
      s' = { s1 with reqs := s1.reqs.filter (fun x => x.1 != q) } := by
  unfold notifyE at h
  split at h
  · rename_i hn; cases h; exact .inl ⟨rfl, rfl, .inr hn⟩
  · rename_i r hr
    split at h
    · rename_i hk; cases h; exact .inl ⟨rfl, rfl, .inl hk⟩
    · rename_i hok
      simp only [bind_ok_iff, Prod.exists, pure_ok_iff, Prod.mk.injEq] at h
      obtain ⟨s1, e1, h1, rfl, rfl⟩ := h
      exact .inr ⟨r, s1, e1, by simpa using hok, hr, h1, rfl, rfl⟩

/-! ## What the calls do, with their events -/

theorem stakeE_view {w m : Nat} {es : List Told} (h : stakeE c s w m = .ok (s', es)) :
    stake c s w m = .ok s' ∧ es = [.staked w (m - c.xcmFees - pmulFloor s.rf m)] := by
  refine ⟨execE_exec (k := .stake w m) h, ?_⟩
  simp only [stakeE, bind_ok_iff, ensure_ok_iff, exists_const, csub_ok_iff, cadd_ok_iff, ensureMarketCap,
    pure_ok_iff, Prod.mk.injEq] at h
  obtain ⟨-, _, ⟨-, rfl⟩, -, -, -, -, _, ⟨-, rfl⟩, _, _, _, _, _, _, _, _, _, _, rfl⟩ := h
  rfl

theorem unstakeE_view {w q : Nat} {p : Provider} {es : List Told} (h : unstakeE c s w q p = .ok (s', es)) :
    (p = .pool ∧ es = [] ∧ s' = requestFast c { s with ureserves := s.ureserves + pmulFloor s.urf q } w
        (q - pmulFloor s.urf q)) ∨
    (p ≠ .pool ∧ es = [.unstaked w q (s.rate * (q - pmulFloor s.urf q) / DIV)] ∧
      unstakeSlow c { s with ureserves := s.ureserves + pmulFloor s.urf q } w q (pmulFloor s.urf q) p = .ok s') := by
  simp only [unstakeE, bind_ok_iff, ensure_ok_iff, exists_const, cadd_ok_iff, csub_ok_iff] at h
  obtain ⟨h1, _, ⟨h2, rfl⟩, _, ⟨h3, rfl⟩, h⟩ := h
  split at h
  · rename_i hp
    simp only [Except.ok.injEq, Prod.mk.injEq] at h
    exact .inl ⟨hp, h.2.symm, h.1.symm⟩
  · simp only [unstakeSlowE, bind_ok_iff, toStaking_ok, pure_ok_iff, Prod.mk.injEq] at h
    obtain ⟨_, ⟨-, rfl⟩, t, ht, rfl, rfl⟩ := h
    exact .inr ⟨by assumption, rfl, ht⟩

theorem claimForE_view {w : Nat} {es : List Told} (h : claimForE c s w = .ok (s', es)) :
    claimFor c s w = .ok s' ∧ es = [.claimed w (due s s.era w)] := by
  refine ⟨execE_exec (k := .claimFor w) h, ?_⟩
  simp only [claimForE, bind_ok_iff, okOr_ok_iff, ensure_ok_iff, exists_const, pure_ok_iff, Prod.mk.injEq] at h
  obtain ⟨xs, hxs, m, hm, h1, h2, s1, hs1, -, rfl⟩ := h
  cases sumDue_ok hm
  unfold due
  rw [hxs]
  rfl

theorem fastMatchE_view {w : Nat} {es : List Told} (h : fastMatchE c s w = .ok (s', es)) :
    (es = [] ∧ s' = { s with fast := s'.fast }) ∨
    ∃ q s1, settleFast c s w q = .ok s1 ∧ s' = { s1 with fast := s'.fast } ∧
      es = [.fastMatched w (s.rate * (q - fixSatMul c.fastFee q) / DIV) q (fixSatMul c.fastFee q)] := by
  unfold fastMatchE at h
  split at h
  · cases h; exact .inl ⟨rfl, rfl⟩
  · rename_i b hb
    simp only [fastMatchOfE, bind_ok_iff, Prod.exists, pure_ok_iff, Prod.mk.injEq] at h
    obtain ⟨_, -, a, ha, s1, e1, h1, rfl, rfl⟩ := h
    unfold trySettleE at h1
    split at h1
    · cases h1; exact .inl ⟨rfl, rfl⟩
    · refine .inr ⟨min (min b (s.tok.reducible c.liquid w false)) a, s1, ?_, rfl, ?_⟩
      · have := congrArg (Prod.fst <$> ·) h1
        simp only [settleFastE, map_bind, map_pure] at this
        simp only [settleFast]
        exact this
      · simp only [settleFastE, bind_ok_iff, toStaking_ok, pure_ok_iff, Prod.mk.injEq] at h1
        obtain ⟨_, -, _, -, _, ⟨-, rfl⟩, _, -, _, -, -, rfl⟩ := h1
        rfl

theorem viaLoans_frame {w m : Nat} {p : Provider} (e : viaLoans c s w m p = .ok s') : s' = { s with lo := s'.lo } := by
  unfold viaLoans at e
  split at e
  · obtain ⟨_, _, _, _, _, _, _, _, _, _, _, hs⟩ := instantUnstake_view e
    exact hs
  · cases e; rfl

theorem payClaim_frame {w m : Nat} (e : payClaim c s w m = .ok s') : s' = { s with lo := s'.lo } := by
  unfold payClaim at e
  split at e
  · obtain ⟨_, _, _, _, _, _, _, _, _, hs⟩ := claimLoans_view e
    exact hs
  · simp only [bind_ok_iff, pure_ok_iff] at e
    obtain ⟨l, el, rfl⟩ := e
    rfl

/-! ## The observer -/

/-- Events that are not about the noted things. -/
theorem after_mute {es : List Told} (h : ∀ e ∈ es, ∀ n : Notes, n.see e = n) (n : Notes) : n.after es = n := by
  unfold Notes.after
  induction es generalizing n with
  | nil => rfl
  | cons e es ih =>
    rw [List.foldl_cons, h e (by simp), ih (fun e' he => h e' (by simp [he]))]

theorem after_append (n : Notes) (es fs : List Told) : n.after (es ++ fs) = (n.after es).after fs :=
  List.foldl_append ..

theorem SentE.after {es : List Told} (h : SentE c s s' es) (n : Notes) : n.after es = n :=
  after_mute (fun e he n => by rcases h.quiet e he with ⟨r, rfl⟩ | ⟨a, b, u, rfl⟩ <;> rfl) n

theorem SentE.notes {es : List Told} (h : SentE c s s' es) : Notes.of s' = (Notes.of s).after es := by
  rw [h.after]
  have e := h.sent.frame
  unfold Notes.of
  rw [e]

theorem advanceEra_notes (c : Cfg) (s : State) (n : Nat) :
    Notes.of (advanceEra c s n) = (Notes.of s).after (advanceEraT c s n) := by
  unfold advanceEra advanceEraT
  split
  · rfl
  · split
    · rfl
    · rename_i h
      have := commit_newRate_ge (c := c) (s := s)
      have e : commit s.rate (newRate c s) = s.rate := by omega
      unfold Notes.of
      dsimp only
      rw [e]
      rfl

theorem fastMatchE_notes {w : Nat} {es : List Told} (h : fastMatchE c s w = .ok (s', es)) :
    Notes.of s' = (Notes.of s).after es := by
  rcases fastMatchE_view h with ⟨rfl, hs⟩ | ⟨q, s1, h1, hs, rfl⟩
  · rw [hs]; rfl
  · obtain ⟨l1, l2, l3, -, -, -, -, h2⟩ := settleFast_view h1
    rw [hs, h2]; rfl

theorem forEachE_notes {α : Type} {f : State → α → R (State × List Told)}
    (hf : ∀ {s s' : State} {x : α} {es : List Told}, f s x = .ok (s', es) → Notes.of s' = (Notes.of s).after es) :
    ∀ {xs : List α} {s s' : State} {es : List Told}, forEachE f s xs = .ok (s', es) →
      Notes.of s' = (Notes.of s).after es
  | [], s, s', es, h => by cases h; rfl
  | x :: xs, s, s', es, h => by
    simp only [forEachE, bind_ok_iff, Prod.exists, pure_ok_iff, Prod.mk.injEq] at h
    obtain ⟨s1, e1, h1, s2, e2, h2, rfl, rfl⟩ := h
    rw [after_append, ← hf h1, forEachE_notes hf h2]

/-- All calls but two tell the observer everything. -/
theorem execE_notes {k : Call} {es : List Told} (h : execE c s k = .ok (s', es)) :
    Notes.of s' = (Notes.of s).after es ∨
    (∃ e, k = .forceEra e ∧ es = [] ∧ Notes.of s' = { Notes.of s with era := e }) ∨
    (∃ q i m, k = .notify q true ∧ es = [.notified q true] ∧ findReq s.reqs q = some (.bond i m) ∧ s.ledgers i = none ∧
      Notes.of s' = { Notes.of s with ledgers := upd s.ledgers i (some (.new m)) }) := by
  cases k with
  | stake w m =>
    obtain ⟨h1, rfl⟩ := stakeE_view h
    obtain ⟨l1, l2, l3, q, -, -, -, -, -, -, -, rfl⟩ := stake_view h1
    exact .inl rfl
  | unstake w q p =>
    refine .inl ?_
    rcases unstakeE_view h with ⟨-, rfl, rfl⟩ | ⟨-, rfl, h1⟩
    · rfl
    · obtain ⟨l1, l2, s1, -, -, -, -, hv, rfl⟩ := unstakeSlow_view h1
      have := viaLoans_frame hv
      unfold Notes.of
      dsimp only
      rw [this]
      rfl
  | cancelUnstake w m =>
    simp only [execE, cancelUnstake, ok_bind, pure_ok_iff, Prod.mk.injEq] at h
    obtain ⟨rfl, rfl⟩ := h
    exact .inl rfl
  | claimFor w =>
    refine .inl ?_
    obtain ⟨h1, rfl⟩ := claimForE_view h
    obtain ⟨xs, s1, -, -, -, hp, rfl⟩ := claimFor_view h1
    have := payClaim_frame hp
    unfold Notes.of
    dsimp only
    rw [this]
    rfl
  | fastMatch ws => exact .inl (forEachE_notes (fun h => fastMatchE_notes h) h)
  | bond i m => exact .inl (doBondE_sent h).notes
  | bondExtra i m => exact .inl (doBondExtraE_sent h).notes
  | unbond i m => exact .inl (doUnbondE_sent h).notes
  | rebond i m => exact .inl (doRebondE_sent h).notes
  | withdraw i => exact .inl (doWithdrawE_sent h).notes
  | nominate i => exact .inl (doNominateE_sent h).notes
  | notify q ok =>
    rcases notifyE_view h with ⟨rfl, rfl, -⟩ | ⟨r, s1, e1, rfl, hr, h1, rfl, rfl⟩
    · exact .inl rfl
    · obtain ⟨-, ⟨i, m, l, p, rfl, rfl, hn, rfl⟩ | ⟨i, x, l, p, u, rfl, rfl⟩ | ⟨rfl, rfl⟩⟩ := applyReqE_view h1
      · exact .inr (.inr ⟨q, i, m, rfl, rfl, hr, hn, rfl⟩)
      · exact .inl rfl
      · exact .inl rfl
  | setEraStart b => cases h; exact .inl rfl
  | forceEra e => cases h; exact .inr (.inl ⟨e, rfl, rfl, rfl⟩)
  | forceAdvance n => cases h; exact .inl (advanceEra_notes c s n)
  | forceMatching => exact .inl (doMatchingE_sent h).notes
  | forceLedger i l =>
    simp only [execE, forceLedgerE, bind_ok_iff, ensure_ok_iff, exists_const] at h
    obtain ⟨_, -, -, h⟩ := h
    obtain ⟨l0, l1, -, -, rfl, rfl⟩ := updLedgerE_view h
    exact .inl rfl
  | setEra e proof =>
    simp only [execE, setEra, bind_ok_iff, ensure_ok_iff, pure_ok_iff, Prod.mk.injEq] at h
    obtain ⟨t, ⟨_, -, rfl⟩, rfl, rfl⟩ := h
    exact .inl (advanceEra_notes c s _)
  | setLedger i l proof =>
    simp only [execE, setLedgerE, bind_ok_iff, ensure_ok_iff, exists_const] at h
    obtain ⟨_, -, -, -, -, q, -, t, -, h⟩ := h
    obtain ⟨l0, l1, -, -, rfl, rfl⟩ := updLedgerE_view h
    exact .inl rfl
  | reduceReserves recv m =>
    simp only [execE, reduceReserves, bind_ok_iff, pure_ok_iff, Prod.mk.injEq] at h
    obtain ⟨t, ⟨_, -, l, -, rfl⟩, rfl, rfl⟩ := h
    exact .inl rfl
  | reduceUReserves recv m =>
    simp only [execE, reduceUReserves, bind_ok_iff, pure_ok_iff, Prod.mk.injEq] at h
    obtain ⟨t, ⟨_, -, l, -, rfl⟩, rfl, rfl⟩ := h
    exact .inl rfl
  | setRf p =>
    simp only [execE, setRf, bind_ok_iff, ensure_ok_iff, pure_ok_iff, Prod.mk.injEq] at h
    obtain ⟨t, ⟨_, -, rfl⟩, rfl, rfl⟩ := h
    exact .inl rfl
  | setUrf p =>
    simp only [execE, setUrf, bind_ok_iff, ensure_ok_iff, pure_ok_iff, Prod.mk.injEq] at h
    obtain ⟨t, ⟨_, -, rfl⟩, rfl, rfl⟩ := h
    exact .inl rfl
  | setCap m =>
    simp only [execE, setCap, bind_ok_iff, ensure_ok_iff, pure_ok_iff, Prod.mk.injEq] at h
    obtain ⟨t, ⟨_, -, rfl⟩, rfl, rfl⟩ := h
    exact .inl rfl
  | setCommission r =>
    simp only [execE, setCommission, bind_ok_iff, ensure_ok_iff, pure_ok_iff, Prod.mk.injEq] at h
    obtain ⟨t, ⟨_, -, rfl⟩, rfl, rfl⟩ := h
    exact .inl rfl
  | onInit =>
    rcases onInitE_cases h with ⟨rfl, rfl⟩ | ⟨s1, e1, h1, rfl, rfl⟩
    · exact .inl rfl
    · refine .inl ?_
      rw [after_append, ← h1.notes]
      exact advanceEra_notes c s1 _
  | onFinalize => cases h; exact .inl rfl

/-- Every request a call sends is announced, and in order; only a response takes requests off the list. -/
theorem execE_requests {k : Call} {es : List Told} (h : execE c s k = .ok (s', es)) :
    s'.reqs.map Prod.snd = s.reqs.map Prod.snd ++ es.filterMap Told.request ∨
    (∃ q, k = .notify q true ∧ es.filterMap Told.request = [] ∧ s'.reqs = s.reqs.filter (fun x => x.1 != q)) := by
  cases k with
  | stake w m =>
    obtain ⟨h1, rfl⟩ := stakeE_view h
    obtain ⟨l1, l2, l3, q, -, -, -, -, -, -, -, rfl⟩ := stake_view h1
    exact .inl (List.append_nil _).symm
  | unstake w q p =>
    refine .inl ?_
    rcases unstakeE_view h with ⟨-, rfl, rfl⟩ | ⟨-, rfl, h1⟩
    · exact (List.append_nil _).symm
    · obtain ⟨l1, l2, s1, -, -, -, -, hv, rfl⟩ := unstakeSlow_view h1
      have := viaLoans_frame hv
      dsimp only
      rw [this]
      exact (List.append_nil _).symm
  | cancelUnstake w m =>
    simp only [execE, cancelUnstake, ok_bind, pure_ok_iff, Prod.mk.injEq] at h
    obtain ⟨rfl, rfl⟩ := h
    exact .inl (List.append_nil _).symm
  | claimFor w =>
    refine .inl ?_
    obtain ⟨h1, rfl⟩ := claimForE_view h
    obtain ⟨xs, s1, -, -, -, hp, rfl⟩ := claimFor_view h1
    have := payClaim_frame hp
    dsimp only
    rw [this]
    exact (List.append_nil _).symm
  | fastMatch ws =>
    refine .inl ?_
    have key : ∀ {ws : List Nat} {s s' : State} {es : List Told}, forEachE (fun s w => fastMatchE c s w) s ws = .ok (s', es) →
        s'.reqs = s.reqs ∧ es.filterMap Told.request = [] := by
      intro ws
      induction ws with
      | nil => intro s s' es h; cases h; exact ⟨rfl, rfl⟩
      | cons w ws ih =>
        intro s s' es h
        simp only [forEachE, bind_ok_iff, Prod.exists, pure_ok_iff, Prod.mk.injEq] at h
        obtain ⟨s1, e1, h1, s2, e2, h2, rfl, rfl⟩ := h
        obtain ⟨i1, i2⟩ := ih h2
        rw [i1, List.filterMap_append, i2]
        rcases fastMatchE_view h1 with ⟨rfl, hs⟩ | ⟨q, s3, h3, hs, rfl⟩
        · rw [hs]; exact ⟨rfl, rfl⟩
        · obtain ⟨l1, l2, l3, -, -, -, -, h4⟩ := settleFast_view h3
          rw [hs, h4]; exact ⟨rfl, rfl⟩
    obtain ⟨k1, k2⟩ := key h
    rw [k1, k2, List.append_nil]
  | bond i m => exact .inl (doBondE_sent h).reqs
  | bondExtra i m => exact .inl (doBondExtraE_sent h).reqs
  | unbond i m => exact .inl (doUnbondE_sent h).reqs
  | rebond i m => exact .inl (doRebondE_sent h).reqs
  | withdraw i => exact .inl (doWithdrawE_sent h).reqs
  | nominate i => exact .inl (doNominateE_sent h).reqs
  | notify q ok =>
    rcases notifyE_view h with ⟨rfl, rfl, -⟩ | ⟨r, s1, e1, rfl, hr, h1, rfl, rfl⟩
    · exact .inl (List.append_nil _).symm
    · obtain ⟨hq, hc⟩ := applyReqE_view h1
      refine .inr ⟨q, rfl, ?_, by rw [← hq]⟩
      rcases hc with ⟨i, m, l, p, -, rfl, -, -⟩ | ⟨i, x, l, p, u, rfl, -⟩ | ⟨rfl, -⟩ <;> rfl
  | setEraStart b => cases h; exact .inl (List.append_nil _).symm
  | forceEra e => cases h; exact .inl (List.append_nil _).symm
  | forceAdvance n => cases h; exact .inl (by rw [advanceEraT_request, advanceEra_reqs, List.append_nil])
  | forceMatching => exact .inl (doMatchingE_sent h).reqs
  | forceLedger i l =>
    simp only [execE, forceLedgerE, bind_ok_iff, ensure_ok_iff, exists_const] at h
    obtain ⟨_, -, -, h⟩ := h
    obtain ⟨l0, l1, -, -, rfl, rfl⟩ := updLedgerE_view h
    exact .inl (List.append_nil _).symm
  | setEra e proof =>
    simp only [execE, setEra, bind_ok_iff, ensure_ok_iff, pure_ok_iff, Prod.mk.injEq] at h
    obtain ⟨t, ⟨_, -, rfl⟩, rfl, rfl⟩ := h
    exact .inl (by rw [advanceEraT_request, advanceEra_reqs, List.append_nil])
  | setLedger i l proof =>
    simp only [execE, setLedgerE, bind_ok_iff, ensure_ok_iff, exists_const] at h
    obtain ⟨_, -, -, -, -, q, -, t, -, h⟩ := h
    obtain ⟨l0, l1, -, -, rfl, rfl⟩ := updLedgerE_view h
    exact .inl (List.append_nil _).symm
  | reduceReserves recv m =>
    simp only [execE, reduceReserves, bind_ok_iff, pure_ok_iff, Prod.mk.injEq] at h
    obtain ⟨t, ⟨_, -, l, -, rfl⟩, rfl, rfl⟩ := h
    exact .inl (List.append_nil _).symm
  | reduceUReserves recv m =>
    simp only [execE, reduceUReserves, bind_ok_iff, pure_ok_iff, Prod.mk.injEq] at h
    obtain ⟨t, ⟨_, -, l, -, rfl⟩, rfl, rfl⟩ := h
    exact .inl (List.append_nil _).symm
  | setRf p =>
    simp only [execE, setRf, bind_ok_iff, ensure_ok_iff, pure_ok_iff, Prod.mk.injEq] at h
    obtain ⟨t, ⟨_, -, rfl⟩, rfl, rfl⟩ := h
    exact .inl (List.append_nil _).symm
  | setUrf p =>
    simp only [execE, setUrf, bind_ok_iff, ensure_ok_iff, pure_ok_iff, Prod.mk.injEq] at h
    obtain ⟨t, ⟨_, -, rfl⟩, rfl, rfl⟩ := h
    exact .inl (List.append_nil _).symm
  | setCap m =>
    simp only [execE, setCap, bind_ok_iff, ensure_ok_iff, pure_ok_iff, Prod.mk.injEq] at h
    obtain ⟨t, ⟨_, -, rfl⟩, rfl, rfl⟩ := h
    exact .inl (List.append_nil _).symm
  | setCommission r =>
    simp only [execE, setCommission, bind_ok_iff, ensure_ok_iff, pure_ok_iff, Prod.mk.injEq] at h
    obtain ⟨t, ⟨_, -, rfl⟩, rfl, rfl⟩ := h
    exact .inl (List.append_nil _).symm
  | onInit =>
    rcases onInitE_cases h with ⟨rfl, rfl⟩ | ⟨s1, e1, h1, rfl, rfl⟩
    · exact .inl (List.append_nil _).symm
    · refine .inl ?_
      rw [List.filterMap_append, advanceEraT_request, advanceEra_reqs, h1.reqs, List.append_nil]
  | onFinalize => cases h; exact .inl (List.append_nil _).symm

/-- The notes `n` are right about the settings, and about all ledgers they mention. -/
structure Below (n m : Notes) : Prop where
  rate : n.rate = m.rate
  commission : n.commission = m.commission
  rf : n.rf = m.rf
  urf : n.urf = m.urf
  cap : n.cap = m.cap
  ledgers : ∀ i l, n.ledgers i = some l → m.ledgers i = some l

theorem Below.see {n m : Notes} (h : Below n m) (e : Told) : Below (n.see e) (m.see e) := by
  obtain ⟨h1, h2, h3, h4, h5, h6⟩ := h
  cases e with
  | ledger i l =>
    refine ⟨h1, h2, h3, h4, h5, ?_⟩
    intro j x hx
    simp only [Notes.see, upd_apply] at hx ⊢
    split_ifs at hx ⊢
    · exact hx
    · exact h6 j x hx
  | _ => exact ⟨by first | rfl | exact h1, by first | rfl | exact h2, by first | rfl | exact h3, by first | rfl | exact h4,
      by first | rfl | exact h5, h6⟩

theorem Below.after {n m : Notes} (h : Below n m) (es : List Told) : Below (n.after es) (m.after es) := by
  unfold Notes.after
  induction es generalizing n m with
  | nil => exact h
  | cons e es ih => exact ih (h.see e)

theorem era_after {n m : Notes} (h : n.era = m.era) (es : List Told) : (n.after es).era = (m.after es).era := by
  unfold Notes.after
  induction es generalizing n m with
  | nil => exact h
  | cons e es ih =>
    refine ih ?_
    cases e <;> first | rfl | exact h

theorem ledgers_after {n m : Notes} (h : n.ledgers = m.ledgers) (es : List Told) : (n.after es).ledgers = (m.after es).ledgers := by
  unfold Notes.after
  induction es generalizing n m with
  | nil => exact h
  | cons e es ih =>
    refine ih ?_
    cases e <;> first | exact h | (simp only [Notes.see, h])

/-- Nothing noted, but a first bond: the events that tell of it. -/
theorem see_none {n : Notes} {e : Told} {i : Nat} (h : (n.see e).ledgers i = none) :
    n.ledgers i = none ∧ ∀ m : Notes, (m.see e).ledgers i = m.ledgers i := by
  cases e with
  | ledger j l =>
    simp only [Notes.see, upd_apply] at h ⊢
    split_ifs at h with hj
    exact ⟨h, fun m => if_neg hj⟩
  | _ => exact ⟨h, fun _ => rfl⟩

theorem after_none {i : Nat} : ∀ {es : List Told} {n : Notes}, (n.after es).ledgers i = none →
    n.ledgers i = none ∧ ∀ m : Notes, (m.after es).ledgers i = m.ledgers i
  | [], n, h => ⟨h, fun _ => rfl⟩
  | e :: es, n, h => by
    obtain ⟨h1, h2⟩ := after_none (es := es) (n := n.see e) h
    obtain ⟨h3, h4⟩ := see_none h1
    exact ⟨h3, fun m => (h2 (m.see e)).trans (h4 m)⟩

theorem Env.notes (e : Env c s s') : Notes.of s' = Notes.of s := by
  unfold Notes.of
  rw [e.same]

theorem heard_below {s0 : State} {es : List Told} {ks : List Call} (h : Heard c s0 s es ks) :
    Below ((Notes.of s0).after es) (Notes.of s) := by
  induction h with
  | init h => exact ⟨rfl, rfl, rfl, rfl, rfl, fun _ _ h => h⟩
  | env h e ih => rw [e.notes]; exact ih
  | @call s s' es fs ks h k hk he ih =>
    rw [after_append]
    have k1 := ih.after fs
    rcases execE_notes he with h1 | ⟨e, -, rfl, h1⟩ | ⟨q, i, m, -, rfl, -, hn, h1⟩
    · rw [h1]; exact k1
    · rw [h1]; exact ⟨k1.rate, k1.commission, k1.rf, k1.urf, k1.cap, k1.ledgers⟩
    · rw [h1]
      refine ⟨k1.rate, k1.commission, k1.rf, k1.urf, k1.cap, ?_⟩
      intro j l hl
      have h2 := k1.ledgers j l hl
      have h3 : s.ledgers j = some l := h2
      show upd s.ledgers i _ j = _
      rw [upd_of_ne _ _ (fun e => by rw [e, hn] at h3; cases h3)]
      exact h3

/-- Requests in flight have been announced. -/
theorem heard_requests {s0 : State} {es : List Told} {ks : List Call} (h : Heard c s0 s es ks) :
    ∀ x ∈ s.reqs, Told.sent x.2 ∈ es := by
  induction h with
  | init h => intro x hx; rw [h.reqs] at hx; cases hx
  | @env s s' es ks h e ih =>
    have : s'.reqs = s.reqs := by rw [e.same]
    rw [this]; exact ih
  | @call s s' es fs ks h k hk he ih =>
    intro x hx
    rcases execE_requests he with h1 | ⟨q, -, -, h1⟩
    · have : x.2 ∈ s'.reqs.map Prod.snd := List.mem_map_of_mem hx
      rw [h1] at this
      rcases List.mem_append.1 this with h2 | h2
      · obtain ⟨y, hy, e⟩ := List.mem_map.1 h2
        rw [← e]
        exact List.mem_append_left _ (ih y hy)
      · obtain ⟨y, hy, e⟩ := List.mem_filterMap.1 h2
        cases y with
        | sent r => cases e; exact List.mem_append_right _ hy
        | _ => cases e
    · rw [h1] at hx
      exact List.mem_append_left _ (ih x (List.mem_filter.1 hx).1)

theorem heard_ledgers {s0 : State} {es : List Told} {ks : List Call} (h : Heard c s0 s es ks) (i : Nat)
    (hn : ((Notes.of s0).after es).ledgers i = none) :
    s.ledgers i = none ∨ ∃ m, Told.sent (.bond i m) ∈ es ∧ s.ledgers i = some (.new m) := by
  induction h with
  | init h => exact .inl (h.ledgers i)
  | @env s s' es ks h e ih =>
    have : s'.ledgers = s.ledgers := by rw [e.same]
    rw [this]; exact ih hn
  | @call s s' es fs ks h k hk he ih =>
    rw [after_append] at hn
    obtain ⟨h1, h2⟩ := after_none hn
    have h3 := ih h1
    have h4 : s'.ledgers i = s.ledgers i ∨ ∃ m, Told.sent (.bond i m) ∈ es ∧ s'.ledgers i = some (.new m) := by
      rcases execE_notes he with g | ⟨e, -, rfl, g⟩ | ⟨q, j, m, -, rfl, hr, hj, g⟩
      · refine .inl ?_
        have := congrArg (fun n => Notes.ledgers n i) g
        exact this.trans (h2 _)
      · exact .inl (congrArg (fun n => Notes.ledgers n i) g)
      · have g2 : s'.ledgers i = upd s.ledgers j (some (.new m)) i := congrArg (fun n => Notes.ledgers n i) g
        rw [upd_apply] at g2
        split_ifs at g2 with hij
        · subst hij
          exact .inr ⟨m, heard_requests h _ (findReq_mem hr), g2⟩
        · exact .inl g2
    rcases h4 with e | ⟨m, h5, h6⟩
    · rw [e]
      rcases h3 with h3 | ⟨m, h5, h6⟩
      · exact .inl h3
      · exact .inr ⟨m, List.mem_append_left _ h5, h6⟩
    · exact .inr ⟨m, List.mem_append_left _ h5, h6⟩

/-- **C237** (settings) Whoever has read all events since the beginning knows the exchange rate, the commission, the two
reserve factors and the cap: in every state that any history leads to. -/
theorem C237_settings {s0 : State} {es : List Told} {ks : List Call} (h : Heard c s0 s es ks) :
    ((Notes.of s0).after es).rate = s.rate ∧ ((Notes.of s0).after es).commission = s.commission ∧
    ((Notes.of s0).after es).rf = s.rf ∧ ((Notes.of s0).after es).urf = s.urf ∧
    ((Notes.of s0).after es).cap = s.cap :=
  have b := heard_below h
  ⟨b.rate, b.commission, b.rf, b.urf, b.cap⟩

/-- **C237** (ledgers) What the events say about a staking ledger is what is stored; if they say nothing, there is no ledger
or it is untouched since the pallet announced that it bonds that amount. -/
theorem C237_ledgers {s0 : State} {es : List Told} {ks : List Call} (h : Heard c s0 s es ks) (i : Nat) :
    (∃ l, ((Notes.of s0).after es).ledgers i = some l ∧ s.ledgers i = some l) ∨
    (((Notes.of s0).after es).ledgers i = none ∧
      (s.ledgers i = none ∨ ∃ m, Told.sent (.bond i m) ∈ es ∧ s.ledgers i = some (.new m))) := by
  cases hn : ((Notes.of s0).after es).ledgers i with
  | none => exact .inr ⟨rfl, heard_ledgers h i hn⟩
  | some l => exact .inl ⟨l, rfl, (heard_below h).ledgers i l hn⟩

/-- **C237** (era) The observer knows the era as long as `force_set_current_era` is not used. -/
theorem C237_era {s0 : State} {es : List Told} {ks : List Call} (h : Heard c s0 s es ks)
    (hk : ∀ e, Call.forceEra e ∉ ks) : ((Notes.of s0).after es).era = s.era := by
  induction h with
  | init h => rfl
  | @env s s' es ks h e ih =>
    have : s'.era = s.era := by rw [e.same]
    rw [this]; exact ih hk
  | @call s s' es fs ks h k hok he ih =>
    have ih := ih (fun e h => hk e (List.mem_append_left _ h))
    rw [after_append]
    have k1 := era_after (n := (Notes.of s0).after es) (m := Notes.of s) ih fs
    rw [k1]
    rcases execE_notes he with g | ⟨e, rfl, -, -⟩ | ⟨q, j, m, -, rfl, hr, hj, g⟩
    · exact (congrArg Notes.era g).symm
    · exact absurd (List.mem_append_right ks (List.mem_singleton.2 rfl)) (hk e)
    · exact (congrArg Notes.era g).symm

/-- **C237** (requests) Each call announces exactly the requests it sends to the relay chain, in order. -/
theorem C237_requests {k : Call} {es : List Told} (h : execE c s k = .ok (s', es)) (hk : ∀ q ok, k ≠ .notify q ok) :
    s'.reqs.map Prod.snd = s.reqs.map Prod.snd ++ es.filterMap Told.request := by
  rcases execE_requests h with h | ⟨q, e, -⟩
  · exact h
  · exact absurd e (hk q true)

/-! ## Amounts -/

/-- Tokens of somebody who is none of the pallets' accounts. -/
structure Outside (c : Cfg) (w : Nat) : Prop where
  acct : w ≠ c.acct
  xcm : w ≠ c.xcmAcct
  fee : w ≠ c.feeRecv
  loans : w ≠ c.lo.acct

/-- What the events say was given up and received, in all. -/
def paidIn (c : Cfg) (x w : Nat) (es : List Told) : Nat := (es.map (Told.paid c x w)).sum
def gotIn (c : Cfg) (x w : Nat) (es : List Told) : Nat := (es.map (Told.got c x w)).sum

theorem SentE.money {x w : Nat} {es : List Told} (h : SentE c s s' es) (hw : Outside c w) :
    s'.tok.bal x w = s.tok.bal x w ∧ paidIn c x w es = 0 ∧ gotIn c x w es = 0 := by
  refine ⟨h.sent.bal x w (.inr hw.xcm), ?_, ?_⟩
  · refine List.sum_eq_zero ?_
    intro y hy
    obtain ⟨e, he, rfl⟩ := List.mem_map.1 hy
    rcases h.quiet e he with ⟨r, rfl⟩ | ⟨a, b, u, rfl⟩ <;> rfl
  · refine List.sum_eq_zero ?_
    intro y hy
    obtain ⟨e, he, rfl⟩ := List.mem_map.1 hy
    rcases h.quiet e he with ⟨r, rfl⟩ | ⟨a, b, u, rfl⟩ <;> rfl

theorem advanceEraT_money (c : Cfg) (s : State) (n x w : Nat) :
    paidIn c x w (advanceEraT c s n) = 0 ∧ gotIn c x w (advanceEraT c s n) = 0 := by
  unfold advanceEraT
  split
  · exact ⟨rfl, rfl⟩
  · split <;> exact ⟨rfl, rfl⟩

theorem advanceEra_tok (c : Cfg) (s : State) (n : Nat) : (advanceEra c s n).tok = s.tok := by
  rw [advanceEra_frame]; rfl

theorem paidIn_append (c : Cfg) (x w : Nat) (es fs : List Told) : paidIn c x w (es ++ fs) = paidIn c x w es + paidIn c x w fs := by
  simp [paidIn]
theorem gotIn_append (c : Cfg) (x w : Nat) (es fs : List Told) : gotIn c x w (es ++ fs) = gotIn c x w es + gotIn c x w fs := by
  simp [gotIn]

theorem fixSatMul_le {a : Nat} (h : a ≤ DIV) (q : Nat) : fixSatMul a q ≤ q := by
  unfold fixSatMul
  refine (Nat.min_le_right _ _).trans ?_
  have hd : 0 < DIV := by decide
  generalize DIV = d at *
  calc a * q / d ≤ d * q / d := Nat.div_le_div_right (Nat.mul_le_mul_right _ h)
    _ = q := Nat.mul_div_cancel_left _ hd

theorem fastMatchE_money {x w v : Nat} {es : List Told} (hx : x = c.staking ∨ x = c.liquid) (hc : c.Ok) (hw : Outside c w)
    (hf : c.fastFee ≤ DIV) (h : fastMatchE c s v = .ok (s', es)) :
    s'.tok.bal x w + paidIn c x w es = s.tok.bal x w + gotIn c x w es := by
  rcases fastMatchE_view h with ⟨rfl, hs⟩ | ⟨q, s1, h1, hs, rfl⟩
  · rw [hs]; rfl
  · obtain ⟨l1, l2, l3, e1, e2, -, e3, h2⟩ := settleFast_view h1
    have ht : s'.tok = l3 := by rw [hs, h2]; rfl
    rw [ht]
    have b1 := Ledger.burn_bal e1 x w
    have b2 := Ledger.transfer_bal e2 x w
    have b3 := Ledger.transfer_bal e3 x w
    have hle : fixSatMul c.fastFee q ≤ q := fixSatMul_le hf q
    simp only [paidIn, gotIn, List.map_cons, List.map_nil, List.sum_cons, List.sum_nil, Told.paid, Told.got, Nat.add_zero]
    generalize s.rate * (q - fixSatMul c.fastFee q) / DIV = m at *
    generalize fixSatMul c.fastFee q = f at *
    simp only [hw.acct, hw.fee, and_false, if_false, Nat.add_zero] at b2 b3
    have h0 := hc.sl
    have h1 := hc.sl.symm
    rcases hx with rfl | rfl
    · simp only [h0, false_and, and_false, if_false, true_and, and_true] at b1 b2 b3 ⊢
      omega
    · simp only [h1, false_and, and_false, if_false, true_and, and_true] at b1 b2 b3 ⊢
      split_ifs at b1 b2 ⊢ <;> omega

theorem forEachE_money {x w : Nat} (hx : x = c.staking ∨ x = c.liquid) (hc : c.Ok) (hw : Outside c w) (hf : c.fastFee ≤ DIV) :
    ∀ {ws : List Nat} {s s' : State} {es : List Told}, forEachE (fun s w => fastMatchE c s w) s ws = .ok (s', es) →
      s'.tok.bal x w + paidIn c x w es = s.tok.bal x w + gotIn c x w es
  | [], s, s', es, h => by cases h; rfl
  | v :: ws, s, s', es, h => by
    simp only [forEachE, bind_ok_iff, Prod.exists, pure_ok_iff, Prod.mk.injEq] at h
    obtain ⟨s1, e1, h1, s2, e2, h2, rfl, rfl⟩ := h
    have k1 := fastMatchE_money hx hc hw hf h1
    have k2 := forEachE_money hx hc hw hf h2
    rw [paidIn_append, gotIn_append]
    omega

theorem instantUnstake_bal {v m x w : Nat} (hw : Outside c w)
    (hv : ¬ (w = v ∧ x = c.staking)) (e : instantUnstake c s v m = .ok s') : s'.tok.bal x w = s.tok.bal x w := by
  obtain ⟨cf, k, l1, l2, l3, _, _, e1, e2, e3, e4, -⟩ := instantUnstake_view e
  have b1 := Ledger.mint_bal e1 x w
  have b2 := Ledger.transfer_bal e2 x w
  have b3 := Ledger.transfer_bal e3 x w
  have b4 := Ledger.transfer_bal e4 x w
  simp only [hw.acct, hw.loans, and_false, if_false, Nat.add_zero] at b1 b2 b3 b4
  rw [if_neg (fun h => hv ⟨h.2, h.1⟩)] at b4
  omega

theorem viaLoans_bal {v m x w : Nat} {p : Provider} (hw : Outside c w)
    (hv : ¬ (w = v ∧ x = c.staking)) (e : viaLoans c s v m p = .ok s') : s'.tok.bal x w = s.tok.bal x w := by
  unfold viaLoans at e
  split at e
  · exact instantUnstake_bal hw hv e
  · cases e; rfl

theorem payClaim_bal {v m x w : Nat} (hw : Outside c w) (e : payClaim c s v m = .ok s') :
    s'.tok.bal x w = s.tok.bal x w + if w = v ∧ x = c.staking then m else 0 := by
  unfold payClaim at e
  split at e
  · rename_i hv
    obtain ⟨r, y, k, l1, l2, hr, e1, e2, e3, hs⟩ := claimLoans_view e
    have b1 := Ledger.transfer_bal e1 x w
    have b2 := Ledger.transfer_bal e2 x w
    have b3 := Ledger.burn_bal e3 x w
    simp only [hw.acct, hw.loans, and_false, if_false, Nat.add_zero] at b1 b2 b3
    rw [if_neg (fun (h : w = v ∧ x = c.staking) => hw.loans (h.1.trans hv))]
    omega
  · simp only [bind_ok_iff, pure_ok_iff] at e
    obtain ⟨l, el, rfl⟩ := e
    have b1 := Ledger.transfer_bal el x w
    simp only [hw.acct, and_false, if_false, Nat.add_zero] at b1
    show l.bal x w = _
    rw [b1]
    by_cases h : x = c.staking ∧ w = v
    · rw [if_pos h, if_pos ⟨h.2, h.1⟩]
    · rw [if_neg h, if_neg (fun g => h ⟨g.2, g.1⟩)]

theorem applyReq_bal {r : Req} {x w : Nat} (hw : Outside c w) (e : applyReq c s r = .ok s') :
    s'.tok.bal x w = s.tok.bal x w := by
  have burn : ∀ {l l' : Ledger} {m : Nat}, l.burn c.staking c.acct m = .ok l' → l'.bal x w = l.bal x w := by
    intro l l' m h
    have := Ledger.burn_bal h x w
    simpa [hw.acct] using this
  cases r with
  | bond i m =>
    simp only [applyReq, bind_ok_iff, ensure_ok_iff, exists_const, pure_ok_iff] at e
    obtain ⟨-, p, -, l, hl, rfl⟩ := e
    exact burn hl
  | bondExtra i m =>
    simp only [applyReq, bind_ok_iff, pure_ok_iff] at e
    obtain ⟨t, h1, p, -, l, hl, rfl⟩ := e
    obtain ⟨_, _, -, -, rfl⟩ := updLedger_view h1
    exact burn hl
  | unbond i m =>
    simp only [applyReq, bind_ok_iff, pure_ok_iff] at e
    obtain ⟨_, -, t, h1, p, -, rfl⟩ := e
    obtain ⟨_, _, -, -, rfl⟩ := updLedger_view h1
    rfl
  | rebond i m =>
    simp only [applyReq, bind_ok_iff, pure_ok_iff] at e
    obtain ⟨t, h1, p, -, rfl⟩ := e
    obtain ⟨_, _, -, -, rfl⟩ := updLedger_view h1
    rfl
  | withdraw i =>
    simp only [applyReq, applyWithdraw, bind_ok_iff] at e
    obtain ⟨l, -, t, ht, h1⟩ := e
    obtain ⟨_, _, -, -, rfl⟩ := updLedger_view h1
    have b := Ledger.mint_bal ht x w
    rw [if_neg (fun h => hw.acct h.2)] at b
    exact b
  | nominate i => cases e; rfl

/-- **C237** (amounts) Except where an event is silent (`Staked` about what was paid and issued, `Unstaked` about an immediate
payment), every call changes the staking and liquid tokens of an account outside the pallets exactly by what its events say
was given up and received. -/
theorem C237_amounts {k : Call} {es : List Told} {x w : Nat} (hc : c.Ok) (hf : c.fastFee ≤ DIV)
    (h : execE c s k = .ok (s', es)) (hx : x = c.staking ∨ x = c.liquid) (hw : Outside c w)
    (hs : ∀ e ∈ es, ¬ e.silent c x w) :
    s'.tok.bal x w + (es.map (Told.paid c x w)).sum = s.tok.bal x w + (es.map (Told.got c x w)).sum := by
  have mute : SentE c s s' es → s'.tok.bal x w + paidIn c x w es = s.tok.bal x w + gotIn c x w es := by
    intro h
    obtain ⟨h1, h2, h3⟩ := h.money (x := x) hw
    omega
  cases k with
  | stake v m =>
    obtain ⟨h1, rfl⟩ := stakeE_view h
    have hv : w ≠ v := hs _ (List.mem_singleton_self _)
    obtain ⟨l1, l2, l3, q, -, -, e1, e2, -, -, e3, rfl⟩ := stake_view h1
    have b1 := Ledger.transfer_bal e1 x w
    have b2 := Ledger.transfer_bal e2 x w
    have b3 := Ledger.mint_bal e3 x w
    simp only [hw.acct, hw.xcm, hv, and_false, if_false, Nat.add_zero] at b1 b2 b3
    show l3.bal x w + 0 = s.tok.bal x w + 0
    omega
  | unstake v q p =>
    rcases unstakeE_view h with ⟨-, rfl, rfl⟩ | ⟨-, rfl, h1⟩
    · rfl
    · have hv := hs _ (List.mem_singleton_self _)
      obtain ⟨l1, l2, s1, -, -, e1, e2, e3, rfl⟩ := unstakeSlow_view h1
      have b3 := viaLoans_bal (x := x) (w := w) hw hv e3
      have b1 := Ledger.burn_bal e1 x w
      have b2 := Ledger.mint_bal e2 x w
      simp only [hw.acct, and_false, if_false, Nat.add_zero] at b2
      have b4 : s1.tok.bal x w = l2.bal x w := b3
      have b5 : l1.bal x w + (if x = c.liquid ∧ w = v then q else 0) = s.tok.bal x w := b1
      show s1.tok.bal x w + ((if w = v ∧ x = c.liquid then q else 0) + 0) = s.tok.bal x w + (0 + 0)
      clear b1 b3 hv hs
      split_ifs at b5 ⊢ <;> omega
  | cancelUnstake v m =>
    simp only [execE, cancelUnstake, ok_bind, pure_ok_iff, Prod.mk.injEq] at h
    obtain ⟨rfl, rfl⟩ := h
    rfl
  | claimFor v =>
    obtain ⟨h1, rfl⟩ := claimForE_view h
    obtain ⟨xs, s1, hxs, -, -, hp, rfl⟩ := claimFor_view h1
    have b := payClaim_bal (x := x) hw hp
    have e : due s s.era v = dueSum s.era xs := by unfold due; rw [hxs]; rfl
    rw [e]
    show s1.tok.bal x w + 0 = s.tok.bal x w + ((if w = v ∧ x = c.staking then dueSum s.era xs else 0) + 0)
    omega
  | fastMatch ws => exact forEachE_money hx hc hw hf h
  | bond i m => exact mute (doBondE_sent h)
  | bondExtra i m => exact mute (doBondExtraE_sent h)
  | unbond i m => exact mute (doUnbondE_sent h)
  | rebond i m => exact mute (doRebondE_sent h)
  | withdraw i => exact mute (doWithdrawE_sent h)
  | nominate i => exact mute (doNominateE_sent h)
  | notify q ok =>
    rcases notifyE_view h with ⟨rfl, rfl, -⟩ | ⟨r, s1, e1, rfl, hr, h1, rfl, rfl⟩
    · rfl
    · have h2 : applyReq c s r = .ok s1 := by rw [← applyReqE_same, h1]; rfl
      have b := applyReq_bal (x := x) hw h2
      have b' : s1.tok.bal x w = s.tok.bal x w := b
      obtain ⟨-, ⟨i, m, l, p, -, rfl, -, -⟩ | ⟨i, y, l, p, u, rfl, -⟩ | ⟨rfl, -⟩⟩ := applyReqE_view h1
      all_goals
        show s1.tok.bal x w + _ = s.tok.bal x w + _
        rw [b']; rfl
  | setEraStart b => cases h; rfl
  | forceEra e => cases h; rfl
  | forceAdvance n =>
    cases h
    obtain ⟨h1, h2⟩ := advanceEraT_money c s n x w
    unfold paidIn at h1
    unfold gotIn at h2
    rw [h1, h2, advanceEra_tok]
  | forceMatching => exact mute (doMatchingE_sent h)
  | forceLedger i l =>
    simp only [execE, forceLedgerE, bind_ok_iff, ensure_ok_iff, exists_const] at h
    obtain ⟨_, -, -, h⟩ := h
    obtain ⟨l0, l1, -, -, rfl, rfl⟩ := updLedgerE_view h
    rfl
  | setEra e proof =>
    simp only [execE, setEra, bind_ok_iff, ensure_ok_iff, pure_ok_iff, Prod.mk.injEq] at h
    obtain ⟨t, ⟨_, -, rfl⟩, rfl, rfl⟩ := h
    obtain ⟨h1, h2⟩ := advanceEraT_money c s (e - s.era) x w
    unfold paidIn at h1
    unfold gotIn at h2
    rw [h1, h2, advanceEra_tok]
  | setLedger i l proof =>
    simp only [execE, setLedgerE, bind_ok_iff, ensure_ok_iff, exists_const] at h
    obtain ⟨_, -, -, -, -, q, -, t, ht, h⟩ := h
    obtain ⟨l0, l1, -, -, rfl, rfl⟩ := updLedgerE_view h
    have b := Ledger.mint_bal ht x w
    rw [if_neg (fun h => hw.fee h.2)] at b
    exact b
  | reduceReserves recv m =>
    simp only [execE, reduceReserves, bind_ok_iff, pure_ok_iff, Prod.mk.injEq] at h
    obtain ⟨t, ⟨_, -, l, hl, rfl⟩, rfl, rfl⟩ := h
    have b := Ledger.transfer_bal hl x w
    simp only [hw.acct, and_false, if_false, Nat.add_zero] at b
    show l.bal x w + (0 + 0) = s.tok.bal x w + ((if w = recv ∧ x = c.staking then m else 0) + 0)
    rw [b]
    simp only [and_comm, Nat.add_zero]
  | reduceUReserves recv m =>
    simp only [execE, reduceUReserves, bind_ok_iff, pure_ok_iff, Prod.mk.injEq] at h
    obtain ⟨t, ⟨_, -, l, hl, rfl⟩, rfl, rfl⟩ := h
    have b := Ledger.transfer_bal hl x w
    simp only [hw.acct, and_false, if_false, Nat.add_zero] at b
    show l.bal x w + (0 + 0) = s.tok.bal x w + ((if w = recv ∧ x = c.liquid then m else 0) + 0)
    rw [b]
    simp only [and_comm, Nat.add_zero]
  | setRf p =>
    simp only [execE, setRf, bind_ok_iff, ensure_ok_iff, pure_ok_iff, Prod.mk.injEq] at h
    obtain ⟨t, ⟨_, -, rfl⟩, rfl, rfl⟩ := h
    rfl
  | setUrf p =>
    simp only [execE, setUrf, bind_ok_iff, ensure_ok_iff, pure_ok_iff, Prod.mk.injEq] at h
    obtain ⟨t, ⟨_, -, rfl⟩, rfl, rfl⟩ := h
    rfl
  | setCap m =>
    simp only [execE, setCap, bind_ok_iff, ensure_ok_iff, pure_ok_iff, Prod.mk.injEq] at h
    obtain ⟨t, ⟨_, -, rfl⟩, rfl, rfl⟩ := h
    rfl
  | setCommission r =>
    simp only [execE, setCommission, bind_ok_iff, ensure_ok_iff, pure_ok_iff, Prod.mk.injEq] at h
    obtain ⟨t, ⟨_, -, rfl⟩, rfl, rfl⟩ := h
    rfl
  | onInit =>
    rcases onInitE_cases h with ⟨rfl, rfl⟩ | ⟨s1, e1, h1, rfl, rfl⟩
    · rfl
    · obtain ⟨k1, k2, k3⟩ := h1.money (x := x) hw
      obtain ⟨k4, k5⟩ := advanceEraT_money c s1 (eraOffset c s1) x w
      have k6 := paidIn_append c x w e1 (advanceEraT c s1 (eraOffset c s1))
      have k7 := gotIn_append c x w e1 (advanceEraT c s1 (eraOffset c s1))
      unfold paidIn at k6
      unfold gotIn at k7
      rw [k6, k7, advanceEra_tok, k1]
      unfold paidIn at k2 k4
      unfold gotIn at k3 k5
      rw [k2, k3, k4, k5]
  | onFinalize => cases h; rfl

/-- **C237** (stakes) `Staked` announces what enters the matching pool: less than was paid, by the fee and the reserve; the
liquid currency is issued for that amount. -/
theorem C237_staked {w m : Nat} {es : List Told} (hc : c.Ok) (hw : Outside c w)
    (h : execE c s (.stake w m) = .ok (s', es)) :
    ∃ a q, es = [.staked w a] ∧ a + c.xcmFees + pmulFloor s.rf m = m ∧ toLiquid s.rate a = .ok q ∧
      s'.tok.bal c.staking w + m = s.tok.bal c.staking w ∧ s'.tok.bal c.liquid w = s.tok.bal c.liquid w + q ∧
      s'.pool.stake.total = s.pool.stake.total + a ∧ s'.reserves = s.reserves + pmulFloor s.rf m := by
  obtain ⟨h1, rfl⟩ := stakeE_view h
  obtain ⟨l1, l2, l3, q, -, hle, e1, e2, hq, -, e3, rfl⟩ := stake_view h1
  refine ⟨_, q, rfl, by omega, hq, ?_, ?_, rfl, rfl⟩
  · have b1 := Ledger.transfer_bal e1 c.staking w
    have b2 := Ledger.transfer_bal e2 c.staking w
    have b3 := Ledger.mint_bal e3 c.staking w
    simp only [hw.acct, hw.xcm, hc.sl, and_false, if_false, and_true, if_true, Nat.add_zero] at b1 b2 b3
    show l3.bal c.staking w + m = s.tok.bal c.staking w
    omega
  · have b1 := Ledger.transfer_bal e1 c.liquid w
    have b2 := Ledger.transfer_bal e2 c.liquid w
    have b3 := Ledger.mint_bal e3 c.liquid w
    simp only [hc.sl.symm, false_and, if_false, and_true, if_true, Nat.add_zero] at b1 b2 b3
    show l3.bal c.liquid w = s.tok.bal c.liquid w + q
    omega

/-- **C237** (claims) `ClaimedFor` announces exactly what was due to the account, and what it is no longer owed. -/
theorem C237_claimed {w : Nat} {es : List Told} (h : execE c s (.claimFor w) = .ok (s', es)) :
    es = [.claimed w (due s s.era w)] ∧ owed s w = owed s' w + due s s.era w := by
  obtain ⟨h1, rfl⟩ := claimForE_view h
  obtain ⟨xs, s1, hxs, -, -, hp, rfl⟩ := claimFor_view h1
  refine ⟨rfl, ?_⟩
  have ho := owed_upd s w (retained s.era xs) { s1 with
        unlockings := upd s.unlockings w (retained s.era xs),
        log := .claimed w (dueSum s.era xs) :: s.log } rfl w
  rw [ho, if_pos rfl, retained_getD]
  have := due_add_rest s.era xs
  unfold owed due
  rw [hxs]
  simp only [Option.getD_some]
  omega

/-- What the events say enters and leaves the matching pool. -/
structure PoolE (s s' : State) (es : List Told) : Prop where
  stake : s'.pool.stake.total + (es.map Told.stakeOut).sum = s.pool.stake.total + (es.map Told.stakeIn).sum
  unstake : s'.pool.unstake.total = s.pool.unstake.total + (es.map Told.unstakeIn).sum

theorem PoolE.of_same {es : List Told} (h : s'.pool = s.pool) (he : ∀ e ∈ es, e.stakeIn = 0 ∧ e.stakeOut = 0 ∧ e.unstakeIn = 0) :
    PoolE s s' es := by
  have z : ∀ f : Told → Nat, (∀ e ∈ es, f e = 0) → (es.map f).sum = 0 := by
    intro f hf
    refine List.sum_eq_zero ?_
    intro y hy
    obtain ⟨e, h1, rfl⟩ := List.mem_map.1 hy
    exact hf e h1
  refine ⟨?_, ?_⟩
  · rw [z _ (fun e h => (he e h).1), z _ (fun e h => (he e h).2.1), h]
  · rw [z _ (fun e h => (he e h).2.2), h]; rfl

theorem PoolE.trans {s1 s2 s3 : State} {e1 e2 : List Told} (h1 : PoolE s1 s2 e1) (h2 : PoolE s2 s3 e2) :
    PoolE s1 s3 (e1 ++ e2) := by
  have a := h1.stake; have b := h2.stake; have d := h1.unstake; have e := h2.unstake
  refine ⟨?_, ?_⟩ <;> (rw [List.map_append, List.sum_append]; try rw [List.map_append, List.sum_append]) <;> omega

theorem SentE.pool {es : List Told} (h : SentE c s s' es) : PoolE s s' es := by
  have z : ∀ f : Told → Nat, (∀ e ∈ es, f e = 0) → (es.map f).sum = 0 := by
    intro f hf
    refine List.sum_eq_zero ?_
    intro y hy
    obtain ⟨e, h1, rfl⟩ := List.mem_map.1 hy
    exact hf e h1
  have q : ∀ e ∈ es, e.stakeIn = 0 ∧ e.stakeOut = 0 ∧ e.unstakeIn = 0 := by
    intro e he
    rcases h.quiet e he with ⟨r, rfl⟩ | ⟨a, b, u, rfl⟩ <;> exact ⟨rfl, rfl, rfl⟩
  refine ⟨?_, ?_⟩
  · rw [z _ (fun e h => (q e h).1), z _ (fun e h => (q e h).2.1), h.sent.stake]
  · rw [z _ (fun e h => (q e h).2.2), h.sent.unstake]; rfl

theorem advanceEra_pool (c : Cfg) (s : State) (n : Nat) : PoolE s (advanceEra c s n) (advanceEraT c s n) := by
  refine .of_same (by rw [advanceEra_frame]) ?_
  intro e he
  unfold advanceEraT at he
  split at he
  · cases he
  · split at he
    · simp only [List.cons_append, List.nil_append, List.mem_cons, List.not_mem_nil, or_false] at he
      rcases he with rfl | rfl <;> exact ⟨rfl, rfl, rfl⟩
    · simp only [List.nil_append, List.mem_cons, List.not_mem_nil, or_false] at he
      subst he; exact ⟨rfl, rfl, rfl⟩

theorem fastMatchE_pool {w : Nat} {es : List Told} (h : fastMatchE c s w = .ok (s', es)) : PoolE s s' es := by
  rcases fastMatchE_view h with ⟨rfl, hs⟩ | ⟨q, s1, h1, hs, rfl⟩
  · exact .of_same (by rw [hs]) (by simp)
  · obtain ⟨l1, l2, l3, -, -, hle, -, h2⟩ := settleFast_view h1
    have hp : s'.pool = { s.pool with stake :=
        ⟨s.pool.stake.total - s.rate * (q - fixSatMul c.fastFee q) / DIV, s.pool.stake.reserved⟩ } := by rw [hs, h2]
    refine ⟨?_, by rw [hp]; rfl⟩
    rw [hp]
    show s.pool.stake.total - s.rate * (q - fixSatMul c.fastFee q) / DIV + (s.rate * (q - fixSatMul c.fastFee q) / DIV + 0) =
      s.pool.stake.total + 0
    omega

theorem forEachE_pool : ∀ {ws : List Nat} {s s' : State} {es : List Told},
    forEachE (fun s w => fastMatchE c s w) s ws = .ok (s', es) → PoolE s s' es
  | [], s, s', es, h => by cases h; exact .of_same rfl (by simp)
  | v :: ws, s, s', es, h => by
    simp only [forEachE, bind_ok_iff, Prod.exists, pure_ok_iff, Prod.mk.injEq] at h
    obtain ⟨s1, e1, h1, s2, e2, h2, rfl, rfl⟩ := h
    exact (fastMatchE_pool h1).trans (forEachE_pool h2)

theorem execE_pool {k : Call} {es : List Told} (h : execE c s k = .ok (s', es)) (hk : ∀ q ok, k ≠ .notify q ok) :
    PoolE s s' es := by
  have one : ∀ e : Told, e.stakeIn = 0 ∧ e.stakeOut = 0 ∧ e.unstakeIn = 0 →
      ∀ e' ∈ [e], e'.stakeIn = 0 ∧ e'.stakeOut = 0 ∧ e'.unstakeIn = 0 := by
    intro e he e' h; rw [List.mem_singleton.1 h]; exact he
  cases k with
  | stake v m =>
    obtain ⟨h1, rfl⟩ := stakeE_view h
    obtain ⟨l1, l2, l3, q, -, -, -, -, -, -, -, rfl⟩ := stake_view h1
    exact ⟨rfl, rfl⟩
  | unstake v q p =>
    rcases unstakeE_view h with ⟨-, rfl, rfl⟩ | ⟨-, rfl, h1⟩
    · exact ⟨rfl, rfl⟩
    · obtain ⟨l1, l2, s1, -, -, -, -, e3, rfl⟩ := unstakeSlow_view h1
      have := viaLoans_frame e3
      have hp : s1.pool = s.pool := by rw [this]; rfl
      refine ⟨?_, ?_⟩
      · show s1.pool.stake.total + 0 = s.pool.stake.total + 0
        rw [hp]
      · show s1.pool.unstake.total + _ = s.pool.unstake.total + (_ + 0)
        rw [hp, Nat.add_zero]
        rfl
  | cancelUnstake v m =>
    simp only [execE, cancelUnstake, ok_bind, pure_ok_iff, Prod.mk.injEq] at h
    obtain ⟨rfl, rfl⟩ := h
    exact ⟨rfl, rfl⟩
  | claimFor v =>
    obtain ⟨h1, rfl⟩ := claimForE_view h
    obtain ⟨xs, s1, hxs, -, -, hp, rfl⟩ := claimFor_view h1
    refine .of_same (es := [.claimed v (due s s.era v)]) ?_ (one _ ⟨rfl, rfl, rfl⟩)
    show s1.pool = s.pool
    rw [payClaim_frame hp]
  | fastMatch ws => exact forEachE_pool h
  | bond i m => exact (doBondE_sent h).pool
  | bondExtra i m => exact (doBondExtraE_sent h).pool
  | unbond i m => exact (doUnbondE_sent h).pool
  | rebond i m => exact (doRebondE_sent h).pool
  | withdraw i => exact (doWithdrawE_sent h).pool
  | nominate i => exact (doNominateE_sent h).pool
  | notify q ok => exact absurd rfl (hk q ok)
  | setEraStart b => cases h; exact ⟨rfl, rfl⟩
  | forceEra e => cases h; exact ⟨rfl, rfl⟩
  | forceAdvance n => cases h; exact advanceEra_pool c s n
  | forceMatching => exact (doMatchingE_sent h).pool
  | forceLedger i l =>
    simp only [execE, forceLedgerE, bind_ok_iff, ensure_ok_iff, exists_const] at h
    obtain ⟨_, -, -, h⟩ := h
    obtain ⟨l0, l1, -, -, rfl, rfl⟩ := updLedgerE_view h
    exact ⟨rfl, rfl⟩
  | setEra e proof =>
    simp only [execE, setEra, bind_ok_iff, ensure_ok_iff, pure_ok_iff, Prod.mk.injEq] at h
    obtain ⟨t, ⟨_, -, rfl⟩, rfl, rfl⟩ := h
    exact advanceEra_pool c s _
  | setLedger i l proof =>
    simp only [execE, setLedgerE, bind_ok_iff, ensure_ok_iff, exists_const] at h
    obtain ⟨_, -, -, -, -, q, -, t, -, h⟩ := h
    obtain ⟨l0, l1, -, -, rfl, rfl⟩ := updLedgerE_view h
    exact ⟨rfl, rfl⟩
  | reduceReserves recv m =>
    simp only [execE, reduceReserves, bind_ok_iff, pure_ok_iff, Prod.mk.injEq] at h
    obtain ⟨t, ⟨_, -, l, -, rfl⟩, rfl, rfl⟩ := h
    exact ⟨rfl, rfl⟩
  | reduceUReserves recv m =>
    simp only [execE, reduceUReserves, bind_ok_iff, pure_ok_iff, Prod.mk.injEq] at h
    obtain ⟨t, ⟨_, -, l, -, rfl⟩, rfl, rfl⟩ := h
    exact ⟨rfl, rfl⟩
  | setRf p =>
    simp only [execE, setRf, bind_ok_iff, ensure_ok_iff, pure_ok_iff, Prod.mk.injEq] at h
    obtain ⟨t, ⟨_, -, rfl⟩, rfl, rfl⟩ := h
    exact ⟨rfl, rfl⟩
  | setUrf p =>
    simp only [execE, setUrf, bind_ok_iff, ensure_ok_iff, pure_ok_iff, Prod.mk.injEq] at h
    obtain ⟨t, ⟨_, -, rfl⟩, rfl, rfl⟩ := h
    exact ⟨rfl, rfl⟩
  | setCap m =>
    simp only [execE, setCap, bind_ok_iff, ensure_ok_iff, pure_ok_iff, Prod.mk.injEq] at h
    obtain ⟨t, ⟨_, -, rfl⟩, rfl, rfl⟩ := h
    exact ⟨rfl, rfl⟩
  | setCommission r =>
    simp only [execE, setCommission, bind_ok_iff, ensure_ok_iff, pure_ok_iff, Prod.mk.injEq] at h
    obtain ⟨t, ⟨_, -, rfl⟩, rfl, rfl⟩ := h
    exact ⟨rfl, rfl⟩
  | onInit =>
    rcases onInitE_cases h with ⟨rfl, rfl⟩ | ⟨s1, e1, h1, rfl, rfl⟩
    · exact ⟨rfl, rfl⟩
    · exact h1.pool.trans (advanceEra_pool c s1 _)
  | onFinalize => cases h; exact ⟨rfl, rfl⟩

/-- **C237** (matching pool) Except for responses of the relay chain, the two sides of the matching pool change exactly by
what is announced as staked, matched and unstaked. -/
theorem C237_pool {k : Call} {es : List Told} (h : execE c s k = .ok (s', es)) (hk : ∀ q ok, k ≠ .notify q ok) :
    s'.pool.stake.total + (es.map Told.stakeOut).sum = s.pool.stake.total + (es.map Told.stakeIn).sum ∧
    s'.pool.unstake.total = s.pool.unstake.total + (es.map Told.unstakeIn).sum :=
  ⟨(execE_pool h hk).stake, (execE_pool h hk).unstake⟩

/-! ## What the events do not tell -/

/-- The full claim for the era. -/
def C237_era_statement : Prop := ∀ (c : Cfg) (s0 s : State) (es : List Told) (ks : List Call), c.Ok → Heard c s0 s es ks →
  ((Notes.of s0).after es).era = s.era

/-- The full claim for the ledgers. -/
def C237_ledgers_statement : Prop := ∀ (c : Cfg) (s0 s : State) (es : List Told) (ks : List Call), c.Ok → Heard c s0 s es ks →
  ∀ i, ((Notes.of s0).after es).ledgers i = s.ledgers i

/-- The full claim for cancelled requests: the announced amount is what the request has lost. -/
def C237_cancel_statement : Prop := ∀ (c : Cfg) (s s' : State) (w m a b : Nat) (es : List Told), c.Ok → Reach c s →
  execE c s (.cancelUnstake w m) = .ok (s', es) → Told.cancelled w a b ∈ es → (s.fast w).getD 0 = (s'.fast w).getD 0 + b

/-- Run a list of calls and collect the events. -/
def tell (c : Cfg) (p : State × List Told) (ks : List Call) : State × List Told :=
  ks.foldl (fun p k => match execE c p.1 k with
    | .ok (s', es) => (s', p.2 ++ es)
    | .error _ => p) p

theorem tell_heard {s0 : State} : ∀ {ks : List Call} {p : State × List Told} {js : List Call}, Heard c s0 p.1 p.2 js →
    (∀ k ∈ ks, k.plain c = true) → ∃ js', Heard c s0 (tell c p ks).1 (tell c p ks).2 js'
  | [], p, js, h, _ => ⟨js, h⟩
  | k :: ks, p, js, h, hk => by
    have h1 := hk k (by simp)
    have h2 := fun k' hk' => hk k' (List.mem_cons_of_mem _ hk')
    unfold tell
    rw [List.foldl_cons]
    cases he : execE c p.1 k with
    | error e => exact tell_heard (ks := ks) h h2
    | ok r =>
      obtain ⟨s', es⟩ := r
      exact tell_heard (ks := ks) (p := (s', p.2 ++ es)) (h.call k (Call.plain_ok h1) he) h2

theorem heard_reach {s0 : State} {es : List Told} {ks : List Call} (h : Heard c s0 s es ks) : Reach c s := by
  induction h with
  | init h => exact .init h
  | call h k hk he ih => exact .step ih (.call k hk trivial (execE_exec he))
  | env h e ih => exact .step ih (.env e)

/-- Users 7 and 9 stake; the pallet asks the relay chain to bond; it has. -/
def exHeard1 : State × List Told := tell exC (ex0, []) [.stake 7 10000, .stake 9 1000]
def exHeard2 : State × List Told := tell exC (pass exHeard1.1 30 (fun _ => none), exHeard1.2)
  [.onInit, .notify 0 true, .notify 1 true]
/-- 7 unstakes, 9 asks for a fast unstake and gets it from a new stake of 7; the factors are changed. -/
def exHeard3 : State × List Told := tell exC exHeard2
  [.unstake 7 3000 .relay, .unstake 9 200 .pool, .stake 7 500, .fastMatch [9], .setRf 20000, .setCap 9000]

theorem exHeard2_heard : ∃ ks, Heard exC ex0 exHeard2.1 exHeard2.2 ks := by
  have h0 : ∃ js, Heard exC ex0 exHeard1.1 exHeard1.2 js :=
    tell_heard (ks := [.stake 7 10000, .stake 9 1000]) (p := (ex0, [])) (.init ex0_fresh) (by decide)
  obtain ⟨js, h1⟩ := h0
  have h2 : Env exC exHeard1.1 (pass exHeard1.1 30 (fun _ => none)) :=
    pass_env ((heard_reach h1).inv exC_ok).wf none_consistent
  have h3 : Heard exC ex0 (pass exHeard1.1 30 (fun _ => none)) exHeard1.2 js := h1.env h2
  unfold exHeard2
  generalize pass exHeard1.1 30 (fun _ => none) = t at h3 ⊢
  generalize exHeard1.2 = es at h3 ⊢
  exact tell_heard (p := (t, es)) h3 (by decide)

theorem exHeard3_heard : ∃ ks, Heard exC ex0 exHeard3.1 exHeard3.2 ks := by
  obtain ⟨js, h1⟩ := exHeard2_heard
  exact tell_heard h1 (by decide)

/-- **C237 (refuted).** `force_set_current_era` changes the era, and the response to a first bond adds a ledger, without an
event; `cancel_unstake` announces any amount its caller names. -/
theorem C237_refuted : ¬ C237_era_statement ∧ ¬ C237_ledgers_statement ∧ ¬ C237_cancel_statement := by
  refine ⟨fun h => ?_, fun h => ?_, fun h => ?_⟩
  · have h1 : Heard exC ex0 { ex0 with matched := false, era := 5 } ([] ++ []) ([] ++ [.forceEra 5]) :=
      .call (.init ex0_fresh) (.forceEra 5) trivial rfl
    exact absurd (h exC ex0 _ _ _ exC_ok h1) (by decide)
  · obtain ⟨ks, h1⟩ := exHeard2_heard
    have h2 := h exC ex0 _ _ _ exC_ok h1 0
    have h3 : (((Notes.of ex0).after exHeard2.2).ledgers 0).isSome = false := by decide +kernel
    have h4 : (exHeard2.1.ledgers 0).isSome = true := by decide +kernel
    rw [h2, h4] at h3
    cases h3
  · have h2 := h exC ex0 _ 7 500 500 500 _ exC_ok ex0_reach rfl (List.mem_singleton_self _)
    exact absurd h2 (by decide +kernel)

/-- The claims are about something: stakes, a request for a slow and one for a fast unstake, a match and two settings have
been announced, with the right amounts. -/
example : (exHeard3.2.map Told.stakeIn).sum = 11355 ∧ 0 < (exHeard3.2.map Told.stakeOut).sum ∧
    (exHeard3.2.map Told.unstakeIn).sum = 2970 ∧ (exHeard3.2.filterMap Told.request).length = 2 ∧
    0 < gotIn exC exC.staking 9 exHeard3.2 ∧ ((Notes.of ex0).after exHeard3.2).rf = 20000 ∧
    ((Notes.of ex0).after exHeard3.2).cap = 9000 := by decide +kernel

end Verif.Staking
