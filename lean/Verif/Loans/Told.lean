import Verif.Loans.Queries
import Verif.Loans.Markets

/-!
# C232: the events of the lending pallet

`execE` is `exec` (Loans/Model.lean) that also returns the deposited events (the reward events
`DistributedSupplierReward`, `DistributedBorrowerReward` and `MarketRewardSpeedUpdated` are in the log of
`Loans/Model.lean` already).
-/

namespace Verif.Loans
open Verif

/-- `Event` (`pallets/loans/src/lib.rs:208-268`), fields in the order of the source. -/
inductive Ev where
  | collOn (who a : Nat)
  | collOff (who a : Nat)
  | deposited (who a m : Nat)
  | redeemed (who a m : Nat)
  | borrowed (who a m : Nat)
  | repaid (who a m : Nat)
  | liquidated (liq br a k m und : Nat)
  | reservesReduced (who a m total : Nat)
  | reservesAdded (who a m total : Nat)
  | newMarket (a : Nat) (m : Market)
  | activated (a : Nat)
  | updated (a : Nat) (m : Market)
  | rewardAdded (who m : Nat)
  | rewardWithdrawn (who m : Nat)
  | rewardPaid (who m : Nat)
  | incentiveReduced (who a m : Nat)
  | lfc (as : List Nat)

/-- `redeem` with its event (`pallets/loans/src/lib.rs:857-867, 2209-2226`): the amount announced is the amount paid. -/
def redeemE (c : Cfg) (s : State) (w a m : Nat) : R (State × List Ev) := do
  ensure (m ≠ 0) .invalidAmount
  let x ← doRedeem c s w a m
  pure (x.1, [.redeemed w a x.2])

/-- `redeem_all` with its event (`pallets/loans/src/lib.rs:875-889`). -/
def redeemAllE (c : Cfg) (s : State) (w a : Nat) : R (State × List Ev) := do
  let _ ← ensureActive s a
  let s ← accrue c s a
  let r ← rateStored c s a
  let s ← updEarned s w a r
  let x ← redeemVoucher c s w a (s.vouchers a w)
  pure (x.1, [.redeemed w a x.2])

/-- `repay_borrow_all` with its event (`pallets/loans/src/lib.rs:935-946, 2196-2207`). -/
def repayAllE (c : Cfg) (s : State) (w a : Nat) : R (State × List Ev) := do
  let _ ← ensureActive s a
  let s ← accrue c s a
  let d ← debt s a w
  let s ← repay c s w a d
  pure (s, [.repaid w a d])

/-- `do_liquidate_borrow` with the event of `liquidated_transfer` (`pallets/loans/src/lib.rs:1675-1860`). -/
def doLiquidateE (c : Cfg) (s : State) (liq borrower a m k : Nat) : R (State × List Ev) := do
  let _ ← ensureActive s a
  let _ ← ensureActive s k
  let mk ← market s a
  ensure (borrower ≠ liq) .liquidatorIsBorrower
  liquidateAllowed c s borrower a m mk
  ensure ((s.dep k borrower).coll = true) .depositsAreNotCollateral
  let r ← rateStored c s k
  let amt ← okOr (fixMulInt r (s.vouchers k borrower)) .overflow
  let cv ← assetValue s k amt
  let rv ← assetValue s a m
  let lv ← okOr (fixMul rv mk.incentive) .overflow
  ensure (lv ≤ cv) .insufficientCollateral
  let p ← getPrice s k
  let und ← okOr (fixDiv lv p) .underflow
  let s ← liquidatedTransfer c s liq borrower a k m und mk
  pure (s, [.liquidated liq borrower a k m und])

/-- `liquidate_borrow` with its event (`pallets/loans/src/lib.rs:985-1008`). -/
def liquidateE (c : Cfg) (s : State) (liq borrower a m k : Nat) : R (State × List Ev) := do
  ensure (k ∉ s.lfc ∧ isAux k = false) .collateralReserved
  let s ← accrue c s a
  let s ← accrue c s k
  doLiquidateE c s liq borrower a m k

/-- `reduce_incentive_reserves` with its event (`pallets/loans/src/lib.rs:1100-1121`): the name `redeem_amount` is shadowed
by what was paid. -/
def reduceIncentiveE (c : Cfg) (s : State) (recv a m : Nat) : R (State × List Ev) := do
  ensure (m ≠ 0) .invalidAmount
  let _ ← ensureActive s a
  let r ← rateStored c s a
  let v ← toVouchers m r
  let x ← redeemVoucher c s c.incentiveAcct a v
  let l ← x.1.ledger.transfer a c.incentiveAcct recv x.2 false
  pure ({ x.1 with ledger := l }, [.incentiveReduced recv a x.2])

/-- `pay_reward` with its event, also when there is nothing to pay (`pallets/loans/src/farming.rs:205-215`). -/
def payRewardE (c : Cfg) (s : State) (w : Nat) : R (State × List Ev) := do
  let s' ← payReward c s w
  pure (s', [.rewardPaid w (s.rw.accrued w)])

/-- The event of a call that changes market `a`: the market after the call. -/
def marketE (ev : Market → Ev) (a : Nat) (x : R State) : R (State × List Ev) := do
  let s ← x
  let m ← market s a
  pure (s, [ev m])

/-- A call and the event deposited at its end. -/
def thenE (x : R State) (ev : State → Ev) : R (State × List Ev) := do
  let s ← x
  pure (s, [ev s])

/-- Dispatch of a call with its events (`pallets/loans/src/lib.rs:488-1184`; transfers of ptokens,
`pallets/loans/src/ptoken.rs:134-193`, deposit none). -/
def execE (c : Cfg) (s : State) : Call → R (State × List Ev)
  | .addMarket a m => thenE (addMarket s a m) (fun _ => .newMarket a m)
  | .activate a => thenE (activate s a) (fun _ => .activated a)
  | .updateModel a rm => marketE (.updated a) a (updateModel s a rm)
  | .updateMarket a p => marketE (.updated a) a (updateMarket s a p)
  | .forceUpdate a m => marketE (.updated a) a (forceUpdate s a m)
  | .addReward w m => thenE (addReward c s w m) (fun _ => .rewardAdded w m)
  | .withdrawReward t m => thenE (withdrawReward c s t m) (fun _ => .rewardWithdrawn t m)
  | .updateSpeed a x y => do
    let s ← updateSpeed s a x y
    pure (s, [])
  | .claim w => do
    let s ← collectAll s w s.ids
    payRewardE c s w
  | .claimFor w a => do
    let s ← collect s a w
    payRewardE c s w
  | .mint w a m => thenE (mint c s w a m) (fun _ => .deposited w a m)
  | .redeem w a m => redeemE c s w a m
  | .redeemAll w a => redeemAllE c s w a
  | .borrow w a m => thenE (borrow c s w a m) (fun _ => .borrowed w a m)
  | .repay w a m => thenE (repay c s w a m) (fun _ => .repaid w a m)
  | .repayAll w a => repayAllE c s w a
  | .collateral w a on => thenE (collateralAsset c s w a on) (fun _ => if on then .collOn w a else .collOff w a)
  | .liquidate l b a m k => liquidateE c s l b a m k
  | .addReserves w a m => thenE (addReserves c s w a m) (fun s' => .reservesAdded w a m (s'.books a).reserves)
  | .reduceReserves w a m => thenE (reduceReserves c s w a m) (fun s' => .reservesReduced w a m (s'.books a).reserves)
  | .reduceIncentive w a m => reduceIncentiveE c s w a m
  | .updateLfc as => .ok ({ s with lfc := as }, [.lfc as])
  | .transferP p x y m => do
    let s ← transferP c s p x y m
    pure (s, [])

/-! ## Specification -/

/-- How much of asset `x` an event says `w` has paid. -/
def Ev.paid (c : Cfg) (x w : Nat) : Ev → Nat
  | .deposited v a m | .repaid v a m | .reservesAdded v a m _ => if w = v ∧ x = a then m else 0
  | .liquidated l _ a _ m _ => if w = l ∧ x = a then m else 0
  | .rewardAdded v m => if w = v ∧ x = c.rewardAsset then m else 0
  | _ => 0

/-- How much of asset `x` an event says `w` has received. -/
def Ev.got (c : Cfg) (x w : Nat) : Ev → Nat
  | .redeemed v a m | .borrowed v a m | .reservesReduced v a m _ | .incentiveReduced v a m => if w = v ∧ x = a then m else 0
  | .rewardWithdrawn v m | .rewardPaid v m => if w = v ∧ x = c.rewardAsset then m else 0
  | _ => 0

/-- The accounts an event names. -/
def Ev.names : Ev → List Nat
  | .collOn w _ | .collOff w _ | .deposited w _ _ | .redeemed w _ _ | .borrowed w _ _ | .repaid w _ _
  | .reservesReduced w _ _ _ | .reservesAdded w _ _ _ | .rewardAdded w _ | .rewardWithdrawn w _ | .rewardPaid w _
  | .incentiveReduced w _ _ => [w]
  | .liquidated l b _ _ _ _ => [l, b]
  | _ => []

/-- What `w` has in the pallet and outside: assets, deposits (as vouchers, and whether they are collateral), debts. -/
def Untouched (s s' : State) (w : Nat) : Prop :=
  ∀ a, s'.ledger.bal a w = s.ledger.bal a w ∧ s'.deposits a w = s.deposits a w ∧ s'.debts a w = s.debts a w

/-- **C232** Nobody's assets, deposits or debts change in a call unless an event of that call names them. -/
def C232_statement : Prop :=
  ∀ (c : Cfg) (s : State), Reach c s → ∀ k s' es, k.wt → c.acct ∉ k.signers → execE c s k = .ok (s', es) →
    ∀ w, w ≠ c.acct → w ≠ c.rewardAcct → w ≠ c.incentiveAcct → (∀ e ∈ es, w ∉ e.names) → Untouched s s' w

/-- What an event says about markets, reserves, collateral and a seizure, where `s` is the state before the call and `s'` the
one after it. -/
def Ev.holds (c : Cfg) (s s' : State) : Ev → Prop
  | .newMarket a m => s.markets a = none ∧ s'.markets a = some m
  | .activated a => ∃ m, s.markets a = some m ∧ s'.markets a = some { m with state := .active }
  | .updated a m => s.markets a ≠ none ∧ s'.markets a = some m
  | .reservesAdded _ a m t => (s'.books a).reserves = t ∧ t = (s.books a).reserves + m
  | .reservesReduced _ a m t => (s'.books a).reserves = t ∧ t + m = (s.books a).reserves
  | .collOn w a => (s.dep a w).coll = false ∧ s'.dep a w = { s.dep a w with coll := true }
  | .collOff w a => (s.dep a w).coll = true ∧ s'.dep a w = { s.dep a w with coll := false }
  | .lfc as => s'.lfc = as
  | .liquidated lq br _ k _ und => br ≠ lq ∧
      (br ≠ c.incentiveAcct → s'.vouchers k br + und * DIV / xrate c s' k = s.vouchers k br)
  | _ => True

/-- The event is about the settings of market `a`. -/
def Ev.about (a : Nat) : Ev → Prop
  | .newMarket b _ | .activated b | .updated b _ => b = a
  | _ => False

/-! ## Proofs -/

variable {c : Cfg} {s s' : State}

theorem thenE_fst (x : R State) (ev : State → Ev) : Prod.fst <$> thenE x ev = x := by
  cases x <;> rfl

theorem marketE_fst (ev : Market → Ev) {a : Nat} {x : R State} (h : ∀ s, x = .ok s → ∃ m, s.markets a = some m) :
    Prod.fst <$> marketE ev a x = x := by
  cases x with
  | error e => rfl
  | ok t =>
    obtain ⟨m, hm⟩ := h t rfl
    simp only [marketE, ok_bind, market, hm, okOr]
    rfl

theorem payRewardE_fst (w : Nat) : Prod.fst <$> payRewardE c s w = payReward c s w := by
  unfold payRewardE
  cases payReward c s w <;> rfl

/-- The events are additional: acceptance, errors and the new state are those of `exec`. -/
theorem C232_same (c : Cfg) (s : State) (k : Call) : Prod.fst <$> execE c s k = exec c s k := by
  cases k with
  | addMarket a m => exact thenE_fst _ _
  | activate a => exact thenE_fst _ _
  | updateModel a rm =>
    refine marketE_fst _ fun t h => ?_
    simp only [updateModel, bind_ok_iff, ensure_ok_iff] at h
    obtain ⟨_, _, h⟩ := h
    obtain ⟨m, hm, rfl⟩ := mutateMarket_view h
    exact ⟨_, upd_same _ _ _⟩
  | updateMarket a p =>
    refine marketE_fst _ fun t h => ?_
    obtain ⟨m, hm, _, _, _, _, _, rfl⟩ := updateMarket_view h
    exact ⟨_, upd_same _ _ _⟩
  | forceUpdate a m =>
    refine marketE_fst _ fun t h => ?_
    obtain ⟨m0, hm, _, _, rfl⟩ := forceUpdate_view h
    exact ⟨_, upd_same _ _ _⟩
  | addReward w m => exact thenE_fst _ _
  | withdrawReward t m => exact thenE_fst _ _
  | updateSpeed a x y => show _ = updateSpeed s a x y; simp only [execE]; cases updateSpeed s a x y <;> rfl
  | claim w =>
    simp only [execE, exec, claim, map_bind, payRewardE_fst]
  | claimFor w a =>
    simp only [execE, exec, claimFor, map_bind, payRewardE_fst]
  | mint w a m => exact thenE_fst _ _
  | redeem w a m => simp only [execE, exec, redeemE, redeem, map_bind, map_pure]
  | redeemAll w a => simp only [execE, exec, redeemAllE, redeemAll, map_bind, map_pure]
  | borrow w a m => exact thenE_fst _ _
  | repay w a m => exact thenE_fst _ _
  | repayAll w a => simp only [execE, exec, repayAllE, repayAll, map_bind, map_pure, bind_pure]
  | collateral w a on => exact thenE_fst _ _
  | liquidate l b a m k =>
    simp only [execE, exec, liquidateE, liquidate, doLiquidateE, doLiquidate, map_bind, map_pure, bind_pure]
  | addReserves w a m => exact thenE_fst _ _
  | reduceReserves w a m => exact thenE_fst _ _
  | reduceIncentive w a m => simp only [execE, exec, reduceIncentiveE, reduceIncentive, map_bind, map_pure]
  | updateLfc as => rfl
  | transferP p x y m => simp only [execE, exec, map_bind, map_pure, bind_pure]

theorem thenE_ok {x : R State} {ev : State → Ev} {es : List Ev} (h : thenE x ev = .ok (s', es)) :
    x = .ok s' ∧ es = [ev s'] := by
  simp only [thenE, bind_ok_iff, pure_ok_iff, Prod.mk.injEq] at h
  obtain ⟨t, h, rfl, rfl⟩ := h
  exact ⟨h, rfl⟩

theorem marketE_ok {ev : Market → Ev} {a : Nat} {x : R State} {es : List Ev} (h : marketE ev a x = .ok (s', es)) :
    x = .ok s' ∧ ∃ m, s'.markets a = some m ∧ es = [ev m] := by
  simp only [marketE, market, bind_ok_iff, okOr_ok_iff, pure_ok_iff, Prod.mk.injEq] at h
  obtain ⟨t, h, m, hm, rfl, rfl⟩ := h
  exact ⟨h, m, hm, rfl⟩

/-- A single transfer and a single event. -/
theorem one_in {l l' : Ledger} {a src dst m : Nat} {kp : Bool} (t : l.transfer a src dst m kp = .ok l') {x w : Nat}
    (hw : w ≠ dst) : l'.bal x w + (if w = src ∧ x = a then m else 0) = l.bal x w := by
  have h := Ledger.transfer_bal t x w
  simp only [hw, and_false, if_false] at h
  split_ifs at h ⊢ <;> omega

theorem one_out {l l' : Ledger} {a src dst m : Nat} {kp : Bool} (t : l.transfer a src dst m kp = .ok l') {x w : Nat}
    (hw : w ≠ src) : l'.bal x w = l.bal x w + (if w = dst ∧ x = a then m else 0) := by
  have h := Ledger.transfer_bal t x w
  simp only [hw, and_false, if_false] at h
  split_ifs at h ⊢ <;> omega

theorem redeemE_ok {w a m : Nat} {es : List Ev} (h : redeemE c s w a m = .ok (s', es)) :
    ∃ l y, s.ledger.transfer a c.acct w y false = .ok l ∧ s'.ledger = l ∧ es = [.redeemed w a y] := by
  simp only [redeemE, bind_ok_iff, pure_ok_iff, Prod.exists, Prod.mk.injEq] at h
  obtain ⟨_, _, t, y, h, rfl, rfl⟩ := h
  obtain ⟨mk, b, e, r, _, _, _, _, _, hv⟩ := doRedeem_view h
  obtain ⟨x, r, l, _, _, hy, _, _, _, hl, hs⟩ := redeemVoucher_view hv
  simp only at hy hs
  subst hy
  exact ⟨l, _, hl, by rw [hs], rfl⟩

theorem redeemAllE_ok {w a : Nat} {es : List Ev} (h : redeemAllE c s w a = .ok (s', es)) :
    ∃ l y, s.ledger.transfer a c.acct w y false = .ok l ∧ s'.ledger = l ∧ es = [.redeemed w a y] := by
  simp only [redeemAllE, bind_ok_iff, pure_ok_iff, Prod.exists, Prod.mk.injEq] at h
  obtain ⟨mk, _, s1, ha, r, _, s2, he, t, y, hv, rfl, rfl⟩ := h
  obtain ⟨x, r, l, _, _, hy, _, _, _, hl, hs⟩ := redeemVoucher_view hv
  simp only at hy hs
  subst hy
  have e1 : s1.ledger = s.ledger := by obtain ⟨b, rfl, -⟩ := accrue_ok ha; rfl
  have e2 : s2.ledger = s1.ledger := by obtain ⟨e, rfl⟩ := updEarned_ok he; rfl
  rw [e2, e1] at hl
  exact ⟨l, _, hl, by rw [hs], rfl⟩

theorem repayAllE_ok {w a : Nat} {es : List Ev} (h : repayAllE c s w a = .ok (s', es)) :
    repayAll c s w a = .ok s' ∧ ∃ s1 d, accrue c s a = .ok s1 ∧ debt s1 a w = .ok d ∧ es = [.repaid w a d] := by
  have e := C232_same c s (.repayAll w a)
  simp only [execE, exec, h] at e
  simp only [repayAllE, bind_ok_iff, pure_ok_iff, Prod.mk.injEq] at h
  obtain ⟨mk, _, s1, ha, d, hd, t, _, rfl, rfl⟩ := h
  exact ⟨e.symm, s1, d, ha, hd, rfl⟩

theorem liquidateE_ok {liq br a m k : Nat} {es : List Ev} (h : liquidateE c s liq br a m k = .ok (s', es)) :
    ∃ s1 s2 mk und, accrue c s a = .ok s1 ∧ accrue c s1 k = .ok s2 ∧ br ≠ liq ∧
      liquidatedTransfer c s2 liq br a k m und mk = .ok s' ∧ es = [.liquidated liq br a k m und] := by
  simp only [liquidateE, doLiquidateE, bind_ok_iff, ensure_ok_iff, exists_const, pure_ok_iff, Prod.mk.injEq] at h
  obtain ⟨_, s1, h1, s2, h2, _, _, _, _, mk, _, hne, _, _, _, _, _, _, _, _, _, _, _, _, _, _, _, _, und, _, t, ht, rfl, rfl⟩ := h
  exact ⟨s1, s2, mk, und, h1, h2, hne, ht, rfl⟩

theorem reduceIncentiveE_ok {w a m : Nat} {es : List Ev} (h : reduceIncentiveE c s w a m = .ok (s', es)) :
    reduceIncentive c s w a m = .ok s' ∧ ∃ l l' y, s.ledger.transfer a c.acct c.incentiveAcct y false = .ok l ∧
      l.transfer a c.incentiveAcct w y false = .ok l' ∧ s'.ledger = l' ∧ es = [.incentiveReduced w a y] := by
  have e := C232_same c s (.reduceIncentive w a m)
  simp only [execE, exec, h] at e
  simp only [reduceIncentiveE, bind_ok_iff, pure_ok_iff, Prod.exists, Prod.mk.injEq] at h
  obtain ⟨_, _, _, _, r, _, v, _, t, y, hv, l', hl', rfl, rfl⟩ := h
  obtain ⟨x, r, l, _, _, hy, _, _, _, hl, hs⟩ := redeemVoucher_view hv
  simp only at hy hs
  subst hy
  rw [hs] at hl'
  exact ⟨e.symm, l, l', _, hl, hl', rfl, rfl⟩

theorem RwOnly.ledger {s t : State} (h : RwOnly s t) : t.ledger = s.ledger := by
  obtain ⟨x, rfl⟩ := h; rfl

theorem payRewardE_ok {w : Nat} {es : List Ev} (h : payRewardE c s w = .ok (s', es)) :
    ∃ l, s.ledger.transfer c.rewardAsset c.rewardAcct w (s.rw.accrued w) true = .ok l ∧ s'.ledger = l ∧
      s'.deposits = s.deposits ∧ s'.debts = s.debts ∧ es = [.rewardPaid w (s.rw.accrued w)] := by
  simp only [payRewardE, bind_ok_iff, pure_ok_iff, Prod.mk.injEq] at h
  obtain ⟨t, h, rfl, rfl⟩ := h
  obtain ⟨l, hl, rfl⟩ := payReward_view h
  exact ⟨l, hl, rfl, rfl, rfl, rfl⟩

/-- The calls that move rewards. -/
def Call.usesPot : Call → Prop
  | .addReward .. | .withdrawReward .. | .claim _ | .claimFor .. => True
  | _ => False

/-- Balances and events, also of the reward account where no rewards are moved. -/
theorem amounts_of {k : Call} {es : List Ev} (h : execE c s k = .ok (s', es)) {x w : Nat} (hw : w ≠ c.acct)
    (hr : k.usesPot → w ≠ c.rewardAcct) :
    s'.ledger.bal x w + (es.map (Ev.paid c x w)).sum = s.ledger.bal x w + (es.map (Ev.got c x w)).sum := by
  cases k with
  | addMarket a m =>
    obtain ⟨g, rfl⟩ := thenE_ok h
    obtain ⟨_, _, _, _, _, _, _, _, _, _, rfl⟩ := addMarket_view g
    rfl
  | activate a =>
    obtain ⟨g, rfl⟩ := thenE_ok h
    obtain ⟨m, hm, rfl⟩ := mutateMarket_view g
    rfl
  | updateModel a rm =>
    obtain ⟨g, m, hm, rfl⟩ := marketE_ok h
    simp only [updateModel, bind_ok_iff, ensure_ok_iff] at g
    obtain ⟨_, _, g⟩ := g
    obtain ⟨m, hm, rfl⟩ := mutateMarket_view g
    rfl
  | updateMarket a p =>
    obtain ⟨g, m, hm, rfl⟩ := marketE_ok h
    obtain ⟨m, hm, _, _, _, _, _, rfl⟩ := updateMarket_view g
    rfl
  | forceUpdate a m =>
    obtain ⟨g, m, hm, rfl⟩ := marketE_ok h
    obtain ⟨m0, hm, _, _, rfl⟩ := forceUpdate_view g
    rfl
  | addReward v m =>
    obtain ⟨g, rfl⟩ := thenE_ok h
    obtain ⟨l, hl, rfl⟩ := addReward_view g
    simpa [Ev.paid, Ev.got] using one_in hl (hr trivial)
  | withdrawReward v m =>
    obtain ⟨g, rfl⟩ := thenE_ok h
    obtain ⟨l, hl, rfl⟩ := withdrawReward_view g
    simpa [Ev.paid, Ev.got] using one_out hl (hr trivial)
  | updateSpeed a y z =>
    simp only [execE, bind_ok_iff, pure_ok_iff, Prod.mk.injEq] at h
    obtain ⟨t, g, rfl, rfl⟩ := h
    rw [(updateSpeed_rw g).ledger]
    rfl
  | claim v =>
    simp only [execE, bind_ok_iff] at h
    obtain ⟨t, h1, h⟩ := h
    obtain ⟨l, hl, rfl, -, -, rfl⟩ := payRewardE_ok h
    rw [(collectAll_rw h1).ledger] at hl
    simpa [Ev.paid, Ev.got] using one_out hl (hr trivial)
  | claimFor v a =>
    simp only [execE, bind_ok_iff] at h
    obtain ⟨t, h1, h⟩ := h
    obtain ⟨l, hl, rfl, -, -, rfl⟩ := payRewardE_ok h
    rw [(collect_rw h1).ledger] at hl
    simpa [Ev.paid, Ev.got] using one_out hl (hr trivial)
  | mint v a m =>
    obtain ⟨g, rfl⟩ := thenE_ok h
    obtain ⟨_, b, _, _, _, l, _, _, _, _, _, _, _, _, _, hl, rfl⟩ := mint_view g
    simpa [Ev.paid, Ev.got] using one_in hl hw
  | redeem v a m =>
    obtain ⟨l, y, hl, rfl, rfl⟩ := redeemE_ok h
    simpa [Ev.paid, Ev.got] using one_out hl hw
  | redeemAll v a =>
    obtain ⟨l, y, hl, rfl, rfl⟩ := redeemAllE_ok h
    simpa [Ev.paid, Ev.got] using one_out hl hw
  | borrow v a m =>
    obtain ⟨g, rfl⟩ := thenE_ok h
    obtain ⟨_, _, _, _, l, _, _, _, _, _, _, _, _, hl, rfl⟩ := borrow_view g
    simpa [Ev.paid, Ev.got] using one_out hl hw
  | repay v a m =>
    obtain ⟨g, rfl⟩ := thenE_ok h
    obtain ⟨_, _, _, _, l, _, _, _, _, _, _, hl, rfl⟩ := repay_view g
    simpa [Ev.paid, Ev.got] using one_in hl hw
  | repayAll v a =>
    obtain ⟨g, s1, d, ha, hd, rfl⟩ := repayAllE_ok h
    obtain ⟨_, b, _, d', l, _, _, ha', _, hd', hl, rfl⟩ := repayAll_view g
    rw [ha] at ha'
    cases ha'
    rw [hd] at hd'
    cases hd'
    simpa [Ev.paid, Ev.got] using one_in hl hw
  | collateral v a on =>
    obtain ⟨g, rfl⟩ := thenE_ok h
    obtain ⟨_, _, _, rfl⟩ := collateral_view g
    cases on <;> rfl
  | liquidate lq br a m k =>
    obtain ⟨s1, s2, mk, und, h1, h2, _, g, rfl⟩ := liquidateE_ok h
    obtain ⟨_, _, _, l, _, _, _, hl, _, _, _, _, rfl⟩ := liquidatedTransfer_view g
    have e1 : s1.ledger = s.ledger := by obtain ⟨b, rfl, -⟩ := accrue_ok h1; rfl
    have e2 : s2.ledger = s1.ledger := by obtain ⟨b, rfl, -⟩ := accrue_ok h2; rfl
    rw [e2, e1] at hl
    simpa [Ev.paid, Ev.got] using one_in hl hw
  | addReserves v a m =>
    obtain ⟨g, rfl⟩ := thenE_ok h
    obtain ⟨_, l, _, _, _, hl, rfl⟩ := addReserves_view g
    simpa [Ev.paid, Ev.got] using one_in hl hw
  | reduceReserves v a m =>
    obtain ⟨g, rfl⟩ := thenE_ok h
    obtain ⟨_, l, _, _, _, hl, rfl⟩ := reduceReserves_view g
    simpa [Ev.paid, Ev.got] using one_out hl hw
  | reduceIncentive v a m =>
    obtain ⟨_, l, l', y, t1, t2, rfl, rfl⟩ := reduceIncentiveE_ok h
    have h1 := one_out t1 (x := x) hw
    have h2 := Ledger.transfer_bal t2 x w
    simp only [List.map_cons, List.map_nil, List.sum_cons, List.sum_nil, Ev.paid, Ev.got]
    clear hw hr t1 t2
    split_ifs at h1 h2 ⊢ <;> omega
  | updateLfc as => cases h; rfl
  | transferP p y z m =>
    simp only [execE, bind_ok_iff, pure_ok_iff, Prod.mk.injEq] at h
    obtain ⟨t, g, rfl, rfl⟩ := h
    obtain ⟨_, _, _, _, _, rfl⟩ := transferP_view g
    rfl

/-- **C232** (amounts) Every balance of everybody but the two pallet accounts changes exactly by what the events of the call
say was paid and received. -/
theorem C232_amounts {k : Call} {es : List Ev} (h : execE c s k = .ok (s', es)) {x w : Nat} (hw : w ≠ c.acct)
    (hr : w ≠ c.rewardAcct) :
    s'.ledger.bal x w + (es.map (Ev.paid c x w)).sum = s.ledger.bal x w + (es.map (Ev.got c x w)).sum :=
  amounts_of h hw (fun _ => hr)

/-- Deposits and debts of somebody no event names. -/
theorem quiet {k : Call} {es : List Ev} (hk : ∀ p x y m, k ≠ .transferP p x y m) (h : execE c s k = .ok (s', es))
    {w : Nat} (hi : w ≠ c.incentiveAcct) (hn : ∀ e ∈ es, w ∉ e.names) (a : Nat) :
    s'.deposits a w = s.deposits a w ∧ s'.debts a w = s.debts a w := by
  have other {β : Type} (f : Nat → Nat → β) {b v : Nat} (x : β) (e : w ≠ v) : upd2 f b v x a w = f a w :=
    upd2_of_ne f x (.inr e)
  cases k with
  | addMarket b m =>
    obtain ⟨g, rfl⟩ := thenE_ok h
    obtain ⟨_, _, _, _, _, _, _, _, _, _, rfl⟩ := addMarket_view g
    exact ⟨rfl, rfl⟩
  | activate b =>
    obtain ⟨g, rfl⟩ := thenE_ok h
    obtain ⟨m, hm, rfl⟩ := mutateMarket_view g
    exact ⟨rfl, rfl⟩
  | updateModel b rm =>
    obtain ⟨g, m, hm, rfl⟩ := marketE_ok h
    simp only [updateModel, bind_ok_iff, ensure_ok_iff] at g
    obtain ⟨_, _, g⟩ := g
    obtain ⟨m, hm, rfl⟩ := mutateMarket_view g
    exact ⟨rfl, rfl⟩
  | updateMarket b p =>
    obtain ⟨g, m, hm, rfl⟩ := marketE_ok h
    obtain ⟨m, hm, _, _, _, _, _, rfl⟩ := updateMarket_view g
    exact ⟨rfl, rfl⟩
  | forceUpdate b m =>
    obtain ⟨g, m, hm, rfl⟩ := marketE_ok h
    obtain ⟨m0, hm, _, _, rfl⟩ := forceUpdate_view g
    exact ⟨rfl, rfl⟩
  | addReward v m =>
    obtain ⟨g, rfl⟩ := thenE_ok h
    obtain ⟨l, hl, rfl⟩ := addReward_view g
    exact ⟨rfl, rfl⟩
  | withdrawReward v m =>
    obtain ⟨g, rfl⟩ := thenE_ok h
    obtain ⟨l, hl, rfl⟩ := withdrawReward_view g
    exact ⟨rfl, rfl⟩
  | updateSpeed b y z =>
    simp only [execE, bind_ok_iff, pure_ok_iff, Prod.mk.injEq] at h
    obtain ⟨t, g, rfl, rfl⟩ := h
    obtain ⟨x, rfl⟩ := updateSpeed_rw g
    exact ⟨rfl, rfl⟩
  | claim v =>
    simp only [execE, bind_ok_iff] at h
    obtain ⟨t, h1, h⟩ := h
    obtain ⟨l, hl, -, e1, e2, rfl⟩ := payRewardE_ok h
    obtain ⟨x, rfl⟩ := collectAll_rw h1
    rw [e1, e2]
    exact ⟨rfl, rfl⟩
  | claimFor v b =>
    simp only [execE, bind_ok_iff] at h
    obtain ⟨t, h1, h⟩ := h
    obtain ⟨l, hl, -, e1, e2, rfl⟩ := payRewardE_ok h
    obtain ⟨x, rfl⟩ := collect_rw h1
    rw [e1, e2]
    exact ⟨rfl, rfl⟩
  | mint v b m =>
    obtain ⟨g, rfl⟩ := thenE_ok h
    obtain ⟨_, _, _, _, _, l, _, _, _, _, _, _, _, _, _, hl, rfl⟩ := mint_view g
    exact ⟨other _ _ (by simpa [Ev.names] using hn), rfl⟩
  | redeem v b m =>
    have e := C232_same c s (.redeem v b m)
    rw [h] at e
    obtain ⟨_, _, _, _, he⟩ := redeemE_ok h
    subst he
    obtain ⟨_, x, g⟩ := redeem_view e.symm
    obtain ⟨_, _, _, _, _, _, _, _, _, g⟩ := doRedeem_view g
    obtain ⟨_, _, l, _, _, _, _, _, _, hl, g⟩ := redeemVoucher_view g
    dsimp only at g
    rw [g]
    exact ⟨other _ _ (by simpa [Ev.names] using hn), rfl⟩
  | redeemAll v b =>
    have e := C232_same c s (.redeemAll v b)
    rw [h] at e
    obtain ⟨_, _, _, _, he⟩ := redeemAllE_ok h
    subst he
    obtain ⟨_, _, _, _, _, _, _, _, _, _, g⟩ := redeemAll_view e.symm
    obtain ⟨_, _, l, _, _, _, _, _, _, hl, g⟩ := redeemVoucher_view g
    dsimp only at g
    rw [g]
    exact ⟨other _ _ (by simpa [Ev.names] using hn), rfl⟩
  | borrow v b m =>
    obtain ⟨g, rfl⟩ := thenE_ok h
    obtain ⟨_, _, _, _, l, _, _, _, _, _, _, _, _, hl, rfl⟩ := borrow_view g
    exact ⟨rfl, other _ _ (by simpa [Ev.names] using hn)⟩
  | repay v b m =>
    obtain ⟨g, rfl⟩ := thenE_ok h
    obtain ⟨_, _, _, _, l, _, _, _, _, _, _, hl, rfl⟩ := repay_view g
    exact ⟨rfl, other _ _ (by simpa [Ev.names] using hn)⟩
  | repayAll v b =>
    obtain ⟨g, s1, d, ha, hd, rfl⟩ := repayAllE_ok h
    obtain ⟨_, _, _, d', l, _, _, _, _, _, hl, rfl⟩ := repayAll_view g
    exact ⟨rfl, other _ _ (by simpa [Ev.names] using hn)⟩
  | collateral v b on =>
    obtain ⟨g, rfl⟩ := thenE_ok h
    obtain ⟨_, _, _, rfl⟩ := collateral_view g
    exact ⟨other _ _ (by cases on <;> simpa [Ev.names] using hn), rfl⟩
  | liquidate lq br b m k =>
    obtain ⟨s1, s2, mk, und, h1, h2, _, g, rfl⟩ := liquidateE_ok h
    obtain ⟨_, _, _, l, _, _, _, hl, _, _, _, _, rfl⟩ := liquidatedTransfer_view g
    obtain ⟨b1, rfl, -⟩ := accrue_ok h1
    obtain ⟨b2, rfl, -⟩ := accrue_ok h2
    have hn : w ≠ lq ∧ w ≠ br := by simpa [Ev.names, not_or] using hn
    refine ⟨?_, other _ _ hn.2⟩
    show seize _ _ _ _ _ _ _ _ a w = _
    unfold seize
    exact (other _ _ hi).trans ((other _ _ hn.1).trans (other _ _ hn.2))
  | addReserves v b m =>
    obtain ⟨g, rfl⟩ := thenE_ok h
    obtain ⟨_, l, _, _, _, hl, rfl⟩ := addReserves_view g
    exact ⟨rfl, rfl⟩
  | reduceReserves v b m =>
    obtain ⟨g, rfl⟩ := thenE_ok h
    obtain ⟨_, l, _, _, _, hl, rfl⟩ := reduceReserves_view g
    exact ⟨rfl, rfl⟩
  | reduceIncentive v b m =>
    obtain ⟨g, -⟩ := reduceIncentiveE_ok h
    obtain ⟨_, _, _, _, _, _, _, _, _, _, _, _, _, _, rfl⟩ := reduceIncentive_view g
    exact ⟨other _ _ hi, rfl⟩
  | updateLfc as => cases h; exact ⟨rfl, rfl⟩
  | transferP p y z m => exact absurd rfl (hk p y z m)

theorem unnamed {es : List Ev} {w : Nat} (hn : ∀ e ∈ es, w ∉ e.names) (x : Nat) :
    (es.map (Ev.paid c x w)).sum = 0 ∧ (es.map (Ev.got c x w)).sum = 0 := by
  rw [List.sum_eq_zero_iff, List.sum_eq_zero_iff]
  constructor
  · intro y hy
    obtain ⟨e, he, rfl⟩ := List.mem_map.1 hy
    have := hn e he
    cases e <;> simp_all [Ev.names, Ev.paid]
  · intro y hy
    obtain ⟨e, he, rfl⟩ := List.mem_map.1 hy
    have := hn e he
    cases e <;> simp_all [Ev.names, Ev.got]

/-- **C232**, for every call but a transfer of ptokens: nobody's assets, deposits or debts change unless an event of the call
names them.  Missing: `transferP`, for which it is false. -/
theorem C232_named_partial {k : Call} {es : List Ev} (hk : ∀ p x y m, k ≠ .transferP p x y m)
    (h : execE c s k = .ok (s', es)) {w : Nat} (hw : w ≠ c.acct) (hr : w ≠ c.rewardAcct) (hi : w ≠ c.incentiveAcct)
    (hn : ∀ e ∈ es, w ∉ e.names) : Untouched s s' w := by
  intro a
  have h1 := C232_amounts h (x := a) hw hr
  rw [(unnamed hn a).1, (unnamed hn a).2] at h1
  exact ⟨h1, quiet hk h hi hn a⟩

/-- **C232 is false**: user 7 gives user 9 a fifth of a deposit, and no event at all is deposited. -/
theorem C232_refuted : ¬ C232_statement := by
  intro H
  have hx : okAnd (execE exC ex0 (.transferP 11 7 9 1000000)) (fun r =>
      decide (r.2.length = 0) && decide (r.1.deposits 1 7 ≠ ex0.deposits 1 7)) = true := by decide +kernel
  obtain ⟨⟨s', es⟩, hx, hp⟩ := okAnd_iff.1 hx
  simp only [Bool.and_eq_true, decide_eq_true_eq, List.length_eq_zero_iff] at hp
  obtain ⟨rfl, hne⟩ := hp
  exact hne (H exC ex0 ex0_reach (.transferP 11 7 9 1000000) s' [] trivial (by simp [Call.signers, exC]) hx 7 (by decide) (by decide) (by decide)
    (fun e he => by simp at he) 1).2.1

/-- **C232** (debts) A loan, a repayment and a liquidation are announced with the amount by which the debt changed, after
adding the interest up to now. -/
theorem C232_debts {k : Call} {es : List Ev} (h : execE c s k = .ok (s', es)) {a w m : Nat} :
    (.borrowed w a m ∈ es → ∃ s1, accrue c s a = .ok s1 ∧ s'.debts a w = ⟨owed s1 a w + m, (s'.books a).index⟩) ∧
    (.repaid w a m ∈ es → ∃ s1, accrue c s a = .ok s1 ∧ m ≤ owed s1 a w ∧
      s'.debts a w = ⟨owed s1 a w - m, (s'.books a).index⟩) ∧
    (∀ lq cl und, .liquidated lq w a cl m und ∈ es → ∃ s1, accrue c s a = .ok s1 ∧ m ≤ owed s1 a w ∧
      s'.debts a w = ⟨owed s1 a w - m, (s'.books a).index⟩) := by
  cases k with
  | addMarket b m => obtain ⟨g, rfl⟩ := thenE_ok h; simp
  | activate b => obtain ⟨g, rfl⟩ := thenE_ok h; simp
  | updateModel b rm => obtain ⟨g, m, hm, rfl⟩ := marketE_ok h; simp
  | updateMarket b p => obtain ⟨g, m, hm, rfl⟩ := marketE_ok h; simp
  | forceUpdate b m => obtain ⟨g, m, hm, rfl⟩ := marketE_ok h; simp
  | addReward v m => obtain ⟨g, rfl⟩ := thenE_ok h; simp
  | withdrawReward v m => obtain ⟨g, rfl⟩ := thenE_ok h; simp
  | updateSpeed b y z =>
    simp only [execE, bind_ok_iff, pure_ok_iff, Prod.mk.injEq] at h
    obtain ⟨t, g, rfl, rfl⟩ := h
    simp
  | claim v =>
    simp only [execE, bind_ok_iff] at h
    obtain ⟨t, h1, h⟩ := h
    obtain ⟨l, hl, -, e1, e2, rfl⟩ := payRewardE_ok h
    simp
  | claimFor v b =>
    simp only [execE, bind_ok_iff] at h
    obtain ⟨t, h1, h⟩ := h
    obtain ⟨l, hl, -, e1, e2, rfl⟩ := payRewardE_ok h
    simp
  | mint v b m => obtain ⟨g, rfl⟩ := thenE_ok h; simp
  | redeem v b m => obtain ⟨_, _, _, _, he⟩ := redeemE_ok h; subst he; simp
  | redeemAll v b => obtain ⟨_, _, _, _, he⟩ := redeemAllE_ok h; subst he; simp
  | borrow v b n =>
    obtain ⟨g, rfl⟩ := thenE_ok h
    obtain ⟨_, bk, _, d, l, _, _, ha, _, _, hd, _, _, hl, rfl⟩ := borrow_view g
    simp only [List.mem_singleton, reduceCtorEq, false_imp_iff, and_true, Ev.borrowed.injEq, implies_true]
    rintro ⟨rfl, rfl, rfl⟩
    refine ⟨_, ha, ?_⟩
    rw [← debt_owed hd]
    simp
  | repay v b n =>
    obtain ⟨g, rfl⟩ := thenE_ok h
    obtain ⟨_, bk, _, d, l, _, _, ha, _, hd, hle, hl, rfl⟩ := repay_view g
    simp only [List.mem_singleton, reduceCtorEq, false_imp_iff, true_and, and_true, Ev.repaid.injEq, implies_true]
    rintro ⟨rfl, rfl, rfl⟩
    refine ⟨_, ha, ?_⟩
    rw [← debt_owed hd]
    exact ⟨hle, by simp⟩
  | repayAll v b =>
    obtain ⟨g, s1, d, ha, hd, rfl⟩ := repayAllE_ok h
    obtain ⟨_, bk, _, d', l, _, _, ha', _, hd', hl, rfl⟩ := repayAll_view g
    simp only [List.mem_singleton, reduceCtorEq, false_imp_iff, true_and, and_true, Ev.repaid.injEq, implies_true]
    rintro ⟨rfl, rfl, rfl⟩
    refine ⟨_, ha', ?_⟩
    rw [ha] at ha'
    cases ha'
    rw [hd] at hd'
    cases hd'
    rw [← debt_owed hd]
    exact ⟨Nat.le_refl _, by simp⟩
  | collateral v b on => obtain ⟨g, rfl⟩ := thenE_ok h; cases on <;> simp
  | liquidate lq br b n cl =>
    obtain ⟨s1, s2, mk, und, h1, h2, _, g, rfl⟩ := liquidateE_ok h
    obtain ⟨_, d, _, l, hd, hle, _, hl, _, _, _, _, rfl⟩ := liquidatedTransfer_view g
    simp only [List.mem_singleton, reduceCtorEq, false_imp_iff, true_and, Ev.liquidated.injEq]
    rintro lq' cl' und' ⟨rfl, rfl, rfl, rfl, rfl, rfl⟩
    refine ⟨s1, h1, ?_⟩
    have e : owed s2 a w = owed s1 a w := by
      by_cases hb : a = cl'
      · subst hb
        rw [accrue_idem h1] at h2
        cases h2; rfl
      · obtain ⟨b2, rfl, -⟩ := accrue_ok h2
        unfold owed setBook
        simp only [upd_of_ne _ _ hb]
    rw [← e, ← debt_owed hd]
    exact ⟨hle, by simp⟩
  | addReserves v b m => obtain ⟨g, rfl⟩ := thenE_ok h; simp
  | reduceReserves v b m => obtain ⟨g, rfl⟩ := thenE_ok h; simp
  | reduceIncentive v b m => obtain ⟨_, _, _, _, _, _, _, he⟩ := reduceIncentiveE_ok h; subst he; simp
  | updateLfc as => cases h; simp
  | transferP p y z m =>
    simp only [execE, bind_ok_iff, pure_ok_iff, Prod.mk.injEq] at h
    obtain ⟨t, g, rfl, rfl⟩ := h
    simp

theorem mutateMarket_ok {a : Nat} {f : Market → Market} (h : mutateMarket s a f = .ok s') :
    ∃ m, s.markets a = some m ∧ s' = { s with markets := upd s.markets a (some (f m)) } := by
  simp only [mutateMarket, bind_ok_iff, pure_ok_iff] at h
  obtain ⟨m, hm, rfl⟩ := h
  exact ⟨m, market_ok.1 hm, rfl⟩

theorem xrate_congr {t u : State} {a : Nat} (hl : t.ledger = u.ledger) (hb : t.books = u.books) : xrate c t a = xrate c u a := by
  unfold xrate net
  rw [hl, hb]

/-- **C232** (facts) What an event says about markets, reserves, collateral and a seizure is the case after the call. -/
theorem C232_facts {k : Call} {es : List Ev} (h : execE c s k = .ok (s', es)) {e : Ev} (he : e ∈ es) : e.holds c s s' := by
  cases k with
  | addMarket b m =>
    obtain ⟨g, rfl⟩ := thenE_ok h
    obtain rfl := List.mem_singleton.1 he
    simp only [addMarket, bind_ok_iff, ensure_ok_iff, exists_const, pure_ok_iff] at g
    obtain ⟨hm, _, _, _, _, _, _, _, _, _, rfl⟩ := g
    exact ⟨hm, upd_same _ _ _⟩
  | activate b =>
    obtain ⟨g, rfl⟩ := thenE_ok h
    obtain rfl := List.mem_singleton.1 he
    obtain ⟨m, hm, rfl⟩ := mutateMarket_ok g
    exact ⟨m, hm, upd_same _ _ _⟩
  | updateModel b rm =>
    obtain ⟨g, m, hm, rfl⟩ := marketE_ok h
    obtain rfl := List.mem_singleton.1 he
    simp only [updateModel, bind_ok_iff, ensure_ok_iff, exists_const] at g
    obtain ⟨m0, hm0, rfl⟩ := mutateMarket_ok g.2
    exact ⟨by rw [hm0]; exact Option.some_ne_none _, hm⟩
  | updateMarket b p =>
    obtain ⟨g, m, hm, rfl⟩ := marketE_ok h
    obtain rfl := List.mem_singleton.1 he
    simp only [updateMarket, bind_ok_iff, ensure_ok_iff, exists_const] at g
    obtain ⟨_, _, _, _, _, _, g⟩ := g
    obtain ⟨m0, hm0, rfl⟩ := mutateMarket_ok g
    exact ⟨by rw [hm0]; exact Option.some_ne_none _, hm⟩
  | forceUpdate b m =>
    obtain ⟨g, m, hm, rfl⟩ := marketE_ok h
    obtain rfl := List.mem_singleton.1 he
    simp only [forceUpdate, bind_ok_iff, ensure_ok_iff, exists_const] at g
    obtain ⟨m0, hm0, rfl⟩ := mutateMarket_ok g.2.2
    exact ⟨by rw [show s.markets b = some m0 from hm0]; exact Option.some_ne_none _, hm⟩
  | addReward v m => obtain ⟨g, rfl⟩ := thenE_ok h; obtain rfl := List.mem_singleton.1 he; trivial
  | withdrawReward v m => obtain ⟨g, rfl⟩ := thenE_ok h; obtain rfl := List.mem_singleton.1 he; trivial
  | updateSpeed b y z =>
    simp only [execE, bind_ok_iff, pure_ok_iff, Prod.mk.injEq] at h
    obtain ⟨t, g, rfl, rfl⟩ := h
    exact absurd he List.not_mem_nil
  | claim v =>
    simp only [execE, bind_ok_iff] at h
    obtain ⟨t, h1, h⟩ := h
    obtain ⟨l, hl, -, e1, e2, rfl⟩ := payRewardE_ok h
    obtain rfl := List.mem_singleton.1 he; trivial
  | claimFor v b =>
    simp only [execE, bind_ok_iff] at h
    obtain ⟨t, h1, h⟩ := h
    obtain ⟨l, hl, -, e1, e2, rfl⟩ := payRewardE_ok h
    obtain rfl := List.mem_singleton.1 he; trivial
  | mint v b m => obtain ⟨g, rfl⟩ := thenE_ok h; obtain rfl := List.mem_singleton.1 he; trivial
  | redeem v b m => obtain ⟨_, _, _, _, hh⟩ := redeemE_ok h; subst hh; obtain rfl := List.mem_singleton.1 he; trivial
  | redeemAll v b => obtain ⟨_, _, _, _, hh⟩ := redeemAllE_ok h; subst hh; obtain rfl := List.mem_singleton.1 he; trivial
  | borrow v b n => obtain ⟨g, rfl⟩ := thenE_ok h; obtain rfl := List.mem_singleton.1 he; trivial
  | repay v b n => obtain ⟨g, rfl⟩ := thenE_ok h; obtain rfl := List.mem_singleton.1 he; trivial
  | repayAll v b => obtain ⟨g, s1, d, ha, hd, rfl⟩ := repayAllE_ok h; obtain rfl := List.mem_singleton.1 he; trivial
  | collateral v b on =>
    obtain ⟨g, rfl⟩ := thenE_ok h
    obtain ⟨hs, hne, _, rfl⟩ := collateral_view g
    obtain rfl := List.mem_singleton.1 he
    have e : ∀ d, (setDep s b v (some d)).dep b v = d := by
      intro d
      unfold State.dep setDep
      dsimp only
      rw [upd2_same]
      rfl
    cases on with
    | true => exact ⟨by simpa using hne, e _⟩
    | false => exact ⟨by simpa using hne, e _⟩
  | liquidate lq br b n cl =>
    obtain ⟨s1, s2, mk, und, h1, h2, hne, g, rfl⟩ := liquidateE_ok h
    obtain rfl := List.mem_singleton.1 he
    obtain ⟨_, d, r, l, hd, hle, _, hl, hr, hv, _, _, hs'⟩ := liquidatedTransfer_view g
    refine ⟨hne, fun hi => ?_⟩
    have ex : xrate c s' cl = r := by
      rw [rateStored_xrate hr]
      exact xrate_congr (by rw [hs']) (by rw [hs'])
    have e2 : s2.vouchers cl br = s.vouchers cl br := by
      obtain ⟨b1, rfl, -⟩ := accrue_ok h1
      obtain ⟨b2, rfl, -⟩ := accrue_ok h2
      rfl
    have hk : ∀ (f : Nat → Nat → Option Deposit) (v g i : Nat),
        ((seize f cl br lq c.incentiveAcct v g i cl br).getD ⟨0, false⟩).vouchers = ((f cl br).getD ⟨0, false⟩).vouchers - v := by
      intro f v g i
      unfold seize
      dsimp only
      rw [upd2_of_ne _ _ (.inr hi), upd2_of_ne _ _ (.inr hne), upd2_same]
      rfl
    have e3 : s'.vouchers cl br = s2.vouchers cl br - und * DIV / r := by
      unfold State.vouchers State.dep
      rw [hs']
      exact hk _ _ _ _
    rw [ex, e3, e2]
    rw [e2] at hv
    exact Nat.sub_add_cancel hv
  | addReserves v b m =>
    obtain ⟨g, rfl⟩ := thenE_ok h
    obtain ⟨_, l, _, _, _, hl, rfl⟩ := addReserves_view g
    obtain rfl := List.mem_singleton.1 he
    exact ⟨rfl, congrArg Book.reserves (upd_same _ _ _)⟩
  | reduceReserves v b m =>
    obtain ⟨g, rfl⟩ := thenE_ok h
    obtain ⟨_, l, _, _, hle, hl, rfl⟩ := reduceReserves_view g
    obtain rfl := List.mem_singleton.1 he
    refine ⟨rfl, ?_⟩
    show (upd _ _ _ _ : Book).reserves + m = _
    rw [upd_same]
    exact Nat.sub_add_cancel hle
  | reduceIncentive v b m =>
    obtain ⟨_, _, _, _, _, _, _, hh⟩ := reduceIncentiveE_ok h; subst hh; obtain rfl := List.mem_singleton.1 he; trivial
  | updateLfc as => cases h; obtain rfl := List.mem_singleton.1 he; rfl
  | transferP p y z m =>
    simp only [execE, bind_ok_iff, pure_ok_iff, Prod.mk.injEq] at h
    obtain ⟨t, g, rfl, rfl⟩ := h
    exact absurd he List.not_mem_nil

/-- **C232** (markets) The settings of a market change only in a call that deposits an event about this market. -/
theorem C232_markets {k : Call} {es : List Ev} (h : execE c s k = .ok (s', es)) {a : Nat} (hn : ∀ e ∈ es, ¬ e.about a) :
    s'.markets a = s.markets a := by
  have e := C232_same c s k
  rw [h] at e
  have hx : exec c s k = .ok s' := e.symm
  by_cases hk : k.isMarket
  · have other : ∀ {b : Nat} {v : Option Market}, b ≠ a → upd s.markets b v a = s.markets a :=
      fun hb => upd_of_ne _ _ (Ne.symm hb)
    cases k with
    | addMarket b m =>
      obtain ⟨g, rfl⟩ := thenE_ok h
      obtain ⟨_, _, _, _, _, _, _, _, _, _, rfl⟩ := addMarket_view g
      exact other (hn _ (List.mem_singleton_self _))
    | activate b =>
      obtain ⟨g, rfl⟩ := thenE_ok h
      obtain ⟨m, hm, rfl⟩ := mutateMarket_ok g
      exact other (hn _ (List.mem_singleton_self _))
    | updateModel b rm =>
      obtain ⟨g, m, hm, rfl⟩ := marketE_ok h
      simp only [updateModel, bind_ok_iff, ensure_ok_iff, exists_const] at g
      obtain ⟨m0, hm0, rfl⟩ := mutateMarket_ok g.2
      exact other (hn _ (List.mem_singleton_self _))
    | updateMarket b p =>
      obtain ⟨g, m, hm, rfl⟩ := marketE_ok h
      simp only [updateMarket, bind_ok_iff, ensure_ok_iff, exists_const] at g
      obtain ⟨_, _, _, _, _, _, g⟩ := g
      obtain ⟨m0, hm0, rfl⟩ := mutateMarket_ok g
      exact other (hn _ (List.mem_singleton_self _))
    | forceUpdate b m =>
      obtain ⟨g, m, hm, rfl⟩ := marketE_ok h
      simp only [forceUpdate, bind_ok_iff, ensure_ok_iff, exists_const] at g
      obtain ⟨m0, hm0, rfl⟩ := mutateMarket_ok g.2.2
      exact other (hn _ (List.mem_singleton_self _))
    | _ => exact hk.elim
  · rw [(exec_meta hk hx).1]

/-- User 9 liquidates user 8, after which user 8 pays back everything: what is announced. -/
example : okAnd (execE exC ex2 (.liquidate 9 8 1 10000 2)) (fun r => decide (r.2.map (Ev.names) = [[9, 8]]) &&
    okAnd (execE exC r.1 (.repayAll 8 1)) (fun t => decide (t.2.map (Ev.paid exC 1 8) = [50000]) &&
      okAnd (execE exC t.1 (.redeemAll 8 2)) (fun u => decide (u.2.map (Ev.got exC 2 8) = [178000]))) ) = true := by
  decide +kernel

end Verif.Loans
