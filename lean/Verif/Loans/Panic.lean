import Verif.Prelude.NoPanic
import Verif.Loans.Accept

set_option linter.unusedSimpArgs false
set_option linter.unusedVariables false

/-! # Lending: which calls can panic (C226) -/

namespace Verif.Loans
open Verif

variable {c : Cfg} {s s' : State}

@[np_simps] theorem np_market {a : Nat} : NoPanic (market s a) ↔ True := by unfold market; np
@[np_simps] theorem np_active {a : Nat} : NoPanic (ensureActive s a) ↔ True := by
  unfold ensureActive; cases s.markets a <;> dsimp only <;> np
@[np_simps] theorem np_price {a : Nat} : NoPanic (getPrice s a) ↔ True := by unfold getPrice; np
@[np_simps] theorem np_assetValue {a m : Nat} : NoPanic (assetValue s a m) ↔ True := by unfold assetValue; np
@[np_simps] theorem np_calcRate {a b d e : Nat} : NoPanic (calcRate a b d e) ↔ True := by unfold calcRate; np
@[np_simps] theorem np_rateStored {a : Nat} : NoPanic (rateStored c s a) ↔ True := by unfold rateStored; np
@[np_simps] theorem np_util {a b d : Nat} : NoPanic (utilization a b d) ↔ True := by unfold utilization; np
@[np_simps] theorem np_advance {m : Market} {b : Book} {r n : Nat} : NoPanic (advance m b r n) ↔ True := by
  unfold advance; np
@[np_simps] theorem np_status {a : Nat} : NoPanic (marketStatus c s a) ↔ True := by unfold marketStatus; np
@[np_simps] theorem np_accrue {a : Nat} : NoPanic (accrue c s a) ↔ True := by unfold accrue; np
@[np_simps] theorem np_toUnderlying {v r : Nat} : NoPanic (toUnderlying v r) ↔ True := by unfold toUnderlying; np
@[np_simps] theorem np_toVouchers {v r : Nat} : NoPanic (toVouchers v r) ↔ True := by unfold toVouchers; np
@[np_simps] theorem np_debt {a w : Nat} : NoPanic (debt s a w) ↔ True := by unfold debt; np
theorem np_sumGo {f : Nat → R Nat} (hf : ∀ a, NoPanic (f a)) : ∀ (l : List Nat) (acc : Nat), NoPanic (sumGo f acc l)
  | [], _ => by unfold sumGo; np
  | x :: xs, acc => by
    unfold sumGo
    np
    exact ⟨hf x, fun _ _ _ _ => np_sumGo hf xs _⟩
@[np_simps] theorem np_collAmount {f : Market → Nat} {a w : Nat} : NoPanic (collAmount c s f a w) ↔ True := by
  unfold collAmount; np
@[np_simps] theorem np_collValue {a w : Nat} : NoPanic (collValue c s a w) ↔ True := by unfold collValue; np
@[np_simps] theorem np_threshValue {a w : Nat} : NoPanic (threshValue c s a w) ↔ True := by unfold threshValue; np
@[np_simps] theorem np_debtValue {a w : Nat} : NoPanic (debtValue s a w) ↔ True := by unfold debtValue; np
@[np_simps] theorem np_totalBorrowed {w : Nat} : NoPanic (totalBorrowed s w) ↔ True :=
  iff_true_intro (np_sumGo (fun _ => by np) _ _)
@[np_simps] theorem np_totalColl {w : Nat} : NoPanic (totalColl c s w) ↔ True :=
  iff_true_intro (np_sumGo (fun _ => by np) _ _)
@[np_simps] theorem np_totalThresh {w : Nat} : NoPanic (totalThresh c s w) ↔ True :=
  iff_true_intro (np_sumGo (fun _ => by np) _ _)
@[np_simps] theorem np_lfBase {w : Nat} : NoPanic (lfBase c s w) ↔ True :=
  iff_true_intro (np_sumGo (fun _ => by np) _ _)
@[np_simps] theorem np_lfThresh {w : Nat} : NoPanic (lfThresh c s w) ↔ True :=
  iff_true_intro (np_sumGo (fun _ => by np) _ _)
@[np_simps] theorem np_lfBorrowed {w : Nat} : NoPanic (lfBorrowed c s w) ↔ True := by unfold lfBorrowed; np
@[np_simps] theorem np_liquidity {w : Nat} : NoPanic (liquidity c s w) ↔ True := by unfold liquidity; np
@[np_simps] theorem np_threshLiquidity {w : Nat} : NoPanic (threshLiquidity c s w) ↔ True := by unfold threshLiquidity; np
@[np_simps] theorem np_cash {a m : Nat} : NoPanic (ensureCash c s a m) ↔ True := by unfold ensureCash; np
@[np_simps] theorem np_supplyCap {a m : Nat} : NoPanic (ensureSupplyCap c s a m) ↔ True := by unfold ensureSupplyCap; np
@[np_simps] theorem np_borrowCap {a m : Nat} : NoPanic (ensureBorrowCap s a m) ↔ True := by unfold ensureBorrowCap; np
@[np_simps] theorem np_deltaIndex {a b d : Nat} : NoPanic (deltaIndex a b d) ↔ True := by unfold deltaIndex; np
@[np_simps] theorem np_rewardDelta {a b : Nat} : NoPanic (rewardDelta a b) ↔ True := by unfold rewardDelta; np
@[np_simps] theorem np_baseBorrow {a b : Nat} : NoPanic (baseBorrow a b) ↔ True := by unfold baseBorrow; np
@[np_simps] theorem np_updSupply {a : Nat} : NoPanic (updSupply s a) ↔ True := by unfold updSupply; dsimp only; np
@[np_simps] theorem np_updBorrow {a : Nat} : NoPanic (updBorrow s a) ↔ True := by unfold updBorrow; dsimp only; np
@[np_simps] theorem np_distSupplier {a w : Nat} : NoPanic (distSupplier s a w) ↔ True := by unfold distSupplier; np
@[np_simps] theorem np_distBorrower {a w : Nat} : NoPanic (distBorrower s a w) ↔ True := by unfold distBorrower; np
@[np_simps] theorem np_collect {a w : Nat} : NoPanic (collect s a w) ↔ True := by unfold collect; np
@[np_simps] theorem np_payRew {w : Nat} : NoPanic (payReward c s w) ↔ True := by unfold payReward; np
@[np_simps] theorem np_mutate {a : Nat} {f : Market → Market} : NoPanic (mutateMarket s a f) ↔ True := by
  unfold mutateMarket; np
@[np_simps] theorem np_updEarned {w a r : Nat} : NoPanic (updEarned s w a r) ↔ True := by
  unfold updEarned; dsimp only; np
@[np_simps] theorem np_loMint {w a m : Nat} : NoPanic (mint c s w a m) ↔ True := by unfold mint; np
@[np_simps] theorem np_repayWith {w a d m : Nat} : NoPanic (repayWith c s w a d m) ↔ True := by unfold repayWith; np
@[np_simps] theorem np_repay {w a m : Nat} : NoPanic (repay c s w a m) ↔ True := by unfold repay; np
@[np_simps] theorem np_setCollateral {w a : Nat} {on : Bool} : NoPanic (setCollateral c s w a on) ↔ True := by
  unfold setCollateral; np
@[np_simps] theorem np_effectiveDebt {w a v : Nat} : NoPanic (effectiveDebt c s w a v) ↔ True := by unfold effectiveDebt; np
@[np_simps] theorem np_liquidateAllowed {b a m : Nat} {mk : Market} : NoPanic (liquidateAllowed c s b a m mk) ↔ True := by
  unfold liquidateAllowed; np
@[np_simps] theorem np_underlyingId {p : Nat} : NoPanic (underlyingId s p) ↔ True := by unfold underlyingId; np
@[np_simps] theorem np_transferP {p x y m : Nat} : NoPanic (transferP c s p x y m) ↔ True := by unfold transferP; np
@[np_simps] theorem np_setSupSpeed {a v : Nat} : NoPanic (setSupSpeed s a v) ↔ True := by unfold setSupSpeed; np
@[np_simps] theorem np_setBorSpeed {a v : Nat} : NoPanic (setBorSpeed s a v) ↔ True := by unfold setBorSpeed; np

theorem np_collectAll : ∀ (l : List Nat) (s : State) (w : Nat), NoPanic (collectAll s w l)
  | [], _, _ => by unfold collectAll; np
  | a :: as, s, w => by
    unfold collectAll
    np
    exact fun _ _ => np_collectAll as _ w

/-! ### The liquidity test -/

theorem ensureLiquidity_np {w v : Nat} {lf : Bool}
    (h : lf = false → ∀ q, liquidity c s w = .ok q → q.2.2.1 + v ≤ maxU128) : NoPanic (ensureLiquidity c s w v lf) := by
  unfold ensureLiquidity
  simp only [np_bind, np_liquidity, true_and]
  intro q hq
  cases lf with
  | true => rw [if_pos rfl]; np
  | false =>
    rw [if_neg (by decide)]
    np
    exact h rfl q hq

theorem ensureActive_iff {a : Nat} {m : Market} (h : ensureActive s a = .ok m) :
    s.markets a = some m ∧ m.state = .active := by
  unfold ensureActive at h
  cases hm : s.markets a with
  | none => rw [hm] at h; cases h
  | some m' =>
    rw [hm] at h
    dsimp only at h
    split_ifs at h with hs
    cases h
    exact ⟨rfl, hs⟩

/-- A collateral that is not liquidation-free and the liquidation-free ones together are part of all collateral. -/
theorem lf_add_le {l : List Nat} {g : Nat → Nat} {q : Nat → Bool} {a : Nat} (ha : a ∈ l) (hq : q a = false) :
    ((l.filter q).map g).sum + g a ≤ (l.map g).sum := by
  induction l with
  | nil => cases ha
  | cons x xs ih =>
    rcases List.mem_cons.1 ha with rfl | hx
    · rw [List.filter_cons_of_neg (by simp [hq])]
      have : ((xs.filter q).map g).sum ≤ (xs.map g).sum :=
        List.Sublist.sum_le_sum ((List.filter_sublist).map g) (fun _ _ => Nat.zero_le _)
      simp only [List.map_cons, List.sum_cons]
      omega
    · have := ih hx
      by_cases hxq : q x = true
      · rw [List.filter_cons_of_pos hxq]
        simp only [List.map_cons, List.sum_cons]
        omega
      · rw [List.filter_cons_of_neg hxq]
        simp only [List.map_cons, List.sum_cons]
        omega

/-- Every market is in the list the code iterates over. -/
def Keyed (s : State) : Prop := ∀ a, s.markets a ≠ none → a ∈ s.ids

/-- What is redeemed is part of the account's own collateral, so the sum in the liquidity test is part of a sum that has
already been computed. -/
theorem redeemAllowed_np (hi : Keyed s) {a w v : Nat} (ha : isActive s a = true) : NoPanic (redeemAllowed c s a w v) := by
  unfold redeemAllowed
  np
  refine fun _ hv r hr m hm _ _ hcoll mk hmk x hx => ensureLiquidity_np fun hlf q hq => ?_
  simp only [ensure_ok_iff] at hv
  have hmem : a ∈ activeIds s := by
    refine List.mem_filter.2 ⟨hi a ?_, ha⟩
    intro e
    rw [isActive, e] at ha
    cases ha
  have hxv : x ≤ collOf c s Market.cf w a := by
    rw [(assetValue_ok hx).1]
    unfold collOf
    rw [market_ok.1 hmk]
    dsimp only
    rw [if_pos (by simpa using hcoll), ← rateStored_xrate hr]
    have hmv := toUnderlying_ok hm
    subst hmv
    refine Nat.div_le_div_right (Nat.mul_le_mul_left _ ?_)
    have hv' : v ≤ (s.dep a w).vouchers := hv
    have : r * v / DIV ≤ r * (s.dep a w).vouchers / DIV := Nat.div_le_div_right (Nat.mul_le_mul_left _ hv')
    unfold pmulCeil ceilDiv
    gcongr
  have hq' := liquidity_ok hq
  simp only [liquidity, bind_ok_iff, pure_ok_iff] at hq
  obtain ⟨b, hb, t, ht, _⟩ := hq
  have htle := sumGo_le (Nat.zero_le _) ht
  rw [totalColl_ok ht] at htle
  have hsum : lfCollSum c s w + collOf c s Market.cf w a ≤ collSum c s w := by
    have := lf_add_le (q := fun a => decide (a ∈ s.lfc)) (g := collOf c s Market.cf w) hmem (by simpa using hlf)
    simpa [lfCollSum, collSum] using this
  rw [hq']
  dsimp only
  omega

theorem redeemVoucher_np (hi : Keyed s) {a w v : Nat} (ha : isActive s a = true) : NoPanic (redeemVoucher c s w a v) := by
  unfold redeemVoucher
  np
  refine ⟨redeemAllowed_np hi ha, ?_⟩
  intros
  cases Ledger.transfer _ _ _ _ _ _ <;> dsimp only <;> np

theorem active_of {a : Nat} {m : Market} (h : ensureActive s a = .ok m) : isActive s a = true := by
  obtain ⟨h1, h2⟩ := ensureActive_iff h
  unfold isActive
  rw [h1]
  simpa using h2

theorem doRedeem_np (hi : Keyed s) (w a m : Nat) : NoPanic (doRedeem c s w a m) := by
  unfold doRedeem
  np
  intro mk hmk s1 h1 r hr s2 h2 v hv
  have e1 := accrue_again h1
  obtain ⟨_, rfl⟩ := updEarned_ok h2
  refine redeemVoucher_np (fun x hx => ?_) ?_
  · show x ∈ s1.ids
    rw [e1.2.2.2.2.2.2.2.1]
    exact hi x (by rw [← e1.2.1]; exact hx)
  · have := active_of hmk
    unfold isActive at this ⊢
    show (match s1.markets a with | some m => decide (m.state = .active) | none => false) = true
    rw [e1.2.1]
    exact this

theorem redeemAll_np (hi : Keyed s) (w a : Nat) : NoPanic (redeemAll c s w a) := by
  unfold redeemAll
  np
  intro mk hmk s1 h1 r hr s2 h2
  have e1 := accrue_again h1
  obtain ⟨_, rfl⟩ := updEarned_ok h2
  refine redeemVoucher_np (fun x hx => ?_) ?_
  · show x ∈ s1.ids
    rw [e1.2.2.2.2.2.2.2.1]
    exact hi x (by rw [← e1.2.1]; exact hx)
  · have := active_of hmk
    unfold isActive at this ⊢
    show (match s1.markets a with | some m => decide (m.state = .active) | none => false) = true
    rw [e1.2.1]
    exact this

theorem reduceIncentive_np (hi : Keyed s) (r a m : Nat) : NoPanic (reduceIncentive c s r a m) := by
  unfold reduceIncentive
  np
  intro _ _ mk hmk _ _ _ _
  exact redeemVoucher_np hi (active_of hmk)

/-- The liquidator's share is not negative when the incentive is at least one. -/
theorem liquidatedTransfer_np {l b a k m u : Nat} {mk : Market} (h1 : DIV ≤ mk.incentive) (h2 : mk.irf ≤ million) :
    NoPanic (liquidatedTransfer c s l b a k m u mk) := by
  unfold liquidatedTransfer
  np
  intros
  rename_i v _ _ _ q hq
  simp only [okOr_ok_iff, fixDiv_iff] at hq
  obtain ⟨_, _, rfl⟩ := hq
  have hp : 0 < DIV := by decide
  have e1 : v * DIV / mk.incentive ≤ v := by
    refine Nat.div_le_of_le_mul ?_
    calc v * DIV ≤ v * mk.incentive := Nat.mul_le_mul_left _ h1
      _ = mk.incentive * v := Nat.mul_comm _ _
  refine le_trans ?_ e1
  generalize v * DIV / mk.incentive = y
  unfold pmulFloor
  refine Nat.div_le_of_le_mul ?_
  rw [Nat.mul_comm y]
  exact Nat.mul_le_mul_right _ h2

theorem liquidate_np {l b a k m : Nat} (h : ∀ mk, s.markets a = some mk → DIV ≤ mk.incentive ∧ mk.irf ≤ million) :
    NoPanic (liquidate c s l b a m k) := by
  unfold liquidate doLiquidate
  np
  intro _ _ s1 e1 s2 e2
  intros
  rename_i mk hmk _ _ _ _ _ _ _ _ _ _ _ _ _ _ _ _ _ _ _ _ _ _
  rw [market_ok] at hmk
  rw [(accrue_again e2).2.1, (accrue_again e1).2.1] at hmk
  exact liquidatedTransfer_np (h mk hmk).1 (h mk hmk).2

/-- The values the liquidity test adds up are representable: what the account could borrow against its liquidation-free
collateral, and the value of the loan. -/
def RoomToBorrow (c : Cfg) (s : State) (w a m : Nat) : Prop :=
  ∀ s' q v, accrue c s a = .ok s' → liquidity c s' w = .ok q → assetValue s' a m = .ok v → q.2.2.1 + v ≤ maxU128

theorem borrow_np {w a m : Nat} (h : a = c.lfAsset ∨ RoomToBorrow c s w a m) : NoPanic (borrow c s w a m) := by
  unfold borrow borrowAllowed
  np
  intro _ _ s1 h1 _ _ _ _ v hv
  refine ensureLiquidity_np fun hlf q hq => ?_
  rcases h with h | h
  · simp [h] at hlf
  · exact h s1 q v h1 hq hv

/-- A call of a user of the lending pallet does not panic: the markets' liquidation incentives are at least one, and the
values of the loan and of the liquidation-free collateral are representable together. -/
theorem exec_noPanic (hi : Keyed s) (hm : ∀ a mk, s.markets a = some mk → DIV ≤ mk.incentive ∧ mk.irf ≤ million) (k : Call)
    (hr : ∀ w a m, k = .borrow w a m → a = c.lfAsset ∨ RoomToBorrow c s w a m) : NoPanic (exec c s k) := by
  cases k with
  | addMarket => unfold exec addMarket; np
  | activate => unfold exec activate; np
  | updateModel => unfold exec updateModel; np
  | updateMarket => unfold exec updateMarket; np
  | forceUpdate => unfold exec forceUpdate; np
  | addReward => unfold exec addReward; np
  | withdrawReward => unfold exec withdrawReward; np
  | updateSpeed => unfold exec updateSpeed; np
  | claim => unfold exec claim; np; exact np_collectAll _ _ _
  | claimFor => unfold exec claimFor; np
  | mint => unfold exec; np
  | redeem w a m => unfold exec redeem; np; exact fun _ _ => doRedeem_np hi w a m
  | redeemAll w a => exact redeemAll_np hi w a
  | borrow w a m => exact borrow_np (hr w a m rfl)
  | repay => unfold exec; np
  | repayAll => unfold exec repayAll; np
  | collateral => unfold exec collateralAsset; np
  | liquidate l b a m k => exact liquidate_np (hm a)
  | addReserves => unfold exec addReserves; np
  | reduceReserves => unfold exec reduceReserves; np
  | reduceIncentive r a m => exact reduceIncentive_np hi r a m
  | updateLfc => unfold exec; np
  | transferP => unfold exec; np

end Verif.Loans
