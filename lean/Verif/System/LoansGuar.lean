import Verif.System.Guar
import Verif.Loans.Frames

/-! # What the lending pallet guarantees to everybody else -/

namespace Verif.Loans
open Verif Verif.System

/-- The accounts a call may take tokens from, other than the pallet's own. -/
def Call.payers : Call → List Nat
  | .addReward w _ => [w]
  | .mint w _ _ => [w]
  | .repay w _ _ => [w]
  | .repayAll w _ => [w]
  | .liquidate l _ _ _ _ => [l]
  | .addReserves w _ _ => [w]
  | _ => []

/-- Nobody's tokens but the payer's are taken. -/
theorem payers_sub_signers (k : Call) : ∀ w ∈ k.payers, w ∈ k.signers := by
  cases k <;> simp [Call.payers, Call.signers]

variable {c : Cfg} {s s' : State} {src cur : Nat → Prop}

theorem RwOnly.ledger (h : RwOnly s s') : s'.ledger = s.ledger := by
  obtain ⟨r, rfl⟩ := h; rfl

theorem accrue_ledger {a : Nat} (h : accrue c s a = .ok s') : s'.ledger = s.ledger := (accrue_again h).1

theorem updEarned_ledger {w a r : Nat} (h : updEarned s w a r = .ok s') : s'.ledger = s.ledger := by
  obtain ⟨e, rfl⟩ := updEarned_ok h; rfl

theorem mint_guar {w a m : Nat} (h : mint c s w a m = .ok s') (hw : src w) : Guar src cur s.ledger s'.ledger := by
  simp only [mint, bind_ok_iff, pure_ok_iff] at h
  obtain ⟨_, _, _, _, _, _, s1, h1, s2, h2, s3, h3, _, _, s4, h4, _, _, _, _, l, hl, _, _, _, _, rfl⟩ := h
  rw [updEarned_ledger h4, (distSupplier_rw h3).ledger, (updSupply_rw h2).ledger, accrue_ledger h1] at hl
  exact Guar.transfer hl hw

theorem redeemVoucher_guar {w a v m : Nat} (h : redeemVoucher c s w a v = .ok (s', m)) (ha : src c.acct) :
    Guar src cur s.ledger s'.ledger := by
  simp only [redeemVoucher, bind_ok_iff, pure_ok_iff, Prod.mk.injEq] at h
  obtain ⟨_, _, s2, h2, s3, h3, _, _, _, _, _, _, _, _, l, hl, rfl, _⟩ := h
  rw [(distSupplier_rw h3).ledger, (updSupply_rw h2).ledger] at hl
  split at hl
  · cases hl
    rename_i hl
    exact Guar.transfer hl ha
  · simp at hl

theorem doRedeem_guar {w a m : Nat} {x : State × Nat} (h : doRedeem c s w a m = .ok x) (ha : src c.acct) :
    Guar src cur s.ledger x.1.ledger := by
  simp only [doRedeem, bind_ok_iff] at h
  obtain ⟨_, _, s1, h1, _, _, s2, h2, _, _, h3⟩ := h
  have g := redeemVoucher_guar (src := src) (cur := cur) h3 ha
  rwa [updEarned_ledger h2, accrue_ledger h1] at g

theorem borrow_guar {w a m : Nat} (h : borrow c s w a m = .ok s') (ha : src c.acct) :
    Guar src cur s.ledger s'.ledger := by
  simp only [borrow, bind_ok_iff, pure_ok_iff] at h
  obtain ⟨_, _, s1, h1, _, _, s2, h2, s3, h3, _, _, _, _, _, _, l, hl, rfl⟩ := h
  rw [(distBorrower_rw h3).ledger, (updBorrow_rw h2).ledger, accrue_ledger h1] at hl
  exact Guar.transfer hl ha

theorem repayWith_guar {w a d m : Nat} (h : repayWith c s w a d m = .ok s') (hw : src w) :
    Guar src cur s.ledger s'.ledger := by
  simp only [repayWith, bind_ok_iff, pure_ok_iff] at h
  obtain ⟨_, _, s2, h2, s3, h3, l, hl, rfl⟩ := h
  rw [(distBorrower_rw h3).ledger, (updBorrow_rw h2).ledger] at hl
  exact Guar.transfer hl hw

theorem repay_guar {w a m : Nat} (h : repay c s w a m = .ok s') (hw : src w) : Guar src cur s.ledger s'.ledger := by
  simp only [repay, bind_ok_iff] at h
  obtain ⟨_, _, s1, h1, _, _, h2⟩ := h
  have g := repayWith_guar (src := src) (cur := cur) h2 hw
  rwa [accrue_ledger h1] at g

theorem setCollateral_ledger {w a : Nat} {on : Bool} (h : setCollateral c s w a on = .ok s') :
    s'.ledger = s.ledger := by
  simp only [setCollateral, bind_ok_iff] at h
  obtain ⟨_, _, _, _, h⟩ := h
  split_ifs at h
  · cases h; rfl
  · simp only [bind_ok_iff, pure_ok_iff] at h
    obtain ⟨_, _, _, _, _, _, _, _, _, _, rfl⟩ := h
    rfl

theorem mutateMarket_ledger {a : Nat} {f : Market → Market} (h : mutateMarket s a f = .ok s') :
    s'.ledger = s.ledger := by
  simp only [mutateMarket, bind_ok_iff, pure_ok_iff] at h
  obtain ⟨_, _, rfl⟩ := h
  rfl

theorem payReward_guar {w : Nat} (h : payReward c s w = .ok s') (hr : src c.rewardAcct) :
    Guar src cur s.ledger s'.ledger := by
  unfold payReward at h
  split_ifs at h
  · cases h; exact Guar.refl
  · simp only [bind_ok_iff, pure_ok_iff] at h
    obtain ⟨l, hl, rfl⟩ := h
    exact Guar.transfer hl hr

/-- A lending call takes tokens only from the pallet's accounts and the payer it names; it mints and burns nothing. -/
theorem exec_guar {k : Call} (h : exec c s k = .ok s') :
    Guar (fun w => w ∈ k.payers ∨ w = c.acct ∨ w = c.rewardAcct ∨ w = c.incentiveAcct) (fun _ => False)
      s.ledger s'.ledger := by
  cases k with
  | addMarket a m =>
    simp only [exec, addMarket, bind_ok_iff, pure_ok_iff] at h
    obtain ⟨_, _, _, _, _, _, _, _, _, _, _, _, _, _, _, _, _, _, _, _, rfl⟩ := h
    exact Guar.refl
  | activate a =>
    rw [mutateMarket_ledger h]; exact Guar.refl
  | updateModel a rm =>
    simp only [exec, updateModel, bind_ok_iff] at h
    obtain ⟨_, _, h⟩ := h
    rw [mutateMarket_ledger h]; exact Guar.refl
  | updateMarket a p =>
    simp only [exec, updateMarket, bind_ok_iff] at h
    obtain ⟨_, _, _, _, _, _, _, _, _, _, h⟩ := h
    rw [mutateMarket_ledger h]; exact Guar.refl
  | forceUpdate a m =>
    simp only [exec, forceUpdate, bind_ok_iff] at h
    obtain ⟨_, _, _, _, h⟩ := h
    rw [mutateMarket_ledger h]; exact Guar.refl
  | addReward w m =>
    simp only [exec, addReward, bind_ok_iff, pure_ok_iff] at h
    obtain ⟨_, _, l, hl, rfl⟩ := h
    exact Guar.transfer hl (.inl (by simp [Call.payers]))
  | withdrawReward t m =>
    simp only [exec, withdrawReward, bind_ok_iff, pure_ok_iff] at h
    obtain ⟨_, _, l, hl, rfl⟩ := h
    exact Guar.transfer hl (.inr (.inr (.inl rfl)))
  | updateSpeed a x y =>
    rw [(updateSpeed_rw h).ledger]; exact Guar.refl
  | claim w =>
    simp only [exec, claim, bind_ok_iff] at h
    obtain ⟨s1, h1, h2⟩ := h
    rw [← (collectAll_rw h1).ledger]
    exact payReward_guar h2 (.inr (.inr (.inl rfl)))
  | claimFor w a =>
    simp only [exec, claimFor, bind_ok_iff] at h
    obtain ⟨s1, h1, h2⟩ := h
    rw [← (collect_rw h1).ledger]
    exact payReward_guar h2 (.inr (.inr (.inl rfl)))
  | mint w a m => exact mint_guar h (.inl (by simp [Call.payers]))
  | redeem w a m =>
    simp only [exec, redeem, bind_ok_iff, pure_ok_iff] at h
    obtain ⟨_, _, x, h1, rfl⟩ := h
    exact doRedeem_guar h1 (.inr (.inl rfl))
  | redeemAll w a =>
    simp only [exec, redeemAll, bind_ok_iff, pure_ok_iff] at h
    obtain ⟨_, _, s1, h1, _, _, s2, h2, x, h3, rfl⟩ := h
    rw [← accrue_ledger h1, ← updEarned_ledger h2]
    exact redeemVoucher_guar h3 (.inr (.inl rfl))
  | borrow w a m => exact borrow_guar h (.inr (.inl rfl))
  | repay w a m => exact repay_guar h (.inl (by simp [Call.payers]))
  | repayAll w a =>
    simp only [exec, repayAll, bind_ok_iff] at h
    obtain ⟨_, _, s1, h1, _, _, h2⟩ := h
    rw [← accrue_ledger h1]
    exact repay_guar h2 (.inl (by simp [Call.payers]))
  | collateral w a on =>
    simp only [exec, collateralAsset, bind_ok_iff] at h
    obtain ⟨_, _, _, _, _, _, h⟩ := h
    rw [setCollateral_ledger h]; exact Guar.refl
  | liquidate l b a m k =>
    simp only [exec, liquidate, bind_ok_iff, doLiquidate] at h
    obtain ⟨_, _, s1, h1, s2, h2, _, _, _, _, mk, _, _, _, _, _, _, _, _, _, _, _, _, _, _, _, _, _, _, _, _, _, und,
      _, h⟩ := h
    simp only [liquidatedTransfer, bind_ok_iff, pure_ok_iff] at h
    obtain ⟨s3, h3, s4, h4, l', hl, d, _, d2, _, t, _, s6, h6, s7, h7, s8, h8, s9, h9, _, _, _, _, _, _, _, _, _, _,
      _, _, _, _, rfl⟩ := h
    have e := (distSupplier_rw h9).ledger.trans ((distSupplier_rw h8).ledger.trans
      ((distSupplier_rw h7).ledger.trans (updSupply_rw h6).ledger))
    rw [(distBorrower_rw h4).ledger, (updBorrow_rw h3).ledger, accrue_ledger h2, accrue_ledger h1] at hl
    show Guar _ _ s.ledger s9.ledger
    rw [e]
    exact Guar.transfer hl (.inl (by simp [Call.payers]))
  | addReserves w a m =>
    simp only [exec, addReserves, bind_ok_iff, pure_ok_iff] at h
    obtain ⟨_, _, l, hl, _, _, rfl⟩ := h
    exact Guar.transfer hl (.inl (by simp [Call.payers]))
  | reduceReserves w a m =>
    simp only [exec, reduceReserves, bind_ok_iff, pure_ok_iff] at h
    obtain ⟨_, _, _, _, l, hl, rfl⟩ := h
    exact Guar.transfer hl (.inr (.inl rfl))
  | reduceIncentive w a m =>
    simp only [exec, reduceIncentive, bind_ok_iff, pure_ok_iff] at h
    obtain ⟨_, _, _, _, _, _, _, _, x, hx, l, hl, rfl⟩ := h
    exact (redeemVoucher_guar hx (.inr (.inl rfl))).trans (Guar.transfer hl (.inr (.inr (.inr rfl))))
  | updateLfc as =>
    simp only [exec, Except.ok.injEq] at h
    subst h; exact Guar.refl
  | transferP p x y m =>
    simp only [exec, transferP, bind_ok_iff, pure_ok_iff] at h
    obtain ⟨_, _, s1, h1, s2, h2, s3, h3, _, _, _, _, _, _, rfl⟩ := h
    show Guar _ _ s.ledger s3.ledger
    rw [(distSupplier_rw h3).ledger, (distSupplier_rw h2).ledger, (updSupply_rw h1).ledger]
    exact Guar.refl

end Verif.Loans
