import Verif.System.LoansGuar

/-! # What users' calls of the lending pallet leave alone -/

namespace Verif.Loans
open Verif Verif.System
variable {c : Cfg} {s s' s'' : State} {A : Nat → Prop}

/-- What governance has set: markets, their ids and ptokens, the assets reserved for liquidation-free borrowing, and
the speeds of rewards. -/
def Terms (s : State) : (Nat → Option Market) × List Nat × (Nat → Option Nat) × List Nat × (Nat → Nat × Nat) :=
  (s.markets, s.ids, s.underlying, s.lfc, fun a => ((s.rw.mkt a).supSpeed, (s.rw.mkt a).borSpeed))

/-- Nothing but the positions of the accounts in `A` and the books of the markets changes: `v`'s deposits with their
collateral flags, `v`'s debts (as recorded; interest is added by the market's index), `v`'s unpaid rewards. -/
structure LeavesOthers (A : Nat → Prop) (s s' : State) : Prop where
  terms : Terms s' = Terms s
  deps : ∀ a v, ¬ A v → s'.deposits a v = s.deposits a v
  debts : ∀ a v, ¬ A v → s'.debts a v = s.debts a v
  accrued : ∀ v, ¬ A v → s'.rw.accrued v = s.rw.accrued v

theorem LeavesOthers.refl : LeavesOthers A s s := ⟨rfl, fun _ _ _ => rfl, fun _ _ _ => rfl, fun _ _ => rfl⟩
theorem LeavesOthers.trans (h : LeavesOthers A s s') (h2 : LeavesOthers A s' s'') : LeavesOthers A s s'' :=
  ⟨h2.terms.trans h.terms, fun a v hv => (h2.deps a v hv).trans (h.deps a v hv),
    fun a v hv => (h2.debts a v hv).trans (h.debts a v hv), fun v hv => (h2.accrued v hv).trans (h.accrued v hv)⟩

theorem upd2_leave {α : Type} {f : Nat → Nat → α} {a w : Nat} {x : α} (hw : A w) (b v : Nat) (hv : ¬ A v) :
    upd2 f a w x b v = f b v := upd2_of_ne _ _ (Or.inr (fun e => hv (e ▸ hw)))
theorem upd_leave {α : Type} {f : Nat → α} {w : Nat} {x : α} (hw : A w) (v : Nat) (hv : ¬ A v) :
    upd f w x v = f v := upd_of_ne _ _ (fun e => hv (e ▸ hw))

theorem accrue_leavesOthers {a : Nat} (h : accrue c s a = .ok s') : LeavesOthers A s s' := by
  obtain ⟨_, h1, h2, h3, _, _, h4, h5, h6, _, h7, _⟩ := accrue_again h
  exact ⟨by unfold Terms; rw [h1, h4, h5, h6, h7], fun a v _ => by rw [h2], fun a v _ => by rw [h3], fun v _ => by rw [h4]⟩

theorem setRew_leavesOthers {a : Nat} {r : Rew} (h1 : r.supSpeed = (s.rw.mkt a).supSpeed) (h2 : r.borSpeed = (s.rw.mkt a).borSpeed) :
    LeavesOthers A s (setRew s a r) := by
  refine ⟨?_, fun _ _ _ => rfl, fun _ _ _ => rfl, fun _ _ => rfl⟩
  unfold Terms setRew
  dsimp only
  congr 4
  funext x
  by_cases e : x = a
  · subst e; rw [upd_same, h1, h2]
  · rw [upd_of_ne _ _ e]

theorem updSupply_leavesOthers {a : Nat} (h : updSupply s a = .ok s') : LeavesOthers A s s' := by
  obtain ⟨r, rfl, h1, h2, _⟩ := updSupply_ok h; exact setRew_leavesOthers h1 h2
theorem updBorrow_leavesOthers {a : Nat} (h : updBorrow s a = .ok s') : LeavesOthers A s s' := by
  obtain ⟨r, rfl, h1, h2, _⟩ := updBorrow_ok h; exact setRew_leavesOthers h1 h2
theorem distSupplier_leavesOthers {a w : Nat} (h : distSupplier s a w = .ok s') (hw : A w) : LeavesOthers A s s' := by
  obtain ⟨_, rfl⟩ := distSupplier_ok h
  exact ⟨rfl, fun _ _ _ => rfl, fun _ _ _ => rfl, upd_leave hw⟩
theorem distBorrower_leavesOthers {a w : Nat} (h : distBorrower s a w = .ok s') (hw : A w) : LeavesOthers A s s' := by
  obtain ⟨_, rfl⟩ := distBorrower_ok h
  exact ⟨rfl, fun _ _ _ => rfl, fun _ _ _ => rfl, upd_leave hw⟩
theorem updEarned_leavesOthers {w a r : Nat} (h : updEarned s w a r = .ok s') : LeavesOthers A s s' := by
  obtain ⟨e, rfl⟩ := updEarned_ok h
  exact ⟨rfl, fun _ _ _ => rfl, fun _ _ _ => rfl, fun _ _ => rfl⟩
theorem setDep_leavesOthers {a w : Nat} {d : Option Deposit} (hw : A w) : LeavesOthers A s (setDep s a w d) :=
  ⟨rfl, upd2_leave hw, fun _ _ _ => rfl, fun _ _ => rfl⟩

theorem mint_leavesOthers {w a m : Nat} (h : mint c s w a m = .ok s') (hw : A w) : LeavesOthers A s s' := by
  simp only [mint, bind_ok_iff, pure_ok_iff] at h
  obtain ⟨_, _, _, _, _, _, s1, h1, s2, h2, s3, h3, _, _, s4, h4, _, _, _, _, l, hl, _, _, _, _, rfl⟩ := h
  refine (accrue_leavesOthers h1).trans ((updSupply_leavesOthers h2).trans ((distSupplier_leavesOthers h3 hw).trans
    ((updEarned_leavesOthers h4).trans ?_)))
  exact ⟨rfl, upd2_leave hw, fun _ _ _ => rfl, fun _ _ => rfl⟩

theorem redeemVoucher_leavesOthers {w a v m : Nat} (h : redeemVoucher c s w a v = .ok (s', m)) (hw : A w) : LeavesOthers A s s' := by
  simp only [redeemVoucher, bind_ok_iff, pure_ok_iff, Prod.mk.injEq] at h
  obtain ⟨_, _, s2, h2, s3, h3, _, _, _, _, _, _, _, _, l, hl, rfl, _⟩ := h
  refine (updSupply_leavesOthers h2).trans ((distSupplier_leavesOthers h3 hw).trans ?_)
  exact ⟨rfl, upd2_leave hw, fun _ _ _ => rfl, fun _ _ => rfl⟩

theorem doRedeem_leavesOthers {w a m : Nat} {x : State × Nat} (h : doRedeem c s w a m = .ok x) (hw : A w) :
    LeavesOthers A s x.1 := by
  simp only [doRedeem, bind_ok_iff] at h
  obtain ⟨_, _, s1, h1, _, _, s2, h2, _, _, h3⟩ := h
  exact (accrue_leavesOthers h1).trans ((updEarned_leavesOthers h2).trans (redeemVoucher_leavesOthers h3 hw))

theorem redeem_leavesOthers {w a m : Nat} (h : redeem c s w a m = .ok s') (hw : A w) : LeavesOthers A s s' := by
  simp only [redeem, bind_ok_iff, pure_ok_iff] at h
  obtain ⟨_, _, x, h1, rfl⟩ := h
  exact doRedeem_leavesOthers h1 hw

theorem borrow_leavesOthers {w a m : Nat} (h : borrow c s w a m = .ok s') (hw : A w) : LeavesOthers A s s' := by
  simp only [borrow, bind_ok_iff, pure_ok_iff] at h
  obtain ⟨_, _, s1, h1, _, _, s2, h2, s3, h3, _, _, _, _, _, _, l, hl, rfl⟩ := h
  refine (accrue_leavesOthers h1).trans ((updBorrow_leavesOthers h2).trans ((distBorrower_leavesOthers h3 hw).trans ?_))
  exact ⟨rfl, fun _ _ _ => rfl, upd2_leave hw, fun _ _ => rfl⟩

theorem repayWith_leavesOthers {w a d m : Nat} (h : repayWith c s w a d m = .ok s') (hw : A w) : LeavesOthers A s s' := by
  simp only [repayWith, bind_ok_iff, pure_ok_iff] at h
  obtain ⟨_, _, s2, h2, s3, h3, l, hl, rfl⟩ := h
  refine (updBorrow_leavesOthers h2).trans ((distBorrower_leavesOthers h3 hw).trans ?_)
  exact ⟨rfl, fun _ _ _ => rfl, upd2_leave hw, fun _ _ => rfl⟩

theorem repay_leavesOthers {w a m : Nat} (h : repay c s w a m = .ok s') (hw : A w) : LeavesOthers A s s' := by
  simp only [repay, bind_ok_iff] at h
  obtain ⟨_, _, s1, h1, _, _, h2⟩ := h
  exact (accrue_leavesOthers h1).trans (repayWith_leavesOthers h2 hw)

theorem setCollateral_leavesOthers {w a : Nat} {on : Bool} (h : setCollateral c s w a on = .ok s') (hw : A w) :
    LeavesOthers A s s' := by
  simp only [setCollateral, bind_ok_iff] at h
  obtain ⟨_, _, _, _, h⟩ := h
  split_ifs at h
  · cases h; exact setDep_leavesOthers hw
  · simp only [bind_ok_iff, pure_ok_iff] at h
    obtain ⟨_, _, _, _, _, _, _, _, _, _, rfl⟩ := h
    exact setDep_leavesOthers hw

theorem collateralAsset_leavesOthers {w a : Nat} {on : Bool} (h : collateralAsset c s w a on = .ok s') (hw : A w) :
    LeavesOthers A s s' := by
  simp only [collateralAsset, bind_ok_iff] at h
  obtain ⟨_, _, _, _, _, _, h⟩ := h
  exact setCollateral_leavesOthers h hw

theorem collect_leavesOthers {a w : Nat} (h : collect s a w = .ok s') (hw : A w) : LeavesOthers A s s' := by
  simp only [collect, bind_ok_iff] at h
  obtain ⟨s1, h1, s2, h2, s3, h3, h4⟩ := h
  exact (updSupply_leavesOthers h1).trans ((distSupplier_leavesOthers h2 hw).trans ((updBorrow_leavesOthers h3).trans
    (distBorrower_leavesOthers h4 hw)))

theorem collectAll_leavesOthers {w : Nat} (hw : A w) : ∀ {as : List Nat} {s s' : State}, collectAll s w as = .ok s' →
    LeavesOthers A s s'
  | [], s, s', h => by cases h; exact .refl
  | a :: as, s, s', h => by
    simp only [collectAll, bind_ok_iff] at h
    obtain ⟨s1, h1, h2⟩ := h
    exact (collect_leavesOthers h1 hw).trans (collectAll_leavesOthers hw h2)

theorem payReward_leavesOthers {w : Nat} (h : payReward c s w = .ok s') (hw : A w) : LeavesOthers A s s' := by
  unfold payReward at h
  split_ifs at h
  · cases h; exact .refl
  · simp only [bind_ok_iff, pure_ok_iff] at h
    obtain ⟨l, hl, rfl⟩ := h
    exact ⟨rfl, fun _ _ _ => rfl, fun _ _ _ => rfl, upd_leave hw⟩

theorem liquidate_leavesOthers {l b a m k : Nat} (h : liquidate c s l b a m k = .ok s') (A1 : A l) (A2 : A b)
    (A3 : A c.incentiveAcct) : LeavesOthers A s s' := by
  simp only [liquidate, bind_ok_iff, doLiquidate] at h
  obtain ⟨_, _, s1, h1, s2, h2, _, _, _, _, mk, _, _, _, _, _, _, _, _, _, _, _, _, _, _, _, _, _, _, _, _, _, und,
    _, h⟩ := h
  simp only [liquidatedTransfer, bind_ok_iff, pure_ok_iff] at h
  obtain ⟨s3, h3, s4, h4, l', hl, d, _, d2, _, t, _, s6, h6, s7, h7, s8, h8, s9, h9, _, _, _, _, _, _, _, _, _, _,
    _, _, _, _, rfl⟩ := h
  have e1 : LeavesOthers A s s4 := (accrue_leavesOthers h1).trans ((accrue_leavesOthers h2).trans ((updBorrow_leavesOthers h3).trans
    (distBorrower_leavesOthers h4 A1)))
  have e2 := updSupply_leavesOthers (A := A) h6
  have e3 : LeavesOthers A s s6 := by
    refine e1.trans (LeavesOthers.trans ?_ e2)
    exact ⟨rfl, fun _ _ _ => rfl, upd2_leave A2, fun _ _ => rfl⟩
  exact e3.trans ((distSupplier_leavesOthers h7 A1).trans ((distSupplier_leavesOthers h8 A2).trans ((distSupplier_leavesOthers h9 A3).trans
    ((setDep_leavesOthers A2).trans ((setDep_leavesOthers A1).trans (setDep_leavesOthers A3))))))

/-- The accounts whose position a call is about. -/
def Call.about (c : Cfg) : Call → List Nat
  | .claim w => [w]
  | .claimFor w _ => [w]
  | .mint w _ _ => [w]
  | .redeem w _ _ => [w]
  | .redeemAll w _ => [w]
  | .borrow w _ _ => [w]
  | .repay w _ _ => [w]
  | .repayAll w _ => [w]
  | .collateral w _ _ => [w]
  | .liquidate l b _ _ _ => [l, b, c.incentiveAcct]
  | .transferP _ x y _ => [x, y]
  | .reduceIncentive _ _ _ => [c.incentiveAcct]
  | _ => []

/-- The calls that set terms. -/
def Call.setsTerms : Call → Bool
  | .addMarket _ _ => true
  | .activate _ => true
  | .updateModel _ _ => true
  | .updateMarket _ _ => true
  | .forceUpdate _ _ => true
  | .updateSpeed _ _ _ => true
  | .updateLfc _ => true
  | _ => false

theorem exec_leavesOthers {k : Call} (h : exec c s k = .ok s') (hk : k.setsTerms = false) :
    LeavesOthers (fun v => v ∈ k.about c) s s' := by
  cases k <;> simp only [Call.setsTerms, reduceCtorEq] at hk
  case addReward w m =>
    simp only [exec, addReward, bind_ok_iff, pure_ok_iff] at h
    obtain ⟨_, _, l, hl, rfl⟩ := h
    exact ⟨rfl, fun _ _ _ => rfl, fun _ _ _ => rfl, fun _ _ => rfl⟩
  case withdrawReward t m =>
    simp only [exec, withdrawReward, bind_ok_iff, pure_ok_iff] at h
    obtain ⟨_, _, l, hl, rfl⟩ := h
    exact ⟨rfl, fun _ _ _ => rfl, fun _ _ _ => rfl, fun _ _ => rfl⟩
  case claim w =>
    simp only [exec, claim, bind_ok_iff] at h
    obtain ⟨s1, h1, h2⟩ := h
    exact (collectAll_leavesOthers (by simp [Call.about]) h1).trans (payReward_leavesOthers h2 (by simp [Call.about]))
  case claimFor w a =>
    simp only [exec, claimFor, bind_ok_iff] at h
    obtain ⟨s1, h1, h2⟩ := h
    exact (collect_leavesOthers h1 (by simp [Call.about])).trans (payReward_leavesOthers h2 (by simp [Call.about]))
  case mint w a m => exact mint_leavesOthers h (by simp [Call.about])
  case redeem w a m => exact redeem_leavesOthers h (by simp [Call.about])
  case redeemAll w a =>
    simp only [exec, redeemAll, bind_ok_iff, pure_ok_iff] at h
    obtain ⟨_, _, s1, h1, _, _, s2, h2, x, h3, rfl⟩ := h
    exact (accrue_leavesOthers h1).trans ((updEarned_leavesOthers h2).trans (redeemVoucher_leavesOthers h3 (by simp [Call.about])))
  case borrow w a m => exact borrow_leavesOthers h (by simp [Call.about])
  case repay w a m => exact repay_leavesOthers h (by simp [Call.about])
  case repayAll w a =>
    simp only [exec, repayAll, bind_ok_iff] at h
    obtain ⟨_, _, s1, h1, _, _, h2⟩ := h
    exact (accrue_leavesOthers h1).trans (repay_leavesOthers h2 (by simp [Call.about]))
  case collateral w a on => exact collateralAsset_leavesOthers h (by simp [Call.about])
  case liquidate l b a m k =>
    exact liquidate_leavesOthers h (by simp [Call.about]) (by simp [Call.about]) (by simp [Call.about])
  case addReserves w a m =>
    simp only [exec, addReserves, bind_ok_iff, pure_ok_iff] at h
    obtain ⟨_, _, l, hl, _, _, rfl⟩ := h
    exact ⟨rfl, fun _ _ _ => rfl, fun _ _ _ => rfl, fun _ _ => rfl⟩
  case reduceReserves w a m =>
    simp only [exec, reduceReserves, bind_ok_iff, pure_ok_iff] at h
    obtain ⟨_, _, _, _, l, hl, rfl⟩ := h
    exact ⟨rfl, fun _ _ _ => rfl, fun _ _ _ => rfl, fun _ _ => rfl⟩
  case reduceIncentive w a m =>
    simp only [exec, reduceIncentive, bind_ok_iff, pure_ok_iff] at h
    obtain ⟨_, _, _, _, _, _, _, _, x, hx, l, hl, rfl⟩ := h
    refine (redeemVoucher_leavesOthers hx (by simp [Call.about])).trans ?_
    exact ⟨rfl, fun _ _ _ => rfl, fun _ _ _ => rfl, fun _ _ => rfl⟩
  case transferP p x y m =>
    simp only [exec, transferP, bind_ok_iff, pure_ok_iff] at h
    obtain ⟨_, _, s1, h1, s2, h2, s3, h3, _, _, _, _, _, _, rfl⟩ := h
    exact (updSupply_leavesOthers h1).trans ((distSupplier_leavesOthers h2 (by simp [Call.about])).trans
      ((distSupplier_leavesOthers h3 (by simp [Call.about])).trans ((setDep_leavesOthers (by simp [Call.about])).trans
        (setDep_leavesOthers (by simp [Call.about])))))

end Verif.Loans
