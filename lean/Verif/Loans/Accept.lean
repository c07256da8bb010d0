import Verif.Loans.OpsExact

/-!
# C117: when the operations of users are accepted
-/

set_option linter.unusedSimpArgs false
set_option linter.unusedVariables false

namespace Verif.Loans
open Verif

variable {c : Cfg} {s s' : State}

/-! ### Reward indices of users never run ahead of the markets' indices -/

/-- Every user's reward index is at most the market's. -/
def IxOk (r : Rewards) : Prop := ∀ a w, r.supIx a w ≤ (r.mkt a).supIdx ∧ r.borIx a w ≤ (r.mkt a).borIdx

theorem IxOk.setRew {a : Nat} {x : Rew} (h : IxOk s.rw) (h1 : (s.rw.mkt a).supIdx ≤ x.supIdx)
    (h2 : (s.rw.mkt a).borIdx ≤ x.borIdx) : IxOk (setRew s a x).rw := by
  intro b w
  show s.rw.supIx b w ≤ (upd s.rw.mkt a x b).supIdx ∧ s.rw.borIx b w ≤ (upd s.rw.mkt a x b).borIdx
  by_cases hb : b = a
  · subst hb
    rw [upd_same]
    exact ⟨(h b w).1.trans h1, (h b w).2.trans h2⟩
  · rw [upd_of_ne _ _ hb]
    exact h b w

theorem IxOk.updSupply {a : Nat} (h : IxOk s.rw) (he : updSupply s a = .ok s') : IxOk s'.rw := by
  rw [updSupply_exact he]
  exact h.setRew (Nat.le_add_right _ _) (Nat.le_refl _)

theorem IxOk.updBorrow {a : Nat} (h : IxOk s.rw) (he : updBorrow s a = .ok s') : IxOk s'.rw := by
  rw [updBorrow_exact he]
  exact h.setRew (Nat.le_refl _) (Nat.le_add_right _ _)

theorem IxOk.distSupplier {a w : Nat} (h : IxOk s.rw) (he : distSupplier s a w = .ok s') : IxOk s'.rw := by
  rw [(distSupplier_ok he).2]
  intro b v
  dsimp only
  rw [upd2_apply]
  refine ⟨?_, (h b v).2⟩
  split_ifs with hb
  · rw [hb.1]
  · exact (h b v).1

theorem IxOk.distBorrower {a w : Nat} (h : IxOk s.rw) (he : distBorrower s a w = .ok s') : IxOk s'.rw := by
  rw [(distBorrower_exact he).2]
  intro b v
  dsimp only
  rw [upd2_apply]
  refine ⟨(h b v).1, ?_⟩
  split_ifs with hb
  · rw [hb.1]
  · exact (h b v).2

theorem IxOk.collect {a w : Nat} (h : IxOk s.rw) (he : collect s a w = .ok s') : IxOk s'.rw := by
  simp only [Loans.collect, bind_ok_iff] at he
  obtain ⟨s1, h1, s2, h2, s3, h3, h4⟩ := he
  exact (((h.updSupply h1).distSupplier h2).updBorrow h3).distBorrower h4

theorem IxOk.collectAll {w : Nat} : ∀ {as : List Nat} {s s' : State}, IxOk s.rw → collectAll s w as = .ok s' → IxOk s'.rw
  | [], s, s', h, he => by cases he; exact h
  | a :: as, s, s', h, he => by
    simp only [Loans.collectAll, bind_ok_iff] at he
    obtain ⟨s1, h1, h2⟩ := he
    exact IxOk.collectAll (h.collect h1) h2

theorem IxOk.payReward {w : Nat} (h : IxOk s.rw) (he : payReward c s w = .ok s') : IxOk s'.rw := by
  obtain ⟨l, _, rfl⟩ := payReward_view he
  exact h

theorem accrue_rw {a : Nat} (h : accrue c s a = .ok s') : s'.rw = s.rw := by
  obtain ⟨b, rfl, _⟩ := accrue_ok h
  rfl

theorem updEarned_rw {w a r : Nat} (h : updEarned s w a r = .ok s') : s'.rw = s.rw := by
  obtain ⟨e, rfl⟩ := updEarned_ok h
  rfl

theorem IxOk.redeemVoucher {w a v : Nat} {p : State × Nat} (h : IxOk s.rw) (he : redeemVoucher c s w a v = .ok p) :
    IxOk p.1.rw := by
  simp only [Loans.redeemVoucher, bind_ok_iff, pure_ok_iff] at he
  obtain ⟨_, _, s1, h1, s2, h2, _, _, _, _, _, _, _, _, _, _, rfl⟩ := he
  have i := (h.updSupply h1).distSupplier h2
  exact i

theorem IxOk.exec {k : Call} (h : IxOk s.rw) (he : exec c s k = .ok s') : IxOk s'.rw := by
  cases k with
  | addMarket a m =>
    simp only [Loans.exec, addMarket, bind_ok_iff, ensure_ok_iff, exists_const, pure_ok_iff] at he
    obtain ⟨_, _, _, _, _, _, _, _, _, _, rfl⟩ := he
    exact h
  | activate a => obtain ⟨m, _, rfl⟩ := C113_activate.mp he; exact h
  | updateModel a rm => obtain ⟨_, m, _, rfl⟩ := C113_update_rate_model.mp he; exact h
  | updateMarket a p => obtain ⟨m, _, _, _, _, _, _, rfl⟩ := C113_update_market.mp he; exact h
  | forceUpdate a m => obtain ⟨_, _, _, rfl⟩ := C113_force_update.mp he; exact h
  | addReward w m => obtain ⟨_, _, e⟩ := C116_reward_funds he; rw [e]; exact h
  | withdrawReward w m => obtain ⟨_, _, _, e⟩ := C116_reward_withdrawal he; rw [e]; exact h
  | updateSpeed a x y =>
    simp only [Loans.exec, updateSpeed, bind_ok_iff, pure_ok_iff] at he
    obtain ⟨_, _, s1, h1, s2, h2, rfl⟩ := he
    have i1 : IxOk s1.rw := by
      rw [setSupSpeed_exact h1]
      refine h.setRew ?_ (Nat.le_refl _)
      dsimp only
      split_ifs
      · exact Nat.le_refl _
      · exact Nat.le_add_right _ _
    have i2 : IxOk s2.rw := by
      rw [setBorSpeed_exact h2]
      refine i1.setRew (Nat.le_refl _) ?_
      dsimp only
      split_ifs
      · exact Nat.le_refl _
      · exact Nat.le_add_right _ _
    exact i2
  | claim w =>
    simp only [Loans.exec, Loans.claim, bind_ok_iff] at he
    obtain ⟨s1, h1, h2⟩ := he
    exact (IxOk.collectAll h h1).payReward h2
  | claimFor w a =>
    simp only [Loans.exec, Loans.claimFor, bind_ok_iff] at he
    obtain ⟨s1, h1, h2⟩ := he
    exact (h.collect h1).payReward h2
  | mint w a m =>
    simp only [Loans.exec, mint, bind_ok_iff, ensure_ok_iff, exists_const, pure_ok_iff] at he
    obtain ⟨_, _, _, _, _, s1, h1, s2, h2, s3, h3, _, _, s4, h4, _, _, _, _, _, _, _, _, _, rfl⟩ := he
    have i := ((accrue_rw h1 ▸ h : IxOk s1.rw).updSupply h2).distSupplier h3
    exact (updEarned_rw h4).symm ▸ i
  | redeem w a m =>
    simp only [Loans.exec, redeem, doRedeem, bind_ok_iff, ensure_ok_iff, exists_const, pure_ok_iff] at he
    obtain ⟨_, x, ⟨_, _, s1, h1, _, _, s2, h2, _, _, h3⟩, rfl⟩ := he
    have i : IxOk s2.rw := by rw [updEarned_rw h2, accrue_rw h1]; exact h
    exact i.redeemVoucher h3
  | redeemAll w a =>
    simp only [Loans.exec, redeemAll, bind_ok_iff, pure_ok_iff] at he
    obtain ⟨_, _, s1, h1, _, _, s2, h2, x, h3, rfl⟩ := he
    have i : IxOk s2.rw := by rw [updEarned_rw h2, accrue_rw h1]; exact h
    exact i.redeemVoucher h3
  | borrow w a m =>
    simp only [Loans.exec, borrow, bind_ok_iff, pure_ok_iff] at he
    obtain ⟨_, _, s1, h1, _, _, s2, h2, s3, h3, _, _, _, _, _, _, _, _, rfl⟩ := he
    have i := ((accrue_rw h1 ▸ h : IxOk s1.rw).updBorrow h2).distBorrower h3
    exact i
  | repay w a m =>
    simp only [Loans.exec, repay, repayWith, bind_ok_iff, ensure_ok_iff, exists_const, pure_ok_iff] at he
    obtain ⟨_, _, s1, h1, _, _, _, s2, h2, s3, h3, _, _, rfl⟩ := he
    have i := ((accrue_rw h1 ▸ h : IxOk s1.rw).updBorrow h2).distBorrower h3
    exact i
  | repayAll w a =>
    simp only [Loans.exec, repayAll, repay, repayWith, bind_ok_iff, ensure_ok_iff, exists_const, pure_ok_iff] at he
    obtain ⟨_, _, s0, h0, _, _, _, _, s1, h1, _, _, _, s2, h2, s3, h3, _, _, rfl⟩ := he
    have i : IxOk s1.rw := by rw [accrue_rw h1, accrue_rw h0]; exact h
    have j := (i.updBorrow h2).distBorrower h3
    exact j
  | collateral w a on => obtain ⟨_, _, rfl⟩ := C116_collateral he; exact h
  | liquidate l br a m k =>
    simp only [Loans.exec, liquidate, doLiquidate, liquidatedTransfer, bind_ok_iff, ensure_ok_iff, exists_const,
      pure_ok_iff] at he
    obtain ⟨_, s1, h1, s2, h2, _, _, _, _, _, _, _, _, _, _, _, _, _, _, _, _, _, _, _, _, _, _, _, _, _,
      t1, g1, t2, g2, _, _, _, _, _, _, _, _, t3, g3, t4, g4, t5, g5, t6, g6, _, _, _, _, _, _, _, _, _, _, _, _,
      _, _, rfl⟩ := he
    have i2 : IxOk s2.rw := by rw [accrue_rw h2, accrue_rw h1]; exact h
    have j2 := (i2.updBorrow g1).distBorrower g2
    have j3 : IxOk t3.rw := by
      refine IxOk.updSupply ?_ g3
      exact j2
    have j4 := ((j3.distSupplier g4).distSupplier g5).distSupplier g6
    exact j4
  | addReserves w a m => obtain ⟨_, e⟩ := C116_add_reserves he; rw [e]; exact h
  | reduceReserves w a m => obtain ⟨_, _, e⟩ := C116_reduce_reserves he; rw [e]; exact h
  | reduceIncentive w a m =>
    simp only [Loans.exec, reduceIncentive, bind_ok_iff, ensure_ok_iff, exists_const, pure_ok_iff] at he
    obtain ⟨_, _, _, _, _, _, _, x, h3, _, _, rfl⟩ := he
    exact h.redeemVoucher h3
  | updateLfc as => cases he; exact h
  | transferP p src dst m =>
    simp only [Loans.exec, transferP, bind_ok_iff, ensure_ok_iff, exists_const, pure_ok_iff] at he
    obtain ⟨_, s1, h1, s2, h2, s3, h3, _, _, _, _, _, _, rfl⟩ := he
    have i := ((h.updSupply h1).distSupplier h2).distSupplier h3
    exact i

theorem ixOk_reach {ok : Call → Prop} (h : ReachBy c ok s) : IxOk s.rw := by
  induction h with
  | init l p t b hw => intro a w; exact ⟨Nat.le_refl _, Nat.le_refl _⟩
  | step _ hs ih =>
    cases hs with
    | call k _ _ _ he => exact ih.exec he
    | env he => rw [he.same]; exact ih

/-! ### Settlements succeed while the numbers fit -/

theorem updSupply_succeeds {a : Nat} (h : supIdxNow s a ≤ maxU128) : ∃ s1, updSupply s a = .ok s1 := by
  unfold updSupply
  unfold supIdxNow at h
  dsimp only
  split_ifs
  · exact ⟨_, rfl⟩
  · exact ⟨_, rfl⟩
  · simp only [bind_ok_iff, cadd_ok_iff, pure_ok_iff, deltaIndex_iff]
    exact ⟨_, _, ⟨Nat.le_trans (Nat.le_add_left _ _) h, rfl⟩, _, ⟨h, rfl⟩, rfl⟩

theorem settleSupply {a w : Nat} (hx : IxOk s.rw) (h1 : supIdxNow s a ≤ maxU128)
    (h2 : s.rw.accrued w + dueSup s a w ≤ maxU128) :
    ∃ s1 r, updSupply s a = .ok s1 ∧ distSupplier s1 a w = .ok { s with rw := r } := by
  obtain ⟨s1, e⟩ := updSupply_succeeds h1
  have hi := hx.updSupply e a w
  have hm : (s1.rw.mkt a).supIdx = supIdxNow s a := by
    rw [updSupply_exact e]; unfold setRew; dsimp only; rw [upd_same]
  have hsx : s1.rw.supIx a w = s.rw.supIx a w := by rw [updSupply_exact e]; rfl
  have hv : s1.vouchers a w = s.vouchers a w := by rw [updSupply_exact e]; rfl
  have ha : s1.rw.accrued w = s.rw.accrued w := by rw [updSupply_exact e]; rfl
  have hd : s1.vouchers a w * ((s1.rw.mkt a).supIdx - s1.rw.supIx a w) / scale = dueSup s a w := by
    rw [hv, hm, hsx]; rfl
  have key : ∃ s2, distSupplier s1 a w = .ok s2 := by
    simp only [distSupplier, rewardDelta, bind_ok_iff, csub_ok_iff, cadd_ok_iff, toU128_ok_iff, pure_ok_iff]
    exact ⟨_, _, ⟨hi.1, rfl⟩, _, ⟨by rw [hd]; omega, rfl⟩, _, ⟨by rw [hd, ha]; exact h2, rfl⟩, rfl⟩
  obtain ⟨s2, e2⟩ := key
  obtain ⟨r, rfl⟩ := (updSupply_rw e).trans (distSupplier_rw e2)
  exact ⟨s1, r, e, e2⟩

theorem baseOf_le {a m : Nat} (hi : DIV ≤ (s.books a).index) : baseOf s a m ≤ m := by
  unfold baseOf
  have h1 : DIV * DIV / (s.books a).index ≤ DIV := by
    apply Nat.div_le_of_le_mul
    exact Nat.mul_le_mul_right _ hi
  calc DIV * DIV / (s.books a).index * m / DIV ≤ DIV * m / DIV := Nat.div_le_div_right (Nat.mul_le_mul_right _ h1)
    _ = m := Nat.mul_div_cancel_left _ DIV_pos

theorem baseBorrow_succeeds {a m : Nat} (hi : DIV ≤ (s.books a).index) (hm : m ≤ maxU128) :
    baseBorrow (s.books a).index m = .ok (baseOf s a m) := by
  have h1 : DIV * DIV / (s.books a).index ≤ maxU128 := by
    have : DIV * DIV / (s.books a).index ≤ DIV := by
      apply Nat.div_le_of_le_mul
      exact Nat.mul_le_mul_right _ hi
    have h2 : DIV ≤ maxU128 := by decide +kernel
    omega
  have h0 : (s.books a).index ≠ 0 := by have := DIV_pos; omega
  have h3 := baseOf_le (m := m) hi
  unfold baseBorrow
  rw [okOr_ok_iff, Option.bind_eq_some_iff]
  refine ⟨_, (fixDiv_iff.mpr ⟨h0, h1, rfl⟩), fixMulInt_iff.mpr ⟨?_, rfl⟩⟩
  exact Nat.le_trans h3 hm

theorem updBorrow_succeeds {a : Nat} (hi : DIV ≤ (s.books a).index) (hb : (s.books a).borrows ≤ maxU128)
    (h : borIdxNow s a ≤ maxU128) : ∃ s1, updBorrow s a = .ok s1 := by
  unfold updBorrow
  unfold borIdxNow at h
  dsimp only
  split_ifs
  · exact ⟨_, rfl⟩
  · exact ⟨_, rfl⟩
  · rw [baseBorrow_succeeds hi hb, ok_bind]
    simp only [bind_ok_iff, cadd_ok_iff, pure_ok_iff, deltaIndex_iff]
    exact ⟨_, _, ⟨Nat.le_trans (Nat.le_add_left _ _) h, rfl⟩, _, ⟨h, rfl⟩, rfl⟩

/-- What the settlement of a borrower needs. -/
structure BorrowFits (s : State) (a w : Nat) : Prop where
  idx : DIV ≤ (s.books a).index
  borrows : (s.books a).borrows ≤ maxU128
  debt : debt s a w = .ok (owed s a w) ∧ owed s a w ≤ maxU128
  index : borIdxNow s a ≤ maxU128
  accrued : s.rw.accrued w + dueBor s a w ≤ maxU128

theorem settleBorrow {a w : Nat} (hx : IxOk s.rw) (h : BorrowFits s a w) :
    ∃ s1 r, updBorrow s a = .ok s1 ∧ distBorrower s1 a w = .ok { s with rw := r } := by
  obtain ⟨s1, e⟩ := updBorrow_succeeds h.idx h.borrows h.index
  have hi := hx.updBorrow e a w
  have hm : (s1.rw.mkt a).borIdx = borIdxNow s a := by
    rw [updBorrow_exact e]; unfold setRew; dsimp only; rw [upd_same]
  have hsx : s1.rw.borIx a w = s.rw.borIx a w := by rw [updBorrow_exact e]; rfl
  have ha : s1.rw.accrued w = s.rw.accrued w := by rw [updBorrow_exact e]; rfl
  have hde : Loans.debt s1 a w = .ok (owed s a w) := by rw [← h.debt.1, updBorrow_exact e]; rfl
  have hbb : baseBorrow (s1.books a).index (owed s a w) = .ok (baseOf s a (owed s a w)) := by
    have : s1.books = s.books := by rw [updBorrow_exact e]; rfl
    rw [this]
    exact baseBorrow_succeeds h.idx h.debt.2
  have hd : baseOf s a (owed s a w) * ((s1.rw.mkt a).borIdx - s1.rw.borIx a w) / scale = dueBor s a w := by
    rw [hm, hsx]; rfl
  have key : ∃ s2, distBorrower s1 a w = .ok s2 := by
    simp only [distBorrower, rewardDelta, bind_ok_iff, csub_ok_iff, cadd_ok_iff, toU128_ok_iff, pure_ok_iff]
    have ht := h.accrued
    exact ⟨_, _, ⟨hi.2, rfl⟩, _, hde, _, hbb, _, ⟨by rw [hd]; omega, rfl⟩, _, ⟨by rw [hd, ha]; exact ht, rfl⟩, rfl⟩
  obtain ⟨s2, e2⟩ := key
  obtain ⟨r, rfl⟩ := (updBorrow_rw e).trans (distBorrower_rw e2)
  exact ⟨s1, r, e, e2⟩

/-- What the settlement of a supplier needs. -/
structure SupplyFits (s : State) (a w : Nat) : Prop where
  index : supIdxNow s a ≤ maxU128
  accrued : s.rw.accrued w + dueSup s a w ≤ maxU128

/-- What the bookkeeping of earned interest needs, at rate `r`. -/
def EarnedFits (s : State) (a w r : Nat) : Prop :=
  (r - (s.earned a w).rate) * s.vouchers a w / DIV + (s.earned a w).total ≤ maxU128

theorem updEarned_succeeds {w a r : Nat} (h : EarnedFits s a w r) : ∃ e, updEarned s w a r = .ok { s with earned := e } := by
  unfold EarnedFits at h
  unfold updEarned
  dsimp only
  split_ifs with h0
  · simp only [bind_ok_iff, okOr_ok_iff, fixMulInt_iff, cadd_ok_iff, pure_ok_iff]
    exact ⟨_, _, ⟨by omega, rfl⟩, _, ⟨h, rfl⟩, rfl⟩
  · exact ⟨_, rfl⟩

/-! ## C117 -/

theorem Ledger.transfer_ok {l : Ledger} {a x y m : Nat} (h : m ≤ l.bal a x) : ∃ l', l.transfer a x y m false = .ok l' :=
  Ledger.transfer_succeeds h (fun e => by cases e)

theorem ensureActive_of {a : Nat} {mk : Market} (h : s.markets a = some mk) (h2 : mk.state = .active) :
    ensureActive s a = .ok mk := by
  unfold ensureActive
  rw [h]
  dsimp only
  rw [if_pos h2]

/-- **C117.** Supplying a positive amount to an active market is accepted whenever interest can be accrued, the exchange
rate is valid, the caller has the amount, the pool stays within the supply cap (inclusively) and all numbers fit. -/
theorem C117_mint_accepted (hc : c.Ok) (hr : Reach c s) {w a m r : Nat} {mk : Market} {s1 : State} (hm : m ≠ 0)
    (hmk : s.markets a = some mk) (hact : mk.state = .active)
    (hcap : s.ledger.bal a c.acct + m ≤ mk.supplyCap) (hcu : mk.supplyCap ≤ maxU128)
    (hacc : accrue c s a = .ok s1) (hrate : rateStored c s1 a = .ok r) (hbal : m ≤ s.ledger.bal a w)
    (hs : SupplyFits s1 a w) (he : EarnedFits s1 a w r) (hfit : (s.books a).supply + m * DIV / r ≤ maxU128) :
    ∃ s', exec c s (.mint w a m) = .ok s' := by
  have hI := inv_reach hc hr
  have hx := ixOk_reach hr
  obtain ⟨b, rfl, hg⟩ := accrue_ok hacc
  obtain ⟨t1, x, g1, g2⟩ := settleSupply (s := setBook s a b) hx hs.index hs.accrued
  obtain ⟨e, g3⟩ := updEarned_succeeds (s := { setBook s a b with rw := x }) he
  obtain ⟨l, hl⟩ := Ledger.transfer_ok (l := s.ledger) (y := c.acct) hbal
  obtain ⟨hr1, hr2⟩ := rateStored_bounds hrate
  have h0 : 0 < minValidRate := by decide
  have hv : m * DIV / r ≠ 0 := by
    have : 1 ≤ m * DIV / r := by
      rw [Nat.le_div_iff_mul_le (by omega)]
      have : DIV ≤ m * DIV := Nat.le_mul_of_pos_left _ (Nat.pos_of_ne_zero hm)
      omega
    omega
  have hvs : s.vouchers a w ≤ (s.books a).supply := (hI.sums a).apply w
  have hsup : b.supply = (s.books a).supply := hg.supply
  simp only [exec, mint, ensureSupplyCap, bind_ok_iff, ensure_ok_iff, exists_const, pure_ok_iff, cadd_ok_iff,
    market_ok, toVouchers, okOr_ok_iff, fixDiv_iff]
  refine ⟨_, hm, mk, ensureActive_of hmk hact, ⟨mk, hmk, _, ⟨by omega, rfl⟩, hcap⟩, _, hacc, _, g1, _, g2, r, hrate, _, g3,
    _, ⟨by omega, by omega, rfl⟩, hv, l, hl, _, ⟨?_, rfl⟩, _, ⟨?_, rfl⟩, rfl⟩
  · show s.vouchers a w + m * DIV / r ≤ maxU128
    omega
  · show ((upd s.books a b) a).supply + m * DIV / r ≤ maxU128
    rw [upd_same, hsup]
    exact hfit

/-- The account-liquidity query answers, and leaves at least `v`. -/
def Leaves (c : Cfg) (s : State) (w v : Nat) (lf : Bool) : Prop :=
  ∃ q, liquidity c s w = .ok q ∧ if lf then v ≤ q.1 ∨ v ≤ q.2.2.1 else q.2.2.1 + v ≤ q.1

theorem sumGo_le {f : Nat → R Nat} : ∀ {l : List Nat} {acc t : Nat}, acc ≤ maxU128 → sumGo f acc l = .ok t → t ≤ maxU128
  | [], acc, t, h, e => by cases e; exact h
  | x :: xs, acc, t, h, e => by
    simp only [sumGo, bind_ok_iff, cadd_ok_iff] at e
    obtain ⟨v, _, _, ⟨h1, rfl⟩, h2⟩ := e
    exact sumGo_le h1 h2

theorem ensureLiquidity_iff {w v : Nat} {lf : Bool} : ensureLiquidity c s w v lf = .ok () ↔ Leaves c s w v lf := by
  unfold ensureLiquidity Leaves
  simp only [bind_ok_iff]
  constructor
  · rintro ⟨q, hq, h⟩
    refine ⟨q, hq, ?_⟩
    cases lf with
    | true =>
      rw [if_pos rfl] at h ⊢
      rw [ensure_ok_iff] at h
      rcases le_max_iff.mp h with h | h <;> [left; right] <;> omega
    | false =>
      simp only [Bool.false_eq_true, if_false, bind_ok_iff, ensure_ok_iff, exists_const] at h ⊢
      exact h.2
  · rintro ⟨q, hq, h⟩
    refine ⟨q, hq, ?_⟩
    cases lf with
    | true =>
      rw [if_pos rfl] at h ⊢
      rw [ensure_ok_iff]
      exact le_max_iff.mpr h
    | false =>
      simp only [Bool.false_eq_true, if_false, bind_ok_iff, ensure_ok_iff, exists_const] at h ⊢
      refine ⟨?_, h⟩
      simp only [liquidity, bind_ok_iff, pure_ok_iff] at hq
      obtain ⟨b, _, t, ht, _, _, _, _, rfl⟩ := hq
      have := sumGo_le (Nat.zero_le _) ht
      dsimp only at h ⊢
      omega

theorem redeemAllowed_iff {a w v r : Nat} (hr : rateStored c s a = .ok r) (hv : v ≤ s.vouchers a w)
    (hfit : r * v / DIV ≤ maxU128) (hcash : (s.books a).reserves + r * v / DIV ≤ s.ledger.bal a c.acct)
    (hcol : (s.dep a w).coll = true → ∃ mk x, s.markets a = some mk ∧
      assetValue s a (pmulCeil mk.cf (r * v / DIV)) = .ok x ∧ Leaves c s w x (decide (a ∈ s.lfc))) :
    redeemAllowed c s a w v = .ok () := by
  simp only [redeemAllowed, bind_ok_iff, ensure_ok_iff, exists_const, ensureCash, csub_ok_iff, toUnderlying,
    okOr_ok_iff, fixMulInt_iff]
  refine ⟨hv, r, hr, _, ⟨hfit, rfl⟩, ⟨_, ⟨?_, rfl⟩, ?_⟩, ?_⟩
  · rw [cash_eq]; exact le_trans (Nat.le_add_right _ _) hcash
  · rw [cash_eq]; generalize r * v / DIV = u at *; omega
  · by_cases hcl : (s.dep a w).coll = false
    · rw [if_pos hcl]
    · rw [if_neg hcl]
      obtain ⟨mk, x, h1, h2, h3⟩ := hcol (by simpa using hcl)
      simp only [bind_ok_iff, market_ok]
      exact ⟨mk, h1, x, h2, ensureLiquidity_iff.mpr h3⟩

theorem redeemVoucher_succeeds {a w v r : Nat} (hr : rateStored c s a = .ok r) (hv : v ≤ s.vouchers a w)
    (hvs : v ≤ (s.books a).supply)
    (hfit : r * v / DIV ≤ maxU128) (hcash : (s.books a).reserves + r * v / DIV ≤ s.ledger.bal a c.acct)
    (hcol : (s.dep a w).coll = true → ∃ mk x, s.markets a = some mk ∧
      assetValue s a (pmulCeil mk.cf (r * v / DIV)) = .ok x ∧ Leaves c s w x (decide (a ∈ s.lfc)))
    (hx : IxOk s.rw) (hs : SupplyFits s a w) : ∃ p, redeemVoucher c s w a v = .ok p := by
  obtain ⟨t1, x, g1, g2⟩ := settleSupply hx hs.index hs.accrued
  obtain ⟨l, hl⟩ := Ledger.transfer_ok (l := s.ledger) (y := w) (show r * v / DIV ≤ s.ledger.bal a c.acct by omega)
  simp only [redeemVoucher, bind_ok_iff, pure_ok_iff, csub_ok_iff, toUnderlying, okOr_ok_iff, fixMulInt_iff]
  refine ⟨_, _, redeemAllowed_iff hr hv hfit hcash hcol, _, g1, _, g2, r, hr, _, ⟨hfit, rfl⟩, _, ⟨hv, rfl⟩, _, ⟨hvs, rfl⟩,
    l, ?_, rfl⟩
  dsimp only
  rw [hl]

/-- **C117.** Redeeming is accepted whenever interest can be accrued, the rate is valid, the caller owns the ptokens, the
pool has the tokens beyond its reserves, and, for collateral, the liquidity of the account covers the weighted value. -/
theorem C117_redeem_accepted (hc : c.Ok) (hr : Reach c s) {w a m r v : Nat} {mk : Market} {s1 : State} (hm : m ≠ 0)
    (hmk : s.markets a = some mk) (hact : mk.state = .active)
    (hacc : accrue c s a = .ok s1) (hrate : rateStored c s1 a = .ok r) (hvd : v = m * DIV / r)
    (hv : v ≤ s.vouchers a w) (hv128 : v ≤ maxU128)
    (hfit : r * v / DIV ≤ maxU128) (hcash : (s1.books a).reserves + r * v / DIV ≤ s.ledger.bal a c.acct)
    (hcol : (s.dep a w).coll = true → ∃ x,
      assetValue s1 a (pmulCeil mk.cf (r * v / DIV)) = .ok x ∧ Leaves c s1 w x (decide (a ∈ s.lfc)))
    (hs : SupplyFits s1 a w) (he : EarnedFits s1 a w r) : ∃ s', exec c s (.redeem w a m) = .ok s' := by
  have hI := inv_reach hc hr
  have hx := ixOk_reach hr
  obtain ⟨b, rfl, hg⟩ := accrue_ok hacc
  obtain ⟨e, g3⟩ := updEarned_succeeds (s := setBook s a b) he
  obtain ⟨hr1, hr2⟩ := rateStored_bounds hrate
  have h0 : 0 < minValidRate := by decide
  have hvs : s.vouchers a w ≤ (s.books a).supply := (hI.sums a).apply w
  have hsup : b.supply = (s.books a).supply := hg.supply
  have hbk : (setBook s a b).books a = b := upd_same _ _ _
  obtain ⟨p, hp⟩ := redeemVoucher_succeeds (c := c) (s := { setBook s a b with earned := e }) (a := a) (w := w) (v := v)
    (r := r) hrate hv (by show v ≤ ((setBook s a b).books a).supply; rw [hbk]; omega) hfit hcash
    (fun hcl => by
      obtain ⟨x, h1, h2⟩ := hcol hcl
      exact ⟨mk, x, hmk, h1, h2⟩) hx ⟨hs.index, hs.accrued⟩
  simp only [exec, redeem, doRedeem, bind_ok_iff, ensure_ok_iff, exists_const, pure_ok_iff, toVouchers, okOr_ok_iff,
    fixDiv_iff]
  exact ⟨_, hm, p, ⟨mk, ensureActive_of hmk hact, _, hacc, r, hrate, _, g3, v, ⟨by omega, by omega, hvd⟩, hp⟩, rfl⟩

/-- **C117.** Borrowing is accepted whenever interest can be accrued, the market's total stays within the borrow cap
(inclusively), the pool has the amount beyond its reserves, the asset has a price, and the account's liquidity covers
the value of the loan (inclusively). -/
theorem C117_borrow_accepted (hr : Reach c s) {w a m v : Nat} {mk : Market} {s1 : State}
    (hmk : s.markets a = some mk) (hact : mk.state = .active) (hacc : accrue c s a = .ok s1)
    (hcap : (s1.books a).borrows + m ≤ mk.borrowCap) (hcu : mk.borrowCap ≤ maxU128)
    (hcash : (s1.books a).reserves + m ≤ s.ledger.bal a c.acct) (hval : assetValue s1 a m = .ok v)
    (hl : Leaves c s1 w v (decide (a = c.lfAsset))) (hb : BorrowFits s1 a w) (hd : owed s1 a w + m ≤ maxU128) :
    ∃ s', exec c s (.borrow w a m) = .ok s' := by
  have hx := ixOk_reach hr
  obtain ⟨b, rfl, hg⟩ := accrue_ok hacc
  obtain ⟨t1, x, g1, g2⟩ := settleBorrow (s := setBook s a b) hx hb
  obtain ⟨l, hl'⟩ := Ledger.transfer_ok (l := s.ledger) (y := w) (show m ≤ s.ledger.bal a c.acct by omega)
  have hled : (setBook s a b).ledger = s.ledger := rfl
  simp only [exec, borrow, borrowAllowed, ensureBorrowCap, ensureCash, bind_ok_iff, ensure_ok_iff, exists_const,
    pure_ok_iff, cadd_ok_iff, csub_ok_iff, market_ok]
  refine ⟨_, mk, ensureActive_of hmk hact, _, hacc, (), ⟨⟨mk, hmk, _, ⟨by omega, rfl⟩, hcap⟩, ⟨_, ⟨?_, rfl⟩, ?_⟩, v, hval,
    ensureLiquidity_iff.mpr hl⟩, _, g1, _, g2, _, hb.debt.1, _, ⟨hd, rfl⟩, _, ⟨?_, rfl⟩, l, hl', rfl⟩
  · rw [cash_eq, hled]; omega
  · rw [cash_eq, hled]; omega
  · show ((setBook s a b).books a).borrows + m ≤ maxU128
    omega

/-- **C117.** A debtor can always repay up to its whole debt in an active market: only the tokens are needed. -/
theorem C117_repay_accepted (hr : Reach c s) {w a m : Nat} {mk : Market} {s1 : State}
    (hmk : s.markets a = some mk) (hact : mk.state = .active) (hacc : accrue c s a = .ok s1)
    (hb : BorrowFits s1 a w) (hm : m ≤ owed s1 a w) (hbal : m ≤ s.ledger.bal a w) :
    ∃ s', exec c s (.repay w a m) = .ok s' := by
  have hx := ixOk_reach hr
  obtain ⟨b, rfl, hg⟩ := accrue_ok hacc
  obtain ⟨t1, x, g1, g2⟩ := settleBorrow (s := setBook s a b) hx hb
  obtain ⟨l, hl⟩ := Ledger.transfer_ok (l := s.ledger) (y := c.acct) hbal
  simp only [exec, repay, repayWith, bind_ok_iff, ensure_ok_iff, exists_const, pure_ok_iff]
  exact ⟨_, mk, ensureActive_of hmk hact, _, hacc, _, hb.debt.1, hm, _, g1, _, g2, l, hl, rfl⟩

/-- **C117.** Switching a position on as collateral needs only that it exists and is off. -/
theorem C117_collateral_on {w a : Nat} : (∃ s', exec c s (.collateral w a true) = .ok s') ↔
    (∃ mk, s.markets a = some mk ∧ mk.state = .active) ∧ s.deposits a w ≠ none ∧ (s.dep a w).coll = false := by
  constructor
  · rintro ⟨s', h⟩
    have h1 := C114_only_active_markets (k := .collateral w a true) rfl h
    obtain ⟨h2, h3, _⟩ := C116_collateral h
    exact ⟨h1, h3, by simpa using h2⟩
  · rintro ⟨⟨mk, h1, h2⟩, h3, h4⟩
    have h5 : (s.deposits a w).isSome = true := by
      obtain ⟨d, hd⟩ := Option.ne_none_iff_exists'.mp h3
      rw [hd]; rfl
    simp only [exec, collateralAsset, setCollateral, bind_ok_iff, ensure_ok_iff, exists_const]
    exact ⟨_, mk, ensureActive_of h1 h2, h5, by rw [h4]; decide, mk, ensureActive_of h1 h2, h5, if_pos trivial⟩

/-- **C117.** Switching it off is accepted exactly if the account-value queries answer and the debts are covered by the rest
of the collateral (inclusively). -/
theorem C117_collateral_off {w a : Nat} : (∃ s', exec c s (.collateral w a false) = .ok s') ↔
    (∃ mk, s.markets a = some mk ∧ mk.state = .active) ∧ s.deposits a w ≠ none ∧ (s.dep a w).coll = true ∧
    ∃ t x b, totalColl c s w = .ok t ∧ collValue c s a w = .ok x ∧ totalBorrowed s w = .ok b ∧ b + x ≤ t := by
  constructor
  · rintro ⟨s', h⟩
    have h1 := C114_only_active_markets (k := .collateral w a false) rfl h
    obtain ⟨h2, h3, _⟩ := C116_collateral h
    obtain ⟨_, _, h, _⟩ := collateral_view h
    simp only [setCollateral, bind_ok_iff, ensure_ok_iff, exists_const, Bool.false_eq_true, if_false, cadd_ok_iff] at h
    obtain ⟨_, _, _, t, ht, x, hx, b, hb, _, ⟨_, rfl⟩, hle, _⟩ := h
    exact ⟨h1, h3, by simpa using h2, t, x, b, ht, hx, hb, hle⟩
  · rintro ⟨⟨mk, h1, h2⟩, h3, h4, t, x, b, ht, hx, hb, hle⟩
    have h5 : (s.deposits a w).isSome = true := by
      obtain ⟨d, hd⟩ := Option.ne_none_iff_exists'.mp h3
      rw [hd]; rfl
    have h6 := sumGo_le (Nat.zero_le _) ht
    simp only [exec, collateralAsset, setCollateral, bind_ok_iff, ensure_ok_iff, exists_const, Bool.false_eq_true, if_false,
      cadd_ok_iff, pure_ok_iff]
    exact ⟨_, mk, ensureActive_of h1 h2, h5, by rw [h4]; decide, mk, ensureActive_of h1 h2, h5, t, ht, x, hx, b, hb, _,
      ⟨by omega, rfl⟩, hle, rfl⟩

/-- **C117.** The rewards of one market can be claimed whenever the numbers fit and the reward account holds more than the
claim (or nothing is claimed). -/
theorem C117_claim_accepted (hr : Reach c s) {w a : Nat} (hs : SupplyFits s a w) (hb : BorrowFits s a w)
    (hfit : s.rw.accrued w + due s a w ≤ maxU128)
    (hbal : s.rw.accrued w + due s a w = 0 ∨ s.rw.accrued w + due s a w < s.ledger.bal c.rewardAsset c.rewardAcct) :
    ∃ s', exec c s (.claimFor w a) = .ok s' := by
  have hx := ixOk_reach hr
  obtain ⟨t1, x, g1, g2⟩ := settleSupply hx hs.index hs.accrued
  have e1 := updSupply_exact g1
  have e2 := (distSupplier_ok g2).2
  have hx2 : IxOk ({ s with rw := x } : State).rw := (hx.updSupply g1).distSupplier g2
  have hmk : x.mkt a = { s.rw.mkt a with
      supIdx := supIdxNow s a
      supBlock := max (s.rw.mkt a).supBlock s.block } := by
    have : x.mkt = t1.rw.mkt := congrArg (fun t : State => t.rw.mkt) e2
    rw [this]; exact setRew_mkt e1
  have hix : x.borIx = s.rw.borIx := by
    have : x.borIx = t1.rw.borIx := congrArg (fun t : State => t.rw.borIx) e2
    rw [this, e1]; rfl
  have hac : x.accrued w = s.rw.accrued w + dueSup s a w := by
    have h1 : x.accrued = _ := congrArg (fun t : State => t.rw.accrued) e2
    rw [h1]
    dsimp only
    rw [upd_same, setRew_mkt e1, e1]
    rfl
  have hbi : borIdxNow { s with rw := x } a = borIdxNow s a := by
    unfold borIdxNow
    dsimp only
    rw [hmk]
    rfl
  have hdb : dueBor { s with rw := x } a w = dueBor s a w := by
    unfold dueBor
    rw [hbi]
    dsimp only
    rw [hix]
    rfl
  obtain ⟨t2, y, g3, g4⟩ := settleBorrow (s := { s with rw := x }) hx2 ⟨hb.idx, hb.borrows, hb.debt, by rw [hbi]; exact hb.index,
    by
      rw [hdb]
      show x.accrued w + _ ≤ _
      rw [hac]
      unfold due at hfit
      omega⟩
  have hcol : collect s a w = .ok { s with rw := y } := by
    simp only [collect, bind_ok_iff]
    exact ⟨_, g1, _, g2, _, g3, g4⟩
  have hacc := collect_accrued hcol w
  rw [if_pos rfl] at hacc
  have hay : y.accrued w = s.rw.accrued w + due s a w := hacc
  have hpay : ∃ s', payReward c { s with rw := y } w = .ok s' := by
    unfold payReward
    dsimp only
    rw [hay]
    split_ifs with h0
    · exact ⟨_, rfl⟩
    · obtain ⟨l, hl⟩ := Ledger.transfer_succeeds (l := s.ledger) (a := c.rewardAsset) (s := c.rewardAcct) (d := w)
        (m := s.rw.accrued w + due s a w) (k := true) (by omega) (fun _ => by omega)
      rw [hl]
      exact ⟨_, rfl⟩
  obtain ⟨s', hs'⟩ := hpay
  refine ⟨s', ?_⟩
  simp only [exec, claimFor, bind_ok_iff]
  exact ⟨_, hcol, hs'⟩

/-! ### Concrete cases

The fixtures `ex0` (two suppliers, one debtor) and `ex1` (the same, a year later) meet the hypotheses above; `exF` bundles the
"numbers fit" side conditions of one account in one market. -/

/-- The "numbers fit" conditions, for the examples. -/
def exF (s : State) (a w : Nat) : Bool := decide (supIdxNow s a ≤ maxU128 ∧ s.rw.accrued w + due s a w ≤ maxU128 ∧
  DIV ≤ (s.books a).index ∧ (s.books a).borrows ≤ maxU128 ∧ owed s a w ≤ maxU128 ∧ borIdxNow s a ≤ maxU128)

/-- Supplying 777 to market 1 after a year: every hypothesis of `C117_mint_accepted`. -/
example : Reach exC ex1 ∧ okAnd (accrue exC ex1 1) (fun t => okAnd (rateStored exC t 1) (fun r => exF t 1 9 && decide (
    (ex1.markets 1).map (·.state) = some .active ∧ 777 ≤ ex1.ledger.bal 1 9 ∧
    (r - (t.earned 1 9).rate) * t.vouchers 1 9 / DIV + (t.earned 1 9).total ≤ maxU128 ∧
    (ex1.books 1).supply + 777 * DIV / r ≤ maxU128))) = true := ⟨ex1_reach, by decide +kernel⟩

/-- User 8 redeems 80000 of its collateral in market 2, exactly up to its debt: the liquidity test is met with equality. -/
example : Reach exC ex0 ∧ okAnd (accrue exC ex0 2) (fun t => okAnd (rateStored exC t 2) (fun r => exF t 2 8 && decide (
    80000 * DIV / r ≤ ex0.vouchers 2 8 ∧ (t.books 2).reserves + r * (80000 * DIV / r) / DIV ≤ ex0.ledger.bal 2 100 ∧
    (ex0.dep 2 8).coll = true) && okAnd (assetValue t 2 (pmulCeil 500000 (r * (80000 * DIV / r) / DIV))) (fun x =>
      okAnd (liquidity exC t 8) (fun q => decide (q.2.2.1 + x = q.1))))) = true := ⟨ex0_reach, by decide +kernel⟩

/-- User 8 borrows another 40000, everything the pool holds and exactly its liquidity. -/
example : okAnd (accrue exC ex0 1) (fun t => exF t 1 8 && okAnd (assetValue t 1 40000) (fun v =>
    okAnd (liquidity exC t 8) (fun q => decide (q.2.2.1 + v = q.1 ∧
      (t.books 1).reserves + 40000 = ex0.ledger.bal 1 100)))) = true := by decide +kernel

/-- User 8 repays its whole debt a year later. -/
example : okAnd (accrue exC ex1 1) (fun t => exF t 1 8 && okAnd (debt t 1 8) (fun d => decide (d = owed t 1 8 ∧ 60000 < d ∧
    d ≤ ex1.ledger.bal 1 8))) = true := by decide +kernel

end Verif.Loans
