import Verif.Loans.Accept

/-!
# C118: the record of earned interest, and the limit of a liquidation
-/

set_option linter.unusedSimpArgs false
set_option linter.unusedVariables false

namespace Verif.Loans
open Verif

variable {c : Cfg} {s s' : State}

/-- The record of `w` after settling it at rate `r`: the growth of the rate since the last settlement, times the ptokens
held now, is added. -/
def settled (s : State) (a w r : Nat) : Earned :=
  ⟨(s.earned a w).total + (r - (s.earned a w).rate) * s.vouchers a w / DIV, r⟩

theorem updEarned_exact {w a r : Nat} (h : updEarned s w a r = .ok s') :
    s' = { s with earned := upd2 s.earned a w (settled s a w r) } := by
  unfold updEarned at h
  unfold settled
  dsimp only at h
  split_ifs at h with h0
  · simp only [bind_ok_iff, okOr_ok_iff, fixMulInt_iff, cadd_ok_iff, pure_ok_iff] at h
    obtain ⟨_, ⟨_, rfl⟩, _, ⟨_, rfl⟩, rfl⟩ := h
    rw [Nat.add_comm]
  · cases h
    rw [Nat.sub_eq_zero_of_le (by omega), Nat.zero_mul, Nat.zero_div, Nat.add_zero]

theorem redeemVoucher_earned {w a v : Nat} {p : State × Nat} (h : redeemVoucher c s w a v = .ok p) :
    p.1.earned = s.earned := by
  obtain ⟨x, r, l, _, _, _, _, _, _, _, e⟩ := redeemVoucher_view h
  rw [e]

/-- **C118.** Supplying and redeeming settle the caller's record of earned interest at the exchange rate right after
accrual, for the ptokens held before the call. -/
theorem C118_settles {k : Call} {w a : Nat} (hk : (∃ m, k = .mint w a m) ∨ (∃ m, k = .redeem w a m) ∨ k = .redeemAll w a)
    (h : exec c s k = .ok s') :
    ∃ s1, accrue c s a = .ok s1 ∧ s'.earned = upd2 s.earned a w (settled s a w (xrate c s1 a)) := by
  rcases hk with ⟨m, rfl⟩ | ⟨m, rfl⟩ | rfl
  · simp only [exec, mint, bind_ok_iff, ensure_ok_iff, exists_const, pure_ok_iff] at h
    obtain ⟨_, _, _, _, _, s1, h1, s2, h2, s3, h3, r, hr, s4, h4, _, _, _, _, _, _, _, _, _, rfl⟩ := h
    obtain ⟨y, rfl⟩ := (updSupply_rw h2).trans (distSupplier_rw h3)
    have hx := rateStored_xrate hr
    have e := updEarned_exact h4
    obtain ⟨b, rfl, _⟩ := accrue_ok h1
    refine ⟨_, h1, ?_⟩
    have hx' : r = xrate c (setBook s a b) a := hx
    rw [← hx', e]
    rfl
  · simp only [exec, redeem, doRedeem, bind_ok_iff, ensure_ok_iff, exists_const, pure_ok_iff] at h
    obtain ⟨_, x, ⟨_, _, s1, h1, r, hr, s2, h2, _, _, h3⟩, rfl⟩ := h
    refine ⟨_, h1, ?_⟩
    rw [redeemVoucher_earned h3, updEarned_exact h2, ← rateStored_xrate hr]
    obtain ⟨b, rfl, _⟩ := accrue_ok h1
    rfl
  · simp only [exec, redeemAll, bind_ok_iff, pure_ok_iff] at h
    obtain ⟨_, _, s1, h1, r, hr, s2, h2, x, h3, rfl⟩ := h
    refine ⟨_, h1, ?_⟩
    rw [redeemVoucher_earned h3, updEarned_exact h2, ← rateStored_xrate hr]
    obtain ⟨b, rfl, _⟩ := accrue_ok h1
    rfl

/-- **C118.** No other call changes any record of earned interest. -/
theorem C118_others_keep {k : Call} (hk : ∀ w a m, k ≠ .mint w a m ∧ k ≠ .redeem w a m ∧ k ≠ .redeemAll w a)
    (he : exec c s k = .ok s') : s'.earned = s.earned := by
  cases k with
  | mint w a m => exact absurd rfl (hk w a m).1
  | redeem w a m => exact absurd rfl (hk w a m).2.1
  | redeemAll w a => exact absurd rfl (hk w a 0).2.2
  | addMarket a m =>
    simp only [Loans.exec, addMarket, bind_ok_iff, ensure_ok_iff, exists_const, pure_ok_iff] at he
    obtain ⟨_, _, _, _, _, _, _, _, _, _, rfl⟩ := he
    rfl
  | activate a => obtain ⟨m, _, rfl⟩ := C113_activate.mp he; rfl
  | updateModel a rm => obtain ⟨_, m, _, rfl⟩ := C113_update_rate_model.mp he; rfl
  | updateMarket a p => obtain ⟨m, _, _, _, _, _, _, rfl⟩ := C113_update_market.mp he; rfl
  | forceUpdate a m => obtain ⟨_, _, _, rfl⟩ := C113_force_update.mp he; rfl
  | addReward w m => obtain ⟨_, _, e⟩ := C116_reward_funds he; rw [e]
  | withdrawReward w m => obtain ⟨_, _, _, e⟩ := C116_reward_withdrawal he; rw [e]
  | updateSpeed a x y => obtain ⟨r, rfl⟩ := updateSpeed_rw he; rfl
  | claim w =>
    simp only [Loans.exec, Loans.claim, bind_ok_iff] at he
    obtain ⟨s1, h1, h2⟩ := he
    obtain ⟨r, rfl⟩ := collectAll_rw h1
    unfold payReward at h2
    dsimp only at h2
    split_ifs at h2
    · cases h2; rfl
    · simp only [bind_ok_iff, pure_ok_iff] at h2
      obtain ⟨_, _, rfl⟩ := h2; rfl
  | claimFor w a =>
    simp only [Loans.exec, Loans.claimFor, bind_ok_iff] at he
    obtain ⟨s1, h1, h2⟩ := he
    obtain ⟨r, rfl⟩ := collect_rw h1
    unfold payReward at h2
    dsimp only at h2
    split_ifs at h2
    · cases h2; rfl
    · simp only [bind_ok_iff, pure_ok_iff] at h2
      obtain ⟨_, _, rfl⟩ := h2; rfl
  | borrow w a m =>
    simp only [Loans.exec, borrow, bind_ok_iff, pure_ok_iff] at he
    obtain ⟨_, _, s1, h1, _, _, s2, h2, s3, h3, _, _, _, _, _, _, _, _, rfl⟩ := he
    obtain ⟨b, rfl, _⟩ := accrue_ok h1
    obtain ⟨y, rfl⟩ := (updBorrow_rw h2).trans (distBorrower_rw h3)
    rfl
  | repay w a m =>
    simp only [Loans.exec, repay, repayWith, bind_ok_iff, ensure_ok_iff, exists_const, pure_ok_iff] at he
    obtain ⟨_, _, s1, h1, _, _, _, s2, h2, s3, h3, _, _, rfl⟩ := he
    obtain ⟨b, rfl, _⟩ := accrue_ok h1
    obtain ⟨y, rfl⟩ := (updBorrow_rw h2).trans (distBorrower_rw h3)
    rfl
  | repayAll w a =>
    simp only [Loans.exec, repayAll, repay, repayWith, bind_ok_iff, ensure_ok_iff, exists_const, pure_ok_iff] at he
    obtain ⟨_, _, s0, h0, _, _, _, _, s1, h1, _, _, _, s2, h2, s3, h3, _, _, rfl⟩ := he
    obtain ⟨b, rfl, _⟩ := accrue_ok h0
    obtain ⟨b', rfl, _⟩ := accrue_ok h1
    obtain ⟨y, rfl⟩ := (updBorrow_rw h2).trans (distBorrower_rw h3)
    rfl
  | collateral w a on => obtain ⟨_, _, rfl⟩ := C116_collateral he; rfl
  | liquidate l br a m k =>
    obtain ⟨s1, s2, _, _, h1, h2, h3⟩ := liquidate_view he
    obtain ⟨mk, mk', r, p, hmk, hmk', hne, hla, hcoll, hr, hp, hp0, rv, hrv, hle, h4⟩ := doLiquidate_view h3
    obtain ⟨x, d, r', l, hd, hmd, hmb, htr, hr', hvb, hinc, hi, hs'⟩ := liquidatedTransfer_view h4
    obtain ⟨bs, hs2, hg⟩ := accrue2_ok h1 h2
    rw [hs', hs2]
  | addReserves w a m => obtain ⟨_, e⟩ := C116_add_reserves he; rw [e]
  | reduceReserves w a m => obtain ⟨_, _, e⟩ := C116_reduce_reserves he; rw [e]
  | reduceIncentive w a m =>
    simp only [Loans.exec, reduceIncentive, bind_ok_iff, ensure_ok_iff, exists_const, pure_ok_iff] at he
    obtain ⟨_, _, _, _, _, _, _, x, h3, _, _, rfl⟩ := he
    exact redeemVoucher_earned h3
  | updateLfc as => cases he; rfl
  | transferP p src dst m =>
    simp only [Loans.exec, transferP, bind_ok_iff, ensure_ok_iff, exists_const, pure_ok_iff] at he
    obtain ⟨_, s1, h1, s2, h2, s3, h3, _, _, _, _, _, _, rfl⟩ := he
    obtain ⟨y, rfl⟩ := ((updSupply_rw h1).trans (distSupplier_rw h2)).trans (distSupplier_rw h3)
    rfl

/-- **C118.** Earned interest is never taken back. -/
theorem C118_never_falls {k : Call} (he : exec c s k = .ok s') (a w : Nat) :
    (s.earned a w).total ≤ (s'.earned a w).total := by
  by_cases hk : ∀ w a m, k ≠ .mint w a m ∧ k ≠ .redeem w a m ∧ k ≠ .redeemAll w a
  · rw [C118_others_keep hk he]
  · push Not at hk
    obtain ⟨w', a', m, hk⟩ := hk
    have : (∃ m, k = .mint w' a' m) ∨ (∃ m, k = .redeem w' a' m) ∨ k = .redeemAll w' a' := by
      by_cases h1 : k = .mint w' a' m
      · exact .inl ⟨m, h1⟩
      · by_cases h2 : k = .redeem w' a' m
        · exact .inr (.inl ⟨m, h2⟩)
        · exact .inr (.inr (hk h1 h2))
    obtain ⟨s1, _, e⟩ := C118_settles this he
    rw [e, upd2_apply]
    split_ifs with h
    · obtain ⟨rfl, rfl⟩ := h
      exact Nat.le_add_right _ _
    · exact Nat.le_refl _

/-- The fixture: user 7 sends 1000000 of its ptokens to user 9, who then supplies 100 tokens, all in the block in which the
market was opened. -/
def exQ : State := run exC ex0 [.transferP 11 7 9 1000000, .mint 9 1 100]
theorem exQ_reach : Reach exC exQ := run_reach ex0_reach (by
  intro k hk
  simp only [List.mem_cons, List.not_mem_nil, or_false] at hk
  rcases hk with rfl | rfl <;> simp [Call.wt, Call.signers, exC])

/-- A year later user 7 adds 500 tokens: its 5000000 ptokens have earned since. -/
example : okAnd (exec exC ex1 (.mint 7 1 500)) (fun t => decide (0 < (t.earned 1 7).total ∧
    (t.earned 1 7).rate ≤ xrate exC t 1 ∧ minRate < (t.earned 1 7).rate)) = true := by decide +kernel

/-- **C118.** A finding: ptokens received by transfer count as interest when the receiver is next settled. Here no time has
passed since the market was opened and nobody has earned anything, yet 20000 tokens are recorded as earned by user 9. -/
theorem C118_transfer_counts_as_earned :
    ∃ (c : Cfg) (s : State), c.Ok ∧ Reach c s ∧ (s.books 1).index = DIV ∧ xrate c s 1 = minRate ∧
      (s.earned 1 9).total = 20000 :=
  ⟨exC, exQ, exC_ok, exQ_reach, by decide +kernel, by decide +kernel, by decide +kernel⟩

/-- The value `w` owes in `a` that a liquidation may touch: debts in the liquidation-free asset are reduced by what the
liquidation-free collateral covers. -/
def touchable (c : Cfg) (s : State) (a w : Nat) : Nat :=
  price s a * owed s a w / DIV - (if a = c.lfAsset then lfCollSum c s w else 0)

/-- **C118.** A liquidation repays at most the close factor (rounded up) of the touchable debt. -/
theorem C118_liquidation_limit {liq br a m k : Nat} (he : exec c s (.liquidate liq br a m k) = .ok s') :
    ∃ s1 s2 mk, accrue c s a = .ok s1 ∧ accrue c s1 k = .ok s2 ∧ s.markets a = some mk ∧
      price s a * m / DIV ≤ ceilDiv (touchable c s2 a br * mk.close) million := by
  obtain ⟨s1, s2, _, _, h1, h2, h3⟩ := liquidate_view he
  obtain ⟨mk, mk', r, p, hmk, hmk', hne, hla, hcoll, hr, hp, hp0, rv, hrv, hle, h4⟩ := doLiquidate_view h3
  obtain ⟨bs, hs2, hg⟩ := accrue2_ok h1 h2
  have hmk0 : s.markets a = some mk := by rw [hs2] at hmk; exact hmk
  have hpa : price s2 a = price s a := by unfold price; rw [hs2]
  refine ⟨s1, s2, mk, h1, h2, hmk0, ?_⟩
  simp only [liquidateAllowed, bind_ok_iff, ensure_ok_iff, exists_const] at hla
  obtain ⟨q, _, _, d', hd', dv, hdv, rv', hrv', ev, hev, hle⟩ := hla
  have e1 := debt_owed hd'
  have e2 := (assetValue_ok hdv).1
  have e3 := (assetValue_ok hrv').1
  rw [hpa] at e3
  have e4 : ev = touchable c s2 a br := by
    unfold touchable
    unfold effectiveDebt at hev
    split_ifs at hev ⊢
    · simp only [bind_ok_iff, pure_ok_iff] at hev
      obtain ⟨_, hb, rfl⟩ := hev
      rw [lfBase_ok hb, e2, e1]
    · cases hev
      rw [e2, e1]
      rfl
  rw [← e3, ← e4]
  exact hle

/-- Half of a debt worth 120000 can be repaid in one liquidation, not a unit more. -/
example : okAnd (exec exC ex2 (.liquidate 9 8 1 30000 2)) (fun _ => true) = true ∧
    errIs (exec exC ex2 (.liquidate 9 8 1 30001 2)) .tooMuchRepay = true := by decide +kernel

end Verif.Loans
