import Verif.Loans.Frames

/-! # What each call changes, in terms of the state before -/

set_option linter.unusedSimpArgs false
set_option linter.unusedVariables false

namespace Verif.Loans
open Verif

variable {c : Cfg} {s s' : State}

theorem toVouchers_ok {m r v : Nat} (h : toVouchers m r = .ok v) : r ≠ 0 ∧ v = m * DIV / r := by
  simp only [toVouchers, okOr_ok_iff, fixDiv_iff] at h
  exact ⟨h.1, h.2.2⟩
theorem toUnderlying_ok {v r m : Nat} (h : toUnderlying v r = .ok m) : m = r * v / DIV := by
  simp only [toUnderlying, okOr_ok_iff, fixMulInt_iff] at h
  exact h.2

theorem mint_view {w a m : Nat} (h : mint c s w a m = .ok s') :
    ∃ mk b x e r l, m ≠ 0 ∧ s.markets a = some mk ∧ mk.state = .active ∧
      s.ledger.bal a c.acct + m ≤ mk.supplyCap ∧
      accrue c s a = .ok (setBook s a b) ∧ Grown (s.markets a) (s.books a) b ∧
      rateStored c (setBook s a b) a = .ok r ∧ m * DIV / r ≠ 0 ∧
      b.supply + m * DIV / r ≤ maxU128 ∧
      s.ledger.transfer a w c.acct m false = .ok l ∧
      s' = { s with
        ledger := l,
        books := upd s.books a { b with supply := b.supply + m * DIV / r },
        deposits := upd2 s.deposits a w (some { s.dep a w with vouchers := s.vouchers a w + m * DIV / r }),
        earned := e,
        rw := x } := by
  simp only [mint, bind_ok_iff, ensure_ok_iff, exists_const, pure_ok_iff, cadd_ok_iff, ensureSupplyCap,
    market_ok] at h
  obtain ⟨hm, mk, hmk, ⟨mk', hmk', t0, ⟨_, rfl⟩, hcap⟩, s1, h1, s2, h2, s3, h3, r, hr, s4, h4, v, hv, hv0, l, hl,
    d, ⟨_, rfl⟩, t, ⟨ht, rfl⟩, rfl⟩ := h
  obtain ⟨hmk, hact⟩ := ensureActive_ok hmk
  rw [hmk] at hmk'
  cases hmk'
  obtain ⟨b, rfl, hg⟩ := accrue_ok h1
  obtain ⟨y, rfl⟩ := (updSupply_rw h2).trans (distSupplier_rw h3)
  obtain ⟨e, rfl⟩ := updEarned_ok h4
  obtain ⟨_, rfl⟩ := toVouchers_ok hv
  refine ⟨mk, b, y, e, r, l, hm, hmk, hact, hcap, h1, hg, hr, hv0, ?_, hl, ?_⟩
  · simpa [setBook] using ht
  · simp only [setBook, upd_same, upd_upd, State.vouchers, State.dep]

/-- The check of `redeem_allowed` for collateral positions. -/
theorem redeemAllowed_ok {a w v : Nat} {u : Unit} (h : redeemAllowed c s a w v = .ok u) :
    ∃ r, rateStored c s a = .ok r ∧ v ≤ s.vouchers a w ∧ (s.books a).reserves ≤ s.ledger.bal a c.acct ∧
      r * v / DIV ≤ s.ledger.bal a c.acct - (s.books a).reserves ∧
      ((s.dep a w).coll = true → ∃ mk x, s.markets a = some mk ∧
        assetValue s a (pmulCeil mk.cf (r * v / DIV)) = .ok x ∧
        ensureLiquidity c s w x (decide (a ∈ s.lfc)) = .ok ()) := by
  simp only [redeemAllowed, bind_ok_iff, ensure_ok_iff, exists_const, ensureCash, csub_ok_iff] at h
  obtain ⟨hv, r, hr, m, hm, ⟨x, ⟨hx, rfl⟩, hle⟩, h2⟩ := h
  cases toUnderlying_ok hm
  rw [cash_eq] at hx hle
  refine ⟨r, hr, hv, hx, hle, fun hc => ?_⟩
  rw [hc] at h2
  simp only [Bool.true_eq_false, if_false, bind_ok_iff, market_ok] at h2
  obtain ⟨mk, hmk, x, hx, h3⟩ := h2
  exact ⟨mk, x, hmk, hx, h3⟩

theorem redeemVoucher_view {w a v : Nat} {p : State × Nat} (h : redeemVoucher c s w a v = .ok p) :
    ∃ x r l, redeemAllowed c s a w v = .ok () ∧ rateStored c s a = .ok r ∧ p.2 = r * v / DIV ∧
      v ≤ s.vouchers a w ∧ v ≤ (s.books a).supply ∧
      (s.books a).reserves + r * v / DIV ≤ s.ledger.bal a c.acct ∧
      s.ledger.transfer a c.acct w (r * v / DIV) false = .ok l ∧
      p.1 = { s with
        ledger := l,
        books := upd s.books a { s.books a with supply := (s.books a).supply - v },
        deposits := upd2 s.deposits a w ((s.dep a w).minus v),
        rw := x } := by
  simp only [redeemVoucher, bind_ok_iff, exists_const, pure_ok_iff, csub_ok_iff] at h
  obtain ⟨_, h0, s1, h1, s2, h2, r, hr, m, hm, _, _, t, ⟨ht, rfl⟩, l, hl, rfl⟩ := h
  obtain ⟨y, rfl⟩ := (updSupply_rw h1).trans (distSupplier_rw h2)
  cases toUnderlying_ok hm
  obtain ⟨r', hr', hv, hres, hle, _⟩ := redeemAllowed_ok h0
  have hrr : rateStored c s a = .ok r := hr
  rw [hrr] at hr'
  cases hr'
  refine ⟨y, r, l, h0, hrr, rfl, hv, ht, by omega, ?_, rfl⟩
  split at hl
  · cases hl; assumption
  · exact absurd hl (by simp)

theorem doRedeem_view {w a m : Nat} {p : State × Nat} (h : doRedeem c s w a m = .ok p) :
    ∃ mk b e r, s.markets a = some mk ∧ mk.state = .active ∧
      accrue c s a = .ok (setBook s a b) ∧ Grown (s.markets a) (s.books a) b ∧
      rateStored c (setBook s a b) a = .ok r ∧
      redeemVoucher c { setBook s a b with earned := e } w a (m * DIV / r) = .ok p := by
  simp only [doRedeem, bind_ok_iff] at h
  obtain ⟨mk, hmk, s1, h1, r, hr, s2, h2, v, hv, h3⟩ := h
  obtain ⟨hmk, hact⟩ := ensureActive_ok hmk
  obtain ⟨b, rfl, hg⟩ := accrue_ok h1
  obtain ⟨e, rfl⟩ := updEarned_ok h2
  obtain ⟨_, rfl⟩ := toVouchers_ok hv
  exact ⟨mk, b, e, r, hmk, hact, h1, hg, hr, h3⟩

theorem redeem_view {w a m : Nat} (h : redeem c s w a m = .ok s') :
    m ≠ 0 ∧ ∃ x, doRedeem c s w a m = .ok (s', x) := by
  simp only [redeem, bind_ok_iff, ensure_ok_iff, exists_const, pure_ok_iff] at h
  obtain ⟨hm, ⟨s1, x⟩, h1, rfl⟩ := h
  exact ⟨hm, x, h1⟩

theorem redeemAll_view {w a : Nat} (h : redeemAll c s w a = .ok s') :
    ∃ mk b e r x, s.markets a = some mk ∧ mk.state = .active ∧
      accrue c s a = .ok (setBook s a b) ∧ Grown (s.markets a) (s.books a) b ∧
      rateStored c (setBook s a b) a = .ok r ∧
      redeemVoucher c { setBook s a b with earned := e } w a (s.vouchers a w) = .ok (s', x) := by
  simp only [redeemAll, bind_ok_iff, pure_ok_iff] at h
  obtain ⟨mk, hmk, s1, h1, r, hr, s2, h2, ⟨s3, x⟩, h3, rfl⟩ := h
  obtain ⟨hmk, hact⟩ := ensureActive_ok hmk
  obtain ⟨b, rfl, hg⟩ := accrue_ok h1
  obtain ⟨e, rfl⟩ := updEarned_ok h2
  exact ⟨mk, b, e, r, x, hmk, hact, h1, hg, hr, h3⟩

/-- The common shape of all successful redemptions: `v` vouchers burnt, `rate * v` tokens paid. -/
structure Redeemed (c : Cfg) (s s' : State) (w a v : Nat) : Prop where
  view : ∃ mk b e x r l, s.markets a = some mk ∧ mk.state = .active ∧
      accrue c s a = .ok (setBook s a b) ∧ Grown (s.markets a) (s.books a) b ∧
      rateStored c (setBook s a b) a = .ok r ∧ redeemAllowed c (setBook s a b) a w v = .ok () ∧
      v ≤ s.vouchers a w ∧ v ≤ b.supply ∧ b.reserves + r * v / DIV ≤ s.ledger.bal a c.acct ∧
      s.ledger.transfer a c.acct w (r * v / DIV) false = .ok l ∧
      s' = { s with
        ledger := l,
        books := upd s.books a { b with supply := b.supply - v },
        deposits := upd2 s.deposits a w ((s.dep a w).minus v),
        earned := e,
        rw := x }

theorem redeemed_of {w a v : Nat} {mk b e r x} (hmk : s.markets a = some mk) (hact : mk.state = .active)
    (h1 : accrue c s a = .ok (setBook s a b)) (hg : Grown (s.markets a) (s.books a) b)
    (hr : rateStored c (setBook s a b) a = .ok r)
    (h : redeemVoucher c { setBook s a b with earned := e } w a v = .ok (s', x)) :
    Redeemed c s s' w a v := by
  obtain ⟨y, r', l, h0, hr', _, hv, hs, hres, hl, h2⟩ := redeemVoucher_view h
  have hr'' : rateStored c (setBook s a b) a = .ok r' := hr'
  rw [hr] at hr''
  cases hr''
  refine ⟨mk, b, e, y, r, l, hmk, hact, h1, hg, hr, ?_, hv, ?_, ?_, hl, ?_⟩
  · exact h0
  · simpa [setBook] using hs
  · simpa [setBook] using hres
  · dsimp only at h2
    rw [h2]
    simp only [setBook, upd_same, upd_upd, State.dep]

theorem redeem_redeemed {w a m : Nat} (h : redeem c s w a m = .ok s') :
    ∃ b r, accrue c s a = .ok (setBook s a b) ∧ rateStored c (setBook s a b) a = .ok r ∧
      Redeemed c s s' w a (m * DIV / r) := by
  obtain ⟨_, x, h⟩ := redeem_view h
  obtain ⟨mk, b, e, r, hmk, hact, h1, hg, hr, h2⟩ := doRedeem_view h
  exact ⟨b, r, h1, hr, redeemed_of hmk hact h1 hg hr h2⟩

theorem redeemAll_redeemed {w a : Nat} (h : redeemAll c s w a = .ok s') :
    Redeemed c s s' w a (s.vouchers a w) := by
  obtain ⟨mk, b, e, r, x, hmk, hact, h1, hg, hr, h2⟩ := redeemAll_view h
  exact redeemed_of hmk hact h1 hg hr h2

theorem borrow_view {w a m : Nat} (h : borrow c s w a m = .ok s') :
    ∃ mk b x d l, s.markets a = some mk ∧ mk.state = .active ∧
      accrue c s a = .ok (setBook s a b) ∧ Grown (s.markets a) (s.books a) b ∧
      borrowAllowed c (setBook s a b) a w m = .ok () ∧
      debt (setBook s a b) a w = .ok d ∧ d + m ≤ maxU128 ∧ b.borrows + m ≤ maxU128 ∧
      s.ledger.transfer a c.acct w m false = .ok l ∧
      s' = { s with
        ledger := l,
        debts := upd2 s.debts a w ⟨d + m, b.index⟩,
        books := upd s.books a { b with borrows := b.borrows + m },
        rw := x } := by
  simp only [borrow, bind_ok_iff, cadd_ok_iff, pure_ok_iff] at h
  obtain ⟨mk, hmk, s1, h1, _, h2, s2, h3, s3, h4, d, hd, _, ⟨hd', rfl⟩, _, ⟨ht, rfl⟩, l, hl, rfl⟩ := h
  obtain ⟨hmk, hact⟩ := ensureActive_ok hmk
  obtain ⟨b, rfl, hg⟩ := accrue_ok h1
  obtain ⟨y, rfl⟩ := (updBorrow_rw h3).trans (distBorrower_rw h4)
  refine ⟨mk, b, y, d, l, hmk, hact, h1, hg, h2, hd, hd', ?_, hl, ?_⟩
  · simpa [setBook] using ht
  · simp only [setBook, upd_same, upd_upd]

theorem borrowAllowed_ok {w a m : Nat} {u : Unit} (h : borrowAllowed c s a w m = .ok u) :
    ∃ mk v, s.markets a = some mk ∧ (s.books a).borrows + m ≤ mk.borrowCap ∧
      (s.books a).reserves ≤ s.ledger.bal a c.acct ∧ m ≤ s.ledger.bal a c.acct - (s.books a).reserves ∧
      assetValue s a m = .ok v ∧ ensureLiquidity c s w v (decide (a = c.lfAsset)) = .ok () := by
  simp only [borrowAllowed, ensureBorrowCap, ensureCash, bind_ok_iff, ensure_ok_iff, exists_const, market_ok,
    cadd_ok_iff, csub_ok_iff] at h
  obtain ⟨⟨mk, hmk, _, ⟨_, rfl⟩, hcap⟩, ⟨x, ⟨hx, rfl⟩, hm⟩, v, hv, hl⟩ := h
  rw [cash_eq] at hx hm
  exact ⟨mk, v, hmk, hcap, hx, hm, hv, hl⟩

theorem repay_view {w a m : Nat} (h : repay c s w a m = .ok s') :
    ∃ mk b x d l, s.markets a = some mk ∧ mk.state = .active ∧
      accrue c s a = .ok (setBook s a b) ∧ Grown (s.markets a) (s.books a) b ∧
      debt (setBook s a b) a w = .ok d ∧ m ≤ d ∧
      s.ledger.transfer a w c.acct m false = .ok l ∧
      s' = { s with
        ledger := l,
        debts := upd2 s.debts a w ⟨d - m, b.index⟩,
        books := upd s.books a { b with borrows := b.borrows - m },
        rw := x } := by
  simp only [repay, repayWith, bind_ok_iff, ensure_ok_iff, exists_const, pure_ok_iff] at h
  obtain ⟨mk, hmk, s1, h1, d, hd, hm, s2, h3, s3, h4, l, hl, rfl⟩ := h
  obtain ⟨hmk, hact⟩ := ensureActive_ok hmk
  obtain ⟨b, rfl, hg⟩ := accrue_ok h1
  obtain ⟨y, rfl⟩ := (updBorrow_rw h3).trans (distBorrower_rw h4)
  refine ⟨mk, b, y, d, l, hmk, hact, h1, hg, hd, hm, hl, ?_⟩
  simp only [setBook, upd_same, upd_upd]

/-- Accruing a second time at the same moment does nothing. -/
theorem accrue_idem {a : Nat} (h : accrue c s a = .ok s') : accrue c s' a = .ok s' := by
  unfold accrue at h
  split_ifs at h with h0 h1
  · cases h
    unfold accrue
    by_cases ht : s.time = 0
    · simp [setBook, ht]
    · simp [setBook, ht]
  · cases h
    unfold accrue
    simp [h0, h1]
  · simp only [bind_ok_iff, pure_ok_iff] at h
    obtain ⟨b, _, rfl⟩ := h
    unfold accrue
    have : s.time ≠ 0 := by omega
    simp [setBook, this]

theorem repayAll_view {w a : Nat} (h : repayAll c s w a = .ok s') :
    ∃ mk b x d l, s.markets a = some mk ∧ mk.state = .active ∧
      accrue c s a = .ok (setBook s a b) ∧ Grown (s.markets a) (s.books a) b ∧
      debt (setBook s a b) a w = .ok d ∧
      s.ledger.transfer a w c.acct d false = .ok l ∧
      s' = { s with
        ledger := l,
        debts := upd2 s.debts a w ⟨0, b.index⟩,
        books := upd s.books a { b with borrows := b.borrows - d },
        rw := x } := by
  simp only [repayAll, bind_ok_iff] at h
  obtain ⟨mk, hmk, s1, h1, d, hd, h2⟩ := h
  obtain ⟨hmk, hact⟩ := ensureActive_ok hmk
  have hid := accrue_idem h1
  obtain ⟨b, rfl, hg⟩ := accrue_ok h1
  obtain ⟨mk', b', x, d', l, hmk', _, h1', _, hd', _, hl, h3⟩ := repay_view h2
  rw [hid] at h1'
  have hb' : setBook s a b = setBook (setBook s a b) a b' := by simpa using h1'
  have e : b' = b := by
    have := congrArg (fun t => t.books a) hb'
    simpa [setBook] using this.symm
  rw [e] at hd' h3
  have hs : setBook (setBook s a b) a b = setBook s a b := by simp [setBook]
  rw [hs] at hd'
  rw [hd] at hd'
  cases hd'
  refine ⟨mk, b, x, d, l, hmk, hact, h1, hg, hd, hl, ?_⟩
  rw [h3]
  simp only [setBook, upd_upd, Nat.sub_self]

theorem setCollateral_view {w a : Nat} {on : Bool} (h : setCollateral c s w a on = .ok s') :
    (s.deposits a w).isSome ∧ s' = setDep s a w (some { s.dep a w with coll := on }) := by
  simp only [setCollateral, bind_ok_iff, ensure_ok_iff, exists_const] at h
  obtain ⟨_, _, hs, h⟩ := h
  split_ifs at h with hon
  · cases h; subst hon; exact ⟨hs, rfl⟩
  · simp only [bind_ok_iff, ensure_ok_iff, exists_const, pure_ok_iff] at h
    obtain ⟨_, _, _, _, _, _, _, _, _, rfl⟩ := h
    simp only [Bool.not_eq_true] at hon
    subst hon
    exact ⟨hs, rfl⟩

theorem collateral_view {w a : Nat} {on : Bool} (h : collateralAsset c s w a on = .ok s') :
    (s.deposits a w).isSome ∧ (s.dep a w).coll ≠ on ∧ setCollateral c s w a on = .ok s' ∧
    s' = setDep s a w (some { s.dep a w with coll := on }) := by
  simp only [collateralAsset, bind_ok_iff, ensure_ok_iff, exists_const] at h
  obtain ⟨_, _, hs, hne, h⟩ := h
  exact ⟨hs, hne, h, (setCollateral_view h).2⟩

theorem addReserves_view {w a m : Nat} (h : addReserves c s w a m = .ok s') :
    ∃ mk l, s.markets a = some mk ∧ mk.state = .active ∧ (s.books a).reserves + m ≤ maxU128 ∧
      s.ledger.transfer a w c.acct m false = .ok l ∧
      s' = { s with
        ledger := l,
        books := upd s.books a { s.books a with reserves := (s.books a).reserves + m } } := by
  simp only [addReserves, bind_ok_iff, cadd_ok_iff, pure_ok_iff] at h
  obtain ⟨mk, hmk, l, hl, _, ⟨ht, rfl⟩, rfl⟩ := h
  obtain ⟨hmk, hact⟩ := ensureActive_ok hmk
  exact ⟨mk, l, hmk, hact, ht, hl, rfl⟩

theorem reduceReserves_view {w a m : Nat} (h : reduceReserves c s w a m = .ok s') :
    ∃ mk l, s.markets a = some mk ∧ mk.state = .active ∧ m ≤ (s.books a).reserves ∧
      s.ledger.transfer a c.acct w m false = .ok l ∧
      s' = { s with
        ledger := l,
        books := upd s.books a { s.books a with reserves := (s.books a).reserves - m } } := by
  simp only [reduceReserves, bind_ok_iff, csub_ok_iff, pure_ok_iff] at h
  obtain ⟨mk, hmk, _, ⟨ht, rfl⟩, l, hl, rfl⟩ := h
  obtain ⟨hmk, hact⟩ := ensureActive_ok hmk
  exact ⟨mk, l, hmk, hact, ht, hl, rfl⟩

theorem reduceIncentive_view {w a m : Nat} (h : reduceIncentive c s w a m = .ok s') :
    ∃ mk x r l l', m ≠ 0 ∧ s.markets a = some mk ∧ mk.state = .active ∧ rateStored c s a = .ok r ∧
      m * DIV / r ≤ s.vouchers a c.incentiveAcct ∧ m * DIV / r ≤ (s.books a).supply ∧
      (s.books a).reserves + r * (m * DIV / r) / DIV ≤ s.ledger.bal a c.acct ∧
      s.ledger.transfer a c.acct c.incentiveAcct (r * (m * DIV / r) / DIV) false = .ok l ∧
      l.transfer a c.incentiveAcct w (r * (m * DIV / r) / DIV) false = .ok l' ∧
      s' = { s with
        ledger := l',
        books := upd s.books a { s.books a with supply := (s.books a).supply - m * DIV / r },
        deposits := upd2 s.deposits a c.incentiveAcct ((s.dep a c.incentiveAcct).minus (m * DIV / r)),
        rw := x } := by
  simp only [reduceIncentive, bind_ok_iff, ensure_ok_iff, exists_const, pure_ok_iff] at h
  obtain ⟨hm, mk, hmk, r, hr, v, hv, ⟨s1, q⟩, h1, l', hl', rfl⟩ := h
  obtain ⟨hmk, hact⟩ := ensureActive_ok hmk
  obtain ⟨_, rfl⟩ := toVouchers_ok hv
  obtain ⟨x, r', l, _, hr', hq, hv1, hv2, hres, hl, h2⟩ := redeemVoucher_view h1
  rw [hr] at hr'
  cases hr'
  dsimp only at hq h2
  subst hq h2
  exact ⟨mk, x, r, l, l', hm, hmk, hact, hr, hv1, hv2, hres, hl, hl', rfl⟩

theorem payReward_view {w : Nat} (h : payReward c s w = .ok s') :
    ∃ l, s.ledger.transfer c.rewardAsset c.rewardAcct w (s.rw.accrued w) true = .ok l ∧
      s' = { s with
        ledger := l,
        rw := { s.rw with accrued := upd s.rw.accrued w 0 } } := by
  unfold payReward at h
  split_ifs at h with h0
  · cases h
    refine ⟨s.ledger, by simp [Ledger.transfer, h0], ?_⟩
    have : upd s.rw.accrued w 0 = s.rw.accrued := by rw [← h0]; simp
    rw [this]
  · simp only [bind_ok_iff, pure_ok_iff] at h
    obtain ⟨l, hl, rfl⟩ := h
    exact ⟨l, hl, rfl⟩

theorem claim_view {w : Nat} (h : claim c s w = .ok s') :
    ∃ m l x, s.ledger.transfer c.rewardAsset c.rewardAcct w m true = .ok l ∧ s' = { s with
        ledger := l,
        rw := x } := by
  simp only [claim, bind_ok_iff] at h
  obtain ⟨s1, h1, h2⟩ := h
  obtain ⟨y, rfl⟩ := collectAll_rw h1
  obtain ⟨l, hl, rfl⟩ := payReward_view h2
  exact ⟨_, l, _, hl, rfl⟩

theorem claimFor_view {w a : Nat} (h : claimFor c s w a = .ok s') :
    ∃ m l x, s.ledger.transfer c.rewardAsset c.rewardAcct w m true = .ok l ∧ s' = { s with
        ledger := l,
        rw := x } := by
  simp only [claimFor, bind_ok_iff] at h
  obtain ⟨s1, h1, h2⟩ := h
  obtain ⟨y, rfl⟩ := collect_rw h1
  obtain ⟨l, hl, rfl⟩ := payReward_view h2
  exact ⟨_, l, _, hl, rfl⟩

theorem transferP_view {p src dst m : Nat} (h : transferP c s p src dst m = .ok s') :
    ∃ a x, s.underlying p = some a ∧ m ≤ reducibleP c s p src ∧ m ≤ s.vouchers a src ∧
      s' = { s with
        deposits := upd2 (upd2 s.deposits a src ((s.dep a src).minus m)) a dst
          (some { (setDep s a src ((s.dep a src).minus m)).dep a dst with
            vouchers := (setDep s a src ((s.dep a src).minus m)).vouchers a dst + m }),
        rw := x } := by
  simp only [transferP, bind_ok_iff, ensure_ok_iff, exists_const, pure_ok_iff, cadd_ok_iff, csub_ok_iff,
    underlyingId, okOr_ok_iff] at h
  obtain ⟨hm, s1, h1, s2, h2, s3, h3, a, ha, _, ⟨hle, _⟩, y, ⟨_, rfl⟩, rfl⟩ := h
  obtain ⟨z, rfl⟩ := ((updSupply_rw h1).trans (distSupplier_rw h2)).trans (distSupplier_rw h3)
  exact ⟨a, z, ha, hm, hle, rfl⟩

theorem addMarket_view {a : Nat} {m : Market} (h : addMarket s a m = .ok s') :
    s.markets a = none ∧ m.state = .pending ∧ m.model.check = true ∧ m.cf ≤ m.lt ∧ m.lt < million ∧
      m.rf < million ∧ m.irf < million ∧ 0 < m.supplyCap ∧
      s.underlying m.ptoken = none ∧ s.markets m.ptoken = none ∧
      s' = { s with
        markets := upd s.markets a (some m),
        ids := s.ids ++ [a],
        underlying := upd s.underlying m.ptoken (some a),
        books := upd s.books a { s.books a with
          rate := minRate,
          index := DIV } } := by
  simp only [addMarket, bind_ok_iff, ensure_ok_iff, exists_const, pure_ok_iff] at h
  obtain ⟨h1, h2, h3, _, ⟨h5, h6⟩, ⟨_, h7⟩, ⟨_, h8⟩, h9, h10, h11, rfl⟩ := h
  exact ⟨h1, h2, h3, h6, h5, h7, h8, h9, h10, h11, rfl⟩

theorem mutateMarket_view {a : Nat} {f : Market → Market} (h : mutateMarket s a f = .ok s') :
    ∃ m, s.markets a = some m ∧ s' = { s with markets := upd s.markets a (some (f m)) } := by
  simp only [mutateMarket, bind_ok_iff, pure_ok_iff, market_ok] at h
  obtain ⟨m, hm, rfl⟩ := h
  exact ⟨m, hm, rfl⟩

theorem updateMarket_view {a : Nat} {p : Patch} (h : updateMarket s a p = .ok s') :
    ∃ m, s.markets a = some m ∧ (p.apply m).cf ≤ (p.apply m).lt ∧ (p.apply m).lt < million ∧
      0 < (p.apply m).rf ∧ (p.apply m).rf < million ∧ 0 < (p.apply m).supplyCap ∧
      s' = { s with markets := upd s.markets a (some (p.apply m)) } := by
  simp only [updateMarket, bind_ok_iff, ensure_ok_iff, exists_const, market_ok] at h
  obtain ⟨m, hm, _, ⟨h1, h2⟩, ⟨h3, h4⟩, h5, h6⟩ := h
  obtain ⟨m', hm', h7⟩ := mutateMarket_view h6
  rw [hm] at hm'
  cases hm'
  exact ⟨m, hm, h1, h2, h3, h4, h5, h7⟩

theorem forceUpdate_view {a : Nat} {m : Market} (h : forceUpdate s a m = .ok s') :
    ∃ m0, s.markets a = some m0 ∧ m.model.check = true ∧
      (s.underlying m.ptoken = none ∨ s.underlying m.ptoken = some a) ∧
      s' = { s with
        underlying := upd s.underlying m.ptoken (some a),
        markets := upd s.markets a (some m) } := by
  simp only [forceUpdate, bind_ok_iff, ensure_ok_iff, exists_const] at h
  obtain ⟨h1, h2, h3⟩ := h
  obtain ⟨m0, hm0, h4⟩ := mutateMarket_view h3
  exact ⟨m0, hm0, h1, h2, h4⟩

theorem addReward_view {w m : Nat} (h : addReward c s w m = .ok s') :
    ∃ l, s.ledger.transfer c.rewardAsset w c.rewardAcct m true = .ok l ∧ s' = { s with ledger := l } := by
  simp only [addReward, bind_ok_iff, ensure_ok_iff, exists_const, pure_ok_iff] at h
  obtain ⟨_, l, hl, rfl⟩ := h
  exact ⟨l, hl, rfl⟩

theorem withdrawReward_view {w m : Nat} (h : withdrawReward c s w m = .ok s') :
    ∃ l, s.ledger.transfer c.rewardAsset c.rewardAcct w m true = .ok l ∧ s' = { s with ledger := l } := by
  simp only [withdrawReward, bind_ok_iff, ensure_ok_iff, exists_const, pure_ok_iff] at h
  obtain ⟨_, l, hl, rfl⟩ := h
  exact ⟨l, hl, rfl⟩

/-! ### Liquidation -/

/-- Three successive writes to the deposits of one market. -/
def seize (dep : Nat → Nat → Option Deposit) (k borrower liq inc v g i : Nat) : Nat → Nat → Option Deposit :=
  let d1 := upd2 dep k borrower (some { (dep k borrower).getD ⟨0, false⟩ with
    vouchers := ((dep k borrower).getD ⟨0, false⟩).vouchers - v })
  let d2 := upd2 d1 k liq (some { (d1 k liq).getD ⟨0, false⟩ with
    vouchers := ((d1 k liq).getD ⟨0, false⟩).vouchers + g })
  upd2 d2 k inc (some { (d2 k inc).getD ⟨0, false⟩ with
    vouchers := ((d2 k inc).getD ⟨0, false⟩).vouchers + i })

theorem liquidatedTransfer_view {liq br a k m und : Nat} {mk : Market}
    (h : liquidatedTransfer c s liq br a k m und mk = .ok s') :
    ∃ x d r l, debt s a br = .ok d ∧ m ≤ d ∧ m ≤ (s.books a).borrows ∧
      s.ledger.transfer a liq c.acct m false = .ok l ∧
      rateStored c { s with
        ledger := l,
        books := upd s.books a { s.books a with borrows := (s.books a).borrows - m } } k = .ok r ∧
      und * DIV / r ≤ s.vouchers k br ∧ mk.incentive ≠ 0 ∧
      pmulFloor mk.irf (und * DIV / r * DIV / mk.incentive) ≤ und * DIV / r ∧
      s' = { s with
        ledger := l,
        debts := upd2 s.debts a br ⟨d - m, (s.books a).index⟩,
        books := upd s.books a { s.books a with borrows := (s.books a).borrows - m },
        deposits := seize s.deposits k br liq c.incentiveAcct (und * DIV / r)
          (und * DIV / r - pmulFloor mk.irf (und * DIV / r * DIV / mk.incentive))
          (pmulFloor mk.irf (und * DIV / r * DIV / mk.incentive)),
        rw := x } := by
  simp only [liquidatedTransfer, bind_ok_iff, csub_ok_iff, cadd_ok_iff, pure_ok_iff, okOr_ok_iff,
    fixDiv_iff] at h
  obtain ⟨s1, h1, s2, h2, l, hl, d, hd, _, ⟨hmd, rfl⟩, _, ⟨hmb, rfl⟩, s3, h3, s4, h4, s5, h5, s6, h6, r, hr, v, hv,
    _, ⟨hvb, rfl⟩, q, ⟨hi, _, rfl⟩, g, ⟨hg, rfl⟩, _, ⟨_, rfl⟩, _, ⟨_, rfl⟩, rfl⟩ := h
  obtain ⟨x, rfl⟩ := (updBorrow_rw h1).trans (distBorrower_rw h2)
  obtain ⟨y, rfl⟩ := (((updSupply_rw h3).trans (distSupplier_rw h4)).trans (distSupplier_rw h5)).trans
    (distSupplier_rw h6)
  obtain ⟨_, rfl⟩ := toVouchers_ok hv
  exact ⟨y, d, r, l, hd, hmd, hmb, hl, hr, hvb, hi, hg, rfl⟩

theorem doLiquidate_view {liq br a m k : Nat} (h : doLiquidate c s liq br a m k = .ok s') :
    ∃ mk mk' r p, s.markets a = some mk ∧ s.markets k = some mk' ∧ br ≠ liq ∧
      liquidateAllowed c s br a m mk = .ok () ∧ (s.dep k br).coll = true ∧
      rateStored c s k = .ok r ∧ s.prices k = some p ∧ p ≠ 0 ∧
      ∃ rv, assetValue s a m = .ok rv ∧
        rv * mk.incentive / DIV ≤ p * (r * s.vouchers k br / DIV) / DIV ∧
        liquidatedTransfer c s liq br a k m (rv * mk.incentive / DIV * DIV / p) mk = .ok s' := by
  simp only [doLiquidate, bind_ok_iff, ensure_ok_iff, exists_const, okOr_ok_iff, fixMulInt_iff, fixMul_iff,
    fixDiv_iff, market_ok] at h
  obtain ⟨_, _, mk', hmk', mk, hmk, hne, _, hla, hcoll, r, hr, amt, ⟨_, rfl⟩, cv, hcv, rv, hrv, lv,
    ⟨_, rfl⟩, hle, p, hp, und, ⟨_, _, rfl⟩, h⟩ := h
  obtain ⟨hmk', _⟩ := ensureActive_ok hmk'
  simp only [getPrice, bind_ok_iff, okOr_ok_iff, ensure_ok_iff, exists_const, pure_ok_iff] at hp
  obtain ⟨p', hp1, hp2, rfl⟩ := hp
  simp only [assetValue, getPrice, bind_ok_iff, okOr_ok_iff, ensure_ok_iff, exists_const, pure_ok_iff,
    fixMul_iff] at hcv
  obtain ⟨p'', ⟨_, hp3, _, rfl⟩, _, rfl⟩ := hcv
  rw [hp1] at hp3
  cases hp3
  exact ⟨mk, mk', r, p', hmk, hmk', hne, hla, hcoll, hr, hp1, hp2, rv, hrv, hle, h⟩

theorem liquidate_view {liq br a m k : Nat} (h : liquidate c s liq br a m k = .ok s') :
    ∃ s1 s2, k ∉ s.lfc ∧ isAux k = false ∧ accrue c s a = .ok s1 ∧ accrue c s1 k = .ok s2 ∧
      doLiquidate c s2 liq br a m k = .ok s' := by
  simp only [liquidate, bind_ok_iff, ensure_ok_iff, exists_const] at h
  obtain ⟨⟨h1, h2⟩, s1, h3, s2, h4, h5⟩ := h
  exact ⟨s1, s2, h1, h2, h3, h4, h5⟩

/-- The books after accruing one market, then another (possibly the same). -/
structure Grown2 (s : State) (bs : Nat → Book) : Prop where
  all : ∀ x, Grown (s.markets x) (s.books x) (bs x)

theorem Grown.trans {m : Option Market} {b1 b2 b3 : Book} (h : Grown m b1 b2) (h' : Grown m b2 b3) :
    Grown m b1 b3 := by
  refine ⟨h'.supply.trans h.supply, h.borrows.trans h'.borrows, h.reserves.trans h'.reserves,
    h.index.trans h'.index, fun mk hm hr => ?_⟩
  have h1 := h.res_le mk hm hr
  have h2 := h'.res_le mk hm hr
  have := h.borrows
  have := h'.borrows
  omega

theorem accrue2_ok {a k : Nat} {s1 s2 : State} (h1 : accrue c s a = .ok s1) (h2 : accrue c s1 k = .ok s2) :
    ∃ bs, s2 = { s with books := bs } ∧ Grown2 s bs := by
  obtain ⟨b, rfl, hg⟩ := accrue_ok h1
  obtain ⟨b', rfl, hg'⟩ := accrue_ok h2
  refine ⟨_, rfl, ⟨fun x => ?_⟩⟩
  have h1 : Grown (s.markets x) (s.books x) ((setBook s a b).books x) := by
    by_cases hx : x = a
    · subst hx; simpa [setBook] using hg
    · simpa [setBook, upd_of_ne _ _ hx] using Grown.refl _ _
  by_cases hx : x = k
  · subst hx
    simp only [upd_same]
    exact h1.trans hg'
  · simpa [upd_of_ne _ _ hx] using h1

end Verif.Loans
