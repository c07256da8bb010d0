import Verif.Loans.Props

/-! # Property C56: the exchange rate stays valid unless somebody donates -/

set_option linter.unusedSimpArgs false
set_option linter.unusedVariables false

namespace Verif.Loans
open Verif

variable {c : Cfg} {s s' : State}

theorem upd_book {f : Nat → Book} {a x : Nat} {b : Book} (h : b.supply = 0 ∨ x ≠ a) (hx : (f x).supply = 0) :
    (upd f a b x).supply = 0 := by
  by_cases e : x = a
  · subst e
    rcases h with h | h
    · simpa using h
    · exact absurd rfl h
  · rw [upd_of_ne _ _ e]; exact hx

theorem redeemed_zero {w a v x : Nat} (h : Redeemed c s s' w a v) (hx : (s.books x).supply = 0) :
    (s'.books x).supply = 0 := by
  obtain ⟨mk, b, e, y, r, l, _, _, _, hg, _, _, _, _, _, _, hs⟩ := h.view
  rw [hs]
  apply upd_book _ hx
  by_cases e : x = a
  · subst e
    left
    have := hg.supply
    simp only
    omega
  · exact .inr e

/-- Only a deposit brings a market without vouchers back to life. -/
theorem exec_supply_zero {k : Call} {x : Nat} (hk : ∀ w m, k ≠ .mint w x m) (hx : (s.books x).supply = 0)
    (he : exec c s k = .ok s') : (s'.books x).supply = 0 := by
  have ng : ∀ {a n : Nat}, n = (s.books a).supply → n = 0 ∨ x ≠ a := by
    intro a n hg
    by_cases e : x = a
    · subst e; left; rw [hg]; exact hx
    · exact .inr e
  cases k with
  | addMarket a m =>
    obtain ⟨_, _, _, _, _, _, _, _, _, _, rfl⟩ := addMarket_view he
    exact upd_book (ng rfl) hx
  | activate a => obtain ⟨m, hm, rfl⟩ := mutateMarket_view he; exact hx
  | updateModel a rm =>
    simp only [exec, updateModel, bind_ok_iff, ensure_ok_iff, exists_const] at he
    obtain ⟨_, he⟩ := he
    obtain ⟨m, hm, rfl⟩ := mutateMarket_view he; exact hx
  | updateMarket a p => obtain ⟨m, hm, _, _, _, _, _, rfl⟩ := updateMarket_view he; exact hx
  | forceUpdate a m => obtain ⟨m0, hm, _, _, rfl⟩ := forceUpdate_view he; exact hx
  | addReward w m => obtain ⟨l, hl, rfl⟩ := addReward_view he; exact hx
  | withdrawReward w m => obtain ⟨l, hl, rfl⟩ := withdrawReward_view he; exact hx
  | updateSpeed a y z => obtain ⟨z, rfl⟩ := updateSpeed_rw he; exact hx
  | claim w => obtain ⟨m, l, y, hl, rfl⟩ := claim_view he; exact hx
  | claimFor w a => obtain ⟨m, l, y, hl, rfl⟩ := claimFor_view he; exact hx
  | mint w a m =>
    obtain ⟨_, b, _, _, _, _, _, _, _, _, _, hg, _, _, _, _, rfl⟩ := mint_view he
    exact upd_book (.inr (fun e => hk w m (by rw [e]))) hx
  | redeem w a m => obtain ⟨_, _, _, _, h⟩ := redeem_redeemed he; exact redeemed_zero h hx
  | redeemAll w a => exact redeemed_zero (redeemAll_redeemed he) hx
  | borrow w a m =>
    obtain ⟨_, _, _, _, _, _, _, _, hg, _, _, _, _, _, rfl⟩ := borrow_view he
    exact upd_book (ng hg.supply) hx
  | repay w a m =>
    obtain ⟨_, _, _, _, _, _, _, _, hg, _, _, _, rfl⟩ := repay_view he
    exact upd_book (ng hg.supply) hx
  | repayAll w a =>
    obtain ⟨_, _, _, _, _, _, _, _, hg, _, _, rfl⟩ := repayAll_view he
    exact upd_book (ng hg.supply) hx
  | collateral w a on => obtain ⟨_, _, _, rfl⟩ := collateral_view he; exact hx
  | liquidate liq br a m k =>
    obtain ⟨s1, s2, _, _, h1, h2, h3⟩ := liquidate_view he
    obtain ⟨_, _, _, _, _, _, _, _, _, _, _, _, _, _, _, h4⟩ := doLiquidate_view h3
    obtain ⟨_, _, _, _, _, _, _, _, _, _, _, _, rfl⟩ := liquidatedTransfer_view h4
    obtain ⟨bs, hs2, hg⟩ := accrue2_ok h1 h2
    subst hs2
    have h0 : (bs x).supply = 0 := by rw [(hg.all x).supply]; exact hx
    apply upd_book _ h0
    by_cases e : x = a
    · subst e; left; exact h0
    · exact .inr e
  | addReserves w a m =>
    obtain ⟨_, _, _, _, _, _, rfl⟩ := addReserves_view he
    exact upd_book (ng rfl) hx
  | reduceReserves w a m =>
    obtain ⟨_, _, _, _, _, _, rfl⟩ := reduceReserves_view he
    exact upd_book (ng rfl) hx
  | reduceIncentive w a m =>
    obtain ⟨_, _, _, _, _, _, _, _, _, _, _, _, _, _, rfl⟩ := reduceIncentive_view he
    apply upd_book _ hx
    by_cases e : x = a
    · subst e; left; simp only [hx, Nat.zero_sub]
    · exact .inr e
  | updateLfc as => cases he; exact hx
  | transferP p src dst m => obtain ⟨_, _, _, _, _, rfl⟩ := transferP_view he; exact hx

/-- **C56** The exchange rate of every market is at least 0.02 in every reachable state. -/
theorem C56_rate_floor (hc : c.Ok) (h : Reach c s) (a : Nat) : minRate ≤ xrate c s a := by
  induction h with
  | init l p t b hw => exact Nat.le_of_eq (by simp [xrate, State.fresh, Book.zero])
  | @step s s' hr hs ih =>
    by_cases h2 : (s'.books a).supply = 0
    · exact Nat.le_of_eq (by simp [xrate, h2])
    · by_cases h1 : (s.books a).supply = 0
      · cases hs with
        | call k hw hk _ he =>
          by_cases hm : ∃ w m, k = .mint w a m
          · obtain ⟨w, m, rfl⟩ := hm
            have hsolv := (inv_reach hc hr).solv a
            have hrf : ∀ mk, s.markets a = some mk → mk.rf ≤ million := fun mk h => (inv_reach hc hr).rf h
            obtain ⟨mk, b, x, e, r, l, _, hmk, _, _, _, hg, hrate, _, _, hl, hs'⟩ := mint_view he
            simp only [Call.signers, List.mem_singleton] at hk
            have hb : b.supply = 0 := by rw [hg.supply]; exact h1
            have hrm : r = minRate := by
              have := rateStored_xrate hrate
              simpa [xrate, setBook, hb] using this
            apply le_xrate h2
            have hbal := Ledger.transfer_bal hl a c.acct
            simp only [true_and, if_neg hk, if_true, Nat.add_zero] at hbal
            have hsol : b.reserves ≤ s.ledger.bal a c.acct + b.borrows := by
              rw [hmk] at hg
              exact solv_grown hg (hrf mk hmk) hsolv
            have hn : m ≤ net c s' a := by
              rw [hs']
              simp only [net, upd_same]
              omega
            have e1 : (s'.books a).supply = m * DIV / minRate := by
              rw [hs']
              simp only [upd_same, hb, Nat.zero_add, hrm]
            rw [e1]
            refine Nat.le_trans ?_ (Nat.mul_le_mul_right DIV hn)
            rw [Nat.mul_comm]
            exact Nat.div_mul_le_self _ _
          · exact absurd (exec_supply_zero (fun w m e => hm ⟨w, m, e⟩) h1 he) h2
        | env he => exact absurd (by rw [he.same]; exact h1) h2
      · have := C54_exchange_rate_never_falls hc hr hs a h1 h2
        exact ih.trans this

/-- The property one would like: whatever others send to the pallet account, the exchange rate can be computed. -/
def C56_statement : Prop := ∀ (c : Cfg), c.Ok → ∀ s, Reach c s → ∀ a, ∃ r, rateStored c s a = .ok r

/-- **C56** The rate computation of a reachable state fails only if the market owns at least one token per voucher (or
more than a `u128` can count). -/
theorem C56_partial (hc : c.Ok) (h : Reach c s) (a : Nat)
    (h1 : net c s a < (s.books a).supply) (h2 : s.ledger.bal a c.acct + (s.books a).borrows ≤ maxU128) :
    rateStored c s a = .ok (xrate c s a) := by
  have hs : (s.books a).supply ≠ 0 := by omega
  have hf := C56_rate_floor hc h a
  have hsol := (inv_reach hc h).solv a
  have hlt : xrate c s a < DIV := by
    simp only [xrate, hs, if_false]
    rw [Nat.div_lt_iff_lt_mul (by omega), Nat.mul_comm]
    exact Nat.mul_lt_mul_of_pos_left h1 DIV_pos
  have hmx : DIV ≤ maxU128 := by decide
  have hmv : minValidRate ≤ minRate := by decide
  unfold rateStored calcRate
  rw [if_neg hs, cash_eq, cadd_ok_iff.2 ⟨h2, rfl⟩, ok_bind, csub_ok_iff.2 ⟨hsol, rfl⟩, ok_bind]
  have e : (s.ledger.bal a c.acct + (s.books a).borrows - (s.books a).reserves) * DIV / (s.books a).supply =
      xrate c s a := by simp only [xrate, hs, if_false, net]
  have e2 : fixFromRational (s.ledger.bal a c.acct + (s.books a).borrows - (s.books a).reserves)
      (s.books a).supply = some (xrate c s a) := by
    rw [fixFromRational_iff, e]
    exact ⟨hs, by omega, rfl⟩
  rw [e2]
  simp only [okOr, ok_bind]
  rw [ensure_of ⟨by omega, hlt⟩, ok_bind]
  rfl

/-- Somebody sends tokens to the pallet account. -/
def gift (c : Cfg) (s : State) (a w m : Nat) : State := match s.ledger.transfer a w c.acct m false with
  | .ok l => { s with ledger := l }
  | .error _ => s

theorem gift_reach (hc : c.Ok) (h : Reach c s) {a w m : Nat} (hw : w ≠ c.acct) : Reach c (gift c s a w m) := by
  unfold gift
  split
  · rename_i l hl
    exact .step h (.env ⟨rfl, Ledger.transfer_wf hl (inv_reach hc h).wf, transfer_from_other hl hw, Nat.le_refl _,
      Nat.le_refl _⟩)
  · exact h

/-- Supplier 7 deposits 1000 units into an empty market, 8 then sends 49000 units to the pallet account. -/
def exG : State := gift exC (run exC (State.fresh exL exPrices 1000 10)
  [.addMarket 1 (exMarket 11), .activate 1, .mint 7 1 1000]) 1 8 49000
theorem exG_reach : Reach exC exG := gift_reach exC_ok (run_reach (.init exL exPrices 1000 10 exL_wf) (by
  intro k hk
  simp only [List.mem_cons, List.not_mem_nil, or_false] at hk
  rcases hk with rfl | rfl | rfl <;> simp [Call.wt, Market.wt, exMarket, million, Call.signers, exC])) (by decide)

/-- **C56** It is false: after the gift every redemption fails with `InvalidExchangeRate`, although there is plenty of
cash. -/
theorem C56_refuted : ¬ C56_statement := by
  intro h
  obtain ⟨r, hr⟩ := h exC exC_ok exG exG_reach 1
  have : okAnd (rateStored exC exG 1) (fun _ => true) = false := by decide +kernel
  rw [hr] at this
  exact absurd this (by simp [okAnd])

example : exG.ledger.bal 1 100 = 50000 ∧ exG.vouchers 1 7 = 50000 ∧
    errIs (exec exC exG (.redeem 7 1 1000)) .invalidExchangeRate = true ∧
    errIs (exec exC exG (.redeemAll 7 1)) .invalidExchangeRate = true ∧
    errIs (exec exC exG (.mint 9 1 1000)) .invalidExchangeRate = true := by decide +kernel

/-- The partial theorem applies to the fixture with loans. -/
example : net exC ex0 1 < (ex0.books 1).supply ∧ ex0.ledger.bal 1 100 + (ex0.books 1).borrows ≤ maxU128 ∧
    okAnd (rateStored exC ex0 1) (fun r => decide (r = minRate)) = true := by decide +kernel

end Verif.Loans
