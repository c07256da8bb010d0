import Verif.Loans.Values

/-! # Properties C36 - C40, C45, C47, C54, C55: bookkeeping, rates and debts -/

set_option linter.unusedSimpArgs false
set_option linter.unusedVariables false

namespace Verif.Loans
open Verif

variable {c : Cfg} {s s' : State}

/-! ## Fixtures -/

/-- Run a list of calls; failing calls change nothing. -/
def run (c : Cfg) (s : State) (ks : List Call) : State := ks.foldl (fun s k => commit s (exec c s k)) s

theorem run_reach {ok : Call → Prop} : ∀ {ks : List Call} {s : State}, ReachBy c ok s →
    (∀ k ∈ ks, k.wt ∧ c.acct ∉ k.signers ∧ ok k) → ReachBy c ok (run c s ks)
  | [], s, h, _ => h
  | k :: ks, s, h, hk => by
    have h1 := hk k (by simp)
    have : ReachBy c ok (commit s (exec c s k)) := by
      rcases commit_cases s (exec c s k) with he | he
      · exact .step h (.call k h1.1 h1.2.1 h1.2.2 he)
      · rw [he.1]; exact h
    show ReachBy c ok (run c (commit s (exec c s k)) ks)
    exact run_reach this (fun k' hk' => hk k' (by simp [hk']))

/-- Time and blocks pass, prices change. -/
def pass (s : State) (prices : Nat → Option Nat) (dt db : Nat) : State := { s with
  prices := prices,
  time := s.time + dt,
  block := s.block + db }

theorem pass_reach {ok : Call → Prop} {prices : Nat → Option Nat} {dt db : Nat} (hc : c.Ok)
    (h : ReachBy c ok s) : ReachBy c ok (pass s prices dt db) :=
  .step h (.env ⟨rfl, (inv_reach hc h).wf, fun _ => Nat.le_refl _, Nat.le_add_right _ _, Nat.le_add_right _ _⟩)

def exC : Cfg := ⟨100, 101, 102, 0, 3⟩
theorem exC_ok : exC.Ok := ⟨by decide, by decide⟩

/-- Users 7, 8, 9 hold assets 1 and 2; the reward account holds the reward asset. -/
@[irreducible] def exL : Ledger := Ledger.ofList [(1, 7, 1000000), (1, 8, 1000000), (2, 8, 1000000),
  (2, 9, 1000000), (1, 9, 1000000), (0, 101, 1000000000)]
theorem exL_wf : exL.WF := by unfold exL; exact Ledger.ofList_wf _

def exModel : RateModel := .jump 20000000000000000 100000000000000000 320000000000000000 800000
def exMarket (p : Nat) : Market := ⟨500000, 550000, 150000, 500000, 1100000000000000000, 30000, exModel, .pending,
  1000000000, 1000000000, p⟩
def exPrices : Nat → Option Nat := fun a => if a ≤ 3 then some DIV else none

def exCalls : List Call :=
  [.addMarket 1 (exMarket 11), .addMarket 2 (exMarket 12), .addMarket 3 (exMarket 13), .activate 1, .activate 2,
   .activate 3, .updateSpeed 1 (some 5) (some 7), .mint 7 1 100000, .mint 8 2 200000, .collateral 8 2 true,
   .borrow 8 1 60000]

/-- Asset 1 supplied by 7, user 8 supplied 200000 of asset 2 as collateral and borrowed 60000 of asset 1. -/
def ex0 : State := run exC (State.fresh exL exPrices 1000 10) exCalls

theorem exCalls_ok : ∀ k ∈ exCalls, k.wt ∧ exC.acct ∉ k.signers ∧ True := by
  intro k hk
  simp only [exCalls, List.mem_cons, List.not_mem_nil, or_false] at hk
  rcases hk with rfl | rfl | rfl | rfl | rfl | rfl | rfl | rfl | rfl | rfl | rfl <;>
    simp [Call.wt, Market.wt, exMarket, million, Call.signers, exC]

theorem ex0_reach : Reach exC ex0 := run_reach (.init exL exPrices 1000 10 exL_wf) exCalls_ok

/-- A year later (in seconds), 100 blocks later. -/
def ex1 : State := pass ex0 exPrices 31536000 100
theorem ex1_reach : Reach exC ex1 := pass_reach exC_ok ex0_reach

/-- The fixture is what it claims to be. -/
example : ex0.vouchers 1 7 = 5000000 ∧ ex0.vouchers 2 8 = 10000000 ∧ owed ex0 1 8 = 60000 ∧
    ex0.ledger.bal 1 100 = 40000 := by decide +kernel

/-! ## C36 -/

/-- **C36** In every reachable state the total issuance of each ptoken is the sum of all ptoken balances. -/
theorem C36_issuance_is_sum_of_balances (hc : c.Ok) (h : Reach c s) (p : Nat) :
    SumsTo (fun w => ptokenBalance s p w) (ptokenIssuance s p) := by
  unfold ptokenBalance ptokenIssuance
  cases hu : s.underlying p with
  | none => exact SumsTo.zero
  | some a => exact (inv_reach hc h).sums a

/-- The same for the vouchers of every market, whether or not a ptoken id points to it. -/
theorem C36_supply_is_sum_of_vouchers (hc : c.Ok) (h : Reach c s) (a : Nat) :
    SumsTo (fun w => s.vouchers a w) (s.books a).supply := (inv_reach hc h).sums a

/-- Nobody holds more than the issuance. -/
theorem C36_balance_le_issuance (hc : c.Ok) (h : Reach c s) (p w : Nat) :
    ptokenBalance s p w ≤ ptokenIssuance s p := (C36_issuance_is_sum_of_balances hc h p).apply w

example : Reach exC ex1 ∧ ptokenIssuance ex1 12 = 10000000 ∧ ptokenBalance ex1 12 8 = 10000000 :=
  ⟨ex1_reach, by decide +kernel, by decide +kernel⟩

/-! ## C54, C55 -/

/-- **C54** No call, and nothing the rest of the chain does, lowers the exchange rate of a market, as long as
it keeps having suppliers. -/
theorem C54_exchange_rate_never_falls (hc : c.Ok) (h : Reach c s) (hs : Step c (fun _ => True) s s') (a : Nat)
    (h1 : (s.books a).supply ≠ 0) (h2 : (s'.books a).supply ≠ 0) : xrate c s a ≤ xrate c s' a := by
  cases hs with
  | call k hw hk _ he => exact ((inv_reach hc h).on_exec hc k hw hk he).2 a h1 h2
  | env he => exact RateUp.env he a h1 h2

/-- **C55** Reserves are always covered by cash plus outstanding loans. -/
theorem C55_reserves_covered (hc : c.Ok) (h : Reach c s) (a : Nat) :
    (s.books a).reserves ≤ s.ledger.bal a c.acct + (s.books a).borrows := (inv_reach hc h).solv a

/-- The rate really rises: a repayment with interest after a year. -/
example : okAnd (exec exC ex1 (.repayAll 8 1)) (fun t => decide (xrate exC ex1 1 < xrate exC t 1 ∧
    0 < (t.books 1).reserves)) = true := by decide +kernel

/-! ## C37 -/

/-- After an accrual the market is up to date. -/
theorem accrue_time {a : Nat} {b : Book} (h : accrue c s a = .ok (setBook s a b)) : s.time ≤ b.lastTime := by
  unfold accrue at h
  have inj : ∀ b', setBook s a b' = setBook s a b → b' = b := by
    intro b' e
    have := congrArg (fun t => t.books a) e
    simpa [setBook] using this
  split_ifs at h with h0 h1
  · have := inj _ (Except.ok.inj h)
    rw [← this]
  · have e := Except.ok.inj h
    have : s.books a = b := by
      have := congrArg (fun t => t.books a) e
      simpa [setBook] using this
    rw [← this]; exact h1
  · simp only [bind_ok_iff, pure_ok_iff] at h
    obtain ⟨b', _, e⟩ := h
    rw [← inj _ e]

/-- Accruing an up to date market does nothing. -/
theorem accrue_noop {a : Nat} (h : s.time ≤ (s.books a).lastTime) : accrue c s a = .ok s := by
  unfold accrue
  split_ifs with h0
  · have : s.time = (s.books a).lastTime := by omega
    rw [this]
    exact congrArg _ (setBook_self s a)
  · rfl

theorem mint_redeem_arith {N T m r v : Nat} (hT : T ≠ 0) (hr : r = N * DIV / T) (hv : v = m * DIV / r) :
    ((N + m) * DIV / (T + v)) * v ≤ m * DIV := by
  have h1 := Nat.div_add_mod (N * DIV) T
  rw [← hr] at h1
  have hρ := Nat.mod_lt (N * DIV) (Nat.pos_of_ne_zero hT)
  generalize N * DIV % T = ρ at h1 hρ
  have h2 := Nat.div_add_mod (m * DIV) r
  rw [← hv] at h2
  generalize m * DIV % r = σ at h2
  have h3 := Nat.div_mul_le_self ((N + m) * DIV) (T + v)
  generalize (N + m) * DIV / (T + v) = r' at h3 ⊢
  rw [Nat.add_mul, ← h1, ← h2] at h3
  rw [← h2]
  by_cases hk : r' ≤ r
  · calc r' * v ≤ r * v := Nat.mul_le_mul_right _ hk
      _ ≤ _ := Nat.le_add_right _ _
  · obtain ⟨k, rfl⟩ : ∃ k, r' = r + (k + 1) := ⟨r' - r - 1, by omega⟩
    nlinarith [Nat.zero_le (k * T)]

/-- What a redemption does to the redeemer, the pool and the vouchers. -/
theorem Redeemed.facts {w a v : Nat} (h : Redeemed c s s' w a v) (hw : w ≠ c.acct) :
    ∃ b p, accrue c s a = .ok (setBook s a b) ∧ p = xrate c (setBook s a b) a * v / DIV ∧
      s'.ledger.bal a w = s.ledger.bal a w + p ∧ s'.ledger.bal a c.acct + p = s.ledger.bal a c.acct ∧
      s'.vouchers a w + v = s.vouchers a w ∧ (s'.books a).supply + v = (s.books a).supply ∧
      (s'.books a).reserves + p ≤ s.ledger.bal a c.acct ∧
      (s'.books a).reserves = b.reserves ∧ (s'.books a).borrows = b.borrows := by
  obtain ⟨mk, b, e, x, r, l, hmk, hact, hacc, hg, hr, _, hv, hvs, hres, hl, rfl⟩ := h.view
  have h1 := Ledger.transfer_bal hl a w
  have h2 := Ledger.transfer_bal hl a c.acct
  simp only [true_and, hw, Ne.symm hw, if_false, if_true, Nat.add_zero] at h1 h2
  refine ⟨b, r * v / DIV, hacc, by rw [rateStored_xrate hr], h1, h2, ?_, ?_, ?_, ?_, ?_⟩
  · simp only [State.vouchers, State.dep, upd2_same, minus_getD] at hv ⊢
    omega
  · simp only [upd_same]
    have := hg.supply
    omega
  · simpa using hres
  · simp
  · simp

/-- **C37** Whoever supplies to a market that has suppliers and redeems (with either call) not more vouchers
than just received, at the same time, gets at most the supplied amount back. -/
theorem C37_mint_then_redeem_no_profit (hc : c.Ok) (h : Reach c s) {w a m : Nat} (hw : w ≠ c.acct)
    (hT : (s.books a).supply ≠ 0) {s1 s2 : State} (h1 : exec c s (.mint w a m) = .ok s1)
    (h2 : (∃ x, exec c s1 (.redeem w a x) = .ok s2) ∨ exec c s1 (.redeemAll w a) = .ok s2)
    (hv : s.vouchers a w ≤ s2.vouchers a w) : s2.ledger.bal a w ≤ s.ledger.bal a w := by
  have hI := inv_reach hc h
  obtain ⟨mk, b, x, e, r, l, hm, hmk, hact, hcap, hacc, hg, hr, hv0, hmax, hl, hs1⟩ := mint_view h1
  have hne : s.markets a ≠ none := by rw [hmk]; simp
  have hI1 := (hI.on_setBook hne hg).1
  have hred : ∃ v2, Redeemed c s1 s2 w a v2 := by
    rcases h2 with ⟨y, h2⟩ | h2
    · obtain ⟨_, _, _, _, h3⟩ := redeem_redeemed h2
      exact ⟨_, h3⟩
    · exact ⟨_, redeemAll_redeemed h2⟩
  obtain ⟨v2, hred⟩ := hred
  obtain ⟨b2, p, hacc2, hp, hb1, hb2, hb3, hb4, hb5, _⟩ := hred.facts hw
  have hb : (setBook s a b).books a = b := by simp [setBook]
  have hbk : s1.books a = { b with supply := b.supply + m * DIV / r } := by rw [hs1]; simp
  -- the second accrual is a no-op
  have hno : accrue c s1 a = .ok s1 := by
    apply accrue_noop
    have h3 : s1.time = s.time := by rw [hs1]
    have h4 : (s1.books a).lastTime = b.lastTime := by rw [hbk]
    rw [h3, h4]
    exact accrue_time hacc
  rw [hno] at hacc2
  have hsb : setBook s1 a b2 = s1 := (Except.ok.inj hacc2).symm
  rw [hsb] at hp
  have hsup : b.supply ≠ 0 := by rw [hg.supply]; exact hT
  -- balances after minting
  have hbw := Ledger.transfer_bal hl a w
  have hbp := Ledger.transfer_bal hl a c.acct
  simp only [true_and, hw, Ne.symm hw, if_false, if_true, Nat.add_zero] at hbw hbp
  have hsol := hI1.solv a
  rw [hb] at hsol
  have hnet : net c s1 a = net c (setBook s a b) a + m := by
    unfold net
    rw [hbk, hb, hs1]
    simp only [setBook] at hsol ⊢
    omega
  have hrr : r = net c (setBook s a b) a * DIV / b.supply := by
    have := rateStored_xrate hr
    simpa [xrate, hb, hsup] using this
  have hx : xrate c s1 a = (net c (setBook s a b) a + m) * DIV / (b.supply + m * DIV / r) := by
    have : b.supply + m * DIV / r ≠ 0 := fun e => hsup (Nat.eq_zero_of_add_eq_zero_right e)
    simp only [xrate, hbk, this, if_false, hnet]
  have hkey := mint_redeem_arith (N := net c (setBook s a b) a) (m := m) hsup hrr rfl
  rw [← hx] at hkey
  have hvv : s1.vouchers a w = s.vouchers a w + m * DIV / r := by
    rw [hs1]; simp [State.vouchers, State.dep]
  have hv2 : v2 ≤ m * DIV / r := by omega
  have hpm : p ≤ m := by
    rw [hp]
    apply Nat.div_le_of_le_mul
    rw [Nat.mul_comm DIV]
    exact (Nat.mul_le_mul_left _ hv2).trans hkey
  have : s1.ledger = l := by rw [hs1]
  rw [this] at hb1
  omega

/-- User 9 supplies 777 to the market of the fixture (whose rate is not a round number a year later) and
redeems everything: the hypotheses are met and there is a loss of one unit. -/
example : okAnd (exec exC ex1 (.mint 9 1 777)) (fun t => okAnd (exec exC t (.redeemAll 9 1)) (fun u =>
    decide ((ex1.books 1).supply ≠ 0 ∧ ex1.vouchers 1 9 ≤ u.vouchers 1 9 ∧
      u.ledger.bal 1 9 + 1 = ex1.ledger.bal 1 9))) = true := by decide +kernel

/-! ## C38 -/

/-- **C38** A redemption of `m` pays `p ≤ m` to the redeemer out of the pool, burns vouchers that are worth at
least `p` as a share of everything the suppliers own, and leaves the reserves in the pool. -/
theorem C38_redeem_bounded (hc : c.Ok) (h : Reach c s) {w a m : Nat} (hw : w ≠ c.acct)
    (he : exec c s (.redeem w a m) = .ok s') : ∃ s1 p v, accrue c s a = .ok s1 ∧ p ≤ m ∧
      s'.ledger.bal a w = s.ledger.bal a w + p ∧ s'.ledger.bal a c.acct + p = s.ledger.bal a c.acct ∧
      s'.vouchers a w + v = s.vouchers a w ∧ (s'.books a).supply + v = (s.books a).supply ∧
      p * (s1.books a).supply ≤ v * net c s1 a ∧ (s'.books a).reserves ≤ s'.ledger.bal a c.acct := by
  have hI := inv_reach hc h
  obtain ⟨b, r, hacc, hr, hred⟩ := redeem_redeemed he
  obtain ⟨b', p, hacc', hp, h1, h2, h3, h4, h5, _⟩ := hred.facts hw
  rw [hacc] at hacc'
  have hsb := Except.ok.inj hacc'
  rw [← hsb, ← rateStored_xrate hr] at hp
  refine ⟨setBook s a b, p, m * DIV / r, hacc, ?_, h1, h2, h3, h4, ?_, by omega⟩
  · rw [hp]
    apply Nat.div_le_of_le_mul
    have := Nat.div_mul_le_self (m * DIV) r
    rw [Nat.mul_comm r, Nat.mul_comm DIV]
    exact this
  · by_cases hz : ((setBook s a b).books a).supply = 0
    · rw [hz]; simp
    · have hx := xrate_mul_le (c := c) hz
      rw [← rateStored_xrate hr] at hx
      generalize m * DIV / r = v at *
      generalize ((setBook s a b).books a).supply = T at *
      generalize net c (setBook s a b) a = N at *
      have hpv : p * DIV ≤ r * v := by rw [hp]; exact Nat.div_mul_le_self _ _
      have : p * T * DIV ≤ v * N * DIV := by
        calc p * T * DIV = p * DIV * T := by ring
          _ ≤ r * v * T := Nat.mul_le_mul_right _ hpv
          _ = v * (r * T) := by ring
          _ ≤ v * (N * DIV) := Nat.mul_le_mul_left _ hx
          _ = _ := by ring
      exact Nat.le_of_mul_le_mul_right this DIV_pos

/-- Redeeming everything pays the rounded down share as well. -/
theorem C38_redeem_all_bounded (hc : c.Ok) (h : Reach c s) {w a : Nat} (hw : w ≠ c.acct)
    (he : exec c s (.redeemAll w a) = .ok s') : ∃ s1 p, accrue c s a = .ok s1 ∧
      p = xrate c s1 a * s.vouchers a w / DIV ∧
      s'.ledger.bal a w = s.ledger.bal a w + p ∧ s'.ledger.bal a c.acct + p = s.ledger.bal a c.acct ∧
      s'.vouchers a w = 0 ∧ (s'.books a).reserves ≤ s'.ledger.bal a c.acct := by
  obtain ⟨b', p, hacc', hp, h1, h2, h3, h4, h5, _⟩ := (redeemAll_redeemed he).facts hw
  exact ⟨_, p, hacc', hp, h1, h2, by omega, by omega⟩

example : okAnd (exec exC ex1 (.redeem 7 1 1000)) (fun t => decide (t.ledger.bal 1 7 = ex1.ledger.bal 1 7 + 999 ∨
    t.ledger.bal 1 7 = ex1.ledger.bal 1 7 + 1000)) = true := by decide +kernel

/-! ## C39 -/

/-- **C39** Accruing interest raises total borrows, reserves and the borrow index, adds at most the accrued
interest to the reserves, and changes nothing else: no balance, voucher, debt record or other market. -/
theorem C39_accrual_monotone (hc : c.Ok) (h : Reach c s) {a : Nat} (he : accrue c s a = .ok s') :
    (s.books a).borrows ≤ (s'.books a).borrows ∧ (s.books a).reserves ≤ (s'.books a).reserves ∧
    (s.books a).index ≤ (s'.books a).index ∧ (s'.books a).supply = (s.books a).supply ∧
    (s.markets a ≠ none →
      (s'.books a).reserves - (s.books a).reserves ≤ (s'.books a).borrows - (s.books a).borrows) ∧
    s' = setBook s a (s'.books a) := by
  obtain ⟨b, rfl, hg⟩ := accrue_ok he
  have hb : (setBook s a b).books a = b := by simp [setBook]
  rw [hb]
  refine ⟨hg.borrows, hg.reserves, hg.index, hg.supply, ?_, rfl⟩
  intro hm
  obtain ⟨mk, hmk⟩ := Option.ne_none_iff_exists'.1 hm
  exact hg.res_le mk hmk ((inv_reach hc h).rf hmk)

/-- **C39** Accruing a market whose time stamp is current changes nothing. -/
theorem C39_accrual_noop {a : Nat} (h : s.time ≤ (s.books a).lastTime) : accrue c s a = .ok s := accrue_noop h

/-- **C39** Accruing twice is accruing once. -/
theorem C39_accrual_idempotent {a : Nat} (h : accrue c s a = .ok s') : accrue c s' a = .ok s' := accrue_idem h

example : okAnd (accrue exC ex1 1) (fun t => decide ((ex1.books 1).borrows < (t.books 1).borrows ∧
    (ex1.books 1).reserves < (t.books 1).reserves ∧ (ex1.books 1).index < (t.books 1).index)) = true := by
  decide +kernel

/-! ## C40 -/

/-- The calls that change the debt of `w` in market `a` other than through interest. -/
def Call.touchesDebt (a w : Nat) : Call → Prop
  | .borrow w' a' _ => w' = w ∧ a' = a
  | .repay w' a' _ => w' = w ∧ a' = a
  | .repayAll w' a' => w' = w ∧ a' = a
  | .liquidate _ b a' _ _ => b = w ∧ a' = a
  | _ => False

theorem owed_mono {a w : Nat} (hd : s'.debts a w = s.debts a w)
    (hi : (s.books a).index ≤ (s'.books a).index) : owed s a w ≤ owed s' a w ∧
      ((s'.books a).index = (s.books a).index → owed s' a w = owed s a w) := by
  unfold owed
  rw [hd]
  refine ⟨?_, fun e => by rw [e]⟩
  exact Nat.div_le_div_right (Nat.mul_le_mul_right _ (Nat.div_le_div_right (Nat.mul_le_mul_right _ hi)))

/-- Index and debts after a call. -/
theorem exec_debts {k : Call} (hI : Inv c s) {a w : Nat} (he : exec c s k = .ok s') :
    (s.markets a ≠ none → (s.books a).index ≤ (s'.books a).index) ∧
    (¬ k.touchesDebt a w → s'.debts a w = s.debts a w) := by
  have updIdx : ∀ {x : Nat} {b : Book}, (s.books x).index ≤ b.index →
      (s.books a).index ≤ (upd s.books x b a).index := by
    intro x b hb
    by_cases hx : a = x
    · subst hx; simpa using hb
    · simp [upd_of_ne _ _ hx]
  have updDebt : ∀ {x y : Nat} {d : Snapshot}, ¬ (y = w ∧ x = a) → upd2 s.debts x y d a w = s.debts a w := by
    intro x y d hn
    rw [upd2_apply, if_neg]
    rintro ⟨rfl, rfl⟩
    exact hn ⟨rfl, rfl⟩
  cases k with
  | addMarket x m =>
    obtain ⟨h1, _, _, _, _, _, _, _, _, _, rfl⟩ := addMarket_view he
    refine ⟨fun hm => ?_, fun _ => rfl⟩
    have : a ≠ x := by rintro rfl; exact hm h1
    simp [upd_of_ne _ _ this]
  | activate a => obtain ⟨m, hm, rfl⟩ := mutateMarket_view he; exact ⟨fun _ => Nat.le_refl _, fun _ => rfl⟩
  | updateModel a rm =>
    simp only [exec, updateModel, bind_ok_iff, ensure_ok_iff, exists_const] at he
    obtain ⟨_, he⟩ := he
    obtain ⟨m, hm, rfl⟩ := mutateMarket_view he; exact ⟨fun _ => Nat.le_refl _, fun _ => rfl⟩
  | updateMarket a p =>
    obtain ⟨m, hm, _, _, _, _, _, rfl⟩ := updateMarket_view he; exact ⟨fun _ => Nat.le_refl _, fun _ => rfl⟩
  | forceUpdate a m =>
    obtain ⟨m0, hm, _, _, rfl⟩ := forceUpdate_view he; exact ⟨fun _ => Nat.le_refl _, fun _ => rfl⟩
  | addReward w m => obtain ⟨l, hl, rfl⟩ := addReward_view he; exact ⟨fun _ => Nat.le_refl _, fun _ => rfl⟩
  | withdrawReward w m =>
    obtain ⟨l, hl, rfl⟩ := withdrawReward_view he; exact ⟨fun _ => Nat.le_refl _, fun _ => rfl⟩
  | updateSpeed a x y => obtain ⟨z, rfl⟩ := updateSpeed_rw he; exact ⟨fun _ => Nat.le_refl _, fun _ => rfl⟩
  | claim w => obtain ⟨m, l, x, hl, rfl⟩ := claim_view he; exact ⟨fun _ => Nat.le_refl _, fun _ => rfl⟩
  | claimFor w a => obtain ⟨m, l, x, hl, rfl⟩ := claimFor_view he; exact ⟨fun _ => Nat.le_refl _, fun _ => rfl⟩
  | mint w a m =>
    obtain ⟨mk, b, x, e, r, l, _, _, _, _, _, hg, _, _, _, _, rfl⟩ := mint_view he
    exact ⟨fun _ => updIdx hg.index, fun _ => rfl⟩
  | redeem w a m =>
    obtain ⟨_, _, _, _, hr⟩ := redeem_redeemed he
    obtain ⟨mk, b, e, x, r, l, _, _, _, hg, _, _, _, _, _, _, rfl⟩ := hr.view
    exact ⟨fun _ => updIdx hg.index, fun _ => rfl⟩
  | redeemAll w a =>
    obtain ⟨mk, b, e, x, r, l, _, _, _, hg, _, _, _, _, _, _, rfl⟩ := (redeemAll_redeemed he).view
    exact ⟨fun _ => updIdx hg.index, fun _ => rfl⟩
  | borrow w a m =>
    obtain ⟨mk, b, x, d, l, _, _, _, hg, _, _, _, _, _, rfl⟩ := borrow_view he
    exact ⟨fun _ => updIdx hg.index, fun h => updDebt h⟩
  | repay w a m =>
    obtain ⟨mk, b, x, d, l, _, _, _, hg, _, _, _, rfl⟩ := repay_view he
    exact ⟨fun _ => updIdx hg.index, fun h => updDebt h⟩
  | repayAll w a =>
    obtain ⟨mk, b, x, d, l, _, _, _, hg, _, _, rfl⟩ := repayAll_view he
    exact ⟨fun _ => updIdx hg.index, fun h => updDebt h⟩
  | collateral w a on => obtain ⟨_, _, _, rfl⟩ := collateral_view he; exact ⟨fun _ => Nat.le_refl _, fun _ => rfl⟩
  | liquidate liq br x m k =>
    obtain ⟨s1, s2, _, _, ha1, ha2, h3⟩ := liquidate_view he
    obtain ⟨mk, mk', r, p, _, _, _, _, _, _, _, _, rv, _, _, h4⟩ := doLiquidate_view h3
    obtain ⟨y, d, r', l, _, _, _, _, _, _, _, _, rfl⟩ := liquidatedTransfer_view h4
    obtain ⟨bs, rfl, hg⟩ := accrue2_ok ha1 ha2
    refine ⟨fun _ => ?_, fun h => updDebt h⟩
    have := (hg.all a).index
    by_cases hx : a = x
    · subst hx; simpa using this
    · simpa [upd_of_ne _ _ hx] using this
  | addReserves w a m =>
    obtain ⟨mk, l, _, _, _, _, rfl⟩ := addReserves_view he
    exact ⟨fun _ => updIdx (Nat.le_refl _), fun _ => rfl⟩
  | reduceReserves w a m =>
    obtain ⟨mk, l, _, _, _, _, rfl⟩ := reduceReserves_view he
    exact ⟨fun _ => updIdx (Nat.le_refl _), fun _ => rfl⟩
  | reduceIncentive w a m =>
    obtain ⟨mk, x, r, l, l', _, _, _, _, _, _, _, _, _, rfl⟩ := reduceIncentive_view he
    exact ⟨fun _ => updIdx (Nat.le_refl _), fun _ => rfl⟩
  | updateLfc as => cases he; exact ⟨fun _ => Nat.le_refl _, fun _ => rfl⟩
  | transferP p x y m =>
    obtain ⟨a, z, _, _, _, rfl⟩ := transferP_view he
    exact ⟨fun _ => Nat.le_refl _, fun _ => rfl⟩

/-- **C40** A call that is not the account's own borrow or repay in this market, nor a liquidation of this debt,
leaves the debt as it is, except for interest: the debt does not shrink, and if the market's borrow index did not
move it is exactly the same. -/
theorem C40_debt_frame (hc : c.Ok) (h : Reach c s) {k : Call} {a w : Nat} (hk : ¬ k.touchesDebt a w)
    (he : exec c s k = .ok s') : owed s a w ≤ owed s' a w ∧
      ((s'.books a).index = (s.books a).index → owed s' a w = owed s a w) := by
  have hI := inv_reach hc h
  obtain ⟨h1, h2⟩ := exec_debts (a := a) (w := w) hI he
  by_cases hm : s.markets a = none
  · have hd := hI.debts0 a w hm
    have hd' := h2 hk
    rw [hd] at hd'
    simp [owed, hd, hd']
  · exact owed_mono (h2 hk) (h1 hm)

/-- **C40** Nothing outside the pallet changes a debt. -/
theorem C40_env (he : Env c s s') (a w : Nat) : owed s' a w = owed s a w := by
  have h1 : s'.books = s.books := by rw [he.same]
  have h2 : s'.debts = s.debts := by rw [he.same]
  unfold owed
  rw [h1, h2]

/-- An accrual leaves a market with a current time stamp alone. -/
theorem accrue_current {a x : Nat} {s1 : State} (ht : s.time ≤ (s.books a).lastTime)
    (h : accrue c s x = .ok s1) : s1.books a = s.books a ∧ s1.time = s.time := by
  obtain ⟨b, rfl, _⟩ := accrue_ok h
  refine ⟨?_, rfl⟩
  by_cases hx : a = x
  · subst hx
    rw [accrue_noop ht] at h
    exact congrArg (fun t => t.books a) (Except.ok.inj h).symm
  · simp [setBook, upd_of_ne _ _ hx]

/-- **C40** The borrow index moves only when interest is due: an existing market whose time stamp is current
keeps its index through every call, so debts not touched by the call stay exactly the same. -/
theorem C40_no_interest_when_current (hc : c.Ok) (h : Reach c s) {k : Call} {a w : Nat}
    (hm : s.markets a ≠ none) (ht : s.time ≤ (s.books a).lastTime) (hk : ¬ k.touchesDebt a w)
    (he : exec c s k = .ok s') : owed s' a w = owed s a w := by
  apply (C40_debt_frame hc h hk he).2
  have key : ∀ {x : Nat} {b b' : Book}, accrue c s x = .ok (setBook s x b) → b'.index = b.index →
      (upd s.books x b' a).index = (s.books a).index := by
    intro x b b' hacc hb
    have h1 := (accrue_current ht hacc).1
    by_cases hx : a = x
    · subst hx
      simp only [setBook, upd_same] at h1 ⊢
      rw [hb, h1]
    · simp [upd_of_ne _ _ hx]
  have self : ∀ {x : Nat} {b' : Book}, b'.index = (s.books x).index →
      (upd s.books x b' a).index = (s.books a).index := by
    intro x b' hb
    by_cases hx : a = x
    · subst hx; simpa using hb
    · simp [upd_of_ne _ _ hx]
  cases k with
  | addMarket x m =>
    obtain ⟨h1, _, _, _, _, _, _, _, _, _, rfl⟩ := addMarket_view he
    have : a ≠ x := by rintro rfl; exact hm h1
    simp [upd_of_ne _ _ this]
  | activate a => obtain ⟨m, hm, rfl⟩ := mutateMarket_view he; rfl
  | updateModel a rm =>
    simp only [exec, updateModel, bind_ok_iff, ensure_ok_iff, exists_const] at he
    obtain ⟨_, he⟩ := he
    obtain ⟨m, hm, rfl⟩ := mutateMarket_view he; rfl
  | updateMarket a p => obtain ⟨m, hm, _, _, _, _, _, rfl⟩ := updateMarket_view he; rfl
  | forceUpdate a m => obtain ⟨m0, hm, _, _, rfl⟩ := forceUpdate_view he; rfl
  | addReward w m => obtain ⟨l, hl, rfl⟩ := addReward_view he; rfl
  | withdrawReward w m => obtain ⟨l, hl, rfl⟩ := withdrawReward_view he; rfl
  | updateSpeed a x y => obtain ⟨z, rfl⟩ := updateSpeed_rw he; rfl
  | claim w => obtain ⟨m, l, x, hl, rfl⟩ := claim_view he; rfl
  | claimFor w a => obtain ⟨m, l, x, hl, rfl⟩ := claimFor_view he; rfl
  | mint w a m =>
    obtain ⟨mk, b, x, e, r, l, _, _, _, _, hacc, hg, _, _, _, _, rfl⟩ := mint_view he
    exact key hacc rfl
  | redeem w a m =>
    obtain ⟨_, _, _, _, hr⟩ := redeem_redeemed he
    obtain ⟨mk, b, e, x, r, l, _, _, hacc, hg, _, _, _, _, _, _, rfl⟩ := hr.view
    exact key hacc rfl
  | redeemAll w a =>
    obtain ⟨mk, b, e, x, r, l, _, _, hacc, hg, _, _, _, _, _, _, rfl⟩ := (redeemAll_redeemed he).view
    exact key hacc rfl
  | borrow w a m =>
    obtain ⟨mk, b, x, d, l, _, _, hacc, hg, _, _, _, _, _, rfl⟩ := borrow_view he
    exact key hacc rfl
  | repay w a m =>
    obtain ⟨mk, b, x, d, l, _, _, hacc, hg, _, _, _, rfl⟩ := repay_view he
    exact key hacc rfl
  | repayAll w a =>
    obtain ⟨mk, b, x, d, l, _, _, hacc, hg, _, _, rfl⟩ := repayAll_view he
    exact key hacc rfl
  | collateral w a on => obtain ⟨_, _, _, rfl⟩ := collateral_view he; rfl
  | liquidate liq br x m k =>
    obtain ⟨s1, s2, _, _, ha1, ha2, h3⟩ := liquidate_view he
    obtain ⟨mk, mk', r, p, _, _, _, _, _, _, _, _, rv, _, _, h4⟩ := doLiquidate_view h3
    obtain ⟨y, d, r', l, _, _, _, _, _, _, _, _, rfl⟩ := liquidatedTransfer_view h4
    obtain ⟨e1, t1⟩ := accrue_current ht ha1
    obtain ⟨e2, _⟩ := accrue_current (by rw [t1, e1]; exact ht) ha2
    dsimp only
    by_cases hx : a = x
    · subst hx; simp [e2, e1]
    · simp [upd_of_ne _ _ hx, e2, e1]
  | addReserves w a m =>
    obtain ⟨mk, l, _, _, _, _, rfl⟩ := addReserves_view he
    exact self rfl
  | reduceReserves w a m =>
    obtain ⟨mk, l, _, _, _, _, rfl⟩ := reduceReserves_view he
    exact self rfl
  | reduceIncentive w a m =>
    obtain ⟨mk, x, r, l, l', _, _, _, _, _, _, _, _, _, rfl⟩ := reduceIncentive_view he
    exact self rfl
  | updateLfc as => cases he; rfl
  | transferP p x y m =>
    obtain ⟨a, z, _, _, _, rfl⟩ := transferP_view he
    rfl

/-- **C40** Own borrowing raises the debt by exactly the borrowed amount on top of interest. -/
theorem C40_own_borrow (hc : c.Ok) (h : Reach c s) {w a m : Nat} (he : exec c s (.borrow w a m) = .ok s') :
    ∃ s1, accrue c s a = .ok s1 ∧ owed s' a w = owed s1 a w + m := by
  have hI := inv_reach hc h
  obtain ⟨mk, b, x, d, l, hmk, _, hacc, hg, _, hd, _, _, _, rfl⟩ := borrow_view he
  have hidx : b.index ≠ 0 := by
    have := hI.idx a (by rw [hmk]; simp)
    have := hg.index
    have := DIV_pos
    omega
  refine ⟨_, hacc, ?_⟩
  rw [← debt_owed hd]
  exact owed_now (by simp) (by simpa using hidx)

/-- The year of interest of user 8 is charged when user 9 supplies to the market. -/
example : okAnd (exec exC ex1 (.mint 9 1 777)) (fun t => decide (owed ex1 1 8 < owed t 1 8)) = true := by
  decide +kernel

/-! ## C45 -/

/-- **C45** After a successful mint the pool holds at most the supply cap. -/
theorem C45_supply_cap {w a m : Nat} (hw : w ≠ c.acct) (he : exec c s (.mint w a m) = .ok s') :
    ∃ mk, s'.markets a = some mk ∧ s'.ledger.bal a c.acct ≤ mk.supplyCap := by
  obtain ⟨mk, b, x, e, r, l, _, hmk, _, hcap, _, _, _, _, _, hl, rfl⟩ := mint_view he
  refine ⟨mk, hmk, ?_⟩
  have := Ledger.transfer_bal hl a c.acct
  simp only [true_and, Ne.symm hw, if_false, if_true, Nat.add_zero] at this
  dsimp only
  omega

/-- **C45** After a successful borrow the total borrows of the market are at most the borrow cap. -/
theorem C45_borrow_cap {w a m : Nat} (he : exec c s (.borrow w a m) = .ok s') :
    ∃ mk, s'.markets a = some mk ∧ (s'.books a).borrows ≤ mk.borrowCap := by
  obtain ⟨mk, b, x, d, l, hmk, _, _, _, hba, _, _, _, _, rfl⟩ := borrow_view he
  obtain ⟨mk', v, hmk', hcap, _⟩ := borrowAllowed_ok hba
  refine ⟨mk', hmk', ?_⟩
  simpa [setBook] using hcap

/-- The caps are tight: with the borrow cap at the current total plus one, borrowing 1 works, 2 does not. -/
example : okAnd (exec exC ex0 (.forceUpdate 1 { exMarket 11 with
      state := .active,
      borrowCap := 60001 }))
    (fun t => okAnd (exec exC t (.borrow 8 1 1)) (fun _ => true) &&
      errIs (exec exC t (.borrow 8 1 2)) .borrowCapacityExceeded) = true := by decide +kernel

/-! ## C47 -/

/-- **C47** A repayment takes exactly the repaid amount from the payer into the pool, needs a debt of at least
this amount, and lowers the debt by exactly this amount. -/
theorem C47_repay_exact (hc : c.Ok) (h : Reach c s) {w a m : Nat} (hw : w ≠ c.acct)
    (he : exec c s (.repay w a m) = .ok s') : ∃ s1, accrue c s a = .ok s1 ∧ m ≤ owed s1 a w ∧
      owed s' a w + m = owed s1 a w ∧ s'.ledger.bal a w + m = s.ledger.bal a w ∧
      s'.ledger.bal a c.acct = s.ledger.bal a c.acct + m := by
  have hI := inv_reach hc h
  obtain ⟨mk, b, x, d, l, hmk, _, hacc, hg, hd, hm, hl, rfl⟩ := repay_view he
  have hb1 := Ledger.transfer_bal hl a w
  have hb2 := Ledger.transfer_bal hl a c.acct
  simp only [true_and, hw, Ne.symm hw, if_false, if_true, Nat.add_zero] at hb1 hb2
  have hdd := debt_owed hd
  have hidx : b.index ≠ 0 := by
    have := hI.idx a (by rw [hmk]; simp)
    have := hg.index
    have := DIV_pos
    omega
  refine ⟨_, hacc, by omega, ?_, hb1, hb2⟩
  rw [owed_now (d := d - m) (by simp) (by simpa using hidx)]
  omega

/-- **C47** Repaying more than the debt fails. -/
theorem C47_no_overpayment {w a m : Nat} {s1 : State} (h1 : accrue c s a = .ok s1) (hm : owed s1 a w < m) :
    exec c s (.repay w a m) ≠ .ok s' := by
  intro he
  obtain ⟨mk, b, x, d, l, _, _, hacc, _, hd, hle, _, _⟩ := repay_view he
  rw [h1] at hacc
  cases hacc
  have := debt_owed hd
  omega

/-- **C47** Repaying everything leaves no debt. -/
theorem C47_repay_all_clears {w a : Nat} (he : exec c s (.repayAll w a) = .ok s') :
    owed s' a w = 0 ∧ debt s' a w = .ok 0 := by
  obtain ⟨mk, b, x, d, l, _, _, _, _, _, _, rfl⟩ := repayAll_view he
  simp [owed, debt]

example : okAnd (exec exC ex1 (.repayAll 8 1)) (fun t => decide (owed t 1 8 = 0 ∧
    t.ledger.bal 1 8 + 60000 < ex1.ledger.bal 1 8)) = true := by decide +kernel

end Verif.Loans
