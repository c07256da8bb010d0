import Verif.Loans.RewardExact
import Verif.Loans.Markets
import Verif.Loans.Health

/-!
# C113, C114: market administration, and what works in which market state
-/

set_option linter.unusedSimpArgs false
set_option linter.unusedVariables false

namespace Verif.Loans
open Verif

variable {c : Cfg} {s s' : State}

/-! ### Specification -/

/-- What the interest rate model of a market must satisfy: at most 10% at no utilization, and for the jump model at most
30% at the kink, at most 50% at full utilization, and increasing. -/
def goodModel : RateModel → Prop
  | .jump base jmp full _ => base * 10 ≤ DIV ∧ jmp * 10 ≤ 3 * DIV ∧ full * 2 ≤ DIV ∧ base ≤ jmp ∧ jmp ≤ full
  | .curve base => base * 10 ≤ DIV

/-- What a new market must satisfy. -/
structure Addable (s : State) (a : Nat) (m : Market) : Prop where
  fresh : s.markets a = none
  pending : m.state = .pending
  model : goodModel m.model
  /-- collateral factor at most the liquidation threshold, which is below 100% -/
  factors : m.cf ≤ m.lt ∧ m.lt < million
  reserve : 0 < m.rf ∧ m.rf < million
  incentive : 0 < m.irf ∧ m.irf < million
  cap : 0 < m.supplyCap
  /-- the ptoken id is neither the ptoken nor the underlying asset of an existing market -/
  ptoken : s.underlying m.ptoken = none ∧ s.markets m.ptoken = none

/-- The book of a market nobody has used: nothing supplied, lent or reserved, index 1, exchange rate 0.02, no accrual yet. -/
def Book.start : Book := ⟨0, 0, 0, DIV, 20000000000000000, 0, 0, 0, 0⟩

theorem goodModel_iff {m : RateModel} : m.check = true ↔ goodModel m := by
  have hD : DIV = 1000000000000000000 := by decide +kernel
  cases m with
  | jump b j f u =>
    unfold RateModel.check goodModel
    rw [decide_eq_true_iff]
    omega
  | curve b =>
    unfold RateModel.check goodModel
    rw [decide_eq_true_iff]
    omega

/-! ### C113 -/

/-- **C113.** A market is added exactly if the parameters are acceptable, and then it starts empty. -/
theorem C113_add_market (hc : c.Ok) (hr : Reach c s) {a : Nat} {m : Market} :
    exec c s (.addMarket a m) = .ok s' ↔ Addable s a m ∧ s' = { s with
      markets := upd s.markets a (some m)
      ids := s.ids ++ [a]
      underlying := upd s.underlying m.ptoken (some a)
      books := upd s.books a Book.start } := by
  have hi := inv_reach hc hr
  have hb : s.markets a = none → { s.books a with
      rate := minRate
      index := DIV } = Book.start := by
    intro h0; rw [hi.books0 a h0]; rfl
  simp only [exec, addMarket, bind_ok_iff, ensure_ok_iff, exists_const, pure_ok_iff, goodModel_iff]
  constructor
  · rintro ⟨h1, h2, h3, h4, h5, h6, h7, h8, h9, h10, rfl⟩
    exact ⟨⟨h1, h2, h3, ⟨h5.2, h5.1⟩, h6, h7, h8, h9, h10⟩, by rw [← hb h1]⟩
  · rintro ⟨⟨h1, h2, h3, h5, h6, h7, h8, h9⟩, rfl⟩
    exact ⟨h1, h2, h3, Nat.lt_of_le_of_lt h5.1 h5.2, ⟨h5.2, h5.1⟩, h6, h7, h8, h9.1, h9.2, by rw [← hb h1]⟩

/-- **C113.** In a new market nobody has a deposit or a debt, and no ptokens exist. -/
theorem C113_new_market_empty (hc : c.Ok) (hr : Reach c s) {a : Nat} {m : Market}
    (h : exec c s (.addMarket a m) = .ok s') (w : Nat) :
    s'.deposits a w = none ∧ owed s' a w = 0 ∧ (s'.books a).supply = 0 ∧ s'.ledger = s.ledger := by
  have hi := inv_reach hc hr
  obtain ⟨ha, rfl⟩ := (C113_add_market hc hr).mp h
  refine ⟨hi.deps0 a w ha.fresh, ?_, ?_, rfl⟩
  · unfold owed
    dsimp only
    rw [hi.debts0 a w ha.fresh, Nat.mul_zero, Nat.zero_div]
  · dsimp only
    rw [upd_same]
    rfl

/-- **C113.** Activation needs only an existing market and changes nothing but its state. -/
theorem C113_activate {a : Nat} :
    exec c s (.activate a) = .ok s' ↔ ∃ m, s.markets a = some m ∧ s' = { s with
      markets := upd s.markets a (some { m with state := .active }) } := by
  simp only [exec, activate, mutateMarket, bind_ok_iff, market_ok, pure_ok_iff, @eq_comm _ s']

/-- **C113.** A new rate model must be acceptable; nothing but the model changes. -/
theorem C113_update_rate_model {a : Nat} {rm : RateModel} :
    exec c s (.updateModel a rm) = .ok s' ↔ goodModel rm ∧ ∃ m, s.markets a = some m ∧ s' = { s with
      markets := upd s.markets a (some { m with model := rm }) } := by
  simp only [exec, updateModel, mutateMarket, bind_ok_iff, ensure_ok_iff, exists_const, market_ok, pure_ok_iff,
    goodModel_iff, @eq_comm _ s']

/-- **C113.** An update of the risk parameters is accepted exactly if the resulting factors are acceptable (the liquidation
incentive, the close factor, the borrow cap and the reserve factor of the incentive are not checked), and changes exactly
the given parameters. -/
theorem C113_update_market {a : Nat} {p : Patch} :
    exec c s (.updateMarket a p) = .ok s' ↔ ∃ m, s.markets a = some m ∧
      p.cf.getD m.cf ≤ p.lt.getD m.lt ∧ p.lt.getD m.lt < million ∧
      0 < p.rf.getD m.rf ∧ p.rf.getD m.rf < million ∧ 0 < p.supplyCap.getD m.supplyCap ∧
      s' = { s with markets := upd s.markets a (some ⟨p.cf.getD m.cf, p.lt.getD m.lt, p.rf.getD m.rf, p.close.getD m.close,
        p.incentive.getD m.incentive, p.irf.getD m.irf, m.model, m.state, p.supplyCap.getD m.supplyCap,
        p.borrowCap.getD m.borrowCap, m.ptoken⟩) } := by
  simp only [exec, updateMarket, mutateMarket, bind_ok_iff, ensure_ok_iff, exists_const, market_ok, pure_ok_iff]
  constructor
  · rintro ⟨m, hm, _, h2, h3, h4, m', hm', rfl⟩
    rw [hm] at hm'
    cases hm'
    exact ⟨m, hm, h2.1, h2.2, h3.1, h3.2, h4, rfl⟩
  · rintro ⟨m, hm, h1, h2, h3, h4, h5, rfl⟩
    exact ⟨m, hm, Nat.lt_of_le_of_lt h1 h2, ⟨h1, h2⟩, ⟨h3, h4⟩, h5, m, hm, rfl⟩

/-- **C113.** A forced update replaces the whole market; only the rate model is checked, and that the ptoken id does not
belong to another market. -/
theorem C113_force_update {a : Nat} {m : Market} :
    exec c s (.forceUpdate a m) = .ok s' ↔ goodModel m.model ∧ s.markets a ≠ none ∧
      (s.underlying m.ptoken = none ∨ s.underlying m.ptoken = some a) ∧ s' = { s with
        markets := upd s.markets a (some m)
        underlying := upd s.underlying m.ptoken (some a) } := by
  simp only [exec, forceUpdate, mutateMarket, bind_ok_iff, ensure_ok_iff, exists_const, market_ok, pure_ok_iff,
    goodModel_iff]
  constructor
  · rintro ⟨h1, h2, m0, hm, rfl⟩
    exact ⟨h1, by rw [hm]; exact Option.some_ne_none _, h2, rfl⟩
  · rintro ⟨h1, hm, h2, rfl⟩
    obtain ⟨m0, hm⟩ := Option.ne_none_iff_exists'.mp hm
    exact ⟨h1, h2, m0, hm, rfl⟩

theorem setRew_mkt {a : Nat} {r : Rew} (h : s' = setRew s a r) : s'.rw.mkt a = r := by
  rw [h]; exact upd_same _ _ _

theorem setSupSpeed_exact {a v : Nat} (h : setSupSpeed s a v = .ok s') :
    s' = setRew s a { s.rw.mkt a with
      supSpeed := v
      supIdx := if v = (s.rw.mkt a).supSpeed then (s.rw.mkt a).supIdx else supIdxNow s a
      supBlock := if v = (s.rw.mkt a).supSpeed then (s.rw.mkt a).supBlock else max (s.rw.mkt a).supBlock s.block } := by
  unfold setSupSpeed at h
  by_cases hv : v = (s.rw.mkt a).supSpeed
  · rw [if_pos hv] at h
    cases h
    rw [if_pos hv, if_pos hv, hv]
    exact (setRew_self _ _).symm
  · rw [if_neg hv] at h
    simp only [bind_ok_iff, pure_ok_iff] at h
    obtain ⟨s1, h1, rfl⟩ := h
    rw [if_neg hv, if_neg hv, updSupply_exact h1]
    unfold setRew
    simp only [upd_same, upd_upd]

theorem setBorSpeed_exact {a v : Nat} (h : setBorSpeed s a v = .ok s') :
    s' = setRew s a { s.rw.mkt a with
      borSpeed := v
      borIdx := if v = (s.rw.mkt a).borSpeed then (s.rw.mkt a).borIdx else borIdxNow s a
      borBlock := if v = (s.rw.mkt a).borSpeed then (s.rw.mkt a).borBlock else max (s.rw.mkt a).borBlock s.block } := by
  unfold setBorSpeed at h
  by_cases hv : v = (s.rw.mkt a).borSpeed
  · rw [if_pos hv] at h
    cases h
    rw [if_pos hv, if_pos hv, hv]
    exact (setRew_self _ _).symm
  · rw [if_neg hv] at h
    simp only [bind_ok_iff, pure_ok_iff] at h
    obtain ⟨s1, h1, rfl⟩ := h
    rw [if_neg hv, if_neg hv, updBorrow_exact h1]
    unfold setRew
    simp only [upd_same, upd_upd]

/-- **C113.** Changing the reward speeds of a market first settles the market's index at the old speed: what has been
earned so far by anybody is not affected. -/
theorem C113_speed_change_keeps_earnings {a : Nat} {x y : Option Nat} (h : exec c s (.updateSpeed a x y) = .ok s')
    (b w : Nat) : due s' b w = due s b w ∧ s'.rw.accrued w = s.rw.accrued w := by
  simp only [exec, updateSpeed, bind_ok_iff, pure_ok_iff] at h
  obtain ⟨_, _, s1, h1, s2, h2, rfl⟩ := h
  have e1 := setSupSpeed_exact h1
  have e2 := setBorSpeed_exact h2
  have m1 : ∀ z, z ≠ a → s1.rw.mkt z = s.rw.mkt z := by intro z hz; rw [e1]; exact upd_of_ne _ _ hz
  have m2 : ∀ z, z ≠ a → s2.rw.mkt z = s1.rw.mkt z := by intro z hz; rw [e2]; exact upd_of_ne _ _ hz
  have a1 := setRew_mkt e1
  have a2 := setRew_mkt e2
  have blk1 : s1.block = s.block := by rw [e1]; rfl
  have blk2 : s2.block = s1.block := by rw [e2]; rfl
  have bk1 : s1.books = s.books := by rw [e1]; rfl
  have bk2 : s2.books = s1.books := by rw [e2]; rfl
  have sup1 : ∀ z, supIdxNow s1 z = supIdxNow s z := by
    intro z
    by_cases hz : z = a
    · subst hz
      by_cases hv : x.getD (s.rw.mkt z).supSpeed = (s.rw.mkt z).supSpeed
      · unfold supIdxNow
        rw [a1, blk1, bk1]
        dsimp only
        rw [if_pos hv, if_pos hv, hv]
      · rw [if_neg hv, if_neg hv] at a1
        exact supIdxNow_settled (by rw [a1]) (by rw [a1, blk1]; exact Nat.le_max_right _ _)
    · unfold supIdxNow; rw [m1 z hz, blk1, bk1]
  have sup2 : ∀ z, supIdxNow s2 z = supIdxNow s1 z := by
    intro z
    unfold supIdxNow
    rw [blk2, bk2]
    by_cases hz : z = a
    · subst hz; rw [a2]
    · rw [m2 z hz]
  have bor1 : ∀ z, borIdxNow s1 z = borIdxNow s z := by
    intro z
    unfold borIdxNow baseOf
    rw [blk1, bk1]
    by_cases hz : z = a
    · subst hz; rw [a1]
    · rw [m1 z hz]
  have bor2 : ∀ z, borIdxNow s2 z = borIdxNow s1 z := by
    intro z
    by_cases hz : z = a
    · subst hz
      by_cases hv : y.getD (s.rw.mkt z).borSpeed = (s1.rw.mkt z).borSpeed
      · unfold borIdxNow baseOf
        rw [a2, blk2, bk2]
        dsimp only
        rw [if_pos hv, if_pos hv, hv]
      · rw [if_neg hv, if_neg hv] at a2
        exact borIdxNow_settled (by rw [a2]) (by rw [a2, blk2]; exact Nat.le_max_right _ _)
    · unfold borIdxNow baseOf; rw [m2 z hz, blk2, bk2]
  have r1 : s2.rw.supIx = s.rw.supIx := by rw [e2, e1]; rfl
  have r2 : s2.rw.borIx = s.rw.borIx := by rw [e2, e1]; rfl
  have r3 : s2.rw.accrued = s.rw.accrued := by rw [e2, e1]; rfl
  have v2 : s2.vouchers b w = s.vouchers b w := by rw [e2, e1]; rfl
  have o2 : baseOf s2 b (owed s2 b w) = baseOf s b (owed s b w) := by rw [e2, e1]; rfl
  have goal : due s2 b w = due s b w := by
    unfold due dueSup dueBor
    rw [sup2, sup1, bor2, bor1, r1, r2, v2, o2]
  exact ⟨goal, by dsimp only; rw [r3]⟩

/-- **C113.** After a change of the reward speeds the market has the given speeds (a missing argument keeps the old one);
it is possible only in an active market. -/
theorem C113_speeds {a : Nat} {x y : Option Nat} (h : exec c s (.updateSpeed a x y) = .ok s') :
    (s'.rw.mkt a).supSpeed = x.getD (s.rw.mkt a).supSpeed ∧ (s'.rw.mkt a).borSpeed = y.getD (s.rw.mkt a).borSpeed ∧
      (∀ b, b ≠ a → s'.rw.mkt b = s.rw.mkt b) ∧ isActive s a = true := by
  simp only [exec, updateSpeed, bind_ok_iff, pure_ok_iff] at h
  obtain ⟨mk, hm, s1, h1, s2, h2, rfl⟩ := h
  have e1 := setSupSpeed_exact h1
  have e2 := setBorSpeed_exact h2
  have a1 := setRew_mkt e1
  have a2 := setRew_mkt e2
  refine ⟨?_, ?_, ?_, ?_⟩
  · dsimp only; rw [a2]; dsimp only; rw [a1]
  · dsimp only; rw [a2]
  · intro b hb; dsimp only; rw [e2]; exact (upd_of_ne _ _ hb).trans (by rw [e1]; exact upd_of_ne _ _ hb)
  · obtain ⟨h3, h4⟩ := ensureActive_ok hm
    unfold isActive
    rw [h3]
    exact decide_eq_true h4

/-- A new market with the smallest and largest accepted parameters; one step further is refused. -/
example : okAnd (exec exC (State.fresh exL exPrices 1000 10) (.addMarket 1 { exMarket 11 with
      cf := 999999
      lt := 999999
      rf := 1
      irf := 999999
      supplyCap := 1 })) (fun t => decide (t.books 1 = Book.start)) = true ∧
    errIs (exec exC (State.fresh exL exPrices 1000 10) (.addMarket 1 { exMarket 11 with
      cf := 1000000
      lt := 1000000 })) .invalidFactor = true ∧
    errIs (exec exC (State.fresh exL exPrices 1000 10) (.addMarket 1 { exMarket 11 with irf := 0 })) .invalidFactor = true := by
  decide +kernel

/-! ### C114 -/

/-- The market a call acts on, for the calls that need an active one (a liquidation acts on two). -/
def Call.needsActive : Call → Nat → Prop
  | .mint _ a _, b => b = a
  | .redeem _ a _, b => b = a
  | .redeemAll _ a, b => b = a
  | .borrow _ a _, b => b = a
  | .repay _ a _, b => b = a
  | .repayAll _ a, b => b = a
  | .collateral _ a _, b => b = a
  | .liquidate _ _ a _ k, b => b = a ∨ b = k
  | .addReserves _ a _, b => b = a
  | .reduceReserves _ a _, b => b = a
  | .reduceIncentive _ a _, b => b = a
  | .updateSpeed a _ _, b => b = a
  | _, _ => False

theorem isActive_of {a : Nat} {m : Market} (h : s.markets a = some m ∧ m.state = .active) : isActive s a = true := by
  unfold isActive
  rw [h.1]
  exact decide_eq_true h.2

/-- **C114.** Supplying, redeeming, borrowing, repaying, switching collateral, liquidating, moving reserves and changing
reward speeds work only in markets that are active. -/
theorem C114_only_active_markets {k : Call} {b : Nat} (hk : k.needsActive b) (h : exec c s k = .ok s') :
    ∃ m, s.markets b = some m ∧ m.state = .active := by
  cases k with
  | mint w a m => cases hk; obtain ⟨mk, _, _, _, _, _, _, h1, h2, _⟩ := mint_view h; exact ⟨mk, h1, h2⟩
  | redeem w a m =>
    cases hk
    obtain ⟨_, x, h⟩ := redeem_view h
    obtain ⟨mk, _, _, _, h1, h2, _⟩ := doRedeem_view h
    exact ⟨mk, h1, h2⟩
  | redeemAll w a => cases hk; obtain ⟨mk, _, _, _, _, h1, h2, _⟩ := redeemAll_view h; exact ⟨mk, h1, h2⟩
  | borrow w a m => cases hk; obtain ⟨mk, _, _, _, _, h1, h2, _⟩ := borrow_view h; exact ⟨mk, h1, h2⟩
  | repay w a m => cases hk; obtain ⟨mk, _, _, _, _, h1, h2, _⟩ := repay_view h; exact ⟨mk, h1, h2⟩
  | repayAll w a => cases hk; obtain ⟨mk, _, _, _, _, h1, h2, _⟩ := repayAll_view h; exact ⟨mk, h1, h2⟩
  | collateral w a on =>
    cases hk
    simp only [exec, collateralAsset, bind_ok_iff] at h
    obtain ⟨mk, hm, _⟩ := h
    exact ⟨mk, ensureActive_ok hm⟩
  | liquidate l br a m k =>
    simp only [exec, liquidate, doLiquidate, bind_ok_iff, ensure_ok_iff, exists_const] at h
    obtain ⟨_, s1, h1, s2, h2, mk, hm, mk2, hm2, _⟩ := h
    obtain ⟨bs, hs2, _⟩ := accrue2_ok h1 h2
    rcases hk with rfl | rfl
    · have := ensureActive_ok hm; rw [hs2] at this; exact ⟨mk, this⟩
    · have := ensureActive_ok hm2; rw [hs2] at this; exact ⟨mk2, this⟩
  | addReserves w a m =>
    cases hk
    simp only [exec, addReserves, bind_ok_iff] at h
    obtain ⟨mk, hm, _⟩ := h
    exact ⟨mk, ensureActive_ok hm⟩
  | reduceReserves w a m =>
    cases hk
    simp only [exec, reduceReserves, bind_ok_iff] at h
    obtain ⟨mk, hm, _⟩ := h
    exact ⟨mk, ensureActive_ok hm⟩
  | reduceIncentive w a m =>
    cases hk
    simp only [exec, reduceIncentive, bind_ok_iff, ensure_ok_iff, exists_const] at h
    obtain ⟨_, mk, hm, _⟩ := h
    exact ⟨mk, ensureActive_ok hm⟩
  | updateSpeed a x y =>
    cases hk
    simp only [exec, updateSpeed, bind_ok_iff] at h
    obtain ⟨mk, hm, _⟩ := h
    exact ⟨mk, ensureActive_ok hm⟩
  | _ => exact hk.elim

/-! ### C115 -/

/-- Value of everything `w` owes, in all markets. -/
def allDebt (s : State) (w : Nat) : Nat := (s.ids.map (fun a => price s a * owed s a w / DIV)).sum

/-- The property: whoever has collateral for all its debts and redeems from a collateral position still has it
afterwards (up to rounding). -/
def C115_statement : Prop := ∀ (c : Cfg), c.Ok → ∀ s s1 s', Reach c s → ∀ (k : Call) (w a : Nat), k.redeems w a →
  (s.dep a w).coll = true → a ∉ s.lfc → accrue c s a = .ok s1 → allDebt s1 w ≤ collSum c s1 w → exec c s k = .ok s' →
  allDebt s' w ≤ collSum c s' w + (price s a / DIV + 2)

/-- The fixture after market 1, in which user 8 owes 60000, was put under supervision. -/
def exS : State := run exC ex0 [.forceUpdate 1 { exMarket 11 with state := .supervision }]
theorem exS_reach : Reach exC exS := run_reach ex0_reach (by
  intro k hk
  simp only [List.mem_cons, List.not_mem_nil, or_false] at hk
  rcases hk with rfl
  simp [Call.wt, Market.wt, exMarket, million, Call.signers, exC])

/-- User 8 takes out all its collateral. -/
def exT : State := run exC exS [.redeemAll 8 2]

theorem exT_ok : exec exC exS (.redeemAll 8 2) = .ok exT := by
  unfold exT
  have h : okAnd (exec exC exS (.redeemAll 8 2)) (fun _ => true) = true := by decide +kernel
  obtain ⟨t, ht, _⟩ := okAnd_iff.mp h
  rw [ht]
  unfold run
  rw [List.foldl_cons, List.foldl_nil, ht]
  rfl

/-- **C115.** It is false: debts in a market that is not active do not count, so a debtor can take out all its collateral
while the market it owes to is suspended. -/
theorem C115_refuted : ¬ C115_statement := by
  intro h
  have ha : accrue exC exS 2 = .ok exS := accrue_noop (by decide +kernel)
  have := h exC exC_ok exS exS exT exS_reach (.redeemAll 8 2) 8 2 ⟨rfl, rfl⟩ (by decide +kernel) (by decide +kernel) ha
    (by decide +kernel) exT_ok
  exact absurd this (by decide +kernel)

/-- Amounts: 60000 owed, collateral value 100000 before and nothing after. -/
example : allDebt exS 8 = 60000 ∧ collSum exC exS 8 = 100000 ∧ allDebt exT 8 = 60000 ∧ collSum exC exT 8 = 0 := by
  decide +kernel

theorem allDebt_active {w : Nat} (h : ∀ a ∈ s.ids, (s.debts a w).principal ≠ 0 → isActive s a = true) :
    allDebt s w = debtSum s w := by
  unfold allDebt debtSum activeIds
  have key : ∀ l : List Nat, (∀ a ∈ l, (s.debts a w).principal ≠ 0 → isActive s a = true) →
      (l.map (fun a => price s a * owed s a w / DIV)).sum =
        ((l.filter (isActive s)).map (fun a => price s a * owed s a w / DIV)).sum := by
    intro l
    induction l with
    | nil => intro _; rfl
    | cons a l ih =>
      intro hl
      have ih := ih (fun b hb => hl b (List.mem_cons_of_mem _ hb))
      by_cases ha : isActive s a = true
      · rw [List.filter_cons_of_pos ha, List.map_cons, List.map_cons, List.sum_cons, List.sum_cons, ih]
      · rw [List.filter_cons_of_neg ha, List.map_cons, List.sum_cons, ih]
        have hp : (s.debts a w).principal = 0 := by
          by_contra hp
          exact ha (hl a List.mem_cons_self hp)
        have : owed s a w = 0 := by unfold owed; rw [hp, Nat.mul_zero, Nat.zero_div]
        rw [this, Nat.mul_zero, Nat.zero_div, Nat.zero_add]
  exact key _ h

/-- **C115.** It holds for accounts that owe only in active markets. -/
theorem C115_partial (hc : c.Ok) (h : Reach c s) {k : Call} {w a : Nat} (hk : k.redeems w a)
    (hcoll : (s.dep a w).coll = true) (hlf : a ∉ s.lfc) {s1 : State} (hs1 : accrue c s a = .ok s1)
    (hact : ∀ b ∈ s.ids, (s.debts b w).principal ≠ 0 → isActive s b = true)
    (hh : allDebt s1 w ≤ collSum c s1 w) (he : exec c s k = .ok s') :
    allDebt s' w ≤ collSum c s' w + (price s a / DIV + 2) := by
  obtain ⟨v, hr⟩ := redeems_redeemed hk he
  obtain ⟨mk, b, e, x, r, l, _, _, hacc, _, _, _, _, _, _, _, rfl⟩ := hr.view
  have e1 := hs1
  rw [hacc] at e1
  cases e1
  have a1 : allDebt (setBook s a b) w = debtSum (setBook s a b) w := allDebt_active hact
  rw [a1] at hh
  rw [allDebt_active]
  · exact C42_redeem_keeps_healthy hc h hk hcoll hlf hs1 hh he
  · exact hact

end Verif.Loans
