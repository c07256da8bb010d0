import Verif.Loans.Props

/-! # Properties C41 - C44: collateral and liquidation -/

set_option linter.unusedSimpArgs false
set_option linter.unusedVariables false

namespace Verif.Loans
open Verif

variable {c : Cfg} {s s' : State}

/-! ## C41 -/

/-- What a borrow does to all account values: the collateral side stays, the debt side grows by the value of the
loan plus at most one unit of rounding. -/
theorem borrow_values (hc : c.Ok) (h : Reach c s) {w a m : Nat} (hw : w ≠ c.acct)
    (he : exec c s (.borrow w a m) = .ok s') : ∃ s1, accrue c s a = .ok s1 ∧
      borrowAllowed c s1 a w m = .ok () ∧
      (∀ v, collSum c s' v = collSum c s1 v) ∧ (∀ v, lfCollSum c s' v = lfCollSum c s1 v) ∧
      debtSum s' w ≤ debtSum s1 w + (price s a * m / DIV + 1) ∧
      lfDebt c s' w ≤ lfDebt c s1 w + (price s a * m / DIV + 1) ∧
      (a ≠ c.lfAsset → lfDebt c s' w = lfDebt c s1 w) := by
  have hI := inv_reach hc h
  obtain ⟨mk, b, x, d, l, hmk, _, hacc, hg, hba, hd, _, _, hl, hs'⟩ := borrow_view he
  have hne : s.markets a ≠ none := by rw [hmk]; simp
  have hI1 := (hI.on_setBook hne hg).1
  have hb : (setBook s a b).books a = b := by simp [setBook]
  have hidx : b.index ≠ 0 := by
    have := hI.idx a hne
    have := hg.index
    have := DIV_pos
    omega
  have hbal := Ledger.transfer_bal hl a c.acct
  simp only [true_and, Ne.symm hw, if_false, if_true, Nat.add_zero] at hbal
  have hm : s'.markets = (setBook s a b).markets := by rw [hs']; rfl
  have hi : s'.ids = (setBook s a b).ids := by rw [hs']; rfl
  have hp : s'.prices = (setBook s a b).prices := by rw [hs']; rfl
  have hlf : s'.lfc = (setBook s a b).lfc := by rw [hs']; rfl
  have hact : activeIds s' = activeIds (setBook s a b) := activeIds_congr hm hi
  have hx : ∀ y, xrate c s' y = xrate c (setBook s a b) y := by
    intro y
    unfold xrate net
    by_cases hy : y = a
    · subst hy
      have hsol := hI1.solv y
      rw [hs', hb]
      simp only [upd_same, setBook]
      have : l.bal y c.acct + (b.borrows + m) - b.reserves = s.ledger.bal y c.acct + b.borrows - b.reserves := by
        omega
      rw [this]
    · have := transfer_other_asset (w := c.acct) hl hy
      rw [hs']
      simp only [setBook, upd_of_ne _ _ hy]
      rw [this]
  have hcoll : ∀ v f y, collOf c s' f v y = collOf c (setBook s a b) f v y := by
    intro v f y
    exact collOf_congr hm hp (by rw [hs']; rfl) (hx y)
  have hoa : owed s' a w = owed (setBook s a b) a w + m := by
    rw [← debt_owed hd, hs']
    exact owed_now (by simp) (by simpa using hidx)
  have hoff : ∀ y, y ≠ a → owed s' y w = owed (setBook s a b) y w := by
    intro y hy
    unfold owed
    rw [hs']
    simp [setBook, upd_of_ne _ _ hy, upd2_off _ _ _ hy]
  have hpr : ∀ y, price s' y = price s y := by intro y; unfold price; rw [hs']
  have hpr1 : ∀ y, price (setBook s a b) y = price s y := fun _ => rfl
  refine ⟨setBook s a b, hacc, hba, ?_, ?_, ?_, ?_, ?_⟩
  · intro v; unfold collSum; rw [hact]
    congr 2; funext y; exact hcoll v _ y
  · intro v; unfold lfCollSum; rw [hact, hlf]
    congr 2; funext y; exact hcoll v _ y
  · unfold debtSum
    rw [hact]
    apply sum_one_le (nodup_active hI1) (a := a)
    · intro y hy; rw [hoff y hy, hpr, hpr1]
    · rw [hoa, hpr, hpr1]
      have := value_add (price s a) (owed (setBook s a b) a w) m
      omega
  · unfold lfDebt
    rw [hpr, hpr1]
    by_cases hy : c.lfAsset = a
    · rw [hy, hoa]
      have := value_add (price s a) (owed (setBook s a b) a w) m
      omega
    · rw [hoff _ hy]; exact Nat.le_add_right _ _
  · intro hne
    unfold lfDebt
    rw [hpr, hpr1, hoff _ (Ne.symm hne)]

/-- **C41** After borrowing (an amount of any value; not the liquidation-free asset), the value of all debts of the
account plus its unused liquidation-free credit does not exceed the value of its collateral by more than one
unit of rounding. -/
theorem C41_borrow_needs_collateral (hc : c.Ok) (h : Reach c s) {w a m : Nat} (hw : w ≠ c.acct)
    (ha : a ≠ c.lfAsset) (hv : 0 < price s a * m / DIV) (he : exec c s (.borrow w a m) = .ok s') :
    debtSum s' w + (lfCollSum c s' w - lfDebt c s' w) ≤ collSum c s' w + 1 := by
  obtain ⟨s1, hacc, hba, h1, h2, h3, _, h5⟩ := borrow_values hc h hw he
  obtain ⟨mk, v, _, _, _, _, hval, hl⟩ := borrowAllowed_ok hba
  have hv1 := (assetValue_ok hval).1
  have hp1 : price s1 a = price s a := by
    unfold price
    rw [(accrue_again hacc).2.2.2.2.2.2.2.2.2.1]
  rw [hp1] at hv1
  rw [decide_eq_false ha] at hl
  have hl := ensureLiquidity_false hl
  rw [h1 w, h2 w, h5 ha]
  omega

/-- **C41** Borrowing the liquidation-free asset needs either ordinary collateral or liquidation-free collateral. -/
theorem C41_borrow_liquidation_free (hc : c.Ok) (h : Reach c s) {w m : Nat} (hw : w ≠ c.acct)
    (hv : 0 < price s c.lfAsset * m / DIV) (he : exec c s (.borrow w c.lfAsset m) = .ok s') :
    debtSum s' w ≤ collSum c s' w + 1 ∨ lfDebt c s' w ≤ lfCollSum c s' w + 1 := by
  obtain ⟨s1, hacc, hba, h1, h2, h3, h4, _⟩ := borrow_values hc h hw he
  obtain ⟨mk, v, _, _, _, _, hval, hl⟩ := borrowAllowed_ok hba
  have hv1 := (assetValue_ok hval).1
  have hp1 : price s1 c.lfAsset = price s c.lfAsset := by
    unfold price
    rw [(accrue_again hacc).2.2.2.2.2.2.2.2.2.1]
  rw [hp1] at hv1
  rw [decide_eq_true rfl] at hl
  have hl := ensureLiquidity_true hl
  rw [h1 w, h2 w]
  omega

/-- **C41** A loan too small to have a value (less than `10^-18` of the quote currency) is always within the rounding
of the code: whatever the amount, debts end up at most one unit above the larger of collateral value and
previous debt value. -/
theorem C41_dust (hc : c.Ok) (h : Reach c s) {w a m : Nat} (hw : w ≠ c.acct) (ha : a ≠ c.lfAsset)
    (he : exec c s (.borrow w a m) = .ok s') :
    ∃ s1, accrue c s a = .ok s1 ∧ debtSum s' w ≤ max (collSum c s' w) (debtSum s1 w) + 1 := by
  obtain ⟨s1, hacc, hba, h1, h2, h3, _, h5⟩ := borrow_values hc h hw he
  obtain ⟨mk, v, _, _, _, _, hval, hl⟩ := borrowAllowed_ok hba
  have hv1 := (assetValue_ok hval).1
  have hp1 : price s1 a = price s a := by
    unfold price
    rw [(accrue_again hacc).2.2.2.2.2.2.2.2.2.1]
  rw [hp1] at hv1
  rw [decide_eq_false ha] at hl
  have hl := ensureLiquidity_false hl
  refine ⟨s1, hacc, ?_⟩
  rw [h1 w]
  omega

/-- User 8 has collateral worth 100000 (half of 200000) and debts worth 60000: a loan of 40000 works and
uses everything up, 40001 fails. -/
example : okAnd (exec exC ex0 (.borrow 8 1 40000)) (fun t => decide (debtSum t 8 = 100000 ∧ collSum exC t 8 = 100000 ∧
      0 < price ex0 1 * 40000 / DIV)) = true ∧
    errIs (exec exC (run exC ex0 [.mint 9 1 50000]) (.borrow 8 1 40001)) .insufficientLiquidity = true := by
  decide +kernel

/-! ## C42 -/

/-- What redeeming collateral does to the account values. -/
theorem redeemed_values (hc : c.Ok) (h : Reach c s) {w a v : Nat} (he : Redeemed c s s' w a v)
    (hcoll : (s.dep a w).coll = true) : ∃ s1 x, accrue c s a = .ok s1 ∧
      debtSum s' w = debtSum s1 w ∧ lfDebt c s' w = lfDebt c s1 w ∧
      ensureLiquidity c s1 w x (decide (a ∈ s.lfc)) = .ok () ∧
      collSum c s1 w ≤ collSum c s' w + (x + (price s a / DIV + 2)) ∧
      lfCollSum c s1 w ≤ lfCollSum c s' w + (x + (price s a / DIV + 2)) := by
  have hI := inv_reach hc h
  have hI' := (hI.redeemed he).1
  obtain ⟨mk, b, e, y, r, l, hmk, hact, hacc, hg, hr, hall, hv, hvs, hres, hl, hs'⟩ := he.view
  have hne : s.markets a ≠ none := by rw [hmk]; simp
  have hI1 := (hI.on_setBook hne hg).1
  obtain ⟨r', hr', _, _, _, hliq⟩ := redeemAllowed_ok hall
  rw [hr] at hr'
  cases hr'
  obtain ⟨mk', x, hmk', hx, hliq⟩ := hliq hcoll
  have hmk'' : s.markets a = some mk' := hmk'
  rw [hmk] at hmk''
  cases hmk''
  have hb : (setBook s a b).books a = b := by simp [setBook]
  have hm : s'.markets = (setBook s a b).markets := by rw [hs']; rfl
  have hi : s'.ids = (setBook s a b).ids := by rw [hs']; rfl
  have hp : s'.prices = (setBook s a b).prices := by rw [hs']; rfl
  have hlf : s'.lfc = (setBook s a b).lfc := by rw [hs']; rfl
  have hactive : activeIds s' = activeIds (setBook s a b) := activeIds_congr hm hi
  have howed : ∀ z, owed s' z w = owed (setBook s a b) z w := by
    intro z
    unfold owed
    rw [hs']
    by_cases hz : z = a
    · subst hz; simp [setBook]
    · simp [setBook, upd_of_ne _ _ hz]
  have hpr : ∀ z, price s' z = price (setBook s a b) z := by intro z; unfold price; rw [hp]
  -- collateral elsewhere
  have hoff : ∀ z, z ≠ a → collOf c s' Market.cf w z = collOf c (setBook s a b) Market.cf w z := by
    intro z hz
    apply collOf_congr hm hp
    · rw [hs']; simp [setBook, upd2_off _ _ _ hz]
    · unfold xrate net
      have := transfer_other_asset (w := c.acct) hl hz
      rw [hs']
      simp only [setBook, upd_of_ne _ _ hz]
      rw [this]
  -- collateral here
  have hxv := (assetValue_ok hx).1
  have hvx : x = price s a * ceilDiv (r * v / DIV * mk.cf) million / DIV := hxv
  have hcf : mk.cf ≤ million := (hI.wt a mk hmk).1
  have hdep : s'.dep a w = ((s.dep a w).minus v).getD ⟨0, false⟩ := by
    rw [hs']; simp [State.dep]
  have hxr : r = xrate c (setBook s a b) a := rateStored_xrate hr
  have h1 : collOf c (setBook s a b) Market.cf w a = price s a * ceilDiv (r * (s.dep a w).vouchers / DIV * mk.cf)
      million / DIV := by
    have e1 : (setBook s a b).markets a = some mk := hmk
    have e2 : (setBook s a b).dep a w = s.dep a w := rfl
    have e3 : price (setBook s a b) a = price s a := rfl
    unfold collOf
    rw [e1]
    dsimp only
    rw [e2, hcoll, e3, ← hxr]
    exact if_pos rfl
  have hva : v ≤ (s.dep a w).vouchers := hv
  have hhere : collOf c (setBook s a b) Market.cf w a ≤
      collOf c s' Market.cf w a + (x + (price s a / DIV + 2)) := by
    by_cases hz : (s.dep a w).vouchers - v = 0
    · have : v = (s.dep a w).vouchers := by omega
      rw [h1, hvx, ← this]
      exact Nat.le_trans (Nat.le_add_right _ _) (Nat.le_add_left _ _)
    · have hdep' : s'.dep a w = ⟨(s.dep a w).vouchers - v, true⟩ := by
        rw [hdep]; simp [Deposit.minus, hz, hcoll]
      have hsup : (s'.books a).supply ≠ 0 := by
        have := (hI'.sums a).apply w
        simp only [State.vouchers, hdep'] at this
        omega
      have hrate : r ≤ xrate c s' a := by
        have hsup1 : b.supply ≠ 0 := by
          rw [hs'] at hsup
          simp only [upd_same] at hsup
          omega
        have hxx := xrate_mul_le (c := c) (s := setBook s a b) (a := a) (by rw [hb]; exact hsup1)
        rw [← hxr, hb] at hxx
        apply le_xrate hsup
        have hbal : s.ledger.bal a c.acct ≤ l.bal a c.acct + r * v / DIV := by
          have := Ledger.transfer_bal hl a c.acct
          simp only [and_self, if_true, true_and] at this
          omega
        have hvb : v ≤ b.supply := hvs
        have e1 : (s'.books a).supply = b.supply - v := by rw [hs']; simp
        rw [e1]
        refine (rate_redeem hxx hvb).trans (Nat.mul_le_mul_right _ ?_)
        unfold net
        rw [hs', hb]
        simp only [upd_same, setBook]
        omega
      have h2 : collOf c s' Market.cf w a = price s a *
          ceilDiv (xrate c s' a * ((s.dep a w).vouchers - v) / DIV * mk.cf) million / DIV := by
        have e1 : s'.markets a = some mk := by rw [hm]; exact hmk
        have e3 : price s' a = price s a := by rw [hpr]; rfl
        unfold collOf
        rw [e1]
        dsimp only
        rw [hdep', e3]
        exact if_pos rfl
      rw [h1, h2, hvx]
      exact coll_split hcf hrate hva
  refine ⟨setBook s a b, x, hacc, ?_, ?_, hliq, ?_, ?_⟩
  · unfold debtSum
    rw [hactive]
    congr 2
    funext z
    rw [howed, hpr]
  · unfold lfDebt
    rw [howed, hpr]
  · unfold collSum
    rw [hactive]
    refine sum_one_le (nodup_active hI1) (a := a) (fun z hz => (hoff z hz).symm) hhere
  · unfold lfCollSum
    rw [hactive, hlf]
    refine sum_one_le (nodup_lf hI1) (a := a) (fun z hz => (hoff z hz).symm) hhere

/-- Redeem calls. -/
def Call.redeems (w a : Nat) : Call → Prop
  | .redeem w' a' _ => w' = w ∧ a' = a
  | .redeemAll w' a' => w' = w ∧ a' = a
  | _ => False

theorem redeems_redeemed {k : Call} {w a : Nat} (hk : k.redeems w a) (he : exec c s k = .ok s') :
    ∃ v, Redeemed c s s' w a v := by
  cases k with
  | redeem w' a' m =>
    obtain ⟨rfl, rfl⟩ := hk
    obtain ⟨_, _, _, _, h⟩ := redeem_redeemed he
    exact ⟨_, h⟩
  | redeemAll w' a' =>
    obtain ⟨rfl, rfl⟩ := hk
    exact ⟨_, redeemAll_redeemed he⟩
  | _ => exact hk.elim

/-- **C42** An account whose collateral covers its debts (as of the accrual at the start of the call) and that redeems
from a collateral position outside the liquidation-free class still has its debts covered afterwards, up to
rounding worth one token unit. -/
theorem C42_redeem_keeps_healthy (hc : c.Ok) (h : Reach c s) {k : Call} {w a : Nat} (hk : k.redeems w a)
    (hcoll : (s.dep a w).coll = true) (hlf : a ∉ s.lfc) {s1 : State} (hs1 : accrue c s a = .ok s1)
    (hh : debtSum s1 w ≤ collSum c s1 w) (he : exec c s k = .ok s') :
    debtSum s' w ≤ collSum c s' w + (price s a / DIV + 2) := by
  obtain ⟨v, hr⟩ := redeems_redeemed hk he
  obtain ⟨s1', x, hacc, h1, _, h3, h4, _⟩ := redeemed_values hc h hr hcoll
  rw [hs1] at hacc
  cases hacc
  rw [decide_eq_false hlf] at h3
  have h3 := ensureLiquidity_false h3
  omega

/-- **C42** For liquidation-free collateral, either all debts or the liquidation-free debt stay covered. -/
theorem C42_redeem_lf (hc : c.Ok) (h : Reach c s) {k : Call} {w a : Nat} (hk : k.redeems w a)
    (hcoll : (s.dep a w).coll = true) (hlf : a ∈ s.lfc) {s1 : State} (hs1 : accrue c s a = .ok s1)
    (hh : debtSum s1 w ≤ collSum c s1 w) (he : exec c s k = .ok s') :
    debtSum s' w ≤ collSum c s' w + (price s a / DIV + 2) ∨
      lfDebt c s' w ≤ lfCollSum c s' w + (price s a / DIV + 2) := by
  obtain ⟨v, hr⟩ := redeems_redeemed hk he
  obtain ⟨s1', x, hacc, h1, h2, h3, h4, h5⟩ := redeemed_values hc h hr hcoll
  rw [hs1] at hacc
  cases hacc
  rw [decide_eq_true hlf] at h3
  have h3 := ensureLiquidity_true h3
  omega

/-- **C42** Even an account in trouble cannot get anything of value out: a redemption of collateral whose weighted
value is positive succeeds only if the debts are covered afterwards (up to rounding). -/
theorem C42_redeem_needs_liquidity (hc : c.Ok) (h : Reach c s) {w a m : Nat}
    (hcoll : (s.dep a w).coll = true) (hlf : a ∉ s.lfc) {s1 : State} (hs1 : accrue c s a = .ok s1)
    (he : exec c s (.redeem w a m) = .ok s') (hun : collSum c s1 w < debtSum s1 w) :
    collSum c s1 w ≤ collSum c s' w + (price s a / DIV + 2) := by
  obtain ⟨_, _, _, _, hr⟩ := redeem_redeemed he
  obtain ⟨s1', x, hacc, h1, _, h3, h4, _⟩ := redeemed_values hc h hr hcoll
  rw [hs1] at hacc
  cases hacc
  rw [decide_eq_false hlf] at h3
  have h3 := ensureLiquidity_false h3
  omega

/-- **C42** Switching a position off as collateral needs debts covered by the rest of the collateral. -/
theorem C42_collateral_off {w a : Nat} (he : exec c s (.collateral w a false) = .ok s') :
    debtSum s w + collOf c s Market.cf w a ≤ collSum c s w := by
  obtain ⟨_, _, h, _⟩ := collateral_view he
  simp only [setCollateral, bind_ok_iff, ensure_ok_iff, exists_const, Bool.false_eq_true, if_false, cadd_ok_iff] at h
  obtain ⟨_, _, _, t, ht, x, hx, b, hb, _, ⟨_, rfl⟩, hle, _⟩ := h
  rw [← totalBorrowed_ok hb, ← collValue_ok hx, ← totalColl_ok ht]
  exact hle

/-- User 8 may redeem 80000 of 200000 (keeping 120000 / 2 = 60000 of collateral for 60000 of debt), not more. -/
example : okAnd (exec exC ex0 (.redeem 8 2 80000)) (fun t => decide (debtSum t 8 = 60000 ∧ collSum exC t 8 = 60000 ∧
      (ex0.dep 2 8).coll = true)) = true ∧
    errIs (exec exC ex0 (.redeem 8 2 80002)) .insufficientLiquidity = true ∧
    errIs (exec exC ex0 (.collateral 8 2 false)) .insufficientLiquidity = true := by
  decide +kernel

/-! ## C43 -/

/-- **C43** A liquidation succeeds only if, after accruing both markets involved, the debts of the borrower plus the unused
liquidation-free credit exceed the threshold-weighted collateral; and the liquidator is not the borrower. -/
theorem C43_liquidation_needs_shortfall {liq br a m k : Nat} (he : exec c s (.liquidate liq br a m k) = .ok s') :
    liq ≠ br ∧ ∃ s1 s2, accrue c s a = .ok s1 ∧ accrue c s1 k = .ok s2 ∧
      threshSum c s2 br < debtSum s2 br + (lfThreshSum c s2 br - lfDebt c s2 br) := by
  obtain ⟨s1, s2, _, _, h1, h2, h3⟩ := liquidate_view he
  obtain ⟨mk, mk', r, p, _, _, hne, hla, _, _, _, _, rv, _, _, _⟩ := doLiquidate_view h3
  refine ⟨Ne.symm hne, s1, s2, h1, h2, ?_⟩
  simp only [liquidateAllowed, bind_ok_iff, ensure_ok_iff, exists_const] at hla
  obtain ⟨q, hq, hn, _⟩ := hla
  have := threshLiquidity_ok hq
  subst this
  simp only at hn
  by_contra hcon
  apply hn
  omega

/-- **C43** So an account whose threshold-weighted collateral covers its debts (and leaves the liquidation-free credit
unused) cannot be liquidated, by anyone, in any asset, for any amount. -/
theorem C43_healthy_not_liquidatable {br : Nat} (liq a m k : Nat) {s1 s2 : State}
    (h1 : accrue c s a = .ok s1) (h2 : accrue c s1 k = .ok s2)
    (hh : debtSum s2 br + (lfThreshSum c s2 br - lfDebt c s2 br) ≤ threshSum c s2 br) :
    exec c s (.liquidate liq br a m k) ≠ .ok s' := by
  intro he
  obtain ⟨_, t1, t2, g1, g2, hlt⟩ := C43_liquidation_needs_shortfall he
  rw [h1] at g1
  cases g1
  rw [h2] at g2
  cases g2
  omega

/-- The fixture's borrower is healthy; when the price of the debt doubles it is not. -/
def ex2 : State := pass ex0 (fun a => if a = 1 then some (2 * DIV) else exPrices a) 0 0
theorem ex2_reach : Reach exC ex2 := pass_reach exC_ok ex0_reach

example : errIs (exec exC ex0 (.liquidate 9 8 1 10000 2)) .insufficientShortfall = true ∧
    okAnd (exec exC ex2 (.liquidate 9 8 1 10000 2)) (fun _ => true) = true ∧
    okAnd (accrue exC ex0 1) (fun t => okAnd (accrue exC t 2) (fun u => decide
      (debtSum u 8 + (lfThreshSum exC u 8 - lfDebt exC u 8) ≤ threshSum exC u 8))) = true := by decide +kernel

/-! ## C44 -/

/-- **C44** A successful liquidation of `m`: the liquidator pays exactly `m` into the pool, the debt shrinks by exactly
`m`, the repaid value is at most the close factor of the debt value (rounded up), `v` vouchers move from the
borrower to the liquidator and the incentive account without any being created or lost, and their value at the exchange
rate afterwards is at most the repaid value times the liquidation incentive. -/
theorem C44_liquidation_bounded (hc : c.Ok) (h : Reach c s) {liq br a m k : Nat} (hl : liq ≠ c.acct)
    (he : exec c s (.liquidate liq br a m k) = .ok s') :
    ∃ s2 mk v i, (∃ s1, accrue c s a = .ok s1 ∧ accrue c s1 k = .ok s2) ∧ s.markets a = some mk ∧
      s'.ledger.bal a liq + m = s.ledger.bal a liq ∧ s'.ledger.bal a c.acct = s.ledger.bal a c.acct + m ∧
      owed s' a br + m = owed s2 a br ∧
      price s a * m / DIV ≤ ceilDiv (price s a * owed s2 a br / DIV * mk.close) million ∧
      v ≤ s.vouchers k br ∧ i ≤ v ∧
      (∀ y, s'.vouchers k y + (if y = br then v else 0) =
        s.vouchers k y + (if y = liq then v - i else 0) + (if y = c.incentiveAcct then i else 0)) ∧
      (s'.books k).supply = (s.books k).supply ∧
      price s k * (xrate c s' k * v / DIV) / DIV ≤ price s a * m / DIV * mk.incentive / DIV := by
  have hI := inv_reach hc h
  obtain ⟨s1, s2, _, _, h1, h2, h3⟩ := liquidate_view he
  obtain ⟨mk, mk', r, p, hmk, hmk', hne, hla, hcoll, hr, hp, hp0, rv, hrv, hle, h4⟩ := doLiquidate_view h3
  obtain ⟨x, d, r', l, hd, hmd, hmb, htr, hr', hvb, hinc, hi, hs'⟩ := liquidatedTransfer_view h4
  obtain ⟨bs, hs2, hg⟩ := accrue2_ok h1 h2
  have hmk0 : s.markets a = some mk := by rw [hs2] at hmk; exact hmk
  have hb1 := Ledger.transfer_bal htr a liq
  have hb2 := Ledger.transfer_bal htr a c.acct
  simp only [true_and, hl, Ne.symm hl, if_false, if_true, Nat.add_zero] at hb1 hb2
  have hled : s2.ledger = s.ledger := by rw [hs2]
  have hdep : s2.deposits = s.deposits := by rw [hs2]
  have hvou : ∀ y, s2.vouchers k y = s.vouchers k y := by
    intro y; simp [State.vouchers, State.dep, hdep]
  have hpa : price s2 a = price s a := by unfold price; rw [hs2]
  have hpk : price s k = p := by
    have : s.prices k = some p := by rw [hs2] at hp; exact hp
    simp [price, this]
  have hrv := (assetValue_ok hrv).1
  rw [hpa] at hrv
  -- the debt
  have hdo := debt_owed hd
  have hidx : (s2.books a).index ≠ 0 := by
    have e1 := hI.idx a (by rw [hmk0]; simp)
    have e2 := (hg.all a).index
    have e3 := DIV_pos
    rw [hs2]
    dsimp only
    omega
  have howed : owed s' a br = d - m := by
    rw [hs']
    exact owed_now (by simp) (by simpa using hidx)
  -- the close factor
  have hclose : rv ≤ pmulCeil mk.close (price s a * owed s2 a br / DIV) := by
    simp only [liquidateAllowed, bind_ok_iff, ensure_ok_iff, exists_const] at hla
    obtain ⟨q, _, _, d', hd', dv, hdv, rv', hrv', ev, hev, hle⟩ := hla
    have e1 := debt_owed hd'
    have e2 := (assetValue_ok hdv).1
    have e3 := (assetValue_ok hrv').1
    rw [hpa] at e2 e3
    have : ev ≤ dv := by
      unfold effectiveDebt at hev
      split_ifs at hev
      · simp only [bind_ok_iff, pure_ok_iff] at hev
        obtain ⟨_, _, rfl⟩ := hev
        omega
      · cases hev; exact Nat.le_refl _
    rw [hrv, ← e3, ← e1, ← e2]
    refine hle.trans ?_
    unfold pmulCeil ceilDiv
    apply Nat.div_le_div_right
    have := Nat.mul_le_mul_right mk.close this
    omega
  -- the rate after the repayment
  have hrx : r' = xrate c s' k := by
    have e1 := rateStored_xrate hr'
    rw [e1, hs']
    unfold xrate net
    dsimp only
  have hval : p * (r' * (rv * mk.incentive / DIV * DIV / p * DIV / r') / DIV) / DIV ≤ rv * mk.incentive / DIV := by
    generalize rv * mk.incentive / DIV = lv
    have e1 : r' * (lv * DIV / p * DIV / r') ≤ lv * DIV / p * DIV := by
      rw [Nat.mul_comm]; exact Nat.div_mul_le_self _ _
    have e2 : r' * (lv * DIV / p * DIV / r') / DIV ≤ lv * DIV / p := by
      apply Nat.div_le_of_le_mul
      rw [Nat.mul_comm DIV]; exact e1
    have e3 : p * (r' * (lv * DIV / p * DIV / r') / DIV) ≤ lv * DIV :=
      (Nat.mul_le_mul_left p e2).trans (by rw [Nat.mul_comm]; exact Nat.div_mul_le_self _ _)
    apply Nat.div_le_of_le_mul
    rw [Nat.mul_comm DIV]; exact e3
  rw [hrx] at hval hvb hi hs'
  generalize rv * mk.incentive / DIV * DIV / p * DIV / xrate c s' k = v at hval hvb hi hs'
  generalize pmulFloor mk.irf (v * DIV / mk.incentive) = ii at hi hs'
  refine ⟨s2, mk, v, ii, ⟨s1, h1, h2⟩, hmk0, ?_, ?_, ?_, ?_, ?_, hi, ?_, ?_, ?_⟩
  · rw [← hled]; rw [hs']; exact hb1
  · rw [← hled]; rw [hs']; exact hb2
  · omega
  · rw [← hrv]; exact hclose
  · rw [← hvou]; exact hvb
  · intro y
    have e := seize_eq s2.deposits k br liq c.incentiveAcct v (v - ii) ii hne y
    have e' : s'.vouchers k y = ((s'.deposits k y).getD ⟨0, false⟩).vouchers := rfl
    have e2 : s'.deposits = seize s2.deposits k br liq c.incentiveAcct v (v - ii) ii := by rw [hs']
    rw [e', e2, e, ← hvou y]
    simp only [State.vouchers, State.dep] at hvb ⊢
    by_cases hy : y = br
    · subst hy; simp only [if_true]; omega
    · simp only [hy, if_false]; omega
  · have e1 : (s2.books k).supply = (s.books k).supply := by rw [hs2]; exact (hg.all k).supply
    rw [← e1, hs']
    by_cases hk : k = a
    · subst hk; simp
    · simp [upd_of_ne _ _ hk]
  · rw [hpk, ← hrv]; exact hval

/-- A liquidation of 10000 (worth 20000) seizes collateral worth 22000, of which 600 go to the incentive account. -/
example : okAnd (exec exC ex2 (.liquidate 9 8 1 10000 2)) (fun t => decide (
    t.vouchers 2 8 + 1100000 = ex2.vouchers 2 8 ∧ t.vouchers 2 9 = 1070000 ∧ t.vouchers 2 102 = 30000 ∧
    owed t 1 8 = 50000)) = true ∧
    errIs (exec exC ex2 (.liquidate 9 8 1 30001 2)) .tooMuchRepay = true := by decide +kernel

end Verif.Loans
