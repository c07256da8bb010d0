import Verif.Loans.Admin
import Verif.Loans.Floor

/-!
# C116, C117: what the operations of users do exactly, and when they are accepted
-/

set_option linter.unusedSimpArgs false
set_option linter.unusedVariables false

namespace Verif.Loans
open Verif

variable {c : Cfg} {s s' : State}

/-! ### Specification -/

/-- `m` units of asset `a` moved from `x` to `y`, and no other balance changed. -/
def Moved (l l' : Ledger) (a x y m : Nat) : Prop :=
  ∀ u v, l'.bal u v + (if u = a ∧ v = x then m else 0) = l.bal u v + (if u = a ∧ v = y then m else 0)

/-- What stays the same in every market operation of a user: markets, prices, time, the collateral class. -/
def Kept (s s' : State) : Prop :=
  s'.markets = s.markets ∧ s'.ids = s.ids ∧ s'.underlying = s.underlying ∧ s'.lfc = s.lfc ∧ s'.prices = s.prices ∧
    s'.time = s.time ∧ s'.block = s.block

theorem vouchers_set (dp : Nat → Nat → Option Deposit) (a w : Nat) (d : Deposit) (x y : Nat) :
    ((upd2 dp a w (some d) x y).getD ⟨0, false⟩) = if x = a ∧ y = w then d else (dp x y).getD ⟨0, false⟩ := by
  rw [upd2_apply]
  split_ifs <;> rfl

/-! ## C116 -/

/-- **C116.** Supplying `m` tokens takes exactly `m` from the caller and gives it `m / rate` ptokens, rounded down, at the
exchange rate right after accrual; no other deposit and no debt changes. -/
theorem C116_mint {w a m : Nat} (h : exec c s (.mint w a m) = .ok s') :
    ∃ s1 v, accrue c s a = .ok s1 ∧ v = m * DIV / xrate c s1 a ∧ v ≠ 0 ∧
      Moved s.ledger s'.ledger a w c.acct m ∧
      (∀ x y, s'.dep x y = if x = a ∧ y = w then { s.dep a w with vouchers := s.vouchers a w + v } else s.dep x y) ∧
      s'.books = upd s1.books a { s1.books a with supply := (s1.books a).supply + v } ∧
      s'.debts = s.debts ∧ Kept s s' := by
  obtain ⟨mk, b, x, e, r, l, _, _, _, _, hacc, _, hr, hv, _, hl, rfl⟩ := mint_view h
  have hx := rateStored_xrate hr
  refine ⟨_, _, hacc, rfl, ?_, Ledger.transfer_bal hl, ?_, ?_, rfl, rfl, rfl, rfl, rfl, rfl, rfl, rfl⟩
  · rw [← hx]; exact hv
  · intro x y
    rw [← hx]
    exact vouchers_set _ _ _ _ _ _
  · rw [← hx]
    unfold setBook
    dsimp only
    rw [upd_same, upd_upd]

/-- The exact effect of redeeming `v` ptokens. -/
structure Redeems (c : Cfg) (s s' : State) (w a : Nat) (amount : State → Nat) : Prop where
  /-- after accrual of interest: `s1` -/
  view : ∃ s1, accrue c s a = .ok s1 ∧ amount s1 ≤ s.vouchers a w ∧
    Moved s.ledger s'.ledger a c.acct w (xrate c s1 a * amount s1 / DIV) ∧
    (s1.books a).reserves + xrate c s1 a * amount s1 / DIV ≤ s.ledger.bal a c.acct ∧
    (∀ x y, s'.vouchers x y = if x = a ∧ y = w then s.vouchers a w - amount s1 else s.vouchers x y) ∧
    (∀ x y, s'.vouchers x y ≠ 0 → (s'.dep x y).coll = (s.dep x y).coll) ∧
    s'.books = upd s1.books a { s1.books a with supply := (s1.books a).supply - amount s1 } ∧
    s'.debts = s.debts ∧ Kept s s'

theorem redeems_of {w a v : Nat} {f : State → Nat} (h : Redeemed c s s' w a v)
    (hf : ∀ s1, accrue c s a = .ok s1 → f s1 = v) : Redeems c s s' w a f := by
  obtain ⟨mk, b, e, x, r, l, _, _, hacc, _, hr, _, hv, _, hres, hl, rfl⟩ := h.view
  have hx := rateStored_xrate hr
  have hfv := hf _ hacc
  refine ⟨_, hacc, ?_, ?_, ?_, ?_, ?_, ?_, rfl, rfl, rfl, rfl, rfl, rfl, rfl, rfl⟩
  · rw [hfv]; exact hv
  · rw [hfv, ← hx]; exact Ledger.transfer_bal hl
  · rw [hfv, ← hx]
    have : ((setBook s a b).books a) = b := upd_same _ _ _
    rw [this]
    exact hres
  · intro x y
    rw [hfv]
    show ((upd2 s.deposits a w ((s.dep a w).minus v) x y).getD ⟨0, false⟩).vouchers = _
    rw [upd2_apply]
    split_ifs
    · exact minus_getD _ _
    · rfl
  · intro x y hne
    have hne' : ((upd2 s.deposits a w ((s.dep a w).minus v) x y).getD ⟨0, false⟩).vouchers ≠ 0 := hne
    show ((upd2 s.deposits a w ((s.dep a w).minus v) x y).getD ⟨0, false⟩).coll = _
    rw [upd2_apply] at hne' ⊢
    split_ifs at hne' ⊢ with hxy
    · obtain ⟨rfl, rfl⟩ := hxy
      unfold Deposit.minus at hne' ⊢
      split_ifs at hne' ⊢
      · exact absurd rfl hne'
      · rfl
    · rfl
  · rw [hfv]
    unfold setBook
    dsimp only
    rw [upd_same, upd_upd]

/-- **C116.** Redeeming `m` tokens burns `m / rate` ptokens (rounded down) and pays those ptokens times the rate (rounded
down) from the pool, leaving the reserves in it. -/
theorem C116_redeem {w a m : Nat} (h : exec c s (.redeem w a m) = .ok s') :
    Redeems c s s' w a (fun s1 => m * DIV / xrate c s1 a) := by
  obtain ⟨b, r, hacc, hr, hR⟩ := redeem_redeemed h
  refine redeems_of hR ?_
  intro s1 h1
  rw [hacc] at h1
  cases h1
  rw [rateStored_xrate hr]

/-- **C116.** Redeeming everything burns all ptokens of the caller. -/
theorem C116_redeem_all {w a : Nat} (h : exec c s (.redeemAll w a) = .ok s') :
    Redeems c s s' w a (fun _ => s.vouchers a w) :=
  redeems_of (redeemAll_redeemed h) (fun _ _ => rfl)

theorem owed_other {x y a w : Nat} {d : Snapshot} {bs : Nat → Book} {s2 : State}
    (hd : s2.debts = upd2 s.debts a w d) (hb : (s2.books x).index = (s.books x).index) (hxy : ¬ (x = a ∧ y = w)) :
    owed s2 x y = owed s x y := by
  unfold owed
  rw [hd, upd2_apply, if_neg hxy, hb]

/-- **C116.** Borrowing pays exactly `m` to the caller from the pool, leaving the reserves in it, raises its debt by exactly
`m` and changes no other debt and no deposit. -/
theorem C116_borrow (hc : c.Ok) (hr : Reach c s) {w a m : Nat} (h : exec c s (.borrow w a m) = .ok s') :
    ∃ s1, accrue c s a = .ok s1 ∧ Moved s.ledger s'.ledger a c.acct w m ∧
      (s1.books a).reserves + m ≤ s.ledger.bal a c.acct ∧
      (∀ x y, owed s' x y = owed s1 x y + if x = a ∧ y = w then m else 0) ∧
      s'.books = upd s1.books a { s1.books a with borrows := (s1.books a).borrows + m } ∧
      s'.deposits = s.deposits ∧ Kept s s' := by
  have hI := inv_reach hc hr
  obtain ⟨mk, b, x, d, l, hmk, _, hacc, hg, hba, hd, _, _, hl, rfl⟩ := borrow_view h
  obtain ⟨_, _, _, _, hres, hle, _⟩ := borrowAllowed_ok hba
  have hidx : b.index ≠ 0 := by
    have := hI.idx a (by rw [hmk]; simp)
    have := hg.index
    have := DIV_pos
    omega
  have hbk : ((setBook s a b).books a) = b := upd_same _ _ _
  refine ⟨_, hacc, Ledger.transfer_bal hl, ?_, ?_, ?_, rfl, rfl, rfl, rfl, rfl, rfl, rfl, rfl⟩
  · rw [hbk] at hres hle ⊢
    have e : (setBook s a b).ledger = s.ledger := rfl
    rw [e] at hres hle
    omega
  · intro x' y
    by_cases hxy : x' = a ∧ y = w
    · obtain ⟨rfl, rfl⟩ := hxy
      rw [owed_now (d := d + m) (by simp) (by simpa using hidx), if_pos ⟨rfl, rfl⟩, debt_owed hd]
    · rw [if_neg hxy, Nat.add_zero]
      refine owed_other (bs := s.books) (d := ⟨d + m, b.index⟩) rfl ?_ hxy
      unfold setBook
      dsimp only
      by_cases hx : x' = a
      · subst hx; rw [upd_same, upd_same]
      · rw [upd_of_ne _ _ hx, upd_of_ne _ _ hx]
  · unfold setBook
    dsimp only
    rw [upd_same, upd_upd]

/-- **C116.** Repaying takes exactly `m`, at most the debt, lowers the caller's debt by exactly `m` and the market's total by
`m` (stopping at zero), and changes no other debt and no deposit. -/
theorem C116_repay (hc : c.Ok) (hr : Reach c s) {w a m : Nat} (h : exec c s (.repay w a m) = .ok s') :
    ∃ s1, accrue c s a = .ok s1 ∧ Moved s.ledger s'.ledger a w c.acct m ∧ m ≤ owed s1 a w ∧
      (∀ x y, owed s' x y = owed s1 x y - if x = a ∧ y = w then m else 0) ∧
      s'.books = upd s1.books a { s1.books a with borrows := (s1.books a).borrows - m } ∧
      s'.deposits = s.deposits ∧ Kept s s' := by
  have hI := inv_reach hc hr
  obtain ⟨mk, b, x, d, l, hmk, _, hacc, hg, hd, hm, hl, rfl⟩ := repay_view h
  have hidx : b.index ≠ 0 := by
    have := hI.idx a (by rw [hmk]; simp)
    have := hg.index
    have := DIV_pos
    omega
  refine ⟨_, hacc, Ledger.transfer_bal hl, ?_, ?_, ?_, rfl, rfl, rfl, rfl, rfl, rfl, rfl, rfl⟩
  · rw [← debt_owed hd]; exact hm
  · intro x' y
    by_cases hxy : x' = a ∧ y = w
    · obtain ⟨rfl, rfl⟩ := hxy
      rw [owed_now (d := d - m) (by simp) (by simpa using hidx), if_pos ⟨rfl, rfl⟩, debt_owed hd]
    · rw [if_neg hxy, Nat.sub_zero]
      refine owed_other (bs := s.books) (d := ⟨d - m, b.index⟩) rfl ?_ hxy
      unfold setBook
      dsimp only
      by_cases hx : x' = a
      · subst hx; rw [upd_same, upd_same]
      · rw [upd_of_ne _ _ hx, upd_of_ne _ _ hx]
  · unfold setBook
    dsimp only
    rw [upd_same, upd_upd]

/-- **C116.** Switching collateral on or off changes only that flag. -/
theorem C116_collateral {w a : Nat} {on : Bool} (h : exec c s (.collateral w a on) = .ok s') :
    (s.dep a w).coll ≠ on ∧ s.deposits a w ≠ none ∧
      s' = { s with deposits := upd2 s.deposits a w (some ⟨s.vouchers a w, on⟩) } := by
  obtain ⟨h1, h2, _, rfl⟩ := collateral_view h
  refine ⟨h2, ?_, rfl⟩
  intro hn
  rw [hn] at h1
  cases h1

/-- **C116.** Reserves are added and taken out token by token; nothing beyond the reserves can be taken out. -/
theorem C116_add_reserves {w a m : Nat} (h : exec c s (.addReserves w a m) = .ok s') :
    Moved s.ledger s'.ledger a w c.acct m ∧ s' = { s with
      ledger := s'.ledger
      books := upd s.books a { s.books a with reserves := (s.books a).reserves + m } } := by
  obtain ⟨mk, l, _, _, _, hl, rfl⟩ := addReserves_view h
  exact ⟨Ledger.transfer_bal hl, rfl⟩

theorem C116_reduce_reserves {w a m : Nat} (h : exec c s (.reduceReserves w a m) = .ok s') :
    m ≤ (s.books a).reserves ∧ Moved s.ledger s'.ledger a c.acct w m ∧ s' = { s with
      ledger := s'.ledger
      books := upd s.books a { s.books a with reserves := (s.books a).reserves - m } } := by
  obtain ⟨mk, l, _, _, hm, hl, rfl⟩ := reduceReserves_view h
  exact ⟨hm, Ledger.transfer_bal hl, rfl⟩

/-- **C116.** Rewards are funded and withdrawn token by token, and the reward account is kept alive. -/
theorem C116_reward_funds {w m : Nat} (h : exec c s (.addReward w m) = .ok s') :
    m ≠ 0 ∧ Moved s.ledger s'.ledger c.rewardAsset w c.rewardAcct m ∧ s' = { s with ledger := s'.ledger } := by
  simp only [exec, addReward, bind_ok_iff, ensure_ok_iff, exists_const, pure_ok_iff] at h
  obtain ⟨hm, l, hl, rfl⟩ := h
  exact ⟨hm, Ledger.transfer_bal hl, rfl⟩

theorem C116_reward_withdrawal {w m : Nat} (h : exec c s (.withdrawReward w m) = .ok s') :
    m ≠ 0 ∧ m < s.ledger.bal c.rewardAsset c.rewardAcct ∧ Moved s.ledger s'.ledger c.rewardAsset c.rewardAcct w m ∧
      s' = { s with ledger := s'.ledger } := by
  simp only [exec, withdrawReward, bind_ok_iff, ensure_ok_iff, exists_const, pure_ok_iff] at h
  obtain ⟨hm, l, hl, rfl⟩ := h
  exact ⟨hm, (Ledger.transfer_keep hl).resolve_left hm, Ledger.transfer_bal hl, rfl⟩

/-- **C116.** A liquidation of `m` seizes the repaid value times the liquidation incentive: converted into collateral tokens
at the collateral's price, into ptokens at its exchange rate (all rounded down), of which the incentive reserve factor's
share of the principal part goes to the incentive account. -/
theorem C116_liquidate {liq br a m k : Nat} (h : exec c s (.liquidate liq br a m k) = .ok s') :
    ∃ s1 s2 mk r, accrue c s a = .ok s1 ∧ accrue c s1 k = .ok s2 ∧ s.markets a = some mk ∧
      r = xrate c s' k ∧
      let v := price s a * m / DIV * mk.incentive / DIV * DIV / price s k * DIV / r
      let i := v * DIV / mk.incentive * mk.irf / million
      Moved s.ledger s'.ledger a liq c.acct m ∧
      (∀ y, s'.vouchers k y + (if y = br then v else 0) =
        s.vouchers k y + (if y = liq then v - i else 0) + (if y = c.incentiveAcct then i else 0)) ∧
      (∀ x y, x ≠ k → s'.vouchers x y = s.vouchers x y) ∧
      (∀ y, y ≠ br → s'.debts a y = s.debts a y) ∧ (∀ x, x ≠ a → s'.debts x = s.debts x) ∧
      s'.books = upd s2.books a { s2.books a with borrows := (s2.books a).borrows - m } := by
  obtain ⟨s1, s2, _, _, h1, h2, h3⟩ := liquidate_view h
  obtain ⟨mk, mk', r, p, hmk, hmk', hne, hla, hcoll, hr, hp, hp0, rv, hrv, hle, h4⟩ := doLiquidate_view h3
  obtain ⟨x, d, r', l, hd, hmd, hmb, htr, hr', hvb, hinc, hi, hs'⟩ := liquidatedTransfer_view h4
  obtain ⟨bs, hs2, hg⟩ := accrue2_ok h1 h2
  have hmk0 : s.markets a = some mk := by rw [hs2] at hmk; exact hmk
  have hled : s2.ledger = s.ledger := by rw [hs2]
  have hdep : s2.deposits = s.deposits := by rw [hs2]
  have hdeb : s2.debts = s.debts := by rw [hs2]
  have hpr : ∀ z, price s2 z = price s z := by intro z; rw [hs2]; rfl
  have hpk : p = price s k := by
    rw [← hpr k]; unfold price; rw [hp]; rfl
  have hrv' : rv = price s a * m / DIV := by rw [(assetValue_ok hrv).1, hpr]
  have hrx : r' = xrate c s' k := by
    rw [rateStored_xrate hr', hs']
    rfl
  have hvou : s2.vouchers k br = s.vouchers k br := by unfold State.vouchers State.dep; rw [hdep]
  have hir : pmulFloor mk.irf = fun z => z * mk.irf / million := rfl
  rw [hrv', hpk] at hvb hi hs'
  rw [hrx] at hvb hi hs'
  rw [hir] at hi hs'
  dsimp only at hi hs'
  refine ⟨s1, s2, mk, _, h1, h2, hmk0, rfl, ?_⟩
  dsimp only
  generalize hV : price s a * m / DIV * mk.incentive / DIV * DIV / price s k * DIV / xrate c s' k = v at *
  generalize hJ : v * DIV / mk.incentive * mk.irf / million = i at *
  have sq := seize_eq s.deposits k br liq c.incentiveAcct v (v - i) i hne
  have sd : s'.deposits = seize s.deposits k br liq c.incentiveAcct v (v - i) i := by rw [hs', hdep]
  refine ⟨?_, ?_, ?_, ?_, ?_, ?_⟩
  · have e : s'.ledger = l := by rw [hs']
    rw [e, ← hled]
    exact Ledger.transfer_bal htr
  · intro y
    rw [hvou] at hvb
    have := sq y
    have e : s'.vouchers k y = ((seize s.deposits k br liq c.incentiveAcct v (v - i) i k y).getD ⟨0, false⟩).vouchers := by
      unfold State.vouchers State.dep; rw [sd]
    rw [e]
    have hsv : ∀ z, ((s.deposits k z).getD ⟨0, false⟩).vouchers = s.vouchers k z := fun _ => rfl
    rw [this, hsv, hsv]
    generalize (if y = liq then v - i else 0) = g1
    generalize (if y = c.incentiveAcct then i else 0) = g2
    by_cases hy : y = br
    · rw [if_pos hy, if_pos hy, hy]; omega
    · rw [if_neg hy, if_neg hy]; omega
  · intro z y hz
    have := seize_off s.deposits k br liq c.incentiveAcct v (v - i) i hz
    unfold State.vouchers State.dep
    rw [sd, this]
  · intro y hy
    have e : s'.debts = upd2 s2.debts a br ⟨d - m, (s2.books a).index⟩ := by rw [hs']
    rw [e, upd2_apply, if_neg (fun hh => hy hh.2), hdeb]
  · intro z hz
    have e : s'.debts = upd2 s2.debts a br ⟨d - m, (s2.books a).index⟩ := by rw [hs']
    rw [e, upd2_off _ _ _ hz, hdeb]
  · rw [hs']

end Verif.Loans
