import Verif.Loans.Admin
import Verif.Loans.Accept
import Verif.Loans.Floor

/-!
# Voucher tokens as a fungible token (C181 – C183)
-/

set_option linter.unusedSimpArgs false
set_option linter.unusedVariables false

namespace Verif.Loans
open Verif

variable {c : Cfg} {s s' : State}

/-! ## C181: transfers of pledged vouchers -/

/-- The statement: whoever has its debts covered and transfers vouchers to somebody else still has them covered, up to the
value of a few units of the underlying token. -/
def C181_statement : Prop := ∀ (c : Cfg), c.Ok → ∀ s s', Reach c s → ∀ p a src dst m, src ≠ dst → src ≠ c.acct →
  s.underlying p = some a → debtSum s src ≤ collSum c s src → exec c s (.transferP p src dst m) = .ok s' →
  debtSum s' src ≤ collSum c s' src + 2 * (price s a / DIV + 2)

/-- User 8, the only supplier of market 2, owes 60000 in market 1. Somebody (perhaps 8) gives the pallet 200000 of asset 2. -/
def exGift : State := gift exC ex0 2 9 200000
theorem exGift_reach : Reach exC exGift := gift_reach exC_ok ex0_reach (by decide)

/-- The state after user 8 has given away all its vouchers. -/
def exGone : State := run exC exGift [.transferP 12 8 7 10000000]

theorem exGone_ok : exec exC exGift (.transferP 12 8 7 10000000) = .ok exGone := by
  unfold exGone
  have h : okAnd (exec exC exGift (.transferP 12 8 7 10000000)) (fun _ => true) = true := by decide +kernel
  obtain ⟨t, ht, _⟩ := okAnd_iff.mp h
  rw [ht]
  unfold run
  rw [List.foldl_cons, List.foldl_nil, ht]
  rfl

/-- **C181 is false.** The check converts the free value into vouchers with the exchange rate recorded at the last accrual of
interest. A gift to the pallet raises the actual rate, so that too many vouchers are taken for free: here all of them. -/
theorem C181_refuted : ¬ C181_statement := by
  intro h
  have := h exC exC_ok exGift exGone exGift_reach 12 2 8 7 10000000 (by decide) (by decide) (by decide +kernel)
    (by decide +kernel) exGone_ok
  exact absurd this (by decide +kernel)

/-- Debts of 60000, collateral worth 200000 before and none afterwards. The same amount cannot be redeemed. -/
example : debtSum exGift 8 = 60000 ∧ collSum exC exGift 8 = 200000 ∧ debtSum exGone 8 = 60000 ∧ collSum exC exGone 8 = 0 ∧
    errIs (exec exC exGift (.redeemAll 8 2)) .insufficientLiquidity = true := by decide +kernel

/-- What is free of a pledged position. -/
theorem reducible_bound {p a w m : Nat} {mk : Market} (hu : s.underlying p = some a) (hmk : s.markets a = some mk)
    (hc : (s.dep a w).coll = true) (hm : m ≤ reducibleP c s p w) (h0 : m ≠ 0) :
    (collOf c s Market.cf w a ≤ collSum c s w - debtSum s w ∧ m ≤ s.vouchers a w) ∨
    (∃ x y, x * mk.cf ≤ (collSum c s w - debtSum s w) * million ∧ y * price s a ≤ x * DIV ∧
      m * (s.books a).rate ≤ y * DIV) := by
  unfold reducibleP at hm
  cases hr : reducibleAsset c s p w with
  | error e => rw [hr] at hm; exact absurd (Nat.le_zero.1 hm) h0
  | ok t =>
    rw [hr] at hm
    change m ≤ t at hm
    unfold reducibleAsset underlyingId at hr
    simp only [bind_ok_iff, okOr_ok_iff, hu, Option.some.injEq, exists_eq_left', hc, Bool.true_eq_false, if_false,
      Prod.exists] at hr
    obtain ⟨mk', hmk', cv, hcv, q1, q2, q3, q4, hq, hr⟩ := hr
    have hq' := liquidity_ok hq
    have e1 : q1 = collSum c s w - debtSum s w := congrArg Prod.fst hq'
    have e2 := collValue_ok hcv
    have e3 : mk' = mk := by
      have := (ensureActive_ok hmk').1
      rw [hmk] at this
      cases this
      rfl
    rw [e3] at hr
    split at hr
    · rename_i hle
      cases hr
      left
      rw [← e1, ← e2]
      exact ⟨hle, hm⟩
    · simp only [bind_ok_iff, okOr_ok_iff, getPrice, ensure_ok_iff, exists_const, pure_ok_iff, fixDiv_iff, toVouchers] at hr
      obtain ⟨pr, hpp, x, ⟨hx1, hx2, rfl⟩, y, ⟨hy1, hy2, rfl⟩, hz1, hz2, rfl⟩ := hr
      obtain ⟨pr', hp1, hp2, hpe⟩ := hpp
      subst hpe
      right
      have hpr : price s a = pr' := by unfold price; rw [hp1]; rfl
      refine ⟨q1 * DIV / ofPermill mk.cf, q1 * DIV / ofPermill mk.cf * DIV / pr', ?_, ?_, ?_⟩
      · rw [← e1]
        have := Nat.div_mul_le_self (q1 * DIV) (ofPermill mk.cf)
        unfold ofPermill at this ⊢
        generalize q1 * DIV / (mk.cf * 1000000000000) = z at this ⊢
        have e : z * (mk.cf * 1000000000000) = (z * mk.cf) * 1000000000000 := by ring
        rw [e] at this
        unfold DIV at this
        unfold million
        omega
      · rw [hpr]
        exact Nat.div_mul_le_self _ _
      · exact (Nat.mul_le_mul_right _ hm).trans (Nat.div_mul_le_self _ _)

theorem value_bound {r m x y f p L : Nat} (h1 : x * f ≤ L * million) (h2 : y * p ≤ x * DIV) (h3 : r * m / DIV ≤ y) :
    p * ceilDiv (r * m / DIV * f) million / DIV ≤ L + (p / DIV + 1) := by
  generalize r * m / DIV = u at h3 ⊢
  have hM : 0 < million := million_pos
  have hD : 0 < DIV := by unfold DIV; decide
  have hc : ceilDiv (u * f) million ≤ u * f / million + 1 := by
    unfold ceilDiv
    generalize u * f = k
    unfold million
    omega
  have key : p * (u * f / million) ≤ L * DIV := by
    have a1 : p * (u * f / million) * million ≤ L * DIV * million := by
      calc p * (u * f / million) * million = p * ((u * f / million) * million) := by ring
        _ ≤ p * (u * f) := Nat.mul_le_mul_left _ (Nat.div_mul_le_self _ _)
        _ ≤ p * (y * f) := Nat.mul_le_mul_left _ (Nat.mul_le_mul_right _ h3)
        _ = (y * p) * f := by ring
        _ ≤ (x * DIV) * f := Nat.mul_le_mul_right _ h2
        _ = (x * f) * DIV := by ring
        _ ≤ (L * million) * DIV := Nat.mul_le_mul_right _ h1
        _ = L * DIV * million := by ring
    exact Nat.le_of_mul_le_mul_right a1 hM
  calc p * ceilDiv (u * f) million / DIV ≤ p * (u * f / million + 1) / DIV :=
        Nat.div_le_div_right (Nat.mul_le_mul_left _ hc)
    _ = (p * (u * f / million) + p) / DIV := by rw [Nat.mul_add, Nat.mul_one]
    _ ≤ (L * DIV + p) / DIV := Nat.div_le_div_right (Nat.add_le_add_right key _)
    _ = L + p / DIV := by rw [Nat.add_comm, Nat.add_mul_div_right _ _ hD, Nat.add_comm]
    _ ≤ L + (p / DIV + 1) := by omega

/-- What a voucher transfer to somebody else does to the values of the sender. -/
theorem transferP_values (hc : c.Ok) (h : Reach c s) {p a src dst m : Nat} (hsd : src ≠ dst)
    (hu : s.underlying p = some a) (he : exec c s (.transferP p src dst m) = .ok s')
    (hrate : xrate c s a ≤ (s.books a).rate) :
    debtSum s' src = debtSum s src ∧
    (collSum c s src ≤ collSum c s' src + ((collSum c s src - debtSum s src) + 2 * (price s a / DIV + 2))) := by
  have hI := inv_reach hc h
  obtain ⟨a', x, hu', hm, hv, hs'⟩ := transferP_view he
  rw [hu] at hu'
  cases hu'
  have hmk' : s'.markets = s.markets := by rw [hs']
  have hi : s'.ids = s.ids := by rw [hs']
  have hp : s'.prices = s.prices := by rw [hs']
  have hx : ∀ z, xrate c s' z = xrate c s z := by intro z; rw [hs']; rfl
  have hd : s'.deposits a src = (s.dep a src).minus m := by
    rw [hs']
    dsimp only
    rw [upd2_of_ne _ _ (Or.inr hsd), upd2_same]
  have hdo : ∀ z, z ≠ a → s'.deposits z src = s.deposits z src := by
    intro z hz
    rw [hs']
    dsimp only
    rw [upd2_of_ne _ _ (Or.inl hz), upd2_of_ne _ _ (Or.inl hz)]
  have hoff : ∀ z, z ≠ a → collOf c s' Market.cf src z = collOf c s Market.cf src z :=
    fun z hz => collOf_congr hmk' hp (hdo z hz) (hx z)
  refine ⟨?_, ?_⟩
  · unfold debtSum
    rw [activeIds_congr hmk' hi]
    rw [hs']
    rfl
  · generalize hK : (collSum c s src - debtSum s src) + 2 * (price s a / DIV + 2) = K
    unfold collSum
    rw [activeIds_congr hmk' hi]
    refine sum_one_le (nodup_active hI) (a := a) (fun z hz => (hoff z hz).symm) ?_
    have hdep : s'.dep a src = ((s.dep a src).minus m).getD ⟨0, false⟩ := by
      show (s'.deposits a src).getD ⟨0, false⟩ = _
      rw [hd]
    by_cases hcoll : (s.dep a src).coll = true
    · cases hmk : s.markets a with
      | none =>
        have : collOf c s Market.cf src a = 0 := by unfold collOf; rw [hmk]
        rw [this]
        exact Nat.zero_le _
      | some mk =>
        have h1 : collOf c s Market.cf src a = price s a * ceilDiv (xrate c s a * (s.dep a src).vouchers / DIV * mk.cf)
            million / DIV := by
          unfold collOf
          rw [hmk]
          dsimp only
          rw [if_pos hcoll]
        have hcf : mk.cf ≤ million := (hI.wt a mk hmk).1
        by_cases h0 : m = 0
        · have hz : collOf c s' Market.cf src a = collOf c s Market.cf src a := by
            by_cases hv0 : (s.dep a src).vouchers = 0
            · have h2 : collOf c s' Market.cf src a = 0 := by
                unfold collOf
                rw [hmk', hmk]
                dsimp only
                rw [if_neg]
                rw [hdep, h0]
                simp [Deposit.minus, hv0]
              rw [h1, h2, hv0]
              simp [ceilDiv, million]
            · have h2 : s'.dep a src = s.dep a src := by
                rw [hdep, h0]
                simp [Deposit.minus, hv0]
              unfold collOf price
              rw [hmk', hp, hx, h2]
          rw [hz]
          exact Nat.le_add_right _ _
        · have hval : price s a * ceilDiv (xrate c s a * m / DIV * mk.cf) million / DIV ≤
              (collSum c s src - debtSum s src) + (price s a / DIV + 1) := by
            rcases reducible_bound hu hmk hcoll hm h0 with ⟨q, -⟩ | ⟨x, y, q1, q2, q3⟩
            · refine Nat.le_trans ?_ (Nat.le_trans q (Nat.le_add_right _ _))
              rw [h1]
              refine Nat.div_le_div_right (Nat.mul_le_mul_left _ ?_)
              have e1 : xrate c s a * m / DIV * mk.cf ≤ xrate c s a * (s.dep a src).vouchers / DIV * mk.cf :=
                Nat.mul_le_mul_right _ (Nat.div_le_div_right (Nat.mul_le_mul_left _ hv))
              unfold ceilDiv million
              omega
            · refine value_bound q1 q2 ?_
              have hD : 0 < DIV := by unfold DIV; decide
              have e1 : xrate c s a * m ≤ y * DIV := by
                refine Nat.le_trans ?_ q3
                rw [Nat.mul_comm m]
                exact Nat.mul_le_mul_right _ hrate
              calc xrate c s a * m / DIV ≤ y * DIV / DIV := Nat.div_le_div_right e1
                _ = y := Nat.mul_div_cancel _ hD
          have h2 : collOf c s' Market.cf src a = price s a *
              ceilDiv (xrate c s a * ((s.dep a src).vouchers - m) / DIV * mk.cf) million / DIV := by
            by_cases hz : (s.dep a src).vouchers - m = 0
            · have : collOf c s' Market.cf src a = 0 := by
                unfold collOf
                rw [hmk', hmk]
                dsimp only
                rw [if_neg]
                rw [hdep]
                simp [Deposit.minus, hz]
              rw [this, hz]
              simp [ceilDiv, million]
            · have hdep' : s'.dep a src = ⟨(s.dep a src).vouchers - m, true⟩ := by
                rw [hdep]; simp [Deposit.minus, hz, hcoll]
              unfold collOf price
              rw [hmk', hmk, hp, hx]
              dsimp only
              rw [hdep']
              exact if_pos rfl
          have key := coll_split (p := price s a) (r := xrate c s a) (r' := xrate c s a) hcf (Nat.le_refl _)
            (show m ≤ (s.dep a src).vouchers from hv)
          rw [h1, h2]
          refine key.trans (Nat.add_le_add_left ?_ _)
          refine (Nat.add_le_add_right hval _).trans ?_
          rw [← hK]
          omega
    · have : collOf c s Market.cf src a = 0 := by
        unfold collOf
        split
        · rfl
        · exact if_neg hcoll
      rw [this]
      exact Nat.zero_le _

/-- **C181, partial.** It holds if the recorded exchange rate is not below the actual one. -/
theorem C181_partial (hc : c.Ok) (h : Reach c s) {p a src dst m : Nat} (hsd : src ≠ dst)
    (hu : s.underlying p = some a) (hh : debtSum s src ≤ collSum c s src)
    (he : exec c s (.transferP p src dst m) = .ok s') (hrate : xrate c s a ≤ (s.books a).rate) :
    debtSum s' src ≤ collSum c s' src + 2 * (price s a / DIV + 2) := by
  obtain ⟨h1, h2⟩ := transferP_values hc h hsd hu he hrate
  omega

/-- Without the gift user 8 can give away 4000000 of its 10000000 vouchers, and not one more. -/
example : xrate exC ex0 2 = (ex0.books 2).rate ∧ debtSum ex0 8 = 60000 ∧ collSum exC ex0 8 = 100000 ∧
    okAnd (exec exC ex0 (.transferP 12 8 7 4000000)) (fun t => decide (debtSum t 8 = 60000 ∧ collSum exC t 8 = 60000)) = true ∧
    errIs (exec exC ex0 (.transferP 12 8 7 4000001)) .insufficientCollateral = true := by decide +kernel

/-- Whoever does not have its debts covered can give away nothing of value. -/
theorem C181_uncovered (hc : c.Ok) (h : Reach c s) {p a src dst m : Nat} (hsd : src ≠ dst)
    (hu : s.underlying p = some a) (hh : collSum c s src ≤ debtSum s src)
    (he : exec c s (.transferP p src dst m) = .ok s') (hrate : xrate c s a ≤ (s.books a).rate) :
    collSum c s src ≤ collSum c s' src + 2 * (price s a / DIV + 2) := by
  obtain ⟨h1, h2⟩ := transferP_values hc h hsd hu he hrate
  omega

/-! ## C182: collateral of the liquidation-free class -/

/-- The statement: ordinary debts covered by ordinary collateral (the liquidation-free class apart) stay so when vouchers are
transferred. -/
def C182_statement : Prop := ∀ (c : Cfg), c.Ok → ∀ s s', Reach c s → ∀ p a src dst m, src ≠ dst → src ≠ c.acct →
  s.underlying p = some a → xrate c s a ≤ (s.books a).rate → lfDebt c s src ≤ lfCollSum c s src →
  debtSum s src + lfCollSum c s src ≤ collSum c s src + lfDebt c s src →
  exec c s (.transferP p src dst m) = .ok s' →
  debtSum s' src + lfCollSum c s' src ≤ collSum c s' src + lfDebt c s' src + 2 * (price s a / DIV + 2)

/-- User 8 also pledges 200000 of asset 1, which is made liquidation-free; it still owes 60000 of asset 1. -/
def exLf : State := run exC ex0 [.mint 8 1 200000, .collateral 8 1 true, .updateLfc [1]]
theorem exLf_reach : Reach exC exLf := run_reach ex0_reach (by
  intro k hk
  simp only [List.mem_cons, List.not_mem_nil, or_false] at hk
  rcases hk with rfl | rfl | rfl <;> simp [Call.wt, Call.signers, exC])

/-- The state after user 8 has given away all its ordinary collateral. -/
def exLfGone : State := run exC exLf [.transferP 12 8 7 10000000]
theorem exLfGone_ok : exec exC exLf (.transferP 12 8 7 10000000) = .ok exLfGone := by
  unfold exLfGone
  have h : okAnd (exec exC exLf (.transferP 12 8 7 10000000)) (fun _ => true) = true := by decide +kernel
  obtain ⟨t, ht, _⟩ := okAnd_iff.mp h
  rw [ht]
  unfold run
  rw [List.foldl_cons, List.foldl_nil, ht]
  rfl

/-- **C182 is false.** The transfer compares with the free value of all collateral, the redemption with the one outside the
liquidation-free class; after the transfer an ordinary debt is backed only by collateral that cannot be seized. -/
theorem C182_refuted : ¬ C182_statement := by
  intro h
  have := h exC exC_ok exLf exLfGone exLf_reach 12 2 8 7 10000000 (by decide) (by decide) (by decide +kernel)
    (by decide +kernel) (by decide +kernel) (by decide +kernel) exLfGone_ok
  exact absurd this (by decide +kernel)

/-- The same cannot be redeemed, and what is left cannot be seized. -/
example : errIs (exec exC exLf (.redeemAll 8 2)) .insufficientLiquidity = true ∧
    errIs (exec exC exLfGone (.liquidate 9 8 1 100 1)) .collateralReserved = true := by decide +kernel

/-- **C182, partial.** It holds for accounts without liquidation-free collateral and debt. -/
theorem C182_partial (hc : c.Ok) (h : Reach c s) {p a src dst m : Nat} (hsd : src ≠ dst)
    (hu : s.underlying p = some a) (hrate : xrate c s a ≤ (s.books a).rate)
    (hl : ∀ z ∈ s.lfc, (s.dep z src).coll = false) (hd : lfDebt c s src = 0)
    (hh : debtSum s src ≤ collSum c s src)
    (he : exec c s (.transferP p src dst m) = .ok s') :
    debtSum s' src + lfCollSum c s' src ≤ collSum c s' src + lfDebt c s' src + 2 * (price s a / DIV + 2) := by
  have h1 := C181_partial hc h hsd hu hh he hrate
  have h2 : lfCollSum c s' src = 0 := by
    obtain ⟨a', x, hu', hm, hv, hs'⟩ := transferP_view he
    unfold lfCollSum
    rw [List.sum_eq_zero_iff]
    intro y hy
    rw [List.mem_map] at hy
    obtain ⟨z, hz, rfl⟩ := hy
    have hz' : z ∈ s.lfc := by
      have := (List.mem_filter.1 hz).2
      rw [hs'] at this
      exact of_decide_eq_true this
    have hc' : (s'.dep z src).coll = false := by
      have hz0 := hl z hz'
      rw [hs']
      unfold State.dep at hz0 ⊢
      dsimp only
      rw [upd2_of_ne _ _ (Or.inr hsd), upd2_apply]
      split_ifs with hq
      · obtain ⟨rfl, -⟩ := hq
        unfold Deposit.minus
        split_ifs
        · rfl
        · exact hz0
      · exact hz0
    unfold collOf
    split
    · rfl
    · exact if_neg (by rw [hc']; decide)
  rw [h2]
  omega

/-- **C182.** Liquidation-free collateral and auxiliary tokens (those with the ids from 4294957295 on) are never seized. -/
theorem C182_not_seized {liq br a m k : Nat} (he : exec c s (.liquidate liq br a m k) = .ok s') :
    k ∉ s.lfc ∧ k < 4294957295 := by
  obtain ⟨_, _, h1, h2, -⟩ := liquidate_view he
  refine ⟨h1, ?_⟩
  unfold isAux maxU32 at h2
  have := of_decide_eq_false h2
  omega

/-- A liquidation that would seize anything else is not refused for that reason. -/
theorem C182_seizable {liq br a m k : Nat} (h1 : k ∉ s.lfc) (h2 : k < 4294957295) :
    exec c s (.liquidate liq br a m k) = (do
      let s1 ← accrue c s a
      let s2 ← accrue c s1 k
      doLiquidate c s2 liq br a m k) := by
  show liquidate c s liq br a m k = _
  unfold liquidate
  rw [ensure_of ⟨h1, by unfold isAux maxU32; exact decide_eq_false (by omega)⟩]
  rfl

/-- **C182.** Root sets the class to exactly what it asks for. -/
theorem C182_set_class (as : List Nat) : exec c s (.updateLfc as) = .ok { s with lfc := as } := rfl

/-! ## C183: what the token interface reports -/

/-- `can_withdraw`, ptoken.rs:98-129: `none` for an unknown asset or no funds; the minimum balance is 0. -/
def canWithdrawP (s : State) (p w m : Nat) : Bool := match s.underlying p with
  | none => false
  | some a => isActive s a && decide (m ≤ ptokenBalance s p w)

/-- `can_deposit`, ptoken.rs:62-95: the sum with the balance cannot overflow if the one with the supply does not. -/
def canDepositP (s : State) (p m : Nat) : Bool := match s.underlying p with
  | none => false
  | some a => isActive s a && decide ((s.books a).supply + m ≤ maxU128)

/-- **C183.** Free vouchers: all of a position that is not pledged, and all of a pledged one if the rest of the collateral
covers the debts. -/
theorem C183_free {p a w : Nat} (hu : s.underlying p = some a) (hc : (s.dep a w).coll = false) :
    reducibleP c s p w = s.vouchers a w := by
  have : reducibleAsset c s p w = .ok (s.vouchers a w) := by
    unfold reducibleAsset underlyingId
    rw [hu]
    show (if (s.dep a w).coll = false then Except.ok (s.vouchers a w) else _) = _
    rw [if_pos hc]
  unfold reducibleP
  rw [this]

/-- No vouchers are free if the id is not one of a voucher token, or if a pledged position cannot be valued. -/
theorem C183_none {p a w : Nat} :
    (s.underlying p = none → reducibleP c s p w = 0) ∧
    (s.underlying p = some a → (s.dep a w).coll = true →
      (isActive s a = false ∨ (∀ q, liquidity c s w ≠ .ok q)) → reducibleP c s p w = 0) := by
  refine ⟨fun hu => ?_, fun hu hc h => ?_⟩
  · unfold reducibleP reducibleAsset underlyingId
    rw [hu]
    rfl
  · unfold reducibleP
    cases hr : reducibleAsset c s p w with
    | error e => rfl
    | ok t =>
      exfalso
      unfold reducibleAsset underlyingId at hr
      simp only [bind_ok_iff, okOr_ok_iff, hu, Option.some.injEq, exists_eq_left', hc, Bool.true_eq_false, if_false,
        Prod.exists] at hr
      obtain ⟨mk, hmk, _, _, q1, q2, q3, q4, hq, -⟩ := hr
      rcases h with h | h
      · have := ensureActive_ok hmk
        unfold isActive at h
        rw [this.1] at h
        exact absurd this.2 (of_decide_eq_false h)
      · exact h _ hq

/-- **C183, pledged vouchers.** All are free if the collateral without them covers the debts; otherwise the free value at the
collateral factor, the price and the recorded exchange rate, each division rounded down. -/
theorem C183_pledged {p a w : Nat} {mk : Market} {cv : Nat} {q : Nat × Nat × Nat × Nat} (hu : s.underlying p = some a)
    (hc : (s.dep a w).coll = true) (hmk : s.markets a = some mk) (ha : mk.state = .active) (hcv : collValue c s a w = .ok cv)
    (hq : liquidity c s w = .ok q) :
    (collOf c s Market.cf w a + debtSum s w ≤ collSum c s w → debtSum s w ≤ collSum c s w → reducibleP c s p w = s.vouchers a w) ∧
    (∀ x y z, collSum c s w < collOf c s Market.cf w a + debtSum s w → 0 < collOf c s Market.cf w a →
      getPrice s a = .ok (price s a) → fixDiv (collSum c s w - debtSum s w) (ofPermill mk.cf) = some x →
      fixDiv x (price s a) = some y → fixDiv y (s.books a).rate = some z → reducibleP c s p w = z) := by
  have e1 : q.1 = collSum c s w - debtSum s w := congrArg Prod.fst (liquidity_ok hq)
  have e2 := collValue_ok hcv
  have e3 : ensureActive s a = .ok mk := by
    unfold ensureActive
    rw [hmk]
    exact if_pos ha
  refine ⟨fun h1 h2 => ?_, fun x y z h1 h0 hp hx hy hz => ?_⟩
  · have : reducibleAsset c s p w = .ok (s.vouchers a w) := by
      unfold reducibleAsset underlyingId
      simp only [bind_ok_iff, okOr_ok_iff, hu, Option.some.injEq, exists_eq_left', hc, Bool.true_eq_false, if_false, e3, hcv,
        hq, Except.ok.injEq]
      exact if_pos (by rw [e1, e2]; omega)
    unfold reducibleP
    rw [this]
  · have : reducibleAsset c s p w = .ok z := by
      unfold reducibleAsset underlyingId
      simp only [bind_ok_iff, okOr_ok_iff, hu, Option.some.injEq, exists_eq_left', hc, Bool.true_eq_false, if_false, e3, hcv,
        hq, Except.ok.injEq]
      rw [if_neg (by rw [e1, e2]; omega)]
      simp only [bind_ok_iff, okOr_ok_iff, toVouchers]
      exact ⟨_, hp, x, by rw [e1]; exact hx, y, hy, hz⟩
    unfold reducibleP
    rw [this]

/-- The statement: what the interface says can be withdrawn can be transferred. -/
def C183_statement : Prop := ∀ (c : Cfg), c.Ok → ∀ s, Reach c s → ∀ p src dst m,
  canWithdrawP s p src m = true → canDepositP s p m = true → ∃ s', exec c s (.transferP p src dst m) = .ok s'

/-- **C183 is false.** `can_withdraw` does not look at debts. -/
theorem C183_refuted : ¬ C183_statement := by
  intro h
  obtain ⟨s', h⟩ := h exC exC_ok ex0 ex0_reach 12 8 7 10000000 (by decide +kernel) (by decide +kernel)
  have : okAnd (exec exC ex0 (.transferP 12 8 7 10000000)) (fun _ => true) = true := by rw [h]; rfl
  exact absurd this (by decide +kernel)

/-- **C183, exact transfer.** A transfer of free vouchers to somebody else moves exactly the amount; nothing else but the records of
rewards changes, in particular not the supply, and never more than is reported as free. -/
theorem C183_transfer {p src dst m : Nat} (hsd : src ≠ dst) (he : exec c s (.transferP p src dst m) = .ok s') :
    m ≤ reducibleP c s p src ∧
    ptokenBalance s' p src + m = ptokenBalance s p src ∧ ptokenBalance s' p dst = ptokenBalance s p dst + m ∧
    (∀ q w, q ≠ p ∨ (w ≠ src ∧ w ≠ dst) → (∀ b, s.underlying q = some b → s.underlying p ≠ some b ∨ (w ≠ src ∧ w ≠ dst)) →
      ptokenBalance s' q w = ptokenBalance s q w) ∧
    (∀ q, ptokenIssuance s' q = ptokenIssuance s q) ∧ s'.ledger = s.ledger ∧ s'.debts = s.debts ∧ s'.books = s.books := by
  obtain ⟨a, x, hu, hm, hv, rfl⟩ := transferP_view he
  refine ⟨hm, ?_, ?_, ?_, fun q => rfl, rfl, rfl, rfl⟩
  · unfold ptokenBalance
    dsimp only
    rw [hu]
    show (State.dep _ a src).vouchers + m = s.vouchers a src
    unfold State.dep
    dsimp only
    rw [upd2_of_ne _ _ (Or.inr hsd), upd2_same]
    unfold Deposit.minus
    change m ≤ (s.dep a src).vouchers at hv
    split_ifs with hz
    · change (s.dep a src).vouchers - m = 0 at hz
      show 0 + m = (s.dep a src).vouchers
      omega
    · show (s.dep a src).vouchers - m + m = (s.dep a src).vouchers
      omega
  · unfold ptokenBalance
    dsimp only
    rw [hu]
    show (State.dep _ a dst).vouchers = s.vouchers a dst + m
    unfold State.dep
    dsimp only
    rw [upd2_same]
    show (setDep s a src ((s.dep a src).minus m)).vouchers a dst + m = _
    congr 1
    show ((upd2 s.deposits a src ((s.dep a src).minus m) a dst).getD ⟨0, false⟩).vouchers = _
    rw [upd2_of_ne _ _ (Or.inr hsd.symm)]
    rfl
  · intro q w hq hb
    unfold ptokenBalance
    dsimp only
    cases hq' : s.underlying q with
    | none => rfl
    | some b =>
      show ((upd2 _ a dst _ b w : Option Deposit).getD ⟨0, false⟩).vouchers = _
      rcases hb b hq' with h | h
      · have hba : b ≠ a := by rintro rfl; exact h hu
        rw [upd2_of_ne _ _ (Or.inl hba), upd2_of_ne _ _ (Or.inl hba)]
        rfl
      · rw [upd2_of_ne _ _ (Or.inr h.2), upd2_of_ne _ _ (Or.inr h.1)]
        rfl

/-- **C183, partial.** What is reported as free is accepted for transfer whenever the records of rewards allow it, if the balance of
the recipient does not overflow. -/
theorem C183_partial (hc : c.Ok) (h : Reach c s) {p a src dst m : Nat} (hu : s.underlying p = some a) (hm : m ≤ reducibleP c s p src) (hv : m ≤ s.vouchers a src)
    (hd : (s.books a).supply ≤ maxU128)
    {s1 s2 s3 : State} (h1 : updSupply s p = .ok s1) (h2 : distSupplier s1 p src = .ok s2) (h3 : distSupplier s2 p dst = .ok s3)
    (hsd : src ≠ dst) : ∃ s', exec c s (.transferP p src dst m) = .ok s' := by
  show ∃ s', transferP c s p src dst m = .ok s'
  unfold transferP
  simp only [bind_ok_iff, ensure_ok_iff, exists_const, pure_ok_iff, cadd_ok_iff, csub_ok_iff, underlyingId, okOr_ok_iff]
  obtain ⟨z, hz⟩ := ((updSupply_rw h1).trans (distSupplier_rw h2)).trans (distSupplier_rw h3)
  refine ⟨_, hm, s1, h1, s2, h2, s3, h3, a, by rw [hz]; exact hu, _, ⟨by rw [hz]; exact hv, rfl⟩, _, ⟨?_, rfl⟩, rfl⟩
  have e : (setDep s3 a src ((s3.dep a src).minus m)).vouchers a dst = s.vouchers a dst := by
    show ((upd2 s3.deposits a src ((s3.dep a src).minus m) a dst).getD ⟨0, false⟩).vouchers = _
    rw [upd2_of_ne _ _ (Or.inr hsd.symm), hz]
    rfl
  rw [e]
  have h4 := ((inv_reach hc h).sums a).le {src, dst}
  rw [Finset.sum_pair hsd] at h4
  omega

/-- User 8 of the example has 4000000 free vouchers of its 10000000, and user 7 can be given all of them. -/
example : reducibleP exC ex0 12 8 = 4000000 ∧ ptokenBalance ex0 12 8 = 10000000 ∧ (ex0.dep 2 8).coll = true ∧
    okAnd (exec exC ex0 (.transferP 12 8 7 4000000)) (fun t => decide (ptokenBalance t 12 8 = 6000000 ∧
      ptokenBalance t 12 7 = ptokenBalance ex0 12 7 + 4000000)) = true := by decide +kernel

end Verif.Loans
