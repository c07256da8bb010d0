import Verif.Loans.Props

/-! # Property C46: the interest rate model -/

set_option linter.unusedSimpArgs false
set_option linter.unusedVariables false

namespace Verif.Loans
open Verif

variable {c : Cfg} {s s' : State}

theorem maxU128_big : 10 ^ 38 ≤ maxU128 := by decide

/-- `d * (u * 10^12) / 10^18` does not saturate. -/
theorem fixSatMul_permill {d u : Nat} (hd : d ≤ DIV) (hu : u ≤ million) :
    fixSatMul d (ofPermill u) = d * (u * 1000000000000) / DIV := by
  unfold fixSatMul ofPermill
  apply Nat.min_eq_right
  have h1 : d * (u * 1000000000000) ≤ DIV * (million * 1000000000000) :=
    Nat.mul_le_mul hd (Nat.mul_le_mul_right _ hu)
  have h2 : DIV * (million * 1000000000000) / DIV ≤ maxU128 := by decide
  exact (Nat.div_le_div_right h1).trans h2

/-- The slope of one linear piece never exceeds its height. -/
theorem piece_le {d u ju : Nat} (hju : ju ≠ 0) (hu : u ≤ ju) :
    d * (u * 1000000000000) / DIV * DIV / (ju * 1000000000000) ≤ d := by
  apply Nat.div_le_of_le_mul
  refine (Nat.div_mul_le_self _ _).trans ?_
  rw [Nat.mul_comm]
  exact Nat.mul_le_mul_right _ (Nat.mul_le_mul_right _ hu)

theorem piece_mono {d u u' ju : Nat} (hu : u ≤ u') :
    d * (u * 1000000000000) / DIV * DIV / (ju * 1000000000000) ≤
      d * (u' * 1000000000000) / DIV * DIV / (ju * 1000000000000) :=
  Nat.div_le_div_right (Nat.mul_le_mul_right _ (Nat.div_le_div_right
    (Nat.mul_le_mul_left _ (Nat.mul_le_mul_right _ hu))))

theorem fixDiv_permill {x ju d : Nat} (hju : ju ≠ 0) (h1 : x * DIV / (ju * 1000000000000) ≤ d) (hd : d ≤ maxU128) :
    fixDiv x (ofPermill ju) = some (x * DIV / (ju * 1000000000000)) := by
  have h3 : ofPermill ju ≠ 0 := Nat.mul_ne_zero hju (by decide)
  unfold ofPermill at h3 ⊢
  rw [fixDiv_iff]
  exact ⟨h3, h1.trans hd, rfl⟩

theorem half_le_DIV : (500000000000000000 : Nat) ≤ DIV := by decide
theorem half_le_max : (500000000000000000 : Nat) ≤ maxU128 := by decide

theorem bind3 {lo x y : Nat} {d q : Option Nat} (hd : d = some x) (hq : q = some y) (hy : y + lo ≤ maxU128)
    (f : Nat → Option Nat) (hf : f x = q) : (d.bind fun z => (f z).bind fun q => oadd q lo) = some (lo + y) := by
  subst hd
  simp only [Option.bind_some, hf, hq]
  rw [oadd_iff]
  exact ⟨hy, Nat.add_comm _ _⟩

/-- One linear piece of the jump model, computed. -/
theorem piece_eq {lo hi u ju : Nat} (hh : hi ≤ 500000000000000000) (hl : lo ≤ hi) (hju : ju ≠ 0)
    (hjm : ju ≤ million) (hu : u ≤ ju) :
    (do let d ← osub hi lo
        let q ← fixDiv (fixSatMul d (ofPermill u)) (ofPermill ju)
        oadd q lo : Option Nat) =
      some (lo + (hi - lo) * (u * 1000000000000) / DIV * DIV / (ju * 1000000000000)) := by
  have h0 : hi - lo ≤ DIV := (Nat.sub_le _ _).trans (hh.trans half_le_DIV)
  have h1 := piece_le (d := hi - lo) hju hu
  have h5 := fixDiv_permill (x := (hi - lo) * (u * 1000000000000) / DIV) hju h1
    ((Nat.sub_le _ _).trans (hh.trans half_le_max))
  rw [← fixSatMul_permill h0 (hu.trans hjm)] at h5 h1 ⊢
  refine bind3 (osub_iff.2 ⟨hl, rfl⟩) h5 ?_ _ rfl
  generalize fixSatMul (hi - lo) (ofPermill u) * DIV / (ju * 1000000000000) = q at h1
  have := half_le_max
  omega

/-- The rate of an accepted jump model, written out. -/
theorem jump_eq {base jmp full ju u : Nat} (hc : (RateModel.jump base jmp full ju).check = true)
    (hju : ju ≤ million) (hu : u ≤ million) (h0 : ju ≠ 0 ∨ u ≠ 0) :
    (RateModel.jump base jmp full ju).borrowRate u = some (if u ≤ ju then
      base + (jmp - base) * (u * 1000000000000) / DIV * DIV / (ju * 1000000000000) else
      jmp + (full - jmp) * ((u - ju) * 1000000000000) / DIV * DIV / ((million - ju) * 1000000000000)) := by
  simp only [RateModel.check, decide_eq_true_eq] at hc
  obtain ⟨h1, h2, h3, h4, h5⟩ := hc
  simp only [RateModel.borrowRate]
  split_ifs with hle
  · exact piece_eq (by omega) h4 (by omega) hju hle
  · exact piece_eq h3 h5 (by omega) (by omega) (by omega)

/-- **C46** What is accepted: a base rate of at most 10%, a rate at the jump of at most 30% and a rate at full utilization of
at most 50%, in ascending order; for a curve, a base rate of at most 10% (rates have 18 decimals). -/
theorem C46_accepts {base jmp full ju : Nat} :
    ((RateModel.jump base jmp full ju).check = true ↔ 100 * base ≤ 10 * 10 ^ 18 ∧ 100 * jmp ≤ 30 * 10 ^ 18 ∧
      100 * full ≤ 50 * 10 ^ 18 ∧ base ≤ jmp ∧ jmp ≤ full) ∧
    ((RateModel.curve base).check = true ↔ 100 * base ≤ 10 * 10 ^ 18) := by
  unfold RateModel.check
  simp only [decide_eq_true_eq]
  constructor <;> omega

/-- **C46** Every accepted jump model has a borrow rate between its base rate and its full rate at every utilization,
unless both the jump utilization and the utilization are zero. -/
theorem C46_jump_bounded {base jmp full ju u : Nat} (hc : (RateModel.jump base jmp full ju).check = true)
    (hju : ju ≤ million) (hu : u ≤ million) (h0 : ju ≠ 0 ∨ u ≠ 0) :
    ∃ r, (RateModel.jump base jmp full ju).borrowRate u = some r ∧ base ≤ r ∧ r ≤ full ∧
      (u ≤ ju → r ≤ jmp) ∧ (ju < u → jmp ≤ r) := by
  refine ⟨_, jump_eq hc hju hu h0, ?_⟩
  simp only [RateModel.check, decide_eq_true_eq] at hc
  obtain ⟨h1, h2, h3, h4, h5⟩ := hc
  split_ifs with hle
  · have := piece_le (d := jmp - base) (u := u) (ju := ju) (by omega) hle
    generalize (jmp - base) * (u * 1000000000000) / DIV * DIV / (ju * 1000000000000) = q at this
    omega
  · have := piece_le (d := full - jmp) (u := u - ju) (ju := million - ju) (by omega) (by omega)
    generalize (full - jmp) * ((u - ju) * 1000000000000) / DIV * DIV / ((million - ju) * 1000000000000) = q at this
    omega

/-- **C46** ... and it is non-decreasing in the utilization. -/
theorem C46_jump_monotone {base jmp full ju u u' r r' : Nat} (hc : (RateModel.jump base jmp full ju).check = true)
    (hju : ju ≤ million) (huu : u ≤ u') (hu : u' ≤ million)
    (hr : (RateModel.jump base jmp full ju).borrowRate u = some r)
    (hr' : (RateModel.jump base jmp full ju).borrowRate u' = some r') : r ≤ r' := by
  by_cases h0 : ju = 0 ∧ u = 0
  · obtain ⟨rfl, rfl⟩ := h0
    simp [RateModel.borrowRate, ofPermill, fixDiv] at hr
  · have e1 := jump_eq hc hju (huu.trans hu) (by omega)
    have e2 := jump_eq hc hju hu (by omega)
    obtain ⟨_, b1, _, _, b2, _⟩ := C46_jump_bounded hc hju (huu.trans hu) (u := u) (by omega)
    obtain ⟨_, b1', _, _, _, b2'⟩ := C46_jump_bounded hc hju hu (by omega)
    rw [hr] at b1
    rw [hr'] at b1'
    cases b1
    cases b1'
    rw [hr] at e1
    rw [hr'] at e2
    injection e1 with e1
    injection e2 with e2
    by_cases h1 : u' ≤ ju
    · rw [if_pos h1] at e2
      rw [if_pos (by omega)] at e1
      rw [e1, e2]
      exact Nat.add_le_add_left (piece_mono huu) _
    · by_cases h2 : u ≤ ju
      · exact (b2 h2).trans (b2' (by omega))
      · rw [if_neg h1] at e2
        rw [if_neg h2] at e1
        rw [e1, e2]
        exact Nat.add_le_add_left (piece_mono (by omega)) _

/-- A model with 10% at 0, 20% at 80% and 50% at full utilization is accepted; values at 0, 40%, 80%, 90%, 100%. -/
example : let m := RateModel.jump 100000000000000000 200000000000000000 500000000000000000 800000
    m.check = true ∧ [0, 400000, 800000, 900000, 1000000].map m.borrowRate =
      [some 100000000000000000, some 150000000000000000, some 200000000000000000, some 350000000000000000,
        some 500000000000000000] := by decide +kernel

/-- Saturating multiplication is monotone, and multiplying with a number below 1 does not increase. -/
theorem fixSatMul_mono {a a' b b' : Nat} (h1 : a ≤ a') (h2 : b ≤ b') : fixSatMul a b ≤ fixSatMul a' b' := by
  unfold fixSatMul
  have := Nat.div_le_div_right (c := DIV) (Nat.mul_le_mul h1 h2)
  omega
theorem fixSatMul_le {a b : Nat} (h : b ≤ DIV) : fixSatMul a b ≤ a := by
  unfold fixSatMul
  refine (Nat.min_le_right _ _).trans (Nat.div_le_of_le_mul ?_)
  rw [Nat.mul_comm DIV]
  exact Nat.mul_le_mul_left _ h
theorem ofPermill_le {u : Nat} (h : u ≤ million) : ofPermill u ≤ DIV :=
  (Nat.mul_le_mul_right _ h).trans (by decide)

theorem pow9_mono {u u' : Nat} (h : u ≤ u') : pow9 u ≤ pow9 u' := by
  unfold pow9
  have h1 : fixSatMul DIV u ≤ fixSatMul DIV u' := fixSatMul_mono (Nat.le_refl _) h
  have h2 := fixSatMul_mono h h
  have h3 := fixSatMul_mono h2 h2
  exact fixSatMul_mono h1 (fixSatMul_mono h3 h3)

theorem pow9_le {u : Nat} (h : u ≤ DIV) : pow9 u ≤ u := by
  unfold pow9
  have h1 : fixSatMul DIV u ≤ u := by
    unfold fixSatMul
    refine (Nat.min_le_right _ _).trans ?_
    rw [Nat.mul_div_cancel_left _ DIV_pos]
  have h2 := (fixSatMul_le h).trans h
  have h3 := (fixSatMul_le h2).trans h2
  have h4 := (fixSatMul_le h3).trans h3
  exact (fixSatMul_le h4).trans h1

/-- **C46** The curve model lies between its base rate and 100% above it and is non-decreasing. -/
theorem C46_curve {base u u' : Nat} (hc : (RateModel.curve base).check = true) (huu : u ≤ u') (hu : u' ≤ million) :
    ∃ r r', (RateModel.curve base).borrowRate u = some r ∧ (RateModel.curve base).borrowRate u' = some r' ∧
      base ≤ r ∧ r ≤ r' ∧ r' ≤ base + DIV := by
  simp only [RateModel.check, decide_eq_true_eq] at hc
  have h1 := pow9_le (ofPermill_le hu)
  have h2 := pow9_le (ofPermill_le (huu.trans hu))
  have h3 := ofPermill_le hu
  have h4 := ofPermill_le (huu.trans hu)
  have h5 : 2 * DIV ≤ maxU128 := by decide
  have h6 : (100000000000000000 : Nat) ≤ DIV := by decide
  have h7 : pow9 (ofPermill u) ≤ pow9 (ofPermill u') := pow9_mono (Nat.mul_le_mul_right _ huu)
  refine ⟨_, _, oadd_iff.2 ⟨?_, rfl⟩, oadd_iff.2 ⟨?_, rfl⟩, ?_, ?_, ?_⟩ <;> omega

/-- **C46** The supply rate never exceeds the borrow rate, for every utilization and every reserve factor. -/
theorem C46_supply_le_borrow {rate u rf : Nat} (hu : u ≤ million) : supplyRate rate u rf ≤ rate := by
  unfold supplyRate
  exact (fixSatMul_le (ofPermill_le hu)).trans (fixSatMul_le (ofPermill_le (Nat.sub_le _ _)))

/-- **C46** The utilization computed by the pallet is never above 100%, so the bounds above apply. -/
theorem C46_utilization_le {k b v u : Nat} (h : utilization k b v = .ok u) : u ≤ million := by
  unfold utilization at h
  split_ifs at h
  · cases h; decide
  · simp only [bind_ok_iff, cadd_ok_iff, csub_ok_iff, pure_ok_iff] at h
    obtain ⟨_, _, t, _, rfl⟩ := h
    exact permillFromRational_le _ _

/-- **C46** The rates an accrual stores come from the market's model and the supply rate is not above the borrow rate. -/
theorem C46_stored_rates {a : Nat} {mk : Market} (hm : s.markets a = some mk)
    (h0 : (s.books a).lastTime ≠ 0) (ht : (s.books a).lastTime < s.time) (h : accrue c s a = .ok s') :
    ∃ u, u ≤ million ∧ mk.model.borrowRate u = some (s'.books a).borrowRate ∧ (s'.books a).util = u ∧
      (s'.books a).supplyRate ≤ (s'.books a).borrowRate := by
  unfold accrue at h
  rw [if_neg h0, if_neg (by omega)] at h
  simp only [bind_ok_iff, pure_ok_iff, marketStatus, okOr_ok_iff, market_ok] at h
  obtain ⟨b, ⟨m, hm', u, hu, br, hbr, x, hx, r, hr, rfl⟩, rfl⟩ := h
  rw [hm] at hm'
  cases hm'
  have hul := C46_utilization_le hu
  refine ⟨u, hul, ?_, ?_, ?_⟩
  · simpa [setBook] using hbr
  · simp [setBook]
  · simp only [setBook, upd_same]
    exact C46_supply_le_borrow hul

/-- **C46** A jump utilization of zero passes the check, but makes accrual fail for as long as nobody borrows: no deposit,
redemption or loan is possible in such a market from the second block on. -/
theorem C46_zero_jump_blocks {a base jmp full : Nat} {mk : Market} (hm : s.markets a = some mk)
    (hmod : mk.model = .jump base jmp full 0) (hb : (s.books a).borrows = 0)
    (h0 : (s.books a).lastTime ≠ 0) (ht : (s.books a).lastTime < s.time) :
    (∀ w m, exec c s (.mint w a m) ≠ .ok s') ∧ (∀ w m, exec c s (.redeem w a m) ≠ .ok s') ∧
    (∀ w, exec c s (.redeemAll w a) ≠ .ok s') ∧ (∀ w m, exec c s (.borrow w a m) ≠ .ok s') := by
  have key : ∀ t, accrue c s a ≠ .ok t := by
    intro t h
    unfold accrue at h
    rw [if_neg h0, if_neg (by omega)] at h
    simp only [bind_ok_iff, pure_ok_iff, marketStatus, okOr_ok_iff, market_ok] at h
    obtain ⟨b, ⟨m, hm', u, hu, br, hbr, _⟩, _⟩ := h
    rw [hm] at hm'
    cases hm'
    unfold utilization at hu
    rw [if_pos hb] at hu
    cases hu
    rw [hmod] at hbr
    simp [RateModel.borrowRate, ofPermill, fixDiv] at hbr
  refine ⟨?_, ?_, ?_, ?_⟩
  · intro w m h
    obtain ⟨_, _, _, _, _, _, _, _, _, _, h, _⟩ := mint_view h
    exact key _ h
  · intro w m h
    obtain ⟨_, _, h, _⟩ := redeem_redeemed h
    exact key _ h
  · intro w h
    obtain ⟨_, _, _, _, _, _, _, _, h, _⟩ := (redeemAll_redeemed h).view
    exact key _ h
  · intro w m h
    obtain ⟨_, _, _, _, _, _, _, h, _⟩ := borrow_view h
    exact key _ h

/-- A chain with one such market and one supplier, a second later. -/
def exZ : State := pass (run exC (State.fresh exL exPrices 1000 10)
  [.addMarket 1 { exMarket 11 with model := .jump 20000000000000000 100000000000000000 320000000000000000 0 },
    .activate 1, .mint 7 1 1000]) exPrices 1 1
theorem exZ_reach : Reach exC exZ := pass_reach exC_ok (run_reach (.init exL exPrices 1000 10 exL_wf) (by
  intro k hk
  simp only [List.mem_cons, List.not_mem_nil, or_false] at hk
  rcases hk with rfl | rfl | rfl <;> simp [Call.wt, Market.wt, exMarket, million, Call.signers, exC]))

example : (exZ.books 1).borrows = 0 ∧ (exZ.books 1).lastTime = 1000 ∧ exZ.time = 1001 ∧ exZ.vouchers 1 7 = 50000 ∧
    errIs (exec exC exZ (.redeemAll 7 1)) .overflow = true := by decide +kernel

end Verif.Loans
