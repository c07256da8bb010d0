import Verif.Loans.RateProps
import Verif.Loans.Props

/-!
# C111: what accrual computes
-/

set_option linter.unusedSimpArgs false
set_option linter.unusedVariables false

namespace Verif.Loans
open Verif

variable {c : Cfg} {s s' : State}

/-! ### Specification -/

/-- The share of the market's funds that is lent out, in millionths: lent / (cash + lent - reserves). -/
def utilOf (c : Cfg) (s : State) (a : Nat) : Nat :=
  if (s.books a).borrows = 0 then 0
  else permillFromRational (s.books a).borrows (s.ledger.bal a c.acct + (s.books a).borrows - (s.books a).reserves)

/-- Interest on `amount` at the annual rate `rate` (scaled by `10^18`) over `dt` seconds, rounded down twice. -/
def interest (rate amount dt : Nat) : Nat := rate * amount / DIV * dt / secondsPerYear

theorem accruedInterest_iff {rate amount dt y : Nat} :
    accruedInterest rate amount dt = some y ↔
      rate * amount / DIV ≤ maxU128 ∧ rate * amount / DIV * dt ≤ maxU128 ∧ y = interest rate amount dt := by
  unfold accruedInterest interest
  have hy : secondsPerYear ≠ 0 := by decide
  simp only [Option.bind_eq_bind, Option.bind_eq_some_iff, fixMulInt_iff, omul, odiv, if_neg hy]
  constructor
  · rintro ⟨_, ⟨h1, rfl⟩, z, hz, h2⟩
    split_ifs at hz with hm
    cases hz
    cases h2
    exact ⟨h1, hm, rfl⟩
  · rintro ⟨h1, h2, rfl⟩
    exact ⟨_, ⟨h1, rfl⟩, _, if_pos h2, rfl⟩

theorem incrementIndex_iff {rate ix dt y : Nat} (hd : dt ≤ maxU64) :
    incrementIndex rate ix dt = some y ↔
      rate * ix / DIV ≤ maxU128 ∧ rate * ix / DIV * dt ≤ maxU128 ∧ y = interest rate ix dt := by
  have hs : dt * DIV ≤ maxU128 := by
    have h1 : maxU64 * DIV ≤ maxU128 := by decide +kernel
    exact Nat.le_trans (Nat.mul_le_mul_right _ hd) h1
  have hy : secondsPerYear * DIV ≠ 0 := by decide +kernel
  have e1 : ∀ x, x * (dt * DIV) / DIV = x * dt := by
    intro x
    rw [← Nat.mul_assoc, Nat.mul_div_cancel _ DIV_pos]
  have e2 : ∀ x, x * DIV / (secondsPerYear * DIV) = x / secondsPerYear := by
    intro x
    exact Nat.mul_div_mul_right _ _ DIV_pos
  unfold incrementIndex interest
  rw [Nat.min_eq_right hs]
  simp only [Option.bind_eq_bind, Option.bind_eq_some_iff, fixMul_iff, fixDiv_iff, e1, e2]
  constructor
  · rintro ⟨_, ⟨h1, rfl⟩, _, ⟨h2, rfl⟩, _, _, rfl⟩
    exact ⟨h1, h2, rfl⟩
  · rintro ⟨h1, h2, rfl⟩
    exact ⟨_, ⟨h1, rfl⟩, _, ⟨h2, rfl⟩, hy, Nat.le_trans (Nat.div_le_self _ _) h2, rfl⟩

theorem utilization_iff {a u : Nat} :
    utilization (cash c s a) (s.books a).borrows (s.books a).reserves = .ok u ↔
      ((s.books a).borrows = 0 ∨ s.ledger.bal a c.acct + (s.books a).borrows ≤ maxU128 ∧
        (s.books a).reserves ≤ s.ledger.bal a c.acct + (s.books a).borrows) ∧ u = utilOf c s a := by
  unfold utilization utilOf
  rw [cash_eq]
  split_ifs with h0
  · simp [h0, eq_comm]
  · simp only [bind_ok_iff, cadd_ok_iff, csub_ok_iff, pure_ok_iff, h0, false_or]
    constructor
    · rintro ⟨_, ⟨h1, rfl⟩, _, ⟨h2, rfl⟩, rfl⟩
      exact ⟨⟨h1, h2⟩, rfl⟩
    · rintro ⟨⟨h1, h2⟩, rfl⟩
      exact ⟨_, ⟨h1, rfl⟩, _, ⟨h2, rfl⟩, rfl⟩

/-! ## C111 -/

/-- **C111** (a) Accrual over `dt` seconds charges exactly the interest of the model's rate at the current utilization
on everything lent out, books the reserve factor's share (rounded down) as reserves, advances the borrow index by the
same interest, publishes the rates, and changes nothing else. -/
theorem C111_interest_exact {a : Nat} {mk : Market} (hm : s.markets a = some mk) (ht : s.time ≤ maxU64)
    (h0 : (s.books a).lastTime ≠ 0) (hlt : (s.books a).lastTime < s.time) (he : accrue c s a = .ok s') :
    ∃ br, mk.model.borrowRate (utilOf c s a) = some br ∧
      s'.books a = {
        supply := (s.books a).supply
        borrows := (s.books a).borrows + interest br (s.books a).borrows (s.time - (s.books a).lastTime)
        reserves := (s.books a).reserves +
          interest br (s.books a).borrows (s.time - (s.books a).lastTime) * mk.rf / million
        index := (s.books a).index + interest br (s.books a).index (s.time - (s.books a).lastTime)
        rate := xrate c s' a
        borrowRate := br
        supplyRate := supplyRate br (utilOf c s a) mk.rf
        util := utilOf c s a
        lastTime := s.time } ∧
      s' = { s with books := s'.books } ∧ (∀ b, b ≠ a → s'.books b = s.books b) := by
  unfold accrue at he
  rw [if_neg h0, if_neg (Nat.not_le.2 hlt)] at he
  simp only [marketStatus, bind_ok_iff, pure_ok_iff, okOr_ok_iff, market_ok, utilization_iff] at he
  obtain ⟨b, ⟨mk', hm', u, ⟨hu, rfl⟩, br, hbr, x, hx, r, hr, rfl⟩, rfl⟩ := he
  rw [hm] at hm'; cases hm'
  have hdt : s.time - (s.books a).lastTime ≤ maxU64 := by omega
  unfold advance at hx
  rw [if_pos hlt] at hx
  simp only [bind_ok_iff, okOr_ok_iff, cadd_ok_iff, pure_ok_iff, accruedInterest_iff, incrementIndex_iff hdt] at hx
  obtain ⟨i, ⟨_, _, rfl⟩, tb, ⟨_, rfl⟩, tr, ⟨_, rfl⟩, j, ⟨_, _, rfl⟩, ix, ⟨_, rfl⟩, rfl⟩ := hx
  refine ⟨br, hbr, ?_, rfl, fun b hb => upd_of_ne _ _ hb⟩
  have hb : ∀ B : Book, (setBook s a B).books a = B := fun B => upd_same _ _ _
  rw [hb]
  have hrx : r = xrate c (setBook s a { s.books a with
      borrows := interest br (s.books a).borrows (s.time - (s.books a).lastTime) + (s.books a).borrows,
      reserves := pmulFloor mk.rf (interest br (s.books a).borrows (s.time - (s.books a).lastTime)) + (s.books a).reserves }) a := by
    apply rateStored_xrate
    unfold rateStored
    rw [hb]
    exact hr
  have hx : ∀ B B' : Book, B.supply = B'.supply → B.borrows = B'.borrows → B.reserves = B'.reserves →
      xrate c (setBook s a B) a = xrate c (setBook s a B') a := by
    intro B B' h1 h2 h3
    unfold xrate net
    rw [hb, hb, h1, h2, h3]
    rfl
  rw [hrx]
  congr 1
  · exact Nat.add_comm _ _
  · unfold pmulFloor; exact Nat.add_comm _ _
  · exact Nat.add_comm _ _
  · exact hx _ _ rfl rfl rfl

/-- **C111** (b) The first touch of a market only starts its clock. -/
theorem C111_first_touch {a : Nat} (h0 : (s.books a).lastTime = 0) (he : accrue c s a = .ok s') :
    s'.books a = { s.books a with lastTime := s.time } ∧ s' = { s with books := s'.books } ∧
      (∀ b, b ≠ a → s'.books b = s.books b) := by
  unfold accrue at he
  rw [if_pos h0] at he
  cases he
  exact ⟨upd_same _ _ _, rfl, fun b hb => upd_of_ne _ _ hb⟩

/-- **C111** (c) Rounding never favours the market by a whole year-unit: interest is at most the annual rate times the
elapsed share of the year, and short of it by less than one unit plus one unit per year elapsed. -/
theorem C111_interest_rounding (rate amount dt : Nat) :
    interest rate amount dt * (secondsPerYear * DIV) ≤ rate * amount * dt ∧
    rate * amount * dt < (interest rate amount dt + 1) * (secondsPerYear * DIV) + dt * DIV := by
  unfold interest
  have hy : 0 < secondsPerYear := by decide
  have hD := DIV_pos
  generalize secondsPerYear = Y at *
  have h1 : rate * amount / DIV * DIV ≤ rate * amount := Nat.div_mul_le_self _ _
  have h2 : rate * amount < (rate * amount / DIV + 1) * DIV := by
    rw [Nat.mul_comm _ DIV]; exact Nat.lt_mul_div_succ _ hD
  have h3 : rate * amount / DIV * dt / Y * Y ≤ rate * amount / DIV * dt := Nat.div_mul_le_self _ _
  have h4 : rate * amount / DIV * dt < (rate * amount / DIV * dt / Y + 1) * Y := by
    rw [Nat.mul_comm _ Y]; exact Nat.lt_mul_div_succ _ hy
  generalize rate * amount = x at *
  generalize x / DIV = q at *
  generalize q * dt / Y = i at *
  generalize DIV = D at *
  constructor
  · calc i * (Y * D) = i * Y * D := by ring
      _ ≤ q * dt * D := Nat.mul_le_mul_right _ h3
      _ = q * D * dt := by ring
      _ ≤ x * dt := Nat.mul_le_mul_right _ h1
  · calc x * dt ≤ (q + 1) * D * dt := Nat.mul_le_mul_right _ (Nat.le_of_lt h2)
      _ = q * dt * D + dt * D := by ring
      _ < (i + 1) * Y * D + dt * D := Nat.add_lt_add_right (Nat.mul_lt_mul_of_pos_right h4 hD) _
      _ = _ := by ring

/-- A year at a utilization of 60%: the fixture meets the hypotheses, and 8% on 60000 are 4800, 15% of which are reserves. -/
example : ex1.markets 1 ≠ none ∧ ex1.time ≤ maxU64 ∧ (ex1.books 1).lastTime ≠ 0 ∧ (ex1.books 1).lastTime < ex1.time ∧
    utilOf exC ex1 1 = 600000 ∧ okAnd (accrue exC ex1 1) (fun t => decide ((t.books 1).borrows = 64800 ∧
      (t.books 1).reserves = 720 ∧ (t.books 1).borrowRate = 80000000000000000)) = true := by decide +kernel

end Verif.Loans
