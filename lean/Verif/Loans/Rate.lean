import Verif.Prelude.Fixed

/-!
# Model of `pallets/loans/src/rate_model.rs`

Rates are inner values of `FixedU128` (`1.0 = 10^18`), ratios are `Permill` parts (`1.0 = 10^6`).
-/

namespace Verif.Loans
open Verif

/-- `InterestRateModel`, `JumpModel`, `CurveModel`, rate_model.rs:24-27, 87-96, 163-165. -/
inductive RateModel where
  | jump (base jmp full ju : Nat)
  | curve (base : Nat)
deriving DecidableEq

/-- `check_model`, rate_model.rs:59-64, 119-131, 176-178: maximal rates 10%, 30%, 50%. -/
def RateModel.check : RateModel → Bool
  | .jump base jmp full _ => decide (base ≤ 100000000000000000 ∧ jmp ≤ 300000000000000000 ∧
      full ≤ 500000000000000000 ∧ base ≤ jmp ∧ jmp ≤ full)
  | .curve base => decide (base ≤ 100000000000000000)

/-- `FixedU128::saturating_pow(9)`: binary powering, 9 = 0b1001 (rate_model.rs:181-187). -/
def pow9 (u : Nat) : Nat :=
  let r := fixSatMul DIV u
  let p2 := fixSatMul u u
  let p4 := fixSatMul p2 p2
  let p8 := fixSatMul p4 p4
  fixSatMul r p8

/-- `get_borrow_rate`, rate_model.rs:67-72, 134-157, 181-187. -/
def RateModel.borrowRate (m : RateModel) (u : Nat) : Option Nat := match m with
  | .jump base jmp full ju =>
    if u ≤ ju then do
      let d ← osub jmp base
      let q ← fixDiv (fixSatMul d (ofPermill u)) (ofPermill ju)
      oadd q base
    else do
      let d ← osub full jmp
      let q ← fixDiv (fixSatMul d (ofPermill (u - ju))) (ofPermill (million - ju))
      oadd q jmp
  | .curve base => oadd (pow9 (ofPermill u)) base

/-- `get_supply_rate`, rate_model.rs:75-81. -/
def supplyRate (rate u rf : Nat) : Nat := fixSatMul (fixSatMul rate (ofPermill (million - rf))) (ofPermill u)

end Verif.Loans
