import Verif.Prelude.Basic

/-!
# C220: what a transaction costs

`runtime/common/src/constants.rs` turns weights into fees and `runtime/parallel/src/lib.rs:770-783` (the same lines in the three
other runtimes) hands this to `pallet_transaction_payment`.  `ExtrinsicBaseWeight`, the arithmetic of `sp_arithmetic::Perbill`,
`WeightToFeePolynomial::weight_to_fee` and `compute_fee` are not in the repository: the weight is a parameter, the rest is
modelled from outside knowledge (release v0.9.38), as said at each definition.
-/

namespace Verif.Runtime.Fee

/-- `MILLICENTS` (`runtime/common/src/constants.rs:18`). -/
def millicents : Nat := 10000000

/-- `CENTS` (`runtime/common/src/constants.rs:19`). -/
def cents : Nat := 1000 * millicents

/-- `DOLLARS` (`runtime/common/src/constants.rs:20`). -/
def dollars : Nat := 100 * cents

/-- `deposit` (`runtime/common/src/constants.rs:22-24`): `u32` arguments, the products fit in `u128`. -/
def deposit (items bytes : Nat) : Nat := items * 15 * cents + bytes * 6 * cents

/-- Saturating addition of `u128`. -/
def satAdd (a b : Nat) : Nat := min (a + b) maxU128

/-- Saturating multiplication of `u128`. -/
def satMul (a b : Nat) : Nat := min (a * b) maxU128

/-- `Perbill::from_rational(p, q)` for `p < q`, in parts: rounded down. -/
def perbill (p q : Nat) : Nat := p * 1000000000 / q

/-- `Perbill * u128`: to the nearest number, halves down. -/
def perbillMul (part x : Nat) : Nat :=
  x * part / 1000000000 + if 500000000 < x * part % 1000000000 then 1 else 0

/-- One term of degree one of a `WeightToFeePolynomial` (`coeff_integer`, parts of `coeff_frac`). -/
structure Term where
  integer : Nat
  frac : Nat
deriving DecidableEq

/-- `WeightToFee::polynomial` (`runtime/common/src/constants.rs:71-82`); `q` is `ExtrinsicBaseWeight`. -/
def polynomial (q : Nat) : Term :=
  let p := cents * 12
  ⟨p / q, perbill (p % q) q⟩

/-- `weight_to_fee` of `WeightToFeePolynomial` for this polynomial: `acc + frac`, then `acc + integer`. -/
def weightToFee (q w : Nat) : Nat :=
  satAdd (satAdd 0 (perbillMul (polynomial q).frac w)) (satMul (polynomial q).integer w)

/-- `TransactionByteFee` (`runtime/parallel/src/lib.rs:771`). -/
def byteFee : Nat := 1 * millicents

/-- `LengthToFee = ConstantMultiplier<Balance, TransactionByteFee>` (`runtime/parallel/src/lib.rs:780`). -/
def lengthToFee (len : Nat) : Nat := satMul len byteFee

/-- `compute_fee` of `pallet_transaction_payment` (outside knowledge) for a paying transaction: base fee, length fee, the weight
fee adjusted by the multiplier (a `FixedU128` with raw value `mult`, `saturating_mul_int`), and the tip.  Weights are capped by
the maximal block weight before: `w` is the capped weight. -/
def computeFee (q len w mult tip : Nat) : Nat :=
  satAdd (satAdd (satAdd (weightToFee q q) (lengthToFee len))
    (min (mult * weightToFee q w / 1000000000000000000) maxU128)) tip

/-! ## Lemmas -/

theorem perbillMul_bounds (part x : Nat) :
    2 * (x * part) ≤ 2 * 1000000000 * perbillMul part x + 1000000000 ∧
    2 * 1000000000 * perbillMul part x ≤ 2 * (x * part) + 1000000000 := by
  unfold perbillMul
  generalize x * part = n
  split <;> omega

/-- Rounded to the nearest number, halves down. -/
theorem perbillMul_eq (part x : Nat) : perbillMul part x = (x * part + 499999999) / 1000000000 := by
  unfold perbillMul
  generalize x * part = n
  split <;> omega

theorem perbillMul_mono (part : Nat) {x y : Nat} (h : x ≤ y) : perbillMul part x ≤ perbillMul part y := by
  have hm : x * part ≤ y * part := Nat.mul_le_mul_right _ h
  unfold perbillMul
  generalize x * part = a at hm ⊢
  generalize y * part = b at hm ⊢
  split <;> split <;> omega

theorem perbillMul_le (part x : Nat) (h : part ≤ 1000000000) : perbillMul part x ≤ x := by
  have h1 : x * part ≤ x * 1000000000 := Nat.mul_le_mul_left _ h
  unfold perbillMul
  generalize x * part = n at h1
  split <;> omega

theorem perbill_le (p q : Nat) : perbill (p % q) q ≤ 1000000000 := by
  unfold perbill
  rcases Nat.eq_zero_or_pos q with rfl | hq
  · simp
  · have h := Nat.mod_lt p hq
    exact (Nat.div_le_iff_le_mul_add_pred hq).2 (by nlinarith)

/-- Nothing saturates for a weight of 64 bits. -/
theorem weightToFee_eq {q w : Nat} (hw : w ≤ maxU64) :
    weightToFee q w = perbillMul (polynomial q).frac w + (polynomial q).integer * w := by
  have h1 : perbillMul (polynomial q).frac w ≤ w := perbillMul_le _ _ (perbill_le _ _)
  have h2 : (polynomial q).integer ≤ 120000000000 := Nat.div_le_self _ _
  have h3 : (polynomial q).integer * w ≤ 120000000000 * 18446744073709551615 := Nat.mul_le_mul h2 hw
  unfold weightToFee satAdd satMul
  unfold maxU64 at hw
  unfold maxU128
  generalize (polynomial q).integer * w = m at *
  generalize perbillMul (polynomial q).frac w = k at *
  omega

/-! ## Theorems -/

/-- **C220.** The weight fee is proportional to the weight, at 12 cents (0.12 tokens) per base extrinsic, up to one part in
10^9 of the weight and half a unit of rounding; the rounding is never to the payer's disadvantage by more than half a unit. -/
theorem C220_proportional {q w : Nat} (hq : 0 < q) (hw : w ≤ maxU64) :
    2 * q * weightToFee q w ≤ 2 * (120000000000 * w) + q ∧
    2 * 1000000000 * (120000000000 * w) ≤ 2 * 1000000000 * (q * weightToFee q w) + 1000000000 * q + 2 * (q * w) := by
  rw [weightToFee_eq hw]
  obtain ⟨h1, h2⟩ := perbillMul_bounds (polynomial q).frac w
  have hp : cents * 12 = 120000000000 := by decide
  have hi : (polynomial q).integer = 120000000000 / q := by unfold polynomial; rw [hp]
  have hf : (polynomial q).frac = (120000000000 % q) * 1000000000 / q := by unfold polynomial perbill; rw [hp]
  have hd := Nat.div_add_mod 120000000000 q
  rw [hi]
  generalize (polynomial q).frac = f at *
  generalize 120000000000 / q = i at *
  generalize 120000000000 % q = r at *
  generalize perbillMul f w = k at *
  have f1 : q * f ≤ r * 1000000000 := by rw [hf]; exact Nat.mul_div_le _ _
  have f2 : r * 1000000000 ≤ q * f + q := by
    rw [hf]
    have := Nat.lt_mul_div_succ (r * 1000000000) hq
    nlinarith
  have g1 : q * f * w ≤ r * 1000000000 * w := Nat.mul_le_mul_right _ f1
  have g2 : r * 1000000000 * w ≤ (q * f + q) * w := Nat.mul_le_mul_right _ f2
  have k1 : q * (2 * (w * f)) ≤ q * (2 * 1000000000 * k + 1000000000) := Nat.mul_le_mul_left _ h1
  have k2 : q * (2 * 1000000000 * k) ≤ q * (2 * (w * f) + 1000000000) := Nat.mul_le_mul_left _ h2
  have e : 120000000000 * w = q * i * w + r * w := by rw [← hd]; ring
  constructor
  · rw [e]
    have : 1000000000 * (2 * q * (k + i * w)) ≤ 1000000000 * (2 * (q * i * w + r * w) + q) := by nlinarith
    exact Nat.le_of_mul_le_mul_left this (by decide)
  · rw [e]; nlinarith

/-- **C220 (base).** An extrinsic of the base weight costs 12 cents, or one unit (of 10^12 in a token) less. -/
theorem C220_base {q : Nat} (hq : 0 < q) (h : q ≤ 500000000) :
    weightToFee q q = 120000000000 ∨ weightToFee q q = 119999999999 := by
  obtain ⟨h1, h2⟩ := C220_proportional (w := q) hq (h.trans (by decide))
  generalize weightToFee q q = f at *
  have a : q * (2 * f) ≤ q * (2 * 120000000000 + 1) := by nlinarith
  have b : q * (2 * 1000000000 * 120000000000) ≤ q * (2 * 1000000000 * f + 1000000000 + 2 * q) := by nlinarith
  have a' := Nat.le_of_mul_le_mul_left a hq
  have b' := Nat.le_of_mul_le_mul_left b hq
  omega

/-- **C220 (monotone).** A heavier call never has a smaller weight fee. -/
theorem C220_monotone {q w w' : Nat} (h : w ≤ w') (hw : w' ≤ maxU64) : weightToFee q w ≤ weightToFee q w' := by
  rw [weightToFee_eq hw, weightToFee_eq (h.trans hw)]
  exact Nat.add_le_add (perbillMul_mono _ h) (Nat.mul_le_mul_left _ h)

/-- **C220 (no free weight).** Every unit of weight costs something. -/
theorem C220_positive {q w : Nat} (hq : 0 < q) (h : q ≤ 120000000000) (hw : w ≤ maxU64) : w ≤ weightToFee q w := by
  rw [weightToFee_eq hw]
  have h1 : 1 ≤ (polynomial q).integer := (Nat.le_div_iff_mul_le hq).2 (by
    have : cents * 12 = 120000000000 := by decide
    omega)
  nlinarith

/-- **C220 (whole fee).** No paying transaction costs less than 12 cents (to a unit) plus a thousandth of a cent per byte plus
its tip, however small its weight and the congestion multiplier are. -/
theorem C220_minimum {q len w mult tip : Nat} (hq : 0 < q) (h : q ≤ 500000000) (hl : len ≤ 4294967295)
    (ht : tip ≤ maxU64) : 119999999999 + 10000000 * len + tip ≤ computeFee q len w mult tip := by
  have hb : 119999999999 ≤ weightToFee q q := by rcases C220_base hq h with e | e <;> omega
  have hb' : weightToFee q q ≤ 120000000000 := by rcases C220_base hq h with e | e <;> omega
  have hlen : lengthToFee len = len * 10000000 := by
    have e : byteFee = 10000000 := Nat.one_mul _
    unfold lengthToFee satMul
    rw [e]
    exact Nat.min_eq_left ((Nat.mul_le_mul_right _ hl).trans (by decide))
  unfold computeFee satAdd
  rw [hlen]
  unfold maxU64 at ht
  unfold maxU128
  generalize mult * weightToFee q w / 1000000000000000000 = m
  omega

/-- **C220 (more costs more).** The fee grows with length, weight, multiplier and tip. -/
theorem C220_fee_monotone {q len len' w w' mult mult' tip tip' : Nat} (hl : len ≤ len') (hw : w ≤ w') (hw' : w' ≤ maxU64)
    (hm : mult ≤ mult') (ht : tip ≤ tip') : computeFee q len w mult tip ≤ computeFee q len' w' mult' tip' := by
  have h1 := C220_monotone (q := q) hw hw'
  have h2 : mult * weightToFee q w / 1000000000000000000 ≤ mult' * weightToFee q w' / 1000000000000000000 :=
    Nat.div_le_div_right (Nat.mul_le_mul hm h1)
  have h3 : lengthToFee len ≤ lengthToFee len' := by
    have h4 : len * byteFee ≤ len' * byteFee := Nat.mul_le_mul_right _ hl
    unfold lengthToFee satMul
    exact min_le_min_right _ h4
  have hs : ∀ {a b c d : Nat}, a ≤ b → c ≤ d → satAdd a c ≤ satAdd b d := fun h h' =>
    min_le_min_right _ (Nat.add_le_add h h')
  exact hs (hs (hs (le_refl _) h3) (min_le_min_right _ h2)) ht

/-- **C220 (deposits).** Storage deposits: 0.15 tokens per item and 0.06 tokens per byte, never overflowing. -/
theorem C220_deposit {items bytes : Nat} (hi : items ≤ 4294967295) (hb : bytes ≤ 4294967295) :
    100 * deposit items bytes = dollars * (15 * items + 6 * bytes) ∧ deposit items bytes ≤ maxU128 := by
  unfold deposit dollars cents millicents maxU128
  constructor <;> omega

/-- Non-vacuity: with a base weight of 98 974 000, one base extrinsic costs 12 cents, a block's worth of weight 606 tokens; a
transfer-like call of 150 bytes costs 0.3 tokens or so. -/
example : weightToFee 98974000 98974000 = 119999999999 ∨ weightToFee 98974000 98974000 = 120000000000 := by decide +kernel

example : weightToFee 98974000 500000000000 / dollars = 606 ∧
    computeFee 98974000 150 150000000 1000000000000000000 0 / cents = 30 := by decide +kernel

end Verif.Runtime.Fee
