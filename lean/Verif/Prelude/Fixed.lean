import Verif.Prelude.Basic

/-!
# `Permill` and `FixedU128`

Semantics of `sp_arithmetic` at `polkadot-v0.9.38` (the revision pinned in `/repo/Cargo.toml`).

* `Permill` is represented by its parts-per-million `p ≤ 10^6`.
* `FixedU128` is represented by its inner `u128` value; `1.0 = 10^18`.
-/

namespace Verif

/-- `Permill::ACCURACY`. -/
def million : Nat := 1000000
/-- `FixedU128::DIV`. -/
def DIV : Nat := 1000000000000000000

theorem million_pos : 0 < million := by decide
theorem DIV_pos : 0 < DIV := by decide

/-- `⌈a / b⌉`. -/
def ceilDiv (a b : Nat) : Nat := (a + (b - 1)) / b

theorem ceilDiv_mul_ge {a b : Nat} (hb : 0 < b) : a ≤ ceilDiv a b * b := by
  unfold ceilDiv
  have h := Nat.div_add_mod (a + (b - 1)) b
  have h2 := Nat.mod_lt (a + (b - 1)) hb
  rw [Nat.mul_comm] at h
  omega

theorem ceilDiv_le_iff {a b c : Nat} (hb : 0 < b) : ceilDiv a b ≤ c ↔ a ≤ c * b := by
  unfold ceilDiv
  rw [Nat.div_le_iff_le_mul_add_pred hb, Nat.mul_comm b c]
  omega

/-- `Permill::mul_floor`. -/
def pmulFloor (p x : Nat) : Nat := x * p / million
/-- `Permill::mul_ceil`. -/
def pmulCeil (p x : Nat) : Nat := ceilDiv (x * p) million

/-- `Permill::saturating_reciprocal_mul_floor` (division by zero panics). -/
def precipFloor (p x : Nat) : R Nat :=
  if p = 0 then .error .panic else .ok (min maxU128 (x * million / p))
/-- `Permill::saturating_reciprocal_mul_ceil` (division by zero panics). -/
def precipCeil (p x : Nat) : R Nat :=
  if p = 0 then .error .panic else .ok (min maxU128 (ceilDiv (x * million) p))

theorem pmulCeil_le {p x : Nat} (hp : p ≤ million) : pmulCeil p x ≤ x := by
  unfold pmulCeil
  rw [ceilDiv_le_iff million_pos]
  exact Nat.mul_le_mul_left x hp

theorem pmulFloor_le {p x : Nat} (hp : p ≤ million) : pmulFloor p x ≤ x := by
  unfold pmulFloor
  apply Nat.div_le_of_le_mul
  rw [Nat.mul_comm million]
  exact Nat.mul_le_mul_left x hp

@[simp] theorem precipFloor_ok_iff {p x y} :
    precipFloor p x = .ok y ↔ p ≠ 0 ∧ y = min maxU128 (x * million / p) := by
  unfold precipFloor; split <;> simp_all [eq_comm]
@[simp] theorem precipCeil_ok_iff {p x y} :
    precipCeil p x = .ok y ↔ p ≠ 0 ∧ y = min maxU128 (ceilDiv (x * million) p) := by
  unfold precipCeil; split <;> simp_all [eq_comm]

/-- `FixedU128::saturating_from_rational(n, d)`: panics for `d = 0`, rounds down, saturates. -/
def fixSatFromRational (n d : Nat) : R Nat :=
  if d = 0 then .error .panic else .ok (min maxU128 (n * DIV / d))

@[simp] theorem fixSatFromRational_ok_iff {n d y} :
    fixSatFromRational n d = .ok y ↔ d ≠ 0 ∧ y = min maxU128 (n * DIV / d) := by
  unfold fixSatFromRational; split <;> simp_all [eq_comm]

/-- `FixedU128::checked_from_rational(n, d)` (rounds down). -/
def fixFromRational (n d : Nat) : Option Nat :=
  if d = 0 then none else if n * DIV / d ≤ maxU128 then some (n * DIV / d) else none
/-- `FixedU128::checked_mul` (rounds down). -/
def fixMul (a b : Nat) : Option Nat := if a * b / DIV ≤ maxU128 then some (a * b / DIV) else none
/-- `FixedU128::checked_div` (rounds down). -/
def fixDiv (a b : Nat) : Option Nat :=
  if b = 0 then none else if a * DIV / b ≤ maxU128 then some (a * DIV / b) else none
/-- `FixedU128::checked_mul_int(n : u128)` (rounds down). -/
def fixMulInt (a n : Nat) : Option Nat := if a * n / DIV ≤ maxU128 then some (a * n / DIV) else none
/-- `FixedU128::saturating_mul` (rounds down). -/
def fixSatMul (a b : Nat) : Nat := min maxU128 (a * b / DIV)
/-- `FixedU128::from(Permill)`: exact. -/
def ofPermill (p : Nat) : Nat := p * 1000000000000
/-- `Permill::from_rational(p, q)`: zero denominators and `p > q` give 1; large arguments are first divided
by `⌈q / 10^6⌉`. -/
def permillFromRational (p q : Nat) : Nat :=
  if q = 0 ∨ q < p then million
  else
    let factor := max 1 (ceilDiv q million)
    (p / factor) * million / (q / factor)
/-- `u128::checked_add` / `FixedU128::checked_add` as an option. -/
def oadd (a b : Nat) : Option Nat := if a + b ≤ maxU128 then some (a + b) else none
/-- `u128::checked_sub` / `FixedU128::checked_sub` as an option. -/
def osub (a b : Nat) : Option Nat := if b ≤ a then some (a - b) else none
/-- `u128::checked_mul` as an option. -/
def omul (a b : Nat) : Option Nat := if a * b ≤ maxU128 then some (a * b) else none
/-- `u128::checked_div` as an option. -/
def odiv (a b : Nat) : Option Nat := if b = 0 then none else some (a / b)

@[simp] theorem fixFromRational_iff {n d y} : fixFromRational n d = some y ↔
    d ≠ 0 ∧ n * DIV / d ≤ maxU128 ∧ y = n * DIV / d := by
  unfold fixFromRational; split_ifs <;> simp_all [eq_comm]
@[simp] theorem fixMul_iff {a b y} : fixMul a b = some y ↔ a * b / DIV ≤ maxU128 ∧ y = a * b / DIV := by
  unfold fixMul; split_ifs <;> simp_all [eq_comm]
@[simp] theorem fixDiv_iff {a b y} : fixDiv a b = some y ↔
    b ≠ 0 ∧ a * DIV / b ≤ maxU128 ∧ y = a * DIV / b := by
  unfold fixDiv; split_ifs <;> simp_all [eq_comm]
@[simp] theorem fixMulInt_iff {a b y} :
    fixMulInt a b = some y ↔ a * b / DIV ≤ maxU128 ∧ y = a * b / DIV := by
  unfold fixMulInt; split_ifs <;> simp_all [eq_comm]
@[simp] theorem oadd_iff {a b y} : oadd a b = some y ↔ a + b ≤ maxU128 ∧ y = a + b := by
  unfold oadd; split_ifs <;> simp_all [eq_comm]
@[simp] theorem osub_iff {a b y} : osub a b = some y ↔ b ≤ a ∧ y = a - b := by
  unfold osub; split_ifs <;> simp_all [eq_comm]
@[simp] theorem omul_iff {a b y} : omul a b = some y ↔ a * b ≤ maxU128 ∧ y = a * b := by
  unfold omul; split_ifs <;> simp_all [eq_comm]
@[simp] theorem odiv_iff {a b y} : odiv a b = some y ↔ b ≠ 0 ∧ y = a / b := by
  unfold odiv; split_ifs <;> simp_all [eq_comm]

theorem permillFromRational_le (p q : Nat) : permillFromRational p q ≤ million := by
  unfold permillFromRational
  split_ifs with h
  · exact Nat.le_refl _
  · simp only [not_or, Nat.not_lt] at h
    apply Nat.div_le_of_le_mul
    exact Nat.mul_le_mul_right _ (Nat.div_le_div_right h.2)

end Verif
