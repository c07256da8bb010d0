import Verif.Prelude.Ledger
import Verif.Registry.Model

/-!
# Model of the XCM fee trader, `pallets/traits/src/xcm.rs:99-292`

`FirstAssetTrader` (buying and refunding execution weight) and `XcmFeesToAccount` (booking the fees when the
trader is dropped).  Locations are any type `τ` with decidable equality.  Weights are `u64` pairs.
A holding of fungible assets (`xcm_executor::Assets`) is the list of its entries in the order of the
underlying `BTreeMap`; non-fungible assets are not looked at by this code and left out.
-/

namespace Verif.Xcm
open Verif

variable {τ : Type} [DecidableEq τ]

/-- `sp_weights::Weight`: reference time and proof size, both `u64`. -/
structure Weight where
  rt : Nat
  ps : Nat
deriving DecidableEq, Repr

/-- `WEIGHT_REF_TIME_PER_SECOND` (frame_support constants): picoseconds. -/
def perSecond : Nat := 1000000000000

/-- `Weight::saturating_add`. -/
def Weight.satAdd (a b : Weight) : Weight := ⟨min (a.rt + b.rt) maxU64, min (a.ps + b.ps) maxU64⟩

/-- `Weight::min`: component-wise. -/
def Weight.inf (a b : Weight) : Weight := ⟨min a.rt b.rt, min a.ps b.ps⟩

/-- `Weight::sub`; only used with a smaller second argument (xcm.rs:205). -/
def Weight.sub (a b : Weight) : Weight := ⟨a.rt - b.rt, a.ps - b.ps⟩

/-- Identifier of a fungible asset in a holding: `AssetId::Concrete(location)` or `AssetId::Abstract`. -/
inductive Key (τ : Type) where
  | concrete (t : τ)
  | abstract (n : Nat)
deriving DecidableEq

/-- The fungible part of `xcm_executor::Assets`. -/
abbrev Holding (τ : Type) := List (Key τ × Nat)

/-- What the trader reads from the registry (`UnitsToWeightRatio`, xcm.rs:249-254). -/
structure Fees (τ : Type) where
  /-- `payment_is_supported` -/
  supported : τ → Bool
  /-- `get_units_per_second` -/
  units : τ → Option Nat

/-- `FirstAssetTrader(Weight, Option<(MultiLocation, u128, u128)>)`, xcm.rs:99-107. -/
structure Trader (τ : Type) where
  weight : Weight
  /-- location, fees taken, units per second -/
  asset : Option (τ × Nat × Nat)

/-- `new`, xcm.rs:114-116. -/
def Trader.new (τ : Type) : Trader τ := ⟨⟨0, 0⟩, none⟩

/-- The fee of a weight at a rate, xcm.rs:145-146 (saturating multiplication, then integer division). -/
def feeOf (u rt : Nat) : Nat := min (u * rt) maxU128 / perSecond

/-- `payment.checked_sub(required)` for the first entry of the holding, xcm.rs:164-166
(`Assets::checked_sub`: an entry that becomes 0 is removed). -/
def subFirst (k : Key τ) (have_ need : Nat) (rest : Holding τ) : Option (Holding τ) :=
  if need ≤ have_ then some (if have_ = need then rest else (k, have_ - need) :: rest) else none

/-- The update of the trader after a payment, xcm.rs:167-193. -/
def book (tr : Trader τ) (w : Weight) (t : τ) (amount units : Nat) : Trader τ :=
  match tr.asset with
  | none => ⟨(tr.weight.satAdd w).satAdd w, some (t, amount, units)⟩
  | some (p, a, u) =>
    if p = t then ⟨(tr.weight.satAdd w).satAdd w, some (t, min (a + amount) maxU128, u)⟩
    else ⟨tr.weight.satAdd w, some (p, a, u)⟩

/-- `buy_weight`, xcm.rs:118-200; `none` is `Err(XcmError::TooExpensive)`. -/
def buy (f : Fees τ) (tr : Trader τ) (w : Weight) (payment : Holding τ) : Option (Holding τ × Trader τ) :=
  match payment with
  | (.concrete t, have_) :: rest =>
    if f.supported t = true then
      match f.units t with
      | none => none
      | some u =>
        if feeOf u w.rt = 0 then some (payment, tr)
        else match subFirst (.concrete t) have_ (feeOf u w.rt) rest with
          | none => none
          | some unused => some (unused, book tr w t (feeOf u w.rt) u)
    else none
  | _ => none

/-- `refund_weight`, xcm.rs:202-222; the multiplication is unchecked and panics on overflow
(`overflow-checks = true`). -/
def refund (tr : Trader τ) (w : Weight) : R (Trader τ × Option (τ × Nat)) :=
  match tr.asset with
  | none => .ok (tr, none)
  | some (t, a, u) =>
    if u * (w.inf tr.weight).rt ≤ maxU128 then
      .ok (⟨tr.weight.sub (w.inf tr.weight), some (t, a - u * (w.inf tr.weight).rt / perSecond, u)⟩,
        some (t, u * (w.inf tr.weight).rt / perSecond))
    else .error .panic

/-- `Drop::drop`, xcm.rs:231-236: the revenue handed to `take_revenue`. -/
def revenue (tr : Trader τ) : Option (τ × Nat) := tr.asset.map (fun x => (x.1, x.2.1))

/-- `XcmFeesToAccount::take_revenue`, xcm.rs:269-292: mint the revenue to the receiver if the location is a
known asset; failures are only logged. -/
def takeRevenue (l : Ledger) (assetOf : τ → Option Nat) (receiver : Nat) (rev : τ × Nat) : Ledger :=
  match assetOf rev.1 with
  | none => l
  | some a => if rev.2 = 0 then l else commit l (l.mint a receiver rev.2)

end Verif.Xcm
