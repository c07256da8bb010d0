import Verif.Prelude.Ledger

/-!
# Model of the XCM asset adapter, `pallets/traits/src/xcm.rs:335-660`, and of the runtimes' `GiftConvert`

`MultiCurrencyAdapter` (deposit, withdraw, transfer of assets named by XCM locations), `XcmAssetRegistry`
(the wrapper that makes local locations absolute) and `CurrencyIdConvert`.
Junctions other than `Parachain` are numbers.  The conversion of locations to accounts is an arbitrary
partial function, and so is the registry's map from locations to asset ids (`Verif/Registry`).
`IsNativeConcrete` (orml) is "the location has an asset id and the asset is fungible".
-/

namespace Verif.Xcm
open Verif

/-- `Junction`. -/
inductive Junction where
  | parachain (id : Nat)
  | other (n : Nat)
deriving DecidableEq, Repr

/-- `MultiLocation`; `Junctions` holds at most 8 junctions. -/
structure Loc where
  parents : Nat
  interior : List Junction
deriving DecidableEq, Repr

/-- `AssetId` of a `MultiAsset`. -/
inductive AssetKey where
  | concrete (l : Loc)
  | abstract (n : Nat)
deriving DecidableEq, Repr

/-- `MultiAsset`; `amount = none` is a non-fungible asset. -/
structure MultiAsset where
  id : AssetKey
  amount : Option Nat
deriving DecidableEq, Repr

/-- `XcmAssetRegistry::convert`, xcm.rs:608-628: a local location becomes the absolute one of this
parachain; if there is no room for a ninth junction it stays as it is. -/
def canonical (self : Nat) (l : Loc) : Loc :=
  if l.parents ≠ 0 then l
  else if l.interior.length < 8 then ⟨1, .parachain self :: l.interior⟩
  else l

/-- `XcmAssetRegistry::get_asset_id`, xcm.rs:642-644. -/
def assetIdOf (self : Nat) (typeId : Loc → Option Nat) (l : Loc) : Option Nat := typeId (canonical self l)

/-- The configuration of the adapter. -/
structure Cfg where
  /-- this parachain's number -/
  self : Nat
  /-- `AssetTypeId` of the registry -/
  typeId : Loc → Option Nat
  /-- `AccountIdConvert` -/
  acct : Loc → Option Nat
  /-- `NativeCurrencyId` -/
  native : Nat
  /-- `GiftAccount` -/
  gift : Nat
  /-- `GiftConvert::to_asset_balance(amount, asset)`, 0 on error -/
  giftOf : Nat → Nat → Nat

/-- `CurrencyIdConvert::convert(MultiAsset)`, xcm.rs:579-590. -/
def currencyOf (c : Cfg) (a : MultiAsset) : Option Nat := match a.id with
  | .concrete l => assetIdOf c.self c.typeId l
  | .abstract _ => none

/-- `IsNativeConcrete::matches_fungible`. -/
def matchesFungible (c : Cfg) (a : MultiAsset) : Option Nat := match a.id with
  | .concrete l => if (assetIdOf c.self c.typeId l).isSome then a.amount else none
  | .abstract _ => none

/-- The relay chain's own asset: `Concrete(MultiLocation { parents: 1, interior: Here })`, xcm.rs:420-428. -/
def relayAsset : AssetKey := .concrete ⟨1, []⟩

/-- The gift part of `deposit_asset`, xcm.rs:430-466: errors of the transfer are only logged. -/
def giveGift (c : Cfg) (l : Ledger) (who cur amount : Nat) : Ledger :=
  if c.giftOf amount cur ≠ 0 ∧ c.giftOf amount cur ≤ l.reducible c.native c.gift false ∧
      l.reducible c.native who true < c.giftOf amount cur then
    commit l (l.transfer c.native c.gift who (c.giftOf amount cur - l.reducible c.native who true) false)
  else l

/-- `deposit_asset`, xcm.rs:408-479. The function is not transactional: the ledger is returned together with
the result. -/
def deposit (c : Cfg) (l : Ledger) (a : MultiAsset) (where_ : Loc) : Ledger × R Unit :=
  match c.acct where_, currencyOf c a, matchesFungible c a with
  | some who, some cur, some amount =>
    match (if a.id = relayAsset then giveGift c l who cur amount else l).mint cur who amount with
    | .ok l' => (l', .ok ())
    | .error e => (if a.id = relayAsset then giveGift c l who cur amount else l, .error e)
  | _, _, _ => (l, .error .assetDoesNotExist)

/-- `withdraw_asset`, xcm.rs:481-507. -/
def withdraw (c : Cfg) (l : Ledger) (a : MultiAsset) (where_ : Loc) : R Ledger := do
  let amount ← okOr (matchesFungible c a) .assetDoesNotExist
  let who ← okOr (c.acct where_) (.other 1)
  let cur ← okOr (currencyOf c a) (.other 2)
  l.burn cur who amount

/-- `internal_transfer_asset`, xcm.rs:509-540. -/
def transferAsset (c : Cfg) (l : Ledger) (a : MultiAsset) (src dst : Loc) : R Ledger := do
  let from_ ← okOr (c.acct src) (.other 1)
  let to_ ← okOr (c.acct dst) (.other 1)
  let cur ← okOr (currencyOf c a) (.other 2)
  let amount ← okOr (matchesFungible c a) .assetDoesNotExist
  l.transfer cur from_ to_ amount true

/-- `10_u128.pow(n)`: panics on overflow. -/
def pow10 (n : Nat) : R Nat := if 10 ^ n ≤ maxU128 then .ok (10 ^ n) else .error .panic

/-- `GiftConvert::to_asset_balance` of the parallel runtime, runtime/parallel/src/lib.rs:1180-1201, for an
asset with the given decimals; `DOT = 101`, `EUSDT = 201`, `EUSDC = 202`, `DOLLARS = 10^12`. -/
def giftParallel (decimals balance asset : Nat) : R Nat :=
  if decimals = 0 then .ok 0
  else if asset = 101 then do
    let p ← pow10 decimals
    let t ← cmul .panic 5 (p - 96000000)
    pure (if t ≤ balance then 650000000000 else 0)
  else if asset = 201 ∨ asset = 202 then do
    let p ← pow10 decimals
    let t ← cmul .panic 300 p
    pure (if t ≤ balance then 650000000000 else 0)
  else .ok 0

/-- `GiftConvert::to_asset_balance` of the heiko runtime, runtime/heiko/src/lib.rs:1178-1196;
`KSM = 100`. -/
def giftHeiko (decimals balance asset : Nat) : R Nat :=
  if decimals = 0 then .ok 0
  else if asset = 100 then do
    let p ← pow10 (decimals - 1)
    pure (if p - 96000000 ≤ balance then 650000000000 else 0)
  else if asset = 201 ∨ asset = 202 then do
    let p ← pow10 decimals
    let t ← cmul .panic 300 p
    pure (if t ≤ balance then 650000000000 else 0)
  else .ok 0

/-- What the XCM executor asks of the adapter. -/
inductive AOp where
  | deposit (a : MultiAsset) (at_ : Loc)
  | withdraw (a : MultiAsset) (at_ : Loc)
  | move (a : MultiAsset) (src dst : Loc)

/-- The ledger after a request. -/
def runOp (c : Cfg) (l : Ledger) : AOp → Ledger
  | .deposit a w => (deposit c l a w).1
  | .withdraw a w => commit l (withdraw c l a w)
  | .move a s d => commit l (transferAsset c l a s d)

end Verif.Xcm
