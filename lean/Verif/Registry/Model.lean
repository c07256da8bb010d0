import Verif.Prelude.Basic
import Mathlib.Order.Defs.LinearOrder
import Mathlib.Data.List.Pairwise

/-!
# Model of `pallets/asset-registry/src/lib.rs`

The asset type (`AssetType`, an XCM location) is any type `τ` with a linear order (Rust: `Ord`), asset ids are
numbers.  Every extrinsic takes a Boolean `auth`: whether its origin passes `UpdateOrigin::ensure_origin`.
Not modelled: weights, the migration.
-/

namespace Verif.Registry
open Verif

/-- Storage, lib.rs:97-125. -/
structure State (τ : Type) where
  /-- `AssetIdType`, lib.rs:100-102 -/
  idType : Nat → Option τ
  /-- `AssetTypeId`, lib.rs:107-109 -/
  typeId : τ → Option Nat
  /-- `AssetTypeUnitsPerSecond`, lib.rs:115-118 -/
  units : τ → Option Nat
  /-- `SupportedFeePaymentAssets`, lib.rs:121-123 -/
  supported : List τ

/-- The empty storage of a new chain. -/
def State.empty (τ : Type) : State τ := ⟨fun _ => none, fun _ => none, fun _ => none, []⟩

/-- `Result<usize, usize>` of `binary_search`. -/
inductive Search where
  | found (i : Nat)
  | missing (i : Nat)
deriving DecidableEq, Repr

variable {τ : Type} [LinearOrder τ]

/-- The loop of `<[T]>::binary_search` (Rust core library, nightly-2022-11-15 of `rust-toolchain.toml`):
`while left < right { mid = left + size/2; … ; size = right - left }`.  The first argument bounds the number
of rounds; `search` starts with more rounds than the loop can take, the out-of-rounds and out-of-range cases
are never met. -/
def searchLoop (xs : List τ) (t : τ) : Nat → Nat → Nat → Search
  | 0, left, _ => .missing left
  | n + 1, left, right =>
    if left < right then
      match xs[left + (right - left) / 2]? with
      | none => .missing left
      | some x =>
        if x < t then searchLoop xs t n (left + (right - left) / 2 + 1) right
        else if t < x then searchLoop xs t n left (left + (right - left) / 2)
        else .found (left + (right - left) / 2)
    else .missing left

/-- `supported_assets.binary_search(&asset_type)`, used at lib.rs:172, 216, 221, 250, 283, 314. -/
def search (xs : List τ) (t : τ) : Search := searchLoop xs t (xs.length + 1) 0 xs.length

/-- `Vec::insert(index, x)`. -/
def vecInsert (xs : List τ) (i : Nat) (x : τ) : List τ := xs.take i ++ x :: xs.drop i

/-- `Vec::remove(index)`. -/
def vecRemove (xs : List τ) (i : Nat) : List τ := xs.take i ++ xs.drop (i + 1)

/-- `if let Err(index) = v.binary_search(&t) { v.insert(index, t) }`, lib.rs:172-175, 221-223. -/
def addSupported (xs : List τ) (t : τ) : List τ := match search xs t with
  | .found _ => xs
  | .missing i => vecInsert xs i t

/-- `if let Ok(index) = v.binary_search(&t) { v.remove(index) }`, lib.rs:216-218, 250-252, 283-285. -/
def dropSupported (xs : List τ) (t : τ) : List τ := match search xs t with
  | .found i => vecRemove xs i
  | .missing _ => xs

/-- `register_asset`, lib.rs:131-151. -/
def register (auth : Bool) (s : State τ) (id : Nat) (t : τ) : R (State τ) := do
  ensure (auth = true) .badOrigin
  ensure (s.idType id = none) .assetAlreadyExists
  pure { s with idType := upd s.idType id (some t), typeId := upd s.typeId t (some id) }

/-- `update_asset_units_per_second`, lib.rs:156-184. -/
def updateUnits (auth : Bool) (s : State τ) (t : τ) (n : Nat) : R (State τ) := do
  ensure (auth = true) .badOrigin
  ensure (s.typeId t ≠ none) .assetDoesNotExist
  pure { s with supported := addSupported s.supported t, units := upd s.units t (some n) }

/-- The part of `update_asset_type` that moves the fee rate, lib.rs:213-231. -/
def moveUnits (s : State τ) (old new : τ) : State τ := match s.units old with
  | none => s
  | some u => { s with
      supported := addSupported (dropSupported s.supported old) new
      units := upd (upd s.units old none) new (some u) }

/-- `update_asset_type`, lib.rs:191-238. -/
def updateType (auth : Bool) (s : State τ) (id : Nat) (new : τ) : R (State τ) := do
  ensure (auth = true) .badOrigin
  let old ← okOr (s.idType id) .assetDoesNotExist
  pure (moveUnits { s with
    idType := upd s.idType id (some new)
    typeId := upd (upd s.typeId new (some id)) old none } old new)

/-- `remove_fee_payment_asset`, lib.rs:240-262. -/
def removeFee (auth : Bool) (s : State τ) (t : τ) : R (State τ) := do
  ensure (auth = true) .badOrigin
  pure { s with supported := dropSupported s.supported t, units := upd s.units t none }

/-- `deregister_asset`, lib.rs:267-296. -/
def deregister (auth : Bool) (s : State τ) (id : Nat) : R (State τ) := do
  ensure (auth = true) .badOrigin
  let t ← okOr (s.idType id) .assetDoesNotExist
  pure { idType := upd s.idType id none
         typeId := upd s.typeId t none
         units := upd s.units t none
         supported := dropSupported s.supported t }

/-- `payment_is_supported`, lib.rs:312-316. -/
def paymentIsSupported (s : State τ) (t : τ) : Bool := match search s.supported t with
  | .found _ => true
  | .missing _ => false

/-- `get_units_per_second`, lib.rs:317-319. -/
def getUnits (s : State τ) (t : τ) : Option Nat := s.units t

/-- `get_asset_type`, lib.rs:302-304. -/
def getAssetType (s : State τ) (id : Nat) : Option τ := s.idType id

/-- `get_asset_id`, lib.rs:306-308. -/
def getAssetId (s : State τ) (t : τ) : Option Nat := s.typeId t

/-- The extrinsics with their arguments. -/
inductive Call (τ : Type) where
  | register (id : Nat) (t : τ)
  | updateUnits (t : τ) (n : Nat)
  | updateType (id : Nat) (t : τ)
  | removeFee (t : τ)
  | deregister (id : Nat)

/-- Dispatch, lib.rs:126-297. -/
def exec (auth : Bool) (s : State τ) : Call τ → R (State τ)
  | .register id t => register auth s id t
  | .updateUnits t n => updateUnits auth s t n
  | .updateType id t => updateType auth s id t
  | .removeFee t => removeFee auth s t
  | .deregister id => deregister auth s id

end Verif.Registry
