import Verif.Crowdloans.Model
import Verif.Loans.Model
import Verif.Registry.Model

/-!
# Storage migrations at runtime upgrades

`pallets/crowdloans/src/migrations.rs`, `pallets/loans/src/migrations.rs`, `pallets/liquid-staking/src/migrations.rs`,
`pallets/asset-registry/src/migration.rs` and `runtime/common/src/evm_migration.rs`. The runtime runs the migration in
its `Executive` at every upgrade (runtime/parallel/src/lib.rs:2070-2077, 2137-2141: `v4` of crowdloans).

Left out: weights, logs, and the checks `pre_migrate`, `post_migrate`, which exist only in test builds (`try-runtime`).
-/

namespace Verif.Migrations
open Verif

/-! ### Crowdloans -/

/-- `Releases`, crowdloans/src/types.rs:135-142. -/
inductive Release where
  | v0 | v1 | v2 | v3
deriving DecidableEq

/-- The crowdloans pallet with its `StorageVersion`, crowdloans/src/lib.rs:391-393. -/
structure Loan where
  core : Crowdloans.State
  version : Release

/-- A row of a batch, migrations.rs:43-44, 127-128, 259-260: parachain, token, contributed, cap, end block, trie index, lease. -/
structure Row where
  para : Nat
  ctoken : Nat
  raised : Nat
  cap : Nat
  endBlock : Nat
  trie : Nat
  start : Nat
  stop : Nat

/-- The storage key of a row. -/
def Row.key (r : Row) : Crowdloans.Key := ⟨r.para, r.start, r.stop⟩

/-- The body of the loops, migrations.rs:59-79, 191-211, 341-361. -/
def putRow (p : Crowdloans.Phase) (s : Crowdloans.State) (r : Row) : Crowdloans.State :=
  { s with
    vaults := upd s.vaults r.key (some ⟨r.ctoken, p, r.raised, 0, 0, false, r.cap, r.endBlock, r.trie⟩)
    ctokenOf := upd s.ctokenOf (r.start, r.stop) (some r.ctoken)
    leaseOf := upd s.leaseOf r.para (some (r.start, r.stop)) }

/-- The batch of `v1`, migrations.rs:44-57. -/
def rows1 (next : Nat) : List Row :=
  [⟨2085, 100150022, 57307000000000000, 400000000000000000, 9676800, next, 15, 22⟩]

/-- The batch of `v2`, migrations.rs:128-189. -/
def rows2 : List Row :=
  [⟨2026, 200070014, 17574741856000000, 250000000000000000, 9388800, 9, 7, 14⟩,
   ⟨2032, 200070014, 4898587497400000, 500000000000000000, 9388800, 10, 7, 14⟩,
   ⟨2011, 200070014, 4898587497400000, 30000000000000000, 9671800, 11, 7, 14⟩,
   ⟨2035, 200070014, 3071389985000000, 30000000000000000, 9671800, 12, 7, 14⟩,
   ⟨2037, 200080015, 2769629790000000, 150000000000000000, 10881401, 13, 8, 15⟩]

/-- The batch of `v3`, migrations.rs:260-339. -/
def rows3 : List Row :=
  [⟨2040, 200080015, 5058525762400000, 150000000000000000, 10881401, 25, 8, 15⟩,
   ⟨2013, 200080015, 1891535952620463, 150000000000000000, 10881401, 26, 8, 15⟩,
   ⟨2030, 200080015, 222383369000000, 150000000000000000, 10881401, 27, 8, 15⟩,
   ⟨2027, 200080015, 574831000000000, 150000000000000000, 10881401, 28, 8, 15⟩,
   ⟨2043, 200080015, 2599910262000000, 150000000000000000, 10881401, 29, 8, 15⟩,
   ⟨2007, 200080015, 320506980000000, 150000000000000000, 10881401, 30, 8, 15⟩]

/-- `v1::migrate`, migrations.rs:35-90. -/
def migrate1 (s : Loan) : Loan :=
  if s.version = .v0 then
    ⟨{ (rows1 s.core.nextTrie).foldl (putRow .succeeded) s.core with nextTrie := s.core.nextTrie + 1 }, .v1⟩
  else s

/-- `v2::migrate`, migrations.rs:121-222. -/
def migrate2 (s : Loan) : Loan :=
  if s.version = .v1 then ⟨{ rows2.foldl (putRow .succeeded) s.core with nextTrie := 14 }, .v2⟩ else s

/-- `v3::migrate`, migrations.rs:253-372. -/
def migrate3 (s : Loan) : Loan :=
  if s.version = .v2 then ⟨{ rows3.foldl (putRow .expired) s.core with nextTrie := 31 }, .v3⟩ else s

/-- The vault `v4` corrects, migrations.rs:409-421. -/
def fixedKey : Crowdloans.Key := ⟨2040, 8, 15⟩

/-- The amount `v4` writes, migrations.rs:414. -/
def fixedAmount : Nat := 3000000000000000

/-- `v4::migrate`, migrations.rs:402-455: the version stays. -/
def migrate4 (s : Loan) : Loan :=
  if s.version = .v3 then
    match s.core.vaults fixedKey with
    | some v =>
      if v.phase = .expired then
        { s with core := { s.core with vaults := upd s.core.vaults fixedKey (some { v with contributed := fixedAmount }) } }
      else s
    | none => s
  else s

/-! ### Loans -/

/-- `Versions`, loans/src/lib.rs:91-100 (the ones the migration uses). -/
inductive LoansVersion where
  | v2 | v3 | other
deriving DecidableEq

/-- `V2Market`, loans/src/migrations.rs:27-48. -/
structure Market2 where
  cf : Nat
  rf : Nat
  close : Nat
  incentive : Nat
  model : Loans.RateModel
  state : Loans.MState
  supplyCap : Nat
  borrowCap : Nat
  ptoken : Nat

/-- What the migration reads and writes: `Versions`, `Markets` in the old or the new format, the speeds (default 0),
`MarketRewardSpeed` and `LastAccruedTimestamp`. `RewardAccrued` keeps its storage prefix (loans/src/lib.rs:450-453) and is
not touched. -/
structure LoansStore where
  version : LoansVersion
  markets : Nat → Option (Market2 ⊕ Loans.Market)
  supplySpeed : Nat → Nat
  borrowSpeed : Nat → Nat
  oldSpeed : Nat → Option Nat
  lastTime : Nat

/-- `Permill * Permill` of `sp-arithmetic`: rounds down. -/
def permillMul (a b : Nat) : Nat := a * b / 1000000

/-- `Permill + Permill` of `sp-arithmetic`: saturates at 100%. -/
def permillAdd (a b : Nat) : Nat := min (a + b) 1000000

/-- The closure of `translate`, loans/src/migrations.rs:105-121; the defaults are 10% and 3%, migrations.rs:22-23. -/
def translate (m : Market2) : Loans.Market where
  cf := m.cf
  lt := permillAdd m.cf (permillMul m.cf 100000)
  rf := m.rf
  close := m.close
  incentive := m.incentive
  irf := 30000
  model := m.model
  state := m.state
  supplyCap := m.supplyCap
  borrowCap := m.borrowCap
  ptoken := m.ptoken

/-- Translation of one stored entry. An entry already in the new format is left alone (in the source it would be decoded
as an old one; under version 2 there is none). -/
def translateEntry : Market2 ⊕ Loans.Market → Market2 ⊕ Loans.Market
  | .inl m => .inr (translate m)
  | .inr m => .inr m

/-- `v3::migrate` of loans, migrations.rs:101-139. -/
def migrateLoans (s : LoansStore) : LoansStore :=
  if s.version = .v2 then
    { version := .v3
      markets := fun a => (s.markets a).map translateEntry
      supplySpeed := fun a => (s.oldSpeed a).getD (s.supplySpeed a)
      borrowSpeed := fun a => (s.oldSpeed a).getD (s.borrowSpeed a)
      oldSpeed := fun _ => none
      lastTime := 0 }
  else s

/-! ### Asset registry -/

section Registry
variable {τ τ' : Type} [DecidableEq τ']

/-- The loops of `storage_key_iter(..).drain().collect()` and `insert`, asset-registry/src/migration.rs:149-166, 168-185:
`keys` are the stored keys in iteration order, `conv` the conversion of locations, whose failure traps. -/
def moveKeys {β : Type} (conv : τ → Option τ') (m : τ → Option β) : List τ → (τ' → Option β) → R (τ' → Option β)
  | [], acc => .ok acc
  | k :: ks, acc =>
    match m k with
    | none => moveKeys conv m ks acc
    | some v => do
      let k' ← okOr (conv k) .panic
      moveKeys conv m ks (upd acc k' (some v))

/-- `AssetIdType::translate`, migration.rs:137-147; `ids` are the stored keys. -/
def moveValues (conv : τ → Option τ') (m : Nat → Option τ) : List Nat → (Nat → Option τ') → R (Nat → Option τ')
  | [], acc => .ok acc
  | i :: is, acc =>
    match m i with
    | none => moveValues conv m is acc
    | some t => do
      let t' ← okOr (conv t) .panic
      moveValues conv m is (upd acc i (some t'))

/-- `SupportedFeePaymentAssets::translate`, migration.rs:188-205. -/
def moveList (conv : τ → Option τ') : List τ → R (List τ')
  | [] => .ok []
  | t :: ts => do
    let t' ← okOr (conv t) .panic
    let ts' ← moveList conv ts
    pure (t' :: ts')

/-- `XcmV2ToV3AssetManager::on_runtime_upgrade`, migration.rs:115-208. -/
def migrateRegistry (conv : τ → Option τ') (ids : List Nat) (types : List τ) (s : Registry.State τ) :
    R (Registry.State τ') := do
  let a ← moveValues conv s.idType ids (fun _ => none)
  let b ← moveKeys conv s.typeId types (fun _ => none)
  let u ← moveKeys conv s.units types (fun _ => none)
  let l ← moveList conv s.supported
  pure ⟨a, b, u, l⟩

end Registry

/-! ### EVM -/

/-- `used_addresses`, evm_migration.rs:10-14; also runtime/common/src/precompiles.rs:52-56. -/
def usedAddresses : List Nat := [1, 2, 3, 4, 5, 6, 7, 8, 9, 1024, 1025, 1026, 1027, 2050]

/-- `revert_bytecode`, evm_migration.rs:6-8. -/
def revertCode : List Nat := [0x60, 0x00, 0x60, 0x00, 0xFD]

/-- `AccountCodes` of `pallet_evm`, and the number of sufficient references of the accounts. -/
structure Evm where
  codes : Nat → Option (List Nat)
  sufficients : Nat → Nat

/-- `create_account` of `pallet_evm` for a code that is not empty. -/
def createAccount (s : Evm) (a : Nat) (code : List Nat) : Evm where
  codes := upd s.codes a (some code)
  sufficients := if s.codes a = none then upd s.sufficients a (s.sufficients a + 1) else s.sufficients

/-- `InitEvmGenesis::on_runtime_upgrade`, evm_migration.rs:34-44. -/
def initEvm (s : Evm) : Evm :=
  if s.codes 1 ≠ none then s else usedAddresses.foldl (fun s a => createAccount s a revertCode) s

end Verif.Migrations
