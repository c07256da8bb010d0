import Verif.Prelude.Ledger

/-!
# Model of `pallets/currency-adapter/src/lib.rs`

The multi-currency interface `T::Assets` of all other pallets, over `pallet_balances` (existential deposit, locks,
account removal) and `pallet_assets` (status, freezing, minimum balances) of `polkadot-v0.9.38`, which are not in the
repository.

Simplifications: an account's native data exist exactly if its total is at least the existential deposit; the
treasury, which receives the remainder of removed accounts, exists; every lock is for all reasons
(`WithdrawReasons::all()`); accounts have no second provider; assets are sufficient, and an account of an asset
exists exactly if its balance is not zero.
-/

namespace Verif.Currency
open Verif

/-- `AssetStatus` of `pallet_assets`. -/
inductive Status where
  | live | frozen | destroying
deriving DecidableEq, Repr

/-- `AssetDetails` and the accounts of one asset. -/
structure Asset where
  status : Status
  /-- accounts frozen by the freezer -/
  iced : Nat → Bool
  bal : Nat → Nat
  supply : Nat
  minBal : Nat

structure State where
  /-- `AccountData::free` -/
  free : Nat → Nat
  /-- `AccountData::reserved` -/
  resv : Nat → Nat
  /-- `AccountData::misc_frozen` -/
  frozen : Nat → Nat
  /-- `Locks`: identifier and amount -/
  locks : Nat → List (Nat × Nat)
  /-- the consumer reference taken for the locks -/
  lockRef : Nat → Bool
  /-- consumer references of other pallets -/
  others : Nat → Bool
  /-- `TotalIssuance` of the native currency -/
  niss : Nat
  assets : Nat → Option Asset

structure Cfg where
  /-- `GetNativeCurrencyId`, runtime/parallel/src/lib.rs:1924 -/
  native : Nat
  /-- `ExistentialDeposit`, runtime/parallel/src/lib.rs:126, 752 -/
  ed : Nat
  /-- `DustRemoval`, runtime/parallel/src/lib.rs:762 -/
  treasury : Nat

/-- `CURRENCY_ADAPTER_ID`, lib.rs:45, as a number. -/
def adapterId : Nat := 0x6361646170746572

/-! ### `pallet_balances` -/

/-- `AccountData::total`. -/
def State.total (s : State) (w : Nat) : Nat := s.free w + s.resv w

/-- `!frame_system::can_dec_provider`. -/
def State.pinned (s : State) (w : Nat) : Bool := s.lockRef w || s.others w

/-- The frozen amount of a list of locks. -/
def maxLock : List (Nat × Nat) → Nat
  | [] => 0
  | l :: ls => max l.2 (maxLock ls)

/-- `update_locks`: an account whose data do not exist keeps none (`post_mutation`), and gets no reference. -/
def updateLocks (c : Cfg) (s : State) (w : Nat) (ls : List (Nat × Nat)) : State :=
  { s with
    locks := upd s.locks w ls
    frozen := upd s.frozen w (if c.ed ≤ s.total w then maxLock ls else 0)
    lockRef := if ls = [] then upd s.lockRef w false
      else if s.locks w = [] then upd s.lockRef w (decide (c.ed ≤ s.total w)) else s.lockRef }

/-- Replace the lock of an identifier, or add it. -/
def putLock (id amt : Nat) : List (Nat × Nat) → List (Nat × Nat)
  | [] => [(id, amt)]
  | l :: ls => if l.1 = id then (id, amt) :: ls else l :: putLock id amt ls

/-- `set_lock` with all reasons; an amount of zero is ignored. -/
def setLock (c : Cfg) (s : State) (id w amt : Nat) : State :=
  if amt = 0 then s else updateLocks c s w (putLock id amt (s.locks w))

/-- `remove_lock`. -/
def removeLock (c : Cfg) (s : State) (id w : Nat) : State :=
  updateLocks c s w ((s.locks w).filter fun l => decide (l.1 ≠ id))

/-- Removal of an account: the remainder goes to the treasury. -/
def reap (c : Cfg) (s : State) (w : Nat) : State :=
  let dust := s.total w
  let free1 := upd s.free w 0
  { s with
    free := upd free1 c.treasury (free1 c.treasury + dust)
    resv := upd s.resv w 0
    frozen := upd s.frozen w 0 }

/-- `Currency::transfer` of `pallet_balances`. -/
def natTransfer (c : Cfg) (s : State) (src dst amt : Nat) (keep : Bool) : R State :=
  if amt = 0 ∨ src = dst then .ok s
  else do
    ensure (amt ≤ s.free src) .noFunds
    ensure (s.free dst + amt ≤ maxU128) .overflow
    ensure (c.ed ≤ s.free dst + amt + s.resv dst) .tokenError
    ensure (s.frozen src ≤ s.free src - amt) .tokenError
    ensure ((keep = false ∧ s.pinned src = false) ∨ c.ed ≤ s.free src - amt + s.resv src) .keepAlive
    let s1 := { s with free := upd (upd s.free src (s.free src - amt)) dst (s.free dst + amt) }
    if s.free src - amt + s.resv src < c.ed then pure (reap c s1 src) else pure s1

/-- `Mutate::mint_into` of `pallet_balances`. -/
def natMint (c : Cfg) (s : State) (w amt : Nat) : R State :=
  if amt = 0 then .ok s
  else do
    ensure (s.niss + amt ≤ maxU128) .overflow
    ensure (s.total w + amt ≤ maxU128) .overflow
    ensure (c.ed ≤ s.total w + amt) .tokenError
    pure { s with free := upd s.free w (s.free w + amt), niss := s.niss + amt }

/-- `Mutate::burn_from` of `pallet_balances`: what would be left below the existential deposit is burnt, too.
The subtraction of that remainder, which contains the reserved balance, is unchecked. -/
def natBurn (c : Cfg) (s : State) (w amt : Nat) : R (State × Nat) :=
  if amt = 0 then .ok (s, 0)
  else do
    ensure (amt ≤ s.niss) .underflow
    ensure (amt ≤ s.total w) .noFunds
    ensure (c.ed ≤ s.total w - amt ∨ s.pinned w = false) .keepAlive
    ensure (amt ≤ s.free w) .noFunds
    ensure (s.frozen w ≤ s.free w - amt) .tokenError
    if s.total w - amt < c.ed then do
      ensure (s.total w ≤ s.free w) .panic
      pure ({ s with free := upd s.free w 0, frozen := upd s.frozen w 0, niss := s.niss - s.total w }, s.total w)
    else pure ({ s with free := upd s.free w (s.free w - amt), niss := s.niss - amt }, amt)

/-- `Inspect::reducible_balance` of `pallet_balances`. -/
def natReducible (c : Cfg) (s : State) (w : Nat) (keep : Bool) : Nat :=
  let liquid := s.free w - s.frozen w
  if s.pinned w = false ∧ keep = false then liquid else liquid - (c.ed - (s.total w - liquid))

/-! ### `pallet_assets` -/

/-- `can_increase`, without the supply. -/
def canIncrease (a : Asset) (w amt : Nat) : R Unit := do
  ensure (a.status ≠ .destroying) .tokenError
  ensure (a.bal w + amt ≤ maxU128) .overflow
  ensure (a.bal w ≠ 0 ∨ a.minBal ≤ amt) .tokenError

/-- `reducible_balance`; 0 where it is an error. -/
def Asset.reducible (a : Asset) (w : Nat) (keep : Bool) : Nat :=
  if a.status = .live ∧ a.iced w = false then (if keep then a.bal w - a.minBal else a.bal w) else 0

/-- `prep_debit` without best effort: what leaves the account, with a remainder below the minimum. -/
def prepDebit (a : Asset) (w amt : Nat) (keep : Bool) : R Nat := do
  ensure (a.status = .live) .tokenError
  ensure (a.bal w ≠ 0) .noFunds
  ensure (a.iced w = false) .tokenError
  ensure (amt ≤ a.reducible w keep) .noFunds
  pure (if a.bal w - amt < a.minBal then a.bal w else amt)

/-- `Transfer::transfer` of `pallet_assets` (`do_transfer`, dust is not burnt). -/
def Asset.transfer (a : Asset) (src dst amt : Nat) (keep : Bool) : R Asset :=
  if amt = 0 then .ok a
  else do
    let d ← prepDebit a src amt keep
    canIncrease a dst d
    if src = dst then pure a
    else pure { a with bal := upd (upd a.bal src (a.bal src - d)) dst (a.bal dst + d) }

/-- `Mutate::mint_into` of `pallet_assets` (`do_mint`). -/
def Asset.mint (a : Asset) (w amt : Nat) : R Asset :=
  if amt = 0 then .ok a
  else do
    ensure (a.supply + amt ≤ maxU128) .overflow
    canIncrease a w amt
    ensure (a.status = .live) .tokenError
    pure { a with bal := upd a.bal w (a.bal w + amt), supply := a.supply + amt }

/-- `Mutate::burn_from` of `pallet_assets` (`do_burn`). -/
def Asset.burn (a : Asset) (w amt : Nat) : R (Asset × Nat) := do
  ensure (a.status ≠ .destroying) .tokenError
  if amt = 0 then pure (a, 0)
  else do
    let d ← prepDebit a w amt false
    pure ({ a with bal := upd a.bal w (a.bal w - d), supply := a.supply - d }, d)

/-! ### The adapter -/

/-- `force_set_lock`, lib.rs:82-97. -/
def forceSetLock (c : Cfg) (s : State) (asset w amt : Nat) : R State := do
  ensure (asset = c.native) .notANativeToken
  pure (setLock c s adapterId w amt)

/-- `force_remove_lock`, lib.rs:99-113. -/
def forceRemoveLock (c : Cfg) (s : State) (asset w : Nat) : R State := do
  ensure (asset = c.native) .notANativeToken
  pure (removeLock c s adapterId w)

/-- `total_issuance`, lib.rs:121-127. -/
def issuance (c : Cfg) (s : State) (a : Nat) : Nat :=
  if a = c.native then s.niss else ((s.assets a).map Asset.supply).getD 0

/-- `minimum_balance`, lib.rs:129-135. -/
def minimum (c : Cfg) (s : State) (a : Nat) : Nat :=
  if a = c.native then c.ed else ((s.assets a).map Asset.minBal).getD 0

/-- `balance`, lib.rs:137-143. -/
def balance (c : Cfg) (s : State) (a w : Nat) : Nat :=
  if a = c.native then s.total w else ((s.assets a).map fun x => x.bal w).getD 0

/-- `reducible_balance`, lib.rs:145-155. -/
def reducible (c : Cfg) (s : State) (a w : Nat) (keep : Bool) : Nat :=
  if a = c.native then natReducible c s w keep else ((s.assets a).map fun x => x.reducible w keep).getD 0

/-- `mint_into`, lib.rs:191-201. -/
def mint (c : Cfg) (s : State) (a w amt : Nat) : R State :=
  if a = c.native then natMint c s w amt
  else if amt = 0 then .ok s
  else do
    let x ← okOr (s.assets a) .assetDoesNotExist
    let x' ← x.mint w amt
    pure { s with assets := upd s.assets a (some x') }

/-- `burn_from`, lib.rs:203-213. The amount returned is what was burnt. -/
def burn (c : Cfg) (s : State) (a w amt : Nat) : R (State × Nat) :=
  if a = c.native then natBurn c s w amt
  else do
    let x ← okOr (s.assets a) .assetDoesNotExist
    let (x', d) ← x.burn w amt
    pure ({ s with assets := upd s.assets a (some x') }, d)

/-- `transfer`, lib.rs:217-230. -/
def transfer (c : Cfg) (s : State) (a src dst amt : Nat) (keep : Bool) : R State :=
  if a = c.native then natTransfer c s src dst amt keep
  else if amt = 0 then .ok s
  else do
    let x ← okOr (s.assets a) .assetDoesNotExist
    let x' ← x.transfer src dst amt keep
    pure { s with assets := upd s.assets a (some x') }

end Verif.Currency
