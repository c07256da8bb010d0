import Verif.Prelude.Ledger
import Mathlib.Data.List.Sort

/-!
# Model of `pallets/streaming/src/lib.rs` and `pallets/streaming/src/types.rs`

Events are modelled as an append-only log (`State.events`), because they tell observers who was paid what.
Not modelled: weights, the origin of `set_minimum_deposit` (any caller may be governance).
An absent library entry is modelled as the empty list.
-/

namespace Verif.Streaming
open Verif

/-- `Config`, lib.rs:66-103. -/
structure Cfg where
  /-- `account_id()`, lib.rs:394-396 -/
  acct : Nat
  /-- `MaxStreamsCount` -/
  maxStreams : Nat
  /-- `MaxFinishedStreamsCount` -/
  maxFinished : Nat
  /-- `NativeCurrencyId` -/
  native : Nat
  /-- `NativeExistentialDeposit` -/
  ed : Nat

/-- `StreamStatus`, types.rs:10-21.  The flag `as_collateral` is never set by any call
(`Stream::as_collateral` is only used in a unit test), so it is left out. -/
inductive Status where
  | ongoing
  | completed (cancelled : Bool)
deriving DecidableEq

/-- `StreamKind`, types.rs:24-31. -/
inductive Kind where
  | send | receive | finish
deriving DecidableEq

/-- `Stream`, types.rs:36-57. -/
structure Stream where
  remaining : Nat
  deposit : Nat
  asset : Nat
  rate : Nat
  sender : Nat
  recipient : Nat
  start : Nat
  stop : Nat
  status : Status
  cancellable : Bool
deriving DecidableEq

/-- `Event`, lib.rs:143-172 (the constant `true` of `StreamCreated` is left out). -/
inductive Event where
  | created (id sender recipient deposit asset start stop : Nat)
  | withdrawn (id recipient asset amount : Nat)
  | cancelled (id sender recipient asset senderAmount recipientAmount : Nat)
deriving DecidableEq

/-- Storage, lib.rs:174-207, with the ledger, the clock (`UnixTime::now().as_secs()`) and the event log. -/
structure State where
  ledger : Ledger
  streams : Nat → Option Stream
  next : Nat
  lib : Nat × Kind → List Nat
  minDep : Nat → Option Nat
  now : Nat
  events : List Event

/-- `Stream::has_finished`, types.rs:102-107. -/
def Stream.finished (st : Stream) : Bool := match st.status with
  | .ongoing => false
  | .completed _ => true

/-- `Stream::delta_of`, types.rs:165-177. -/
def Stream.deltaOf (st : Stream) (now : Nat) : R Nat :=
  if now ≤ st.start then .ok 0
  else if now < st.stop then csub .underflow now st.start
  else csub .underflow st.stop st.start

/-- `Stream::claimed_balance`, types.rs:119-124. -/
def Stream.claimed (st : Stream) : R Nat := csub .underflow st.deposit st.remaining

/-- The `recipient_balance` computed inside `balance_of`, types.rs:181-204. -/
def Stream.vestedRest (st : Stream) (now : Nat) : R Nat := do
  let delta ← st.deltaOf now
  let dur ← csub .underflow st.stop st.start
  if delta = dur then pure st.remaining
  else if st.remaining < st.deposit then do
    let avail ← cmul .overflow delta st.rate
    let cl ← st.claimed
    csub .underflow avail cl
  else cmul .overflow delta st.rate

/-- `Stream::balance_of`, types.rs:180-224. -/
def Stream.balanceOf (st : Stream) (now who : Nat) : R Nat := do
  let delta ← st.deltaOf now
  let rb ← st.vestedRest now
  if who = st.recipient then do
    let dur ← csub .underflow st.stop st.start
    if delta = dur then pure st.remaining else pure rb
  else if who = st.sender then csub .underflow st.remaining rb
  else pure 0

/-- Descending order, the `sort_unstable_by` of the library functions (entries are distinct). -/
def sortDesc (l : List Nat) : List Nat := l.insertionSort (fun a b => b ≤ a)

/-- Adding an id to a bounded list of ids, lib.rs:449-453. -/
def pushId (c : Cfg) (r : List Nat) (id : Nat) : R (List Nat) :=
  if id ∈ r then .ok r
  else if r.length < c.maxStreams then .ok (r ++ [id])
  else .error .excessMaxStreamsCount

/-- `try_push_stream_library`, lib.rs:442-462. -/
def pushLib (c : Cfg) (s : State) (a id : Nat) (k : Kind) : R State := do
  let r ← pushId c (s.lib (a, k)) id
  pure { s with lib := upd s.lib (a, k) (sortDesc r) }

/-- `try_remove_stream_library` with `kind = None`, lib.rs:464-490. -/
def removeLib (lib : Nat × Kind → List Nat) (a id : Nat) : Nat × Kind → List Nat :=
  let rm (lib : Nat × Kind → List Nat) (k : Kind) := upd lib (a, k) (sortDesc ((lib (a, k)).erase id))
  rm (rm (rm lib .send) .receive) .finish

/-- The closure `checked_pop` of `update_finished_stream_library` for one account, lib.rs:414-434.  The
outer `try_mutate` writes the popped list back after the nested removals. -/
def popFinished (c : Cfg) (s : State) (a : Nat) : R State :=
  let r := s.lib (a, .finish)
  if r.length ≤ c.maxFinished then .ok s
  else match r.getLast? with
    | none => .ok s
    | some id => do
      let st ← okOr (s.streams id) .invalidStreamId
      let lib := removeLib (removeLib s.lib st.sender id) st.recipient id
      pure { s with streams := upd s.streams id none, lib := upd lib (a, .finish) r.dropLast }

/-- `update_finished_stream_library`, lib.rs:410-440. -/
def updateFinished (c : Cfg) (s : State) (sender recipient : Nat) : R State := do
  let s ← popFinished c s sender
  popFinished c s recipient

/-- `do_create`, lib.rs:492-542; returns the new stream id. -/
def doCreate (c : Cfg) (s : State) (sender recipient deposit asset start stop : Nat)
    (cancellable : Bool) : R (State × Nat) := do
  ensure (sender ≠ recipient) .recipientIsAlsoSender
  let dur ← csub .invalidDuration stop start
  let rate ← cdiv .invalidRatePerSecond deposit dur
  ensure (rate ≠ 0) .invalidRatePerSecond
  let l ← s.ledger.transfer asset sender c.acct deposit false
  let st : Stream := ⟨deposit, deposit, asset, rate, sender, recipient, start, stop, .ongoing, cancellable⟩
  let id := s.next
  let nx ← cadd .overflow id 1
  let s := { s with ledger := l, next := nx, streams := upd s.streams id (some st) }
  let s ← updateFinished c s sender recipient
  pure ({ s with events := s.events ++ [.created id sender recipient deposit asset start stop] }, id)

/-- `create`, lib.rs:222-252, with `ensure_valid_duration`, lib.rs:398-408. -/
def create (c : Cfg) (s : State) (sender recipient deposit asset start stop : Nat)
    (cancellable : Bool) : R State := do
  let m ← okOr (s.minDep asset) .invalidAssetId
  ensure (m ≤ deposit) .depositLowerThanMinimum
  ensure (s.now ≤ start) .startTimeBeforeCurrentTime
  ensure (start < stop) .endTimeBeforeStartTime
  let (s, id) ← doCreate c s sender recipient deposit asset start stop cancellable
  let s ← pushLib c s sender id .send
  pushLib c s recipient id .receive

/-- `StreamingTrait::create`, lib.rs:546-571, called by other pallets. -/
def traitCreate (c : Cfg) (s : State) (sender recipient deposit asset start stop : Nat)
    (cancellable : Bool) : R State := do
  ensure ((s.minDep asset).isSome) .invalidAssetId
  let (s, id) ← doCreate c s sender recipient deposit asset start stop cancellable
  pushLib c s recipient id .receive

/-- `cancel`, lib.rs:262-307, with `try_cancel`, types.rs:149-154. -/
def cancel (c : Cfg) (s : State) (who id : Nat) : R State := do
  let st ← okOr (s.streams id) .invalidStreamId
  ensure (who = st.sender) .notTheSender
  ensure (st.finished = false) .hasFinished
  ensure (st.cancellable = true) .cannotBeCancelled
  let sb ← st.balanceOf s.now st.sender
  let rb ← st.balanceOf s.now st.recipient
  let l ← s.ledger.transfer st.asset c.acct who sb false
  let l ← l.transfer st.asset c.acct st.recipient rb false
  let st' := { st with remaining := sb, status := .completed true }
  let s := { s with ledger := l, streams := upd s.streams id (some st') }
  let s ← pushLib c s st.sender id .finish
  let s ← pushLib c s st.recipient id .finish
  let s ← updateFinished c s st.sender st.recipient
  pure { s with events := s.events ++ [.cancelled id who st.recipient st.asset sb rb] }

/-- The amount actually paid by `withdraw`, lib.rs:335-342 (`saturating_add` written as a disjunction). -/
def payout (c : Cfg) (st : Stream) (amount : Nat) : Nat :=
  if st.asset = c.native ∧ st.remaining ≤ min maxU128 (amount + c.ed) then st.remaining else amount

/-- `Stream::try_deduct` then `Stream::try_complete`, types.rs:132-147. -/
def Stream.deduct (st : Stream) (amount : Nat) : R Stream := do
  let r ← csub .underflow st.remaining amount
  pure { st with remaining := r, status := if r = 0 then .completed false else st.status }

/-- The library bookkeeping of a stream that has just been completed, lib.rs:347-351. -/
def fileFinished (c : Cfg) (s : State) (st : Stream) (who id : Nat) : R State :=
  if st.finished then do
    let s ← pushLib c s st.sender id .finish
    let s ← pushLib c s who id .finish
    updateFinished c s st.sender who
  else .ok s

/-- `withdraw`, lib.rs:318-368. -/
def withdraw (c : Cfg) (s : State) (who id amount : Nat) : R State := do
  let st ← okOr (s.streams id) .invalidStreamId
  ensure (who = st.recipient) .notTheRecipient
  ensure (st.finished = false) .hasFinished
  let delta ← st.deltaOf s.now
  ensure (delta ≠ 0) .notStarted
  let rb ← st.balanceOf s.now st.recipient
  ensure (amount ≤ rb) .insufficientStreamBalance
  let amt := payout c st amount
  let st' ← st.deduct amt
  let s := { s with streams := upd s.streams id (some st') }
  let s ← fileFinished c s st' who id
  let l ← s.ledger.transfer st.asset c.acct who amt false
  pure { s with ledger := l, events := s.events ++ [.withdrawn id who st.asset amt] }

/-- `set_minimum_deposit`, lib.rs:379-389. -/
def setMin (s : State) (asset m : Nat) : R State := .ok { s with minDep := upd s.minDep asset (some m) }

/-- Every way to call the pallet from outside. -/
inductive Call where
  | create (sender recipient deposit asset start stop : Nat) (cancellable : Bool)
  | traitCreate (sender recipient deposit asset start stop : Nat) (cancellable : Bool)
  | cancel (who id : Nat)
  | withdraw (who id amount : Nat)
  | setMin (asset m : Nat)

/-- Dispatch of a call. -/
def exec (c : Cfg) (s : State) : Call → R State
  | .create sd rc d a st sp cl => create c s sd rc d a st sp cl
  | .traitCreate sd rc d a st sp cl => traitCreate c s sd rc d a st sp cl
  | .cancel who id => cancel c s who id
  | .withdraw who id amt => withdraw c s who id amt
  | .setMin a m => setMin s a m

end Verif.Streaming
