import Verif.Prices.Model
import Mathlib.Data.List.Sort

/-!
# Model of the price oracle as the runtimes configure it

The runtimes instantiate `orml_oracle` (runtime/parallel/src/lib.rs:1360-1380) and give the price pallet its values through
`AggregatedDataProvider` (runtime/parallel/src/lib.rs:1382-1398).  The parameters and the wiring are in the repository; the
code of `orml_oracle` (branch for polkadot-v0.9.38) is not, and is modelled from outside knowledge:

* `feed_values` is signed by a member of the committee or sent by root (which feeds as `RootOperatorAccountId`), at most
  once per operator and block (`HasDispatched`, emptied in `on_finalize`);
* `do_feed_values` stores the operator's raw value with the current time, and then recombines the asset's values;
* `DefaultCombineData` keeps the raw values of the current operators with `timestamp + ExpiresIn > now`; with fewer than
  `MinimumCount` of them (or none) the stored value stays, otherwise the new value is the one with index `count / 2` in the
  order of values (`select_nth_unstable_by`).

Not modelled: events, weights, `OnNewData` (it is `()`), the `u64` overflow of `timestamp + ExpiresIn`.
-/

namespace Verif.Oracle
open Verif Verif.Prices

/-- `orml_oracle::Config`, runtime/parallel/src/lib.rs:1360-1380 and 1680. -/
structure Cfg where
  /-- `MinimumCount` -/
  minCount : Nat
  /-- `ExpiresIn` in milliseconds -/
  expires : Nat
  /-- `RootOperatorAccountId` -/
  root : Nat
  /-- `MaxHasDispatchedSize` -/
  maxDispatched : Nat
  /-- `OracleMaxMembers` -/
  maxMembers : Nat
  /-- the element that `select_nth_unstable_by(len / 2, |a, b| a.value.cmp(&b.value))` finds; among equal values it may be
  any, see `Cfg.OK` -/
  pick : List TSP → Option TSP

/-- Storage of the oracle and of its membership pallet, with the clock. -/
structure State where
  /-- `OracleMembership::sorted_members` -/
  members : List Nat
  /-- `RawValues` -/
  raw : Nat → Nat → Option TSP
  /-- `Values` -/
  values : Nat → Option TSP
  /-- `HasDispatched` -/
  dispatched : List Nat
  now : Nat

/-- Who is asked for raw values: `sorted_members().iter().chain([RootOperatorAccountId])`. -/
def operators (c : Cfg) (s : State) : List Nat := s.members ++ [c.root]

/-- The raw values of `k` that have not expired, with their operators; `read_raw_values` and the `retain` of
`DefaultCombineData`. -/
def fresh (c : Cfg) (s : State) (k : Nat) : List (Nat × TSP) :=
  (operators c s).filterMap (fun w => match s.raw w k with
    | some t => if s.now < t.time + c.expires then some (w, t) else none
    | none => none)

/-- `DefaultCombineData::combine_data`. -/
def combine (c : Cfg) (s : State) (k : Nat) : Option TSP :=
  if (fresh c s k).length < c.minCount ∨ (fresh c s k).length = 0 then s.values k
  else c.pick ((fresh c s k).map (·.2))

/-- One turn of the loop of `do_feed_values`: the raw value is stored. -/
def putRaw (s : State) (w k v : Nat) : State := { s with raw := upd2 s.raw w k (some ⟨v, s.now⟩) }

/-- One turn of the loop of `do_feed_values`. -/
def feedOne (c : Cfg) (s : State) (w k v : Nat) : State :=
  match combine c (putRaw s w k v) k with
  | some t => { putRaw s w k v with values := upd s.values k (some t) }
  | none => putRaw s w k v

/-- `do_feed_values`. -/
def doFeed (c : Cfg) (s : State) (w : Nat) : List (Nat × Nat) → State
  | [] => s
  | (k, v) :: vs => doFeed c (feedOne c s w k v) w vs

/-- `HasDispatched::mutate(|set| set.insert(who))`; a full set refuses, too. -/
def markFed (c : Cfg) (s : State) (w : Nat) : R State := do
  ensure (w ∉ s.dispatched ∧ s.dispatched.length < c.maxDispatched) .duplicateOperation
  pure { s with dispatched := w :: s.dispatched }

/-- `ensure_account`: a member, or root (`none`) as the root operator. -/
def account (c : Cfg) (s : State) : Option Nat → R Nat
  | none => .ok c.root
  | some w => do
    ensure (w ∈ s.members) .originNoPermission
    pure w

/-- `feed_values` (`NoPermission` is `originNoPermission`, `AlreadyFeeded` is `duplicateOperation`). -/
def feedValues (c : Cfg) (s : State) (origin : Option Nat) (vs : List (Nat × Nat)) : R State := do
  let w ← account c s origin
  let s ← markFed c s w
  pure (doFeed c s w vs)

/-- `on_finalize`. -/
def finalize (s : State) : State := { s with dispatched := [] }

/-- Everything that happens to the oracle: feeds, the ends of blocks, decisions of the council about the members
(`MembershipChanged = ()`, runtime/parallel/src/lib.rs:1684-1697: raw values stay), and time. -/
inductive Step (c : Cfg) (s : State) : State → Prop
  | feed (origin : Option Nat) (vs : List (Nat × Nat)) {s' : State} (h : feedValues c s origin vs = .ok s') : Step c s s'
  | finalize : Step c s (finalize s)
  | members (ms : List Nat) (h : ms.length ≤ c.maxMembers) (hn : ms.Nodup) : Step c s { s with members := ms }
  | time (d : Nat) : Step c s { s with now := s.now + d }

/-- A chain on which nothing was ever fed. -/
def Fresh (s : State) : Prop := (∀ w k, s.raw w k = none) ∧ (∀ k, s.values k = none) ∧ s.dispatched = []

/-- States that can occur. -/
inductive Reach (c : Cfg) : State → Prop
  | init {s : State} (h : Fresh s) : Reach c s
  | step {s s' : State} (h : Reach c s) (hs : Step c s s') : Reach c s'

/-- `AggregatedDataProvider::get`, runtime/parallel/src/lib.rs:1384-1388. -/
def get (s : State) (k : Nat) : Option TSP := s.values k

/-- The parameters of the four runtimes: runtime/parallel/src/lib.rs:1361-1364, runtime/heiko/src/lib.rs:1360-1363,
runtime/kerria/src/lib.rs:1357-1360, runtime/vanilla/src/lib.rs:1364-1367; sorting finds the element. -/
def deployed (minCount root : Nat) : Cfg where
  minCount := minCount
  expires := 1000 * 60 * 60
  root := root
  maxDispatched := 100
  maxMembers := 100
  pick := fun l => (l.insertionSort (fun a b => a.value ≤ b.value))[l.length / 2]?

end Verif.Oracle
