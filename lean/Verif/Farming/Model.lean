import Verif.Prelude.Ledger

/-!
# Model of `pallets/farming/src/lib.rs` and `pallets/farming/src/types.rs`

Balances are `u128` and block numbers `u32`, as in the runtimes.  Privileged origins are not modelled
(any caller may be governance); weights are not modelled.  Events are an append-only log.
-/

namespace Verif.Farming
open Verif

/-- `Config`, lib.rs:68-101. -/
structure Cfg where
  /-- `pool_account_id`, lib.rs:801-805: the account of an asset, shared by all pools that stake or pay it -/
  acct : Nat → Nat
  /-- `MaxUserLockItemsCount` -/
  maxItems : Nat
  /-- `LockPoolMaxDuration` -/
  lockMax : Nat
  /-- `CoolDownMaxDuration` -/
  coolMax : Nat

/-- Key of `Pools`, lib.rs:187-197. -/
structure Key where
  asset : Nat
  reward : Nat
  lock : Nat
deriving DecidableEq

/-- `PoolInfo`, types.rs:13-33. -/
structure Pool where
  active : Bool
  total : Nat
  unlock : Nat
  cool : Nat
  duration : Nat
  finish : Nat
  last : Nat
  rate : Nat
  rps : Nat
deriving DecidableEq

/-- `UserPosition`, types.rs:113-123; items are (amount, block of withdrawal). -/
structure Pos where
  dep : Nat
  items : List (Nat × Nat)
  reward : Nat
  paid : Nat
deriving DecidableEq

/-- `UserPosition::default`, types.rs:125-136. -/
def Pos.default : Pos := ⟨0, [], 0, 0⟩

/-- `Event`, lib.rs:137-178, the events that report amounts. -/
inductive Event where
  | deposited (who : Nat) (k : Key) (amount : Nat)
  | withdrew (who : Nat) (k : Key) (amount : Nat)
  | redeemed (who : Nat) (k : Key) (amount : Nat)
  | rewardPaid (who : Nat) (k : Key) (amount : Nat)
  | rewardAdded (k : Key) (amount : Nat)
deriving DecidableEq

/-- Storage, lib.rs:185-216, with the ledger, the block number and the event log. -/
structure State where
  ledger : Ledger
  pools : Key → Option Pool
  pos : Key → Nat → Pos
  now : Nat
  events : List Event

/-- `amount_per_share`, types.rs:108-110. -/
def APS : Nat := 1000000000000

/-- `last_reward_block_applicable`, types.rs:56-62. -/
def Pool.lastBlock (p : Pool) (now : Nat) : Nat := if p.finish < now then p.finish else now

/-- `reward_per_share`, types.rs:66-90 (`saturating_sub` is truncated subtraction; intermediate values
are `BigUint`). -/
def Pool.rewardPerShare (p : Pool) (now : Nat) : R Nat :=
  if p.total = 0 then .ok p.rps
  else do
    let q ← cdiv .overflow ((p.lastBlock now - p.last) * p.rate * APS) p.total
    let inc ← toU128 .overflow q
    cadd .overflow p.rps inc

/-- `update_reward_per_share`, types.rs:94-102. -/
def Pool.update (p : Pool) (now : Nat) : R Pool := do
  let r ← p.rewardPerShare now
  pure { p with rps := r, last := p.lastBlock now }

/-- The settlement of one user inside `update_reward`, lib.rs:766-792. -/
def Pool.settle (p : Pool) (now : Nat) (u : Pos) : R Pos := do
  let r ← p.rewardPerShare now
  let diff ← csub .overflow r u.paid
  let q ← cdiv .overflow (u.dep * diff) APS
  let earned ← toU128 .overflow (q + u.reward)
  pure { u with reward := earned, paid := p.rps }

/-- `update_reward`, lib.rs:750-799, for `who = None`. -/
def updateNone (s : State) (k : Key) : R State := do
  let p ← okOr (s.pools k) .poolDoesNotExist
  let p ← p.update s.now
  pure { s with pools := upd s.pools k (some p) }

/-- `update_reward`, lib.rs:750-799, for `who = Some(w)`. -/
def updateSome (s : State) (k : Key) (w : Nat) : R State := do
  let p ← okOr (s.pools k) .poolDoesNotExist
  let p ← p.update s.now
  let u ← p.settle s.now (s.pos k w)
  pure { s with
    pools := upd s.pools k (some p),
    pos := upd s.pos k (upd (s.pos k) w u) }

/-- `create`, lib.rs:232-264. -/
def create (c : Cfg) (s : State) (k : Key) (cool : Nat) : R State := do
  ensure ((s.pools k).isNone) .poolAlreadyExists
  ensure (k.lock ≤ c.lockMax) .excessMaxLockDuration
  ensure (cool ≤ c.coolMax) .excessMaxCoolDownDuration
  pure { s with pools := upd s.pools k (some ⟨false, 0, 0, cool, 0, 0, 0, 0, 0⟩) }

/-- `set_pool_status`, lib.rs:277-303. -/
def setStatus (s : State) (k : Key) (b : Bool) : R State := do
  let p ← okOr (s.pools k) .poolDoesNotExist
  ensure (p.active ≠ b) .poolInStatus
  pure { s with pools := upd s.pools k (some { p with active := b }) }

/-- `set_pool_cool_down_duration`, lib.rs:316-350. -/
def setCool (c : Cfg) (s : State) (k : Key) (cool : Nat) : R State := do
  ensure (cool ≤ c.coolMax) .excessMaxCoolDownDuration
  let p ← okOr (s.pools k) .poolDoesNotExist
  ensure (p.cool ≠ cool) .poolIsInTargetCoolDownDuration
  pure { s with pools := upd s.pools k (some { p with cool := cool }) }

/-- `reset_pool_unlock_height`, lib.rs:362-392 (`current_block_number + lock_duration` panics on
overflow). -/
def resetUnlock (s : State) (k : Key) : R State := do
  let p ← okOr (s.pools k) .poolDoesNotExist
  ensure (p.unlock < s.now) .poolUnderLock
  ensure (s.now + k.lock ≤ maxU32) .panic
  pure { s with pools := upd s.pools k (some { p with unlock := s.now + k.lock }) }

/-- `deposit`, lib.rs:405-457. -/
def deposit (c : Cfg) (s : State) (k : Key) (who amount : Nat) : R State := do
  ensure ((s.pools k).isSome) .poolDoesNotExist
  ensure (amount ≠ 0) .notAValidAmount
  let s ← updateSome s k who
  let p ← okOr (s.pools k) .poolDoesNotExist
  ensure (p.active = true) .poolIsNotActive
  let l ← s.ledger.transfer k.asset who (c.acct k.asset) amount false
  let t ← cadd .overflow p.total amount
  let u := s.pos k who
  let d ← cadd .overflow u.dep amount
  pure { s with
    ledger := l,
    pools := upd s.pools k (some { p with total := t }),
    pos := upd s.pos k (upd (s.pos k) who { u with dep := d }),
    events := s.events ++ [.deposited who k amount] }

/-- The release of withdrawn stake, lib.rs:513-532: paid out at once or put into the cool-down list. -/
def release (c : Cfg) (s : State) (k : Key) (p : Pool) (u : Pos) (who amount : Nat) : R (Ledger × Pos) :=
  if p.cool = 0 then do
    let l ← s.ledger.transfer k.asset (c.acct k.asset) who amount false
    pure (l, u)
  else do
    ensure (u.items.length < c.maxItems) .excessMaxUserLockItemsCount
    pure (s.ledger, { u with items := u.items ++ [(amount, s.now)] })

/-- `withdraw`, lib.rs:470-546. -/
def withdraw (c : Cfg) (s : State) (k : Key) (who amount : Nat) : R State := do
  ensure ((s.pools k).isSome) .poolDoesNotExist
  ensure (amount ≠ 0) .notAValidAmount
  ensure (amount ≤ (s.pos k who).dep) .depositBalanceLow
  let s ← updateSome s k who
  let p ← okOr (s.pools k) .poolDoesNotExist
  ensure (p.unlock ≤ s.now) .poolUnderLock
  let t ← csub .overflow p.total amount
  let d ← csub .overflow (s.pos k who).dep amount
  let (l, u) ← release c s k p { s.pos k who with dep := d } who amount
  pure { s with
    ledger := l,
    pools := upd s.pools k (some { p with total := t }),
    pos := upd s.pos k (upd (s.pos k) who u),
    events := s.events ++ [.withdrew who k amount] }

/-- `item.1.saturating_add(pool_info.cool_down_duration)` and the comparison with the block number,
lib.rs:573-574 and 582-584. -/
def matured (cool now : Nat) (it : Nat × Nat) : Bool := decide (min maxU32 (it.2 + cool) ≤ now)

/-- The loop that adds up the matured items, lib.rs:571-580. -/
def sumMatured (cool now : Nat) : Nat → List (Nat × Nat) → R Nat
  | acc, [] => .ok acc
  | acc, it :: its =>
    if matured cool now it then do
      let acc ← cadd .overflow acc it.1
      sumMatured cool now acc its
    else sumMatured cool now acc its

/-- `if amount > 0 { T::Assets::transfer(..)? }`, lib.rs:587-590 and 724-734. -/
def payIf (l : Ledger) (a src dst amount : Nat) : R Ledger :=
  if 0 < amount then l.transfer a src dst amount false else .ok l

/-- `redeem`, lib.rs:558-602. -/
def redeem (c : Cfg) (s : State) (k : Key) (who : Nat) : R State := do
  let p ← okOr (s.pools k) .poolDoesNotExist
  let u := s.pos k who
  let total ← sumMatured p.cool s.now 0 u.items
  let u := { u with items := u.items.filter (fun it => !matured p.cool s.now it) }
  let l ← payIf s.ledger k.asset (c.acct k.asset) who total
  pure { s with
    ledger := l,
    pos := upd s.pos k (upd (s.pos k) who u),
    events := s.events ++ [.redeemed who k total] }

/-- The payment of a claim, lib.rs:633-645. -/
def payReward (c : Cfg) (l : Ledger) (k : Key) (u : Pos) (who : Nat) : R (Ledger × Pos) :=
  if 0 < u.reward then do
    let l ← l.transfer k.reward (c.acct k.reward) who u.reward false
    pure (l, { u with reward := 0 })
  else .ok (l, u)

/-- `claim`, lib.rs:614-655. -/
def claim (c : Cfg) (s : State) (k : Key) (who : Nat) : R State := do
  ensure ((s.pools k).isSome) .poolDoesNotExist
  let s ← updateSome s k who
  let (l, u) ← payReward c s.ledger k (s.pos k who) who
  pure { s with
    ledger := l,
    pos := upd s.pos k (upd (s.pos k) who u),
    events := s.events ++ [.rewardPaid who k (s.pos k who).reward] }

/-- The new reward rate of `dispatch_reward`, lib.rs:697-717. -/
def newRate (p : Pool) (now amount dur : Nat) : R Nat :=
  if p.finish ≤ now then cdiv .overflow amount dur
  else do
    let rem ← csub .overflow p.finish now
    let left ← cmul .overflow rem p.rate
    let total ← cadd .overflow left amount
    cdiv .overflow total dur

/-- `dispatch_reward`, lib.rs:670-745. -/
def dispatch (c : Cfg) (s : State) (k : Key) (payer amount dur : Nat) : R State := do
  ensure ((s.pools k).isSome) .poolDoesNotExist
  ensure (dur ≠ 0) .notAValidDuration
  let s ← updateNone s k
  let p ← okOr (s.pools k) .poolDoesNotExist
  let rate ← newRate p s.now amount dur
  ensure (s.now + dur ≤ maxU32) .overflow
  let p := { p with duration := dur, finish := s.now + dur, rate := rate, last := s.now }
  let l ← payIf s.ledger k.reward payer (c.acct k.reward) amount
  pure { s with
    ledger := l,
    pools := upd s.pools k (some p),
    events := s.events ++ [.rewardAdded k amount] }

/-- Every extrinsic of the pallet. -/
inductive Call where
  | create (k : Key) (cool : Nat)
  | setStatus (k : Key) (b : Bool)
  | setCool (k : Key) (cool : Nat)
  | resetUnlock (k : Key)
  | deposit (k : Key) (who amount : Nat)
  | withdraw (k : Key) (who amount : Nat)
  | redeem (k : Key) (who : Nat)
  | claim (k : Key) (who : Nat)
  | dispatch (k : Key) (payer amount dur : Nat)

/-- Dispatch of a call. -/
def exec (c : Cfg) (s : State) : Call → R State
  | .create k cool => create c s k cool
  | .setStatus k b => setStatus s k b
  | .setCool k cool => setCool c s k cool
  | .resetUnlock k => resetUnlock s k
  | .deposit k w m => deposit c s k w m
  | .withdraw k w m => withdraw c s k w m
  | .redeem k w => redeem c s k w
  | .claim k w => claim c s k w
  | .dispatch k w m d => dispatch c s k w m d

end Verif.Farming
