import Verif.Prelude.Ledger
import Mathlib.Data.List.Sort

/-!
# Model of `pallets/liquid-staking/src/types.rs` and `pallets/liquid-staking/src/distribution.rs`

Balances are `u128` and eras `u32`, as in the runtimes.
-/

namespace Verif.Staking
open Verif

/-- `u128::saturating_add`. -/
def satAdd (a b : Nat) : Nat := min maxU128 (a + b)

/-! ### The matching pool -/

/-- `ReservableAmount`, types.rs:14-17. -/
structure Half where
  total : Nat
  reserved : Nat
deriving DecidableEq

/-- `free`, types.rs:20-25. -/
def Half.free (h : Half) : R Nat := csub .underflow h.total h.reserved

/-- `MatchingLedger`, types.rs:29-35. -/
structure Pool where
  stake : Half
  unstake : Half
deriving DecidableEq

/-- The split of `matching`, types.rs:50-67: (bond, rebond, unbond). -/
def split (fs fu unbonding : Nat) : Nat × Nat × Nat :=
  if fs ≤ fu then (0, 0, fu - fs)
  else if fs - fu < unbonding then (0, fs - fu, 0)
  else (fs - fu - unbonding, unbonding, 0)

/-- `matching`, types.rs:43-70. -/
def Pool.matching (p : Pool) (unbonding : Nat) : R (Nat × Nat × Nat) := do
  let fs ← p.stake.free
  let fu ← p.unstake.free
  pure (split fs fu unbonding)

/-- `add_stake_amount` / `add_unstake_amount`, types.rs:72-88, on one half. -/
def Half.add (h : Half) (m : Nat) : R Half := do
  let t ← cadd .overflow h.total m
  pure { h with total := t }

/-- `sub_stake_amount` / `sub_unstake_amount`, types.rs:104-130, on one half. -/
def Half.sub (h : Half) (m : Nat) : R Half := do
  let f ← h.free
  ensure (m ≤ f) .underflow
  let t ← csub .underflow h.total m
  pure { h with total := t }

/-- `set_stake_amount_lock` / `set_unstake_amount_lock`, types.rs:132-143, 154-165, on one half. -/
def Half.lock (h : Half) (m : Nat) : R Half := do
  let r ← cadd .overflow h.reserved m
  ensure (r ≤ h.total) .overflow
  pure { h with reserved := r }

/-- `remove_stake_amount_lock` / `remove_unstake_amount_lock`, types.rs:145-152, 167-174, on one half. -/
def Half.unlock (h : Half) (m : Nat) : R Half := do
  let r ← csub .underflow h.reserved m
  pure { h with reserved := r }

/-- `clear`, types.rs:176-194. -/
def Pool.clear (p : Pool) : R Pool := do
  let fs ← p.stake.free
  let fu ← p.unstake.free
  if fs ≠ fu then pure p
  else do
    let a ← csub .underflow p.stake.total fs
    let b ← csub .underflow p.unstake.total fs
    pure { stake := { p.stake with total := a }, unstake := { p.unstake with total := b } }

/-- `consolidate_stake`, types.rs:90-95. -/
def Pool.consolidateStake (p : Pool) (m : Nat) : R Pool := do
  let h ← p.stake.unlock m
  let h ← h.sub m
  Pool.clear { p with stake := h }

/-- `consolidate_unstake`, types.rs:97-102. -/
def Pool.consolidateUnstake (p : Pool) (m : Nat) : R Pool := do
  let h ← p.unstake.unlock m
  let h ← h.sub m
  Pool.clear { p with unstake := h }

/-! ### Requests and staking ledgers -/

/-- `XcmRequest`, types.rs:199-225.  The slashing spans and nomination targets, which no code reads back,
are dropped. -/
inductive Req where
  | bond (i m : Nat)
  | bondExtra (i m : Nat)
  | unbond (i m : Nat)
  | rebond (i m : Nat)
  | withdraw (i : Nat)
  | nominate (i : Nat)
deriving DecidableEq

/-- `UnlockChunk`, types.rs:229-236. -/
structure Chunk where
  value : Nat
  era : Nat
deriving DecidableEq

/-- `StakingLedger`, types.rs:240-258, without the stash account (a function of the index) and the claimed
rewards (never read). -/
structure SLedger where
  total : Nat
  active : Nat
  unlocking : List Chunk
deriving DecidableEq

/-- `StakingLedger::new`, types.rs:260-268. -/
def SLedger.new (v : Nat) : SLedger := ⟨v, v, []⟩

/-- `total = total.saturating_sub(chunk.value)` over the removed chunks, types.rs:273-281. -/
def subChunks : Nat → List Chunk → Nat
  | t, [] => t
  | t, ch :: xs => subChunks (t - ch.value) xs

/-- `consolidate_unlocked`, types.rs:272-283. -/
def SLedger.consolidate (l : SLedger) (era : Nat) : SLedger :=
  { l with
    total := subChunks l.total (l.unlocking.filter (fun ch => decide (ch.era ≤ era))),
    unlocking := l.unlocking.filter (fun ch => decide (era < ch.era)) }

/-- The loop of `rebond`, types.rs:289-305, over the chunks from the last to the first. -/
def rebondGo (v : Nat) : List Chunk → Nat → Nat → R (List Chunk × Nat)
  | [], _, active => .ok ([], active)
  | ch :: rest, acc, active => do
    let t ← cadd .panic acc ch.value
    if t ≤ v then do
      let active ← cadd .panic active ch.value
      if v ≤ t then .ok (rest, active) else rebondGo v rest t active
    else do
      let active ← cadd .panic active (v - acc)
      .ok ({ ch with value := ch.value - (v - acc) } :: rest, active)

/-- `rebond`, types.rs:286-306. -/
def SLedger.rebond (l : SLedger) (v : Nat) : R SLedger := do
  let x ← rebondGo v l.unlocking.reverse 0 l.active
  pure { l with active := x.2, unlocking := x.1.reverse }

/-- `bond_extra`, types.rs:310-313 (plain additions panic on overflow). -/
def SLedger.bondExtra (l : SLedger) (v : Nat) : R SLedger := do
  let t ← cadd .panic l.total v
  let a ← cadd .panic l.active v
  pure { l with total := t, active := a }

/-- Merge into the last chunk if it has the same era, else append: types.rs:318-332 and lib.rs:574-585. -/
def pushChunk (xs : List Chunk) (v era : Nat) : List Chunk := match xs.getLast? with
  | some ch => if ch.era = era then xs.dropLast ++ [⟨satAdd ch.value v, era⟩] else xs ++ [⟨v, era⟩]
  | none => [⟨v, era⟩]

/-- `unbond`, types.rs:317-339 (`active -= value` panics on underflow). -/
def SLedger.unbond (l : SLedger) (v era : Nat) : R SLedger := do
  let a ← csub .panic l.active v
  pure { l with active := a, unlocking := pushChunk l.unlocking v era }

/-- `UnstakeProvider`, types.rs:343-347. -/
inductive Provider where
  | relay | loans | pool
deriving DecidableEq

/-! ### Distribution strategies -/

/-- `AverageDistribution::get_bond_distributions`, distribution.rs:9-34; entries are
(index, active, total). -/
def avgBond (xs : List (Nat × Nat × Nat)) (input cap minBond : Nat) : List (Nat × Nat) :=
  let amount := input / xs.length
  xs.filterMap (fun x =>
    if satAdd amount x.2.1 < minBond then none
    else if min (cap - x.2.2) amount = 0 then none
    else some (x.1, min (cap - x.2.2) amount))

/-- `AverageDistribution::get_unbond_distributions`, distribution.rs:36-59. -/
def avgUnbond (xs : List (Nat × Nat)) (input minBond : Nat) : List (Nat × Nat) :=
  let amount := input / xs.length
  xs.filterMap (fun x =>
    if x.2 - amount < minBond then none
    else if amount = 0 then none
    else some (x.1, amount))

/-- The loop of `AverageDistribution::get_rebond_distributions`, distribution.rs:72-78: the amount shrinks
along the way. -/
def avgRebondGo : Nat → List (Nat × Nat) → List (Nat × Nat)
  | _, [] => []
  | amount, x :: xs =>
    if min amount x.2 = 0 then avgRebondGo (min amount x.2) xs
    else (x.1, min amount x.2) :: avgRebondGo (min amount x.2) xs

/-- `AverageDistribution::get_rebond_distributions`, distribution.rs:61-81. -/
def avgRebond (xs : List (Nat × Nat)) (input : Nat) : List (Nat × Nat) := avgRebondGo (input / xs.length) xs

/-- The loop of `MaxMinDistribution::get_bond_distributions`, distribution.rs:98-115. -/
def maxMinBondGo (cap minBond : Nat) : Nat → List (Nat × Nat × Nat) → List (Nat × Nat)
  | _, [] => []
  | remain, x :: xs =>
    if remain = 0 then []
    else if min (cap - x.2.2) remain = 0 then []
    else if satAdd (min (cap - x.2.2) remain) x.2.1 < minBond then maxMinBondGo cap minBond remain xs
    else (x.1, min (cap - x.2.2) remain) :: maxMinBondGo cap minBond (remain - min (cap - x.2.2) remain) xs

/-- `MaxMinDistribution::get_bond_distributions`, distribution.rs:86-118 (ascending by active amount). -/
def maxMinBond (xs : List (Nat × Nat × Nat)) (input cap minBond : Nat) : List (Nat × Nat) :=
  maxMinBondGo cap minBond input (xs.insertionSort (fun a b => a.2.1 ≤ b.2.1))

/-- The loop of `MaxMinDistribution::get_unbond_distributions` (`floor` = minimum bond),
distribution.rs:131-141, and of `get_rebond_distributions` (`floor` = 0), distribution.rs:156-166. -/
def maxMinTakeGo (floor : Nat) : Nat → List (Nat × Nat) → List (Nat × Nat)
  | _, [] => []
  | remain, x :: xs =>
    if remain = 0 then []
    else if min remain (x.2 - floor) = 0 then maxMinTakeGo floor remain xs
    else (x.1, min remain (x.2 - floor)) :: maxMinTakeGo floor (remain - min remain (x.2 - floor)) xs

/-- `MaxMinDistribution::get_unbond_distributions`, distribution.rs:120-144 (descending). -/
def maxMinUnbond (xs : List (Nat × Nat)) (input minBond : Nat) : List (Nat × Nat) :=
  maxMinTakeGo minBond input (xs.insertionSort (fun a b => b.2 ≤ a.2))

/-- `MaxMinDistribution::get_rebond_distributions`, distribution.rs:146-169 (descending). -/
def maxMinRebond (xs : List (Nat × Nat)) (input : Nat) : List (Nat × Nat) :=
  maxMinTakeGo 0 input (xs.insertionSort (fun a b => b.2 ≤ a.2))

/-- The two strategies; all runtimes use `MaxMinDistribution`. -/
inductive Strategy where
  | average | maxMin
deriving DecidableEq

/-- `get_bond_distributions`, distribution.rs:9-34, 86-118. -/
def Strategy.bond : Strategy → List (Nat × Nat × Nat) → Nat → Nat → Nat → List (Nat × Nat)
  | .average => avgBond
  | .maxMin => maxMinBond
/-- `get_unbond_distributions`, distribution.rs:36-59, 120-144. -/
def Strategy.unbond : Strategy → List (Nat × Nat) → Nat → Nat → List (Nat × Nat)
  | .average => avgUnbond
  | .maxMin => maxMinUnbond
/-- `get_rebond_distributions`, distribution.rs:61-81, 146-169. -/
def Strategy.rebond : Strategy → List (Nat × Nat) → Nat → List (Nat × Nat)
  | .average => avgRebond
  | .maxMin => maxMinRebond

end Verif.Staking
