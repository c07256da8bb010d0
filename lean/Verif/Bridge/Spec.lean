import Verif.Bridge.Model

/-! # Specification vocabulary for the bridge -/

namespace Verif.Bridge
open Verif

/-- What the rest of the chain may do in between: tokens move. -/
structure Env (s s' : State) : Prop where
  eq : s' = { s with ledger := s'.ledger }
  wf : s'.ledger.WF

/-- One observable step (failed calls change nothing). -/
inductive Step (c : Cfg) : State → State → Prop
  | call {s s' : State} (k : Call) (h : exec c s k = .ok s') : Step c s s'
  | block {s : State} : Step c s (newBlock s)
  | members {s : State} (ms : List Nat) : Step c s (changeMembers c s ms)
  | env {s s' : State} (h : Env s s') : Step c s s'

/-- All states any history can lead to from a chain on which nothing is registered. -/
inductive Reach (c : Cfg) : State → Prop
  | init (l : Ledger) (ms : List Nat) (now : Nat) (hw : l.WF) :
      Reach c ⟨l, 1, fun _ => none, fun _ => none, fun _ => none, fun _ => none, fun _ _ => none, ms, now, []⟩
  | step {s s' : State} (h : Reach c s) (hs : Step c s s') : Reach c s'

/-- The events (newest first) since chain `ch` was last registered. -/
def since (ch : Nat) (evs : List Event) : List Event := evs.takeWhile (fun e => decide (e ≠ .registered ch))

/-- Event `e` resolves nonce `n` of chain `ch`: the transfer was paid out or voted down. -/
def Event.resolves (ch n : Nat) : Event → Bool
  | .minted ch' n' _ => decide (ch' = ch ∧ n' = n)
  | .rejected ch' n' => decide (ch' = ch ∧ n' = n)
  | _ => false

/-- Event `e` is a payout for nonce `n` of chain `ch`. -/
def Event.pays (ch n : Nat) : Event → Bool
  | .minted ch' n' _ => decide (ch' = ch ∧ n' = n)
  | _ => false

/-- The nonce of an outgoing transfer to chain `ch`. -/
def Event.sentNonce (ch : Nat) : Event → Option Nat
  | .teleported _ ch' n _ _ _ _ => if ch' = ch then some n else none
  | _ => none

/-- A well-formed registry: intervals are non-empty, in ascending order, and neither overlap nor touch. -/
structure GoodReg (reg : List (Nat × Nat)) : Prop where
  nonempty : ∀ r ∈ reg, r.1 ≤ r.2
  apart : reg.Pairwise (fun a b => a.2 + 1 < b.1)

end Verif.Bridge
