import Verif.Farming.Model

/-! # Specification vocabulary for farming -/

namespace Verif.Farming
open Verif

/-- Nobody has the keys of the pallet's accounts, and governance does not name one of them as the payer of
a reward (a self transfer would create an unbacked reward). -/
def Call.signerOK (c : Cfg) : Call → Prop
  | .deposit _ w _ => ∀ a, w ≠ c.acct a
  | .withdraw _ w _ => ∀ a, w ≠ c.acct a
  | .redeem _ w => ∀ a, w ≠ c.acct a
  | .claim _ w => ∀ a, w ≠ c.acct a
  | .dispatch _ w _ _ => ∀ a, w ≠ c.acct a
  | _ => True

/-- What the rest of the chain may do in between: blocks pass, tokens move, but nothing is taken from the
pallet's accounts. -/
structure Env (c : Cfg) (s s' : State) : Prop where
  pools : s'.pools = s.pools
  pos : s'.pos = s.pos
  events : s'.events = s.events
  time : s.now ≤ s'.now
  wf : s'.ledger.WF
  acct : ∀ x, s.ledger.bal x (c.acct x) ≤ s'.ledger.bal x (c.acct x)

/-- One observable step (failed calls change nothing). -/
inductive Step (c : Cfg) : State → State → Prop
  | call {s s' : State} (k : Call) (hk : k.signerOK c) (h : exec c s k = .ok s') : Step c s s'
  | env {s s' : State} (h : Env c s s') : Step c s s'

/-- All states any history can lead to from a chain without pools. -/
inductive Reach (c : Cfg) : State → Prop
  | init (l : Ledger) (now : Nat) (hw : l.WF) :
      Reach c ⟨l, fun _ => none, fun _ _ => Pos.default, now, []⟩
  | step {s s' : State} (h : Reach c s) (hs : Step c s s') : Reach c s'

/-- Withdrawn but not yet redeemed. -/
def Pos.cooling (u : Pos) : Nat := (u.items.map Prod.fst).sum

/-- The reward index of a pool as of block `now`: each block up to the end of the reward period adds
`rate · 10^12 / total`. -/
def Pool.index (p : Pool) (now : Nat) : Nat :=
  if p.total = 0 then p.rps
  else p.rps + (min p.finish now - p.last) * p.rate * APS / p.total

/-- The reward user `w` of pool `k` is entitled to right now: settled plus pending. -/
def claimable (s : State) (k : Key) (w : Nat) : Nat := match s.pools k with
  | none => 0
  | some p => (s.pos k w).reward + (s.pos k w).dep * (p.index s.now - (s.pos k w).paid) / APS

/-- The part of the dispatched rewards of pool `k` that has not been streamed yet. -/
def unstreamed (s : State) (k : Key) : Nat := match s.pools k with
  | none => 0
  | some p => p.rate * (p.finish - s.now)

/-- What pool `k` owes its user `w` in asset `x`: stake, cooling-down stake and rewards. -/
def userOwed (s : State) (x : Nat) (k : Key) (w : Nat) : Nat :=
  (if k.asset = x then (s.pos k w).dep + (s.pos k w).cooling else 0)
    + (if k.reward = x then claimable s k w else 0)

/-- What pool `k` still has to stream in asset `x`. -/
def streamOwed (s : State) (x : Nat) (k : Key) : Nat := if k.reward = x then unstreamed s k else 0

/-- Total dispatched to / claimed from pool `k` according to one event. -/
def Event.dispatched (k : Key) : Event → Nat
  | .rewardAdded k' m => if k' = k then m else 0
  | _ => 0
def Event.claimed (k : Key) : Event → Nat
  | .rewardPaid _ k' m => if k' = k then m else 0
  | _ => 0
def dispatched (s : State) (k : Key) : Nat := (s.events.map (Event.dispatched k)).sum
def claimed (s : State) (k : Key) : Nat := (s.events.map (Event.claimed k)).sum

end Verif.Farming
