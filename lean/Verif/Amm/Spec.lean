import Verif.Amm.Model

/-!
# Small specification vocabulary for the AMM

Everything a reader needs to understand the property theorems in `Verif/Amm/Props.lean`.
-/

namespace Verif.Amm
open Verif

/-- The two reserves of the pool for the unordered pair `{a, b}`, seen as (reserve of `a`, reserve of `b`).
Pools are stored under (larger id, smaller id). -/
def view (s : State) (a b : Nat) : Option (Nat × Nat) :=
  if b < a then (s.pools (a, b)).map (fun p => (p.base, p.quote))
  else if a < b then (s.pools (b, a)).map (fun p => (p.quote, p.base))
  else none

/-- The LP token of the pool for the pair `{a, b}`. -/
def lpOf (s : State) (a b : Nat) : Option Nat :=
  if b < a then (s.pools (a, b)).map (·.lp)
  else if a < b then (s.pools (b, a)).map (·.lp)
  else none

/-- How much of asset `x` the pool stored under key `k` claims to own. -/
def claimOf (x : Nat) (k : Nat × Nat) (o : Option Pool) : Nat := match o with
  | none => 0
  | some p => (if k.1 = x then p.base else 0) + (if k.2 = x then p.quote else 0)

/-- Sane runtime constants (all runtimes in `/repo/runtime` satisfy this: 0.3 % or 0.25 % fee,
minimum liquidity 1000, distinct key-less accounts). -/
structure Cfg.OK (c : Cfg) : Prop where
  accts : c.acct ≠ c.lock
  fee : c.lpFee ≤ million
  minLiq : 0 < c.minLiq

/-- A call is authorised by somebody else than the two accounts nobody has the key of. -/
def Call.signerOK (c : Cfg) : Call → Prop
  | .add who _ _ _ => who ≠ c.acct ∧ who ≠ c.lock
  | .remove who _ _ => who ≠ c.acct ∧ who ≠ c.lock
  | .create _ _ rcv _ => rcv ≠ c.acct ∧ rcv ≠ c.lock
  | .swap who _ _ _ => who ≠ c.acct ∧ who ≠ c.lock
  | .setFee _ => True
  | .setFeeTo _ => True

/-- What the rest of the chain may do between two AMM calls: anything to the ledger that keeps it
consistent and takes nothing from the AMM account and the lock account; time passes. -/
structure Env (c : Cfg) (s s' : State) : Prop where
  pools : s'.pools = s.pools
  fee : s'.fee = s.fee
  feeTo : s'.feeTo = s.feeTo
  wf : s'.ledger.WF
  acct : ∀ x, s.ledger.bal x c.acct ≤ s'.ledger.bal x c.acct
  lock : ∀ x, s.ledger.bal x c.lock ≤ s'.ledger.bal x c.lock
  time : s.block ≤ s'.block

/-- One observable step of the chain.  (Failed calls change nothing.) -/
inductive Step (c : Cfg) : State → State → Prop
  | call {s s' : State} (k : Call) (hk : k.signerOK c) (h : exec c s k = .ok s') : Step c s s'
  | env {s s' : State} (h : Env c s s') : Step c s s'

/-- All states any history can lead to, from a chain without pools. -/
inductive Reach (c : Cfg) : State → Prop
  | init (s : State) (hp : ∀ k, s.pools k = none) (hw : s.ledger.WF) : Reach c s
  | step {s s' : State} (h : Reach c s) (hs : Step c s s') : Reach c s'

end Verif.Amm
