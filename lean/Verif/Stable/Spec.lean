import Verif.Stable.Model
import Verif.Amm.Spec

/-!
# Small specification vocabulary for the stableswap pallet
-/

namespace Verif.Stable
open Verif
open Verif.Amm (Pool claimOf)

/-- The two reserves of the pool for the unordered pair `{a, b}`, seen as (reserve of `a`, reserve of `b`).
Pools are stored under (larger id, smaller id). -/
def view (s : State) (a b : Nat) : Option (Nat × Nat) :=
  if b < a then (s.pools (a, b)).map (fun p => (p.base, p.quote))
  else if a < b then (s.pools (b, a)).map (fun p => (p.quote, p.base))
  else none

/-- The LP token of the pool for the pair `{a, b}`. -/
def lpOf (s : State) (a b : Nat) : Option Nat :=
  if b < a then (s.pools (a, b)).map (·.lp)
  else if a < b then (s.pools (b, a)).map (·.lp)
  else none

/-- Sane runtime constants (the vanilla runtime, `runtime/vanilla/src/lib.rs:1386-1406, 1804-1807`, has
fees 0.25 % and 0.05 %, minimum liquidity 1000, amplification 85). -/
structure Cfg.OK (c : Cfg) : Prop where
  accts : c.acct ≠ c.lock
  fee : c.lpFee + c.fee ≤ million
  minLiq : 0 < c.minLiq
  amp : 0 < c.amp

/-- The constants of the vanilla runtime (account numbers are arbitrary). -/
def vanilla : Cfg where
  acct := 1000
  lock := 1001
  feeTo := 1002
  lpFee := 2500
  fee := 500
  minLiq := 1000
  amp := 85

theorem vanilla_ok : vanilla.OK := ⟨by decide, by decide, by decide, by decide⟩

/-- A call is authorised by somebody else than the two accounts nobody has the key of. -/
def Call.signerOK (c : Cfg) : Call → Prop
  | .add who _ _ _ => who ≠ c.acct ∧ who ≠ c.lock
  | .remove who _ _ => who ≠ c.acct ∧ who ≠ c.lock
  | .create _ _ rcv _ => rcv ≠ c.acct ∧ rcv ≠ c.lock
  | .swap who _ _ _ => who ≠ c.acct ∧ who ≠ c.lock

/-- What the rest of the chain may do between two calls: anything to the ledger that keeps it
consistent and takes nothing from the pallet account and the lock account; time passes. -/
structure Env (c : Cfg) (s s' : State) : Prop where
  pools : s'.pools = s.pools
  wf : s'.ledger.WF
  acct : ∀ x, s.ledger.bal x c.acct ≤ s'.ledger.bal x c.acct
  lock : ∀ x, s.ledger.bal x c.lock ≤ s'.ledger.bal x c.lock
  time : s.block ≤ s'.block

/-- One observable step of the chain.  (Failed calls change nothing.) -/
inductive Step (c : Cfg) : State → State → Prop
  | call {s s' : State} (k : Call) (hk : k.signerOK c) (h : exec c s k = .ok s') : Step c s s'
  | env {s s' : State} (h : Env c s s') : Step c s s'

/-- All states any history can lead to, from a chain without pools. -/
inductive Reach (c : Cfg) : State → Prop
  | init (s : State) (hp : ∀ k, s.pools k = none) (hw : s.ledger.WF) : Reach c s
  | step {s s' : State} (h : Reach c s) (hs : Step c s s') : Reach c s'

/-- Run a list of calls, stopping at the first failure. -/
def run (c : Cfg) (s : State) : List Call → R State
  | [] => .ok s
  | k :: ks => do
    let s ← exec c s k
    run c s ks

theorem run_reach {c : Cfg} {s s' : State} {ks : List Call} (h : Reach c s)
    (hk : ∀ k ∈ ks, k.signerOK c) (hr : run c s ks = .ok s') : Reach c s' := by
  induction ks generalizing s with
  | nil => simp only [run, Except.ok.injEq] at hr; subst hr; exact h
  | cons k ks ih =>
    simp only [run, bind_ok_iff] at hr
    obtain ⟨s1, h1, h2⟩ := hr
    exact ih (.step h (.call k (hk k (by simp)) h1)) (fun k' hk' => hk k' (by simp [hk'])) h2

end Verif.Stable
