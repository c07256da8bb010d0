import Verif.Crowdloans.Lemmas
import Verif.Prelude.Sums

/-!
# Crowdloans: reachable states and the vocabulary of the theorems
-/

namespace Verif.Crowdloans
open Verif

/-- What the runtime guarantees: `D` is the set of derivative tokens only this pallet mints and burns. -/
structure CfgOK (c : Cfg) (D : Nat → Prop) : Prop where
  native : c.native ≠ c.relay
  xcm : c.acct ≠ c.xcmAcct
  relayD : ¬ D c.relay
  nativeD : ¬ D c.native

/-- The chain before the pallet is used. -/
structure Genesis (D : Nat → Prop) (s : State) : Prop where
  vaults : ∀ k, s.vaults k = none
  leases : ∀ p, s.leaseOf p = none
  ctokens : ∀ l, s.ctokenOf l = none
  child : ∀ p, s.child p = []
  requests : ∀ q, s.requests q = none
  log : s.log = []
  wf : s.tok.WF
  iss : ∀ T, D T → s.tok.iss T = 0

/-- Anything else may happen between two calls: other pallets move, mint and burn tokens, time passes, fees and the
message queue change — but nobody else moves the pallet account's relay tokens or mints derivative tokens. -/
structure Env (c : Cfg) (D : Nat → Prop) (s s' : State) : Prop where
  state : s' = { s with
    str := s'.str
    nextQuery := s'.nextQuery
    relayBlock := s'.relayBlock
    fee := s'.fee
    sendOk := s'.sendOk
    decimal := s'.decimal
    nonce := s'.nonce }
  wf : s'.tok.WF
  bal : s.tok.bal c.relay c.acct ≤ s'.tok.bal c.relay c.acct
  iss : ∀ T, D T → s'.tok.iss T = s.tok.iss T
  query : s.nextQuery ≤ s'.nextQuery

/-- Calls that can be made: the pallet account signs nothing, vaults issue derivative tokens. -/
def callOK (c : Cfg) (D : Nat → Prop) : Call → Prop
  | .contribute who _ _ _ => who ≠ c.acct
  | .createVault _ ct _ _ _ => D ct
  | _ => True

/-- Every state the pallet can be in, after any number of calls by anybody in any order. -/
inductive Reach (c : Cfg) (D : Nat → Prop) : State → Prop
  | init {s : State} (h : Genesis D s) : Reach c D s
  | call {s s' : State} {x : Call} (hr : Reach c D s) (hx : callOK c D x) (h : exec c s x = .ok s') : Reach c D s'
  | env {s s' : State} (hr : Reach c D s) (he : Env c D s s') : Reach c D s'

/-! ## Sums over the record of payments -/

/-- The vault (trie index) an event belongs to. -/
def Ev.trie : Ev → Nat
  | .paid t _ _ => t
  | .executed t _ _ => t
  | .back t _ _ _ => t
  | .claimed t _ _ => t
  | .withdrew t _ _ => t
  | .redeemed t _ _ => t

/-- What `u` paid into vault `t`. -/
def Ev.paidBy (t u : Nat) : Ev → Nat
  | .paid t' u' m => if t' = t ∧ u' = u then m else 0
  | _ => 0

/-- What left `u`'s account in vault `t`: returned, claimed as derivative tokens, or withdrawn. -/
def Ev.leftBy (t u : Nat) : Ev → Nat
  | .back t' _ u' m => if t' = t ∧ u' = u then m else 0
  | .claimed t' u' m => if t' = t ∧ u' = u then m else 0
  | .withdrew t' u' m => if t' = t ∧ u' = u then m else 0
  | _ => 0

/-- What was contributed on the relay chain for vault `t` (and burned here). -/
def Ev.executedOn (t : Nat) : Ev → Nat
  | .executed t' _ m => if t' = t then m else 0
  | _ => 0

/-- The relay tokens minted here on behalf of vault `t`. -/
def Ev.mintedOn (t : Nat) : Ev → Nat
  | .back t' .contributed _ m => if t' = t then m else 0
  | .withdrew t' _ m => if t' = t then m else 0
  | .redeemed t' _ m => if t' = t then m else 0
  | _ => 0

/-- A sum over the record. -/
def logSum (f : Ev → Nat) (l : List Ev) : Nat := (l.map f).sum

@[simp] theorem logSum_nil (f : Ev → Nat) : logSum f [] = 0 := rfl
@[simp] theorem logSum_append (f : Ev → Nat) (a b : List Ev) : logSum f (a ++ b) = logSum f a + logSum f b := by
  simp [logSum]
@[simp] theorem logSum_single (f : Ev → Nat) (e : Ev) : logSum f [e] = f e := by simp [logSum]

/-! ## Sums over vaults -/

/-- What the pallet account owes to the contributors of the vault at `k` (pending and in flight). -/
def State.owed (s : State) (k : Key) : Nat :=
  match s.vaults k with
  | some v => v.pending + v.flying
  | none => 0

/-- What is invested through the vault at `k` if its derivative token is `T`. -/
def State.invested (s : State) (T : Nat) (k : Key) : Nat :=
  match s.vaults k with
  | some v => if v.ctoken = T then v.contributed else 0
  | none => 0

/-- The confirmed contributions of the vault at `k` that are not yet claimed, if its derivative token is `T`. -/
def State.unclaimed (s : State) (T : Nat) (k : Key) : Nat :=
  match s.vaults k with
  | some v => if v.ctoken = T then total (s.child (v.trie, .contributed)) else 0
  | none => 0

/-- A vault that is over. -/
def Phase.finished (p : Phase) : Prop := p = .failed ∨ p = .expired

end Verif.Crowdloans
