import Verif.Streaming.Model

/-! # Specification vocabulary for streaming -/

namespace Verif.Streaming
open Verif

/-- The runtimes have 128 > 10 (or 2). -/
structure Cfg.OK (c : Cfg) : Prop where
  room : c.maxFinished < c.maxStreams

/-- Signed by somebody: nobody has the key of the pallet account. -/
def Call.signerOK (c : Cfg) : Call → Prop
  | .create sd _ _ _ _ _ _ => sd ≠ c.acct
  | .traitCreate sd _ _ _ _ _ _ => sd ≠ c.acct
  | .cancel who _ => who ≠ c.acct
  | .withdraw who _ _ => who ≠ c.acct
  | .setMin _ _ => True

/-- What the rest of the chain may do in between: time passes, tokens move, but nothing is taken from the
pallet account. -/
structure Env (c : Cfg) (s s' : State) : Prop where
  streams : s'.streams = s.streams
  next : s'.next = s.next
  lib : s'.lib = s.lib
  minDep : s'.minDep = s.minDep
  events : s'.events = s.events
  time : s.now ≤ s'.now
  wf : s'.ledger.WF
  acct : ∀ x, s.ledger.bal x c.acct ≤ s'.ledger.bal x c.acct

/-- One observable step (failed calls change nothing). -/
inductive Step (c : Cfg) : State → State → Prop
  | call {s s' : State} (k : Call) (hk : k.signerOK c) (h : exec c s k = .ok s') : Step c s s'
  | env {s s' : State} (h : Env c s s') : Step c s s'

/-- All states any history can lead to from a chain without streams. -/
inductive Reach (c : Cfg) : State → Prop
  | init (l : Ledger) (m : Nat → Option Nat) (now : Nat) (hw : l.WF) :
      Reach c ⟨l, fun _ => none, 0, fun _ => [], m, now, []⟩
  | step {s s' : State} (h : Reach c s) (hs : Step c s s') : Reach c s'

/-- Deposited into stream `id` according to one event. -/
def Event.deposited (id : Nat) : Event → Nat
  | .created i _ _ d _ _ _ => if i = id then d else 0
  | _ => 0
/-- Paid to the recipient of stream `id` by one event. -/
def Event.received (id : Nat) : Event → Nat
  | .withdrawn i _ _ m => if i = id then m else 0
  | .cancelled i _ _ _ _ m => if i = id then m else 0
  | _ => 0
/-- Refunded to the sender of stream `id` by one event. -/
def Event.refunded (id : Nat) : Event → Nat
  | .cancelled i _ _ _ m _ => if i = id then m else 0
  | _ => 0

/-- Totals over the whole history. -/
def deposited (s : State) (id : Nat) : Nat := (s.events.map (Event.deposited id)).sum
def received (s : State) (id : Nat) : Nat := (s.events.map (Event.received id)).sum
def refunded (s : State) (id : Nat) : Nat := (s.events.map (Event.refunded id)).sum

/-- A stream that has neither been completed nor cancelled. -/
def Stream.live (st : Stream) : Prop := st.status = .ongoing

instance (st : Stream) : Decidable st.live := inferInstanceAs (Decidable (st.status = .ongoing))

/-- Remaining balance of a live stream slot. -/
def liveRem (o : Option Stream) : Nat := match o with
  | none => 0
  | some st => if st.live then st.remaining else 0

/-- What the pallet still owes to the parties of stream slot `o`, in asset `x`. -/
def owed (x : Nat) (o : Option Stream) : Nat := match o with
  | none => 0
  | some st => if st.live ∧ st.asset = x then st.remaining else 0

/-- Linear vesting: `rate · elapsed` before the end, everything afterwards. -/
def Stream.vested (st : Stream) (now : Nat) : Nat :=
  if st.stop ≤ now then st.deposit else (now - st.start) * st.rate

/-- Tokens of asset `x` an event says were taken from account `w` … -/
def Event.taken (c : Cfg) (x w : Nat) : Event → Nat
  | .created _ sd _ d a _ _ => if x = a ∧ w = sd then d else 0
  | .withdrawn _ _ a m => if x = a ∧ w = c.acct then m else 0
  | .cancelled _ _ _ a ms mr => if x = a ∧ w = c.acct then ms + mr else 0

/-- … and given to it. -/
def Event.given (c : Cfg) (x w : Nat) : Event → Nat
  | .created _ _ _ d a _ _ => if x = a ∧ w = c.acct then d else 0
  | .withdrawn _ rc a m => if x = a ∧ w = rc then m else 0
  | .cancelled _ sd rc a ms mr => (if x = a ∧ w = sd then ms else 0) + (if x = a ∧ w = rc then mr else 0)

end Verif.Streaming
