import Verif.Runtime.Model

/-!
# Specification: who may do what, through which door

Written without the dispatcher of the model: only storage, the published lists and the log of what was
carried out.
-/

namespace Verif.Runtime
open Verif

/-- Governance has switched a call off: its pallet or the call itself, and it is not a governance call. -/
def SwitchedOff (c : Cfg) (s : State) (k : Kind) : Prop :=
  whitelisted c.chain k = false ∧ (s.disP k.pallet.index = true ∨ s.disC k.pallet.index (c.callIdx k) = true)

/-- Users may make a call: it is on one of the two lists and not switched off. -/
def UserMay (c : Cfg) (s : State) (k : Kind) : Prop :=
  (whitelisted c.chain k = true ∨ listed k = true) ∧ ¬ SwitchedOff c s k

/-- `es` is what was carried out between two states, newest first. -/
def Did (s s' : State) (es : List Entry) : Prop := s'.log = es ++ s.log

/-- The accounts derived from an account (`as_derivative`, repeatedly), with itself. -/
inductive DerivedFrom (c : Cfg) (r : Nat) : Nat → Prop
  | self : DerivedFrom c r r
  | derived {a : Nat} (i : Nat) : DerivedFrom c r a → DerivedFrom c r (c.derive a i)

/-- The accounts that an account controls fully: itself, derivative accounts, and those that have named it, or
another account that it controls fully, as a proxy for everything without delay. -/
inductive Full (c : Cfg) (s : State) (w : Nat) : Nat → Prop
  | self : Full c s w w
  | derived {a : Nat} (i : Nat) : Full c s w a → Full c s w (c.derive a i)
  | proxied {a r : Nat} : Full c s w a → ⟨a, .any, 0⟩ ∈ s.proxies r → Full c s w r

/-- What an account may do: anything for the accounts it controls fully; and for an account that has named
one of those as a proxy of a limited type (and for its derivative accounts), what that type lists. -/
def MayDo (c : Cfg) (s : State) (w : Nat) (e : Entry) : Prop :=
  ∃ a, e.who = .signed a ∧ (Full c s w a ∨ ∃ b r t, Full c s w b ∧ t ≠ .any ∧ ⟨b, t, 0⟩ ∈ s.proxies r ∧
    DerivedFrom c r a ∧ t.filter c.chain e.kind = true)

/-- How often a pallet was toggled in a list of events. -/
def palletToggles (p : Nat) (es : List Entry) : Nat :=
  es.countP (fun e => decide (e.kind = ⟨.emergencyShutdown, .togglePallet⟩) && decide (e.arg = p))

/-- How often a call was toggled in a list of events. -/
def callToggles (p i : Nat) (es : List Entry) : Nat :=
  es.countP (fun e => decide (e.kind = ⟨.emergencyShutdown, .toggleCall⟩) && (decide (e.arg = p) && decide (e.arg2 = i)))

/-- The state after a list of extrinsics. -/
def runExts (c : Cfg) (s : State) : List Ext → State
  | [] => s
  | x :: xs => runExts c (applyExt c s x) xs

/-- A signature by an account's key over a nonce and a call, for a chain's magic number: Ethereum's personal
message over the hash of the magic number (2 bytes), the nonce (4 bytes) and the call. -/
def SignedBy (c : Cfg) (signer nonce : Nat) (k : Call) (sig : List Nat) : Prop :=
  sig.length = 65 ∧ ∃ pub, c.acctOf pub = signer ∧
    c.recover sig (c.keccak (ethPrefix ++ c.keccak (leBytes 2 c.magic ++ leBytes 4 nonce ++ c.enc k))) = some pub

end Verif.Runtime
