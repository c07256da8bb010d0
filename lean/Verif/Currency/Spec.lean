import Verif.Currency.Model

/-!
# Specification of the multi-currency interface

In terms of balances, issuance and registered locks.
-/

namespace Verif.Currency
open Verif

/-- What can happen to native balances and assets: transfers, mints and burns by any pallet, locks of the adapter
and of other pallets, and changes of the status of assets. -/
inductive Step (c : Cfg) : State → State → Prop
  | transfer {s s' : State} (a src dst amt : Nat) (keep : Bool) : transfer c s a src dst amt keep = .ok s' → Step c s s'
  | mint {s s' : State} (a w amt : Nat) : mint c s a w amt = .ok s' → Step c s s'
  | burn {s s' : State} (a w amt d : Nat) : burn c s a w amt = .ok (s', d) → Step c s s'
  | setLock {s s' : State} (a w amt : Nat) : forceSetLock c s a w amt = .ok s' → Step c s s'
  | removeLock {s s' : State} (a w : Nat) : forceRemoveLock c s a w = .ok s' → Step c s s'
  | otherLock {s : State} (id w amt : Nat) : id ≠ adapterId → Step c s (setLock c s id w amt)
  | otherUnlock {s : State} (id w : Nat) : id ≠ adapterId → Step c s (removeLock c s id w)
  | freeze {s : State} {x : Asset} (a : Nat) (st : Status) (iced : Nat → Bool) : s.assets a = some x →
      Step c s { s with assets := upd s.assets a (some { x with status := st, iced := iced }) }

/-- A step that does not change the adapter's lock of an account. -/
inductive Quiet (c : Cfg) (w : Nat) : State → State → Prop
  | transfer {s s' : State} (a src dst amt : Nat) (keep : Bool) : transfer c s a src dst amt keep = .ok s' → Quiet c w s s'
  | mint {s s' : State} (a v amt : Nat) : mint c s a v amt = .ok s' → Quiet c w s s'
  | burn {s s' : State} (a v amt d : Nat) : burn c s a v amt = .ok (s', d) → Quiet c w s s'
  | setLock {s s' : State} (a v amt : Nat) : v ≠ w → forceSetLock c s a v amt = .ok s' → Quiet c w s s'
  | removeLock {s s' : State} (a v : Nat) : v ≠ w → forceRemoveLock c s a v = .ok s' → Quiet c w s s'
  | otherLock {s : State} (id v amt : Nat) : id ≠ adapterId → Quiet c w s (Currency.setLock c s id v amt)
  | otherUnlock {s : State} (id v : Nat) : id ≠ adapterId → Quiet c w s (Currency.removeLock c s id v)
  | freeze {s : State} {x : Asset} (a : Nat) (st : Status) (iced : Nat → Bool) : s.assets a = some x →
      Quiet c w s { s with assets := upd s.assets a (some { x with status := st, iced := iced }) }

/-- Histories. -/
inductive Steps (c : Cfg) : State → State → Prop
  | refl {s : State} : Steps c s s
  | step {s s' s'' : State} : Steps c s s' → Step c s' s'' → Steps c s s''

/-- Histories that leave the adapter's lock of an account alone. -/
inductive Quiets (c : Cfg) (w : Nat) : State → State → Prop
  | refl {s : State} : Quiets c w s s
  | step {s s' s'' : State} : Quiets c w s s' → Quiet c w s' s'' → Quiets c w s s''

/-- The balances of every currency add up to its issuance. -/
def Sound (c : Cfg) (s : State) : Prop :=
  ∀ a, SumsTo (balance c s a) (issuance c s a) ∧ issuance c s a ≤ maxU128

/-- The ledger by which the other models describe the currencies. -/
def ledger (c : Cfg) (s : State) : Ledger := ⟨balance c s, issuance c s⟩

/-- Nothing remains, or at least the minimum balance. -/
def NoDust (c : Cfg) (s : State) (a w amt : Nat) : Prop :=
  balance c s a w = amt ∨ minimum c s a + amt ≤ balance c s a w

end Verif.Currency
