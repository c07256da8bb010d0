import Verif.Xcm.Adapter

/-! # XCM asset adapter: vocabulary of the properties -/

namespace Verif.Xcm
open Verif

/-- The asset is `amount` of the fungible asset `cur`: its location, made absolute, is registered for `cur`. -/
def Names (c : Cfg) (a : MultiAsset) (cur amount : Nat) : Prop :=
  ∃ l, a.id = .concrete l ∧ a.amount = some amount ∧ c.typeId (canonical c.self l) = some cur

/-- The gift that comes with `amount` of `cur` for `who`: nothing, or what is missing to the gift amount in
the recipient's spendable native balance. -/
def giftDue (c : Cfg) (l : Ledger) (who cur amount : Nat) : Nat :=
  if c.giftOf amount cur ≤ l.bal c.native c.gift then c.giftOf amount cur - (l.bal c.native who - 1) else 0

/-- The request was carried out. -/
def succeeded {α : Type} : R α → Bool
  | .ok _ => true
  | .error _ => false

/-- Units of `cur` a request brings onto this chain. -/
def inflow (c : Cfg) (l : Ledger) (cur : Nat) : AOp → Nat
  | .deposit a w => if succeeded (deposit c l a w).2 = true ∧ currencyOf c a = some cur then a.amount.getD 0 else 0
  | _ => 0

/-- Units of `cur` a request takes off this chain. -/
def outflow (c : Cfg) (l : Ledger) (cur : Nat) : AOp → Nat
  | .withdraw a w => if succeeded (withdraw c l a w) = true ∧ currencyOf c a = some cur then a.amount.getD 0 else 0
  | _ => 0

/-- The ledger after a sequence of requests, with the totals that came in and went out. -/
def runOps (c : Cfg) (cur : Nat) (l : Ledger) : List AOp → Ledger × Nat × Nat
  | [] => (l, 0, 0)
  | o :: os =>
    ((runOps c cur (runOp c l o) os).1, inflow c l cur o + (runOps c cur (runOp c l o) os).2.1,
      outflow c l cur o + (runOps c cur (runOp c l o) os).2.2)

end Verif.Xcm
