import Verif.System.Origin

/-! # Specification vocabulary for extrinsics with their origins -/

namespace Verif.System
open Verif

/-- Extrinsics that can be made: see `Call.OK`; nobody has the key of an account that holds what a pallet owes. -/
def Tx.OK (c : Cfg) (D : Nat → Prop) (s : State) : Tx → Prop
  | .call k => k.OK c D s
  | .swapIn w _ _ _ => ¬ Vaulted c w
  | .swapOut w _ _ _ => ¬ Vaulted c w

/-- Governance: root, or a motion of the general council that more than half of the members voted for. -/
def Governance (o : Origin) : Prop := o = .root ∨ ∃ n m, o = .council n m ∧ m < 2 * n

/-- The accounts governance orders to pay: the receiver of a new pool's LP tokens, who provides its first liquidity;
the payer of a farming reward; the payer of an increase of the lending pallet's reserves. -/
def Tx.ordered : Tx → List Nat
  | .call (.amm (.create _ _ w _)) => [w]
  | .call (.stable (.create _ _ w _)) => [w]
  | .call (.farming (.dispatch _ w _ _)) => [w]
  | .call (.loans (.addReserves w _ _)) => [w]
  | _ => []

/-- Why a balance of `w` may fall. -/
inductive Charged (r : Roles) (s : State) (o : Origin) (t : Tx) (w : Nat) : Prop
  /-- `w` has signed the extrinsic -/
  | signed (h : o = .signed w)
  /-- governance has ordered `w` to pay -/
  | ordered (h : Governance o) (hw : w ∈ t.ordered)
  /-- `w` has asked for fast unstaking, and governance or an agent matches the request -/
  | matched (ws : List Nat) (h : Governance o ∨ ∃ u, o = .signed u ∧ r.agent u = true)
      (ht : t = .call (.staking (.fastMatch ws))) (hw : w ∈ ws) (hf : s.stk.fast w ≠ none)
  /-- governance or an automator redeems `w`'s derivative tokens, and lends the proceeds in `w`'s name -/
  | lent (k : Crowdloans.Key) (m : Nat) (h : Governance o ∨ ∃ u, o = .signed u ∧ r.automator u = true)
      (ht : t = .call (.crowdloans (.redeemAndLend w k m)))

end Verif.System
