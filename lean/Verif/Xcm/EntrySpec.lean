import Verif.Xcm.Entry
import Verif.Xcm.AdapterSpec

/-! # Entry of XCM messages: vocabulary of the properties -/

namespace Verif.Xcm
open Verif

/-- `l` is the location `o` or one inside it. -/
def Below (o l : Loc) : Prop := ∃ js, l = ⟨o.parents, o.interior ++ js⟩

/-- Instructions that bring assets into the holding register. -/
def BringsAssets : Instr → Prop
  | .withdraw _ | .reserveDeposited _ | .teleported _ | .claim _ => True
  | _ => False

/-- A message that first brings assets, then perhaps clears its origin (at most three times), then buys its whole weight. -/
def PaysFirst (w : Weight) (is : List Instr) : Prop := ∃ first k f l rest,
  is = first :: (List.replicate k .clearOrigin ++ .buy f l :: rest) ∧ BringsAssets first ∧ k ≤ 3 ∧
  (l = none ∨ ∃ v, l = some v ∧ w.le v)

/-- The asset an identifier stands for on this chain. -/
def curOf (e : Env) : AssetKey → Option Nat
  | .concrete l => e.typeId (canonical e.self l)
  | .abstract _ => none

/-- Units of asset `x` among some assets. -/
def heldIn (e : Env) (x : Nat) (h : Assets) : Nat := (h.map (fun a => if curOf e a.1 = some x then a.2 else 0)).sum

/-- Units of asset `x` in traps. -/
def trappedIn (e : Env) (x : Nat) (t : List (Loc × Assets)) : Nat := (t.map (fun a => heldIn e x a.2)).sum

/-- Units of asset `x` that exist on this chain: issued or trapped. -/
def Sys.units (e : Env) (s : Sys) (x : Nat) : Nat := s.ledger.iss x + trappedIn e x s.traps

/-- No location inside `o` is the reserve of asset `x`. -/
def NotReserve (e : Env) (o : Loc) (x : Nat) : Prop :=
  ∀ o', Below o o' → ∀ k, isReserve k o' = true → curOf e k ≠ some x

/-- Every instruction weighs something, every fee rate makes a single instruction cost something, and no weight costs more than
`u128` can hold. -/
def GoodRates (e : Env) : Prop := 0 < e.base.rt ∧
  ∀ t u, e.fees.units t = some u → perSecond ≤ u * e.base.rt ∧ u * maxU64 ≤ maxU128

end Verif.Xcm
