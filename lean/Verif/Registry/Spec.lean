import Verif.Registry.Model

/-!
# Asset registry: vocabulary of the properties

What a reader needs besides the four getters `paymentIsSupported`, `getUnits`, `getAssetType`, `getAssetId`
and the dispatch `exec`: the reachable states.
-/

namespace Verif.Registry
open Verif
variable {τ : Type} [LinearOrder τ]

/-- The states reachable from the empty registry by any sequence of successful calls whose arguments satisfy
`ok` in the state they are made in. -/
inductive ReachBy (ok : State τ → Call τ → Prop) : State τ → Prop where
  | init : ReachBy ok (State.empty τ)
  | call {s s' : State τ} (h : ReachBy ok s) (auth : Bool) (k : Call τ) (hk : ok s k)
      (he : exec auth s k = .ok s') : ReachBy ok s'

/-- All histories. -/
def Reach : State τ → Prop := ReachBy (fun _ _ => True)

/-- The call brings in no asset type that some asset already has. -/
def FreshType (s : State τ) : Call τ → Prop
  | .register _ t => ∀ i, getAssetType s i ≠ some t
  | .updateType _ t => ∀ i, getAssetType s i ≠ some t
  | _ => True

/-- The call is not an update of an asset to the type it already has. -/
def RealUpdate (s : State τ) : Call τ → Prop
  | .updateType i t => getAssetType s i ≠ some t
  | _ => True

end Verif.Registry
