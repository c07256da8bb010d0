import Verif.System.OriginSpec

/-! # Specification vocabulary: who is paid by an extrinsic -/

namespace Verif.System
open Verif

/-- An account of one of the pallets: one it spends from without anybody's signature, or one in which it keeps what it
owes. -/
def Own (c : Cfg) (w : Nat) : Prop := ∃ p, spends c p w ∨ keeps c p w

/-- The extrinsic adds to a pool of the AMM, or takes from one. -/
def Tx.tradesAmm : Tx → Bool
  | .call (.amm (.add _ _ _ _)) => true
  | .call (.amm (.remove _ _ _)) => true
  | _ => false

/-- The extrinsic adds to a pool of the stableswap pallet, or takes from one. -/
def Tx.tradesStable : Tx → Bool
  | .call (.stable (.add _ _ _ _)) => true
  | .call (.stable (.remove _ _ _)) => true
  | _ => false

/-- Why a balance of `w` may rise when `u` has signed `t`. -/
inductive Paid (c : Cfg) (s : State) (u : Nat) (t : Tx) (w : Nat) : Prop
  /-- `w` has signed the extrinsic itself -/
  | self (h : w = u)
  /-- `w` receives the protocol fee of the AMM -/
  | fee (ht : t.tradesAmm = true) (h : s.amm.feeTo = some w)
  /-- `w` receives the protocol fee of the stableswap pallet -/
  | stableFee (ht : t.tradesStable = true) (h : w = c.stb.feeTo)
  /-- `w` has contributed to a vault, and `u` has the derivative tokens or the contribution paid out to it -/
  | contributor (k : Crowdloans.Key) (h : t = .call (.crowdloans (.claim w k)) ∨ t = .call (.crowdloans (.withdraw w k)))
  /-- `u` cancels a stream of its own, and `w` receives what has accrued to it -/
  | stream (id : Nat) (st : Streaming.Stream) (h : t = .call (.streaming (.cancel u id))) (hs : s.str.streams id = some st)
      (hu : st.sender = u) (hw : st.recipient = w)
  /-- `u` is a relayer whose vote completes a transfer from another chain to `w` -/
  | arrived (ch n tok m : Nat) (f : Bool) (h : t = .call (.bridge (.materialize (some u) ch n ⟨tok, w, m⟩ f)))
      (hu : u ∈ s.br.members)

end Verif.System
