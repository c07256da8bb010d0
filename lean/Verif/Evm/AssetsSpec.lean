import Verif.Evm.AssetsErc20
import Verif.Evm.Erc20Spec

/-!
# Specification for the ERC-20 interface of assets

When and how tokens of an asset move, and what an approval costs, without reference to how the precompile does it.
-/

namespace Verif.Evm.Ast

/-- What leaves an account that sends `amt`: the amount, or everything when the remainder would be below the asset's
minimum balance. -/
def leaves (a : Asset) (src amt : Nat) : Nat := if a.bal src - amt < a.minBal then a.bal src else amt

/-- When `amt` can go from `src` to `dst`. -/
def CanSend (a : Asset) (src dst amt : Nat) : Prop :=
  amt = 0 ∨ (a.status = .live ∧ a.frozen src = false ∧ amt ≤ a.bal src ∧ a.bal dst + leaves a src amt ≤ maxU128 ∧
    (a.bal dst ≠ 0 ∨ a.minBal ≤ leaves a src amt))

/-- `a'` is `a` after `amt` was sent from `src` to `dst`. -/
structure Sent (a a' : Asset) (src dst amt : Nat) : Prop where
  moved : amt ≠ 0 → src ≠ dst → ∀ x, a'.bal x + (if x = src then leaves a src amt else 0) =
    a.bal x + (if x = dst then leaves a src amt else 0)
  still : amt = 0 ∨ src = dst → a'.bal = a.bal
  rest : a' = { a with bal := a'.bal }

/-- `s'` is `s` with another version of the asset `id`; nothing else has changed. -/
def OnlyAsset (s s' : State) (id : Nat) (a' : Asset) : Prop :=
  s'.cur = s.cur ∧ s'.approvals = s.approvals ∧ s'.nonces = s.nonces ∧ s'.assets id = some a' ∧
    ∀ j, j ≠ id → s'.assets j = s.assets j

/-- The deposit of an approval. -/
def depositOf (s : State) (id owner delegate : Nat) : Nat :=
  ((s.approvals id owner delegate).map Approval.deposit).getD 0

/-- What the owner gets back when an approval is replaced: the deposit, if the approval was not 0. -/
def released (s : State) (id owner delegate : Nat) : Nat :=
  if allowanceOf s id owner delegate ≠ 0 then min (s.cur.resv owner) (depositOf s id owner delegate) else 0

/-- What the owner has to deposit then. -/
def needed (rt : Rt) (s : State) (id owner delegate : Nat) : Nat :=
  if allowanceOf s id owner delegate ≠ 0 then rt.ed else rt.ed - depositOf s id owner delegate

/-- The owner can pay the deposit. -/
def CanDeposit (rt : Rt) (s : State) (id owner delegate : Nat) : Prop :=
  needed rt s id owner delegate = 0 ∨
    (needed rt s id owner delegate + s.cur.frozen owner ≤ s.cur.free owner + released s id owner delegate ∧
      s.cur.resv owner - released s id owner delegate + needed rt s id owner delegate ≤ maxU128)

/-- The runtime lets the calls of an approval through: `approve_transfer`, and `cancel_approval` if there is an old one. -/
def MayApprove (rt : Rt) (s : State) (id owner delegate : Nat) : Prop :=
  rt.filter .approveTransfer = true ∧ (allowanceOf s id owner delegate ≠ 0 → rt.filter .cancelApproval = true)

/-- `s'` is `s` after `owner` has set the allowance of `delegate` to `value`. -/
structure Approved (rt : Rt) (s s' : State) (id owner delegate value : Nat) : Prop where
  /-- the allowance, at most `2^128 - 1` -/
  allowance : allowanceOf s' id owner delegate = min value maxU128
  /-- the deposit is held -/
  deposit : depositOf s' id owner delegate =
    if allowanceOf s id owner delegate ≠ 0 then rt.ed else max (depositOf s id owner delegate) rt.ed
  /-- no other approval changes -/
  others : ∀ j o d, ¬ (j = id ∧ o = owner ∧ d = delegate) → s'.approvals j o d = s.approvals j o d
  /-- the deposit moves between the free and the reserved balance of the owner; nobody else's balance changes -/
  free : ∀ x, s'.cur.free x + (if x = owner then needed rt s id owner delegate else 0) =
    s.cur.free x + (if x = owner then released s id owner delegate else 0)
  reserved : ∀ x, s'.cur.resv x + (if x = owner then released s id owner delegate else 0) =
    s.cur.resv x + (if x = owner then needed rt s id owner delegate else 0)
  supply : s'.cur.iss = s.cur.iss
  locks : s'.cur.frozen = s.cur.frozen
  pins : s'.cur.pinned = s.cur.pinned
  assets : s'.assets = s.assets
  nonces : s'.nonces = s.nonces

end Verif.Evm.Ast
