import Verif.Evm.Erc20

/-!
# Specification of ERC-20 calls

What the calldata of a call is, and what moving native currency means, without reference to how the precompiles do it.
-/

namespace Verif.Evm

/-- Calldata of a function whose arguments are all one word long: the selector, then each argument as a 32 byte
big-endian word.  An argument is given by its width in bytes and its value. -/
def callOf (sel : Nat) (args : List (Nat × Nat)) : List Byte :=
  beBytes 4 sel ++ args.flatMap fun a => Abi.encUint a.1 a.2

/-- The arguments are in range. -/
def ArgsOk (args : List (Nat × Nat)) : Prop := ∀ a ∈ args, a.1 ≤ 32 ∧ a.2 < 256 ^ a.1

/-- What would remain at `src` after sending `amt`. -/
def remainder (n : Native) (src amt : Nat) : Nat := n.free src - amt + n.resv src

/-- The part of the sender's balance that is lost to the treasury because it is below the existential deposit. -/
def dustOf (rt : Rt) (n : Native) (src amt : Nat) : Nat :=
  if remainder n src amt < rt.ed then remainder n src amt else 0

/-- When `amt` of the native currency can go from `src` to `dst`. -/
def CanMove (rt : Rt) (n : Native) (src dst amt : Nat) : Prop :=
  amt = 0 ∨ src = dst ∨
    (amt ≤ n.usable src ∧ n.free dst + amt ≤ maxU128 ∧ rt.ed ≤ n.free dst + amt + n.resv dst ∧
      (n.pinned src = true → rt.ed ≤ remainder n src amt))

/-- `n'` is `n` after `amt` went from `src` to `dst`: every account's total balance changes by exactly that, and what is
left at `src` goes to the treasury when it is below the existential deposit.  Sending to oneself changes nothing. -/
structure Moved (rt : Rt) (n n' : Native) (src dst amt : Nat) : Prop where
  total : amt ≠ 0 → src ≠ dst → ∀ a,
    n'.free a + n'.resv a + (if a = src then amt + dustOf rt n src amt else 0) =
      n.free a + n.resv a + (if a = dst then amt else 0) + (if a = rt.treasury then dustOf rt n src amt else 0)
  reserved : ∀ a, a ≠ src → n'.resv a = n.resv a
  source : amt ≠ 0 → src ≠ dst → n'.resv src = if remainder n src amt < rt.ed then 0 else n.resv src
  same : amt = 0 ∨ src = dst → n' = n
  locks : n'.frozen = n.frozen
  pins : n'.pinned = n.pinned
  supply : n'.iss = n.iss

end Verif.Evm
