import Verif.Evm.BalancesErc20
import Verif.Evm.AssetsErc20

/-!
# Gas

The same functions as `BalancesErc20.lean` and `AssetsErc20.lean`, now with what they charge.  `record_cost` of the
`PrecompileHandle` fails with `OutOfGas` if less than the amount remains.  For given calldata and state a run makes a fixed
list of charges before it ends, so a metered program is that list together with its result.
-/

namespace Verif.Evm

/-- One use of the gas meter. -/
inductive GasStep where
  /-- `record_cost(c)`; `none`: the amount does not fit in `u64`, which is reported as `OutOfGas` too -/
  | charge (c : Option Nat)
  /-- the check of `try_dispatch` that `required_gas` remains -/
  | need (c : Nat)
deriving Repr, DecidableEq

/-- A metered program: its uses of the meter up to its end, and how it ends if the gas suffices. -/
structure Met (α : Type) where
  steps : List GasStep
  res : R α

/-- A part that uses no gas. -/
def Met.free {α : Type} (x : R α) : Met α := ⟨[], x⟩

/-- Sequencing: nothing is charged after a failure. -/
def Met.bind {α β : Type} (p : Met α) (f : α → Met β) : Met β :=
  match p.res with
  | .ok a => ⟨p.steps ++ (f a).steps, (f a).res⟩
  | .error e => ⟨p.steps, .error e⟩

instance : Monad Met where
  pure a := ⟨[], .ok a⟩
  bind := Met.bind

/-- Run the meter: what remains of `g`, `none` if it ran out. -/
def meter : List GasStep → Nat → Option Nat
  | [], g => some g
  | .charge none :: _, _ => none
  | .charge (some c) :: l, g => if c ≤ g then meter l (g - c) else none
  | .need c :: l, g => if c ≤ g then meter l g else none

/-- How a call with `g` gas ends: with a result and the rest of the gas; out of gas (`ExitError::OutOfGas`: all gas is lost and
the EVM rolls back); or failed (`Revert`, rolled back, the rest of the gas is returned). -/
inductive Outcome (α : Type) where
  | done (a : α) (left : Nat)
  | outOfGas
  | failed (e : Err) (left : Nat)

/-- Run a metered program with `g` gas. -/
def Met.run {α : Type} (p : Met α) (g : Nat) : Outcome α :=
  match meter p.steps g with
  | none => .outOfGas
  | some l =>
    match p.res with
    | .ok a => .done a l
    | .error e => .failed e l

/-- The prices: a storage read and write (`db_read_gas_cost`, `db_write_gas_cost`, `precompiles/utils/src/lib.rs:210-227`), the
gas for the declared weight of each dispatched call, and, where the call reports one, for its actual weight. -/
structure Rates where
  read : Nat
  write : Nat
  declared : Disp → Nat
  actual : Disp → Option Nat

/-- `log_costs` (`precompiles/utils/src/lib.rs:267-295`). -/
def logCosts (topics len : Nat) : Option Nat :=
  if 375 * topics ≤ maxU64 ∧ 8 * len ≤ maxU64 ∧ 375 + 375 * topics ≤ maxU64 ∧ 375 + 375 * topics + 8 * len ≤ maxU64 then
    some (375 + 375 * topics + 8 * len)
  else none

/-- `handle.record_cost`. -/
def charge (c : Nat) : Met Unit := ⟨[.charge (some c)], .ok ()⟩

/-- `record_log_costs_manual` (`precompiles/utils/src/lib.rs:354-358`). -/
def chargeLog (topics len : Nat) : Met Unit := ⟨[.charge (logCosts topics len)], .ok ()⟩

/-- The check for gas in `try_dispatch` (`precompiles/utils/src/lib.rs:182-189`). -/
def needGas (c : Nat) : Met Unit := ⟨[.need c], .ok ()⟩

/-- `try_dispatch` (`precompiles/utils/src/lib.rs:171-207`): check for the declared weight, dispatch, charge the actual
weight. -/
def tryDispatch {α : Type} (k : Rates) (rt : Rt) (d : Disp) (x : R α) : Met α := do
  needGas (k.declared d)
  let a ← Met.free (dispatch rt d x)
  charge ((k.actual d).getD (k.declared d))
  pure a

namespace Bal

/-- `total_supply` (`balances-erc20/src/lib.rs:287-299`). -/
def mTotalSupply (k : Rates) (s : State) (input : List Byte) : Met (Out State) := do
  charge k.read
  Met.free (totalSupply s input)

/-- `balance_of` (`balances-erc20/src/lib.rs:301-318`). -/
def mBalanceOf (k : Rates) (rt : Rt) (s : State) (input : List Byte) : Met (Out State) := do
  charge k.read
  Met.free (balanceOf rt s input)

/-- `allowance` (`balances-erc20/src/lib.rs:320-342`). -/
def mAllowance (k : Rates) (rt : Rt) (s : State) (input : List Byte) : Met (Out State) := do
  charge k.read
  Met.free (allowance rt s input)

/-- `approve` (`balances-erc20/src/lib.rs:344-377`). -/
def mApprove (k : Rates) (rt : Rt) (cx : Ctx) (s : State) (input : List Byte) : Met (Out State) := do
  charge k.write
  chargeLog 3 32
  Met.free (approve rt cx s input)

/-- `transfer` (`balances-erc20/src/lib.rs:379-417`). -/
def mTransfer (k : Rates) (rt : Rt) (cx : Ctx) (s : State) (input : List Byte) : Met (Out State) := do
  chargeLog 3 32
  let r ← Met.free (newSkipSelector input)
  Met.free (r.expectArguments 2)
  let (dest, r) ← Met.free (readUint 20 r)
  let (amount, _) ← Met.free (readUint 32 r)
  let a ← Met.free (u256ToAmount amount)
  let cur ← tryDispatch k rt .native (s.cur.transfer rt (rt.acct cx.caller) (rt.acct dest) a)
  pure ⟨{ s with cur := cur }, outBool true, [⟨cx.address, .transfer, [cx.caller, dest], outWord amount⟩]⟩

/-- `transfer_from` (`balances-erc20/src/lib.rs:419-479`). -/
def mTransferFrom (k : Rates) (rt : Rt) (cx : Ctx) (s : State) (input : List Byte) : Met (Out State) := do
  charge k.read
  charge k.write
  chargeLog 3 32
  let r ← Met.free (newSkipSelector input)
  Met.free (r.expectArguments 3)
  let (owner, r) ← Met.free (readUint 20 r)
  let (dest, r) ← Met.free (readUint 20 r)
  let (amount, _) ← Met.free (readUint 32 r)
  let a ← Met.free (u256ToAmount amount)
  let s1 ← Met.free (spend s (rt.acct cx.caller) (rt.acct owner) a)
  let cur ← tryDispatch k rt .native (s1.cur.transfer rt (rt.acct owner) (rt.acct dest) a)
  pure ⟨{ s1 with cur := cur }, outBool true, [⟨cx.address, .transfer, [owner, dest], outWord amount⟩]⟩

/-- `deposit` (`balances-erc20/src/lib.rs:506-544`). -/
def mDeposit (k : Rates) (rt : Rt) (m : Meta) (cx : Ctx) (s : State) : Met (Out State) := do
  Met.free (ensure (m.native = true) .revert)
  let a ← Met.free (u256ToAmount cx.value)
  Met.free (ensure (a ≠ 0) .revert)
  chargeLog 2 32
  let cur ← tryDispatch k rt .native (s.cur.transfer rt (rt.acct cx.address) (rt.acct cx.caller) a)
  pure ⟨{ s with cur := cur }, [], [⟨cx.address, .deposit, [cx.caller], outWord cx.value⟩]⟩

/-- `withdraw` (`balances-erc20/src/lib.rs:546-576`). -/
def mWithdraw (rt : Rt) (m : Meta) (cx : Ctx) (s : State) (input : List Byte) : Met (Out State) := do
  Met.free (ensure (m.native = true) .revert)
  chargeLog 2 32
  let r ← Met.free (newSkipSelector input)
  let (amount, _) ← Met.free (readUint 32 r)
  Met.free (ensure (¬ amount > s.cur.usable (rt.acct cx.caller)) .revert)
  pure ⟨s, [], [⟨cx.address, .withdrawal, [cx.caller], outWord amount⟩]⟩

/-- `permit` (`balances-erc20/src/eip2612.rs:91-155`): only one storage read is charged. -/
def mPermit (k : Rates) (rt : Rt) (m : Meta) (cx : Ctx) (s : State) (input : List Byte) : Met (Out State) := do
  charge k.read
  Met.free (permit rt m cx s input)

/-- `nonces` (`balances-erc20/src/eip2612.rs:157-166`). -/
def mNonces (k : Rates) (s : State) (input : List Byte) : Met (Out State) := do
  charge k.read
  Met.free (noncesOf s input)

/-- `domain_separator` (`balances-erc20/src/eip2612.rs:168-180`). -/
def mDomain (k : Rates) (rt : Rt) (m : Meta) (cx : Ctx) (s : State) : Met (Out State) := do
  charge k.read
  pure ⟨s, outWord (domainSeparator rt m.name cx.address), []⟩

/-- `execute` (`balances-erc20/src/lib.rs:238-273`), metered; `name`, `symbol` and `decimals` (lines 481-504) are free. -/
def mExecute (k : Rates) (rt : Rt) (m : Meta) (cx : Ctx) (input : List Byte) (s : State) : Met (Out State) :=
  match actionOf input with
  | .totalSupply => mTotalSupply k s input
  | .balanceOf => mBalanceOf k rt s input
  | .allowance => mAllowance k rt s input
  | .approve => mApprove k rt cx s input
  | .transfer => mTransfer k rt cx s input
  | .transferFrom => mTransferFrom k rt cx s input
  | .name => pure ⟨s, outBytes m.name, []⟩
  | .symbol => pure ⟨s, outBytes m.symbol, []⟩
  | .decimals => pure ⟨s, outU8 m.decimals, []⟩
  | .deposit => mDeposit k rt m cx s
  | .withdraw => mWithdraw rt m cx s input
  | .permit => mPermit k rt m cx s input
  | .nonces => mNonces k s input
  | .domainSeparator => mDomain k rt m cx s

end Bal

namespace Ast

/-- A function that is charged one storage read and nothing else: `total_supply` (`assets-erc20/src/lib.rs:209-220`),
`balance_of` (222-240), `allowance` (242-264), `name` (434-449), `symbol` (451-467), `decimals` (469-483), `minimum_balance`
(485-495), `nonces` and `domain_separator` (`eip2612.rs:246-272`). -/
def mView (k : Rates) (x : R (Out State)) : Met (Out State) := do
  charge k.read
  Met.free x

/-- The first part of `approve_inner` (`assets-erc20/src/lib.rs:308-321`). -/
def mCancelOld (k : Rates) (rt : Rt) (s : State) (id owner spender : Nat) : Met State :=
  if allowanceOf s id owner spender ≠ 0 then tryDispatch k rt .cancelApproval (cancelApproval s id owner spender)
  else pure s

/-- `approve_inner` (`assets-erc20/src/lib.rs:292-331`). -/
def mApproveInner (k : Rates) (rt : Rt) (s : State) (id owner spender value : Nat) : Met State := do
  charge k.read
  let s1 ← mCancelOld k rt s id owner spender
  tryDispatch k rt .approveTransfer (approveTransfer rt s1 id owner spender (saturate value))

/-- `approve` (`assets-erc20/src/lib.rs:266-290`). -/
def mApprove (k : Rates) (rt : Rt) (cx : Ctx) (s : State) (id : Nat) (input : List Byte) : Met (Out State) := do
  chargeLog 3 32
  let r ← Met.free (newSkipSelector input)
  Met.free (r.expectArguments 2)
  let (spender, r) ← Met.free (readUint 20 r)
  let (amount, _) ← Met.free (readUint 32 r)
  let s' ← mApproveInner k rt s id (rt.acct cx.caller) (rt.acct spender) amount
  pure ⟨s', outBool true, [⟨cx.address, .approval, [cx.caller, spender], outWord amount⟩]⟩

/-- `transfer` (`assets-erc20/src/lib.rs:333-373`). -/
def mTransfer (k : Rates) (rt : Rt) (cx : Ctx) (s : State) (id : Nat) (input : List Byte) : Met (Out State) := do
  chargeLog 3 32
  let r ← Met.free (newSkipSelector input)
  Met.free (r.expectArguments 2)
  let (dest, r) ← Met.free (readUint 20 r)
  let (amount, _) ← Met.free (readUint 32 r)
  let x ← Met.free (u256ToAmount amount)
  let s' ← tryDispatch k rt .transfer (transferAsset s id (rt.acct cx.caller) (rt.acct dest) x)
  pure ⟨s', outBool true, [⟨cx.address, .transfer, [cx.caller, dest], outWord amount⟩]⟩

/-- The dispatched call of `transfer_from` (`assets-erc20/src/lib.rs:397-421`). -/
def mMoveFrom (k : Rates) (rt : Rt) (s : State) (id caller owner dest x : Nat) : Met State :=
  if caller ≠ owner then tryDispatch k rt .transferApproved (transferApproved s id owner caller dest x)
  else tryDispatch k rt .transfer (transferAsset s id owner dest x)

/-- `transfer_from` (`assets-erc20/src/lib.rs:375-432`). -/
def mTransferFrom (k : Rates) (rt : Rt) (cx : Ctx) (s : State) (id : Nat) (input : List Byte) : Met (Out State) := do
  chargeLog 3 32
  let r ← Met.free (newSkipSelector input)
  Met.free (r.expectArguments 3)
  let (owner, r) ← Met.free (readUint 20 r)
  let (dest, r) ← Met.free (readUint 20 r)
  let (amount, _) ← Met.free (readUint 32 r)
  let x ← Met.free (u256ToAmount amount)
  let s' ← mMoveFrom k rt s id (rt.acct cx.caller) (rt.acct owner) (rt.acct dest) x
  pure ⟨s', outBool true, [⟨cx.address, .transfer, [owner, dest], outWord amount⟩]⟩

/-- `mint` (`assets-erc20/src/lib.rs:497-522`). -/
def mMint (k : Rates) (rt : Rt) (cx : Ctx) (s : State) (id : Nat) (a : Asset) (input : List Byte) : Met (Out State) := do
  let r ← Met.free (newSkipSelector input)
  Met.free (r.expectArguments 2)
  let (who, r) ← Met.free (readUint 20 r)
  let (amount, _) ← Met.free (readUint 32 r)
  let x ← Met.free (u256ToAmount amount)
  let a' ← tryDispatch k rt .mint (a.mint (rt.acct cx.caller) (rt.acct who) x)
  pure ⟨s.setAsset id a', outBool true, []⟩

/-- `burn` (`assets-erc20/src/lib.rs:524-549`). -/
def mBurn (k : Rates) (rt : Rt) (cx : Ctx) (s : State) (id : Nat) (a : Asset) (input : List Byte) : Met (Out State) := do
  let r ← Met.free (newSkipSelector input)
  Met.free (r.expectArguments 2)
  let (who, r) ← Met.free (readUint 20 r)
  let (amount, _) ← Met.free (readUint 32 r)
  let x ← Met.free (u256ToAmount amount)
  let a' ← tryDispatch k rt .burn (a.burn (rt.acct cx.caller) (rt.acct who) x)
  pure ⟨s.setAsset id a', outBool true, []⟩

/-- `permit` after its arguments have been read (`assets-erc20/src/eip2612.rs:202-243`). -/
def mPermitBody (k : Rates) (rt : Rt) (cx : Ctx) (s : State) (id : Nat) (a : Asset)
    (owner spender value deadline v r sg : Nat) : Met (Out State) := do
  Met.free (ensure (deadline ≥ cx.now / 1000) .revert)
  let signer ← Met.free (okOr (signerOf rt.crypto r sg v (generatePermit rt (permitName a id) cx.codeAddress
    ⟨owner, spender, value, s.nonces cx.codeAddress owner, deadline⟩)) .revert)
  Met.free (ensure (signer ≠ 0 ∧ signer = owner) .revert)
  Met.free (ensure (s.nonces cx.codeAddress owner + 1 < 256 ^ 32) .panic)
  let s' ← mApproveInner k rt
    { s with nonces := upd2 s.nonces cx.codeAddress owner (s.nonces cx.codeAddress owner + 1) } id
    (rt.acct owner) (rt.acct spender) value
  pure ⟨s', [], [⟨cx.address, .approval, [owner, spender], outWord value⟩]⟩

/-- `permit` (`assets-erc20/src/eip2612.rs:187-244`). -/
def mPermit (k : Rates) (rt : Rt) (cx : Ctx) (s : State) (id : Nat) (a : Asset) (input : List Byte) : Met (Out State) := do
  charge k.read
  let rd ← Met.free (newSkipSelector input)
  let (owner, rd) ← Met.free (readUint 20 rd)
  let (spender, rd) ← Met.free (readUint 20 rd)
  let (value, rd) ← Met.free (readUint 32 rd)
  let (deadline, rd) ← Met.free (readUint 32 rd)
  let (v, rd) ← Met.free (readUint 1 rd)
  let (r, rd) ← Met.free (readUint 32 rd)
  let (sg, _) ← Met.free (readUint 32 rd)
  mPermitBody k rt cx s id a owner spender value deadline v r sg

/-- The function bodies (`assets-erc20/src/lib.rs:155-185`), metered. -/
def mAct (k : Rates) (rt : Rt) (cx : Ctx) (s : State) (id : Nat) (a : Asset) (input : List Byte) : Action → Met (Out State)
  | .totalSupply => mView k (pure ⟨s, outWord a.supply, []⟩)
  | .balanceOf => mView k (balanceOf rt s a input)
  | .allowance => mView k (allowance rt s id input)
  | .approve => mApprove k rt cx s id input
  | .transfer => mTransfer k rt cx s id input
  | .transferFrom => mTransferFrom k rt cx s id input
  | .name => mView k (pure ⟨s, outBytes a.name, []⟩)
  | .symbol => mView k (pure ⟨s, outBytes a.symbol, []⟩)
  | .decimals => mView k (pure ⟨s, outU8 a.decimals, []⟩)
  | .minimumBalance => mView k (pure ⟨s, outWord a.minBal, []⟩)
  | .mint => mMint k rt cx s id a input
  | .burn => mBurn k rt cx s id a input
  | .permit => mPermit k rt cx s id a input
  | .nonces => mView k (noncesOf cx s input)
  | .domainSeparator => mView k (pure ⟨s, outWord (domainSeparator rt (permitName a id) cx.codeAddress), []⟩)

/-- A call to the contract of an existing asset (`assets-erc20/src/lib.rs:137-182`), metered. -/
def mCall (k : Rates) (rt : Rt) (cx : Ctx) (s : State) (id : Nat) (a : Asset) (input : List Byte) : Met (Out State) := do
  let n ← Met.free (readSelector input)
  let f ← Met.free (okOr (Action.ofSelector n) .revert)
  Met.free (checkModifier cx f.modifier)
  mAct k rt cx s id a input f

/-- `execute` of the assets (`assets-erc20/src/lib.rs:130-187`), metered. -/
def mExecute (k : Rates) (rt : Rt) (cx : Ctx) (input : List Byte) (s : State) : Option (Met (Out State)) :=
  match addressToAssetId cx.codeAddress with
  | none => none
  | some id =>
    match s.assets id with
    | none => none
    | some a => some (mCall k rt cx s id a input)

end Ast

/-! ## The prices of the deployed runtime -/

/-- `weight_to_gas` of `FixedGasWeightMapping` (`runtime/parallel/src/lib.rs:813-817, 845, 850`): `WEIGHT_PER_GAS` is
`10^12 / 40_000_000`. -/
def weightToGas (w : Nat) : Nat := w / (10 ^ 12 / 40000000)

/-- `RocksDbWeight` (`runtime/parallel/src/lib.rs:386`): reads and writes, in picoseconds. -/
def dbWeight (reads writes : Nat) : Nat := 25000000 * reads + 100000000 * writes

/-- The weights of the dispatched calls on Parallel (`runtime/parallel/src/weights/pallet_balances.rs:33-38`,
`pallet_assets.rs:91-113, 228-251`). -/
def dispWeight : Disp → Nat
  | .native => 91458000 + dbWeight 2 2
  | .transfer => 87928000 + dbWeight 4 4
  | .transferApproved => 113211000 + dbWeight 5 5
  | .approveTransfer => 60751000 + dbWeight 2 2
  | .cancelApproval => 65596000 + dbWeight 2 2
  | .mint => 53912000 + dbWeight 2 2
  | .burn => 67818000 + dbWeight 2 2

/-- The prices on Parallel.  None of these calls reports an actual weight. -/
def parallelRates : Rates where
  read := weightToGas (dbWeight 1 0)
  write := weightToGas (dbWeight 0 1)
  declared d := weightToGas (dispWeight d)
  actual _ := none

end Verif.Evm
