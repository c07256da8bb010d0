import Verif.Prelude.Ledger

/-!
# Model of `pallets/xcm-helper/src/lib.rs` and `pallets/traits/src/ump.rs`

The calls for the relay chain with their SCALE bytes, the messages that carry them, the fees burnt for them and
the queries for the answers.  The relay chain's side (`xcm-executor` 0.9.38, not in the repository) is modelled
at the end as far as the messages use it; it only serves to say what the messages mean there.
-/

namespace Verif.Helper
open Verif

/-! ### SCALE -/

/-- Little-endian bytes. -/
def le : Nat → Nat → List Nat
  | 0, _ => []
  | n + 1, v => v % 256 :: le n (v / 256)

/-- Number of bytes of a positive number. -/
def byteLen (v : Nat) : Nat := Nat.log2 v / 8 + 1

/-- `Compact<u32>` and `Compact<u128>` of `parity-scale-codec`. -/
def compact (v : Nat) : List Nat :=
  if v < 64 then le 1 (4 * v)
  else if v < 2 ^ 14 then le 2 (4 * v + 1)
  else if v < 2 ^ 30 then le 4 (4 * v + 2)
  else (4 * (byteLen v - 4) + 3) :: le (byteLen v) v

/-- `AccountId32`; accounts are numbers below `2^256`. -/
def acct (a : Nat) : List Nat := le 32 a

/-- `MultiAddress::Id`, `T::Lookup::unlookup` (runtime/parallel/src/lib.rs:368). -/
def source (a : Nat) : List Nat := 0 :: acct a

/-- The elements of a `Vec`. -/
def items (f : Nat → List Nat) : List Nat → List Nat
  | [] => []
  | x :: xs => f x ++ items f xs

/-- `RelayNetwork`, ump.rs:326-340. -/
inductive Net where
  | polkadot | kusama
deriving DecidableEq, Repr

/-- `RewardDestination`, ump.rs:11-23. -/
inductive Payee where
  | staked | stash | controller
  | account (a : Nat)
  | none
deriving DecidableEq, Repr

def Payee.enc : Payee → List Nat
  | .staked => [0]
  | .stash => [1]
  | .controller => [2]
  | .account a => 3 :: acct a
  | .none => [4]

/-- `ProxyType`, ump.rs:190-208. -/
inductive PType where
  | any | nonTransfer | governance | staking
deriving DecidableEq, Repr

def PType.num : PType → Nat
  | .any => 0 | .nonTransfer => 1 | .governance => 2 | .staking => 3

/-- `Option<ProxyType>`. -/
def optType : Option PType → List Nat
  | none => [0]
  | some t => [1, t.num]

mutual
/-- `PolkadotCall` and `KusamaCall`, ump.rs:25-289. The signature of `Contribute` is always `None` in this code. -/
inductive RCall where
  | remark (bytes : List Nat)
  | transferKeepAlive (dest value : Nat)
  | transferAll (dest : Nat) (keep : Bool)
  | bond (controller value : Nat) (payee : Payee)
  | bondExtra (value : Nat)
  | unbond (value : Nat)
  | withdrawUnbonded (spans : Nat)
  | nominate (targets : List Nat)
  | payoutStakers (stash era : Nat)
  | rebond (value : Nat)
  | proxy (real : Nat) (force : Option PType) (c : RCall)
  | addProxy (delegate : Nat) (ty : Option PType) (delay : Nat)
  | removeProxy (delegate : Nat) (ty : Option PType) (delay : Nat)
  | asDerivative (index : Nat) (c : RCall)
  | batchAll (cs : RCalls)
  | contribute (para value : Nat)
  | withdraw (who para : Nat)
  | addMemo (para : Nat) (memo : List Nat)
/-- `Vec<RelaychainCall>`. -/
inductive RCalls where
  | nil
  | cons (c : RCall) (cs : RCalls)
end

/-- Pallet indices: `KusamaCall` ump.rs:260-274, `PolkadotCall` ump.rs:276-290. -/
def balancesIdx : Net → Nat | .polkadot => 5 | .kusama => 4
def stakingIdx : Net → Nat | .polkadot => 7 | .kusama => 6
def utilityIdx : Net → Nat | .polkadot => 26 | .kusama => 24
def proxyIdx : Net → Nat | .polkadot => 29 | .kusama => 22
def crowdloansIdx : Net → Nat | .polkadot => 73 | .kusama => 73

/-- The first two bytes of a call: `#[codec(index = ..)]` of pallet and function. -/
def RCall.tag (n : Net) : RCall → Nat × Nat
  | .remark _ => (0, 1)
  | .transferKeepAlive _ _ => (balancesIdx n, 3)
  | .transferAll _ _ => (balancesIdx n, 4)
  | .bond _ _ _ => (stakingIdx n, 0)
  | .bondExtra _ => (stakingIdx n, 1)
  | .unbond _ => (stakingIdx n, 2)
  | .withdrawUnbonded _ => (stakingIdx n, 3)
  | .nominate _ => (stakingIdx n, 5)
  | .payoutStakers _ _ => (stakingIdx n, 18)
  | .rebond _ => (stakingIdx n, 19)
  | .proxy _ _ _ => (proxyIdx n, 0)
  | .addProxy _ _ _ => (proxyIdx n, 1)
  | .removeProxy _ _ _ => (proxyIdx n, 2)
  | .asDerivative _ _ => (utilityIdx n, 1)
  | .batchAll _ => (utilityIdx n, 2)
  | .contribute _ _ => (crowdloansIdx n, 1)
  | .withdraw _ _ => (crowdloansIdx n, 2)
  | .addMemo _ _ => (crowdloansIdx n, 6)

/-- Number of calls. -/
def RCalls.length : RCalls → Nat
  | .nil => 0
  | .cons _ cs => cs.length + 1

mutual
/-- `call.encode()`: the derived encoding of ump.rs:25-289. -/
def RCall.enc (n : Net) : RCall → List Nat
  | .remark b => 0 :: 1 :: (compact b.length ++ items (le 1) b)
  | .transferKeepAlive d v => balancesIdx n :: 3 :: (source d ++ compact v)
  | .transferAll d k => balancesIdx n :: 4 :: (source d ++ le 1 k.toNat)
  | .bond c v p => stakingIdx n :: 0 :: (source c ++ (compact v ++ p.enc))
  | .bondExtra v => stakingIdx n :: 1 :: compact v
  | .unbond v => stakingIdx n :: 2 :: compact v
  | .withdrawUnbonded k => stakingIdx n :: 3 :: le 4 k
  | .nominate ts => stakingIdx n :: 5 :: (compact ts.length ++ items source ts)
  | .payoutStakers s e => stakingIdx n :: 18 :: (acct s ++ le 4 e)
  | .rebond v => stakingIdx n :: 19 :: compact v
  | .proxy r f c => proxyIdx n :: 0 :: (acct r ++ (optType f ++ c.enc n))
  | .addProxy d t y => proxyIdx n :: 1 :: (acct d ++ (optType t ++ le 4 y))
  | .removeProxy d t y => proxyIdx n :: 2 :: (acct d ++ (optType t ++ le 4 y))
  | .asDerivative i c => utilityIdx n :: 1 :: (le 2 i ++ c.enc n)
  | .batchAll cs => utilityIdx n :: 2 :: (compact cs.length ++ cs.enc n)
  | .contribute p v => crowdloansIdx n :: 1 :: (compact p ++ (compact v ++ [0]))
  | .withdraw w p => crowdloansIdx n :: 2 :: (acct w ++ compact p)
  | .addMemo p m => crowdloansIdx n :: 6 :: (le 4 p ++ (compact m.length ++ items (le 1) m))
def RCalls.enc (n : Net) : RCalls → List Nat
  | .nil => []
  | .cons c cs => c.enc n ++ cs.enc n
end

mutual
/-- The numbers are in the range of their Rust types. -/
def RCall.Valid : RCall → Prop
  | .remark b => b.length ≤ maxU32 ∧ ∀ x ∈ b, x < 256
  | .transferKeepAlive d v => d < 2 ^ 256 ∧ v ≤ maxU128
  | .transferAll d _ => d < 2 ^ 256
  | .bond c v p => c < 2 ^ 256 ∧ v ≤ maxU128 ∧ ∀ a, p = .account a → a < 2 ^ 256
  | .bondExtra v => v ≤ maxU128
  | .unbond v => v ≤ maxU128
  | .withdrawUnbonded k => k ≤ maxU32
  | .nominate ts => ts.length ≤ maxU32 ∧ ∀ x ∈ ts, x < 2 ^ 256
  | .payoutStakers s e => s < 2 ^ 256 ∧ e ≤ maxU32
  | .rebond v => v ≤ maxU128
  | .proxy r _ c => r < 2 ^ 256 ∧ c.Valid
  | .addProxy d _ y => d < 2 ^ 256 ∧ y ≤ maxU32
  | .removeProxy d _ y => d < 2 ^ 256 ∧ y ≤ maxU32
  | .asDerivative i c => i < 65536 ∧ c.Valid
  | .batchAll cs => cs.length ≤ maxU32 ∧ cs.Valid
  | .contribute p v => p ≤ maxU32 ∧ v ≤ maxU128
  | .withdraw w p => w < 2 ^ 256 ∧ p ≤ maxU32
  | .addMemo p m => p ≤ maxU32 ∧ m.length ≤ maxU32 ∧ ∀ x ∈ m, x < 256
def RCalls.Valid : RCalls → Prop
  | .nil => True
  | .cons c cs => c.Valid ∧ cs.Valid
end

/-! ### Messages -/

/-- `Weight`: execution time and proof size. -/
structure Weight where
  time : Nat
  proof : Nat
deriving DecidableEq, Repr

/-- `XcmWeightFeeMisc`, ump.rs:291-295. -/
structure WeightFee where
  weight : Weight
  fee : Nat
deriving DecidableEq, Repr

/-- `XcmWeightFeeMisc::default`, ump.rs:297-307. -/
def defaultFee : WeightFee := ⟨⟨20000000000, 64 * 1024⟩, 15000000000⟩

/-- `XcmCall`, ump.rs:309-324: the keys of the fee table. -/
inductive XKey where
  | bond | bondExtra | unbond | rebond | withdrawUnbonded | nominate | contribute | withdraw | addMemo
  | sibling (location : Nat)
  | proxy | addProxy | removeProxy
deriving DecidableEq, Repr

/-- The instructions used. Amounts are of the relay chain's currency. -/
inductive Instr where
  | withdrawAsset (amount : Nat)
  | buyExecution (amount : Nat)
  | transact (weight : Weight) (call : List Nat)
  | reportError (query : Nat)
  | refundSurplus
  | depositAsset (amount : Nat) (beneficiary : Nat)
deriving DecidableEq, Repr

/-- A query of `pallet_xcm`: what to call with the answer and until when. -/
structure Query where
  notify : Nat
  timeout : Nat
deriving DecidableEq, Repr

structure State where
  ledger : Ledger
  /-- `XcmWeightFee` -/
  fees : XKey → WeightFee
  /-- `QueryCounter` of `pallet_xcm` -/
  nextQuery : Nat
  /-- `Queries` of `pallet_xcm` -/
  queries : Nat → Option Query
  /-- messages sent to the relay chain, newest first -/
  sent : List (List Instr)

structure Cfg where
  net : Net
  /-- `RelayCurrency` -/
  relay : Nat
  /-- the pallet's account, `par/fees` -/
  acc : Nat
  /-- `RefundLocation` -/
  refund : Nat
  /-- `NotifyTimeout` -/
  timeout : Nat
  /-- whether the sender accepts a message -/
  sendOk : State → List Instr → Bool

/-- `update_xcm_weight_fee`, lib.rs:144-161. -/
def updateFee (s : State) (k : XKey) (v : WeightFee) : R State := do
  ensure (v.fee ≠ 0) (.other 1)
  ensure (v.weight ≠ ⟨0, 0⟩) (.other 2)
  pure { s with fees := upd s.fees k v }

/-- `add_xcm_fees`, lib.rs:334-343. -/
def addFees (c : Cfg) (s : State) (payer amount : Nat) : R State := do
  let l ← s.ledger.transfer c.relay payer c.acc amount false
  pure { s with ledger := l }

/-- `do_ump_transact`, lib.rs:345-372. -/
def umpTransact (c : Cfg) (s : State) (call : List Nat) (w : Weight) (beneficiary fees : Nat) :
    R (State × List Instr) :=
  match s.ledger.burn c.relay c.acc fees with
  | .error _ => .error .insufficientXcmFees
  | .ok l => .ok ({ s with ledger := l },
      [.withdrawAsset fees, .buyExecution fees, .transact w call, .refundSurplus, .depositAsset fees beneficiary])

/-- `message.0.insert(i, x)`. -/
def insertAt (m : List Instr) (i : Nat) (x : Instr) : List Instr := m.take i ++ x :: m.drop i

/-- `report_outcome_notify`, lib.rs:258-291, with `new_notify_query` of `pallet_xcm` (the counter saturates). -/
def reportNotify (c : Cfg) (s : State) (m : List Instr) (notify now : Nat) : State × Nat × List Instr :=
  ({ s with nextQuery := min (s.nextQuery + 1) maxU64,
            queries := upd s.queries s.nextQuery (some ⟨notify, now + c.timeout⟩) },
   s.nextQuery, insertAt m 3 (.reportError s.nextQuery))

/-- `append_transact`, lib.rs:321-330. -/
def appendTransact (m : List Instr) (call : List Nat) (w : Weight) : List Instr := insertAt m 3 (.transact w call)

/-- `send_xcm` to the parent. -/
def send (c : Cfg) (s : State) (m : List Instr) : R State :=
  if c.sendOk s m then .ok { s with sent := m :: s.sent } else .error .sendFailure

/-- The requests of the other pallets: the functions of the trait `XcmHelper`, lib.rs:163-247. -/
inductive Op where
  | addProxy (delegate : Nat) (ty : Option PType) (delay : Nat)
  | removeProxy (delegate : Nat) (ty : Option PType) (delay : Nat)
  | withdraw (para who : Nat)
  | contribute (para amount : Nat)
  | proxyContribute (para amount who : Nat)
  | bond (value : Nat) (payee : Payee) (stash index : Nat)
  | bondExtra (value stash index : Nat)
  | unbond (value index : Nat)
  | rebond (value index : Nat)
  | withdrawUnbonded (spans para index : Nat)
  | nominate (targets : List Nat) (index : Nat)

/-- The fee entry read by each function. -/
def Op.key : Op → XKey
  | .addProxy _ _ _ => .addProxy
  | .removeProxy _ _ _ => .removeProxy
  | .withdraw _ _ => .withdraw
  | .contribute _ _ => .contribute
  | .proxyContribute _ _ _ => .contribute
  | .bond _ _ _ _ => .bond
  | .bondExtra _ _ _ => .bondExtra
  | .unbond _ _ => .unbond
  | .rebond _ _ => .rebond
  | .withdrawUnbonded _ _ _ => .withdrawUnbonded
  | .nominate _ _ => .nominate

/-- The call in the first `Transact`: lib.rs:382-387, 419-426, 456-460, 493-499, 531-536, 584-589, 633-638, 677-684,
715-722, 754-761, 806-815. -/
def Op.first : Op → RCall
  | .addProxy d t y => .addProxy d t y
  | .removeProxy d t y => .removeProxy d t y
  | .withdraw para who => .withdraw who para
  | .contribute para amount => .contribute para amount
  | .proxyContribute _ amount who => .transferKeepAlive who amount
  | .bond value _ stash _ => .transferKeepAlive stash value
  | .bondExtra value stash _ => .transferKeepAlive stash value
  | .unbond value index => .asDerivative index (.unbond value)
  | .rebond value index => .asDerivative index (.rebond value)
  | .withdrawUnbonded spans _ index => .asDerivative index (.withdrawUnbonded spans)
  | .nominate targets index => .asDerivative index (.nominate targets)

/-- The call added by `append_transact`: lib.rs:552-563, 603-613, 654-662, 777-787. -/
def Op.second : Op → Option RCall
  | .proxyContribute para amount who => some (.proxy who none (.contribute para amount))
  | .bond value payee stash index => some (.asDerivative index (.bond stash value payee))
  | .bondExtra value _ index => some (.asDerivative index (.bondExtra value))
  | .withdrawUnbonded _ para index => some (.asDerivative index (.transferAll para true))
  | _ => none

/-- The functions `do_add_proxy` … `do_nominate`, lib.rs:374-838, which differ only in the tables above: fee and
weight from the table, `do_ump_transact`, `report_outcome_notify`, perhaps `append_transact`, `send_xcm`. Gives the
query id. -/
def doOp (c : Cfg) (s : State) (op : Op) (notify now : Nat) : R (State × Nat) := do
  let wf := s.fees op.key
  let (s1, m) ← umpTransact c s (op.first.enc c.net) wf.weight c.refund wf.fee
  let (s2, q, m1) := reportNotify c s1 m notify now
  let m2 := match op.second with
    | some k => appendTransact m1 (k.enc c.net) wf.weight
    | none => m1
  let s3 ← send c s2 m2
  pure (s3, q)

/-! ### The relay chain -/

/-- The relay chain as far as the messages meet it: its own rules are arbitrary. -/
structure Relay (σ : Type) where
  /-- decoding of calls -/
  dec : List Nat → Option RCall
  /-- declared weight of a call -/
  weigh : RCall → Weight
  /-- a call from our sovereign account; `none`: a dispatch error, which leaves no trace -/
  disp : σ → RCall → Option σ
  /-- withdraw from our sovereign account -/
  take : σ → Nat → Option σ
  /-- deposit to an account -/
  give : σ → Nat → Nat → σ
  /-- the price of executing a message -/
  cost : List Instr → Nat
  /-- what is refunded at the end for unused weight -/
  surplus : Nat

/-- The executor's registers. -/
structure VM (σ : Type) where
  app : σ
  holding : Nat
  /-- `XcmExecutor::error`; nothing sets it before the program ends -/
  error : Option Nat
  /-- answers sent: query and error -/
  reports : List (Nat × Option Nat)

/-- One instruction, `XcmExecutor::process_instruction` of `xcm-executor` 0.9.38. A dispatch error of a `Transact`
is not an error of the program: it is only kept in `transact_status`, which `ReportError` does not read. -/
def step {σ : Type} (r : Relay σ) (whole : List Instr) (v : VM σ) : Instr → Option (VM σ)
  | .withdrawAsset a => (r.take v.app a).map fun s => { v with app := s, holding := v.holding + a }
  | .buyExecution a =>
    if r.cost whole ≤ min a v.holding then some { v with holding := v.holding - r.cost whole } else none
  | .transact w call => match r.dec call with
    | none => none
    | some k =>
      if (r.weigh k).time ≤ w.time ∧ (r.weigh k).proof ≤ w.proof then
        some (match r.disp v.app k with
          | some s => { v with app := s }
          | none => v)
      else none
  | .reportError q => some { v with reports := (q, v.error) :: v.reports }
  | .refundSurplus => some { v with holding := v.holding + r.surplus }
  | .depositAsset a b =>
    some { v with app := r.give v.app b (min a v.holding), holding := v.holding - min a v.holding }

/-- `XcmExecutor::execute`: the program stops at the first error (there is neither an error handler nor an
appendix in these messages). -/
def exec {σ : Type} (r : Relay σ) (whole : List Instr) (v : VM σ) : List Instr → VM σ
  | [] => v
  | i :: is => match step r whole v i with
    | some v' => exec r whole v' is
    | none => v

/-- A message arriving at the relay chain. -/
def receive {σ : Type} (r : Relay σ) (s : σ) (m : List Instr) : VM σ := exec r m ⟨s, 0, none, []⟩ m

end Verif.Helper
