import Verif.Helper.Model

/-!
# Specification: what a request to the relay chain is

Written without the steps that build the messages in the code: messages are given literally.
-/

namespace Verif.Helper
open Verif

/-- The program sent for a request: withdraw the fee, pay with it, make the calls one after the other, report,
and send what is left of the fee to the refund account. -/
def program (fee : Nat) (w : Weight) (calls : List (List Nat)) (query refund : Nat) : List Instr :=
  [.withdrawAsset fee, .buyExecution fee] ++ calls.map (Instr.transact w) ++
    [.reportError query, .refundSurplus, .depositAsset fee refund]

/-- The calls of a request. -/
def Op.calls (op : Op) : List RCall := op.first :: op.second.toList

/-- What users of the pallet mean by a request: the fee entry it pays by and the calls it
stands for, in order. -/
inductive Means : Op → XKey → List RCall → Prop
  | addProxy (d t y) : Means (.addProxy d t y) .addProxy [.addProxy d t y]
  | removeProxy (d t y) : Means (.removeProxy d t y) .removeProxy [.removeProxy d t y]
  | withdraw (para who) : Means (.withdraw para who) .withdraw [.withdraw who para]
  | contribute (para amount) : Means (.contribute para amount) .contribute [.contribute para amount]
  | proxyContribute (para amount who) : Means (.proxyContribute para amount who) .contribute
      [.transferKeepAlive who amount, .proxy who none (.contribute para amount)]
  | bond (value payee stash i) : Means (.bond value payee stash i) .bond
      [.transferKeepAlive stash value, .asDerivative i (.bond stash value payee)]
  | bondExtra (value stash i) : Means (.bondExtra value stash i) .bondExtra
      [.transferKeepAlive stash value, .asDerivative i (.bondExtra value)]
  | unbond (value i) : Means (.unbond value i) .unbond [.asDerivative i (.unbond value)]
  | rebond (value i) : Means (.rebond value i) .rebond [.asDerivative i (.rebond value)]
  | withdrawUnbonded (spans para i) : Means (.withdrawUnbonded spans para i) .withdrawUnbonded
      [.asDerivative i (.withdrawUnbonded spans), .asDerivative i (.transferAll para true)]
  | nominate (targets i) : Means (.nominate targets i) .nominate [.asDerivative i (.nominate targets)]

/-- The numbers of a request are in the range of their Rust types. -/
def Op.Valid : Op → Prop
  | .addProxy d _ y => d < 2 ^ 256 ∧ y ≤ maxU32
  | .removeProxy d _ y => d < 2 ^ 256 ∧ y ≤ maxU32
  | .withdraw para who => para ≤ maxU32 ∧ who < 2 ^ 256
  | .contribute para amount => para ≤ maxU32 ∧ amount ≤ maxU128
  | .proxyContribute para amount who => para ≤ maxU32 ∧ amount ≤ maxU128 ∧ who < 2 ^ 256
  | .bond value payee stash i =>
      value ≤ maxU128 ∧ stash < 2 ^ 256 ∧ i < 65536 ∧ ∀ a, payee = .account a → a < 2 ^ 256
  | .bondExtra value stash i => value ≤ maxU128 ∧ stash < 2 ^ 256 ∧ i < 65536
  | .unbond value i => value ≤ maxU128 ∧ i < 65536
  | .rebond value i => value ≤ maxU128 ∧ i < 65536
  | .withdrawUnbonded spans para i => spans ≤ maxU32 ∧ para < 2 ^ 256 ∧ i < 65536
  | .nominate targets i => (targets.length ≤ maxU32 ∧ ∀ x ∈ targets, x < 2 ^ 256) ∧ i < 65536

/-- Total of the fees withdrawn by messages. -/
def withdrawn : List (List Instr) → Nat
  | [] => 0
  | (.withdrawAsset a :: _) :: ms => a + withdrawn ms
  | _ :: ms => withdrawn ms

/-- The query a message reports to. -/
def reportsTo : List Instr → List Nat
  | [] => []
  | .reportError q :: is => q :: reportsTo is
  | _ :: is => reportsTo is

/-- What can happen on the parachain as far as this pallet is concerned. -/
inductive Step (c : Cfg) : State → State → Prop
  /-- a request by another pallet -/
  | op {s s' : State} {o : Op} {notify now q : Nat} : doOp c s o notify now = .ok (s', q) → Step c s s'
  /-- governance sets a fee -/
  | fee {s s' : State} {k : XKey} {v : WeightFee} : updateFee s k v = .ok s' → Step c s s'
  /-- a pallet pays fees in -/
  | add {s s' : State} {p n : Nat} : addFees c s p n = .ok s' → Step c s s'

/-- The rest of the chain: it moves money, makes queries of its own, answers and drops old ones. -/
def Env (s s' : State) : Prop := s'.fees = s.fees ∧ s'.sent = s.sent ∧ s.nextQuery ≤ s'.nextQuery

/-- Histories of the pallet alone. -/
inductive Steps (c : Cfg) : State → State → Prop
  | refl {s : State} : Steps c s s
  | step {s s' s'' : State} : Steps c s s' → Step c s' s'' → Steps c s s''

/-- States the chain can reach: nothing was sent and no fee set at the start. -/
inductive Reach (c : Cfg) : State → Prop
  | init {s : State} : s.sent = [] → s.fees = (fun _ => defaultFee) → Reach c s
  | step {s s' : State} : Reach c s → Step c s s' → Reach c s'
  | env {s s' : State} : Reach c s → Env s s' → Reach c s'

/-! ### On the relay chain -/

/-- The relay chain reads the calls of its network. -/
def Reads {σ : Type} (r : Relay σ) (n : Net) : Prop := ∀ k : RCall, k.Valid → r.dec (k.enc n) = some k

/-- A call is tried: it changes the state, or fails without a trace. -/
def attempt {σ : Type} (r : Relay σ) (s : σ) (k : RCall) : σ := (r.disp s k).getD s

/-- Calls are tried one after the other. -/
def attempts {σ : Type} (r : Relay σ) (s : σ) : List RCall → σ
  | [] => s
  | k :: ks => attempts r (attempt r s k) ks

/-- Calls all succeed one after the other. -/
def allOk {σ : Type} (r : Relay σ) (s : σ) : List RCall → Prop
  | [] => True
  | k :: ks => ∃ s', r.disp s k = some s' ∧ allOk r s' ks

/-- The weight covers a call. -/
def Fits {σ : Type} (r : Relay σ) (w : Weight) (k : RCall) : Prop :=
  (r.weigh k).time ≤ w.time ∧ (r.weigh k).proof ≤ w.proof

end Verif.Helper
