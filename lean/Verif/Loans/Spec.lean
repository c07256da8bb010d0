import Verif.Loans.Model

/-!
# Specification vocabulary for loans

Values of accounts are written here as plain sums of rounded products over natural numbers, without the
overflow checks and error paths of the code.
-/

namespace Verif.Loans
open Verif

/-! ### Histories -/

/-- `Ratio`s are at most 1 (guaranteed by the type `Permill`). -/
def Market.wt (m : Market) : Prop :=
  m.cf ≤ million ∧ m.lt ≤ million ∧ m.rf ≤ million ∧ m.close ≤ million ∧ m.irf ≤ million
def Patch.wt (p : Patch) : Prop :=
  (∀ x, p.cf = some x → x ≤ million) ∧ (∀ x, p.lt = some x → x ≤ million) ∧
  (∀ x, p.rf = some x → x ≤ million) ∧ (∀ x, p.close = some x → x ≤ million) ∧
  (∀ x, p.irf = some x → x ≤ million)
def Call.wt : Call → Prop
  | .addMarket _ m => m.wt
  | .forceUpdate _ m => m.wt
  | .updateMarket _ p => p.wt
  | _ => True

/-- Who pays or signs; nobody has the key of the pallet account. -/
def Call.signers : Call → List Nat
  | .addReward w _ => [w]
  | .claim w => [w]
  | .claimFor w _ => [w]
  | .mint w _ _ => [w]
  | .redeem w _ _ => [w]
  | .redeemAll w _ => [w]
  | .borrow w _ _ => [w]
  | .repay w _ _ => [w]
  | .repayAll w _ => [w]
  | .collateral w _ _ => [w]
  | .liquidate l _ _ _ _ => [l]
  | .addReserves w _ _ => [w]
  | .transferP _ w _ _ => [w]
  | _ => []

/-- The three pallet accounts are different. -/
structure Cfg.Ok (c : Cfg) : Prop where
  rew : c.rewardAcct ≠ c.acct
  inc : c.incentiveAcct ≠ c.acct

/-- What the rest of the chain may do in between: time passes, prices change, tokens move, but nothing is
taken from the pallet account. -/
structure Env (c : Cfg) (s s' : State) : Prop where
  same : s' = { s with
    ledger := s'.ledger,
    prices := s'.prices,
    time := s'.time,
    block := s'.block }
  wf : s'.ledger.WF
  cash : ∀ a, s.ledger.bal a c.acct ≤ s'.ledger.bal a c.acct
  time : s.time ≤ s'.time
  block : s.block ≤ s'.block

/-- No reward has ever been configured or paid. -/
def Rewards.zero : Rewards := ⟨fun _ => ⟨0, 0, 0, 0, 0, 0⟩, fun _ _ => 0, fun _ _ => 0, fun _ => 0, []⟩

/-- A chain without markets. -/
def State.fresh (l : Ledger) (prices : Nat → Option Nat) (time block : Nat) : State :=
  ⟨l, fun _ => none, [], fun _ => none, fun _ => Book.zero, fun _ _ => none, fun _ _ => ⟨0, 0⟩,
    fun _ _ => ⟨0, 0⟩, Rewards.zero, [], prices, time, block⟩

/-- One observable step, with calls restricted to `ok` ones. -/
inductive Step (c : Cfg) (ok : Call → Prop) : State → State → Prop
  | call {s s' : State} (k : Call) (hw : k.wt) (hk : c.acct ∉ k.signers) (hok : ok k)
      (h : exec c s k = .ok s') : Step c ok s s'
  | env {s s' : State} (h : Env c s s') : Step c ok s s'

/-- All states that histories of calls satisfying `ok` can lead to from a chain without markets. -/
inductive ReachBy (c : Cfg) (ok : Call → Prop) : State → Prop
  | init (l : Ledger) (prices : Nat → Option Nat) (time block : Nat) (hw : l.WF) :
      ReachBy c ok (State.fresh l prices time block)
  | step {s s' : State} (h : ReachBy c ok s) (hs : Step c ok s s') : ReachBy c ok s'

/-- All reachable states. -/
abbrev Reach (c : Cfg) (s : State) : Prop := ReachBy c (fun _ => True) s

/-! ### Values -/

/-- Everything suppliers own together: cash plus outstanding loans minus reserves. -/
def net (c : Cfg) (s : State) (a : Nat) : Nat :=
  s.ledger.bal a c.acct + (s.books a).borrows - (s.books a).reserves

/-- Underlying tokens per voucher, scaled by `10^18`: 0.02 for an empty market. -/
def xrate (c : Cfg) (s : State) (a : Nat) : Nat :=
  if (s.books a).supply = 0 then minRate else net c s a * DIV / (s.books a).supply

/-- What `w` owes in market `a`: the principal scaled with the growth of the borrow index. -/
def owed (s : State) (a w : Nat) : Nat :=
  ((s.books a).index * DIV / (s.debts a w).index) * (s.debts a w).principal / DIV

/-- Price of an asset, 0 if unknown. -/
def price (s : State) (a : Nat) : Nat := (s.prices a).getD 0

/-- Value of what `w` owes in active markets. -/
def debtSum (s : State) (w : Nat) : Nat :=
  ((activeIds s).map (fun a => price s a * owed s a w / DIV)).sum

/-- Value of one collateral deposit, weighted with a factor of its market. -/
def collOf (c : Cfg) (s : State) (factor : Market → Nat) (w a : Nat) : Nat := match s.markets a with
  | none => 0
  | some m =>
    if (s.dep a w).coll then
      price s a * ceilDiv (xrate c s a * (s.dep a w).vouchers / DIV * factor m) million / DIV
    else 0

/-- Value of the collateral of `w` in active markets, weighted with collateral factors. -/
def collSum (c : Cfg) (s : State) (w : Nat) : Nat :=
  ((activeIds s).map (collOf c s Market.cf w)).sum

/-- Value of the collateral of `w` in active markets, weighted with liquidation thresholds. -/
def threshSum (c : Cfg) (s : State) (w : Nat) : Nat :=
  ((activeIds s).map (collOf c s Market.lt w)).sum

/-- The liquidation-free part of the two sums above. -/
def lfCollSum (c : Cfg) (s : State) (w : Nat) : Nat :=
  (((activeIds s).filter (· ∈ s.lfc)).map (collOf c s Market.cf w)).sum
def lfThreshSum (c : Cfg) (s : State) (w : Nat) : Nat :=
  (((activeIds s).filter (· ∈ s.lfc)).map (collOf c s Market.lt w)).sum
/-- Value of the debt in the liquidation-free asset. -/
def lfDebt (c : Cfg) (s : State) (w : Nat) : Nat := price s c.lfAsset * owed s c.lfAsset w / DIV

/-! ### Rewards -/

/-- Supply rewards of market `a` paid to `w` according to one event. -/
def Event.paid (a w : Nat) : Event → Nat
  | .sup a' w' x => if a' = a ∧ w' = w then x else 0
  | _ => 0
/-- Supply rewards of market `a` credited to `w` so far. -/
def paid (s : State) (a w : Nat) : Nat := (s.rw.log.map (Event.paid a w)).sum

/-- The rewards suppliers of market `a` should share until block `now`: the configured speed times the
number of blocks it was in force; the log is newest first. -/
def emission (a : Nat) : Nat → List Event → Nat
  | _, [] => 0
  | now, .speed a' v _ b :: es => if a' = a then v * (now - b) + emission a b es else emission a now es
  | now, _ :: es => emission a now es

/-- Supply rewards `w` could get credited right now. -/
def pendingReward (s : State) (a w : Nat) : Nat :=
  s.vouchers a w * ((s.rw.mkt a).supIdx - s.rw.supIx a w) / scale

end Verif.Loans
