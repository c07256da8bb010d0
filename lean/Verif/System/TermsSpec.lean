import Verif.System.OriginSpec
import Verif.System.StakeTerms

/-! # Specification vocabulary: terms and positions -/

namespace Verif.System
open Verif

/-- What governance has set in all pallets but crowdloans is as before: fees and pools of the two exchanges; status, lock,
cool-down and running reward of farming pools; markets and reward speeds of lending; least deposits of streaming; the
parameters of liquid staking; tokens, chains, caps, relayers and threshold of the bridge. -/
structure SameTerms (s s' : State) : Prop where
  amm : Amm.Terms s'.amm = Amm.Terms s.amm
  stable : Stable.Terms s'.stb = Stable.Terms s.stb
  farming : Farming.Terms s'.farm = Farming.Terms s.farm
  lending : Loans.Terms s'.lo = Loans.Terms s.lo
  streaming : s'.str.minDep = s.str.minDep
  staking : Staking.Settings s'.stk = Staking.Settings s.stk
  bridge : Bridge.Terms s'.br = Bridge.Terms s.br

/-- What the lending pallet keeps for `w` is as before. -/
structure SameLoans (w : Nat) (s s' : State) : Prop where
  deposits : ∀ a, s'.lo.deposits a w = s.lo.deposits a w
  debts : ∀ a, s'.lo.debts a w = s.lo.debts a w
  rewards : s'.lo.rw.accrued w = s.lo.rw.accrued w

/-- What crowdloans keeps for `w` is as before: contributions of every kind in every vault. -/
def SameContributions (w : Nat) (s s' : State) : Prop :=
  ∀ t k, Crowdloans.getEntry (s'.cl.child (t, k)) w = Crowdloans.getEntry (s.cl.child (t, k)) w

/-- What the other pallets keep for `w` is as before: farming positions, unbonding and fast-unstake requests of liquid
staking, and all running streams that `w` sends or receives and `u` has no part in. -/
structure SameElsewhere (u w : Nat) (s s' : State) : Prop where
  farming : ∀ k, s'.farm.pos k w = s.farm.pos k w
  unlockings : s'.stk.unlockings w = s.stk.unlockings w
  fast : s'.stk.fast w = s.stk.fast w
  streams : ∀ id st, s.str.streams id = some st → st.live → (w = st.sender ∨ w = st.recipient) → u ≠ st.sender →
    u ≠ st.recipient → s'.str.streams id = some st

end Verif.System
