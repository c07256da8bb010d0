import Verif.Amm.Spec
import Verif.Router.Model

/-! # Specification vocabulary for the router -/

namespace Verif.Router
open Verif Verif.Amm

/-- There is a pool for the pair. -/
def Pooled (s : State) (a b : Nat) : Prop := ∃ r, view s a b = some r

/-- A simple path from `a` to `b` in the graph whose edges are the existing pools. -/
def SimplePath (s : State) (a b : Nat) (route : List Nat) : Prop :=
  route.head? = some a ∧ route.getLast? = some b ∧ route.Nodup ∧ route.IsChain (Pooled s)

/-- `ks` lists exactly the keys of the pool map. -/
def Lists (ks : List (Nat × Nat)) (s : State) : Prop := ∀ k, k ∈ ks ↔ ∃ p, s.pools k = some p

/-- The AMM quotes `q` for trading `amount` along `route`: the output of the last hop for `amount` in, or,
when `reversed`, the input of the first hop for `amount` out. -/
def Quotes (c : Cfg) (s : State) (amount : Nat) (reversed : Bool) (route : List Nat) (q : Nat) : Prop :=
  if reversed then ∃ xs, amountsIn c s amount route = .ok xs ∧ xs.head? = some q
  else ∃ xs, amountsOut c s amount route = .ok xs ∧ xs.getLast? = some q

end Verif.Router
