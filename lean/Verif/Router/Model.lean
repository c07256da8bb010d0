import Verif.Amm.Model

/-!
# Model of `pallets/router/src/lib.rs`

The router is modelled on top of the AMM model (`T::AMM` = `pallet_amm`, as in every runtime).
`get_pools` returns the pool keys in storage-hash order; the model takes this list as a parameter `ks`.
-/

namespace Verif.Router
open Verif Verif.Amm

/-- The duplicate check of `route_checks`, lib.rs:151 (`(1..len).any(|i| route[i..].contains(route[i-1]))`). -/
def hasDup : List Nat → Bool
  | [] => false
  | a :: rest => rest.contains a || hasDup rest

/-- `route_checks`, lib.rs:139-157. -/
def routeChecks (maxLen : Nat) (route : List Nat) : R Unit := do
  ensure (route ≠ []) .emptyRoute
  ensure (route.length ≤ maxLen) .exceedMaxLengthRoute
  ensure (hasDup route = false) .duplicatedRoute

/-- The swap loop shared by both extrinsics, lib.rs:335-338 and 397-400. -/
def swapAlong (c : Cfg) (s : State) (who : Nat) : List Nat → List Nat → R State
  | a :: b :: rest, x :: xs => do
    let (s, _) ← doSwap c s who a b x
    swapAlong c s who (b :: rest) xs
  | _, _ => .ok s

/-- `swap_exact_tokens_for_tokens`, lib.rs:299-348. -/
def swapExactIn (c : Cfg) (maxLen : Nat) (s : State) (who : Nat) (route : List Nat)
    (amtIn minOut : Nat) : R State := do
  routeChecks maxLen route
  ensure (0 < amtIn ∧ 0 ≤ minOut) .zeroBalance
  let from_ := route.headD 0
  ensure (amtIn ≤ s.ledger.reducible from_ who (from_ = c.native)) .insufficientBalance
  let amounts ← amountsOut c s amtIn route
  ensure (minOut ≤ amounts.getLastD 0) .minimumAmountOutViolated
  swapAlong c s who route amounts

/-- `swap_tokens_for_exact_tokens`, lib.rs:359-410. -/
def swapExactOut (c : Cfg) (maxLen : Nat) (s : State) (who : Nat) (route : List Nat)
    (amtOut maxIn : Nat) : R State := do
  routeChecks maxLen route
  ensure (0 < amtOut ∧ 0 ≤ maxIn) .zeroBalance
  let amounts ← amountsIn c s amtOut route
  let from_ := route.headD 0
  ensure (amounts.headD 0 < s.ledger.reducible from_ who (from_ = c.native)) .insufficientBalance
  ensure (amounts.headD 0 ≤ maxIn) .maximumAmountInViolated
  swapAlong c s who route amounts

/-- Adjacency lists of the undirected pool graph, lib.rs:170-176. -/
def adj (ks : List (Nat × Nat)) (n : Nat) : List Nat :=
  ks.flatMap (fun k => (if k.1 = n then [k.2] else []) ++ (if k.2 = n then [k.1] else []))

/-- `Vec::swap_remove(0)` on a non-empty queue: the last element takes the place of the first. -/
def swapRemoveTail {α : Type} (rest : List α) : List α := match rest.getLast? with
  | none => []
  | some z => z :: rest.dropLast

/-- The search loop, lib.rs:195-221.  A queue item is `(start, path)` (the `end` component is constant).
`none` means the loop has not finished within the given number of iterations. -/
def search (ks : List (Nat × Nat)) (target : Nat) : Nat → List (Nat × List Nat) → List (List Nat) →
    Option (List (List Nat))
  | _, [], paths => some paths
  | 0, _ :: _, _ => none
  | fuel + 1, (start, path) :: rest, paths =>
    let path := path ++ [start]
    let paths := if start = target then paths ++ [path] else paths
    let next := (adj ks start).filter (fun n => !path.contains n)
    search ks target fuel (swapRemoveTail rest ++ next.map (fun n => (n, path))) paths

/-- The amount `get_output_routes` records for a route, lib.rs:268-282. -/
def routeQuote (c : Cfg) (s : State) (amount : Nat) (reversed : Bool) (route : List Nat) : R Nat :=
  if reversed then do
    let xs ← amountsIn c s amount route
    pure (xs.headD 0)
  else do
    let xs ← amountsOut c s amount route
    pure (xs.getLastD 0)

/-- `get_output_routes`, lib.rs:261-285. -/
def outputRoutes (c : Cfg) (s : State) (amount : Nat) (routes : List (List Nat)) (reversed : Bool) :
    List (List Nat × Nat) :=
  routes.filterMap (fun r => match routeQuote c s amount reversed r with
    | .ok x => some (r, x)
    | .error _ => none)

/-- `get_all_routes`, lib.rs:161-230.  `fuel` bounds the iterations of the search loop; running out of fuel
(never happens with enough fuel, see `Verif/Router/Props.lean`) is reported as a panic. -/
def allRoutes (c : Cfg) (ks : List (Nat × Nat)) (fuel : Nat) (s : State) (amount tokenIn tokenOut : Nat)
    (reversed : Bool) : R (List (List Nat × Nat)) := do
  ensure (adj ks tokenIn ≠ []) .tokenDoesNotExists
  ensure (adj ks tokenOut ≠ []) .tokenDoesNotExists
  let paths ← okOr (search ks tokenOut fuel [(tokenIn, [])] []) .panic
  pure ((outputRoutes c s amount paths reversed).mergeSort (fun a b => decide (b.2 ≤ a.2)))

/-- `get_best_route`, lib.rs:233-258. -/
def bestRoute (c : Cfg) (ks : List (Nat × Nat)) (fuel : Nat) (s : State) (amount tokenIn tokenOut : Nat)
    (reversed : Bool) : R (List Nat × Nat) := do
  let rs ← allRoutes c ks fuel s amount tokenIn tokenOut reversed
  ensure (rs ≠ []) .noPossibleRoute
  if reversed then okOr rs.getLast? .panic else okOr rs.head? .panic

end Verif.Router
