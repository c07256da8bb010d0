import Verif.Prelude.Fixed

/-!
# Model of `pallets/prices/src/lib.rs`

The providers the pallet asks (oracle, decimals, liquid staking, money market, crowdloans, AMM, token supplies) are an
arbitrary record `World` that the rest of the chain may change at any time.  The privileged origins, weights and the
log are not modelled; events are not modelled.
-/

namespace Verif.Prices
open Verif

/-- `is_ls_token`, primitives/src/tokens.rs:141-143. -/
def isLs (a : Nat) : Bool := a == 1000 || a == 1001
/-- `is_vault_token`, primitives/src/tokens.rs:131-133. -/
def isVault (a : Nat) : Bool := 100000000 < a && a < 300000000
/-- `is_lf_lp_token`, primitives/src/tokens.rs:137-139. -/
def isLfLp (a : Nat) : Bool := (5003 < a && a < 6000) || (6003 < a && a < 7000)
/-- `is_auxiliary_token`, primitives/src/tokens.rs:145-147. -/
def isAux (a : Nat) : Bool := maxU32 - 10000 ≤ a

/-- `Config::RelayCurrency`, lib.rs:104, and the depth of recursion the stack allows. -/
structure Cfg where
  relay : Nat
  stack : Nat

/-- `TimeStampedPrice`: the inner value of a `FixedU128` and a timestamp. -/
structure TSP where
  value : Nat
  time : Nat
deriving DecidableEq

/-- A pool as the AMM reports it for an LP token, `get_pool_by_lp_asset`. -/
structure LpPool where
  base : Nat
  quote : Nat
  baseAmount : Nat
  quoteAmount : Nat

/-- The providers of the pallet, lib.rs:62-108. -/
structure World where
  /-- `T::Source::get` / `get_no_op` (orml-oracle) -/
  oracle : Nat → Option TSP
  /-- `T::Decimal::get_decimal` -/
  decimal : Nat → Option Nat
  /-- `get_liquid_currency` -/
  liquid : Option Nat
  /-- the liquid-staking exchange rate -/
  lsRate : Nat → Option Nat
  /-- `get_full_interest_rate` of the money market -/
  fullRate : Nat → Option Nat
  /-- `VaultTokenCurrenciesFilter::contains` -/
  isCtoken : Nat → Bool
  /-- `VaultTokenExchangeRateProvider::get_exchange_rate` (floating point in the source) -/
  vaultRate : Nat → Nat → Option Nat
  /-- `AMM::get_pool_by_lp_asset` -/
  lpPool : Nat → Option LpPool
  /-- `total_issuance` -/
  supply : Nat → Nat

/-- Storage, lib.rs:122-132. -/
structure State where
  emergency : Nat → Option Nat
  foreign : Nat → Option Nat
  world : World

/-- `get_asset_mantissa`, lib.rs:201-203: `10u128.checked_pow(decimal)`. -/
def mantissa (w : World) (a : Nat) : Option Nat := do
  let d ← w.decimal a
  if 10 ^ d ≤ maxU128 then some (10 ^ d) else none

/-- `get_emergency_price`, lib.rs:187-199. -/
def emergencyPrice (s : State) (a : Nat) : Option TSP := do
  let p ← s.emergency a
  let m ← mantissa s.world a
  let v ← fixDiv p m
  some ⟨v, 0⟩

/-- `normalize_detail_price`, lib.rs:224-229. -/
def normalize (p : TSP) (m : Nat) : Option TSP := do
  let v ← fixDiv p.value m
  some ⟨v, p.time⟩

/-- `scale_timestamped_price`, lib.rs:231-242. -/
def scale (p : TSP) (rate : Nat) : Option TSP := do
  let v ← fixMul p.value rate
  some ⟨v, p.time⟩

/-- `get_staking_asset_price`, lib.rs:244-252. -/
def stakingPrice (w : World) (a : Nat) (base : TSP) : Option TSP :=
  if w.liquid = some a then do
    let r ← w.lsRate a
    scale base r
  else none

/-- `get_vault_asset_price`, lib.rs:254-264. -/
def vaultPrice (w : World) (a : Nat) (base : TSP) : Option TSP :=
  match w.fullRate a with
  | none => none
  | some y =>
    if w.isCtoken a = true then do
      let r ← w.vaultRate a y
      scale base r
    else none

/-- `get_pool_by_lp_asset` with its filter, lib.rs:270-274. -/
def lpPoolOf (c : Cfg) (w : World) (a : Nat) : Option LpPool :=
  match w.lpPool a with
  | none => none
  | some p => if p.quote = c.relay ∧ w.isCtoken p.base = true then some p else none

/-- The end of `get_lp_vault_asset_price`, lib.rs:283-292: `u128 → FixedU128` saturates. -/
def lpValue (w : World) (base : Nat) (bp : TSP) (rate diff : Nat) : Option TSP := do
  let vp ← vaultPrice w base bp
  let v ← fixMul vp.value rate
  let v ← fixMul v (min maxU128 (diff * DIV))
  some ⟨v, vp.time⟩

/-- `get_lp_vault_asset_price`, lib.rs:266-295.  An LP token without supply makes `saturating_from_rational` panic. -/
def lpPrice (c : Cfg) (w : World) (a : Nat) (bp : TSP) : R (Option TSP) :=
  match mantissa w a, lpPoolOf c w a with
  | some m, some p =>
    match mantissa w p.base with
    | none => .ok none
    | some bm =>
      if 2 * Nat.sqrt (p.baseAmount * p.quoteAmount) ≤ maxU128 then do
        let rate ← fixSatFromRational (2 * Nat.sqrt (p.baseAmount * p.quoteAmount)) (w.supply a)
        pure (lpValue w p.base bp rate (m / bm))
      else .ok none
  | _, _ => .ok none

/-- `get_special_asset_price`, lib.rs:205-222; exhausting the stack is a trap. -/
def special (c : Cfg) (s : State) : Nat → Nat → TSP → R (Option TSP)
  | 0, _, _ => .error .panic
  | n + 1, a, bp =>
    if isLs a = true then .ok (stakingPrice s.world a bp)
    else if isVault a = true then .ok (vaultPrice s.world a bp)
    else if isLfLp a = true then lpPrice c s.world a bp
    else if isAux a = true then .ok (some bp)
    else match s.foreign a with
      | some b => special c s n b bp
      | none => .ok none

/-- The oracle part of `get_price`, lib.rs:308-314 and `get_no_op`, lib.rs:336-338. -/
def sourced (c : Cfg) (s : State) (a : Nat) : R (Option TSP) :=
  match s.world.oracle c.relay with
  | none => .ok (s.world.oracle a)
  | some bp => do
    let sp ← special c s c.stack a bp
    pure (sp.orElse (fun _ => s.world.oracle a))

/-- `get_price`, lib.rs:306-315. -/
def getPrice (c : Cfg) (s : State) (a : Nat) : R (Option TSP) :=
  match emergencyPrice s a with
  | some p => .ok (some p)
  | none =>
    match mantissa s.world a with
    | none => .ok none
    | some m => do
      let p ← sourced c s a
      pure (p.bind (fun p => normalize p m))

/-- `get_no_op`, lib.rs:334-339. -/
def getNoOp (c : Cfg) (s : State) (a : Nat) : R (Option TSP) :=
  match mantissa s.world a with
  | none => .ok none
  | some _ => sourced c s a

/-- `set_price`, lib.rs:144-154, with `set_emergency_price`, lib.rs:320-324. -/
def setPrice (s : State) (a p : Nat) : State := { s with emergency := upd s.emergency a (some p) }

/-- `reset_price`, lib.rs:160-167, with `reset_emergency_price`, lib.rs:327-330. -/
def resetPrice (s : State) (a : Nat) : State := { s with emergency := upd s.emergency a none }

/-- `set_foreign_asset`, lib.rs:173-181. -/
def setForeign (s : State) (f a : Nat) : State := { s with foreign := upd s.foreign f (some a) }

/-- Every extrinsic of the pallet. -/
inductive Call where
  | set (a p : Nat)
  | reset (a : Nat)
  | foreign (f a : Nat)

/-- Dispatch; none of the calls can fail. -/
def exec (s : State) : Call → State
  | .set a p => setPrice s a p
  | .reset a => resetPrice s a
  | .foreign f a => setForeign s f a

end Verif.Prices
