import Verif.Prelude.NoPanic
import Verif.Amm.Props5
import Verif.Router.Props2

set_option linter.unusedSimpArgs false

/-! # AMM and router: no call of a user panics (C226) -/

namespace Verif.Amm
open Verif

variable {c : Cfg} {s : State}

@[np_simps] theorem np_sortAssets {a b : Nat} : NoPanic (sortAssets a b) ↔ True := by unfold sortAssets; np
@[np_simps] theorem np_quote {a b d : Nat} : NoPanic (quote a b d) ↔ True := by unfold quote; np
@[np_simps] theorem np_ideal {p : Pool} {a b : Nat} : NoPanic (idealAmounts p a b) ↔ True := by unfold idealAmounts; np
@[np_simps] theorem np_amountOut {x ri ro : Nat} : NoPanic (amountOut c x ri ro) ↔ True := by unfold amountOut; np

theorem np_protocolFees (p : Pool) (h : feeOn s = true) : NoPanic (protocolFees s p) := by
  have hf : s.fee ≠ 0 := by
    intro e; simp [feeOn, e] at h
  unfold protocolFees
  np
  exact fun _ => hf

theorem np_mintProtocolFee (p : Pool) : NoPanic (mintProtocolFee s p) := by
  unfold mintProtocolFee
  np
  exact fun h => np_protocolFees p h

@[np_simps] theorem np_liquidityFor {l : Ledger} {p : Pool} {a b : Nat} : NoPanic (liquidityFor c l p a b) ↔ True := by
  unfold liquidityFor firstLiquidity shareLiquidity; np

@[np_simps] theorem np_doAdd {w : Nat} {p : Pool} {a b x y : Nat} : NoPanic (doAdd c s w p a b x y) ↔ True := by
  unfold doAdd; np
@[np_simps] theorem np_doRemove {w : Nat} {p : Pool} {a x y : Nat} : NoPanic (doRemove c s w p a x y) ↔ True := by
  unfold doRemove reservesToRemove; np

/-- Adding and removing liquidity never panics, whatever the state. -/
theorem add_noPanic (w : Nat) (pair d m : Nat × Nat) : NoPanic (addLiquidity c s w pair d m) := by
  unfold addLiquidity
  np
  intros
  exact np_mintProtocolFee _
theorem remove_noPanic (w : Nat) (pair : Nat × Nat) (liq : Nat) : NoPanic (removeLiquidity c s w pair liq) := by
  unfold removeLiquidity
  np
  intros
  exact np_mintProtocolFee _

theorem np_updateOracle {p : Pool} (h1 : 0 < p.base) (h2 : 0 < p.quote) : NoPanic (updateOracle s p) := by
  unfold updateOracle
  np
  exact fun _ _ _ => ⟨by omega, fun _ _ _ _ => by omega⟩

/-- A swap in a pool with positive reserves never panics. -/
theorem swap_noPanic (hi : Inv c s) (hf : c.lpFee ≠ 0) (w a b x : Nat) : NoPanic (doSwap c s w a b x) := by
  unfold doSwap
  np
  refine fun inv kb kq _ p hp => ⟨hf, fun mi hmi u1 h1 u2 h2 y hy ni hni no hno => ?_⟩
  simp only [okOr_ok_iff, cadd_ok_iff, csub_ok_iff, precipCeil_ok_iff, ensure_ok_iff] at hp hni hno hmi h1
  obtain ⟨hb, hq, _⟩ := hi.pool _ p hp
  have hy' := out_lt_core (ri := if inv then p.quote else p.base) (ro := if inv then p.base else p.quote)
    (by split <;> assumption) (by split <;> assumption) (amountOut_ok_iff.1 hy).2.2.2
  have hni' : 0 < ni := by
    rw [hni.2]; split <;> omega
  cases inv
  · exact np_updateOracle (show 0 < ni from hni') (show 0 < no by simp only [Bool.false_eq_true, if_false] at hno hy'; omega)
  · exact np_updateOracle (show 0 < no by simp only [if_true] at hno hy'; omega) (show 0 < ni from hni')

theorem np_amountsOutFrom : ∀ (xs : List Nat) (x a : Nat), NoPanic (amountsOutFrom c s x a xs)
  | [], _, _ => by unfold amountsOutFrom; np
  | b :: rest, x, a => by
    unfold amountsOutFrom reserves
    np
    intros
    exact np_amountsOutFrom rest _ _

theorem np_amountsOut {r : List Nat} (h : r ≠ []) (x : Nat) : NoPanic (amountsOut c s x r) := by
  cases r with
  | nil => exact absurd rfl h
  | cons a rest =>
    unfold amountsOut
    np
    exact np_amountsOutFrom _ _ _

theorem np_amountIn (hf : c.lpFee < million) (x ri ro : Nat) : NoPanic (amountIn c x ri ro) := by
  unfold amountIn
  np
  intros
  rename_i f hf'
  simp only [csub_ok_iff] at hf'
  omega

theorem np_amountsIn (hf : c.lpFee < million) : ∀ {r : List Nat} (_ : r ≠ []) (x : Nat), NoPanic (amountsIn c s x r)
  | [], h, _ => absurd rfl h
  | [a], _, x => by unfold amountsIn; np
  | a :: b :: rest, _, x => by
    unfold amountsIn reserves
    np
    exact ⟨np_amountsIn hf (by simp) x, fun _ _ _ _ _ => np_amountIn hf _ _ _⟩

end Verif.Amm

namespace Verif.Router
open Verif Verif.Amm

variable {c : Cfg} {s : State}

theorem np_swapAlong (hc : c.OK) (hf : c.lpFee ≠ 0) {who : Nat} (h1 : who ≠ c.acct) (h2 : who ≠ c.lock) :
    ∀ (route amounts : List Nat) (s : State), Inv c s → NoPanic (swapAlong c s who route amounts)
  | a :: b :: rest, x :: xs, s, hi => by
    unfold swapAlong
    np
    exact ⟨swap_noPanic hi hf who a b x, fun s' y hs => np_swapAlong hc hf h1 h2 (b :: rest) xs s' (hi.swap hc h1 h2 hs)⟩
  | [], _, _, _ => by unfold swapAlong; np
  | [_], _, _, _ => by unfold swapAlong; np
  | _ :: _ :: _, [], _, _ => by unfold swapAlong; np

theorem np_routeChecks {n : Nat} {r : List Nat} : NoPanic (routeChecks n r) := by unfold routeChecks; np

theorem routeChecks_ne {n : Nat} {r : List Nat} {u : Unit} (h : routeChecks n r = .ok u) : r ≠ [] := by
  simp only [routeChecks, bind_ok_iff, ensure_ok_iff, exists_const] at h
  rintro rfl
  simp at h

/-- Neither kind of trade through the router panics. -/
theorem swapExactIn_noPanic (hc : c.OK) (hf : c.lpFee ≠ 0) {who : Nat} (h1 : who ≠ c.acct) (h2 : who ≠ c.lock) (hi : Inv c s)
    (n : Nat) (route : List Nat) (x m : Nat) : NoPanic (swapExactIn c n s who route x m) := by
  unfold swapExactIn
  np
  refine ⟨np_routeChecks, fun _ hr => ?_⟩
  intros
  exact ⟨np_amountsOut (routeChecks_ne hr) x, fun _ _ _ _ => np_swapAlong hc hf h1 h2 _ _ _ hi⟩
theorem swapExactOut_noPanic (hc : c.OK) (hf : c.lpFee ≠ 0) (hm : c.lpFee < million) {who : Nat} (h1 : who ≠ c.acct)
    (h2 : who ≠ c.lock) (hi : Inv c s) (n : Nat) (route : List Nat) (x m : Nat) :
    NoPanic (swapExactOut c n s who route x m) := by
  unfold swapExactOut
  np
  refine ⟨np_routeChecks, fun _ hr => ?_⟩
  intros
  exact ⟨np_amountsIn hm (routeChecks_ne hr) x, fun _ _ _ _ _ _ => np_swapAlong hc hf h1 h2 _ _ _ hi⟩

end Verif.Router
