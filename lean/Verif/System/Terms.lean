import Verif.System.AmmGuar
import Verif.System.StableGuar
import Verif.System.FarmGuar
import Verif.System.StreamGuar
import Verif.System.BridgeGuar

/-!
# What users' calls leave alone: AMM, stableswap, farming, streaming, bridge

The terms of a pallet are what governance has set; a position is what the pallet keeps for one account.
-/

namespace Verif
theorem map_upd {K V W : Type} [DecidableEq K] {f : K → Option V} {g : V → W} {k : K} {v v' : V}
    (h : f k = some v) (hv : g v' = g v) : (fun x => (upd f k (some v') x).map g) = fun x => (f x).map g := by
  funext x
  by_cases e : x = k
  · subst e; rw [upd_same, h]; simp [hv]
  · rw [upd_of_ne _ _ e]
end Verif

namespace Verif.Amm
open Verif Verif.System
variable {c : Cfg} {s s' : State}

/-- The protocol fee and who receives it, and which pools there are with which LP tokens. -/
def Terms (s : State) : Nat × Option Nat × (Nat × Nat → Option Nat) :=
  (s.fee, s.feeTo, fun k => (s.pools k).map Pool.lp)

theorem mintFee_terms {p p' : Pool} (h : mintProtocolFee s p = .ok (s', p')) :
    p'.lp = p.lp ∧ s'.pools = s.pools ∧ s'.fee = s.fee ∧ s'.feeTo = s.feeTo := by
  unfold mintProtocolFee at h
  split_ifs at h
  · simp only [bind_ok_iff, pure_ok_iff, Prod.mk.injEq] at h
    obtain ⟨_, _, _, _, l1, h1, rfl, rfl⟩ := h
    exact ⟨rfl, rfl, rfl, rfl⟩
  · cases h; exact ⟨rfl, rfl, rfl, rfl⟩
  · cases h; exact ⟨rfl, rfl, rfl, rfl⟩

theorem doAdd_terms {who ib iq b q : Nat} {p p' : Pool} (h : doAdd c s who p ib iq b q = .ok (s', p')) :
    p'.lp = p.lp ∧ s'.pools = s.pools ∧ s'.fee = s.fee ∧ s'.feeTo = s.feeTo := by
  simp only [doAdd, bind_ok_iff, pure_ok_iff, Prod.mk.injEq, Prod.exists] at h
  obtain ⟨l0, liq, h0, _, _, _, _, l1, h1, l2, h2, l3, h3, rfl, rfl⟩ := h
  refine ⟨?_, rfl, rfl, rfl⟩
  split_ifs <;> rfl

theorem doRemove_terms {who liq b q : Nat} {p p' : Pool} (h : doRemove c s who p liq b q = .ok (s', p')) :
    p'.lp = p.lp ∧ s'.pools = s.pools ∧ s'.fee = s.fee ∧ s'.feeTo = s.feeTo := by
  simp only [doRemove, bind_ok_iff, pure_ok_iff, Prod.mk.injEq, Prod.exists] at h
  obtain ⟨_, _, _, _, _, _, _, l1, h1, l2, h2, l3, h3, rfl, rfl⟩ := h
  refine ⟨?_, rfl, rfl, rfl⟩
  split_ifs <;> rfl

/-- Providing liquidity and trading leave the terms alone. -/
theorem exec_terms {k : Call} (h : exec c s k = .ok s') (hk : (∃ w p d m, k = .add w p d m) ∨
    (∃ w p l, k = .remove w p l) ∨ ∃ w a b x, k = .swap w a b x) : Terms s' = Terms s := by
  rcases hk with ⟨who, pair, d, m, rfl⟩ | ⟨who, pair, liq, rfl⟩ | ⟨who, a, b, x, rfl⟩
  · simp only [exec, addLiquidity, bind_ok_iff, pure_ok_iff, Prod.exists, ensure_ok_iff, okOr_ok_iff,
      exists_const] at h
    obtain ⟨_, b, q, _, p, hp, ib, iq, _, _, _, s1, p1, h1, s2, p2, h2, rfl⟩ := h
    obtain ⟨a1, a2, a3, a4⟩ := mintFee_terms h1
    obtain ⟨b1, b2, b3, b4⟩ := doAdd_terms h2
    have hp2 : s2.pools (b, q) = some p := by rw [b2, a2]; exact hp
    unfold Terms
    dsimp only
    rw [map_upd hp2 (b1.trans a1), b2, a2, b3, a3, b4, a4]
  · simp only [exec, removeLiquidity, bind_ok_iff, pure_ok_iff, Prod.exists, okOr_ok_iff] at h
    obtain ⟨_, b, q, _, p, hp, s1, p1, h1, s2, p2, h2, rfl⟩ := h
    obtain ⟨a1, a2, a3, a4⟩ := mintFee_terms h1
    obtain ⟨b1, b2, b3, b4⟩ := doRemove_terms h2
    have hp2 : s2.pools (b, q) = some p := by rw [b2, a2]; exact hp
    unfold Terms
    dsimp only
    rw [map_upd hp2 (b1.trans a1), b2, a2, b3, a3, b4, a4]
  · simp only [exec, doSwap, bind_ok_iff, pure_ok_iff, Prod.exists, ensure_ok_iff, okOr_ok_iff, exists_const,
      Prod.mk.injEq] at h
    obtain ⟨_, _, ⟨inv, b', q', _, p, hp, _, _, _, _, _, _, _, _, _, _, p1, h1, l1, t1, l2, t2, rfl, _⟩, rfl⟩ := h
    unfold Terms
    dsimp only
    rw [map_upd hp]
    rw [updateOracle_lp h1]
    split_ifs <;> rfl

end Verif.Amm

namespace Verif.Stable
open Verif Verif.System
variable {c : Cfg} {s s' : State}

/-- Which pools there are with which LP tokens (fees are constants of the runtime). -/
def Terms (s : State) : Nat × Nat → Option Nat := fun k => (s.pools k).map (fun p => p.lp)

/-- Providing liquidity and trading leave the terms alone. -/
theorem exec_terms {k : Call} (h : exec c s k = .ok s') (hk : (∃ w p d m, k = .add w p d m) ∨
    (∃ w p l, k = .remove w p l) ∨ ∃ w a b x, k = .swap w a b x) : Terms s' = Terms s := by
  rcases hk with ⟨who, pair, d, m, rfl⟩ | ⟨who, pair, liq, rfl⟩ | ⟨who, a, b, x, rfl⟩
  · simp only [exec, addLiquidity, bind_ok_iff, pure_ok_iff, Prod.exists, ensure_ok_iff, okOr_ok_iff,
      exists_const] at h
    obtain ⟨_, b, q, _, p, hp, ib, iq, _, _, _, s1, p1, h1, s2, p2, h2, rfl⟩ := h
    obtain ⟨_, a1, a2⟩ := mintFee_guar (src := fun _ => True) (cur := fun _ => True) h1 trivial
    obtain ⟨_, b1, b2⟩ := doAdd_guar (src := fun _ => True) (cur := fun _ => True) h2 trivial trivial
    have hp2 : s2.pools (b, q) = some p := by rw [b2, a2]; exact hp
    unfold Terms
    dsimp only
    rw [map_upd hp2 (b1.trans a1), b2, a2]
  · simp only [exec, removeLiquidity, bind_ok_iff, pure_ok_iff, Prod.exists, okOr_ok_iff] at h
    obtain ⟨_, b, q, _, p, hp, s1, p1, h1, s2, p2, h2, rfl⟩ := h
    obtain ⟨_, a1, a2⟩ := mintFee_guar (src := fun _ => True) (cur := fun _ => True) h1 trivial
    obtain ⟨_, b1, b2⟩ := doRemove_guar (src := fun _ => True) (cur := fun _ => True) h2 trivial trivial trivial
    have hp2 : s2.pools (b, q) = some p := by rw [b2, a2]; exact hp
    unfold Terms
    dsimp only
    rw [map_upd hp2 (b1.trans a1), b2, a2]
  · simp only [exec, doSwap, bind_ok_iff, pure_ok_iff, Prod.exists, ensure_ok_iff, okOr_ok_iff, exists_const,
      Prod.mk.injEq] at h
    obtain ⟨_, _, ⟨inv, b', q', _, p, hp, _, _, _, _, _, _, _, _, _, _, p1, h1, l1, t1, l2, t2, rfl, _⟩, rfl⟩ := h
    unfold Terms
    dsimp only
    rw [map_upd hp]
    rw [updateOracle_lp h1]
    split_ifs <;> rfl

end Verif.Stable

namespace Verif.Farming
open Verif Verif.System
variable {c : Cfg} {s s' : State}

/-- The terms of a pool: whether it is open, until when it is locked, the cool-down, and the running reward. -/
def PoolTerms (p : Pool) : Bool × Nat × Nat × Nat × Nat × Nat :=
  (p.active, p.unlock, p.cool, p.duration, p.finish, p.rate)
/-- The terms of all pools. -/
def Terms (s : State) : Key → Option (Bool × Nat × Nat × Nat × Nat × Nat) := fun k => (s.pools k).map PoolTerms

/-- Whom a call is for. -/
def Call.holder : Call → Option Nat
  | .deposit _ w _ => some w
  | .withdraw _ w _ => some w
  | .redeem _ w => some w
  | .claim _ w => some w
  | _ => none

theorem posUpd {k k' : Key} {w v : Nat} {u : Pos} (f : Key → Nat → Pos) (h : v ≠ w) :
    upd f k (upd (f k) w u) k' v = f k' v := by
  by_cases e : k' = k
  · subst e; rw [upd_same, upd_of_ne _ _ h]
  · rw [upd_of_ne _ _ e]

theorem update_terms {p p' : Pool} {n : Nat} (h : p.update n = .ok p') : PoolTerms p' = PoolTerms p := by
  simp only [Pool.update, bind_ok_iff, pure_ok_iff] at h
  obtain ⟨_, _, rfl⟩ := h
  rfl

theorem updateSome_terms {k : Key} {w : Nat} (h : updateSome s k w = .ok s') :
    Terms s' = Terms s ∧ ∀ k' v, v ≠ w → s'.pos k' v = s.pos k' v := by
  simp only [updateSome, bind_ok_iff, pure_ok_iff, okOr_ok_iff] at h
  obtain ⟨p, hp, p', hp', u, _, rfl⟩ := h
  exact ⟨map_upd hp (update_terms hp'), fun k' v hv => posUpd _ hv⟩

/-- A user's call leaves the terms of all pools, and everybody else's position, alone. -/
theorem exec_terms {k : Call} {w : Nat} (h : exec c s k = .ok s') (hk : k.holder = some w) :
    Terms s' = Terms s ∧ ∀ k' v, v ≠ w → s'.pos k' v = s.pos k' v := by
  cases k <;> simp only [Call.holder, Option.some.injEq, reduceCtorEq] at hk <;> subst hk
  case deposit k w m =>
    simp only [exec, deposit, bind_ok_iff, pure_ok_iff, okOr_ok_iff] at h
    obtain ⟨_, _, _, _, s1, h1, p, hp, _, _, l, hl, _, _, _, _, rfl⟩ := h
    obtain ⟨e1, e2⟩ := updateSome_terms h1
    refine ⟨Eq.trans ?_ e1, fun k' v hv => (posUpd _ hv).trans (e2 k' v hv)⟩
    unfold Terms; dsimp only; rw [map_upd hp]; rfl
  case withdraw k w m =>
    simp only [exec, withdraw, bind_ok_iff, pure_ok_iff, Prod.exists, okOr_ok_iff] at h
    obtain ⟨_, _, _, _, _, _, s1, h1, p, hp, _, _, _, _, _, _, l, u, hl, rfl⟩ := h
    obtain ⟨e1, e2⟩ := updateSome_terms h1
    refine ⟨Eq.trans ?_ e1, fun k' v hv => (posUpd _ hv).trans (e2 k' v hv)⟩
    unfold Terms; dsimp only; rw [map_upd hp]; rfl
  case redeem k w =>
    simp only [exec, redeem, bind_ok_iff, pure_ok_iff] at h
    obtain ⟨_, _, _, _, l, hl, rfl⟩ := h
    exact ⟨rfl, fun k' v hv => posUpd _ hv⟩
  case claim k w =>
    simp only [exec, claim, bind_ok_iff, pure_ok_iff, Prod.exists] at h
    obtain ⟨_, _, s1, h1, l, u, hl, rfl⟩ := h
    obtain ⟨e1, e2⟩ := updateSome_terms h1
    exact ⟨e1, fun k' v hv => (posUpd _ hv).trans (e2 k' v hv)⟩

/-- Governance's calls leave all positions alone. -/
theorem exec_pos {k : Call} (h : exec c s k = .ok s') (hk : k.holder = none) : s'.pos = s.pos := by
  cases k <;> simp only [Call.holder, reduceCtorEq] at hk
  case create =>
    simp only [exec, create, bind_ok_iff, pure_ok_iff] at h
    obtain ⟨_, _, _, _, _, _, rfl⟩ := h
    rfl
  case setStatus =>
    simp only [exec, setStatus, bind_ok_iff, pure_ok_iff] at h
    obtain ⟨_, _, _, _, rfl⟩ := h
    rfl
  case setCool =>
    simp only [exec, setCool, bind_ok_iff, pure_ok_iff] at h
    obtain ⟨_, _, _, _, _, _, rfl⟩ := h
    rfl
  case resetUnlock =>
    simp only [exec, resetUnlock, bind_ok_iff, pure_ok_iff] at h
    obtain ⟨_, _, _, _, _, _, rfl⟩ := h
    rfl
  case dispatch =>
    simp only [exec, dispatch, updateNone, bind_ok_iff, pure_ok_iff] at h
    obtain ⟨_, _, _, _, s1, ⟨_, _, _, _, rfl⟩, _, _, _, _, _, _, l, hl, rfl⟩ := h
    rfl

end Verif.Farming

namespace Verif.Streaming
open Verif Verif.System
variable {c : Cfg} {s s' : State}

theorem pushLib_terms {a id : Nat} {k : Kind} (h : pushLib c s a id k = .ok s') : s'.minDep = s.minDep := by
  simp only [pushLib, bind_ok_iff, pure_ok_iff] at h
  obtain ⟨_, _, rfl⟩ := h
  rfl

theorem popFinished_terms {a : Nat} (h : popFinished c s a = .ok s') : s'.minDep = s.minDep := by
  unfold popFinished at h
  dsimp only at h
  split_ifs at h
  · cases h; rfl
  · split at h
    · cases h; rfl
    · simp only [bind_ok_iff, pure_ok_iff] at h
      obtain ⟨_, _, rfl⟩ := h
      rfl

theorem updateFinished_terms {a b : Nat} (h : updateFinished c s a b = .ok s') : s'.minDep = s.minDep := by
  simp only [updateFinished, bind_ok_iff] at h
  obtain ⟨s1, h1, h2⟩ := h
  exact (popFinished_terms h2).trans (popFinished_terms h1)

theorem doCreate_terms {a b d as f u i : Nat} {x : Bool} (h : doCreate c s a b d as f u x = .ok (s', i)) :
    s'.minDep = s.minDep := by
  simp only [doCreate, bind_ok_iff, pure_ok_iff, Prod.mk.injEq] at h
  obtain ⟨_, _, _, _, _, _, _, _, l, hl, nx, _, s1, h1, rfl, _⟩ := h
  have := updateFinished_terms h1
  exact this

theorem traitCreate_terms {a b d as f u : Nat} {x : Bool} (h : traitCreate c s a b d as f u x = .ok s') :
    s'.minDep = s.minDep := by
  simp only [traitCreate, bind_ok_iff, Prod.exists] at h
  obtain ⟨_, _, s1, i, h1, h2⟩ := h
  exact (pushLib_terms h2).trans (doCreate_terms h1)

/-- Only `setMin` changes which assets can be streamed, and the least deposits. -/
theorem exec_terms {k : Call} (h : exec c s k = .ok s') (hk : ∀ a m, k ≠ .setMin a m) : s'.minDep = s.minDep := by
  cases k with
  | create =>
    simp only [exec, create, bind_ok_iff, Prod.exists] at h
    obtain ⟨_, _, _, _, _, _, _, _, s1, i, h1, s2, h2, h3⟩ := h
    exact (pushLib_terms h3).trans ((pushLib_terms h2).trans (doCreate_terms h1))
  | traitCreate => exact traitCreate_terms h
  | cancel =>
    simp only [exec, cancel, bind_ok_iff, pure_ok_iff] at h
    obtain ⟨st, _, _, _, _, _, _, _, _, _, _, _, l, _, l2, _, s1, h1, s2, h2, s3, h3, rfl⟩ := h
    have e1 := pushLib_terms h1
    have e3 := updateFinished_terms h3
    exact e3.trans ((pushLib_terms h2).trans e1)
  | withdraw =>
    simp only [exec, withdraw, bind_ok_iff, pure_ok_iff] at h
    obtain ⟨st, _, _, _, _, _, _, _, _, _, _, _, _, _, st', _, s1, h1, l, _, rfl⟩ := h
    unfold fileFinished at h1
    split_ifs at h1
    · simp only [bind_ok_iff] at h1
      obtain ⟨s2, h2, s3, h3, h4⟩ := h1
      have e2 := pushLib_terms h2
      exact (updateFinished_terms h4).trans ((pushLib_terms h3).trans e2)
    · cases h1; rfl
  | setMin a m => exact absurd rfl (hk a m)

end Verif.Streaming

namespace Verif.Bridge
open Verif Verif.System
variable {c : Cfg} {s s' : State}

/-- What is registered for an asset: everything but the amounts counted against the caps. -/
def TokenTerms (t : Token) : Nat × Bool × Nat × Bool × Nat × Nat :=
  (t.id, t.external, t.fee, t.enable, t.outCap, t.inCap)
/-- The registered tokens and chains, the relayers and the number of votes needed. -/
def Terms (s : State) : (Nat → Nat × Bool × Nat × Bool × Nat × Nat) × (Nat → Option Nat) × (Nat → Bool) × List Nat × Nat :=
  (fun a => TokenTerms (s.token a), s.assetIds, fun ch => (s.nonces ch).isSome, s.members, s.threshold)

theorem updateCap_terms {a m : Nat} {d : Dir} (h : updateCap s a m d = .ok s') :
    Terms s' = Terms s ∧ s'.nonces = s.nonces := by
  simp only [updateCap, bind_ok_iff, pure_ok_iff] at h
  obtain ⟨n, _, rfl⟩ := h
  refine ⟨?_, rfl⟩
  unfold Terms
  dsimp only
  congr 1
  funext x
  unfold State.token
  by_cases e : x = a
  · subst e
    dsimp only
    rw [upd_same]
    cases d <;> rfl
  · dsimp only; rw [upd_of_ne _ _ e]

theorem updateRegistry_terms {ch n : Nat} (h : updateRegistry s ch n = .ok s') : Terms s' = Terms s := by
  unfold updateRegistry at h
  split at h
  · cases h; rfl
  · simp only [bind_ok_iff, pure_ok_iff] at h
    obtain ⟨_, _, rfl⟩ := h
    rfl

/-- Teleporting and voting leave the terms alone. -/
theorem exec_terms {k : Call} (h : exec c s k = .ok s') (hk : (∃ w ch t d m, k = .teleport w ch t d m) ∨
    ∃ o ch n call f, k = .materialize o ch n call f) : Terms s' = Terms s := by
  rcases hk with ⟨w, ch, t, d, m, rfl⟩ | ⟨o, ch, n, call, f, rfl⟩
  · simp only [exec, teleport, bind_ok_iff, pure_ok_iff, ensure_ok_iff, exists_const] at h
    obtain ⟨hn, _, _, _, s1, h1, l, hl, _, _, _, rfl⟩ := h
    obtain ⟨e1, e2⟩ := updateCap_terms h1
    rw [← e1]
    unfold Terms
    dsimp only
    congr 3
    funext x
    by_cases e : x = ch
    · subst e; rw [upd_same, e2]; simp [hn]
    · rw [upd_of_ne _ _ e]
  · simp only [exec, materialize, bind_ok_iff, resolve] at h
    obtain ⟨w, _, _, _, _, _, _, _, p, _, _, _, _, _, _, _, p', _, _, _, _, _, h⟩ := h
    have e0 : Terms (castVote s p ch n w call f) = Terms s := by
      unfold castVote setProp; split_ifs <;> rfl
    generalize castVote s p ch n w call f = s0 at h e0
    have e1 : Terms (setProp s0 ch n call (p'.tryComplete s0.threshold s0.members.length).1) = Terms s := e0
    split at h
    · simp only [execute, bind_ok_iff, pure_ok_iff] at h
      obtain ⟨_, _, _, _, s1, h1, l1, h2, l2, h3, s2, h4, rfl⟩ := h
      have := updateRegistry_terms h4
      exact this.trans ((updateCap_terms h1).1.trans e1)
    · simp only [cancelMat, bind_ok_iff, pure_ok_iff] at h
      obtain ⟨s2, h2, rfl⟩ := h
      exact (updateRegistry_terms h2).trans e1
    · simp only [pure_ok_iff] at h
      subst h
      exact e1

theorem newBlock_terms : Terms (newBlock s) = Terms s := rfl

end Verif.Bridge
