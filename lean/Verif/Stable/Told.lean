import Verif.Amm.Events
import Verif.Stable.Exit

/-!
# C239: the events of the stable-swap pallet tell what happened

`execE` is `exec` (Stable/Model.lean) that also returns the deposited events; `C239_same` says that the two agree.
Events of other pallets (`pallet_assets` deposits its own for every transfer) are not modelled; `DeltaCalculated` is
deposited only by a function nothing calls.
-/

namespace Verif.Stable
open Verif
open Verif.Amm (Pool Pool.new Noted Notes)

/-- `Event` (`pallets/stableswap/src/lib.rs:143-189`), fields in the order of the source. -/
inductive Event where
  | added (who base quote dBase dQuote lp newBase newQuote : Nat)
  | removed (who base quote liq dBase dQuote lp newBase newQuote : Nat)
  | created (who base quote lp : Nat)
  | traded (who assetIn assetOut amtIn amtOut lp newQuote newBase : Nat)
deriving DecidableEq

/-- `add_liquidity` with its event (`pallets/stableswap/src/lib.rs:217-294`). -/
def addLiquidityE (c : Cfg) (s : State) (who : Nat) (pair desired minimum : Nat × Nat) : R (State × List Event) := do
  let (inv, b, q) ← sortAssets pair.1 pair.2
  let (ba, qa) := if inv then (desired.2, desired.1) else (desired.1, desired.2)
  let (mb, mq) := if inv then (minimum.2, minimum.1) else (minimum.1, minimum.2)
  let p ← okOr (s.pools (b, q)) .poolDoesNotExist
  let (ib, iq) ← idealAmounts p ba qa
  ensure (ib ≤ ba ∧ iq ≤ qa) .insufficientAmountIn
  ensure (mb ≤ ib ∧ mq ≤ iq) .notAnIdealPrice
  let (s, p) ← mintProtocolFee c s p
  let (s, p) ← doAdd c s who p ib iq b q
  pure ({ s with pools := upd s.pools (b, q) (some p) }, [.added who b q ib iq p.lp p.base p.quote])

/-- `remove_liquidity` with its event (`pallets/stableswap/src/lib.rs:302-342`); `do_remove_liquidity` returns the amounts it
computes first, with `calculate_reserves_to_remove`. -/
def removeLiquidityE (c : Cfg) (s : State) (who : Nat) (pair : Nat × Nat) (liq : Nat) : R (State × List Event) := do
  let (_, b, q) ← sortAssets pair.1 pair.2
  let p ← okOr (s.pools (b, q)) .poolDoesNotExist
  let (s, p) ← mintProtocolFee c s p
  let (ob, oq) ← reservesToRemove s.ledger p liq
  let (s, p) ← doRemove c s who p liq b q
  pure ({ s with pools := upd s.pools (b, q) (some p) }, [.removed who b q liq ob oq p.lp p.base p.quote])

/-- `create_pool` with its two events (`pallets/stableswap/src/lib.rs:347-417`). -/
def createPoolE (c : Cfg) (s : State) (pair amounts : Nat × Nat) (receiver lp : Nat) : R (State × List Event) := do
  let (inv, b, q) ← sortAssets pair.1 pair.2
  ensure (s.pools (b, q) = none) .poolAlreadyExists
  let (ba, qa) := if inv then (amounts.2, amounts.1) else (amounts.1, amounts.2)
  ensure (s.ledger.iss lp = 0) .lpTokenAlreadyExists
  let (s, p) ← doAdd c s receiver (Pool.new lp) ba qa b q
  pure ({ s with pools := upd s.pools (b, q) (some p) },
    [.created receiver b q lp, .added receiver b q ba qa p.lp p.base p.quote])

/-- `do_swap` with its event (`pallets/stableswap/src/lib.rs:864-938`): the two new reserves are announced quote first. -/
def doSwapE (c : Cfg) (s : State) (who assetIn assetOut amtIn : Nat) : R (State × List Event) := do
  let (s, out) ← doSwap c s who assetIn assetOut amtIn
  let (_, b, q) ← sortAssets assetIn assetOut
  let p ← okOr (s.pools (b, q)) .poolDoesNotExist
  pure (s, [.traded who assetIn assetOut amtIn out p.lp p.quote p.base])

/-- Dispatch of a call, with the events it deposits (`pallets/stableswap/src/lib.rs:217-417`). -/
def execE (c : Cfg) (s : State) : Call → R (State × List Event)
  | .add who pair d m => addLiquidityE c s who pair d m
  | .remove who pair liq => removeLiquidityE c s who pair liq
  | .create pair am rcv lp => createPoolE c s pair am rcv lp
  | .swap who a b x => doSwapE c s who a b x

/-! ## Specification -/

/-- An observer who sees only the events, and takes them at their word. -/
def see (n : Notes) : Event → Notes
  | .added _ b q _ _ lp nb nq => upd n (b, q) (some ⟨lp, nb, nq⟩)
  | .removed _ b q _ _ _ lp nb nq => upd n (b, q) (some ⟨lp, nb, nq⟩)
  | .traded _ a b _ _ lp nq nb => upd n (if b < a then (a, b) else (b, a)) (some ⟨lp, nb, nq⟩)
  | .created _ _ _ _ => n

/-- The notes after a list of events, starting with an empty page. -/
def after (es : List Event) : Notes := es.foldl see (fun _ => none)

/-- How much of asset `x` an event says `w` has paid. -/
def Event.paid (x w : Nat) : Event → Nat
  | .added who b q db dq _ _ _ => if w = who then (if x = b then db else 0) + (if x = q then dq else 0) else 0
  | .removed who _ _ liq _ _ lp _ _ => if w = who ∧ x = lp then liq else 0
  | .traded who a _ amt _ _ _ _ => if w = who ∧ x = a then amt else 0
  | _ => 0

/-- How much of asset `x` an event says `w` has received (`LiquidityAdded` does not say how many pool tokens). -/
def Event.got (x w : Nat) : Event → Nat
  | .removed who b q _ db dq _ _ _ => if w = who then (if x = b then db else 0) + (if x = q then dq else 0) else 0
  | .traded who _ b _ amt _ _ _ => if w = who ∧ x = b then amt else 0
  | _ => 0

/-- Pool tokens are minted by the event's call without a word about the amount. -/
def Event.silent (x : Nat) : Event → Prop
  | .added _ _ _ _ _ lp _ _ => x = lp
  | _ => False

/-- Histories with the events of all calls, in order. -/
inductive Told (c : Cfg) : State → List Event → Prop
  | init (s : State) (hp : ∀ k, s.pools k = none) : Told c s []
  | call {s s' : State} {es fs : List Event} (h : Told c s es) (k : Call) (hk : execE c s k = .ok (s', fs)) :
      Told c s' (es ++ fs)
  | env {s s' : State} {es : List Event} (h : Told c s es) (e : Env c s s') : Told c s' es

/-- What an event says about a new pool: `s` is the state before the call, `s'` the one after it. -/
def Event.holds (s s' : State) : Event → Prop
  | .created _ b q lp => s.pools (b, q) = none ∧ s.ledger.iss lp = 0 ∧ ∃ p, s'.pools (b, q) = some p ∧ p.lp = lp
  | _ => True

/-! ## Proofs -/

/-- The events are additional: acceptance, errors and the new state are those of `exec`. -/
theorem C239_same (c : Cfg) (s : State) (k : Call) : Prod.fst <$> execE c s k = exec c s k := by
  cases k with
  | add who pair d m =>
    simp only [execE, exec, addLiquidityE, addLiquidity, map_bind, map_pure]
  | remove who pair liq =>
    simp only [execE, exec, removeLiquidityE, removeLiquidity, map_bind, map_pure]
    refine bind_congr fun ⟨inv, b, q⟩ => bind_congr fun p => bind_congr fun ⟨s1, p1⟩ => ?_
    dsimp only
    unfold doRemove
    cases hr : reservesToRemove s1.ledger p1 liq with
    | error e => rfl
    | ok r =>
      obtain ⟨ob, oq⟩ := r
      simp only [bind_assoc]
      rfl
  | create pair am rcv lp =>
    simp only [execE, exec, createPoolE, createPool, map_bind, map_pure]
  | swap who a b x =>
    simp only [execE, exec, doSwapE, map_bind, map_pure]
    cases hs : doSwap c s who a b x with
    | error e => rfl
    | ok r =>
      obtain ⟨s', y⟩ := r
      obtain ⟨k, p, p', l1, l2, ra, rb, m, hp, rfl, hcase, -⟩ := doSwap_ok hs
      rcases hcase with ⟨hlt, rfl, -⟩ | ⟨hlt, rfl, -⟩
      · have e : sortAssets a b = .ok (false, a, b) := sortAssets_ok_iff.2 (.inl ⟨hlt, rfl⟩)
        simp only [ok_bind, e, upd_same, okOr]
      · have e : sortAssets a b = .ok (true, b, a) := sortAssets_ok_iff.2 (.inr ⟨hlt, rfl⟩)
        simp only [ok_bind, e, upd_same, okOr]

/-- What `do_swap`'s event says. -/
theorem doSwapE_ok {c : Cfg} {s s' : State} {who a b x : Nat} {es : List Event}
    (h : doSwapE c s who a b x = .ok (s', es)) :
    ∃ y p, doSwap c s who a b x = .ok (s', y) ∧ s'.pools (if b < a then (a, b) else (b, a)) = some p ∧
      es = [.traded who a b x y p.lp p.quote p.base] := by
  unfold doSwapE at h
  simp only [bind_ok_iff, Prod.exists, sortAssets_ok_iff, okOr_ok_iff, pure_ok_iff] at h
  obtain ⟨t, y, hs, inv, kb, kq, hsort, p, hp, h⟩ := h
  simp only [Prod.mk.injEq] at hsort h
  obtain ⟨rfl, rfl⟩ := h
  refine ⟨y, p, hs, ?_, rfl⟩
  rcases hsort with ⟨hlt, rfl, rfl, rfl⟩ | ⟨hlt, rfl, rfl, rfl⟩
  · rw [if_pos hlt]; exact hp
  · rw [if_neg (by omega)]; exact hp

theorem addLiquidityE_ok {c : Cfg} {s s' : State} {who : Nat} {pair d m : Nat × Nat} {es : List Event}
    (h : addLiquidityE c s who pair d m = .ok (s', es)) :
    ∃ b q p ib iq s1 p1 s2 p2, s.pools (b, q) = some p ∧ mintProtocolFee c s p = .ok (s1, p1) ∧
      doAdd c s1 who p1 ib iq b q = .ok (s2, p2) ∧ s' = { s2 with pools := upd s2.pools (b, q) (some p2) } ∧
      es = [.added who b q ib iq p2.lp p2.base p2.quote] := by
  unfold addLiquidityE at h
  simp only [bind_ok_iff, Prod.exists, okOr_ok_iff, ensure_ok_iff, pure_ok_iff] at h
  obtain ⟨inv, b, q, hsort, p, hp, ib, iq, hid, _, _, _, _, s1, p1, hfee, s2, p2, hadd, h⟩ := h
  simp only [Prod.mk.injEq] at h
  exact ⟨b, q, p, ib, iq, s1, p1, s2, p2, hp, hfee, hadd, h.1.symm, h.2.symm⟩

theorem removeLiquidityE_ok {c : Cfg} {s s' : State} {who : Nat} {pair : Nat × Nat} {liq : Nat} {es : List Event}
    (h : removeLiquidityE c s who pair liq = .ok (s', es)) :
    ∃ b q p ob oq s1 p1 s2 p2, s.pools (b, q) = some p ∧ mintProtocolFee c s p = .ok (s1, p1) ∧
      reservesToRemove s1.ledger p1 liq = .ok (ob, oq) ∧
      doRemove c s1 who p1 liq b q = .ok (s2, p2) ∧ s' = { s2 with pools := upd s2.pools (b, q) (some p2) } ∧
      es = [.removed who b q liq ob oq p2.lp p2.base p2.quote] := by
  unfold removeLiquidityE at h
  simp only [bind_ok_iff, Prod.exists, okOr_ok_iff, pure_ok_iff] at h
  obtain ⟨inv, b, q, hsort, p, hp, s1, p1, hfee, ob, oq, hob, s2, p2, hadd, h⟩ := h
  simp only [Prod.mk.injEq] at h
  exact ⟨b, q, p, ob, oq, s1, p1, s2, p2, hp, hfee, hob, hadd, h.1.symm, h.2.symm⟩

theorem createPoolE_ok {c : Cfg} {s s' : State} {pair am : Nat × Nat} {rcv lp : Nat} {es : List Event}
    (h : createPoolE c s pair am rcv lp = .ok (s', es)) :
    ∃ b q ba qa s2 p2, doAdd c s rcv (Pool.new lp) ba qa b q = .ok (s2, p2) ∧
      s' = { s2 with pools := upd s2.pools (b, q) (some p2) } ∧
      es = [.created rcv b q lp, .added rcv b q ba qa p2.lp p2.base p2.quote] := by
  unfold createPoolE at h
  simp only [bind_ok_iff, Prod.exists, ensure_ok_iff, pure_ok_iff] at h
  obtain ⟨inv, b, q, hsort, _, _, _, _, s2, p2, hadd, h⟩ := h
  simp only [Prod.mk.injEq] at h
  exact ⟨b, q, _, _, s2, p2, hadd, h.1.symm, h.2.symm⟩

/-- The observer's view of the stored pools. -/
def noted (s : State) : Notes := fun k => (s.pools k).map (fun p => ⟨p.lp, p.base, p.quote⟩)

theorem noted_upd (s : State) (l : Ledger) (k : Nat × Nat) (p : Pool) :
    noted { s with ledger := l, pools := upd s.pools k (some p) } = upd (noted s) k (some ⟨p.lp, p.base, p.quote⟩) := by
  funext j
  by_cases h : j = k
  · subst h; simp [noted]
  · simp [noted, upd_of_ne _ _ h]

theorem execE_notes {c : Cfg} {s s' : State} {k : Call} {es : List Event} (h : execE c s k = .ok (s', es)) :
    noted s' = es.foldl see (noted s) := by
  cases k with
  | add who pair d m =>
    obtain ⟨b, q, p, ib, iq, s1, p1, s2, p2, hp, hf, ha, rfl, rfl⟩ := addLiquidityE_ok h
    obtain ⟨-, -, -, hps, -⟩ := mintProtocolFee_ok hf
    obtain ⟨d0, l0, liq, d1, m, l1, l2, l3, -, -, -, -, -, -, -, rfl, -⟩ := doAdd_ok ha
    have e : noted s1 = noted s := by unfold noted; rw [hps]
    rw [← e]
    exact noted_upd s1 l3 (b, q) p2
  | remove who pair liq =>
    obtain ⟨b, q, p, ob, oq, s1, p1, s2, p2, hp, hf, ho, ha, rfl, rfl⟩ := removeLiquidityE_ok h
    obtain ⟨-, -, -, hps, -⟩ := mintProtocolFee_ok hf
    obtain ⟨ob', oq', l1, l2, l3, -, -, -, -, -, -, rfl, -⟩ := doRemove_ok ha
    have e : noted s1 = noted s := by unfold noted; rw [hps]
    rw [← e]
    exact noted_upd s1 l3 (b, q) p2
  | create pair am rcv lp =>
    obtain ⟨b, q, ba, qa, s2, p2, ha, rfl, rfl⟩ := createPoolE_ok h
    obtain ⟨d0, l0, liq, d1, m, l1, l2, l3, -, -, -, -, -, -, -, rfl, -⟩ := doAdd_ok ha
    exact noted_upd s l3 (b, q) p2
  | swap who a b x =>
    obtain ⟨y, p, hs, hp, rfl⟩ := doSwapE_ok h
    obtain ⟨k, p0, p', l1, l2, ra, rb, m, hp0, rfl, hcase, -⟩ := doSwap_ok hs
    have hk : k = if b < a then (a, b) else (b, a) := by
      rcases hcase with ⟨hlt, rfl, -⟩ | ⟨hlt, rfl, -⟩
      · rw [if_pos hlt]
      · rw [if_neg (by omega)]
    rw [← hk] at hp
    have hp' : some p' = some p := by rw [← hp]; simp
    cases hp'
    rw [noted_upd]
    show _ = upd (noted s) (if b < a then (a, b) else (b, a)) _
    rw [← hk]

/-- **C239** (pools) Whoever has read all events since the first pool was created knows, for every pair of assets, whether
there is a pool, its token and its two reserves: in every state that any history leads to. -/
theorem C239_pools {c : Cfg} {s : State} {es : List Event} (h : Told c s es) (k : Nat × Nat) :
    after es k = (s.pools k).map (fun p => ⟨p.lp, p.base, p.quote⟩) := by
  have : noted s = after es := by
    induction h with
    | init s hp => funext k; simp [noted, hp, after]
    | call h k hk ih => rw [execE_notes hk, ih]; unfold after; rw [List.foldl_append]
    | env h e ih => rw [← ih]; unfold noted; rw [e.pools]
  rw [← this]; rfl

/-- **C239** (amounts) Every balance of everybody but the pallet and the receiver of the protocol fee changes exactly by
what the events of the call say was paid and received; only the number of pool tokens minted when liquidity is added is
not announced. -/
theorem C239_amounts {c : Cfg} {s s' : State} {k : Call} {es : List Event} (hk : k.signerOK c)
    (h : execE c s k = .ok (s', es)) {x w : Nat} (hw : w ≠ c.acct) (hf : w ≠ c.feeTo)
    (hx : ∀ e ∈ es, ¬ e.silent x) :
    s'.ledger.bal x w + (es.map (Event.paid x w)).sum = s.ledger.bal x w + (es.map (Event.got x w)).sum := by
  cases k with
  | add who pair d m =>
    obtain ⟨b, q, p, ib, iq, s1, p1, s2, p2, hp, hfe, ha, rfl, rfl⟩ := addLiquidityE_ok h
    obtain ⟨d0, l0, liq, d1, m, l1, l2, l3, -, hl, -, -, hm, t1, t2, rfl, -, -, hlp, -⟩ := doAdd_ok ha
    have hne : x ≠ p2.lp := fun e => hx _ (List.mem_singleton_self _) e
    rw [hlp] at hne
    have h0 : s1.ledger.bal x w = s.ledger.bal x w := by
      obtain ⟨-, -, -, -, -, h⟩ := mintProtocolFee_ok hfe
      rcases h with ⟨_, rfl, f, _, hm⟩ | ⟨_, rfl⟩
      · rw [Ledger.mint_bal hm, if_neg (fun e => hf e.2), Nat.add_zero]
      · rfl
    have h1 : l0.bal x w = s1.ledger.bal x w := by
      rcases liquidityFor_ok hl with ⟨_, hm, _⟩ | ⟨_, rfl, _⟩
      · rw [Ledger.mint_bal hm, if_neg (fun e => hne e.1), Nat.add_zero]
      · rfl
    have h2 := Ledger.mint_bal hm x w
    rw [if_neg (fun e => hne e.1)] at h2
    have h3 := Ledger.transfer_bal t1 x w
    have h4 := Ledger.transfer_bal t2 x w
    simp only [hw, and_false, if_false] at h3 h4
    simp only [List.map_cons, List.map_nil, List.sum_cons, List.sum_nil, Event.paid, Event.got]
    clear hw hf hx
    split_ifs at h3 h4 ⊢ <;> omega
  | remove who pair liq =>
    obtain ⟨b, q, p, ob, oq, s1, p1, s2, p2, hp, hfe, ho, ha, rfl, rfl⟩ := removeLiquidityE_ok h
    obtain ⟨ob', oq', l1, l2, l3, hz, eb, eq, hb, t1, t2, rfl, -, -, -, -, hlp, -⟩ := doRemove_ok ha
    have h0 : s1.ledger.bal x w = s.ledger.bal x w := by
      obtain ⟨-, -, -, -, -, h⟩ := mintProtocolFee_ok hfe
      rcases h with ⟨_, rfl, f, _, hm⟩ | ⟨_, rfl⟩
      · rw [Ledger.mint_bal hm, if_neg (fun e => hf e.2), Nat.add_zero]
      · rfl
    simp only [reservesToRemove, bind_ok_iff, cdiv_ok_iff, toU128_ok_iff, pure_ok_iff, Prod.mk.injEq] at ho
    obtain ⟨_, ⟨_, rfl⟩, _, ⟨_, rfl⟩, _, ⟨_, rfl⟩, _, ⟨_, rfl⟩, e1, e2⟩ := ho
    rw [← eb] at e1
    rw [← eq] at e2
    subst e1; subst e2
    clear eb eq
    have h2 := Ledger.burn_bal hb x w
    have h3 := Ledger.transfer_bal t1 x w
    have h4 := Ledger.transfer_bal t2 x w
    simp only [hw, and_false, if_false] at h3 h4
    simp only [List.map_cons, List.map_nil, List.sum_cons, List.sum_nil, Event.paid, Event.got, hlp]
    clear hw hf hx
    split_ifs at h2 h3 h4 ⊢ <;> omega
  | create pair am rcv lp =>
    obtain ⟨b, q, ba, qa, s2, p2, ha, rfl, rfl⟩ := createPoolE_ok h
    obtain ⟨d0, l0, liq, d1, m, l1, l2, l3, -, hl, -, -, hm, t1, t2, rfl, -, -, hlp, -⟩ := doAdd_ok ha
    have hne : x ≠ p2.lp := fun e => hx (.added rcv b q ba qa p2.lp p2.base p2.quote) (by simp) e
    rw [hlp] at hne
    have h1 : l0.bal x w = s.ledger.bal x w := by
      rcases liquidityFor_ok hl with ⟨_, hm, _⟩ | ⟨_, rfl, _⟩
      · rw [Ledger.mint_bal hm, if_neg (fun e => hne e.1), Nat.add_zero]
      · rfl
    have h2 := Ledger.mint_bal hm x w
    rw [if_neg (fun e => hne e.1)] at h2
    have h3 := Ledger.transfer_bal t1 x w
    have h4 := Ledger.transfer_bal t2 x w
    simp only [hw, and_false, if_false] at h3 h4
    simp only [List.map_cons, List.map_nil, List.sum_cons, List.sum_nil, Event.paid, Event.got]
    clear hw hf hx
    split_ifs at h3 h4 ⊢ <;> omega
  | swap who a b y =>
    obtain ⟨out, p, hs, hp, rfl⟩ := doSwapE_ok h
    obtain ⟨k, p0, p', l1, l2, ra, rb, m, hp0, rfl, -, -, -, -, -, -, -, -, -, -, t1, t2⟩ := doSwap_ok hs
    have h3 := Ledger.transfer_bal t1 x w
    have h4 := Ledger.transfer_bal t2 x w
    simp only [hw, and_false, if_false] at h3 h4
    simp only [List.map_cons, List.map_nil, List.sum_cons, List.sum_nil, Event.paid, Event.got]
    clear hw hf hx
    split_ifs at h3 h4 ⊢ <;> omega

/-- **C239** (new pools) What an event says about a new pool is the case; and a pool comes into being only in a call that
deposits such an event. -/
theorem C239_facts {c : Cfg} {s s' : State} {k : Call} {es : List Event} (h : execE c s k = .ok (s', es)) :
    (∀ e ∈ es, e.holds s s') ∧ es ≠ [] ∧
    ∀ b q, (∀ w lp, .created w b q lp ∉ es) → s.pools (b, q) = none → s'.pools (b, q) = none := by
  cases k with
  | add who pair d m =>
    obtain ⟨b, q, p, ib, iq, s1, p1, s2, p2, hp, hf, ha, rfl, rfl⟩ := addLiquidityE_ok h
    obtain ⟨-, -, -, hps, -⟩ := mintProtocolFee_ok hf
    obtain ⟨d0, l0, liq, d1, m, l1, l2, l3, -, -, -, -, -, -, -, rfl, -⟩ := doAdd_ok ha
    refine ⟨by simp [Event.holds], by simp, fun x y _ hn => ?_⟩
    show upd s1.pools (b, q) (some p2) (x, y) = none
    rw [upd_of_ne, hps]
    · exact hn
    · rintro e; rw [e, hp] at hn; cases hn
  | remove who pair liq =>
    obtain ⟨b, q, p, ob, oq, s1, p1, s2, p2, hp, hf, ho, ha, rfl, rfl⟩ := removeLiquidityE_ok h
    obtain ⟨-, -, -, hps, -⟩ := mintProtocolFee_ok hf
    obtain ⟨ob', oq', l1, l2, l3, -, -, -, -, -, -, rfl, -⟩ := doRemove_ok ha
    refine ⟨by simp [Event.holds], by simp, fun x y _ hn => ?_⟩
    show upd s1.pools (b, q) (some p2) (x, y) = none
    rw [upd_of_ne, hps]
    · exact hn
    · rintro e; rw [e, hp] at hn; cases hn
  | create pair am rcv lp =>
    have h' := h
    unfold execE createPoolE at h'
    simp only [bind_ok_iff, Prod.exists, ensure_ok_iff, pure_ok_iff] at h'
    obtain ⟨inv, b, q, hsort, _, hno, _, hiss, s2, p2, ha, h'⟩ := h'
    simp only [Prod.mk.injEq] at h'
    obtain ⟨rfl, rfl⟩ := h'
    obtain ⟨d0, l0, liq, d1, m, l1, l2, l3, -, hl, -, -, hm, t1, t2, rfl, -, -, hlp, -⟩ := doAdd_ok ha
    refine ⟨?_, by simp, fun x y hc hn => ?_⟩
    · intro e he
      simp only [List.mem_cons, List.not_mem_nil, or_false] at he
      rcases he with rfl | rfl
      · exact ⟨hno, hiss, p2, upd_same _ _ _, hlp⟩
      · trivial
    · show upd s.pools (b, q) (some p2) (x, y) = none
      rw [upd_of_ne _ _ (fun e => ?_)]
      · exact hn
      · simp only [Prod.mk.injEq] at e
        obtain ⟨rfl, rfl⟩ := e
        exact hc rcv lp (by simp)
  | swap who a b x =>
    obtain ⟨y, p, hs, hp, rfl⟩ := doSwapE_ok h
    obtain ⟨k, p0, p', l1, l2, ra, rb, m, hp0, rfl, -⟩ := doSwap_ok hs
    refine ⟨by simp [Event.holds], by simp, fun x y _ hn => ?_⟩
    show upd s.pools k (some p') (x, y) = none
    rw [upd_of_ne _ _ (fun e => ?_)]
    · exact hn
    · rw [e, hp0] at hn; cases hn

/-- Every history has its events: each reachable state is told of. -/
theorem C239_every {c : Cfg} {s : State} (h : Reach c s) : ∃ es, Told c s es := by
  induction h with
  | init s hp _ => exact ⟨[], .init s hp⟩
  | step h hs ih =>
    obtain ⟨es, ih⟩ := ih
    cases hs with
    | call k hk hx =>
      rename_i s1 s2
      have e := C239_same c s1 k
      rw [hx] at e
      cases hE : execE c s1 k with
      | error err => rw [hE] at e; cases e
      | ok r =>
        obtain ⟨t, fs⟩ := r
        rw [hE] at e
        cases e
        exact ⟨_, .call ih k hE⟩
    | env he => exact ⟨_, .env ih he⟩

/-- A pool is created with the assets given in ascending order, somebody trades, adds and removes: what is announced. -/
example :
    okAnd (execE vanilla ex0 (.create (10, 20) (1000000, 1000000) 1 77)) (fun r =>
      r.2 == [.created 1 20 10 77, .added 1 20 10 1000000 1000000 77 1000000 1000000] &&
      okAnd (execE vanilla r.1 (.swap 2 20 10 5000)) (fun t =>
        t.2 == [.traded 2 20 10 5000 4985 77 995015 1005000] &&
        okAnd (execE vanilla t.1 (.add 2 (10, 20) (3000, 4000) (0, 0))) (fun u =>
          u.2 == [.added 2 20 10 3030 3000 77 1008030 998015] &&
          okAnd (execE vanilla u.1 (.remove 1 (10, 20) 30000)) (fun v =>
            v.2 == [.removed 1 20 10 30000 30149 29850 77 977881 968165])))) = true := by decide +kernel

end Verif.Stable
