import Verif.Amm.Events
import Verif.Router.Props2

/-!
# C243: the events of the router tell what happened

`swapExactInE` and `swapExactOutE` are the two extrinsics of the router (Router/Model.lean) that also return the
deposited events: those of the pools, one per hop, and the router's own (`C243_same`: nothing else differs).
Events of `pallet_assets` are not modelled.
-/

namespace Verif.Router
open Verif Verif.Amm

/-- `Event` of the router (`pallets/router/src/lib.rs:121-133`) beside the events of the pools it trades in. -/
inductive Ann where
  | pool (e : Amm.Event)
  | traded (who amtIn : Nat) (route : List Nat) (amtOut : Nat)
deriving DecidableEq

/-- The swap loop with the events of the pools (`pallets/router/src/lib.rs:335-338`, `:397-400`). -/
def swapAlongE (c : Cfg) (s : State) (who : Nat) : List Nat → List Nat → R (State × List Amm.Event)
  | a :: b :: rest, x :: xs => do
    let (s, es) ← doSwapE c s who a b x
    let (s, fs) ← swapAlongE c s who (b :: rest) xs
    pure (s, es ++ fs)
  | _, _ => .ok (s, [])

/-- `swap_exact_tokens_for_tokens` with its event (`pallets/router/src/lib.rs:299-348`). -/
def swapExactInE (c : Cfg) (maxLen : Nat) (s : State) (who : Nat) (route : List Nat)
    (amtIn minOut : Nat) : R (State × List Ann) := do
  routeChecks maxLen route
  ensure (0 < amtIn ∧ 0 ≤ minOut) .zeroBalance
  let from_ := route.headD 0
  ensure (amtIn ≤ s.ledger.reducible from_ who (from_ = c.native)) .insufficientBalance
  let amounts ← amountsOut c s amtIn route
  ensure (minOut ≤ amounts.getLastD 0) .minimumAmountOutViolated
  let (s, es) ← swapAlongE c s who route amounts
  pure (s, es.map Ann.pool ++ [.traded who (amounts.headD 0) route (amounts.getLastD 0)])

/-- `swap_tokens_for_exact_tokens` with its event (`pallets/router/src/lib.rs:359-410`). -/
def swapExactOutE (c : Cfg) (maxLen : Nat) (s : State) (who : Nat) (route : List Nat)
    (amtOut maxIn : Nat) : R (State × List Ann) := do
  routeChecks maxLen route
  ensure (0 < amtOut ∧ 0 ≤ maxIn) .zeroBalance
  let amounts ← amountsIn c s amtOut route
  let from_ := route.headD 0
  ensure (amounts.headD 0 < s.ledger.reducible from_ who (from_ = c.native)) .insufficientBalance
  ensure (amounts.headD 0 ≤ maxIn) .maximumAmountInViolated
  let (s, es) ← swapAlongE c s who route amounts
  pure (s, es.map Ann.pool ++ [.traded who (amounts.headD 0) route (amounts.getLastD 0)])

/-! ## Specification -/

/-- How much of asset `x` the router's event says `w` has paid: the announced input, of the first asset of the route. -/
def Ann.paid (x w : Nat) : Ann → Nat
  | .traded who amt route _ => if w = who ∧ route.head? = some x then amt else 0
  | .pool _ => 0

/-- How much of asset `x` the router's event says `w` has received: the announced output, of the last asset. -/
def Ann.got (x w : Nat) : Ann → Nat
  | .traded who _ route amt => if w = who ∧ route.getLast? = some x then amt else 0
  | .pool _ => 0

/-- The events of the pools among all events. -/
def poolEvents : List Ann → List Amm.Event
  | [] => []
  | .pool e :: es => e :: poolEvents es
  | .traded _ _ _ _ :: es => poolEvents es

/-- The hops as announced by the pools form a chain along the route: each sells all that the one before it has bought; the
first sells `x` and the last buys `y`. -/
def Linked (who : Nat) : List Nat → Nat → Nat → List Amm.Event → Prop
  | [_], x, y, [] => x = y
  | a :: b :: rest, x, y, .traded w i o sold bought _ _ _ :: es =>
    w = who ∧ i = a ∧ o = b ∧ sold = x ∧ Linked who (b :: rest) bought y es
  | _, _, _, _ => False

/-- The router's event of this trade is true: what it says has been paid and received is the change of every balance of
everybody but the pallet. -/
def TrueTo (c : Cfg) (s s' : State) (es : List Ann) : Prop :=
  ∀ x w, w ≠ c.acct → s'.ledger.bal x w + (es.map (Ann.paid x w)).sum = s.ledger.bal x w + (es.map (Ann.got x w)).sum

/-- The English claim: the router's event is true of every accepted trade. -/
def C243_statement (c : Cfg) : Prop := ∀ (m : Nat) (s s' : State) (who : Nat) (route : List Nat) (amt lim : Nat)
    (es : List Ann), Reach c s → who ≠ c.acct →
  swapExactInE c m s who route amt lim = .ok (s', es) ∨ swapExactOutE c m s who route amt lim = .ok (s', es) →
  TrueTo c s s' es

/-! ## Proofs -/

theorem swapAlongE_same (c : Cfg) (who : Nat) : ∀ (route xs : List Nat) (s : State),
    Prod.fst <$> swapAlongE c s who route xs = swapAlong c s who route xs
  | [], _, _ => rfl
  | [_], _, _ => rfl
  | _ :: _ :: _, [], _ => rfl
  | a :: b :: rest, x :: xs, s => by
    unfold swapAlongE swapAlong
    have e : Prod.fst <$> doSwapE c s who a b x = Prod.fst <$> doSwap c s who a b x := by
      have := C231_same c s (.swap who a b x)
      simp only [execE, exec] at this
      rw [this]
      cases doSwap c s who a b x <;> rfl
    cases h : doSwapE c s who a b x with
    | error err =>
      rw [h] at e
      cases h2 : doSwap c s who a b x with
      | error err2 => rw [h2] at e; cases e; rfl
      | ok r => rw [h2] at e; cases e
    | ok r =>
      obtain ⟨s1, es⟩ := r
      rw [h] at e
      cases h2 : doSwap c s who a b x with
      | error err2 => rw [h2] at e; cases e
      | ok r2 =>
        obtain ⟨s2, y⟩ := r2
        rw [h2] at e
        cases e
        simp only [ok_bind, map_bind, map_pure]
        rw [← swapAlongE_same c who (b :: rest) xs s1]
        cases swapAlongE c s1 who (b :: rest) xs <;> rfl

/-- **C243** (additional) The events are additional: acceptance, errors and the new state are those of the two extrinsics
without events. -/
theorem C243_same (c : Cfg) (m : Nat) (s : State) (who : Nat) (route : List Nat) (amt lim : Nat) :
    Prod.fst <$> swapExactInE c m s who route amt lim = swapExactIn c m s who route amt lim ∧
    Prod.fst <$> swapExactOutE c m s who route amt lim = swapExactOut c m s who route amt lim := by
  constructor
  · simp only [swapExactInE, swapExactIn, map_bind, map_pure]
    refine bind_congr fun _ => bind_congr fun _ => bind_congr fun _ => bind_congr fun xs => bind_congr fun _ => ?_
    rw [← swapAlongE_same c who route xs s]
    cases swapAlongE c s who route xs <;> rfl
  · simp only [swapExactOutE, swapExactOut, map_bind, map_pure]
    refine bind_congr fun _ => bind_congr fun _ => bind_congr fun xs => bind_congr fun _ => bind_congr fun _ => ?_
    rw [← swapAlongE_same c who route xs s]
    cases swapAlongE c s who route xs <;> rfl

theorem swapAlongE_ok {c : Cfg} {who : Nat} {route xs : List Nat} {s s' : State} {es : List Amm.Event}
    (h : swapAlongE c s who route xs = .ok (s', es)) : swapAlong c s who route xs = .ok s' := by
  rw [← swapAlongE_same, h]; rfl

theorem poolEvents_map (es : List Amm.Event) (w x y : Nat) (r : List Nat) :
    poolEvents (es.map Ann.pool ++ [.traded w x r y]) = es := by
  induction es with
  | nil => rfl
  | cons e es ih =>
    show e :: poolEvents (es.map Ann.pool ++ [.traded w x r y]) = e :: es
    rw [ih]

theorem sum_paid (es : List Amm.Event) (z v w x y : Nat) (r : List Nat) :
    ((es.map Ann.pool ++ [Ann.traded w x r y]).map (Ann.paid z v)).sum = if v = w ∧ r.head? = some z then x else 0 := by
  induction es with
  | nil => simp [Ann.paid]
  | cons e es ih =>
    simp only [List.map_cons, List.cons_append, List.sum_cons, ih]
    simp [Ann.paid]

theorem sum_got (es : List Amm.Event) (z v w x y : Nat) (r : List Nat) :
    ((es.map Ann.pool ++ [Ann.traded w x r y]).map (Ann.got z v)).sum = if v = w ∧ r.getLast? = some z then y else 0 := by
  induction es with
  | nil => simp [Ann.got]
  | cons e es ih =>
    simp only [List.map_cons, List.cons_append, List.sum_cons, ih]
    simp [Ann.got]

/-- The hops of an exact-in trade are linked. -/
theorem swapAlongE_linked {c : Cfg} {who : Nat} (hw : who ≠ c.acct) :
    ∀ (rest : List Nat) (s s' : State) (a x : Nat) (ys : List Nat) (es : List Amm.Event), (a :: rest).Nodup →
      amountsOutFrom c s x a rest = .ok ys → swapAlongE c s who (a :: rest) (x :: ys) = .ok (s', es) →
      Linked who (a :: rest) x ((x :: ys).getLastD 0) es
  | [], s, s', a, x, ys, es, _, hq, h => by
    simp only [amountsOutFrom, Except.ok.injEq] at hq
    subst hq
    simp only [swapAlongE, Except.ok.injEq, Prod.mk.injEq] at h
    obtain ⟨rfl, rfl⟩ := h
    rfl
  | b :: rest, s, s', a, x, ys, es, hnd, hq, h => by
    unfold amountsOutFrom at hq
    simp only [bind_ok_iff, Prod.exists, pure_ok_iff] at hq
    obtain ⟨ri, ro, hr, y, hy, ys', hys, rfl⟩ := hq
    unfold swapAlongE at h
    simp only [bind_ok_iff, Prod.exists, pure_ok_iff, Prod.mk.injEq] at h
    obtain ⟨s1, fs, hsw, s2, gs, hs, rfl, rfl⟩ := h
    obtain ⟨y', p, hsw2, hp, rfl⟩ := doSwapE_ok hsw
    obtain ⟨c1, hab, c2, c3, c4, c5, c6, c7, ⟨ra, rb, cv, _, _⟩, c8, c9⟩ := C03_swap_exact hw hsw2
    have hyy : y' = y := by
      rw [reserves_ok_iff] at hr
      rw [hr] at cv; cases cv
      have e1 := amountsOut_two (c := c) hr hy
      rw [c1] at e1
      simpa using e1
    subst hyy
    have ha : a ∉ b :: rest := (List.nodup_cons.1 hnd).1
    have hv : ∀ u v, u ≠ a → v ≠ a → view s1 u v = view s u v := by
      intro u v hu hv
      apply view_congr
      · apply c8 <;> intro e <;> cases e <;> simp_all
      · apply c8 <;> intro e <;> cases e <;> simp_all
    have hl : a ∉ rest := fun e => ha (List.mem_cons_of_mem _ e)
    have hq1 := amountsOutFrom_congr (c := c) a hv rest y' b (fun e => hab e.symm) hl
    rw [hys] at hq1
    have := swapAlongE_linked hw rest s1 s2 b y' ys' gs (List.nodup_cons.1 hnd).2 hq1 hs
    exact ⟨rfl, rfl, rfl, rfl, this⟩

/-- **C243** (exact in) The router's event of an exact-in trade is true of every state, whatever the route: the announced
input is what was given, the announced output at least the minimum asked for, they are what the trader has paid and
received, and the hops announced by the pools lead from the one to the other. -/
theorem C243_exact_in {c : Cfg} {m : Nat} {s s' : State} {who : Nat} {route : List Nat} {amtIn minOut : Nat} {es : List Ann}
    (hw : who ≠ c.acct) (h : swapExactInE c m s who route amtIn minOut = .ok (s', es)) :
    TrueTo c s s' es ∧ ∃ out, es.getLast? = some (.traded who amtIn route out) ∧ minOut ≤ out ∧
      Linked who route amtIn out (poolEvents es) := by
  unfold swapExactInE at h
  simp only [bind_ok_iff, ensure_ok_iff, Prod.exists, pure_ok_iff, Prod.mk.injEq] at h
  obtain ⟨_, hr, _, hpos, _, hbal, xs, hq, _, hmin, s2, fs, hs, rfl, rfl⟩ := h
  obtain ⟨hne, hlen, hnd⟩ := routeChecks_ok hr
  have hs0 := swapAlongE_ok hs
  cases route with
  | nil => exact absurd rfl hne
  | cons a rest =>
    simp only [amountsOut, bind_ok_iff, pure_ok_iff] at hq
    obtain ⟨ys, hys, rfl⟩ := hq
    refine ⟨?_, _, List.getLast?_concat, hmin, ?_⟩
    · intro x w hwa
      rw [sum_paid, sum_got]
      cases rest with
      | nil =>
        simp only [amountsOutFrom, Except.ok.injEq] at hys
        subst hys
        simp only [swapAlong, Except.ok.injEq] at hs0
        subst hs0
        simp
      | cons b rest =>
        obtain ⟨i1, i2, i3⟩ := swapAlong_quoted hw (b :: rest) s s2 a amtIn ys hnd hys hs0 (by simp)
        by_cases hww : w = who
        · subst hww
          have h1 := i1 x
          have e1 : ((a :: b :: rest).head? = some x) = (x = a) := by simp [eq_comm]
          have e2 : ((a :: b :: rest).getLast? = some x) = (x = (a :: b :: rest).getLastD 0) := by
            apply propext
            rw [← getLastD_eq (d := 0) (by simp)]
            exact eq_comm
          simp only [e1, e2, true_and]
          exact h1
        · simp only [hww, false_and, if_false]
          rw [i2 x w hww hwa]
    · rw [poolEvents_map]
      exact swapAlongE_linked hw rest s s2 a amtIn ys fs hnd hys hs

/-- The events of the pools in any router trade: whoever has noted down the pools from the events goes on having them
right, and what these events say was paid and received is the change of every balance of everybody but the pallet. -/
theorem swapAlongE_pools {c : Cfg} {who : Nat} : ∀ (route xs : List Nat) (s s' : State) (es : List Amm.Event),
    swapAlongE c s who route xs = .ok (s', es) →
    (∀ fs, Told c s fs → Told c s' (fs ++ es)) ∧
    ∀ x w, w ≠ c.acct →
      s'.ledger.bal x w + (es.map (Event.paid x w)).sum = s.ledger.bal x w + (es.map (Event.got x w)).sum
  | [], _, s, s', es, h => by
    simp only [swapAlongE, Except.ok.injEq, Prod.mk.injEq] at h
    obtain ⟨rfl, rfl⟩ := h
    exact ⟨fun fs hf => by rw [List.append_nil]; exact hf, fun _ _ _ => rfl⟩
  | [_], _, s, s', es, h => by
    simp only [swapAlongE, Except.ok.injEq, Prod.mk.injEq] at h
    obtain ⟨rfl, rfl⟩ := h
    exact ⟨fun fs hf => by rw [List.append_nil]; exact hf, fun _ _ _ => rfl⟩
  | _ :: _ :: _, [], s, s', es, h => by
    simp only [swapAlongE, Except.ok.injEq, Prod.mk.injEq] at h
    obtain ⟨rfl, rfl⟩ := h
    exact ⟨fun fs hf => by rw [List.append_nil]; exact hf, fun _ _ _ => rfl⟩
  | a :: b :: rest, x :: xs, s, s', es, h => by
    unfold swapAlongE at h
    simp only [bind_ok_iff, Prod.exists, pure_ok_iff, Prod.mk.injEq] at h
    obtain ⟨s1, fs, hsw, s2, gs, hs, rfl, rfl⟩ := h
    obtain ⟨i1, i2⟩ := swapAlongE_pools (b :: rest) xs s1 s2 gs hs
    refine ⟨fun ks hk => ?_, fun z w hw => ?_⟩
    · rw [← List.append_assoc]
      exact i1 _ (Told.call hk (.swap who a b x) hsw)
    · have hi := i2 z w hw
      obtain ⟨out, p, hsw2, hp, rfl⟩ := doSwapE_ok hsw
      obtain ⟨k, p0, p', l1, l2, ra, rb, m, hp0, rfl, -, -, -, -, -, -, -, -, -, -, t1, t2⟩ := doSwap_ok hsw2
      have h3 := Ledger.transfer_bal t1 z w
      have h4 := Ledger.transfer_bal t2 z w
      simp only [hw, and_false, if_false] at h3 h4
      simp only [List.singleton_append, List.map_cons, List.sum_cons, Event.paid, Event.got]
      clear hw
      dsimp only at hi
      split_ifs at h3 h4 ⊢ <;> omega

/-- **C243** (pools) Both extrinsics: the events of the pools are true, also of an exact-out trade. They keep every reader's
notes of the pools right (`Told`, so `C231_pools` goes on to hold), and what they say was paid and received is the change
of every balance of everybody but the pallet. -/
theorem C243_pools {c : Cfg} {m : Nat} {s s' : State} {who : Nat} {route : List Nat} {amt lim : Nat} {es : List Ann}
    (h : swapExactInE c m s who route amt lim = .ok (s', es) ∨ swapExactOutE c m s who route amt lim = .ok (s', es)) :
    (∀ fs, Told c s fs → Told c s' (fs ++ poolEvents es)) ∧
    ∀ x w, w ≠ c.acct → s'.ledger.bal x w + ((poolEvents es).map (Event.paid x w)).sum =
      s.ledger.bal x w + ((poolEvents es).map (Event.got x w)).sum := by
  have : ∃ xs fs y z, swapAlongE c s who route xs = .ok (s', fs) ∧ es = fs.map Ann.pool ++ [.traded who y route z] := by
    rcases h with h | h
    · unfold swapExactInE at h
      simp only [bind_ok_iff, ensure_ok_iff, Prod.exists, pure_ok_iff, Prod.mk.injEq] at h
      obtain ⟨_, hr, _, hpos, _, hbal, xs, hq, _, hmin, s2, fs, hs, rfl, rfl⟩ := h
      exact ⟨xs, fs, _, _, hs, rfl⟩
    · unfold swapExactOutE at h
      simp only [bind_ok_iff, ensure_ok_iff, Prod.exists, pure_ok_iff, Prod.mk.injEq] at h
      obtain ⟨_, hr, _, hpos, xs, hq, _, hbal, _, hmax, s2, fs, hs, rfl, rfl⟩ := h
      exact ⟨xs, fs, _, _, hs, rfl⟩
  obtain ⟨xs, fs, y, z, hs, rfl⟩ := this
  rw [poolEvents_map]
  exact swapAlongE_pools route xs s s' fs hs

theorem amountsIn_getLast {c : Cfg} {s : State} {out : Nat} : ∀ {route xs : List Nat},
    amountsIn c s out route = .ok xs → xs.getLastD 0 = out
  | [], _, h => by simp [amountsIn] at h
  | [_], xs, h => by simp only [amountsIn, Except.ok.injEq] at h; subst h; rfl
  | a :: b :: rest, xs, h => by
    simp only [amountsIn, bind_ok_iff, Prod.exists, pure_ok_iff] at h
    obtain ⟨ys, hys, _, _, _, x, _, rfl⟩ := h
    have h1 := amountsIn_getLast hys
    obtain ⟨_, hne⟩ := amountsIn_len _ _ hys
    cases ys with
    | nil => exact absurd rfl hne
    | cons y ys => rw [getLastD_cons_cons]; exact h1

/-- **C243** (exact out, what does hold) The router's event of an exact-out trade announces the number asked for as the
output; the announced input is at most `maxIn`, and it is what the trader has paid of the first asset. Nothing happens to
anybody else but the pallet, or to an asset outside the route. Missing: that the announced output is what the trader has
received (`C243_refuted`). -/
theorem C243_exact_out_partial {c : Cfg} {m : Nat} {s s' : State} {who : Nat} {route : List Nat} {amtOut maxIn : Nat}
    {es : List Ann} (hw : who ≠ c.acct) (h : swapExactOutE c m s who route amtOut maxIn = .ok (s', es)) :
    ∃ x, es.getLast? = some (.traded who x route amtOut) ∧ x ≤ maxIn ∧
      (∀ a, route.head? = some a → 2 ≤ route.length → s'.ledger.bal a who + x = s.ledger.bal a who) ∧
      (∀ a, a ∉ route → s'.ledger.bal a who = s.ledger.bal a who) ∧
      (∀ a w, w ≠ who → w ≠ c.acct → s'.ledger.bal a w = s.ledger.bal a w) := by
  unfold swapExactOutE at h
  simp only [bind_ok_iff, ensure_ok_iff, Prod.exists, pure_ok_iff, Prod.mk.injEq] at h
  obtain ⟨_, hr, _, hpos, xs, hq, _, hbal, _, hmax, s2, fs, hs, rfl, rfl⟩ := h
  obtain ⟨hne, hlen, hnd⟩ := routeChecks_ok hr
  have hs0 := swapAlongE_ok hs
  rw [amountsIn_getLast hq]
  refine ⟨_, List.getLast?_concat, hmax, ?_⟩
  obtain ⟨hl, hne2⟩ := amountsIn_len _ _ hq
  match route, xs, hne, hne2, hl with
  | [a], [x], _, _, _ =>
    simp only [swapAlong, Except.ok.injEq] at hs0
    subst hs0
    exact ⟨fun _ _ h2 => absurd h2 (by simp), fun _ _ => rfl, fun _ _ _ _ => rfl⟩
  | a :: b :: rest, x :: xs, _, _, _ =>
    obtain ⟨f1, f2⟩ := swapAlong_frame hw _ _ _ _ _ hs0
    refine ⟨fun v hv _ => ?_, fun v hv => f1 v who (.inl hv), fun v w h1 h2 => f1 v w (.inr ⟨h1, h2⟩)⟩
    simp only [List.head?_cons, Option.some.injEq] at hv
    subst hv
    exact swapAlong_head hw hnd hs0

/-- C243 is FALSE of the code: on a reachable state a trade announces an output of 1000 units, and the trader has received
999. -/
theorem C243_refuted : ¬ C243_statement exCfg := by
  intro h
  have hk : okAnd (swapExactOutE exCfg 10 ex14 7 [1, 2] 1000 1001) (fun r =>
      decide (r.1.ledger.bal 2 7 = ex14.ledger.bal 2 7 + 999) &&
      (r.2 == [.pool (.traded 7 1 2 1001 999 50 2996 2001), .traded 7 1001 [1, 2] 1000])) = true := by decide +kernel
  obtain ⟨⟨s', es⟩, h1, h2⟩ := okAnd_iff.1 hk
  simp only [Bool.and_eq_true, decide_eq_true_eq, beq_iff_eq] at h2
  obtain ⟨h2, rfl⟩ := h2
  have h3 := h 10 ex14 s' 7 [1, 2] 1000 1001 _ ex14_reach (by decide) (.inr h1) 2 7 (by decide)
  have e1 : ([Ann.pool (.traded 7 1 2 1001 999 50 2996 2001), .traded 7 1001 [1, 2] 1000].map (Ann.paid 2 7)).sum = 0 := by
    decide
  have e2 : ([Ann.pool (.traded 7 1 2 1001 999 50 2996 2001), .traded 7 1001 [1, 2] 1000].map (Ann.got 2 7)).sum = 1000 := by
    decide
  rw [e1, e2] at h3
  omega

/-- A trade over two pools: what is announced, and what the trader has. -/
example : okAnd (swapExactInE exCfg 10 exR 7 [1, 2, 3] 1000 1000) (fun r =>
    decide (r.1.ledger.bal 1 7 = 999000 ∧ r.1.ledger.bal 3 7 = 1001171) &&
    ((r.2.getLast? == some (.traded 7 1000 [1, 2, 3] 1171)) && (poolEvents r.2).length == 2)) = true := by decide +kernel

end Verif.Router
