import Verif.Router.Props

/-!
# Router property C82: exactly which trades the router accepts
-/

namespace Verif.Router
open Verif Verif.Amm

/-- The hops of a trade carried out one after the other: hop `i` sells `xᵢ` of asset `i` for asset `i + 1`. -/
inductive Hops (c : Cfg) (who : Nat) : List Nat → List Nat → State → State → Prop
  | done (a x : Nat) (s : State) : Hops c who [a] [x] s s
  | hop {a b x y : Nat} {rest xs : List Nat} {s s1 s' : State} (h : doSwap c s who a b x = .ok (s1, y))
      (t : Hops c who (b :: rest) xs s1 s') : Hops c who (a :: b :: rest) (x :: xs) s s'

/-- What the trader can spend of an asset: everything, but one unit must stay of the native asset. -/
def spendable (c : Cfg) (s : State) (who a : Nat) : Nat :=
  if a = c.native then s.ledger.bal a who - 1 else s.ledger.bal a who

theorem reducible_eq (c : Cfg) (s : State) (who a : Nat) :
    s.ledger.reducible a who (decide (a = c.native)) = spendable c s who a := by
  unfold Ledger.reducible spendable; simp

theorem routeChecks_iff {m : Nat} {l : List Nat} {u : Unit} :
    routeChecks m l = .ok u ↔ l ≠ [] ∧ l.length ≤ m ∧ l.Nodup := by
  unfold routeChecks
  simp only [bind_ok_iff, ensure_ok_iff, exists_const, hasDup_false_iff]

theorem swapAlong_iff {c : Cfg} {who : Nat} : ∀ (route xs : List Nat) (s s' : State),
    route ≠ [] → xs.length = route.length → (swapAlong c s who route xs = .ok s' ↔ Hops c who route xs s s')
  | [], _, _, _, h, _ => absurd rfl h
  | [a], [x], s, s', _, _ => by
    simp only [swapAlong, Except.ok.injEq]
    exact ⟨fun e => e ▸ .done a x s, fun h => by cases h; rfl⟩
  | a :: b :: rest, x :: xs, s, s', _, hl => by
    simp only [swapAlong, bind_ok_iff, Prod.exists]
    constructor
    · rintro ⟨s1, y, h1, h2⟩
      exact .hop h1 ((swapAlong_iff (b :: rest) xs s1 s' (by simp) (by simpa using hl)).1 h2)
    · rintro h
      cases h with
      | hop h1 h2 =>
        exact ⟨_, _, h1, (swapAlong_iff (b :: rest) xs _ s' (by simp) (by simpa using hl)).2 h2⟩

theorem amountsOutFrom_length {c : Cfg} {s : State} : ∀ (l : List Nat) (x a : Nat) (ys : List Nat),
    amountsOutFrom c s x a l = .ok ys → ys.length = l.length
  | [], _, _, _, h => by simp only [amountsOutFrom, Except.ok.injEq] at h; subst h; rfl
  | b :: l, x, a, ys, h => by
    simp only [amountsOutFrom, bind_ok_iff, Prod.exists, pure_ok_iff] at h
    obtain ⟨_, _, _, y, _, zs, hz, rfl⟩ := h
    simp [amountsOutFrom_length l y b zs hz]

theorem amountsOut_length {c : Cfg} {s : State} {x : Nat} {l xs : List Nat}
    (h : amountsOut c s x l = .ok xs) : xs.length = l.length ∧ xs ≠ [] := by
  cases l with
  | nil => simp [amountsOut] at h
  | cons a l =>
    simp only [amountsOut, bind_ok_iff, pure_ok_iff] at h
    obtain ⟨ys, h1, rfl⟩ := h
    simp [amountsOutFrom_length _ _ _ _ h1]

theorem amountsIn_len {c : Cfg} {s : State} {x : Nat} : ∀ (l xs : List Nat),
    amountsIn c s x l = .ok xs → xs.length = l.length ∧ xs ≠ []
  | [], xs, h => by simp [amountsIn] at h
  | [a], xs, h => by simp only [amountsIn, Except.ok.injEq] at h; subst h; simp
  | a :: b :: l, xs, h => by
    simp only [amountsIn, bind_ok_iff, Prod.exists, pure_ok_iff] at h
    obtain ⟨ys, h1, _, _, _, z, _, rfl⟩ := h
    have := amountsIn_len (b :: l) ys h1
    simpa using this.1

theorem getLastD_eq {l : List Nat} {d z : Nat} (h : l ≠ []) : l.getLastD d = z ↔ l.getLast? = some z := by
  rw [List.getLastD_eq_getLast?, List.getLast?_eq_some_getLast h]
  simp

theorem headD_eq {l : List Nat} {d z : Nat} (h : l ≠ []) : l.headD d = z ↔ l.head? = some z := by
  cases l with
  | nil => exact absurd rfl h
  | cons a l => simp

/-- C82 (a): an exact-in trade is carried out if and only if the route is non-empty, not too long and repeats no
asset, the amount is positive and spendable by the trader, the AMM quotes at least `minOut` for the whole route on
the current state, and every hop succeeds with the quoted amounts; the result is that of the hops. -/
theorem C82_exact_in_iff {c : Cfg} {m : Nat} {s s' : State} {who : Nat} {route : List Nat} {amtIn minOut : Nat} :
    swapExactIn c m s who route amtIn minOut = .ok s' ↔
      route ≠ [] ∧ route.length ≤ m ∧ route.Nodup ∧ 0 < amtIn ∧
      (∃ a, route.head? = some a ∧ amtIn ≤ spendable c s who a) ∧
      ∃ xs out, amountsOut c s amtIn route = .ok xs ∧ xs.getLast? = some out ∧ minOut ≤ out ∧
        Hops c who route xs s s' := by
  unfold swapExactIn
  simp only [bind_ok_iff, routeChecks_iff, ensure_ok_iff, exists_const, reducible_eq]
  constructor
  · rintro ⟨⟨h1, h2, h3⟩, ⟨h4, _⟩, h5, xs, h6, h7, h8⟩
    obtain ⟨hl, hne⟩ := amountsOut_length h6
    refine ⟨h1, h2, h3, h4, ⟨_, (headD_eq h1).1 rfl, h5⟩, xs, _, h6, (getLastD_eq hne).1 rfl, h7, ?_⟩
    exact (swapAlong_iff _ _ _ _ h1 hl).1 h8
  · rintro ⟨h1, h2, h3, h4, ⟨a, ha, h5⟩, xs, out, h6, ho, h7, h8⟩
    obtain ⟨hl, hne⟩ := amountsOut_length h6
    refine ⟨⟨h1, h2, h3⟩, ⟨h4, Nat.zero_le _⟩, ?_, xs, h6, ?_, (swapAlong_iff _ _ _ _ h1 hl).2 h8⟩
    · rw [(headD_eq h1).2 ha]; exact h5
    · rw [(getLastD_eq hne).2 ho]; exact h7

/-- C82 (b): likewise for exact-out trades; the quoted input must be at most `maxIn` and *strictly* below what the
trader can spend. -/
theorem C82_exact_out_iff {c : Cfg} {m : Nat} {s s' : State} {who : Nat} {route : List Nat} {amtOut maxIn : Nat} :
    swapExactOut c m s who route amtOut maxIn = .ok s' ↔
      route ≠ [] ∧ route.length ≤ m ∧ route.Nodup ∧ 0 < amtOut ∧
      ∃ a xs x, route.head? = some a ∧ amountsIn c s amtOut route = .ok xs ∧ xs.head? = some x ∧
        x < spendable c s who a ∧ x ≤ maxIn ∧ Hops c who route xs s s' := by
  unfold swapExactOut
  simp only [bind_ok_iff, routeChecks_iff, ensure_ok_iff, exists_const, reducible_eq]
  constructor
  · rintro ⟨⟨h1, h2, h3⟩, ⟨h4, _⟩, xs, h6, h5, h7, h8⟩
    obtain ⟨hl, hne⟩ := amountsIn_len _ _ h6
    refine ⟨h1, h2, h3, h4, _, xs, _, (headD_eq h1).1 rfl, h6, (headD_eq hne).1 rfl, h5, h7, ?_⟩
    exact (swapAlong_iff _ _ _ _ h1 hl).1 h8
  · rintro ⟨h1, h2, h3, h4, a, xs, x, ha, h6, hx, h5, h7, h8⟩
    obtain ⟨hl, hne⟩ := amountsIn_len _ _ h6
    refine ⟨⟨h1, h2, h3⟩, ⟨h4, Nat.zero_le _⟩, xs, h6, ?_, ?_, (swapAlong_iff _ _ _ _ h1 hl).2 h8⟩
    · rw [(headD_eq hne).2 hx, (headD_eq h1).2 ha]; exact h5
    · rw [(headD_eq hne).2 hx]; exact h7

/-- C82 (c): the error a rejected trade reports: which check failed. -/
theorem C82_errors {c : Cfg} {m : Nat} {s : State} {who : Nat} {route : List Nat} {amt lim : Nat} :
    swapExactIn c m s who [] amt lim = .error .emptyRoute ∧
    swapExactOut c m s who [] amt lim = .error .emptyRoute ∧
    (route ≠ [] → m < route.length →
      swapExactIn c m s who route amt lim = .error .exceedMaxLengthRoute ∧
      swapExactOut c m s who route amt lim = .error .exceedMaxLengthRoute) ∧
    (route ≠ [] → route.length ≤ m → ¬ route.Nodup →
      swapExactIn c m s who route amt lim = .error .duplicatedRoute ∧
      swapExactOut c m s who route amt lim = .error .duplicatedRoute) ∧
    (route ≠ [] → route.length ≤ m → route.Nodup →
      swapExactIn c m s who route 0 lim = .error .zeroBalance ∧
      swapExactOut c m s who route 0 lim = .error .zeroBalance) ∧
    (∀ a rest, route = a :: rest → route.length ≤ m → route.Nodup → 0 < amt → spendable c s who a < amt →
      swapExactIn c m s who route amt lim = .error .insufficientBalance) ∧
    (∀ a rest xs out, route = a :: rest → route.length ≤ m → route.Nodup → 0 < amt → amt ≤ spendable c s who a →
      amountsOut c s amt route = .ok xs → xs.getLast? = some out → out < lim →
      swapExactIn c m s who route amt lim = .error .minimumAmountOutViolated) := by
  have hchk : route ≠ [] → route.length ≤ m → route.Nodup → routeChecks m route = .ok () :=
    fun h1 h2 h3 => routeChecks_iff.2 ⟨h1, h2, h3⟩
  refine ⟨by simp [swapExactIn, routeChecks, ensure], by simp [swapExactOut, routeChecks, ensure], ?_, ?_, ?_, ?_, ?_⟩
  · intro h1 h2
    have : ¬ route.length ≤ m := by omega
    constructor
    · simp [swapExactIn, routeChecks, ensure, h1, this]
    · simp [swapExactOut, routeChecks, ensure, h1, this]
  · intro h1 h2 h3
    have : ¬ hasDup route = false := fun e => h3 (hasDup_false_iff.1 e)
    constructor
    · simp [swapExactIn, routeChecks, ensure, h1, h2, this]
    · simp [swapExactOut, routeChecks, ensure, h1, h2, this]
  · intro h1 h2 h3
    constructor
    · simp [swapExactIn, hchk h1 h2 h3, ensure]
    · simp [swapExactOut, hchk h1 h2 h3, ensure]
  · rintro a rest rfl h2 h3 h4 h5
    have : ¬ amt ≤ spendable c s who a := by omega
    simp [swapExactIn, hchk (by simp) h2 h3, ensure, h4, reducible_eq, this]
  · rintro a rest xs out rfl h2 h3 h4 h5 h6 h7 h8
    obtain ⟨hl, hne⟩ := amountsOut_length h6
    have e2 : ¬ lim ≤ xs.getLast?.getD 0 := by rw [h7]; simp only [Option.getD_some]; omega
    simp [swapExactIn, hchk (by simp) h2 h3, ensure, h4, reducible_eq, h5, h6, e2]

/-- Non-vacuity: a two-hop trade that meets all conditions, and one unit of `minOut` more that is rejected. -/
example : okAnd (swapExactIn exCfg 10 exR 7 [1, 2, 3] 1000 1171) (fun _ => true) = true ∧
    errIs (swapExactIn exCfg 10 exR 7 [1, 2, 3] 1000 1172) .minimumAmountOutViolated = true := by decide +kernel

end Verif.Router
