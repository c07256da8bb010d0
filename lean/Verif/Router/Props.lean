import Verif.Router.Search

set_option linter.unusedSimpArgs false

/-!
# Router: property theorems (C13 – C16)

`Pooled`, `SimplePath`, `Quotes`, `Lists` are in `Verif/Router/Spec.lean`; `Amm.Reach` in
`Verif/Amm/Spec.lean`.
-/

namespace Verif.Router
open Verif Verif.Amm

/-- Fixture: two pools 1–2 (5000 / 20000) and 2–3 (8000 / 4000). -/
def exR : State := ⟨⟨fun a w => if w = 7 then 1000000 else if w = 100 then
      (if a = 1 then 5000 else if a = 2 then 28000 else 4000) else 0, fun _ => 10000000⟩,
  fun k => if k = (2, 1) then some ⟨20000, 5000, 0, 0, 50, 0, 0, 0⟩
    else if k = (3, 2) then some ⟨4000, 8000, 0, 0, 51, 0, 0, 0⟩ else none, 0, none, 5⟩

/-! ## C13 -/

/-- C13: an exact-in trade along any route of at least two assets takes exactly `amtIn` of the first asset
from the trader, pays exactly the amount quoted on the state before, which is at least `minOut`, of the
last asset, and leaves the trader's other balances and everybody else's (except the AMM's) unchanged. -/
theorem C13_exact_in {c : Cfg} {m : Nat} {s s' : State} {who : Nat} {route : List Nat} {amtIn minOut : Nat}
    (hw : who ≠ c.acct) (h2 : 2 ≤ route.length)
    (h : swapExactIn c m s who route amtIn minOut = .ok s') :
    ∃ a z out, route.head? = some a ∧ route.getLast? = some z ∧ a ≠ z ∧
      Quotes c s amtIn false route out ∧ minOut ≤ out ∧
      s'.ledger.bal a who + amtIn = s.ledger.bal a who ∧
      s'.ledger.bal z who = s.ledger.bal z who + out ∧
      (∀ x, x ≠ a → x ≠ z → s'.ledger.bal x who = s.ledger.bal x who) ∧
      (∀ x w, w ≠ who → w ≠ c.acct → s'.ledger.bal x w = s.ledger.bal x w) ∧
      s'.ledger.iss = s.ledger.iss := by
  unfold swapExactIn at h
  simp only [bind_ok_iff, ensure_ok_iff] at h
  obtain ⟨_, hr, _, hpos, _, hbal, amounts, hq, _, hmin, hs⟩ := h
  obtain ⟨hne, hlen, hnd⟩ := routeChecks_ok hr
  match route, h2 with
  | a :: b :: rest, _ =>
    simp only [amountsOut, bind_ok_iff, pure_ok_iff] at hq
    obtain ⟨ys, hys, rfl⟩ := hq
    obtain ⟨i1, i2, i3⟩ := swapAlong_quoted hw (b :: rest) s s' a amtIn ys hnd hys hs (by simp)
    have hla : (a :: b :: rest).getLastD 0 ≠ a := by
      rw [getLastD_cons_cons]; exact last_ne_of_nodup hnd (by simp)
    have hlast : (a :: b :: rest).getLast? = some ((a :: b :: rest).getLastD 0) := by
      rw [List.getLastD_eq_getLast?]
      cases hh : (a :: b :: rest).getLast? with
      | none => simp at hh
      | some v => rfl
    refine ⟨a, (a :: b :: rest).getLastD 0, (amtIn :: ys).getLastD 0, rfl, hlast, hla.symm, ?_, hmin, ?_, ?_, ?_, i2, i3⟩
    · unfold Quotes
      simp only [Bool.false_eq_true, if_false]
      refine ⟨amtIn :: ys, ?_, ?_⟩
      · simp only [amountsOut, bind_ok_iff, pure_ok_iff]; exact ⟨ys, hys, rfl⟩
      · rw [List.getLastD_eq_getLast?]
        cases hh : (amtIn :: ys).getLast? with
        | none => simp at hh
        | some v => rfl
    · have := i1 a
      simp only [if_true, Ne.symm hla, if_false] at this
      omega
    · have := i1 ((a :: b :: rest).getLastD 0)
      simp only [if_true, hla, if_false] at this
      omega
    · intro x hx hx'
      have := i1 x
      simp only [hx, hx', if_false] at this
      omega

example : ∃ s', swapExactIn exCfg 10 exR 7 [1, 2, 3] 1000 1000 = .ok s' ∧
    s'.ledger.bal 3 7 = 1000000 + 1171 ∧ (7 : Nat) ≠ exCfg.acct := by
  have h : okAnd (swapExactIn exCfg 10 exR 7 [1, 2, 3] 1000 1000)
      (fun s => s.ledger.bal 3 7 = 1000000 + 1171) = true := by decide +kernel
  obtain ⟨s', h1, h2⟩ := okAnd_iff.1 h
  exact ⟨s', h1, by simpa using h2, by decide⟩

/-! ## C14 -/

/-- The full English claim of C14. -/
def C14_statement (c : Cfg) : Prop := ∀ (m : Nat) (s s' : State) (who : Nat) (route : List Nat)
    (amtOut maxIn a z : Nat), Reach c s → who ≠ c.acct → who ≠ c.lock → 2 ≤ route.length →
  swapExactOut c m s who route amtOut maxIn = .ok s' → route.head? = some a → route.getLast? = some z →
  (∃ x, Quotes c s amtOut true route x ∧ x ≤ maxIn ∧ s'.ledger.bal a who + x = s.ledger.bal a who) ∧
  s.ledger.bal z who + amtOut ≤ s'.ledger.bal z who

/-- A reachable pool with 1995 of asset 1 and 3000 of asset 2. -/
def ex14 : State := commit ex0 (createPool exCfg ex0 (1, 2) (1995, 3000) 7 50)
theorem ex14_step : createPool exCfg ex0 (1, 2) (1995, 3000) 7 50 = .ok ex14 := by
  rcases commit_cases ex0 (createPool exCfg ex0 (1, 2) (1995, 3000) 7 50) with h | ⟨_, e, h⟩
  · exact h
  · have : okAnd (createPool exCfg ex0 (1, 2) (1995, 3000) 7 50) (fun _ => true) = true := by
      decide +kernel
    rw [h] at this; cases this
theorem ex14_reach : Reach exCfg ex14 := by
  refine .step ex0_reach
    (.call (.create (1, 2) (1995, 3000) 7 50) ⟨by decide, by decide⟩ ?_)
  rw [exec_create]; exact ex14_step

/-- C14 is FALSE of the code: on a reachable state a trade for exactly 1000 units succeeds, charges the
quoted 1001 and delivers only 999. -/
theorem C14_refuted : ¬ C14_statement exCfg := by
  intro h
  have hk : okAnd (swapExactOut exCfg 10 ex14 7 [1, 2] 1000 1001)
      (fun s => s.ledger.bal 2 7 = ex14.ledger.bal 2 7 + 999) = true := by decide +kernel
  obtain ⟨s', h1, h2⟩ := okAnd_iff.1 hk
  have := (h 10 ex14 s' 7 [1, 2] 1000 1001 1 2 ex14_reach (by decide) (by decide) (by decide) h1 rfl rfl).2
  simp only [decide_eq_true_eq] at h2
  omega

theorem amountsIn_length {c : Cfg} {s : State} {out : Nat} : ∀ {route xs : List Nat},
    amountsIn c s out route = .ok xs → xs.length = route.length
  | [], _, h => by simp [amountsIn] at h
  | [_], xs, h => by simp only [amountsIn, Except.ok.injEq] at h; subst h; rfl
  | a :: b :: rest, xs, h => by
    simp only [amountsIn, bind_ok_iff, Prod.exists, pure_ok_iff] at h
    obtain ⟨ys, hys, _, _, _, _, _, rfl⟩ := h
    have := amountsIn_length hys
    simp at this ⊢; exact this

theorem amountsIn_last {c : Cfg} {s : State} {out p z : Nat} : ∀ {pre xs : List Nat},
    amountsIn c s out (pre ++ [p, z]) = .ok xs →
    ∃ pre' x ri ro, xs = pre' ++ [x, out] ∧ pre'.length = pre.length ∧ view s p z = some (ri, ro) ∧
      amountIn c out ri ro = .ok x
  | [], xs, h => by
    simp only [List.nil_append, amountsIn, bind_ok_iff, Prod.exists, pure_ok_iff, Except.ok.injEq] at h
    obtain ⟨ys, rfl, ri, ro, hr, x, hx, rfl⟩ := h
    exact ⟨[], x, ri, ro, rfl, rfl, reserves_ok_iff.1 hr, hx⟩
  | a :: pre, xs, h => by
    obtain ⟨b, rest, hbr⟩ : ∃ b rest, pre ++ [p, z] = b :: rest := by
      cases pre with
      | nil => exact ⟨_, _, rfl⟩
      | cons b r => exact ⟨b, r ++ [p, z], rfl⟩
    rw [List.cons_append, hbr] at h
    simp only [amountsIn, bind_ok_iff, Prod.exists, pure_ok_iff] at h
    obtain ⟨ys, hys, _, _, _, x0, _, rfl⟩ := h
    rw [← hbr] at hys
    obtain ⟨pre', x, ri, ro, rfl, hl, hv, hx⟩ := amountsIn_last hys
    exact ⟨x0 :: pre', x, ri, ro, rfl, by simp [hl], hv, hx⟩

/-- C14, what does hold: the trader pays exactly the quoted input of the first asset, at most `maxIn`;
nobody else but the AMM is affected; assets outside the route are untouched; and the amount `y` of the last
asset received is short of `amtOut` by at most one unit plus the price of one unit of the asset before it
(`(amtOut − y − 1) · ri ≤ ro − amtOut`, with `(ri, ro)` the reserves of the last pool).
Missing from the full claim: `amtOut ≤ y`, which is false (`C14_refuted`). -/
theorem C14_exact_out_partial {c : Cfg} {m : Nat} {s s' : State} {who : Nat} {route : List Nat}
    {amtOut maxIn p z : Nat} {pre : List Nat} (hw : who ≠ c.acct) (hroute : route = pre ++ [p, z])
    (h : swapExactOut c m s who route amtOut maxIn = .ok s') :
    (∃ a x, route.head? = some a ∧ Quotes c s amtOut true route x ∧ x ≤ maxIn ∧
      s'.ledger.bal a who + x = s.ledger.bal a who) ∧
    (∃ ri ro y, view s p z = some (ri, ro) ∧ s'.ledger.bal z who = s.ledger.bal z who + y ∧
      amtOut < ro ∧ amtOut * ri ≤ (y + 1) * ri + (ro - amtOut)) ∧
    (∀ x, x ∉ route → s'.ledger.bal x who = s.ledger.bal x who) ∧
    (∀ x w, w ≠ who → w ≠ c.acct → s'.ledger.bal x w = s.ledger.bal x w) ∧
    s'.ledger.iss = s.ledger.iss := by
  unfold swapExactOut at h
  simp only [bind_ok_iff, ensure_ok_iff] at h
  obtain ⟨_, hr, _, hpos, amounts, hq, _, hbal, _, hmax, hs⟩ := h
  obtain ⟨hne, hlen, hnd⟩ := routeChecks_ok hr
  subst hroute
  obtain ⟨pre', x, ri, ro, rfl, hl, hv, hx⟩ := amountsIn_last hq
  obtain ⟨ri', ro', y, hv', hy, hb⟩ := swapAlong_last hw pre pre' s s' hl.symm hnd hs
  rw [hv] at hv'; cases hv'
  obtain ⟨a, b, rest, hroute⟩ : ∃ a b rest, pre ++ [p, z] = a :: b :: rest := by
    match pre with
    | [] => exact ⟨_, _, _, rfl⟩
    | [a] => exact ⟨_, _, _, rfl⟩
    | a :: b :: r => exact ⟨_, _, _, rfl⟩
  obtain ⟨x0, xs, hams⟩ : ∃ x0 xs, pre' ++ [x, amtOut] = x0 :: xs := by
    cases pre' with
    | nil => exact ⟨_, _, rfl⟩
    | cons b r => exact ⟨_, _, rfl⟩
  have hout := C05_partial_shortfall hx
  have hlt := (amountIn_ok_iff.1 hx).1
  rw [hroute] at hs hnd hq
  rw [hams] at hs hmax hq
  obtain ⟨f1, f2⟩ := swapAlong_frame hw _ _ _ _ _ hs
  refine ⟨⟨a, x0, by rw [hroute]; rfl, ?_, by simpa using hmax, swapAlong_head hw hnd hs⟩,
    ⟨ri, ro, y, hv, hb, hlt, ?_⟩, ?_, fun x w h1 h2 => f1 x w (Or.inr ⟨h1, h2⟩), f2⟩
  · unfold Quotes
    simp only [if_true]
    exact ⟨x0 :: xs, by rw [hroute]; exact hq, rfl⟩
  · obtain ⟨_, hden, _, hy'⟩ := amountOut_ok_iff.1 hy
    set n := x - pmulCeil c.lpFee x
    have h1 : n * ro < (y + 1) * (ri + n) := by
      have := Nat.lt_div_mul_add (a := n * ro) (b := ri + n) (by omega)
      rw [← hy'] at this
      rw [Nat.add_mul, Nat.one_mul]; exact this
    have h2 : amtOut * (ri + n) < (y + 1) * (ri + n) + (ro - amtOut) := by omega
    by_cases hle : amtOut ≤ y + 1
    · have := Nat.mul_le_mul_right ri hle
      omega
    · obtain ⟨e, rfl⟩ : ∃ e, amtOut = (y + 1) + e := ⟨amtOut - (y + 1), by omega⟩
      rw [Nat.add_mul] at h2
      have h3 : e * (ri + n) < ro - (y + 1 + e) := by omega
      have h4 : e * ri ≤ e * (ri + n) := Nat.mul_le_mul_left e (Nat.le_add_right _ _)
      rw [Nat.add_mul]
      omega
  · intro x hx
    exact f1 x who (Or.inl (by rw [← hroute]; exact hx))

example : ∃ s', swapExactOut exCfg 10 exR 7 [1, 2, 3] 1000 2000 = .ok s' := by
  have h : okAnd (swapExactOut exCfg 10 exR 7 [1, 2, 3] 1000 2000) (fun _ => true) = true := by decide +kernel
  obtain ⟨s', h1, _⟩ := okAnd_iff.1 h
  exact ⟨s', h1⟩

/-! ## C15, C16 -/

theorem pooled_iff_adj {s : State} {ks : List (Nat × Nat)} (hl : Lists ks s)
    (hsort : ∀ k p, s.pools k = some p → k.2 < k.1) {a b : Nat} : Pooled s a b ↔ b ∈ adj ks a := by
  rw [mem_adj, hl, hl]
  unfold Pooled view
  constructor
  · rintro ⟨r, hr⟩
    split_ifs at hr with h1 h2
    · simp only [Option.map_eq_some_iff] at hr
      obtain ⟨p, hp, _⟩ := hr
      exact Or.inl ⟨p, hp⟩
    · simp only [Option.map_eq_some_iff] at hr
      obtain ⟨p, hp, _⟩ := hr
      exact Or.inr ⟨p, hp⟩
  · rintro (⟨p, hp⟩ | ⟨p, hp⟩)
    · have := hsort _ _ hp
      simp only at this
      simp [this, hp]
    · have := hsort _ _ hp
      simp only at this
      simp [this, Nat.lt_asymm this, hp]

theorem quotes_iff {c : Cfg} {s : State} {amount q : Nat} {rev : Bool} {route : List Nat} :
    routeQuote c s amount rev route = .ok q ↔ Quotes c s amount rev route q := by
  unfold routeQuote Quotes
  cases rev
  · simp only [Bool.false_eq_true, if_false, bind_ok_iff, pure_ok_iff]
    constructor
    · rintro ⟨xs, h, rfl⟩
      refine ⟨xs, h, ?_⟩
      cases route with
      | nil => simp [amountsOut] at h
      | cons a r =>
        simp only [amountsOut, bind_ok_iff, pure_ok_iff] at h
        obtain ⟨ys, _, rfl⟩ := h
        rw [List.getLastD_eq_getLast?]
        cases hh : (amount :: ys).getLast? with
        | none => simp at hh
        | some v => rfl
    · rintro ⟨xs, h, hq⟩
      exact ⟨xs, h, by rw [List.getLastD_eq_getLast?, hq]; rfl⟩
  · simp only [if_true, bind_ok_iff, pure_ok_iff]
    constructor
    · rintro ⟨xs, h, rfl⟩
      refine ⟨xs, h, ?_⟩
      have hlen := amountsIn_length h
      cases xs with
      | nil =>
        cases route with
        | nil => simp [amountsIn] at h
        | cons a r => simp at hlen
      | cons x xs => rfl
    · rintro ⟨xs, h, hq⟩
      refine ⟨xs, h, ?_⟩
      cases xs with
      | nil => simp at hq
      | cons x xs => simpa using hq

/-- The search finds exactly the simple paths. -/
theorem search_spec {s : State} {ks : List (Nat × Nat)} (hl : Lists ks s)
    (hsort : ∀ k p, s.pools k = some p → k.2 < k.1) {a b x : Nat} (ha : Pooled s a x) :
    ∃ n rs, (∀ fuel, n ≤ fuel → search ks b fuel [(a, [])] [] = some rs) ∧
      ∀ route, route ∈ rs ↔ SimplePath s a b route := by
  have hmem : a ∈ nodes ks := by
    rw [pooled_iff_adj hl hsort, mem_adj] at ha
    unfold nodes
    rw [List.mem_flatMap]
    rcases ha with h | h
    · exact ⟨_, h, by simp⟩
    · exact ⟨_, h, by simp⟩
  obtain ⟨rs, hrs⟩ := search_terminates (ks := ks) (t := b) (n := ([(a, ([] : List Nat))].map
    (weight (2 * ks.length) (nodes ks).length)).sum) (q := [(a, [])]) (ps := [])
    (by intro i hi; simp at hi; subst hi; simp [hmem]) (Nat.le_refl _)
  refine ⟨_, rs, fun fuel hf => search_fuel hrs hf, ?_⟩
  have hch : (fun u v => v ∈ adj ks u) = Pooled s := by
    funext u v; exact propext (pooled_iff_adj hl hsort).symm
  have hwalk : ∀ r, Walk ks a r ↔ r.head? = some a ∧ r.Nodup ∧ r.IsChain (Pooled s) := by
    intro r; unfold Walk; rw [hch]
  intro route
  constructor
  · intro hr
    obtain ⟨h1, h2⟩ := search_sound (a := a) hrs
      (by intro i hi; simp at hi; subst hi; exact ⟨rfl, by simp, by simp⟩) (by simp) route hr
    rw [hwalk] at h1
    exact ⟨h1.1, h2, h1.2.1, h1.2.2⟩
  · rintro ⟨h1, h2, h3, h4⟩
    refine search_complete ((hwalk route).2 ⟨h1, h3, h4⟩) h2 hrs (Or.inr ⟨(a, []), by simp, ?_⟩)
    cases route with
    | nil => simp at h1
    | cons y r => simp at h1; subst h1; simp

theorem adj_ne_nil {s : State} {ks : List (Nat × Nat)} (hl : Lists ks s)
    (hsort : ∀ k p, s.pools k = some p → k.2 < k.1) {a : Nat} : adj ks a ≠ [] ↔ ∃ x, Pooled s a x := by
  constructor
  · intro hne
    obtain ⟨x, hx⟩ := List.exists_mem_of_ne_nil _ hne
    exact ⟨x, (pooled_iff_adj hl hsort).2 hx⟩
  · rintro ⟨x, hx⟩; exact List.ne_nil_of_mem ((pooled_iff_adj hl hsort).1 hx)

/-- C15: on every reachable pool graph, whatever the iteration order `ks` of the pool map, route discovery
between two traded tokens terminates (after `n` iterations) and returns exactly the simple paths along
existing pools that can be quoted, with their quotes, best first. -/
theorem C15_routes {c : Cfg} (hc : c.OK) {s : State} (h : Reach c s) {ks : List (Nat × Nat)}
    (hl : Lists ks s) (amount a b : Nat) (rev : Bool) (ha : ∃ x, Pooled s a x) (hb : ∃ x, Pooled s b x) :
    ∃ n rs, (∀ fuel, n ≤ fuel → allRoutes c ks fuel s amount a b rev = .ok rs) ∧
      (∀ route q, (route, q) ∈ rs ↔ SimplePath s a b route ∧ Quotes c s amount rev route q) ∧
      rs.Pairwise (fun u v => v.2 ≤ u.2) := by
  have hsort : ∀ k p, s.pools k = some p → k.2 < k.1 := fun k p hp => ((h.inv hc).pool k p hp).2.2.2
  obtain ⟨x, hax⟩ := ha
  obtain ⟨n, paths, hn, hpaths⟩ := search_spec hl hsort (b := b) hax
  refine ⟨n, (outputRoutes c s amount paths rev).mergeSort (fun a b => decide (b.2 ≤ a.2)), ?_, ?_, ?_⟩
  · intro fuel hf
    unfold allRoutes
    simp only [bind_ok_iff, ensure_ok_iff, okOr_ok_iff, pure_ok_iff]
    exact ⟨(), (adj_ne_nil hl hsort).2 ⟨x, hax⟩, (), (adj_ne_nil hl hsort).2 hb, paths, hn fuel hf, rfl⟩
  · intro route q
    rw [List.mem_mergeSort]
    unfold outputRoutes
    rw [List.mem_filterMap]
    constructor
    · rintro ⟨r, hr, hq⟩
      cases hh : routeQuote c s amount rev r with
      | error e => rw [hh] at hq; simp at hq
      | ok v =>
        rw [hh] at hq
        simp at hq
        obtain ⟨rfl, rfl⟩ := hq
        exact ⟨(hpaths _).1 hr, quotes_iff.1 hh⟩
    · rintro ⟨h1, h2⟩
      refine ⟨route, (hpaths _).2 h1, ?_⟩
      rw [quotes_iff.2 h2]
  · have := List.pairwise_mergeSort (le := fun (a b : List Nat × Nat) => decide (b.2 ≤ a.2))
      (by intro a b c h1 h2; simp at *; omega) (by intro a b; simp; omega) (outputRoutes c s amount paths rev)
    exact this.imp (by intro a b h; simpa using h)

/-- C15, error side: a token without any pool is reported as unknown. -/
theorem C15_unknown_token {c : Cfg} (hc : c.OK) {s : State} (h : Reach c s) {ks : List (Nat × Nat)}
    (hl : Lists ks s) (amount a b : Nat) (rev : Bool) (fuel : Nat)
    (hn : (¬ ∃ x, Pooled s a x) ∨ (¬ ∃ x, Pooled s b x)) :
    allRoutes c ks fuel s amount a b rev = .error .tokenDoesNotExists := by
  have hsort : ∀ k p, s.pools k = some p → k.2 < k.1 := fun k p hp => ((h.inv hc).pool k p hp).2.2.2
  unfold allRoutes ensure
  rw [← adj_ne_nil hl hsort, ← adj_ne_nil hl hsort] at hn
  by_cases h1 : adj ks a ≠ []
  · have h2 := hn.resolve_left (fun e => e h1)
    simp [h1, h2]
  · simp [h1]

/-- C16: `get_best_route` finds a route whenever some simple path can be quoted, and the route it returns
is optimal among all of them: no simple path quotes a larger output (a smaller input when reversed). -/
theorem C16_best_route {c : Cfg} (hc : c.OK) {s : State} (h : Reach c s) {ks : List (Nat × Nat)}
    (hl : Lists ks s) (amount a b : Nat) (rev : Bool) (ha : ∃ x, Pooled s a x) (hb : ∃ x, Pooled s b x)
    (hex : ∃ route q, SimplePath s a b route ∧ Quotes c s amount rev route q) :
    ∃ n route q, (∀ fuel, n ≤ fuel → bestRoute c ks fuel s amount a b rev = .ok (route, q)) ∧
      SimplePath s a b route ∧ Quotes c s amount rev route q ∧
      ∀ route' q', SimplePath s a b route' → Quotes c s amount rev route' q' →
        if rev then q ≤ q' else q' ≤ q := by
  obtain ⟨n, rs, hn, hmem, hpw⟩ := C15_routes hc h hl amount a b rev ha hb
  obtain ⟨r0, q0, h0, h0'⟩ := hex
  have hne : rs ≠ [] := List.ne_nil_of_mem ((hmem r0 q0).2 ⟨h0, h0'⟩)
  cases rev with
  | false =>
    obtain ⟨⟨r, q⟩, tl, rfl⟩ := List.exists_cons_of_ne_nil hne
    obtain ⟨h1, h2⟩ := (hmem r q).1 (by simp)
    refine ⟨n, r, q, ?_, h1, h2, ?_⟩
    · intro fuel hf
      unfold bestRoute
      simp only [bind_ok_iff, ensure_ok_iff]
      exact ⟨_, hn fuel hf, (), hne, by simp⟩
    · intro r' q' h3 h4
      simp only [Bool.false_eq_true, if_false]
      have := (hmem r' q').2 ⟨h3, h4⟩
      rw [List.mem_cons] at this
      rcases this with e | e
      · cases e; exact Nat.le_refl _
      · exact (List.pairwise_cons.1 hpw).1 _ e
  | true =>
    obtain ⟨ini, ⟨r, q⟩, rfl⟩ : ∃ ini x, rs = ini ++ [x] :=
      ⟨_, _, (List.dropLast_append_getLast hne).symm⟩
    obtain ⟨h1, h2⟩ := (hmem r q).1 (by simp)
    refine ⟨n, r, q, ?_, h1, h2, ?_⟩
    · intro fuel hf
      unfold bestRoute
      simp only [bind_ok_iff, ensure_ok_iff]
      exact ⟨_, hn fuel hf, (), hne, by simp⟩
    · intro r' q' h3 h4
      simp only [if_true]
      have := (hmem r' q').2 ⟨h3, h4⟩
      rw [List.mem_append] at this
      rcases this with e | e
      · exact (List.pairwise_append.1 hpw).2.2 _ e (r, q) (by simp)
      · simp at e; omega

example : ∃ rs, allRoutes exCfg [(3, 2), (2, 1)] 100 exR 1000 1 3 false = .ok rs ∧
    rs = [([1, 2, 3], 1171)] := by
  have h : okAnd (allRoutes exCfg [(3, 2), (2, 1)] 100 exR 1000 1 3 false)
      (fun rs => rs = [([1, 2, 3], 1171)]) = true := by decide +kernel
  obtain ⟨s', h1, h2⟩ := okAnd_iff.1 h
  exact ⟨s', h1, by simpa using h2⟩

/-- The hypotheses of C15 and C16 are met by a reachable pool. -/
example : Reach exCfg ex1 ∧ (∃ x, Pooled ex1 1 x) ∧ (∃ x, Pooled ex1 2 x) ∧ SimplePath ex1 1 2 [1, 2] ∧
    Quotes exCfg ex1 1000 false [1, 2] 3324 := by
  refine ⟨ex1_reach, ⟨2, _, ex1_view⟩, ⟨1, (20000, 5000), by decide +kernel⟩, ⟨rfl, rfl, by decide, ?_⟩, ?_⟩
  · simp [List.isChain_cons]; exact ⟨_, ex1_view⟩
  · exact ⟨[1000, 3324], amountsOut_two ex1_view (by decide +kernel), rfl⟩

end Verif.Router
