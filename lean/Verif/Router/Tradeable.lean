import Verif.Router.Props2
import Verif.Amm.Props5

/-!
# C210: can the recommended route be traded?

`get_best_route` (also served by the `router_getBestRoute` RPC) returns a route and the amount it will yield.  A user
who signs exactly that trade (with the quoted amount as minimum) expects it to be carried out.  The recommendation
ignores several conditions of the trade: the smallest amount each pool accepts, the longest allowed route, the unit of
the native asset that has to stay with the trader, and the room in the price accumulators.
-/

set_option linter.unusedSimpArgs false

namespace Verif.Router
open Verif Verif.Amm

/-- The full claim: whoever can spend the amount can trade it along the recommended route for at least the
recommended yield. -/
def C210_statement (c : Cfg) (m : Nat) : Prop := ∀ s ks fuel amount a b route q who, Reach c s → Lists ks s → a ≠ b →
  0 < amount → bestRoute c ks fuel s amount a b false = .ok (route, q) → who ≠ c.acct → who ≠ c.lock →
  amount ≤ spendable c s who a → ∃ s', swapExactIn c m s who route amount q = .ok s'

/-- One hop of a quoted trade can be carried out: the pool accepts the amount (its fee is at least one unit), its
reserve does not overflow, and its price accumulators have room. -/
structure HopOK (c : Cfg) (s : State) (a b x : Nat) : Prop where
  reserve : ∃ ra rb, view s a b = some (ra, rb) ∧ ra + x ≤ maxU128
  minIn : million ≤ x * c.lpFee
  oracle : ∀ p ra rb y, poolAt s a b = some p → view s a b = some (ra, rb) → amountOut c x ra rb = .ok y →
    OracleRoom s p (if b < a then ra + x else rb - y) (if b < a then rb - y else ra + x)

theorem HopOK.congr {c : Cfg} {s t : State} {a b x : Nat} (h : HopOK c s a b x) (hv : view t a b = view s a b)
    (hp : poolAt t a b = poolAt s a b) (hb : t.block = s.block) : HopOK c t a b x := by
  refine ⟨by rw [hv]; exact h.reserve, h.minIn, fun p ra rb y h1 h2 h3 => ?_⟩
  rw [hp] at h1; rw [hv] at h2
  have := h.oracle p ra rb y h1 h2 h3
  unfold OracleRoom at this ⊢
  rw [hb]; exact this

theorem doSwap_block {c : Cfg} {s s' : State} {who a b x y : Nat} (h : doSwap c s who a b x = .ok (s', y)) :
    s'.block = s.block := by
  obtain ⟨_, _, _, _, _, _, _, _, _, rfl, _⟩ := doSwap_ok h
  rfl

/-- All hops of a quoted trade succeed, one after the other. -/
theorem hops_succeed {c : Cfg} (hc : c.OK) {who : Nat} (h1 : who ≠ c.acct) (h2 : who ≠ c.lock) :
    ∀ (rest : List Nat) (s : State) (a x : Nat) (ys : List Nat), Reach c s → (a :: rest).Nodup →
      amountsOutFrom c s x a rest = .ok ys →
      (∀ (i u v z : Nat), (a :: rest)[i]? = some u → (a :: rest)[i + 1]? = some v → (x :: ys)[i]? = some z →
        HopOK c s u v z) →
      x ≤ s.ledger.bal a who → (a = c.native → x < s.ledger.bal a who) →
      (c.native ∈ rest → 0 < s.ledger.bal c.native who) →
      ∃ s', Hops c who (a :: rest) (x :: ys) s s'
  | [], s, a, x, ys, _, _, hq, _, _, _, _ => by
    simp only [amountsOutFrom, Except.ok.injEq] at hq
    subst hq
    exact ⟨s, .done a x s⟩
  | b :: rest, s, a, x, ys, hr, hnd, hq, hops, hfunds, hkeep, hnat => by
    unfold amountsOutFrom at hq
    simp only [bind_ok_iff, Prod.exists, pure_ok_iff] at hq
    obtain ⟨ri, ro, hres, y, hy, ys', hys, rfl⟩ := hq
    have hop := hops 0 a b x rfl rfl rfl
    obtain ⟨s1, y', hsw⟩ := C81_trade_goes_through_partial hc hr (who := who)
      ⟨hop.reserve, hop.minIn, hfunds, hkeep⟩ hop.oracle
    obtain ⟨c1, hab, c2, c3, c4, c5, c6, c7, ⟨ra, rb, cv, _, _⟩, c8, c9⟩ := C03_swap_exact h1 hsw
    have hyy : y' = y := by
      rw [reserves_ok_iff] at hres
      rw [hres] at cv; cases cv
      have e1 := amountsOut_two (c := c) hres hy
      rw [c1] at e1
      simpa using e1
    subst hyy
    have hnd' := (List.nodup_cons.1 hnd).2
    have ha : a ∉ b :: rest := (List.nodup_cons.1 hnd).1
    have hpools : ∀ u v, u ≠ a → v ≠ a → s1.pools (u, v) = s.pools (u, v) := by
      intro u v hu hv
      apply c8 <;> intro e <;> cases e <;> simp_all
    have hv : ∀ u v, u ≠ a → v ≠ a → view s1 u v = view s u v := fun u v hu hv =>
      view_congr (hpools u v hu hv) (hpools v u hv hu)
    have hat : ∀ u v, u ≠ a → v ≠ a → poolAt s1 u v = poolAt s u v := by
      intro u v hu hv
      unfold poolAt; rw [hpools u v hu hv, hpools v u hv hu]
    have hq1 : amountsOutFrom c s1 y' b rest = .ok ys' := by
      rw [amountsOutFrom_congr (c := c) a hv rest y' b (fun e => hab e.symm)
        (fun e => ha (List.mem_cons_of_mem _ e))]
      exact hys
    have hr1 : Reach c s1 := .step hr (.call (.swap who a b x) ⟨h1, h2⟩ (by
      simp only [exec, bind_ok_iff, Prod.exists, pure_ok_iff]; exact ⟨s1, y', hsw, rfl⟩))
    obtain ⟨s', hs'⟩ := hops_succeed hc h1 h2 rest s1 b y' ys' hr1 hnd' hq1
      (fun i u v z hu hv' hz => by
        have hua : u ≠ a := fun e => ha (e ▸ List.mem_of_getElem? hu)
        have hva : v ≠ a := fun e => ha (e ▸ List.mem_of_getElem? hv')
        exact (hops (i + 1) u v z (by simpa using hu) (by simpa using hv') (by simpa using hz)).congr
          (hv u v hua hva) (hat u v hua hva) (doSwap_block hsw))
      (by omega)
      (fun e => by
        have : 0 < s.ledger.bal c.native who := hnat (by rw [← e]; exact List.mem_cons_self)
        rw [e] at c3 ⊢; omega)
      (fun e => by
        have hpos : 0 < s.ledger.bal c.native who := hnat (List.mem_cons_of_mem _ e)
        have hna : c.native ≠ a := fun h => ha (h ▸ List.mem_cons_of_mem _ e)
        by_cases hnb : c.native = b
        · rw [hnb] at hpos ⊢; omega
        · have := c6 c.native who (Or.inl ⟨hna, hnb⟩); omega)
    exact ⟨s', .hop hsw hs'⟩

/-- The recommendation in words: the recommended route, and what it yields. -/
theorem bestRoute_quotes {c : Cfg} {ks : List (Nat × Nat)} {s : State} {fuel amount a b q : Nat} {route : List Nat}
    (hc : c.OK) (hr : Reach c s) (hl : Lists ks s) (h : bestRoute c ks fuel s amount a b false = .ok (route, q)) :
    SimplePath s a b route ∧ Quotes c s amount false route q := by
  unfold bestRoute allRoutes at h
  simp only [bind_ok_iff, ensure_ok_iff, exists_const, okOr_ok_iff, pure_ok_iff, Bool.false_eq_true, if_false] at h
  obtain ⟨rs, ⟨ha, hb, paths, hs, rfl⟩, hne, hh⟩ := h
  have hsort : ∀ k p, s.pools k = some p → k.2 < k.1 := fun k p hp => ((hr.inv hc).pool k p hp).2.2.2
  obtain ⟨x, hax⟩ := (adj_ne_nil hl hsort).1 ha
  obtain ⟨n, ps, hn, hps⟩ := search_spec hl hsort (b := b) hax
  have e1 := search_fuel hs (Nat.le_max_left fuel n)
  rw [hn _ (Nat.le_max_right fuel n)] at e1
  obtain rfl : ps = paths := Option.some.inj e1
  have hmem := List.mem_of_mem_head? (show (route, q) ∈ _ from hh)
  rw [List.mem_mergeSort] at hmem
  unfold outputRoutes at hmem
  rw [List.mem_filterMap] at hmem
  obtain ⟨r, hrp, he⟩ := hmem
  cases hq : routeQuote c s amount false r with
  | error e => rw [hq] at he; simp at he
  | ok v =>
    rw [hq] at he
    simp only [Option.some.injEq, Prod.mk.injEq] at he
    obtain ⟨rfl, rfl⟩ := he
    exact ⟨(hps _).1 hrp, quotes_iff.1 hq⟩

/-- C210 (partial): the recommended trade is carried out, and yields exactly the recommended amount, if the route is
not too long, every hop is in order (`HopOK`, all stated about the state the recommendation was made in), and the
trader has a unit of the native asset if the route passes through it. -/
theorem C210_tradeable_partial {c : Cfg} (hc : c.OK) {m fuel amount a b q who : Nat} {s : State}
    {ks : List (Nat × Nat)} {route xs : List Nat} (hr : Reach c s) (hl : Lists ks s) (hab : a ≠ b) (hpos : 0 < amount)
    (hbest : bestRoute c ks fuel s amount a b false = .ok (route, q)) (h1 : who ≠ c.acct) (h2 : who ≠ c.lock)
    (hfunds : amount ≤ spendable c s who a) (hlen : route.length ≤ m) (hxs : amountsOut c s amount route = .ok xs)
    (hops : ∀ (i u v z : Nat), route[i]? = some u → route[i + 1]? = some v → xs[i]? = some z → HopOK c s u v z)
    (hnat : c.native ∈ route.tail → 0 < s.ledger.bal c.native who) :
    ∃ s', swapExactIn c m s who route amount q = .ok s' ∧
      s'.ledger.bal a who + amount = s.ledger.bal a who ∧ s'.ledger.bal b who = s.ledger.bal b who + q := by
  obtain ⟨⟨hhead, hlast, hnd, _⟩, hq⟩ := bestRoute_quotes hc hr hl hbest
  unfold Quotes at hq
  simp only [Bool.false_eq_true, if_false] at hq
  obtain ⟨xs', hxs', hlastq⟩ := hq
  obtain rfl : xs = xs' := by rw [hxs] at hxs'; exact Except.ok.inj hxs'
  cases route with
  | nil => cases hhead
  | cons r0 rest =>
    simp only [List.head?_cons, Option.some.injEq] at hhead
    subst hhead
    have hxs0 := hxs
    simp only [amountsOut, bind_ok_iff, pure_ok_iff] at hxs
    obtain ⟨ys, hys, rfl⟩ := hxs
    have hsp : amount ≤ s.ledger.bal r0 who ∧ (r0 = c.native → amount < s.ledger.bal r0 who) := by
      unfold spendable at hfunds
      split_ifs at hfunds with e
      · exact ⟨by omega, fun _ => by omega⟩
      · exact ⟨hfunds, fun h => absurd h e⟩
    obtain ⟨s', hs'⟩ := hops_succeed hc h1 h2 rest s r0 amount ys hr hnd hys hops hsp.1 hsp.2 hnat
    have hsw : swapExactIn c m s who (r0 :: rest) amount q = .ok s' :=
      C82_exact_in_iff.2 ⟨by simp, hlen, hnd, hpos, ⟨r0, rfl, hfunds⟩, _, q, hxs0, hlastq, Nat.le_refl _, hs'⟩
    have h2l : 2 ≤ (r0 :: rest).length := by
      cases rest with
      | nil => simp only [List.getLast?_singleton, Option.some.injEq] at hlast; exact absurd hlast hab
      | cons _ _ => simp
    obtain ⟨a', z, out, e1, e2, _, e4, _, e6, e7, _⟩ := C13_exact_in h1 h2l hsw
    simp only [List.head?_cons, Option.some.injEq] at e1
    subst e1
    obtain rfl : z = b := Option.some.inj (e2.symm.trans hlast)
    unfold Quotes at e4
    simp only [Bool.false_eq_true, if_false] at e4
    obtain ⟨xs2, hx2, ho⟩ := e4
    obtain rfl : xs2 = amount :: ys := by rw [hxs0] at hx2; exact (Except.ok.inj hx2).symm
    obtain rfl : out = q := Option.some.inj (ho.symm.trans hlastq)
    exact ⟨s', hsw, e6, e7⟩

/-! ### The example pool -/

theorem ex1_lists : Lists [(2, 1)] ex1 := by
  obtain ⟨kb, kq, ba, qa, t2, p2, hpair, _, _, hadd, e⟩ := createPool_ok ex1_step
  obtain ⟨_, _, _, _, _, _, _, _, _, ht2, _⟩ := doAdd_ok hadd
  have hk : (kb, kq) = (2, 1) := by
    rcases hpair with ⟨h, _⟩ | ⟨_, rfl, rfl, _⟩
    · exact absurd h (by decide)
    · rfl
  intro k
  rw [e]
  simp only [List.mem_singleton]
  rw [hk, ht2]
  by_cases hkk : k = (2, 1)
  · subst hkk; simp
  · rw [upd_of_ne _ _ hkk]
    simp only [hkk, false_iff, not_exists]
    intro p hp
    exact absurd hp (by simp [ex0])

/-- C210 is FALSE: on a reachable pool the best route for selling 100 units is quoted 388, and the trade is refused
for every trader: the pool takes nothing below 334 units. -/
theorem C210_refuted : ¬ C210_statement exCfg 10 := by
  intro h
  have hb : okAnd (bestRoute exCfg [(2, 1)] 10 ex1 100 1 2 false) (fun r => decide (r = ([1, 2], 388))) = true := by
    decide +kernel
  obtain ⟨r, hr, e⟩ := okAnd_iff.1 hb
  simp only [decide_eq_true_eq] at e
  subst e
  have hf : 100 ≤ spendable exCfg ex1 7 1 := by decide +kernel
  obtain ⟨s', hs⟩ := h ex1 [(2, 1)] 10 100 1 2 [1, 2] 388 7 ex1_reach ex1_lists (by decide) (by decide) hr (by decide)
    (by decide) hf
  have hn : okAnd (swapExactIn exCfg 10 ex1 7 [1, 2] 100 388) (fun _ => true) = false := by decide +kernel
  rw [hs] at hn; cases hn

/-- Non-vacuity of the partial theorem: selling 1000 units as recommended. -/
example : ∃ s', swapExactIn exCfg 10 ex1 7 [1, 2] 1000 3324 = .ok s' ∧ s'.ledger.bal 1 7 + 1000 = ex1.ledger.bal 1 7 ∧
    s'.ledger.bal 2 7 = ex1.ledger.bal 2 7 + 3324 := by
  have hb : okAnd (bestRoute exCfg [(2, 1)] 10 ex1 1000 1 2 false) (fun r => decide (r = ([1, 2], 3324))) = true := by
    decide +kernel
  obtain ⟨r, hr, e⟩ := okAnd_iff.1 hb
  simp only [decide_eq_true_eq] at e
  subst e
  have hp : poolAt ex1 1 2 = some ⟨20000, 5000, 0, 0, 50, 0, 0, 0⟩ := by decide +kernel
  have hbl : ex1.block = 5 := by decide +kernel
  have hxs : amountsOut exCfg ex1 1000 [1, 2] = .ok [1000, 3324] := amountsOut_two ex1_view (by decide +kernel)
  refine C210_tradeable_partial exCfg_ok (m := 10) (fuel := 10) ex1_reach ex1_lists (by decide) (by decide) hr
    (by decide) (by decide) (by decide +kernel) (by decide) hxs ?_ (by decide)
  intro i u v z hu hv hz
  have hi : i = 0 := by
    rcases i with _ | i
    · rfl
    · simp at hv
  subst hi
  simp only [List.getElem?_cons_zero, Option.some.injEq, Nat.zero_add, List.getElem?_cons_succ] at hu hv hz
  subst hu; subst hv; subst hz
  refine ⟨⟨5000, 20000, ex1_view, by decide⟩, by decide, fun p ra rb y h1 h2 h3 => ?_⟩
  rw [hp] at h1; cases h1
  rw [ex1_view] at h2; cases h2
  have hy : y = 3324 := by
    have e : amountOut exCfg 1000 5000 20000 = .ok 3324 := by decide +kernel
    rw [e] at h3; exact (Except.ok.inj h3).symm
  subst hy
  right
  rw [hbl]
  decide +kernel

end Verif.Router
