import Verif.Amm.Inv

set_option linter.unnecessarySeqFocus false
set_option linter.unusedSimpArgs false

/-!
# AMM: property theorems (C01 – C12)

Vocabulary: `view s a b` = (reserve of `a`, reserve of `b`) recorded for the pair; `Reach c s` = every
state some history leads to (`Verif/Amm/Spec.lean`); `doSwap`, `addLiquidity`, … are the modelled code.
-/

namespace Verif.Amm
open Verif

/-! Fixture for the examples: fee 0.3 %, minimum liquidity 10, AMM account 100, lock account 101, user 7
owns assets 1 and 2. -/
def exCfg : Cfg := ⟨100, 101, 3000, 10, 0⟩
@[irreducible] def exL : Ledger := Ledger.ofList [(1, 7, 1000000), (2, 7, 1000000)]
theorem exL_wf : exL.WF := by unfold exL; exact Ledger.ofList_wf _
def ex0 : State := ⟨exL, fun _ => none, 0, none, 5⟩
/-- A hand-written state with one pool (5000 of asset 1, 20000 of asset 2, LP token 50). -/
def exS : State := ⟨⟨fun a w => if w = 7 then 1000000 else if w = 100 then (if a = 1 then 5000 else 20000)
    else 0, fun _ => 10000000⟩,
  fun k => if k = (2, 1) then some ⟨20000, 5000, 0, 0, 50, 0, 0, 0⟩ else none, 0, none, 5⟩
/-- A pool with 5000 of asset 1 and 20000 of asset 2, LP token 50. -/
def ex1 : State := commit ex0 (createPool exCfg ex0 (1, 2) (5000, 20000) 7 50)

theorem exCfg_ok : exCfg.OK := ⟨by decide, by decide, by decide⟩
theorem ex1_step : createPool exCfg ex0 (1, 2) (5000, 20000) 7 50 = .ok ex1 := by
  rcases commit_cases ex0 (createPool exCfg ex0 (1, 2) (5000, 20000) 7 50) with h | ⟨_, e, h⟩
  · exact h
  · have : okAnd (createPool exCfg ex0 (1, 2) (5000, 20000) 7 50) (fun _ => true) = true := by
      decide +kernel
    rw [h] at this; cases this
theorem Reach.start (c : Cfg) (l : Ledger) (hw : l.WF) (f : Nat) (t : Option Nat) (b : Nat) :
    Reach c ⟨l, fun _ => none, f, t, b⟩ := .init _ (fun _ => rfl) hw
theorem ex0_reach : Reach exCfg ex0 := Reach.start exCfg exL exL_wf 0 none 5
theorem exec_create (c : Cfg) (s : State) (pair am : Nat × Nat) (r lp : Nat) :
    exec c s (.create pair am r lp) = createPool c s pair am r lp := rfl
theorem ex1_reach : Reach exCfg ex1 := by
  refine .step ex0_reach
    (.call (.create (1, 2) (5000, 20000) 7 50) ⟨by decide, by decide⟩ ?_)
  rw [exec_create]; exact ex1_step
theorem ex1_view : view ex1 1 2 = some (5000, 20000) := by decide +kernel

/-! ## C01 -/

/-- C01: a swap never lowers the product of the reserves; even after setting aside the LP fee
`⌈fee · x⌉` of the input the product does not fall, and it strictly grows when the pool is not empty. -/
theorem C01_swap_product {c : Cfg} {s s' : State} {who a b x y : Nat}
    (h : doSwap c s who a b x = .ok (s', y)) :
    ∃ ra rb ra' rb', view s a b = some (ra, rb) ∧ view s' a b = some (ra', rb') ∧
      ra' = ra + x ∧ rb' + y = rb ∧ pmulCeil c.lpFee x ≤ x ∧
      ra * rb ≤ (ra + (x - pmulCeil c.lpFee x)) * rb' ∧
      ra * rb ≤ ra' * rb' ∧ (0 < ra → ra * rb < ra' * rb') := by
  obtain ⟨k, p, p', l1, l2, ra, rb, m, hp, rfl, hcase, _, _, _, hm, hmx, hrb, hout, hov, hyr, _, _⟩ :=
    doSwap_ok h
  obtain ⟨hfee, hden, _, hy⟩ := amountOut_ok_iff.1 hout
  have hcore := product_core hy
  have hfpos : 0 < pmulCeil c.lpFee x := by
    rw [precipCeil_ok_iff] at hm
    have hx : 0 < x := by
      have : 1 ≤ m := by
        rw [hm.2]
        apply Nat.le_min.2
        refine ⟨maxU128_pos, ?_⟩
        by_contra hlt
        have hlt' : ceilDiv (1 * million) c.lpFee ≤ 0 := by omega
        rw [ceilDiv_le_iff (by omega)] at hlt'
        simp [million] at hlt'
      omega
    by_contra hlt
    have hlt' : pmulCeil c.lpFee x ≤ 0 := by omega
    unfold pmulCeil at hlt'
    rw [ceilDiv_le_iff million_pos] at hlt'
    have := Nat.mul_pos hx (Nat.pos_of_ne_zero hm.1)
    omega
  have hmono : (ra + (x - pmulCeil c.lpFee x)) * (rb - y) ≤ (ra + x) * (rb - y) :=
    Nat.mul_le_mul_right _ (by omega)
  refine ⟨ra, rb, ra + x, rb - y, ?_, ?_, rfl, by omega, hfee, hcore, hcore.trans hmono, ?_⟩
  · rcases hcase with ⟨hlt, rfl, rfl, rfl, h1, h2⟩ | ⟨hlt, rfl, rfl, rfl, h1, h2⟩
    · simp [view, hlt, hp]
    · simp [view, hlt, hp, Nat.lt_asymm hlt]
  · rcases hcase with ⟨hlt, rfl, rfl, rfl, h1, h2⟩ | ⟨hlt, rfl, rfl, rfl, h1, h2⟩
    · simp [view, hlt, h1, h2]
    · simp [view, hlt, h1, h2, Nat.lt_asymm hlt]
  · intro hra
    have hlt := out_lt_core hra (Nat.pos_of_ne_zero hrb) hy
    refine hcore.trans_lt ?_
    apply Nat.mul_lt_mul_of_pos_right _ (by omega)
    omega

/-- Non-vacuity: a swap that succeeds. -/
example : ∃ s' y, doSwap exCfg exS 7 1 2 1000 = .ok (s', y) ∧ y = 3324 := by
  have : okAnd (doSwap exCfg exS 7 1 2 1000) (fun r => r.2 = 3324) = true := by decide +kernel
  obtain ⟨⟨s', y⟩, h, hy⟩ := okAnd_iff.1 this
  exact ⟨s', y, h, by simpa using hy⟩

/-! ## C02 -/

/-- C02: in every reachable state, for every asset and every finite set of pools, the reserves recorded by
these pools for this asset are covered by the AMM account's real balance. -/
theorem C02_reserves_backed {c : Cfg} (hc : c.OK) {s : State} (h : Reach c s) (x : Nat)
    (S : Finset (Nat × Nat)) :
    ∑ k ∈ S, claimOf x k (s.pools k) ≤ s.ledger.bal x c.acct :=
  (h.inv hc).backed x S

example : Reach exCfg ex1 ∧ exCfg.OK ∧ claimOf 2 (2, 1) (ex1.pools (2, 1)) = 20000 :=
  ⟨ex1_reach, exCfg_ok, by decide +kernel⟩

/-! ## C03 -/

/-- C03: a swap takes exactly `x` from the trader, pays exactly the amount `get_amounts_out` quotes on the
state before the trade, changes the two reserves by the same amounts and touches no other balance, no
issuance and no other pool. -/
theorem C03_swap_exact {c : Cfg} {s s' : State} {who a b x y : Nat} (hw : who ≠ c.acct)
    (h : doSwap c s who a b x = .ok (s', y)) :
    amountsOut c s x [a, b] = .ok [x, y] ∧ a ≠ b ∧
    s'.ledger.bal a who + x = s.ledger.bal a who ∧
    s'.ledger.bal b who = s.ledger.bal b who + y ∧
    s'.ledger.bal a c.acct = s.ledger.bal a c.acct + x ∧
    s'.ledger.bal b c.acct + y = s.ledger.bal b c.acct ∧
    (∀ z w, (z ≠ a ∧ z ≠ b) ∨ (w ≠ who ∧ w ≠ c.acct) → s'.ledger.bal z w = s.ledger.bal z w) ∧
    s'.ledger.iss = s.ledger.iss ∧
    (∃ ra rb, view s a b = some (ra, rb) ∧ y ≤ rb ∧ view s' a b = some (ra + x, rb - y)) ∧
    (∀ k, k ≠ (a, b) → k ≠ (b, a) → s'.pools k = s.pools k) ∧ lpOf s' a b = lpOf s a b := by
  obtain ⟨k, p, p', l1, l2, ra, rb, m, hp, rfl, hcase, hlp, _, _, hm, hmx, hrb, hout, hov, hyr, e1, e2⟩ :=
    doSwap_ok h
  have hab : a ≠ b := by rcases hcase with ⟨h, _⟩ | ⟨h, _⟩ <;> omega
  have hwa : ¬ c.acct = who := fun e => hw e.symm
  have hba : ¬ b = a := fun e => hab e.symm
  refine ⟨?_, hab, ?_, ?_, ?_, ?_, ?_, ?_, ?_, ?_, ?_⟩
  · refine amountsOut_two ?_ hout
    rcases hcase with ⟨hlt, rfl, rfl, rfl, h1, h2⟩ | ⟨hlt, rfl, rfl, rfl, h1, h2⟩
    · simp [view, hlt, hp]
    · simp [view, hlt, hp, Nat.lt_asymm hlt]
  · have e1 := Ledger.transfer_bal e1 a who
    have e2 := Ledger.transfer_bal e2 a who
    simp [hwa, hw, hab, hba] at e1 e2 ⊢; omega
  · have e1 := Ledger.transfer_bal e1 b who
    have e2 := Ledger.transfer_bal e2 b who
    simp [hwa, hw, hab, hba] at e1 e2 ⊢; omega
  · have e1 := Ledger.transfer_bal e1 a c.acct
    have e2 := Ledger.transfer_bal e2 a c.acct
    simp [hwa, hw, hab, hba] at e1 e2 ⊢; omega
  · have e1 := Ledger.transfer_bal e1 b c.acct
    have e2 := Ledger.transfer_bal e2 b c.acct
    simp [hwa, hw, hab, hba] at e1 e2 ⊢; omega
  · intro z w hz
    have e1 := Ledger.transfer_bal e1 z w
    have e2 := Ledger.transfer_bal e2 z w
    rcases hz with ⟨h1, h2⟩ | ⟨h1, h2⟩ <;> simp [h1, h2] at e1 e2 ⊢ <;> omega
  · exact (Ledger.transfer_iss e2).trans (Ledger.transfer_iss e1)
  · refine ⟨ra, rb, ?_, hyr, ?_⟩
    · rcases hcase with ⟨hlt, rfl, rfl, rfl, h1, h2⟩ | ⟨hlt, rfl, rfl, rfl, h1, h2⟩
      · simp [view, hlt, hp]
      · simp [view, hlt, hp, Nat.lt_asymm hlt]
    · rcases hcase with ⟨hlt, rfl, rfl, rfl, h1, h2⟩ | ⟨hlt, rfl, rfl, rfl, h1, h2⟩
      · simp [view, hlt, h1, h2]
      · simp [view, hlt, h1, h2, Nat.lt_asymm hlt]
  · intro k2 h1 h2
    rcases hcase with ⟨hlt, rfl, _⟩ | ⟨hlt, rfl, _⟩
    · simp [upd_of_ne _ _ h1]
    · simp [upd_of_ne _ _ h2]
  · rcases hcase with ⟨hlt, rfl, _⟩ | ⟨hlt, rfl, _⟩
    · simp [lpOf, hlt, hp, hlp]
    · simp [lpOf, hlt, hp, hlp, Nat.lt_asymm hlt]

/-! ## C04 -/

/-- C04 (a): the quoted output is strictly below a positive output reserve. -/
theorem C04_out_lt_reserve {c : Cfg} {x ri ro y : Nat} (hi : 0 < ri) (ho : 0 < ro)
    (h : amountOut c x ri ro = .ok y) : y < ro :=
  out_lt_core hi ho (amountOut_ok_iff.1 h).2.2.2

/-- C04 (b): selling more never yields less. -/
theorem C04_out_mono {c : Cfg} (hf : c.lpFee ≤ million) {x x' ri ro y y' : Nat} (hx : x ≤ x')
    (h : amountOut c x ri ro = .ok y) (h' : amountOut c x' ri ro = .ok y') : y ≤ y' := by
  obtain ⟨_, hd, _, rfl⟩ := amountOut_ok_iff.1 h
  obtain ⟨_, hd', _, rfl⟩ := amountOut_ok_iff.1 h'
  apply out_mono_core _ hd
  rw [net_eq hf, net_eq hf]
  exact Nat.div_le_div_right (Nat.mul_le_mul_right _ hx)

/-- C04 (c): no history drains a pool: in every reachable state both reserves are positive. -/
theorem C04_reserves_positive {c : Cfg} (hc : c.OK) {s : State} (h : Reach c s) {a b ra rb : Nat}
    (hv : view s a b = some (ra, rb)) : 0 < ra ∧ 0 < rb := by
  unfold view at hv
  split_ifs at hv with h1 h2
  · simp only [Option.map_eq_some_iff, Prod.mk.injEq] at hv
    obtain ⟨p, hp, rfl, rfl⟩ := hv
    exact ⟨((h.inv hc).pool _ p hp).1, ((h.inv hc).pool _ p hp).2.1⟩
  · simp only [Option.map_eq_some_iff, Prod.mk.injEq] at hv
    obtain ⟨p, hp, rfl, rfl⟩ := hv
    exact ⟨((h.inv hc).pool _ p hp).2.1, ((h.inv hc).pool _ p hp).1⟩

example : amountOut exCfg 1000 5000 20000 = .ok 3324 := by decide +kernel
example : Reach exCfg ex1 ∧ view ex1 1 2 = some (5000, 20000) := ⟨ex1_reach, ex1_view⟩

/-! ## C05 -/

/-- C05 is FALSE of the code: with the runtime's 0.3 % fee, `get_amount_in` quotes 1001 for 1000 units
out of the pool (1995, 3000), but selling 1001 yields only 999. -/
theorem C05_quote_in_insufficient :
    amountIn exCfg 1000 1995 3000 = .ok 1001 ∧ amountOut exCfg 1001 1995 3000 = .ok 999 := by
  decide +kernel

/-- The full English claim of C05 … -/
def C05_statement (c : Cfg) : Prop := ∀ out ri ro x y : Nat,
  amountIn c out ri ro = .ok x → amountOut c x ri ro = .ok y → out ≤ y

/-- … and its refutation. -/
theorem C05_refuted : ¬ C05_statement exCfg := fun h => by
  have := h 1000 1995 3000 1001 999 C05_quote_in_insufficient.1 C05_quote_in_insufficient.2
  omega

theorem amountIn_ok_iff {c : Cfg} {out ri ro x : Nat} : amountIn c out ri ro = .ok x ↔
    out < ro ∧ ri * out / (ro - out) ≤ maxU128 ∧ c.lpFee ≤ million ∧ million - c.lpFee ≠ 0 ∧
    x ≤ maxU128 ∧ x = min maxU128 (ceilDiv (ri * out / (ro - out) * million) (million - c.lpFee)) + 1 := by
  unfold amountIn
  simp only [bind_ok_iff, ensure_ok_iff, cdiv_ok_iff, toU128_ok_iff, csub_ok_iff, precipCeil_ok_iff,
    cadd_ok_iff]
  constructor
  · rintro ⟨_, h1, q, ⟨h2, rfl⟩, _, ⟨h3, rfl⟩, f, ⟨h4, rfl⟩, r, ⟨h5, rfl⟩, h6, rfl⟩
    exact ⟨h1, h3, h4, h5, h6, rfl⟩
  · rintro ⟨h1, h2, h3, h4, h5, h6⟩
    exact ⟨(), h1, _, ⟨by omega, rfl⟩, _, ⟨h2, rfl⟩, _, ⟨h3, rfl⟩, _, ⟨h4, rfl⟩, h6 ▸ h5, h6⟩

/-- C05, what does hold (a): the quote is short by less than the value of one unit of the input asset:
`out·(ri + n) < n·ro + (ro − out)` where `n` is the input after the fee. -/
theorem C05_partial_shortfall {c : Cfg} {out ri ro x : Nat} (h : amountIn c out ri ro = .ok x) :
    out * (ri + (x - pmulCeil c.lpFee x)) < (x - pmulCeil c.lpFee x) * ro + (ro - out) := by
  obtain ⟨h1, h2, h3, h4, h5, h6⟩ := amountIn_ok_iff.1 h
  have hmin : x = ceilDiv (ri * out / (ro - out) * million) (million - c.lpFee) + 1 := by
    have := Nat.min_le_left maxU128 (ceilDiv (ri * out / (ro - out) * million) (million - c.lpFee))
    rcases Nat.le_total maxU128 (ceilDiv (ri * out / (ro - out) * million) (million - c.lpFee)) with hh | hh
    · rw [Nat.min_eq_left hh] at h6; omega
    · rw [Nat.min_eq_right hh] at h6; exact h6
  set q := ri * out / (ro - out) with hq
  have hg : 0 < million - c.lpFee := Nat.pos_of_ne_zero h4
  have hx : q * million ≤ x * (million - c.lpFee) := by
    have := ceilDiv_mul_ge (a := q * million) hg
    rw [hmin, Nat.add_mul]; omega
  have hn : q ≤ x - pmulCeil c.lpFee x := by
    rw [net_eq h3, Nat.le_div_iff_mul_le million_pos]; exact hx
  set n := x - pmulCeil c.lpFee x
  have hlt : ri * out < (q + 1) * (ro - out) := by
    have := Nat.lt_div_mul_add (a := ri * out) (b := ro - out) (by omega)
    rw [← hq] at this
    rw [Nat.add_mul, Nat.one_mul]; exact this
  have hle : q * (ro - out) ≤ n * (ro - out) := Nat.mul_le_mul_right _ hn
  have e1 : n * ro = n * (ro - out) + n * out := by rw [← Nat.mul_add]; congr 1; omega
  have e2 : out * (ri + n) = ri * out + n * out := by ring
  have e3 : (q + 1) * (ro - out) = q * (ro - out) + (ro - out) := by ring
  omega

/-- C05, what does hold (b): one unit more than quoted always suffices (for fees up to 50 %). -/
theorem C05_partial_plus_one {c : Cfg} (hf : c.lpFee ≤ 500000) {out ri ro x : Nat} (hro : ro ≤ maxU128)
    (h : amountIn c out ri ro = .ok x) :
    ∃ y, amountOut c (x + 1) ri ro = .ok y ∧ out ≤ y := by
  obtain ⟨h1, h2, h3, h4, h5, h6⟩ := amountIn_ok_iff.1 h
  have hmin : x = ceilDiv (ri * out / (ro - out) * million) (million - c.lpFee) + 1 := by
    have := Nat.min_le_left maxU128 (ceilDiv (ri * out / (ro - out) * million) (million - c.lpFee))
    rcases Nat.le_total maxU128 (ceilDiv (ri * out / (ro - out) * million) (million - c.lpFee)) with hh | hh
    · rw [Nat.min_eq_left hh] at h6; omega
    · rw [Nat.min_eq_right hh] at h6; exact h6
  set q := ri * out / (ro - out) with hq
  have hg : 0 < million - c.lpFee := Nat.pos_of_ne_zero h4
  have hx : (q + 1) * million ≤ (x + 1) * (million - c.lpFee) := by
    have := ceilDiv_mul_ge (a := q * million) hg
    have e : (x + 1) * (million - c.lpFee) =
        ceilDiv (q * million) (million - c.lpFee) * (million - c.lpFee) + 2 * (million - c.lpFee) := by
      rw [hmin]; ring
    have e2 : (q + 1) * million = q * million + million := by ring
    rw [e, e2]
    have : million ≤ 2 * (million - c.lpFee) := by unfold million at *; omega
    omega
  have hn : q + 1 ≤ (x + 1) - pmulCeil c.lpFee (x + 1) := by
    rw [net_eq h3, Nat.le_div_iff_mul_le million_pos]; exact hx
  have hn0 : 0 < (x + 1) - pmulCeil c.lpFee (x + 1) := Nat.lt_of_lt_of_le (Nat.succ_pos q) hn
  refine ⟨_, amountOut_ok_iff.2 ⟨pmulCeil_le h3, by omega, ?_, rfl⟩, ?_⟩
  · exact (out_le_core rfl).trans hro
  · set n := (x + 1) - pmulCeil c.lpFee (x + 1)
    rw [Nat.le_div_iff_mul_le (Nat.lt_of_lt_of_le hn0 (Nat.le_add_left _ _))]
    have hlt : ri * out < (q + 1) * (ro - out) := by
      have := Nat.lt_div_mul_add (a := ri * out) (b := ro - out) (by omega)
      rw [← hq] at this
      rw [Nat.add_mul, Nat.one_mul]; exact this
    have hle : (q + 1) * (ro - out) ≤ n * (ro - out) := Nat.mul_le_mul_right _ hn
    have e1 : n * ro = n * (ro - out) + n * out := by rw [← Nat.mul_add]; congr 1; omega
    have e2 : out * (ri + n) = ri * out + n * out := by ring
    omega

example : amountIn exCfg 3324 5000 20000 = .ok 1000 ∧ amountOut exCfg 1001 5000 20000 = .ok 3324 := by
  decide +kernel

/-! ## C06 -/

/-- C06: selling `x` of `a` for `y` of `b` and then selling these `y` back returns at most `x`,
whoever the traders are. -/
theorem C06_round_trip {c : Cfg} {s s1 s2 : State} {who who' a b x y z : Nat}
    (h1 : doSwap c s who a b x = .ok (s1, y)) (h2 : doSwap c s1 who' b a y = .ok (s2, z)) : z ≤ x := by
  obtain ⟨k, p, p', l1, l2, ra, rb, m, hp, rfl, hcase, _, _, _, hm, hmx, hrb, hout, hov, hyr, _, _⟩ :=
    doSwap_ok h1
  obtain ⟨k2, q, q', _, _, rb2, ra2, m2, hq, _, hcase2, _, _, _, _, _, _, hout2, _, _, _, _⟩ := doSwap_ok h2
  have hr : ra2 = ra + x ∧ rb2 = rb - y := by
    rcases hcase with ⟨hlt, rfl, rfl, rfl, e1, e2⟩ | ⟨hlt, rfl, rfl, rfl, e1, e2⟩ <;>
    rcases hcase2 with ⟨hlt2, rfl, rfl, rfl, e3, e4⟩ | ⟨hlt2, rfl, rfl, rfl, e3, e4⟩
    · omega
    · simp at hq; subst hq; exact ⟨e1, e2⟩
    · simp at hq; subst hq; exact ⟨e1, e2⟩
    · omega
  obtain ⟨rfl, rfl⟩ := hr
  obtain ⟨hfee, hden, _, hy⟩ := amountOut_ok_iff.1 hout
  obtain ⟨hfee2, hden2, _, hz⟩ := amountOut_ok_iff.1 hout2
  set n := x - pmulCeil c.lpFee x
  set n2 := y - pmulCeil c.lpFee y
  have hxy : y * (ra + x) ≤ x * rb := by
    have := out_mono_core (n := n) (m := x) (ro := rb) (ri := ra) (by omega) hden
    rw [← hy] at this
    exact (Nat.mul_le_mul_right _ this).trans (Nat.div_mul_le_self _ _)
  rw [hz]
  by_cases hyz : y = 0
  · have : n2 = 0 := by omega
    simp [this]
  · have h3 := out_mono_core (n := n2) (m := y) (ro := ra + x) (ri := rb - y) (by omega) hden2
    refine h3.trans ?_
    have : rb - y + y = rb := by omega
    rw [this]
    apply Nat.div_le_of_le_mul
    rw [Nat.mul_comm rb x]; exact hxy

example : ∃ s1 s2 y z, doSwap exCfg exS 7 1 2 2000 = .ok (s1, y) ∧ doSwap exCfg s1 7 2 1 y = .ok (s2, z) ∧
    z = 1991 := by
  have : okAnd (do let (s1, y) ← doSwap exCfg exS 7 1 2 2000; doSwap exCfg s1 7 2 1 y)
      (fun r => r.2 = 1991) = true := by decide +kernel
  obtain ⟨⟨s2, z⟩, h, hz⟩ := okAnd_iff.1 this
  simp only [bind_ok_iff, Prod.exists] at h
  obtain ⟨s1, y, e1, e2⟩ := h
  exact ⟨s1, s2, y, z, e1, e2, by simpa using hz⟩

end Verif.Amm
