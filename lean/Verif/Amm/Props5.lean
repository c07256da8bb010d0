import Verif.Amm.Props4

set_option linter.unusedSimpArgs false

/-!
# AMM property C81: trading stays possible (it can freeze: the price accumulators are checked, not wrapping)
-/

namespace Verif.Amm
open Verif

/-- The two accumulators of pool `p` can absorb `dt` blocks at the price of reserves `(base, quote)`. -/
def OracleRoom (s : State) (p : Pool) (base quote : Nat) : Prop :=
  p.blockLast = s.block ∨
  ((s.block - p.blockLast) * quote ≤ maxU128 ∧ (s.block - p.blockLast) * base ≤ maxU128 ∧
    p.price0 + priceTime (s.block - p.blockLast) quote base ≤ maxU128 ∧
    p.price1 + priceTime (s.block - p.blockLast) base quote ≤ maxU128)

theorem OracleRoom.congr {s : State} {p p1 : Pool} {b q : Nat} (h : OracleRoom s p b q)
    (h1 : p1.blockLast = p.blockLast) (h2 : p1.price0 = p.price0) (h3 : p1.price1 = p.price1) :
    OracleRoom s p1 b q := by
  unfold OracleRoom at *
  rw [h1, h2, h3]; exact h

theorem updateOracle_succeeds {s : State} {p : Pool} (hb : p.base ≠ 0) (hq : p.quote ≠ 0)
    (h : OracleRoom s p p.base p.quote) : ∃ p', updateOracle s p = .ok p' := by
  unfold updateOracle
  split_ifs with hne
  · rcases h with h | ⟨h1, h2, h3, h4⟩
    · exact absurd h hne
    · unfold priceTime at h3 h4
      refine ⟨{ p with
        price0 := p.price0 + min maxU128 ((s.block - p.blockLast) * p.quote * DIV / p.base)
        price1 := p.price1 + min maxU128 ((s.block - p.blockLast) * p.base * DIV / p.quote)
        blockLast := s.block }, ?_⟩
      simp only [bind_ok_iff, toU128_ok_iff, fixSatFromRational_ok_iff, cadd_ok_iff, pure_ok_iff]
      exact ⟨_, ⟨h1, rfl⟩, _, ⟨hb, rfl⟩, _, ⟨h2, rfl⟩, _, ⟨hq, rfl⟩, _, ⟨h3, rfl⟩, _, ⟨h4, rfl⟩, rfl⟩
  · exact ⟨_, rfl⟩

theorem updateOracle_room {s : State} {p p' : Pool} (h : updateOracle s p = .ok p') :
    OracleRoom s p p.base p.quote := by
  unfold updateOracle at h
  split_ifs at h with hb
  · simp only [bind_ok_iff, toU128_ok_iff, fixSatFromRational_ok_iff, cadd_ok_iff, pure_ok_iff] at h
    obtain ⟨_, ⟨g1, rfl⟩, _, ⟨_, rfl⟩, _, ⟨g2, rfl⟩, _, ⟨_, rfl⟩, _, ⟨g3, rfl⟩, _, ⟨g4, rfl⟩, rfl⟩ := h
    exact Or.inr ⟨g1, g2, g3, g4⟩
  · exact Or.inl (not_not.1 hb)

/-- A successful swap found room in the accumulators for the reserves it leaves behind. -/
theorem doSwap_room {c : Cfg} {s s' : State} {who a b x y : Nat}
    (h : doSwap c s who a b x = .ok (s', y)) :
    ∃ p p', poolAt s a b = some p ∧ poolAt s' a b = some p' ∧ OracleRoom s p p'.base p'.quote := by
  unfold doSwap at h
  simp only [bind_ok_iff, Prod.exists, sortAssets_ok_iff, okOr_ok_iff, ensure_ok_iff, cadd_ok_iff,
    csub_ok_iff, pure_ok_iff] at h
  obtain ⟨inv, kb, kq, hsort, p, hp, m, hm, _, hmx, _, hne, out, hout, ni, ⟨hni, rfl⟩, no, ⟨hno, rfl⟩,
    p', hp', l1, hl1, l2, hl2, heq⟩ := h
  obtain ⟨g1, g2, g3, g4, g5⟩ := updateOracle_ok hp'
  have hroom := updateOracle_room hp'
  simp only [Prod.mk.injEq] at heq hsort
  obtain ⟨rfl, rfl⟩ := heq
  rcases hsort with ⟨hlt, rfl, rfl, rfl⟩ | ⟨hlt, rfl, rfl, rfl⟩
  · simp only [Bool.false_eq_true, if_false] at g1 g2 hroom
    refine ⟨p, p', by simp [poolAt, hlt, hp], by simp [poolAt, hlt], ?_⟩
    rw [g1, g2]; exact hroom
  · simp only [if_true] at g1 g2 hroom
    refine ⟨p, p', by simp [poolAt, hlt, Nat.lt_asymm hlt, hp], by simp [poolAt, hlt, Nat.lt_asymm hlt], ?_⟩
    rw [g1, g2]; exact hroom

/-- The pool record after the reserves moved, and its oracle update. -/
theorem post_oracle {s : State} {inv : Bool} {p : Pool} {a b u v : Nat} (hinv : inv = decide (a < b)) (hne : a ≠ b)
    (hu : u ≠ 0) (hv : v ≠ 0)
    (hroom : OracleRoom s p (if b < a then u else v) (if b < a then v else u)) :
    ∃ p', updateOracle s (if inv then { p with quote := u, base := v } else { p with base := u, quote := v })
      = .ok p' := by
  by_cases e : a < b
  · have hi : inv = true := by rw [hinv]; exact decide_eq_true e
    subst hi
    rw [if_pos rfl]
    rw [if_neg (Nat.lt_asymm e), if_neg (Nat.lt_asymm e)] at hroom
    exact updateOracle_succeeds hv hu (hroom.congr rfl rfl rfl)
  · have hi : inv = false := by rw [hinv]; exact decide_eq_false e
    have e' : b < a := by omega
    subst hi
    rw [if_neg Bool.false_ne_true]
    rw [if_pos e', if_pos e'] at hroom
    exact updateOracle_succeeds hu hv (hroom.congr rfl rfl rfl)

/-- The trader's side of a trade is in order: distinct positive-reserve pair, an input above the minimum the fee
needs, funds for it (one unit must stay if it is the native asset), and no `u128` overflow of the reserve. -/
structure TradeOK (c : Cfg) (s : State) (who a b x : Nat) : Prop where
  pool : ∃ ra rb, view s a b = some (ra, rb) ∧ ra + x ≤ maxU128
  minIn : million ≤ x * c.lpFee
  funds : x ≤ s.ledger.bal a who
  keep : a = c.native → x < s.ledger.bal a who

/-- The full claim: in every reachable state a trade that is in order goes through. -/
def C81_statement (c : Cfg) : Prop := ∀ s who a b x, Reach c s → who ≠ c.acct → who ≠ c.lock →
  TradeOK c s who a b x → ∃ s' y, doSwap c s who a b x = .ok (s', y)

/-- C81 (partial): it goes through if the pool's price accumulators have room for the elapsed time at the price
the trade leads to (the stored reserves are those of the larger and of the smaller asset id). -/
theorem C81_trade_goes_through_partial {c : Cfg} (hc : c.OK) {s : State} {who a b x : Nat} (hr : Reach c s)
    (ht : TradeOK c s who a b x)
    (hroom : ∀ p ra rb y, poolAt s a b = some p → view s a b = some (ra, rb) → amountOut c x ra rb = .ok y →
      OracleRoom s p (if b < a then ra + x else rb - y) (if b < a then rb - y else ra + x)) :
    ∃ s' y, doSwap c s who a b x = .ok (s', y) := by
  obtain ⟨⟨ra, rb, hv, hov⟩, hmin, hfunds, hkeep⟩ := ht
  have hfee0 : c.lpFee ≠ 0 := by
    intro e; rw [e, Nat.mul_zero] at hmin; exact absurd hmin (Nat.not_le.2 million_pos)
  obtain ⟨hra, hrb⟩ := C04_reserves_positive hc hr hv
  -- the stored pool
  have hst : ∃ inv kb kq p, sortAssets a b = .ok (inv, kb, kq) ∧ s.pools (kb, kq) = some p ∧
      (if inv then p.quote else p.base) = ra ∧ (if inv then p.base else p.quote) = rb ∧
      poolAt s a b = some p ∧ a ≠ b ∧ rb ≤ claimOf b (kb, kq) (some p) ∧ (inv = decide (a < b)) := by
    have hv := hv
    unfold view at hv
    split_ifs at hv with h1 h2
    · rw [Option.map_eq_some_iff] at hv
      obtain ⟨p, hp, e⟩ := hv
      simp only [Prod.mk.injEq] at e
      exact ⟨false, a, b, p, sortAssets_ok_iff.2 (Or.inl ⟨h1, rfl⟩), hp, by simp [e.1], by simp [e.2],
        by simp [poolAt, h1, hp], by omega, by simp only [claimOf, if_true]; omega, by simp [Nat.lt_asymm h1]⟩
    · rw [Option.map_eq_some_iff] at hv
      obtain ⟨p, hp, e⟩ := hv
      simp only [Prod.mk.injEq] at e
      exact ⟨true, b, a, p, sortAssets_ok_iff.2 (Or.inr ⟨h2, rfl⟩), hp, by simp [e.1], by simp [e.2],
        by simp [poolAt, h1, h2, hp], by omega, by simp only [claimOf, if_true]; omega, by simp [h2]⟩
  obtain ⟨inv, kb, kq, p, hsort, hp, eri, ero, hat, hne, hclaim, hinv⟩ := hst
  have hback := ((hr.inv hc).backed b).apply (kb, kq)
  rw [hp] at hback
  have hrbu : rb ≤ maxU128 :=
    (hclaim.trans hback).trans ((Ledger.bal_le_iss (hr.inv hc).wf b c.acct).trans ((hr.inv hc).wf b).2)
  -- the quote
  set net := x - pmulCeil c.lpFee x with hnet
  have hq : amountOut c x ra rb = .ok (net * rb / (ra + net)) := by
    rw [amountOut_ok_iff]
    refine ⟨pmulCeil_le hc.fee, by omega, ?_, rfl⟩
    exact (out_le_core rfl).trans hrbu
  have hlt : net * rb / (ra + net) < rb := out_lt_core hra hrb rfl
  generalize net * rb / (ra + net) = y at hq hlt
  clear_value net
  -- minimum
  obtain ⟨m, hmc, hmx⟩ : ∃ m, precipCeil c.lpFee 1 = .ok m ∧ m ≤ x := by
    refine ⟨_, precipCeil_ok_iff.2 ⟨hfee0, rfl⟩, (Nat.min_le_right _ _).trans ?_⟩
    rw [ceilDiv_le_iff (Nat.pos_of_ne_zero hfee0), Nat.one_mul]; exact hmin
  -- the transfers
  obtain ⟨l1, hl1⟩ := Ledger.transfer_succeeds (l := s.ledger) (a := a) (s := who) (d := c.acct) (m := x)
    (k := decide (a = c.native)) hfunds (fun e => hkeep (by simpa using e))
  have hb1 : rb ≤ l1.bal b c.acct := by
    have := Ledger.transfer_bal hl1 b c.acct
    have hba : b ≠ a := fun e => hne e.symm
    simp only [hba, false_and, if_false, Nat.add_zero] at this
    rw [this]; exact hclaim.trans hback
  obtain ⟨l2, hl2⟩ := Ledger.transfer_succeeds (l := l1) (a := b) (s := c.acct) (d := who) (m := y)
    (k := decide (b = c.native)) (by omega) (fun _ => by omega)
  -- the oracle
  obtain ⟨p', hp'⟩ := post_oracle (s := s) hinv hne (show ra + x ≠ 0 by omega) (show rb - y ≠ 0 by omega)
    (hroom p ra rb y hat hv hq)
  refine ⟨{ s with ledger := l2, pools := upd s.pools (kb, kq) (some p') }, y, ?_⟩
  unfold doSwap
  simp only [bind_ok_iff, Prod.exists, okOr_ok_iff, ensure_ok_iff, cadd_ok_iff, csub_ok_iff, pure_ok_iff]
  refine ⟨inv, kb, kq, hsort, p, hp, m, hmc, (), hmx, (), ?_, y, ?_, ra + x, ?_, rb - y, ?_, p', hp', l1, hl1, l2, hl2,
    rfl⟩
  · rw [ero]; omega
  · rw [eri, ero]; exact hq
  · rw [eri]; exact ⟨hov, rfl⟩
  · rw [ero]; exact ⟨hlt.le, rfl⟩

/-- C81: once an accumulator is full, the pool never trades again in a later block, whatever happens, unless its
price has become so small that it rounds to zero. -/
theorem C81_full_accumulator_freezes {c : Cfg} {s s1 s2 : State} {who a b x y : Nat} {p : Pool}
    (hr : Reach c s) (hp : poolAt s a b = some p) (hfull : p.price0 = maxU128) (hs : Steps c s s1)
    (h : doSwap c s1 who a b x = .ok (s2, y)) :
    ∃ p1 p2, poolAt s1 a b = some p1 ∧ poolAt s2 a b = some p2 ∧
      (p1.blockLast = s1.block ∨ priceTime (s1.block - p1.blockLast) p2.quote p2.base = 0) := by
  obtain ⟨p1, h1, h2, _⟩ := C77_accumulators_monotone hr hs hp
  obtain ⟨q1, p2, g1, g2, g3⟩ := doSwap_room h
  rw [h1] at g1; cases g1
  refine ⟨p1, p2, h1, g2, ?_⟩
  rcases g3 with g3 | ⟨_, _, g3, _⟩
  · exact Or.inl g3
  · right; omega

/-! A reachable frozen pool: 1000 of asset 2 against 10^30 of asset 1. -/
@[irreducible] def exFL : Ledger := Ledger.ofList [(1, 7, 10 ^ 31), (2, 7, 10 ^ 31)]
theorem exFL_wf : exFL.WF := by unfold exFL; exact Ledger.ofList_wf _
def exF0 : State := ⟨exFL, fun _ => none, 0, none, 5⟩
def exF1 : State := commit exF0 (createPool exCfg exF0 (2, 1) (1000, 10 ^ 30) 7 50)
def exF2 : State := commit exF1 (exec exCfg exF1 (.swap 7 2 1 1000))
def exF3 : State := { exF2 with block := 6 }

theorem exF1_step : createPool exCfg exF0 (2, 1) (1000, 10 ^ 30) 7 50 = .ok exF1 := by
  rcases commit_cases exF0 (createPool exCfg exF0 (2, 1) (1000, 10 ^ 30) 7 50) with h | ⟨_, e, h⟩
  · exact h
  · have : okAnd (createPool exCfg exF0 (2, 1) (1000, 10 ^ 30) 7 50) (fun _ => true) = true := by
      decide +kernel
    rw [h] at this; cases this
theorem exF2_step : exec exCfg exF1 (.swap 7 2 1 1000) = .ok exF2 := by
  rcases commit_cases exF1 (exec exCfg exF1 (.swap 7 2 1 1000)) with h | ⟨_, e, h⟩
  · exact h
  · have : okAnd (exec exCfg exF1 (.swap 7 2 1 1000)) (fun _ => true) = true := by
      decide +kernel
    rw [h] at this; cases this
theorem exF2_reach : Reach exCfg exF2 := by
  refine .step (.step (Reach.start exCfg exFL exFL_wf 0 none 5) (.call (.create (2, 1) (1000, 10 ^ 30) 7 50)
    ⟨by decide, by decide⟩ ?_)) (.call (.swap 7 2 1 1000) ⟨by decide, by decide⟩ exF2_step)
  rw [exec_create]; exact exF1_step
theorem Reach.advance {c : Cfg} (hc : c.OK) {s : State} (h : Reach c s) {t : Nat} (ht : s.block ≤ t) :
    Reach c { s with block := t } :=
  .step h (.env ⟨rfl, rfl, rfl, (h.inv hc).wf, fun _ => Nat.le_refl _, fun _ => Nat.le_refl _, ht⟩)
theorem exF3_reach : Reach exCfg exF3 :=
  exF2_reach.advance exCfg_ok (t := 6) (by
    have : exF2.block = 5 := by decide +kernel
    rw [this]; decide)

theorem exF3_view : view exF3 2 1 = some (2000, 500751126690035052578868302454) := by decide +kernel

/-- C81 is FALSE: in this reachable state an ordinary, fully funded trade is rejected. -/
theorem C81_refuted : ¬ C81_statement exCfg := by
  intro h
  have hb : exF3.ledger.bal 2 7 = 9999999999999999999999999998000 := by decide +kernel
  obtain ⟨s', y, hs⟩ := h exF3 7 2 1 1000 exF3_reach (by decide) (by decide)
    ⟨⟨2000, 500751126690035052578868302454, exF3_view, by decide⟩, by decide,
      by rw [hb]; decide, fun e => absurd e (by decide)⟩
  have hn : okAnd (doSwap exCfg exF3 7 2 1 1000) (fun _ => true) = false := by decide +kernel
  rw [hs] at hn; cases hn

example : Reach exCfg exF3 ∧ (poolAt exF3 2 1).map (·.price0) = some maxU128 := ⟨exF3_reach, by decide +kernel⟩

/-- Non-vacuity of the partial theorem: a fresh pool has room (all hypotheses hold for a 1000-unit trade). -/
example : ∃ s' y, doSwap exCfg ex1 7 1 2 1000 = .ok (s', y) := by
  have hb : ex1.ledger.bal 1 7 = 995000 := by decide +kernel
  have hp : poolAt ex1 1 2 = some ⟨20000, 5000, 0, 0, 50, 0, 0, 0⟩ := by decide +kernel
  have hbl : ex1.block = 5 := by decide +kernel
  refine C81_trade_goes_through_partial exCfg_ok ex1_reach
    ⟨⟨5000, 20000, ex1_view, by decide⟩, by decide, by rw [hb]; decide, fun e => absurd e (by decide)⟩ ?_
  intro p ra rb y h1 h2 h3
  rw [hp] at h1; cases h1
  rw [ex1_view] at h2; cases h2
  have h4 : amountOut exCfg 1000 5000 20000 = .ok 3324 := by decide +kernel
  rw [h4] at h3; cases h3
  right
  rw [hbl]
  decide +kernel

end Verif.Amm
