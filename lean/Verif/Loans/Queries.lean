import Verif.Loans.Accept
import Verif.Loans.Health

set_option linter.unusedSimpArgs false
set_option linter.unusedVariables false

/-! # C229, C230: what the queries of the lending pallet show, and which interest counts -/

namespace Verif.Loans
open Verif

variable {c : Cfg} {s s' : State}

/-! ### C229 -/

/-- What the query `get_market_status` shows is what the next transaction in that market works with: total borrows, reserves,
borrow index and exchange rate after the interest due has been accrued. -/
def StatusTold (c : Cfg) (s : State) (a : Nat) : Prop := ∀ b s', marketStatus c s a = .ok b → accrue c s a = .ok s' →
  (s'.books a).borrows = b.borrows ∧ (s'.books a).reserves = b.reserves ∧ (s'.books a).index = b.index ∧
  rateStored c s' a = .ok b.rate

/-- Who can borrow an amount worth `v` has been told by the query `get_account_liquidity` that its liquidity is enough. -/
def LiquidityTold (c : Cfg) (s : State) (w a m : Nat) : Prop := ∀ q v s', liquidity c s w = .ok q → assetValue s a m = .ok v →
  exec c s (.borrow w a m) = .ok s' → v ≤ q.1 ∨ a = c.lfAsset ∧ v ≤ q.2.2.1

/-- Who is liquidated has been told by the query `get_liquidation_threshold_liquidity` of a shortfall, or that the
liquidity is less than the liquidation-free one. -/
def ShortfallTold (c : Cfg) (s : State) (w a k : Nat) : Prop := ∀ q liq m s', threshLiquidity c s w = .ok q →
  exec c s (.liquidate liq w a m k) = .ok s' → q.2.1 ≠ 0 ∨ q.1 < q.2.2.1

/-- **C229, the property as one would want it**. -/
def C229_statement : Prop := ∀ (c : Cfg) (s : State), c.Ok → Reach c s →
  (∀ a, StatusTold c s a) ∧ (∀ w a m, w ≠ c.acct → LiquidityTold c s w a m) ∧
  ∀ w a k, ShortfallTold c s w a k

/-- **C229 (partial)**: the status shown of a market is exact, unless no interest was ever accrued in it. -/
theorem C229_status_partial {a : Nat} (hl : (s.books a).lastTime ≠ 0) : StatusTold c s a := by
  intro b s' hq ha
  unfold accrue at ha
  rw [if_neg hl] at ha
  split at ha
  · rename_i ht
    cases ha
    simp only [marketStatus, bind_ok_iff, pure_ok_iff] at hq
    obtain ⟨mk, _, u, _, br, _, x, hx, r, hr, rfl⟩ := hq
    unfold advance at hx
    rw [if_neg (by omega)] at hx
    cases hx
    exact ⟨rfl, rfl, rfl, hr⟩
  · rw [hq] at ha
    simp only [ok_bind] at ha
    cases ha
    simp only [marketStatus, bind_ok_iff, pure_ok_iff] at hq
    obtain ⟨mk, _, u, _, br, _, x, hx, r, hr, rfl⟩ := hq
    simp only [setBook, rateStored, cash, upd_same]
    exact ⟨trivial, trivial, trivial, hr⟩

/-- … and where it can be shown, transactions in the market can accrue. -/
theorem C229_status_accrues_partial {a : Nat} {b : Book} (hq : marketStatus c s a = .ok b) : ∃ s', accrue c s a = .ok s' := by
  unfold accrue
  rw [hq]
  split
  · exact ⟨_, rfl⟩
  · split <;> exact ⟨_, rfl⟩

/-- **C229 (partial)**: if the interest of the market was accrued in this block, an accepted loan was covered by the shown
liquidity. -/
theorem C229_liquidity_partial {w a m : Nat} (hf : s.time ≤ (s.books a).lastTime) : LiquidityTold c s w a m := by
  intro q v s' hq hv he
  simp only [exec, borrow, borrowAllowed, bind_ok_iff] at he
  obtain ⟨_, _, s1, h1, _, ⟨_, _, _, _, v', hv', hl⟩, _⟩ := he
  rw [accrue_noop hf] at h1
  cases h1
  rw [hv] at hv'
  cases hv'
  simp only [ensureLiquidity, bind_ok_iff] at hl
  obtain ⟨q', hq', hl⟩ := hl
  rw [hq] at hq'
  cases hq'
  by_cases ha : a = c.lfAsset
  · rw [decide_eq_true ha] at hl
    simp only [if_true, ensure_ok_iff] at hl
    rcases le_max_iff.1 hl with h | h
    · exact .inl h
    · exact .inr ⟨ha, h⟩
  · rw [decide_eq_false ha] at hl
    simp only [Bool.false_eq_true, if_false, bind_ok_iff, ensure_ok_iff, exists_const] at hl
    exact .inl (by omega)

/-- **C229 (partial)**: if the interest of both markets, of the debt and of the collateral, was accrued in this block, a
liquidation was announced by the shown shortfall. -/
theorem C229_shortfall_partial {w a k : Nat} (ha : s.time ≤ (s.books a).lastTime) (hk : s.time ≤ (s.books k).lastTime) :
    ShortfallTold c s w a k := by
  intro q liq m s' hq he
  simp only [exec, liquidate, doLiquidate, liquidateAllowed, bind_ok_iff, ensure_ok_iff, exists_const] at he
  obtain ⟨_, s1, h1, s2, h2, _, _, _, _, _, _, _, ⟨q', hq', hs, _⟩, _⟩ := he
  rw [accrue_noop ha] at h1
  cases h1
  rw [accrue_noop hk] at h2
  cases h2
  rw [hq] at hq'
  cases hq'
  by_contra hn
  push Not at hn
  exact hs ⟨hn.1, hn.2⟩

/-! Each part of the statement is false in general. -/

/-- A year after the markets were opened nobody has used the third one. -/
theorem C229_status_refuted : ¬ ∀ (c : Cfg) (s : State), c.Ok → Reach c s → ∀ a, StatusTold c s a := by
  intro H
  have h : okAnd (marketStatus exC ex1 3) (fun b => okAnd (accrue exC ex1 3) (fun t => decide ((t.books 3).index ≠ b.index)))
      = true := by decide +kernel
  obtain ⟨b, hb, h⟩ := okAnd_iff.1 h
  obtain ⟨t, ht, h⟩ := okAnd_iff.1 h
  exact of_decide_eq_true h (H exC ex1 exC_ok ex1_reach 3 b t hb ht).2.2.1

/-- User 7 has lent asset 1 and uses it as collateral; nobody has touched the market for a year. -/
def exQy : State := pass (run exC ex0 [.collateral 7 1 true, .mint 9 1 60000]) exPrices 31536000 100
theorem exQy_reach : Reach exC exQy := pass_reach exC_ok (run_reach ex0_reach (by
  intro k hk
  simp only [List.mem_cons, List.not_mem_nil, or_false] at hk
  rcases hk with rfl | rfl <;> simp [Call.wt, Call.signers, exC]))

/-- It can borrow more than the shown liquidity, which does not know the interest its deposit has earned. -/
theorem C229_liquidity_refuted : ¬ ∀ (c : Cfg) (s : State), c.Ok → Reach c s → ∀ w a m, w ≠ c.acct →
    LiquidityTold c s w a m := by
  intro H
  have h : okAnd (liquidity exC exQy 7) (fun q => okAnd (assetValue exQy 1 50500) (fun v =>
      okAnd (exec exC exQy (.borrow 7 1 50500)) (fun _ => decide (¬ v ≤ q.1)))) = true := by decide +kernel
  obtain ⟨q, hq, h⟩ := okAnd_iff.1 h
  obtain ⟨v, hv, h⟩ := okAnd_iff.1 h
  obtain ⟨t, ht, h⟩ := okAnd_iff.1 h
  rcases H exC exQy exC_ok exQy_reach 7 1 50500 (by decide) q v t hq hv ht with h' | h'
  · exact of_decide_eq_true h h'
  · exact absurd h'.1 (by decide)

/-- User 8 borrows nearly all it can, and nobody touches the market for a year. -/
def exQyL : State := pass (run exC ex0 [.borrow 8 1 39000]) exPrices 31536000 100
theorem exQyL_reach : Reach exC exQyL := pass_reach exC_ok (run_reach ex0_reach (by
  intro k hk
  simp only [List.mem_cons, List.not_mem_nil, or_false] at hk
  rcases hk with rfl
  simp [Call.wt, Call.signers, exC]))

/-- It is liquidated although the query shows no shortfall. -/
theorem C229_shortfall_refuted : ¬ ∀ (c : Cfg) (s : State), c.Ok → Reach c s → ∀ w a k, ShortfallTold c s w a k := by
  intro H
  have h : okAnd (threshLiquidity exC exQyL 8) (fun q => okAnd (exec exC exQyL (.liquidate 9 8 1 10000 2)) (fun _ =>
      decide (q.2.1 = 0 ∧ q.2.2.1 ≤ q.1))) = true := by decide +kernel
  obtain ⟨q, hq, h⟩ := okAnd_iff.1 h
  obtain ⟨t, ht, h⟩ := okAnd_iff.1 h
  have h := of_decide_eq_true h
  rcases H exC exQyL exC_ok exQyL_reach 8 1 2 q 9 10000 t hq ht with h' | h'
  · exact h' h.1
  · omega

/-- **C229 is FALSE** as stated. -/
theorem C229_refuted : ¬ C229_statement := fun H =>
  C229_shortfall_refuted fun c s hc h => (H c s hc h).2.2

/-- Non-vacuity of the partial theorems: after somebody has accrued the markets, the queries agree with what happens. -/
example : okAnd (accrue exC exQyL 1) (fun s => okAnd (accrue exC s 2) (fun s =>
    decide ((s.books 1).lastTime ≠ 0 ∧ s.time ≤ (s.books 1).lastTime ∧ s.time ≤ (s.books 2).lastTime) &&
    okAnd (threshLiquidity exC s 8) (fun q => okAnd (exec exC s (.liquidate 9 8 1 10000 2)) (fun _ => decide (q.2.1 ≠ 0))))) = true
    := by decide +kernel
example : okAnd (accrue exC exQy 1) (fun s => decide (s.time ≤ (s.books 1).lastTime) &&
    okAnd (liquidity exC s 7) (fun q => okAnd (exec exC s (.borrow 7 1 50500)) (fun _ => decide (50500 ≤ q.1)))) = true := by
  decide +kernel

/-! ### C230 -/

/-- The state with all interest due accrued, in the given markets one after the other. -/
def accrueAll (c : Cfg) : State → List Nat → R State
  | s, [] => .ok s
  | s, a :: as => do
    let s ← accrue c s a
    accrueAll c s as

/-- **C230, the property as one would want it**: after a loan the account's collateral covers its debts, counted with all
interest due at that moment. -/
def C230_statement : Prop := ∀ (c : Cfg) (s s' t : State) (w a m : Nat), c.Ok → Reach c s → w ≠ c.acct → a ≠ c.lfAsset →
  0 < price s a * m / DIV → exec c s (.borrow w a m) = .ok s' → accrueAll c s' (activeIds s') = .ok t →
  debtSum t w ≤ collSum c t w + 1

/-- **C230 is FALSE**: a year after user 8 has borrowed asset 1 the interest on that loan, about eight per cent, does not
count when it borrows asset 2. -/
theorem C230_refuted : ¬ C230_statement := by
  intro H
  have h : okAnd (exec exC ex1 (.borrow 8 2 40000)) (fun s' => okAnd (accrueAll exC s' (activeIds s')) (fun t =>
      decide (collSum exC t 8 + 4000 < debtSum t 8))) = true := by decide +kernel
  obtain ⟨s', hs', h⟩ := okAnd_iff.1 h
  obtain ⟨t, ht, h⟩ := okAnd_iff.1 h
  have h := of_decide_eq_true h
  have := H exC ex1 s' t 8 2 40000 exC_ok ex1_reach (by decide) (by decide) (by decide +kernel) hs' ht
  omega

theorem accrueAll_noop : ∀ {l : List Nat} {s : State}, (∀ a ∈ l, s.time ≤ (s.books a).lastTime) → accrueAll c s l = .ok s
  | [], s, _ => rfl
  | a :: as, s, h => by
    unfold accrueAll
    rw [accrue_noop (h a List.mem_cons_self), ok_bind]
    exact accrueAll_noop fun b hb => h b (List.mem_cons_of_mem _ hb)

/-- What accruing everything leaves alone, and what it can only raise. -/
theorem accrueAll_grown : ∀ {l : List Nat} {s t : State}, accrueAll c s l = .ok t →
    ∃ bs, t = { s with books := bs } ∧ Grown2 s bs
  | [], s, t, h => by cases h; exact ⟨s.books, rfl, ⟨fun x => .refl _ _⟩⟩
  | a :: as, s, t, h => by
    simp only [accrueAll, bind_ok_iff] at h
    obtain ⟨s1, h1, h2⟩ := h
    obtain ⟨bs, rfl, hg⟩ := accrueAll_grown h2
    obtain ⟨b, rfl, hb⟩ := accrue_ok h1
    refine ⟨bs, rfl, ⟨fun x => ?_⟩⟩
    have h3 := hg.all x
    by_cases hx : x = a
    · subst hx
      simp only [setBook, upd_same] at h3
      exact hb.trans h3
    · simp only [setBook, upd_of_ne _ _ hx] at h3
      exact h3

theorem collOf_grown {bs : Nat → Book} (h : Inv c s) (hg : Grown2 s bs) {f : Market → Nat} {w a : Nat} :
    collOf c s f w a ≤ collOf c { s with books := bs } f w a := by
  unfold collOf
  show (match s.markets a with | none => 0 | some m => _) ≤ (match s.markets a with | none => 0 | some m => _)
  cases hm : s.markets a with
  | none => exact Nat.le_refl _
  | some mk =>
    dsimp only
    show (if (s.dep a w).coll then _ else 0) ≤ (if (s.dep a w).coll then _ else 0)
    split
    · have hgr := hg.all a
      have hx : xrate c s a ≤ xrate c { s with books := bs } a := by
        apply xrate_mono hgr.supply
        have := hgr.res_le mk hm (h.rf hm)
        have := hgr.borrows
        have := hgr.reserves
        simp only [net]
        omega
      refine Nat.div_le_div_right (Nat.mul_le_mul_left _ ?_)
      unfold ceilDiv
      exact Nat.div_le_div_right (Nat.add_le_add_right (Nat.mul_le_mul_right _
        (Nat.div_le_div_right (Nat.mul_le_mul_right _ hx))) _)
    · exact Nat.le_refl _

theorem collSum_grown {bs : Nat → Book} (h : Inv c s) (hg : Grown2 s bs) (w : Nat) :
    collSum c s w ≤ collSum c { s with books := bs } w :=
  List.sum_le_sum fun a _ => collOf_grown h hg

/-- **C230 (partial)**: what is not covered after a loan is at most the interest that was due but not accrued; in
particular, if all other active markets were accrued in this block, everything is covered, up to one unit of rounding. -/
theorem C230_interest_partial (hc : c.Ok) (h : Reach c s) {w a m : Nat} {t : State} (hw : w ≠ c.acct) (ha : a ≠ c.lfAsset)
    (hv : 0 < price s a * m / DIV) (he : exec c s (.borrow w a m) = .ok s') (ht : accrueAll c s' (activeIds s') = .ok t) :
    debtSum t w ≤ collSum c t w + 1 + (debtSum t w - debtSum s' w) := by
  have h1 := C41_borrow_needs_collateral hc h hw ha hv he
  obtain ⟨bs, rfl, hg⟩ := accrueAll_grown ht
  have hr : Reach c s' := .step h (.call (.borrow w a m) trivial (by simpa [Call.signers] using Ne.symm hw) trivial he)
  have := collSum_grown (inv_reach hc hr) hg w
  omega

/-- **C230 (partial)**: with the other active markets accrued in this block, the loan is covered with all interest due. -/
theorem C230_fresh_partial (hc : c.Ok) (h : Reach c s) {w a m : Nat} {t : State} (hw : w ≠ c.acct) (ha : a ≠ c.lfAsset)
    (hv : 0 < price s a * m / DIV) (he : exec c s (.borrow w a m) = .ok s') (ht : accrueAll c s' (activeIds s') = .ok t)
    (hf : ∀ b ∈ activeIds s, b ≠ a → s.time ≤ (s.books b).lastTime) : debtSum t w ≤ collSum c t w + 1 := by
  have h1 := C41_borrow_needs_collateral hc h hw ha hv he
  have hn : accrueAll c s' (activeIds s') = .ok s' := by
    obtain ⟨mk, b, x, d, l, hmk, _, hacc, hg, hba, hd, _, _, hl, rfl⟩ := borrow_view he
    apply accrueAll_noop
    intro b' hb'
    have hb' : b' ∈ activeIds s := hb'
    by_cases hx : b' = a
    · subst hx
      have h2 := accrue_idem hacc
      simp only [upd_same]
      unfold accrue at hacc
      split at hacc
      · have := congrArg (fun x => (x.books b').lastTime) (Except.ok.inj hacc)
        simp only [setBook, upd_same] at this
        simp [setBook, ← this]
      · split at hacc
        · have := congrArg (fun x => (x.books b').lastTime) (Except.ok.inj hacc)
          simp only [setBook, upd_same] at this ⊢
          omega
        · simp only [bind_ok_iff, pure_ok_iff] at hacc
          obtain ⟨b0, _, hacc⟩ := hacc
          have := congrArg (fun x => (x.books b').lastTime) hacc
          simp only [setBook, upd_same] at this
          simp [setBook, ← this]
    · simp only [upd_of_ne _ _ hx, setBook]
      exact hf b' hb' hx
  rw [hn] at ht
  cases ht
  omega

/-- Non-vacuity: a year later, in a block in which the other markets are used, user 8 borrows what is left. -/
def exFr : State := run exC ex1 [.mint 7 1 1000, .repay 8 3 0]
theorem exFr_reach : Reach exC exFr := run_reach ex1_reach (by
  intro k hk
  simp only [List.mem_cons, List.not_mem_nil, or_false] at hk
  rcases hk with rfl | rfl <;> simp [Call.wt, Call.signers, exC])
example : (∀ b ∈ activeIds exFr, b ≠ 2 → exFr.time ≤ (exFr.books b).lastTime) ∧ activeIds exFr = [1, 2, 3] ∧
    okAnd (exec exC exFr (.borrow 8 2 35000)) (fun s' => okAnd (accrueAll exC s' (activeIds s')) (fun t =>
      decide (90000 < debtSum t 8))) = true ∧
    errIs (exec exC exFr (.borrow 8 2 40000)) .insufficientLiquidity = true := by decide +kernel

end Verif.Loans
