import Verif.Loans.Health

/-! # Properties C49, C57: the market table -/

set_option linter.unusedSimpArgs false
set_option linter.unusedVariables false

namespace Verif.Loans
open Verif

variable {c : Cfg} {s s' : State}

/-- Calls that write the market table. -/
def Call.isMarket : Call → Prop
  | .addMarket .. | .activate .. | .updateModel .. | .updateMarket .. | .forceUpdate .. => True
  | _ => False

theorem redeemed_meta {w a v : Nat} (h : Redeemed c s s' w a v) :
    s'.markets = s.markets ∧ s'.underlying = s.underlying := by
  obtain ⟨mk, b, e, y, r, l, _, _, _, _, _, _, _, _, _, _, hs⟩ := h.view
  rw [hs]; exact ⟨rfl, rfl⟩

/-- All other calls leave it alone. -/
theorem exec_meta {k : Call} (hk : ¬ k.isMarket) (he : exec c s k = .ok s') :
    s'.markets = s.markets ∧ s'.underlying = s.underlying := by
  cases k with
  | addMarket a m => exact absurd trivial hk
  | activate a => exact absurd trivial hk
  | updateModel a rm => exact absurd trivial hk
  | updateMarket a p => exact absurd trivial hk
  | forceUpdate a m => exact absurd trivial hk
  | addReward w m => obtain ⟨l, hl, rfl⟩ := addReward_view he; exact ⟨rfl, rfl⟩
  | withdrawReward w m => obtain ⟨l, hl, rfl⟩ := withdrawReward_view he; exact ⟨rfl, rfl⟩
  | updateSpeed a x y => obtain ⟨z, rfl⟩ := updateSpeed_rw he; exact ⟨rfl, rfl⟩
  | claim w => obtain ⟨m, l, x, hl, rfl⟩ := claim_view he; exact ⟨rfl, rfl⟩
  | claimFor w a => obtain ⟨m, l, x, hl, rfl⟩ := claimFor_view he; exact ⟨rfl, rfl⟩
  | mint w a m =>
    obtain ⟨_, _, _, _, _, _, _, _, _, _, _, _, _, _, _, _, rfl⟩ := mint_view he; exact ⟨rfl, rfl⟩
  | redeem w a m => obtain ⟨_, _, _, _, h⟩ := redeem_redeemed he; exact redeemed_meta h
  | redeemAll w a => exact redeemed_meta (redeemAll_redeemed he)
  | borrow w a m =>
    obtain ⟨_, _, _, _, _, _, _, _, _, _, _, _, _, _, rfl⟩ := borrow_view he; exact ⟨rfl, rfl⟩
  | repay w a m =>
    obtain ⟨_, _, _, _, _, _, _, _, _, _, _, _, rfl⟩ := repay_view he; exact ⟨rfl, rfl⟩
  | repayAll w a =>
    obtain ⟨_, _, _, _, _, _, _, _, _, _, _, rfl⟩ := repayAll_view he; exact ⟨rfl, rfl⟩
  | collateral w a on =>
    obtain ⟨_, _, _, rfl⟩ := collateral_view he; exact ⟨rfl, rfl⟩
  | liquidate liq br a m k =>
    obtain ⟨s1, s2, _, _, h1, h2, h3⟩ := liquidate_view he
    obtain ⟨_, _, _, _, _, _, _, _, _, _, _, _, _, _, _, h4⟩ := doLiquidate_view h3
    obtain ⟨_, _, _, _, _, _, _, _, _, _, _, _, rfl⟩ := liquidatedTransfer_view h4
    obtain ⟨_, hs2, _⟩ := accrue2_ok h1 h2
    subst hs2
    exact ⟨rfl, rfl⟩
  | addReserves w a m => obtain ⟨_, _, _, _, _, _, rfl⟩ := addReserves_view he; exact ⟨rfl, rfl⟩
  | reduceReserves w a m => obtain ⟨_, _, _, _, _, _, rfl⟩ := reduceReserves_view he; exact ⟨rfl, rfl⟩
  | reduceIncentive w a m =>
    obtain ⟨_, _, _, _, _, _, _, _, _, _, _, _, _, _, rfl⟩ := reduceIncentive_view he; exact ⟨rfl, rfl⟩
  | updateLfc as => cases he; exact ⟨rfl, rfl⟩
  | transferP p src dst m => obtain ⟨_, _, _, _, _, rfl⟩ := transferP_view he; exact ⟨rfl, rfl⟩

/-- What a market call does: a new market with a fresh ptoken id, or a changed market with the same ptoken id, or a
forced change. -/
inductive MarketStep (s s' : State) : Call → Prop
  | add (a : Nat) (m : Market) (h0 : s.markets a = none) (hp : s.underlying m.ptoken = none)
      (hm : s'.markets = upd s.markets a (some m)) (hu : s'.underlying = upd s.underlying m.ptoken (some a)) :
      MarketStep s s' (.addMarket a m)
  | change (k : Call) (a : Nat) (m m' : Market) (h0 : s.markets a = some m) (hp : m'.ptoken = m.ptoken)
      (hm : s'.markets = upd s.markets a (some m')) (hu : s'.underlying = s.underlying) : MarketStep s s' k
  | force (a : Nat) (m m' : Market) (h0 : s.markets a = some m)
      (hp : s.underlying m'.ptoken = none ∨ s.underlying m'.ptoken = some a)
      (hm : s'.markets = upd s.markets a (some m')) (hu : s'.underlying = upd s.underlying m'.ptoken (some a)) :
      MarketStep s s' (.forceUpdate a m')
  | none (k : Call) (hm : s'.markets = s.markets) (hu : s'.underlying = s.underlying) : MarketStep s s' k

theorem exec_marketStep (k : Call) (he : exec c s k = .ok s') : MarketStep s s' k := by
  by_cases hk : k.isMarket
  · cases k with
    | addMarket a m =>
      obtain ⟨h1, _, _, _, _, _, _, _, h2, _, rfl⟩ := addMarket_view he
      exact .add a m h1 h2 rfl rfl
    | activate a =>
      obtain ⟨m, hm, rfl⟩ := mutateMarket_view he
      exact .change _ a m _ hm (by rfl) rfl rfl
    | updateModel a rm =>
      simp only [exec, updateModel, bind_ok_iff, ensure_ok_iff, exists_const] at he
      obtain ⟨_, he⟩ := he
      obtain ⟨m, hm, rfl⟩ := mutateMarket_view he
      exact .change _ a m _ hm (by rfl) rfl rfl
    | updateMarket a p =>
      obtain ⟨m, hm, _, _, _, _, _, rfl⟩ := updateMarket_view he
      exact .change _ a m _ hm (by rfl) rfl rfl
    | forceUpdate a m =>
      obtain ⟨m0, hm, _, h2, rfl⟩ := forceUpdate_view he
      exact .force a m0 m hm h2 rfl rfl
    | _ => exact hk.elim
  · obtain ⟨h1, h2⟩ := exec_meta hk he
    exact .none k h1 h2

/-- Every market's ptoken id maps back to the market. -/
def Back (s : State) : Prop := ∀ a m, s.markets a = some m → s.underlying m.ptoken = some a
/-- Every registered ptoken id is the ptoken id of the market it maps to. -/
def Forth (s : State) : Prop := ∀ p a, s.underlying p = some a → ∃ m, s.markets a = some m ∧ m.ptoken = p

theorem Back.step {k : Call} (h : Back s) (hs : MarketStep s s' k) : Back s' := by
  intro b n hb
  cases hs with
  | add a m h0 hp hm hu =>
    rw [hm] at hb
    rw [hu]
    by_cases e : b = a
    · subst e; simp only [upd_same, Option.some.injEq] at hb; subst hb; simp
    · rw [upd_of_ne _ _ e] at hb
      have h1 := h b n hb
      have : n.ptoken ≠ m.ptoken := by intro e; rw [e, hp] at h1; exact absurd h1 (by simp)
      rw [upd_of_ne _ _ this]; exact h1
  | change k a m m' h0 hp hm hu =>
    rw [hm] at hb
    rw [hu]
    by_cases e : b = a
    · subst e; simp only [upd_same, Option.some.injEq] at hb; subst hb; rw [hp]; exact h b m h0
    · rw [upd_of_ne _ _ e] at hb; exact h b n hb
  | force a m m' h0 hp hm hu =>
    rw [hm] at hb
    rw [hu]
    by_cases e : b = a
    · subst e; simp only [upd_same, Option.some.injEq] at hb; subst hb; simp
    · rw [upd_of_ne _ _ e] at hb
      have h1 := h b n hb
      have : n.ptoken ≠ m'.ptoken := by
        intro e'
        rw [e'] at h1
        rcases hp with hp | hp
        · rw [hp] at h1; exact absurd h1 (by simp)
        · rw [hp] at h1; exact e (Option.some.inj h1).symm
      rw [upd_of_ne _ _ this]; exact h1
  | none k hm hu => rw [hm] at hb; rw [hu]; exact h b n hb

theorem Forth.step {k : Call} (h : Forth s) (hk : ∀ a m, k ≠ .forceUpdate a m) (hs : MarketStep s s' k) :
    Forth s' := by
  intro p b hb
  cases hs with
  | add a m h0 hp hm hu =>
    rw [hu] at hb
    rw [hm]
    by_cases e : p = m.ptoken
    · subst e
      simp only [upd_same, Option.some.injEq] at hb
      subst hb
      exact ⟨m, by simp, rfl⟩
    · rw [upd_of_ne _ _ e] at hb
      obtain ⟨n, h1, h2⟩ := h p b hb
      have : b ≠ a := by intro e; rw [e, h0] at h1; exact absurd h1 (by simp)
      exact ⟨n, by rw [upd_of_ne _ _ this]; exact h1, h2⟩
  | change k a m m' h0 hp hm hu =>
    rw [hu] at hb
    rw [hm]
    obtain ⟨n, h1, h2⟩ := h p b hb
    by_cases e : b = a
    · subst e
      rw [h0] at h1
      cases h1
      exact ⟨m', by simp, by rw [hp]; exact h2⟩
    · exact ⟨n, by rw [upd_of_ne _ _ e]; exact h1, h2⟩
  | force a m m' h0 hp hm hu => exact absurd rfl (hk a m')
  | none k hm hu => rw [hu] at hb; rw [hm]; exact h p b hb

theorem back_reach {ok : Call → Prop} (h : ReachBy c ok s) : Back s := by
  induction h with
  | init l p t b hw => intro a m h; exact absurd h (by simp [State.fresh])
  | step _ hs ih =>
    cases hs with
    | call k _ _ _ he => exact ih.step (exec_marketStep k he)
    | env he => intro a m h; rw [he.same] at h ⊢; exact ih a m h

theorem forth_reach {ok : Call → Prop} (hok : ∀ a m, ¬ ok (.forceUpdate a m)) (h : ReachBy c ok s) : Forth s := by
  induction h with
  | init l p t b hw => intro a m h; exact absurd h (by simp [State.fresh])
  | step _ hs ih =>
    cases hs with
    | call k _ _ hk he =>
      refine ih.step ?_ (exec_marketStep k he)
      intro a m e
      exact hok a m (e ▸ hk)
    | env he => intro a m h; rw [he.same] at h ⊢; exact ih a m h

/-! ## C49 -/

/-- **C49** In every reachable state, each market's ptoken id maps back to its asset. -/
theorem C49_ptoken_maps_back (h : Reach c s) {a : Nat} {m : Market} (hm : s.markets a = some m) :
    underlyingId s m.ptoken = .ok a := by
  simp only [underlyingId, okOr_ok_iff]
  exact back_reach h a m hm

/-- **C49** No two markets share a ptoken id. -/
theorem C49_ptoken_unique (h : Reach c s) {a b : Nat} {m n : Market} (hm : s.markets a = some m)
    (hn : s.markets b = some n) (hp : m.ptoken = n.ptoken) : a = b := by
  have h1 := back_reach h a m hm
  have h2 := back_reach h b n hn
  rw [hp, h2] at h1
  exact (Option.some.inj h1).symm

/-- Histories without `force_update_market`. -/
def Call.notForce : Call → Prop
  | .forceUpdate .. => False
  | _ => True

/-- **C49** Without forced updates, every ptoken id known to the pallet is the ptoken id of the market it points to. -/
theorem C49_ptoken_registered (h : ReachBy c Call.notForce s) {p a : Nat} (hp : underlyingId s p = .ok a) :
    ∃ m, s.markets a = some m ∧ m.ptoken = p := by
  simp only [underlyingId, okOr_ok_iff] at hp
  exact forth_reach (fun _ _ h => h) h p a hp

/-- A forced update keeps the old ptoken id alive: two ids then point to the same market. -/
theorem C49_force_breaks : ∃ s, Reach exC s ∧ underlyingId s 11 = .ok 1 ∧ underlyingId s 21 = .ok 1 := by
  refine ⟨run exC ex0 [.forceUpdate 1 (exMarket 21)], run_reach ex0_reach ?_, ?_, ?_⟩
  · intro k hk
    simp only [List.mem_cons, List.not_mem_nil, or_false] at hk
    subst hk
    simp [Call.wt, Market.wt, exMarket, million, Call.signers, exC]
  · decide +kernel
  · decide +kernel

/-- The whole property as stated: ptoken ids and assets are in bijection and disjoint. -/
def C49_statement : Prop := ∀ (c : Cfg) (s : State), ReachBy c Call.notForce s →
  (∀ a m, s.markets a = some m → underlyingId s m.ptoken = .ok a) ∧
  (∀ a b m n, s.markets a = some m → s.markets b = some n → m.ptoken = n.ptoken → a = b) ∧
  (∀ a m, s.markets a = some m → s.markets m.ptoken = none)

def exP : State := run exC (State.fresh exL exPrices 1000 10) [.addMarket 1 (exMarket 11), .addMarket 11 (exMarket 12)]
theorem exP_reach : ReachBy exC Call.notForce exP := run_reach (.init exL exPrices 1000 10 exL_wf) (by
  intro k hk
  simp only [List.mem_cons, List.not_mem_nil, or_false] at hk
  rcases hk with rfl | rfl <;> simp [Call.wt, Market.wt, exMarket, million, Call.signers, exC, Call.notForce])

/-- **C49** The last part is false: a ptoken id can later become a market of its own (`add_market` does not compare the
new asset with existing ptoken ids). -/
theorem C49_refuted : ¬ C49_statement := by
  intro h
  have h1 := (h exC exP exP_reach).2.2 1 (exMarket 11) (by decide +kernel)
  exact absurd h1 (by decide +kernel)

/-- **C49** What holds: the first two parts. -/
theorem C49_partial (h : ReachBy c Call.notForce s) :
    (∀ a m, s.markets a = some m → underlyingId s m.ptoken = .ok a) ∧
    (∀ a b m n, s.markets a = some m → s.markets b = some n → m.ptoken = n.ptoken → a = b) ∧
    (∀ p a, underlyingId s p = .ok a → ∃ m, s.markets a = some m ∧ m.ptoken = p) := by
  refine ⟨?_, ?_, fun p a hp => C49_ptoken_registered h hp⟩
  · intro a m hm
    simp only [underlyingId, okOr_ok_iff]
    exact back_reach h a m hm
  · intro a b m n hm hn hp
    have h1 := back_reach h a m hm
    have h2 := back_reach h b n hn
    rw [hp, h2] at h1
    exact (Option.some.inj h1).symm

/-- The fixture has three markets. -/
example : ex0.markets 1 ≠ none ∧ ex0.markets 2 ≠ none ∧ ex0.markets 3 ≠ none ∧ underlyingId ex0 12 = .ok 2 := by
  decide +kernel

/-! ## C57 -/

/-- **C57** Every market of a reachable state has an accepted interest rate model. -/
theorem C57_model_accepted {ok : Call → Prop} (h : ReachBy c ok s) :
    ∀ {a : Nat} {m : Market}, s.markets a = some m → m.model.check = true := by
  induction h with
  | init l p t b hw => intro a m h; exact absurd h (by simp [State.fresh])
  | @step s s' _ hs ih =>
    intro a m hm
    cases hs with
    | call k _ _ _ he =>
      have one : ∀ {x : Nat} {n : Market}, s'.markets = upd s.markets x (some n) → n.model.check = true →
          m.model.check = true := by
        intro x n hx hn
        rw [hx] at hm
        by_cases e : a = x
        · subst e; simp only [upd_same, Option.some.injEq] at hm; subst hm; exact hn
        · rw [upd_of_ne _ _ e] at hm; exact ih hm
      by_cases hk : k.isMarket
      · cases k with
        | addMarket x n =>
          obtain ⟨_, _, h3, _, _, _, _, _, _, _, rfl⟩ := addMarket_view he
          exact one rfl h3
        | activate x =>
          obtain ⟨n, hn, rfl⟩ := mutateMarket_view he
          exact one (n := { n with state := .active }) rfl (by have := ih hn; exact this)
        | updateModel x rm =>
          simp only [exec, updateModel, bind_ok_iff, ensure_ok_iff, exists_const] at he
          obtain ⟨h3, he⟩ := he
          obtain ⟨n, hn, rfl⟩ := mutateMarket_view he
          exact one (n := { n with model := rm }) rfl h3
        | updateMarket x p =>
          obtain ⟨n, hn, _, _, _, _, _, rfl⟩ := updateMarket_view he
          exact one (n := p.apply n) rfl (by have := ih hn; exact this)
        | forceUpdate x n =>
          obtain ⟨m0, _, h3, _, rfl⟩ := forceUpdate_view he
          exact one rfl h3
        | _ => exact hk.elim
      · rw [(exec_meta hk he).1] at hm
        exact ih hm
    | env he => rw [he.same] at hm; exact ih hm

/-- Risk parameters as the governance checks want them. -/
def Market.risk (m : Market) : Prop :=
  m.cf ≤ m.lt ∧ m.lt < million ∧ 0 < m.rf ∧ m.rf < million ∧ 0 < m.supplyCap

/-- **C57** Without forced updates every market keeps: collateral factor at most liquidation threshold, threshold below 1,
reserve factor strictly between 0 and 1, positive supply cap. -/
theorem C57_risk_parameters (h : ReachBy c Call.notForce s) :
    ∀ {a : Nat} {m : Market}, s.markets a = some m → m.risk := by
  induction h with
  | init l p t b hw => intro a m h; exact absurd h (by simp [State.fresh])
  | @step s s' _ hs ih =>
    intro a m hm
    cases hs with
    | call k _ _ hok he =>
      have one : ∀ {x : Nat} {n : Market}, s'.markets = upd s.markets x (some n) → n.risk → m.risk := by
        intro x n hx hn
        rw [hx] at hm
        by_cases e : a = x
        · subst e; simp only [upd_same, Option.some.injEq] at hm; subst hm; exact hn
        · rw [upd_of_ne _ _ e] at hm; exact ih hm
      by_cases hk : k.isMarket
      · cases k with
        | addMarket x n =>
          simp only [exec, addMarket, bind_ok_iff, ensure_ok_iff, exists_const, pure_ok_iff] at he
          obtain ⟨_, _, _, _, ⟨h5, h6⟩, ⟨h7, h8⟩, _, h9, _, _, rfl⟩ := he
          exact one rfl ⟨h6, h5, h7, h8, h9⟩
        | activate x =>
          obtain ⟨n, hn, rfl⟩ := mutateMarket_view he
          exact one (n := { n with state := .active }) rfl (by have := ih hn; exact this)
        | updateModel x rm =>
          simp only [exec, updateModel, bind_ok_iff, ensure_ok_iff, exists_const] at he
          obtain ⟨h3, he⟩ := he
          obtain ⟨n, hn, rfl⟩ := mutateMarket_view he
          exact one (n := { n with model := rm }) rfl (by have := ih hn; exact this)
        | updateMarket x p =>
          obtain ⟨n, hn, h1, h2, h3, h4, h5, rfl⟩ := updateMarket_view he
          exact one (n := p.apply n) rfl ⟨h1, h2, h3, h4, h5⟩
        | forceUpdate x n => exact hok.elim
        | _ => exact hk.elim
      · rw [(exec_meta hk he).1] at hm
        exact ih hm
    | env he => rw [he.same] at hm; exact ih hm

/-- The collateral value of a position never exceeds its liquidation value. -/
theorem collOf_le {w a : Nat} (h : ∀ m, s.markets a = some m → m.cf ≤ m.lt) :
    collOf c s Market.cf w a ≤ collOf c s Market.lt w a := by
  unfold collOf
  cases hm : s.markets a with
  | none => exact Nat.le_refl _
  | some m =>
    dsimp only
    split_ifs
    · apply Nat.div_le_div_right
      apply Nat.mul_le_mul_left
      unfold ceilDiv
      apply Nat.div_le_div_right
      apply Nat.add_le_add_right
      exact Nat.mul_le_mul_left _ (h m hm)
    · exact Nat.le_refl _

theorem sum_map_le {f g : Nat → Nat} : ∀ {l : List Nat}, (∀ x, f x ≤ g x) → (l.map f).sum ≤ (l.map g).sum
  | [], _ => Nat.le_refl _
  | x :: xs, h => by
    have := sum_map_le (l := xs) h
    have := h x
    simp only [List.map_cons, List.sum_cons]
    omega

/-- **C57** So the liquidation threshold value of an account is never below its collateral value: borrowing up to the limit
does not by itself make an account liquidatable. -/
theorem C57_threshold_above_collateral (h : ReachBy c Call.notForce s) (w : Nat) :
    collSum c s w ≤ threshSum c s w :=
  sum_map_le (fun _ => collOf_le (fun _ hm => (C57_risk_parameters h hm).1))

theorem ReachBy.mono {ok ok' : Call → Prop} (hi : ∀ k, ok k → ok' k) (h : ReachBy c ok s) : ReachBy c ok' s := by
  induction h with
  | init l p t b hw => exact .init l p t b hw
  | step _ hs ih =>
    cases hs with
    | call k h1 h2 h3 he => exact .step ih (.call k h1 h2 (hi k h3) he)
    | env he => exact .step ih (.env he)

theorem sum_filter_diff {f g : Nat → Nat} (q : Nat → Bool) : ∀ {l : List Nat}, (∀ x, f x ≤ g x) →
    ((l.filter q).map g).sum + (l.map f).sum ≤ ((l.filter q).map f).sum + (l.map g).sum
  | [], _ => Nat.le_refl _
  | x :: xs, h => by
    have := sum_filter_diff q (l := xs) h
    have := h x
    by_cases hq : q x
    · simp only [List.filter_cons, hq, if_true, List.map_cons, List.sum_cons]
      omega
    · simp only [List.filter_cons, hq, Bool.false_eq_true, if_false, List.map_cons, List.sum_cons]
      omega

/-- **C57** A borrower that has just taken a loan is not liquidatable (up to one unit of rounding), at the same prices and
interest. -/
theorem C57_fresh_loan_safe (hc : c.Ok) (h : ReachBy c Call.notForce s) {w a m : Nat} (hw : w ≠ c.acct)
    (ha : a ≠ c.lfAsset) (hv : 0 < price s a * m / DIV) (he : exec c s (.borrow w a m) = .ok s') :
    debtSum s' w + (lfThreshSum c s' w - lfDebt c s' w) ≤ threshSum c s' w + 1 := by
  have h1 := C41_borrow_needs_collateral hc (h.mono fun _ _ => trivial) hw ha hv he
  have hr : ReachBy c Call.notForce s' := 
    .step h (.call (.borrow w a m) trivial (by simpa [Call.signers] using Ne.symm hw) trivial he)
  have h2 := sum_filter_diff (f := collOf c s' Market.cf w) (g := collOf c s' Market.lt w)
    (fun x => decide (x ∈ s'.lfc)) (l := activeIds s')
    (fun _ => collOf_le (fun _ hm => (C57_risk_parameters hr hm).1))
  have h3 := C57_threshold_above_collateral hr w
  unfold threshSum at h3 ⊢
  unfold lfThreshSum
  unfold collSum at h1 h3
  unfold lfCollSum at h1
  omega

end Verif.Loans
