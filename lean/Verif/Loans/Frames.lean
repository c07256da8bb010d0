import Verif.Loans.Spec

/-! # What the building blocks change -/

set_option linter.unusedSimpArgs false
set_option linter.unusedVariables false

namespace Verif.Loans
open Verif

variable {c : Cfg} {s s' : State}

theorem market_ok {a : Nat} {m : Market} : market s a = .ok m ↔ s.markets a = some m := by
  simp [market]

theorem ensureActive_ok {a : Nat} {m : Market} (h : ensureActive s a = .ok m) :
    s.markets a = some m ∧ m.state = .active := by
  unfold ensureActive at h
  split at h
  · split_ifs at h with hc
    cases h
    exact ⟨by assumption, hc⟩
  · exact absurd h (by simp)

@[simp] theorem cash_eq (c : Cfg) (s : State) (a : Nat) : cash c s a = s.ledger.bal a c.acct := by
  simp [cash, Ledger.reducible]

theorem calcRate_ok {T k b v r : Nat} (h : calcRate T k b v = .ok r) :
    (T = 0 ∧ r = minRate) ∨
    (T ≠ 0 ∧ v ≤ k + b ∧ r = (k + b - v) * DIV / T ∧ minValidRate ≤ r ∧ r < DIV) := by
  unfold calcRate at h
  split_ifs at h with h0
  · cases h; exact .inl ⟨h0, rfl⟩
  · right
    simp only [bind_ok_iff, cadd_ok_iff, csub_ok_iff, okOr_ok_iff, fixFromRational_iff, ensure_ok_iff,
      pure_ok_iff] at h
    obtain ⟨t, ⟨_, rfl⟩, t', ⟨hle, rfl⟩, r', ⟨_, _, rfl⟩, _, ⟨h1, h2⟩, rfl⟩ := h
    exact ⟨h0, hle, rfl, h1, h2⟩

theorem calcRate_bounds {T k b v r : Nat} (h : calcRate T k b v = .ok r) : minValidRate ≤ r ∧ r < DIV := by
  rcases calcRate_ok h with ⟨_, rfl⟩ | ⟨_, _, _, h1, h2⟩
  · decide
  · exact ⟨h1, h2⟩

theorem rateStored_xrate {a r : Nat} (h : rateStored c s a = .ok r) : r = xrate c s a := by
  unfold rateStored at h
  rcases calcRate_ok h with ⟨h0, rfl⟩ | ⟨h0, _, rfl, _⟩
  · simp [xrate, h0]
  · simp [xrate, h0, net, cash_eq]

theorem rateStored_bounds {a r : Nat} (h : rateStored c s a = .ok r) : minValidRate ≤ r ∧ r < DIV :=
  calcRate_bounds h

/-- How accrual changes the book of a market. -/
structure Grown (m : Option Market) (b b' : Book) : Prop where
  supply : b'.supply = b.supply
  borrows : b.borrows ≤ b'.borrows
  reserves : b.reserves ≤ b'.reserves
  index : b.index ≤ b'.index
  res_le : ∀ mk, m = some mk → mk.rf ≤ million → b'.reserves - b.reserves ≤ b'.borrows - b.borrows

theorem Grown.refl (m : Option Market) (b : Book) : Grown m b b :=
  ⟨rfl, Nat.le_refl _, Nat.le_refl _, Nat.le_refl _, fun _ _ _ => by omega⟩

theorem advance_ok {m : Market} {b : Book} {rate now : Nat} {x : Nat × Nat × Nat}
    (h : advance m b rate now = .ok x) :
    b.borrows ≤ x.1 ∧ b.reserves ≤ x.2.1 ∧ b.index ≤ x.2.2 ∧
      (m.rf ≤ million → x.2.1 - b.reserves ≤ x.1 - b.borrows) := by
  unfold advance at h
  split_ifs at h with ht
  · simp only [bind_ok_iff, cadd_ok_iff, okOr_ok_iff, pure_ok_iff] at h
    obtain ⟨i, hi, tb, ⟨_, rfl⟩, tr, ⟨_, rfl⟩, ix, hix, ix', ⟨_, rfl⟩, rfl⟩ := h
    refine ⟨by dsimp only; omega, by dsimp only; omega, by dsimp only; omega, fun hm => ?_⟩
    have := pmulFloor_le (x := i) hm
    dsimp only
    omega
  · cases h
    exact ⟨Nat.le_refl _, Nat.le_refl _, Nat.le_refl _, fun _ => by dsimp only; omega⟩

theorem setBook_self (s : State) (a : Nat) : setBook s a (s.books a) = s := by simp [setBook]

theorem accrue_ok {a : Nat} (h : accrue c s a = .ok s') :
    ∃ b, s' = setBook s a b ∧ Grown (s.markets a) (s.books a) b := by
  unfold accrue at h
  split_ifs at h with h0 h1
  · cases h
    exact ⟨_, rfl, ⟨rfl, Nat.le_refl _, Nat.le_refl _, Nat.le_refl _, fun _ _ _ => by dsimp only; omega⟩⟩
  · cases h
    exact ⟨_, (setBook_self _ _).symm, .refl _ _⟩
  · simp only [bind_ok_iff, pure_ok_iff, marketStatus, okOr_ok_iff, market_ok] at h
    obtain ⟨b, ⟨m, hm, u, hu, br, hbr, x, hx, r, hr, rfl⟩, rfl⟩ := h
    obtain ⟨h1, h2, h3, h4⟩ := advance_ok hx
    refine ⟨_, rfl, ⟨rfl, h1, h2, h3, ?_⟩⟩
    intro mk hmk hrf
    rw [hm] at hmk
    cases hmk
    exact h4 hrf

/-- After an accrual the rate can be computed, or the accrual changed nothing but the time stamp. -/
theorem accrue_again {a : Nat} (h : accrue c s a = .ok s') :
    s'.ledger = s.ledger ∧ s'.markets = s.markets ∧ s'.deposits = s.deposits ∧ s'.debts = s.debts ∧
    s'.time = s.time ∧ s'.block = s.block ∧ s'.rw = s.rw ∧ s'.ids = s.ids ∧ s'.lfc = s.lfc ∧
    s'.prices = s.prices ∧ s'.underlying = s.underlying ∧ s'.earned = s.earned := by
  obtain ⟨b, rfl, _⟩ := accrue_ok h
  exact ⟨rfl, rfl, rfl, rfl, rfl, rfl, rfl, rfl, rfl, rfl, rfl, rfl⟩

/-! ### Reward steps -/

/-- Only rewards changed. -/
def RwOnly (s s' : State) : Prop := ∃ x, s' = { s with rw := x }

theorem RwOnly.refl (s : State) : RwOnly s s := ⟨s.rw, rfl⟩
theorem RwOnly.trans {s1 s2 s3 : State} (h : RwOnly s1 s2) (h' : RwOnly s2 s3) : RwOnly s1 s3 := by
  obtain ⟨x, rfl⟩ := h
  obtain ⟨y, rfl⟩ := h'
  exact ⟨y, rfl⟩

theorem setRew_self (s : State) (a : Nat) : setRew s a (s.rw.mkt a) = s := by simp [setRew]

theorem updSupply_ok {a : Nat} (h : updSupply s a = .ok s') :
    ∃ r, s' = setRew s a r ∧ r.supSpeed = (s.rw.mkt a).supSpeed ∧ r.borSpeed = (s.rw.mkt a).borSpeed ∧
      r.borIdx = (s.rw.mkt a).borIdx ∧ r.borBlock = (s.rw.mkt a).borBlock ∧
      r.supBlock = max (s.rw.mkt a).supBlock s.block ∧ (s.rw.mkt a).supIdx ≤ r.supIdx ∧
      (r.supIdx - (s.rw.mkt a).supIdx) * (s.books a).supply ≤
        (s.block - (s.rw.mkt a).supBlock) * (s.rw.mkt a).supSpeed * scale := by
  unfold updSupply at h
  dsimp only at h
  split_ifs at h with h0 h1
  · cases h
    exact ⟨_, (setRew_self _ _).symm, rfl, rfl, rfl, rfl, by omega, Nat.le_refl _, by simp⟩
  · cases h
    exact ⟨_, rfl, rfl, rfl, rfl, rfl, by dsimp only; omega, Nat.le_refl _, by simp⟩
  · simp only [bind_ok_iff, cadd_ok_iff, pure_ok_iff] at h
    obtain ⟨d, hd, i, ⟨_, rfl⟩, rfl⟩ := h
    refine ⟨_, rfl, rfl, rfl, rfl, rfl, by dsimp only; omega, by dsimp only; omega, ?_⟩
    dsimp only
    rw [Nat.add_sub_cancel_left]
    unfold deltaIndex at hd
    split_ifs at hd with hz
    · cases hd; simp
    · simp only [toU128_ok_iff] at hd
      rw [hd.2]
      exact Nat.div_mul_le_self _ _

theorem updBorrow_ok {a : Nat} (h : updBorrow s a = .ok s') :
    ∃ r, s' = setRew s a r ∧ r.supSpeed = (s.rw.mkt a).supSpeed ∧ r.borSpeed = (s.rw.mkt a).borSpeed ∧
      r.supIdx = (s.rw.mkt a).supIdx ∧ r.supBlock = (s.rw.mkt a).supBlock ∧
      (s.rw.mkt a).borIdx ≤ r.borIdx := by
  unfold updBorrow at h
  dsimp only at h
  split_ifs at h with h0 h1
  · cases h
    exact ⟨_, (setRew_self _ _).symm, rfl, rfl, rfl, rfl, Nat.le_refl _⟩
  · cases h
    exact ⟨_, rfl, rfl, rfl, rfl, rfl, Nat.le_refl _⟩
  · simp only [bind_ok_iff, cadd_ok_iff, pure_ok_iff] at h
    obtain ⟨bb, _, d, hd, i, ⟨_, rfl⟩, rfl⟩ := h
    exact ⟨_, rfl, rfl, rfl, rfl, rfl, by dsimp only; omega⟩

theorem distSupplier_ok {a w : Nat} (h : distSupplier s a w = .ok s') :
    s.rw.supIx a w ≤ (s.rw.mkt a).supIdx ∧
    s' = { s with rw := { s.rw with
      supIx := upd2 s.rw.supIx a w (s.rw.mkt a).supIdx,
      accrued := upd s.rw.accrued w (s.rw.accrued w +
        s.vouchers a w * ((s.rw.mkt a).supIdx - s.rw.supIx a w) / scale),
      log := .sup a w (s.vouchers a w * ((s.rw.mkt a).supIdx - s.rw.supIx a w) / scale) :: s.rw.log } } := by
  simp only [distSupplier, rewardDelta, bind_ok_iff, csub_ok_iff, cadd_ok_iff, toU128_ok_iff, pure_ok_iff] at h
  obtain ⟨d, ⟨hd, rfl⟩, x, ⟨_, rfl⟩, t, ⟨_, rfl⟩, rfl⟩ := h
  exact ⟨hd, rfl⟩

theorem distBorrower_ok {a w : Nat} (h : distBorrower s a w = .ok s') :
    ∃ x, s' = { s with rw := { s.rw with
      borIx := upd2 s.rw.borIx a w (s.rw.mkt a).borIdx,
      accrued := upd s.rw.accrued w (s.rw.accrued w + x),
      log := .bor a w x :: s.rw.log } } := by
  simp only [distBorrower, bind_ok_iff, csub_ok_iff, cadd_ok_iff, pure_ok_iff] at h
  obtain ⟨d, ⟨hd, rfl⟩, m, _, bb, _, x, _, t, ⟨_, rfl⟩, rfl⟩ := h
  exact ⟨x, rfl⟩

theorem updSupply_rw {a : Nat} (h : updSupply s a = .ok s') : RwOnly s s' := by
  obtain ⟨r, rfl, _⟩ := updSupply_ok h
  exact ⟨_, rfl⟩
theorem updBorrow_rw {a : Nat} (h : updBorrow s a = .ok s') : RwOnly s s' := by
  obtain ⟨r, rfl, _⟩ := updBorrow_ok h
  exact ⟨_, rfl⟩
theorem distSupplier_rw {a w : Nat} (h : distSupplier s a w = .ok s') : RwOnly s s' :=
  ⟨_, (distSupplier_ok h).2⟩
theorem distBorrower_rw {a w : Nat} (h : distBorrower s a w = .ok s') : RwOnly s s' := by
  obtain ⟨x, h⟩ := distBorrower_ok h
  exact ⟨_, h⟩

theorem collect_rw {a w : Nat} (h : collect s a w = .ok s') : RwOnly s s' := by
  simp only [collect, bind_ok_iff] at h
  obtain ⟨s1, h1, s2, h2, s3, h3, h4⟩ := h
  exact (((updSupply_rw h1).trans (distSupplier_rw h2)).trans (updBorrow_rw h3)).trans (distBorrower_rw h4)

theorem collectAll_rw {w : Nat} : ∀ {as : List Nat} {s s' : State}, collectAll s w as = .ok s' → RwOnly s s'
  | [], s, s', h => by cases h; exact .refl _
  | a :: as, s, s', h => by
    simp only [collectAll, bind_ok_iff] at h
    obtain ⟨s1, h1, h2⟩ := h
    exact (collect_rw h1).trans (collectAll_rw h2)

theorem setSupSpeed_rw {a v : Nat} (h : setSupSpeed s a v = .ok s') : RwOnly s s' := by
  unfold setSupSpeed at h
  split_ifs at h
  · cases h; exact .refl _
  · simp only [bind_ok_iff, pure_ok_iff] at h
    obtain ⟨s1, h1, rfl⟩ := h
    exact (updSupply_rw h1).trans ⟨_, rfl⟩

theorem setBorSpeed_rw {a v : Nat} (h : setBorSpeed s a v = .ok s') : RwOnly s s' := by
  unfold setBorSpeed at h
  split_ifs at h
  · cases h; exact .refl _
  · simp only [bind_ok_iff, pure_ok_iff] at h
    obtain ⟨s1, h1, rfl⟩ := h
    exact (updBorrow_rw h1).trans ⟨_, rfl⟩

theorem updateSpeed_rw {a : Nat} {x y : Option Nat} (h : updateSpeed s a x y = .ok s') : RwOnly s s' := by
  simp only [updateSpeed, bind_ok_iff, pure_ok_iff] at h
  obtain ⟨_, _, s1, h1, s2, h2, rfl⟩ := h
  exact ((setSupSpeed_rw h1).trans (setBorSpeed_rw h2)).trans ⟨_, rfl⟩

theorem updEarned_ok {w a r : Nat} (h : updEarned s w a r = .ok s') :
    ∃ e, s' = { s with earned := e } := by
  unfold updEarned at h
  dsimp only at h
  split_ifs at h
  · simp only [bind_ok_iff, pure_ok_iff] at h
    obtain ⟨x, _, t, _, rfl⟩ := h
    exact ⟨_, rfl⟩
  · cases h
    exact ⟨_, rfl⟩

end Verif.Loans
