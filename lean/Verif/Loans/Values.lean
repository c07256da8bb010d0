import Verif.Loans.Inv

/-! # The code's account values are the sums of the specification -/

set_option linter.unusedSimpArgs false
set_option linter.unusedVariables false

namespace Verif.Loans
open Verif

variable {c : Cfg} {s s' : State}

theorem debt_owed {a w d : Nat} (h : debt s a w = .ok d) : d = owed s a w := by
  unfold debt at h
  split_ifs at h with h0
  · cases h
    unfold owed
    rcases h0 with h0 | h0 <;> simp [h0]
  · simp only [bind_ok_iff, okOr_ok_iff, fixDiv_iff, fixMulInt_iff] at h
    obtain ⟨q, ⟨_, _, rfl⟩, _, rfl⟩ := h
    rfl

theorem assetValue_ok {a m v : Nat} (h : assetValue s a m = .ok v) :
    v = price s a * m / DIV ∧ s.prices a = some (price s a) ∧ price s a ≠ 0 := by
  simp only [assetValue, getPrice, bind_ok_iff, okOr_ok_iff, ensure_ok_iff, exists_const, pure_ok_iff,
    fixMul_iff] at h
  obtain ⟨p, ⟨p', hp, h0, rfl⟩, _, rfl⟩ := h
  have : price s a = p' := by simp [price, hp]
  rw [this]
  exact ⟨rfl, hp, h0⟩

theorem debtValue_ok {a w v : Nat} (h : debtValue s a w = .ok v) : v = price s a * owed s a w / DIV := by
  simp only [debtValue, bind_ok_iff] at h
  obtain ⟨d, hd, h⟩ := h
  have := debt_owed hd
  split_ifs at h with h0
  · cases h; rw [← this, h0]; simp
  · rw [← this]; exact (assetValue_ok h).1

theorem collAmount_ok {f : Market → Nat} {a w u : Nat} (h : collAmount c s f a w = .ok u) :
    price s a * u / DIV = collOf c s f w a := by
  unfold collAmount at h
  unfold collOf
  split_ifs at h with h0
  · cases h
    cases hm : s.markets a with
    | none => simp
    | some m =>
      dsimp only
      rcases h0 with h0 | h0
      · simp [h0]
      · simp [h0, ceilDiv, million]
  · simp only [not_or, Bool.not_eq_false] at h0
    simp only [bind_ok_iff, pure_ok_iff, market_ok] at h
    obtain ⟨r, hr, x, hx, m, hm, rfl⟩ := h
    rw [hm]
    dsimp only
    rw [if_pos h0.1, toUnderlying_ok hx, rateStored_xrate hr]
    rfl

theorem collValue_ok {a w v : Nat} (h : collValue c s a w = .ok v) : v = collOf c s Market.cf w a := by
  simp only [collValue, bind_ok_iff] at h
  obtain ⟨u, hu, h⟩ := h
  rw [(assetValue_ok h).1]
  exact collAmount_ok hu

theorem threshValue_ok {a w v : Nat} (h : threshValue c s a w = .ok v) : v = collOf c s Market.lt w a := by
  unfold threshValue at h
  split_ifs at h with h0
  · cases h
    have : collAmount c s Market.lt a w = .ok 0 := by simp [collAmount, h0]
    simpa using collAmount_ok this
  · simp only [bind_ok_iff] at h
    obtain ⟨u, hu, h⟩ := h
    rw [(assetValue_ok h).1]
    exact collAmount_ok hu

theorem sumGo_ok {f : Nat → R Nat} {g : Nat → Nat} (hg : ∀ x v, f x = .ok v → v = g x) :
    ∀ {l : List Nat} {acc t : Nat}, sumGo f acc l = .ok t → t = acc + (l.map g).sum
  | [], acc, t, h => by cases h; simp
  | x :: xs, acc, t, h => by
    simp only [sumGo, bind_ok_iff, cadd_ok_iff] at h
    obtain ⟨v, hv, _, ⟨_, rfl⟩, h⟩ := h
    rw [sumGo_ok hg h, hg x v hv]
    simp only [List.map_cons, List.sum_cons]
    omega

theorem totalBorrowed_ok {w t : Nat} (h : totalBorrowed s w = .ok t) : t = debtSum s w := by
  have := sumGo_ok (g := fun a => price s a * owed s a w / DIV) (fun x v hv => debtValue_ok hv) h
  simpa [debtSum] using this

theorem totalColl_ok {w t : Nat} (h : totalColl c s w = .ok t) : t = collSum c s w := by
  have := sumGo_ok (g := collOf c s Market.cf w) (fun x v hv => collValue_ok hv) h
  simpa [collSum] using this

theorem totalThresh_ok {w t : Nat} (h : totalThresh c s w = .ok t) : t = threshSum c s w := by
  have := sumGo_ok (g := collOf c s Market.lt w) (fun x v hv => threshValue_ok hv) h
  simpa [threshSum] using this

theorem lfBase_ok {w t : Nat} (h : lfBase c s w = .ok t) : t = lfCollSum c s w := by
  have := sumGo_ok (g := collOf c s Market.cf w) (fun x v hv => collValue_ok hv) h
  simpa [lfCollSum, lfIds] using this

theorem lfThresh_ok {w t : Nat} (h : lfThresh c s w = .ok t) : t = lfThreshSum c s w := by
  have := sumGo_ok (g := collOf c s Market.lt w) (fun x v hv => threshValue_ok hv) h
  simpa [lfThreshSum, lfIds] using this

theorem lfBorrowed_ok {w t : Nat} (h : lfBorrowed c s w = .ok t) : t = lfDebt c s w := by
  simp only [lfBorrowed, bind_ok_iff] at h
  obtain ⟨d, hd, h⟩ := h
  rw [(assetValue_ok h).1, debt_owed hd]
  rfl

theorem liquidity_ok {w : Nat} {q : Nat × Nat × Nat × Nat} (h : liquidity c s w = .ok q) :
    q = (collSum c s w - debtSum s w, debtSum s w - collSum c s w,
      lfCollSum c s w - lfDebt c s w, lfDebt c s w - lfCollSum c s w) := by
  simp only [liquidity, bind_ok_iff, pure_ok_iff] at h
  obtain ⟨b, hb, t, ht, lb, hlb, lp, hlp, rfl⟩ := h
  rw [totalBorrowed_ok hb, totalColl_ok ht, lfBorrowed_ok hlb, lfBase_ok hlp]

theorem threshLiquidity_ok {w : Nat} {q : Nat × Nat × Nat × Nat} (h : threshLiquidity c s w = .ok q) :
    q = (threshSum c s w - debtSum s w, debtSum s w - threshSum c s w,
      lfThreshSum c s w - lfDebt c s w, lfDebt c s w - lfThreshSum c s w) := by
  simp only [threshLiquidity, bind_ok_iff, pure_ok_iff] at h
  obtain ⟨b, hb, t, ht, lb, hlb, lp, hlp, rfl⟩ := h
  rw [totalBorrowed_ok hb, totalThresh_ok ht, lfBorrowed_ok hlb, lfThresh_ok hlp]

theorem ensureLiquidity_false {w v : Nat} {u : Unit} (h : ensureLiquidity c s w v false = .ok u) :
    (lfCollSum c s w - lfDebt c s w) + v ≤ collSum c s w - debtSum s w := by
  simp only [ensureLiquidity, bind_ok_iff] at h
  obtain ⟨q, hq, h⟩ := h
  have := liquidity_ok hq
  subst this
  simp only [Bool.false_eq_true, if_false, bind_ok_iff, ensure_ok_iff, exists_const] at h
  exact h.2

theorem ensureLiquidity_true {w v : Nat} {u : Unit} (h : ensureLiquidity c s w v true = .ok u) :
    v ≤ max (collSum c s w - debtSum s w) (lfCollSum c s w - lfDebt c s w) := by
  simp only [ensureLiquidity, bind_ok_iff] at h
  obtain ⟨q, hq, h⟩ := h
  have := liquidity_ok hq
  subst this
  simpa only [if_true, ensure_ok_iff] using h

/-! ### Sums that change in one place -/

theorem sum_one_le {l : List Nat} (hn : l.Nodup) {a k : Nat} {g g' : Nat → Nat}
    (hoff : ∀ x, x ≠ a → g' x = g x) (ha : g' a ≤ g a + k) : (l.map g').sum ≤ (l.map g).sum + k := by
  induction l with
  | nil => simp
  | cons x xs ih =>
    rw [List.nodup_cons] at hn
    simp only [List.map_cons, List.sum_cons]
    by_cases hx : x = a
    · subst hx
      have : xs.map g' = xs.map g := by
        apply List.map_congr_left
        intro y hy
        apply hoff
        rintro rfl
        exact hn.1 hy
      rw [this]
      omega
    · have := ih hn.2
      rw [hoff x hx]
      omega

theorem nodup_active (h : Inv c s) : (activeIds s).Nodup := h.nodup.filter _
theorem nodup_lf (h : Inv c s) : ((activeIds s).filter (· ∈ s.lfc)).Nodup := (nodup_active h).filter _

/-- `⌊p (x + y) / D⌋ ≤ ⌊p x / D⌋ + ⌊p y / D⌋ + 1`. -/
theorem value_add (p x y : Nat) : p * (x + y) / DIV ≤ p * x / DIV + p * y / DIV + 1 := by
  rw [Nat.mul_add]
  generalize p * x = A
  generalize p * y = B
  unfold DIV
  omega

theorem value_add3 (p x y : Nat) : p * (x + y + 1) / DIV ≤ p * x / DIV + p * y / DIV + (p / DIV + 2) := by
  rw [Nat.mul_add, Nat.mul_add, Nat.mul_one]
  generalize p * x = A
  generalize p * y = B
  unfold DIV
  omega

/-- Rounding of a collateral value when the vouchers are split. -/
theorem coll_split {p r r' f V v : Nat} (hf : f ≤ million) (hr : r ≤ r') (hv : v ≤ V) :
    p * ceilDiv (r * V / DIV * f) million / DIV ≤
      p * ceilDiv (r' * (V - v) / DIV * f) million / DIV + (p * ceilDiv (r * v / DIV * f) million / DIV +
        (p / DIV + 2)) := by
  have h1 : r * V / DIV ≤ r' * (V - v) / DIV + r * v / DIV + 1 := by
    have e : r * V = r * (V - v) + r * v := by rw [← Nat.mul_add]; congr 1; omega
    have h2 : r * (V - v) ≤ r' * (V - v) := Nat.mul_le_mul_right _ hr
    rw [e]
    generalize r * (V - v) = A at h2 ⊢
    generalize r' * (V - v) = A' at h2 ⊢
    generalize r * v = B
    unfold DIV
    omega
  generalize r' * (V - v) / DIV = u2 at *
  generalize r * v / DIV = u1 at *
  generalize r * V / DIV = u at *
  have h2 : ceilDiv (u * f) million ≤ ceilDiv (u2 * f) million + ceilDiv (u1 * f) million + 1 := by
    rw [ceilDiv_le_iff million_pos]
    have e1 := ceilDiv_mul_ge (a := u2 * f) million_pos
    have e2 := ceilDiv_mul_ge (a := u1 * f) million_pos
    calc u * f ≤ (u2 + u1 + 1) * f := Nat.mul_le_mul_right _ h1
      _ = u2 * f + u1 * f + f := by ring
      _ ≤ ceilDiv (u2 * f) million * million + ceilDiv (u1 * f) million * million + million := by omega
      _ = _ := by ring
  generalize ceilDiv (u2 * f) million = A2 at *
  generalize ceilDiv (u1 * f) million = A1 at *
  have h3 := Nat.div_le_div_right (c := DIV) (Nat.mul_le_mul_left p h2)
  have h4 := value_add3 p A2 A1
  omega

/-- The debt right after it was written with the current index. -/
theorem owed_now {a w d : Nat} {st : State} (h : st.debts a w = ⟨d, (st.books a).index⟩)
    (h0 : (st.books a).index ≠ 0) : owed st a w = d := by
  unfold owed
  rw [h]
  dsimp only
  rw [Nat.mul_div_cancel_left _ (Nat.pos_of_ne_zero h0), Nat.mul_div_cancel_left _ DIV_pos]

/-- Collateral values depend on markets, prices, deposits and rates only. -/
theorem collOf_congr {f : Market → Nat} {w x : Nat} (hm : s'.markets = s.markets) (hp : s'.prices = s.prices)
    (hd : s'.deposits x w = s.deposits x w) (hr : xrate c s' x = xrate c s x) :
    collOf c s' f w x = collOf c s f w x := by
  unfold collOf price State.dep
  rw [hm, hp, hd, hr]

theorem activeIds_congr (hm : s'.markets = s.markets) (hi : s'.ids = s.ids) : activeIds s' = activeIds s := by
  unfold activeIds
  rw [hi]
  congr 1
  funext x
  unfold isActive
  rw [hm]

end Verif.Loans
