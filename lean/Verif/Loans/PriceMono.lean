import Verif.Loans.Health

/-!
# C203: what prices can do to a borrower

Whether an account can be liquidated depends on prices monotonically: dearer collateral and cheaper debts never open an
account to liquidation.  So whoever can only push such prices upwards (see `Verif/System/Trading.lean`) cannot make
anybody liquidatable.
-/

namespace Verif.Loans
open Verif

variable {c : Cfg} {s s' : State}

/-- The same state with other prices and balances. -/
def State.reprice (s : State) (p : Nat → Option Nat) (l : Ledger) : State := { s with prices := p, ledger := l }

/-- From `s` to `p`, no price moved against `w`: what it has as collateral is not cheaper (or has lost its price
altogether), what it owes is not dearer; and if it owes the liquidation-free asset, that one's price is the same.
Balances may have changed, but not those of the lending pallet's own account. -/
structure NotAgainst (c : Cfg) (s : State) (p : Nat → Option Nat) (l : Ledger) (w : Nat) : Prop where
  cash : ∀ a, l.bal a c.acct = s.ledger.bal a c.acct
  coll : ∀ a, (s.dep a w).coll = true → (s.dep a w).vouchers ≠ 0 → p a = none ∨ price s a ≤ (p a).getD 0
  debt : ∀ a, (s.debts a w).principal ≠ 0 → (p a).getD 0 ≤ price s a
  lf : (s.debts c.lfAsset w).principal ≠ 0 → p c.lfAsset = s.prices c.lfAsset

theorem cash_reprice {p : Nat → Option Nat} {l : Ledger} (hl : ∀ a, l.bal a c.acct = s.ledger.bal a c.acct) (a : Nat) :
    cash c (s.reprice p l) a = cash c s a := by
  unfold cash
  show l.reducible a c.acct false = s.ledger.reducible a c.acct false
  unfold Ledger.reducible
  rw [hl]

theorem marketStatus_reprice {p : Nat → Option Nat} {l : Ledger} (hl : ∀ a, l.bal a c.acct = s.ledger.bal a c.acct)
    (a : Nat) : marketStatus c (s.reprice p l) a = marketStatus c s a := by
  unfold marketStatus
  simp only [cash_reprice hl]
  rfl

theorem xrate_reprice {p : Nat → Option Nat} {l : Ledger} (hl : ∀ a, l.bal a c.acct = s.ledger.bal a c.acct)
    (a : Nat) : xrate c (s.reprice p l) a = xrate c s a := by
  unfold xrate net
  have : (s.reprice p l).ledger.bal a c.acct = s.ledger.bal a c.acct := hl a
  rw [this]
  rfl

theorem accrue_reprice {p : Nat → Option Nat} {l : Ledger} {a : Nat} {t : State}
    (hl : ∀ a, l.bal a c.acct = s.ledger.bal a c.acct) (h : accrue c (s.reprice p l) a = .ok t) :
    ∃ u, accrue c s a = .ok u ∧ t = u.reprice p l := by
  unfold accrue at h ⊢
  have hb : (s.reprice p l).books = s.books := rfl
  have ht : (s.reprice p l).time = s.time := rfl
  rw [hb, ht] at h
  split_ifs at h with h1 h2
  · cases h
    exact ⟨_, by rw [if_pos h1], rfl⟩
  · cases h
    exact ⟨_, by rw [if_neg h1, if_pos h2], rfl⟩
  · rw [if_neg h1, if_neg h2]
    simp only [bind_ok_iff, pure_ok_iff] at h ⊢
    obtain ⟨b, hb, rfl⟩ := h
    have : marketStatus c s a = .ok b := (marketStatus_reprice hl a).symm.trans hb
    exact ⟨_, ⟨b, this, rfl⟩, rfl⟩

theorem sumGo_each {f : Nat → R Nat} : ∀ {l : List Nat} {acc t : Nat}, sumGo f acc l = .ok t →
    ∀ x ∈ l, ∃ v, f x = .ok v
  | [], _, _, _, x, hx => by cases hx
  | y :: ys, acc, t, h, x, hx => by
    simp only [sumGo, bind_ok_iff, cadd_ok_iff] at h
    obtain ⟨v, hv, _, ⟨_, rfl⟩, h⟩ := h
    rcases List.mem_cons.1 hx with rfl | hx
    · exact ⟨v, hv⟩
    · exact sumGo_each h x hx

/-- If the threshold value of an account could be computed, each of its collaterals has a price. -/
theorem totalThresh_priced {w t : Nat} (h : totalThresh c s w = .ok t) {a : Nat} (ha : a ∈ activeIds s)
    (hc : (s.dep a w).coll = true) (hv : (s.dep a w).vouchers ≠ 0) : s.prices a ≠ none := by
  obtain ⟨v, hv'⟩ := sumGo_each h a ha
  unfold threshValue at hv'
  rw [if_neg (by rw [hc]; simp [hv])] at hv'
  simp only [bind_ok_iff, assetValue, getPrice, okOr_ok_iff] at hv'
  obtain ⟨_, _, _, ⟨p, hp, _⟩, _⟩ := hv'
  rw [hp]
  simp

theorem owed_zero {a w : Nat} (h : (s.debts a w).principal = 0) : owed s a w = 0 := by
  unfold owed
  simp [h]

theorem sum_le {f g : Nat → Nat} : ∀ {l : List Nat}, (∀ x ∈ l, f x ≤ g x) → (l.map f).sum ≤ (l.map g).sum
  | [], _ => by simp
  | x :: xs, h => by
    simp only [List.map_cons, List.sum_cons]
    have h1 := h x (by simp)
    have h2 := sum_le (l := xs) (fun y hy => h y (by simp [hy]))
    omega

theorem sum_split {f : Nat → Nat} {q : Nat → Bool} : ∀ (l : List Nat),
    (l.map f).sum = ((l.filter q).map f).sum + ((l.filter (fun x => !q x)).map f).sum
  | [] => by simp
  | x :: xs => by
    have := sum_split (f := f) (q := q) xs
    by_cases hx : q x = true
    · simp [hx, this]; omega
    · simp only [Bool.not_eq_true] at hx
      simp [hx, this]; omega

/-- Sums of a repriced state compared with the original. -/
theorem debtSum_reprice {p : Nat → Option Nat} {l : Ledger} {w : Nat} (h : NotAgainst c s p l w) :
    debtSum (s.reprice p l) w ≤ debtSum s w := by
  refine sum_le fun a _ => ?_
  show (p a).getD 0 * owed s a w / DIV ≤ price s a * owed s a w / DIV
  by_cases hz : (s.debts a w).principal = 0
  · rw [owed_zero hz]; simp
  · exact Nat.div_le_div_right (Nat.mul_le_mul_right _ (h.debt a hz))

theorem collOf_reprice {p : Nat → Option Nat} {l : Ledger} {w : Nat} (h : NotAgainst c s p l w) (f : Market → Nat) {a : Nat}
    (hp : (s.dep a w).coll = true → (s.dep a w).vouchers ≠ 0 → p a ≠ none) :
    collOf c s f w a ≤ collOf c (s.reprice p l) f w a := by
  unfold collOf
  show (match s.markets a with
    | none => 0
    | some m => _) ≤ (match s.markets a with
    | none => 0
    | some m => _)
  cases s.markets a with
  | none => exact Nat.le_refl _
  | some m =>
    simp only
    rw [xrate_reprice h.cash]
    show (if (s.dep a w).coll then _ else 0) ≤ (if (s.dep a w).coll then
      (p a).getD 0 * ceilDiv (xrate c s a * (s.dep a w).vouchers / DIV * f m) million / DIV else 0)
    cases hc : (s.dep a w).coll with
    | false => simp
    | true =>
      simp only [if_true]
      by_cases hv : (s.dep a w).vouchers = 0
      · rw [hv]
        simp [ceilDiv, million]
      · rcases h.coll a hc hv with h0 | h0
        · exact absurd h0 (hp hc hv)
        · exact Nat.div_le_div_right (Nat.mul_le_mul_right _ h0)

theorem lfDebt_reprice {p : Nat → Option Nat} {l : Ledger} {w : Nat} (h : NotAgainst c s p l w) :
    lfDebt c (s.reprice p l) w = lfDebt c s w := by
  show (p c.lfAsset).getD 0 * owed s c.lfAsset w / DIV = (s.prices c.lfAsset).getD 0 * owed s c.lfAsset w / DIV
  by_cases hz : (s.debts c.lfAsset w).principal = 0
  · rw [owed_zero hz, Nat.mul_zero, Nat.mul_zero]
  · rw [h.lf hz]

theorem NotAgainst.accrue {p : Nat → Option Nat} {l : Ledger} {w a : Nat} {t : State} (h : NotAgainst c s p l w)
    (ht : accrue c s a = .ok t) : NotAgainst c t p l w := by
  obtain ⟨hled, _, h3, h4, _, _, _, _, _, h10, _, _⟩ := accrue_again ht
  have hd : ∀ b, t.dep b w = s.dep b w := fun b => by unfold State.dep; rw [h3]
  have hp : ∀ b, price t b = price s b := fun b => by unfold price; rw [h10]
  refine ⟨fun b => ?_, fun b => ?_, fun b => ?_, ?_⟩
  · rw [h.cash b, hled]
  · rw [hd, hp]; exact h.coll b
  · rw [h4, hp]; exact h.debt b
  · rw [h4, h10]; exact h.lf

/-- **C203** Suppose prices move, and none of them against `br`.  If `br` can be liquidated afterwards (in any asset, for
any amount, by anyone), its debts already exceeded its threshold-weighted collateral at the old prices. -/
theorem C203_prices_not_against {p : Nat → Option Nat} {l : Ledger} {liq br a m k : Nat} (h : NotAgainst c s p l br)
    (he : exec c (s.reprice p l) (.liquidate liq br a m k) = .ok s') :
    ∃ s1 s2, accrue c s a = .ok s1 ∧ accrue c s1 k = .ok s2 ∧
      threshSum c s2 br < debtSum s2 br + (lfThreshSum c s2 br - lfDebt c s2 br) := by
  obtain ⟨t1, t2, _, _, h1, h2, h3⟩ := liquidate_view he
  obtain ⟨s1, g1, rfl⟩ := accrue_reprice h.cash h1
  obtain ⟨s2, g2, rfl⟩ := accrue_reprice (h.accrue g1).cash h2
  refine ⟨s1, s2, g1, g2, ?_⟩
  obtain ⟨mk, mk', r, q, _, _, hne, hla, _, _, _, _, rv, _, _, _⟩ := doLiquidate_view h3
  simp only [liquidateAllowed, bind_ok_iff, ensure_ok_iff, exists_const] at hla
  obtain ⟨q, hq, hn, _⟩ := hla
  have hn2 := (h.accrue g1).accrue g2
  have hth : ∃ t, totalThresh c (s2.reprice p l) br = .ok t := by
    simp only [threshLiquidity, bind_ok_iff] at hq
    obtain ⟨_, _, t, ht, _⟩ := hq
    exact ⟨t, ht⟩
  obtain ⟨t, ht⟩ := hth
  have hpr : ∀ b ∈ activeIds s2, (s2.dep b br).coll = true → (s2.dep b br).vouchers ≠ 0 → p b ≠ none :=
    fun b hb h1 h2 => totalThresh_priced ht hb h1 h2
  have hq' := threshLiquidity_ok hq
  subst hq'
  have hD := debtSum_reprice hn2
  have hL := lfDebt_reprice hn2
  have hT : threshSum c s2 br = lfThreshSum c s2 br +
      (((activeIds s2).filter (fun x => !decide (x ∈ s2.lfc))).map (collOf c s2 Market.lt br)).sum := sum_split _
  have hT' : threshSum c (s2.reprice p l) br = lfThreshSum c (s2.reprice p l) br +
      (((activeIds s2).filter (fun x => !decide (x ∈ s2.lfc))).map (collOf c (s2.reprice p l) Market.lt br)).sum :=
    sum_split _
  have hA : lfThreshSum c s2 br ≤ lfThreshSum c (s2.reprice p l) br :=
    sum_le fun b hb => collOf_reprice hn2 _ (hpr b (List.mem_of_mem_filter hb))
  have hB : (((activeIds s2).filter (fun x => !decide (x ∈ s2.lfc))).map (collOf c s2 Market.lt br)).sum ≤
      (((activeIds s2).filter (fun x => !decide (x ∈ s2.lfc))).map (collOf c (s2.reprice p l) Market.lt br)).sum :=
    sum_le fun b hb => collOf_reprice hn2 _ (hpr b (List.mem_of_mem_filter hb))
  simp only at hn
  by_contra hcon
  apply hn
  omega

/-- **C203** So an account whose threshold-weighted collateral covers its debts stays safe from liquidation, by anyone, in
any asset, for any amount, when prices move and none moves against it. -/
theorem C203_safe_stays_safe {p : Nat → Option Nat} {l : Ledger} {br : Nat} (h : NotAgainst c s p l br) (liq a m k : Nat)
    {s1 s2 : State} (h1 : accrue c s a = .ok s1) (h2 : accrue c s1 k = .ok s2)
    (hh : debtSum s2 br + (lfThreshSum c s2 br - lfDebt c s2 br) ≤ threshSum c s2 br) :
    exec c (s.reprice p l) (.liquidate liq br a m k) ≠ .ok s' := by
  intro he
  obtain ⟨t1, t2, g1, g2, hlt⟩ := C203_prices_not_against h he
  rw [h1] at g1
  cases g1
  rw [h2] at g2
  cases g2
  omega

/-- Tripling the price of the collateral of user 8 is not against it, doubling the price of its debt is: then it can be
liquidated. -/
example : NotAgainst exC ex0 (fun a => if a = 2 then some (3 * DIV) else ex0.prices a) ex0.ledger 8 ∧
    (ex0.dep 2 8).coll = true ∧ (ex0.dep 2 8).vouchers ≠ 0 ∧ (ex0.debts 1 8).principal ≠ 0 ∧
    ¬ NotAgainst exC ex0 (fun a => if a = 1 then some (2 * DIV) else ex0.prices a) ex0.ledger 8 := by
  have e1 : price ex0 1 = DIV := by decide +kernel
  have e2 : (ex0.debts 1 8).principal ≠ 0 := by decide +kernel
  have e3 : price ex0 2 ≤ 3 * DIV := by decide +kernel
  have e4 : (ex0.debts 2 8).principal = 0 := by decide +kernel
  have e6 : exC.lfAsset ≠ 2 := by decide +kernel
  refine ⟨⟨fun _ => rfl, fun a hc hv => Or.inr ?_, fun a hd => ?_, fun _ => ?_⟩, by decide +kernel, by decide +kernel, e2, fun h => ?_⟩
  · by_cases ha : a = 2
    · subst ha
      exact e3
    · rw [if_neg ha]
      exact Nat.le_refl _
  · by_cases ha : a = 2
    · subst ha
      exact absurd e4 hd
    · rw [if_neg ha]
      exact Nat.le_refl _
  · exact if_neg e6
  · have := h.debt 1 e2
    rw [e1] at this
    exact absurd this (by decide +kernel)

end Verif.Loans
