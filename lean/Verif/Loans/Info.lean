import Verif.Loans.Markets
import Verif.Loans.RateProps

/-!
# C252: the parameters of a market shown to other pallets and clients, and what they promise
-/

namespace Verif.Loans
open Verif

variable {c : Cfg} {s s' : State}

/-- `MarketInfo` (`pallets/traits/src/loans.rs:71-77`). -/
structure Info where
  cf : Nat
  lt : Nat
  rf : Nat
  close : Nat
  full : Nat
deriving DecidableEq

/-- `get_full_interest_rate` (`pallets/loans/src/lib.rs:2264-2273`). -/
def fullRate (s : State) (a : Nat) : Option Nat := match s.markets a with
  | some m => match m.model with
    | .jump _ _ full _ => some full
    | .curve _ => none
  | none => none

/-- `get_market_info` (`pallets/loans/src/lib.rs:2230-2241`). -/
def marketInfo (s : State) (a : Nat) : R Info := do
  let m ← market s a
  let f ← okOr (fullRate s a) .invalidRateModelParam
  pure ⟨m.cf, m.lt, m.rf, m.close, f⟩

/-! ## Specification -/

/-- The calls that may set parameters of market `a`: all of them are for the update origin of the pallet only. -/
def Call.sets (a : Nat) : Call → Prop
  | .addMarket b _ | .updateModel b _ | .updateMarket b _ | .forceUpdate b _ => b = a
  | _ => False

/-- Interest on `amount` in `dt` seconds at the yearly rate `rate` (18 decimals, a year of 365 days), rounded down. -/
def interestUpTo (rate amount dt : Nat) : Nat := rate * amount * dt / (10 ^ 18 * 31536000)

/-! ## Proofs -/

theorem marketInfo_iff {a : Nat} {i : Info} : marketInfo s a = .ok i ↔
    ∃ m base jmp ju, s.markets a = some m ∧ m.model = .jump base jmp i.full ju ∧
      i.cf = m.cf ∧ i.lt = m.lt ∧ i.rf = m.rf ∧ i.close = m.close := by
  simp only [marketInfo, market, bind_ok_iff, okOr_ok_iff, pure_ok_iff, fullRate]
  constructor
  · rintro ⟨m, hm, f, hf, rfl⟩
    rw [hm] at hf
    dsimp only at hf
    split at hf
    · rename_i base jmp full ju hj
      cases hf
      exact ⟨m, base, jmp, ju, hm, hj, rfl, rfl, rfl, rfl⟩
    · cases hf
  · rintro ⟨m, base, jmp, ju, hm, hj, h1, h2, h3, h4⟩
    refine ⟨m, hm, i.full, ?_, ?_⟩
    · rw [hm]
      dsimp only
      rw [hj]
    · cases i
      subst h1 h2 h3 h4
      rfl

/-- **C252** (shown) The query answers exactly for the markets with a jump model, with the parameters last set; for a market
with a curve model, or no market, it fails. -/
theorem C252_shown {a : Nat} {i : Info} : marketInfo s a = .ok i ↔
    ∃ m base jmp ju, s.markets a = some m ∧ m.model = .jump base jmp i.full ju ∧
      i.cf = m.cf ∧ i.lt = m.lt ∧ i.rf = m.rf ∧ i.close = m.close := marketInfo_iff

/-- The rate of a jump model is never above its full rate. -/
theorem jump_le {base jmp full ju u r : Nat} (hc : (RateModel.jump base jmp full ju).check = true) (hu : u ≤ million)
    (hr : (RateModel.jump base jmp full ju).borrowRate u = some r) : base ≤ r ∧ r ≤ full := by
  by_cases hj : ju ≤ million
  · by_cases h0 : ju ≠ 0 ∨ u ≠ 0
    · obtain ⟨r', h1, h2, h3, -⟩ := C46_jump_bounded hc hj hu h0
      rw [hr] at h1
      cases h1
      exact ⟨h2, h3⟩
    · push Not at h0
      obtain ⟨rfl, rfl⟩ := h0
      simp [RateModel.borrowRate, ofPermill, fixDiv, bind, Option.bind] at hr
      split at hr <;> cases hr
  · simp only [RateModel.check, decide_eq_true_eq] at hc
    obtain ⟨h1, h2, h3, h4, h5⟩ := hc
    simp only [RateModel.borrowRate] at hr
    rw [if_pos (by omega)] at hr
    simp only [bind, Option.bind_eq_some_iff, osub_iff, fixDiv_iff, oadd_iff] at hr
    obtain ⟨d, ⟨-, rfl⟩, q, ⟨hn, -, rfl⟩, -, rfl⟩ := hr
    have hD : (jmp - base) ≤ DIV := by
      have := half_le_DIV
      omega
    have hp := piece_le (d := jmp - base) (u := u) (ju := ju) (by omega) (by omega)
    rw [fixSatMul_permill hD hu]
    unfold ofPermill
    generalize (jmp - base) * (u * 1000000000000) / DIV * DIV / (ju * 1000000000000) = q at hp ⊢
    omega

/-- **C252** (rates) In every state any history leads to, no market status shows a borrow rate above the shown full rate,
which is at most 50% a year; nor a supply rate above the borrow rate, nor a utilization above one. -/
theorem C252_rates {ok : Call → Prop} (h : ReachBy c ok s) {a : Nat} {i : Info} {b : Book} (hi : marketInfo s a = .ok i)
    (hb : marketStatus c s a = .ok b) :
    b.borrowRate ≤ i.full ∧ i.full * 2 ≤ 10 ^ 18 ∧ b.supplyRate ≤ b.borrowRate ∧ b.util ≤ 10 ^ 6 := by
  obtain ⟨m, base, jmp, ju, hm, hj, -⟩ := marketInfo_iff.1 hi
  simp only [bind_ok_iff, pure_ok_iff, marketStatus, okOr_ok_iff, market_ok] at hb
  obtain ⟨m', hm', u, hu, br, hbr, x, hx, r, hr, rfl⟩ := hb
  rw [hm] at hm'
  cases hm'
  have hck := C57_model_accepted h hm
  have hul := C46_utilization_le hu
  rw [hj] at hbr hck
  have hl := jump_le hck hul hbr
  have hf := (C46_accepts.1.1 hck)
  refine ⟨hl.2, by omega, C46_supply_le_borrow hul, hul⟩

/-- **C252** (interest) What a market status adds to the loans since the last accrual is at most the interest at the shown
full rate for that time; and of what it adds no more goes to the reserves than the shown reserve factor says. -/
theorem C252_interest {ok : Call → Prop} (h : ReachBy c ok s) {a : Nat} {i : Info} {b : Book} (hi : marketInfo s a = .ok i)
    (hb : marketStatus c s a = .ok b) :
    (s.books a).borrows ≤ b.borrows ∧
    b.borrows ≤ (s.books a).borrows + interestUpTo i.full (s.books a).borrows (s.time - (s.books a).lastTime) ∧
    (b.reserves - (s.books a).reserves) * 10 ^ 6 ≤ (b.borrows - (s.books a).borrows) * i.rf := by
  have hrate := (C252_rates h hi hb).1
  obtain ⟨m, base, jmp, ju, hm, hj, -, -, hrf, -⟩ := marketInfo_iff.1 hi
  simp only [bind_ok_iff, pure_ok_iff, marketStatus, okOr_ok_iff, market_ok] at hb
  obtain ⟨m', hm', u, hu, br, hbr, x, hx, r, hr, rfl⟩ := hb
  rw [hm] at hm'
  cases hm'
  dsimp only at hrate ⊢
  unfold advance at hx
  split at hx
  · simp only [bind_ok_iff, pure_ok_iff, okOr_ok_iff, cadd_ok_iff] at hx
    obtain ⟨n, hn, tb, ⟨-, rfl⟩, tr, ⟨-, rfl⟩, ix, -, ix', -, rfl⟩ := hx
    dsimp only
    simp only [accruedInterest, bind, Option.bind_eq_some_iff, fixMulInt_iff, omul_iff, odiv_iff] at hn
    obtain ⟨y, ⟨-, rfl⟩, z, ⟨-, rfl⟩, -, rfl⟩ := hn
    refine ⟨Nat.le_add_left _ _, ?_, ?_⟩
    · rw [Nat.add_comm]
      refine Nat.add_le_add_left ?_ _
      unfold interestUpTo
      rw [← Nat.div_div_eq_div_mul]
      refine Nat.div_le_div_right ?_
      have hD : (10 : Nat) ^ 18 = DIV := by decide +kernel
      rw [hD, Nat.le_div_iff_mul_le (by decide +kernel)]
      calc br * (s.books a).borrows / DIV * (s.time - (s.books a).lastTime) * DIV
          = (br * (s.books a).borrows / DIV * DIV) * (s.time - (s.books a).lastTime) := by ring
        _ ≤ (br * (s.books a).borrows) * (s.time - (s.books a).lastTime) :=
            Nat.mul_le_mul_right _ (Nat.div_mul_le_self _ _)
        _ ≤ _ := Nat.mul_le_mul_right _ (Nat.mul_le_mul_right _ hrate)
    · generalize br * (s.books a).borrows / DIV * (s.time - (s.books a).lastTime) / secondsPerYear = n
      rw [Nat.add_sub_cancel, Nat.add_sub_cancel, hrf]
      unfold pmulFloor
      have := Nat.div_mul_le_self (n * m.rf) million
      simpa [million, Nat.mul_comm] using this
  · cases hx
    simp

/-- **C252** (changes) Only the calls that set parameters of the market change what is shown of it; the passing of time, prices,
and all the calls of users do not, nor do calls for other markets. -/
theorem C252_changes {ok : Call → Prop} (hs : Step c ok s s') {a : Nat} (hne : marketInfo s' a ≠ marketInfo s a) :
    ∃ k, k.sets a ∧ exec c s k = .ok s' := by
  have same : s'.markets a = s.markets a → marketInfo s' a = marketInfo s a := by
    intro h
    simp only [marketInfo, market, fullRate, h]
  cases hs with
  | env he => exact absurd (same (by rw [he.same])) hne
  | call k _ _ _ he =>
    refine ⟨k, ?_, he⟩
    by_contra hk
    by_cases hm : k.isMarket
    · cases k with
      | addMarket b m =>
        obtain ⟨_, _, _, _, _, _, _, _, _, _, rfl⟩ := addMarket_view he
        exact hne (same (upd_of_ne _ _ (fun e => hk e.symm)))
      | activate b =>
        obtain ⟨m, hb, rfl⟩ := mutateMarket_view he
        by_cases e : a = b
        · subst e
          apply hne
          simp only [marketInfo, market, fullRate, upd_same, hb]
          rfl
        · exact hne (same (upd_of_ne _ _ e))
      | updateModel b rm =>
        simp only [exec, updateModel, bind_ok_iff, ensure_ok_iff, exists_const] at he
        obtain ⟨m, hb, rfl⟩ := mutateMarket_view he.2
        exact hne (same (upd_of_ne _ _ (fun e => hk e.symm)))
      | updateMarket b p =>
        obtain ⟨m, hb, _, _, _, _, _, rfl⟩ := updateMarket_view he
        exact hne (same (upd_of_ne _ _ (fun e => hk e.symm)))
      | forceUpdate b m =>
        obtain ⟨m0, hb, _, _, rfl⟩ := forceUpdate_view he
        exact hne (same (upd_of_ne _ _ (fun e => hk e.symm)))
      | _ => exact hm.elim
    · exact hne (same (by rw [(exec_meta hm he).1]))

/-- A year after the loan of user 8: the shown rate is below the full rate of 32%, and so is the interest. -/
example : okAnd (marketInfo ex1 1) (fun i => okAnd (marketStatus exC ex1 1) (fun b =>
    decide (i = ⟨500000, 550000, 150000, 500000, 320000000000000000⟩ ∧ 0 < b.borrowRate ∧
      (ex1.books 1).borrows < b.borrows ∧ b.borrows ≤ (ex1.books 1).borrows + interestUpTo i.full (ex1.books 1).borrows 31536000))) = true := by
  decide +kernel

end Verif.Loans
