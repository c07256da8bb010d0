import Verif.Staking.Props3

/-!
# Liquid staking: which stakes, unstakes and claims are accepted (C212)
-/

set_option linter.unusedSimpArgs false
set_option linter.unusedVariables false

namespace Verif.Staking
open Verif
variable {c : Cfg} {s s' : State} {P : State → Call → Prop}

/-- What is left of a stake of `m` after the XCM fee and the reserve share. -/
def netStake (c : Cfg) (s : State) (m : Nat) : Nat := m - c.xcmFees - m * s.rf / 1000000
/-- The liquid tokens for `n` staking tokens at the current rate: by the reciprocal of the rate, rounded down. -/
def liquidFor (s : State) (n : Nat) : Nat := DIV * DIV / s.rate * n / DIV
/-- The staking tokens that unstaking `q` liquid tokens promises: the share of the reserves is kept back, the rest is
converted at the current rate, rounded down. -/
def unstakeValue (s : State) (q : Nat) : Nat := s.rate * (q - q * s.urf / 1000000) / DIV

theorem recip_le {r n : Nat} (hr : DIV ≤ r) : DIV * DIV / r ≤ DIV ∧ DIV * DIV / r * n / DIV ≤ n := by
  have h1 : DIV * DIV / r ≤ DIV := Nat.div_le_of_le_mul (Nat.mul_le_mul_right _ hr)
  refine ⟨h1, ?_⟩
  calc DIV * DIV / r * n / DIV ≤ DIV * n / DIV := Nat.div_le_div_right (Nat.mul_le_mul_right _ h1)
    _ = n := Nat.mul_div_cancel_left _ DIV_pos

/-- **C212, stake.** With a rate of at least 1, a stake is accepted exactly if it reaches the minimum, covers the fees,
is owned, fits under the market cap together with everything bonded, and the supply of liquid tokens stays representable. -/
theorem C212_stake_iff (hc : c.Ok) (h : ReachP c P s) (hrate : DIV ≤ s.rate) {w m : Nat} (hw : w ≠ c.acct)
    (hx : w ≠ c.xcmAcct) :
    (∃ s', exec c s (.stake w m) = .ok s') ↔
      c.minStake ≤ m ∧ c.xcmFees + m * s.rf / 1000000 ≤ m ∧ m ≤ s.tok.bal c.staking w ∧
      min (2 ^ 128 - 1) ((c.indices.map (totalOf s)).sum + netStake c s m) ≤ s.cap * c.indices.length ∧
      s.tok.iss c.liquid + liquidFor s (netStake c s m) ≤ 2 ^ 128 - 1 := by
  have hi := h.inv hc
  have h1 : totalBonded c s = min maxU128 ((c.indices.map (totalOf s)).sum) := satSum_eq _ _
  have h4 : pmulFloor s.rf m = m * s.rf / 1000000 := rfl
  have hmax : maxU128 = 2 ^ 128 - 1 := by decide
  constructor
  · rintro ⟨s', e⟩
    obtain ⟨l1, l2, l3, q, hmin, hle, e1, e2, hq, hcap, e3, _⟩ := stake_view e
    obtain ⟨_, _, _, rfl⟩ := toLiquid_ok.1 hq
    have b1 := Ledger.transfer_bal e1 c.staking w
    have t1 := Ledger.transfer_le e1
    have t2 := Ledger.transfer_le e2
    simp [hw] at b1
    have hm := Ledger.mint_iss e3 c.liquid
    rw [if_pos rfl, Ledger.transfer_iss e2, Ledger.transfer_iss e1] at hm
    have hfit : l3.iss c.liquid ≤ maxU128 := by
      have hwf := Ledger.mint_wf e3 (Ledger.transfer_wf e2 (Ledger.transfer_wf e1 hi.wf))
      exact (hwf c.liquid).2
    rw [h4] at hle
    rw [h1] at hcap
    unfold satAdd marketCap at hcap
    rw [h4] at hcap
    refine ⟨hmin, hle, by omega, ?_, ?_⟩
    · unfold netStake
      rw [← hmax]
      generalize s.cap * c.indices.length = z at *
      generalize m * s.rf / 1000000 = r at *
      omega
    · rw [← hmax]
      unfold netStake liquidFor
      rw [← h4]
      have : s.tok = s.lo.ledger := rfl
      omega
  · rintro ⟨hmin, hle, hbal, hcap, hfit⟩
    rw [← hmax] at hcap hfit
    obtain ⟨l1, e1⟩ := Ledger.transfer_succeeds (l := s.tok) (a := c.staking) (s := w) (d := c.acct) (m := m - c.xcmFees)
      (k := false) (by omega) (by simp)
    have b1 := Ledger.transfer_bal e1 c.staking w
    have a1 := Ledger.transfer_bal e1 c.staking c.acct
    simp [hw] at b1
    simp [hw.symm] at a1
    obtain ⟨l2, e2⟩ := Ledger.transfer_succeeds (l := l1) (a := c.staking) (s := w) (d := c.xcmAcct) (m := c.xcmFees)
      (k := false) (by omega) (by simp)
    have i2 : l2.iss = s.tok.iss := by rw [Ledger.transfer_iss e2, Ledger.transfer_iss e1]
    have hr := recip_le (n := netStake c s m) hrate
    have hD : DIV ≤ maxU128 := by decide
    have hq : toLiquid s.rate (netStake c s m) = .ok (liquidFor s (netStake c s m)) :=
      toLiquid_ok.2 ⟨by have := DIV_pos; omega, hr.1.trans hD, by
        show liquidFor s (netStake c s m) ≤ maxU128
        omega, rfl⟩
    obtain ⟨l3, e3⟩ := Ledger.mint_succeeds (l := l2) (a := c.liquid) (w := w) (m := liquidFor s (netStake c s m))
      (by rw [i2]; exact hfit)
    -- the pool total and the reserves are covered by the tokens of the pallet
    have hs := hi.solv
    have w1 := Ledger.transfer_wf e1 hi.wf
    have hb := Ledger.bal_le_iss w1 c.staking c.acct
    have hb2 := (w1 c.staking).2
    have hheld : held c s = s.tok.bal c.staking c.acct := rfl
    show ∃ s', stake c s w m = .ok s'
    unfold stake
    have hnet : m - c.xcmFees - pmulFloor s.rf m = netStake c s m := rfl
    have hnle : netStake c s m ≤ m - c.xcmFees := Nat.sub_le _ _
    have hnr : netStake c s m + m * s.rf / 1000000 ≤ m - c.xcmFees := by unfold netStake; omega
    rw [ensure_of hmin, ok_bind, csub_ok_iff.2 ⟨by omega, rfl⟩, ok_bind, e1, ok_bind, e2, ok_bind,
      csub_ok_iff.2 ⟨by rw [h4]; omega, rfl⟩, ok_bind, hnet, hq, ok_bind]
    have hcap' : ensureMarketCap c s (netStake c s m) = .ok () := by
      unfold ensureMarketCap
      refine ensure_of ?_
      rw [h1]
      unfold satAdd marketCap
      generalize s.cap * c.indices.length = z at *
      omega
    have hadd : s.pool.stake.add (netStake c s m) = .ok ⟨s.pool.stake.total + netStake c s m, s.pool.stake.reserved⟩ := by
      unfold Half.add
      rw [cadd_ok_iff.2 ⟨by omega, rfl⟩]; rfl
    rw [hcap', ok_bind, e3, ok_bind, hadd, ok_bind, h4, cadd_ok_iff.2 ⟨by omega, rfl⟩, ok_bind]
    exact ⟨_, rfl⟩

/-- **C212, unstake.** Unstaking through the relay chain is accepted exactly if it reaches the minimum, the tokens are owned,
the list of pending chunks has room (fewer than 32, or the last chunk is of the same era), and the numbers are
representable. -/
theorem C212_unstake_iff (hc : c.Ok) (h : ReachP c P s) {w q : Nat} :
    (∃ s', exec c s (.unstake w q .relay) = .ok s') ↔
      c.minUnstake ≤ q ∧ q ≤ s.tok.bal c.liquid w ∧
      (((s.unlockings w).getD []).length < 32 ∨
        (((s.unlockings w).getD []).length = 32 ∧
          (((s.unlockings w).getD []).getLast?).map (fun ch => ch.era) = some (s.era + c.bonding + 1))) ∧
      s.ureserves + q * s.urf / 1000000 ≤ 2 ^ 128 - 1 ∧ s.era + c.bonding + 1 ≤ 2 ^ 32 - 1 ∧
      unstakeValue s q ≤ 2 ^ 128 - 1 ∧ s.pool.unstake.total + unstakeValue s q ≤ 2 ^ 128 - 1 := by
  have hi := h.inv hc
  have h4 : pmulFloor s.urf q = q * s.urf / 1000000 := rfl
  have hmax : maxU128 = 2 ^ 128 - 1 := by decide
  have hm32 : maxU32 = 2 ^ 32 - 1 := by decide
  have hle : q * s.urf / 1000000 ≤ q := by
    have hu : s.urf ≤ 1000000 := hi.urf
    calc q * s.urf / 1000000 ≤ q * 1000000 / 1000000 := Nat.div_le_div_right (Nat.mul_le_mul_left _ hu)
      _ = q := Nat.mul_div_cancel _ (by decide)
  have hroom : ∀ (xs : List Chunk) (v e : Nat), (pushChunk xs v e).length ≤ 32 ↔
      (xs.length < 32 ∨ (xs.length = 32 ∧ (xs.getLast?).map (fun ch => ch.era) = some e)) := by
    intro xs v e
    unfold pushChunk
    cases hl : xs.getLast? with
    | none =>
      have := List.getLast?_eq_none_iff.1 hl
      subst this; simp
    | some ch =>
      have hne : xs ≠ [] := by rintro rfl; simp at hl
      have hpos : 0 < xs.length := List.length_pos_iff.2 hne
      by_cases he : ch.era = e
      · simp only [he, if_true, List.length_append, List.length_dropLast, List.length_cons, List.length_nil,
          Option.map_some, and_true]
        omega
      · simp only [he, if_false, List.length_append, List.length_cons, List.length_nil, Option.map_some,
          Option.some.injEq, and_false, or_false]
        omega
  rw [← hmax, ← hm32]
  constructor
  · rintro ⟨s', e⟩
    obtain ⟨hmin, _, hres, ⟨hp, _⟩ | ⟨_, e⟩⟩ := unstake_view e
    · cases hp
    · have e' := e
      simp only [unstakeSlow, targetEra, bind_ok_iff, toStaking_ok, eraAdd_ok_iff, ensure_ok_iff, exists_const,
        pure_ok_iff, Half.add, cadd_ok_iff] at e'
      obtain ⟨_, ⟨hv, rfl⟩, _, ⟨_, ⟨_, rfl⟩, he, rfl⟩, hlen, l1, hb, l2, hmn, s1, hs1, _, ⟨_, ⟨ht, rfl⟩, rfl⟩, _⟩ := e'
      have hkey : unlockKey c w .relay = w := rfl
      rw [hkey] at hlen
      have hs1' : s1.pool = s.pool := by
        unfold viaLoans at hs1
        rw [if_neg (by decide)] at hs1
        cases hs1; rfl
      rw [hs1'] at ht
      exact ⟨hmin, Ledger.burn_le hb, (hroom _ _ _).1 hlen, hres, he, hv, ht⟩
  · rintro ⟨hmin, hbal, hrm, hres, he, hv, ht⟩
    obtain ⟨l1, hb⟩ := Ledger.burn_succeeds (l := s.tok) (a := c.liquid) (w := w) (m := q) hbal
    have ib := Ledger.burn_iss hb c.liquid
    rw [if_pos rfl] at ib
    have hiss := (hi.wf c.liquid).2
    obtain ⟨l2, hmn⟩ := Ledger.mint_succeeds (l := l1) (a := c.liquid) (w := c.acct) (m := q * s.urf / 1000000) (by omega)
    show ∃ s', unstake c s w q .relay = .ok s'
    unfold unstake
    rw [ensure_of hmin, ok_bind, h4, cadd_ok_iff.2 ⟨hres, rfl⟩, ok_bind, csub_ok_iff.2 ⟨hle, rfl⟩, ok_bind,
      if_neg (by decide)]
    simp only [unstakeSlow, targetEra, bind_ok_iff, toStaking_ok, eraAdd_ok_iff, ensure_ok_iff, exists_const,
      pure_ok_iff, Half.add, cadd_ok_iff, viaLoans, reduceCtorEq, if_false, Except.ok.injEq, exists_eq_left']
    exact ⟨_, _, ⟨hv, rfl⟩, _, ⟨_, ⟨by omega, rfl⟩, he, rfl⟩, (hroom _ _ _).2 hrm, l1, hb, l2, hmn, _,
      ⟨_, ⟨ht, rfl⟩, rfl⟩, rfl⟩

/-- **C212, claim.** For everybody but the lending pallet a claim is accepted exactly if something is due and the pallet holds
the due amount beyond the reserves and the pooled stake. -/
theorem C212_claim_iff (hc : c.Ok) (h : ReachP c P s) {w : Nat} (hw : w ≠ c.lo.acct) :
    (∃ s', exec c s (.claimFor w) = .ok s') ↔
      0 < due s s.era w ∧ due s s.era w + s.reserves + s.pool.stake.total ≤ s.tok.bal c.staking c.acct := by
  have hi := h.inv hc
  have hs : s.reserves + s.pool.stake.total ≤ s.tok.bal c.staking c.acct := hi.solv
  constructor
  · rintro ⟨s', e⟩
    have e : claimFor c s w = .ok s' := e
    unfold claimFor at e
    simp only [bind_ok_iff, okOr_ok_iff, ensure_ok_iff, exists_const] at e
    obtain ⟨xs, hx, m, hm, h0, hu, _⟩ := e
    have hd : due s s.era w = m := by
      unfold due
      rw [hx, Option.getD_some]
      exact (sumDue_ok hm).symm
    unfold unclaimed at hu
    rw [reducible_false] at hu
    rw [hd]
    omega
  · rintro ⟨h0, hb⟩
    exact C69_claim_succeeds hc h hw (by omega) hb

/-- The hypotheses and both sides of the three theorems in the running example: user 7 stakes and unstakes; a stake of more
than it owns, a tiny one and a claim of nothing are refused. -/
example : Reach exC ex2 ∧ DIV ≤ ex2.rate ∧ (7 : Nat) ≠ exC.acct ∧ (7 : Nat) ≠ exC.xcmAcct ∧ (7 : Nat) ≠ exC.lo.acct ∧
    okAnd (exec exC (run exC ex2 [.setCap 100000]) (.stake 7 500)) (fun _ => true) = true ∧
    okAnd (exec exC ex2 (.unstake 7 500 .relay)) (fun _ => true) = true ∧
    okAnd (exec exC ex2 (.unstake 7 49 .relay)) (fun _ => true) = false ∧
    okAnd (exec exC ex2 (.claimFor 7)) (fun _ => true) = false :=
  ⟨ex2_reach, by decide +kernel⟩

end Verif.Staking
