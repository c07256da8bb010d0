import Verif.Amm.Props5

/-!
# C208: can a liquidity provider always leave a pool?

A holder of LP tokens expects that `remove_liquidity` gives her share back, whenever she asks, whatever the
governance has done with the protocol fee.  That is false: with a protocol fee above one half, the reciprocal of the
fee, rounded down, minus one is zero, and the fee of a pool that remembers no reserves is a division by zero, so that
every deposit into and every withdrawal from that pool fails.  With a fee of at most one half, or none, every holder
can always leave.
-/

set_option linter.unusedSimpArgs false

namespace Verif.Amm
open Verif

/-- The full claim: in every reachable state whoever owns LP tokens of a pool can redeem any part of them. -/
def C208_statement (c : Cfg) : Prop := ∀ s who a b lp liq, Reach c s → who ≠ c.acct → who ≠ c.lock →
  lpOf s a b = some lp → liq ≤ s.ledger.bal lp who → ∃ s', removeLiquidity c s who (a, b) liq = .ok s'

/-- A protocol fee of at most one half can always be computed, and is at most the whole supply. -/
theorem protocolFees_succeeds {s : State} {p : Pool} (h0 : s.fee ≠ 0) (hf : s.fee ≤ 500000)
    (hi : s.ledger.iss p.lp ≤ maxU128) : ∃ f, protocolFees s p = .ok f ∧ f ≤ s.ledger.iss p.lp := by
  unfold protocolFees
  dsimp only
  generalize Nat.sqrt (p.base * p.quote) = r
  generalize Nat.sqrt (p.baseLast * p.quoteLast) = rl
  by_cases hle : r ≤ rl
  · exact ⟨0, if_pos hle, Nat.zero_le _⟩
  · rw [if_neg hle]
    have h2 : 2 ≤ million / s.fee := by
      rw [Nat.le_div_iff_mul_le (Nat.pos_of_ne_zero h0)]
      exact (Nat.mul_le_mul_left 2 hf).trans (by decide)
    have hm : million / s.fee ≤ maxU128 := (Nat.div_le_self _ _).trans (by decide)
    generalize hq : million / s.fee = q at h2 hm
    have hden : r - rl ≤ r * (q - 1) + rl := by
      have : r * 1 ≤ r * (q - 1) := Nat.mul_le_mul_left r (by omega)
      omega
    have hbound : (r - rl) * s.ledger.iss p.lp / (r * (q - 1) + rl) ≤ s.ledger.iss p.lp := by
      apply Nat.div_le_of_le_mul
      exact Nat.mul_le_mul_right _ hden
    refine ⟨_, ?_, hbound⟩
    simp only [bind_ok_iff, precipFloor_ok_iff, csub_ok_iff, cdiv_ok_iff, toU128_ok_iff, Nat.one_mul]
    exact ⟨q, ⟨h0, by rw [hq, Nat.min_eq_right hm]⟩, q - 1, ⟨by omega, rfl⟩, _, ⟨by omega, rfl⟩,
      hbound.trans hi, rfl⟩

/-- Collecting the protocol fee cannot fail if the fee is off, or at most one half with room for the LP tokens. -/
theorem mintProtocolFee_succeeds {s : State} {p : Pool} (hw : s.ledger.WF)
    (hfee : feeOn s = true → s.fee ≤ 500000 ∧ 2 * s.ledger.iss p.lp ≤ maxU128) :
    ∃ s' p', mintProtocolFee s p = .ok (s', p') := by
  unfold mintProtocolFee
  cases hon : feeOn s with
  | false =>
    simp only [Bool.false_eq_true, if_false]
    split_ifs
    · exact ⟨_, _, rfl⟩
    · exact ⟨_, _, rfl⟩
  | true =>
    obtain ⟨h1, h2⟩ := hfee hon
    have h0 : s.fee ≠ 0 ∧ s.feeTo.isSome := by
      unfold feeOn at hon; simpa using hon
    obtain ⟨f, hf, hle⟩ := protocolFees_succeeds h0.1 h1 (p := p) (hw p.lp).2
    obtain ⟨rcv, hr⟩ := Option.isSome_iff_exists.1 h0.2
    obtain ⟨l, hl⟩ := Ledger.mint_succeeds (l := s.ledger) (a := p.lp) (w := rcv) (m := f) (by omega)
    refine ⟨{ s with ledger := l }, p, ?_⟩
    simp only [if_true, bind_ok_iff, okOr_ok_iff, pure_ok_iff]
    exact ⟨f, hf, rcv, hr, l, hl, rfl⟩

theorem lpOf_key {s : State} {a b lp : Nat} (h : lpOf s a b = some lp) :
    ∃ inv kb kq p, sortAssets a b = .ok (inv, kb, kq) ∧ s.pools (kb, kq) = some p ∧ p.lp = lp ∧ kq < kb := by
  unfold lpOf at h
  split_ifs at h with h1 h2
  · rw [Option.map_eq_some_iff] at h
    obtain ⟨p, hp, e⟩ := h
    exact ⟨false, a, b, p, sortAssets_ok_iff.2 (Or.inl ⟨h1, rfl⟩), hp, e, h1⟩
  · rw [Option.map_eq_some_iff] at h
    obtain ⟨p, hp, e⟩ := h
    exact ⟨true, b, a, p, sortAssets_ok_iff.2 (Or.inr ⟨h2, rfl⟩), hp, e, h2⟩

/-- C208 (partial): with the protocol fee off, or at most one half and the pool's LP supply at most half the
largest amount, every holder of LP tokens can redeem any part of them, in every reachable state. -/
theorem C208_exit_partial {c : Cfg} (hc : c.OK) {s : State} {who a b lp liq : Nat} (hr : Reach c s)
    (h1 : who ≠ c.acct) (h2 : who ≠ c.lock) (hlp : lpOf s a b = some lp) (hliq : liq ≤ s.ledger.bal lp who)
    (hfee : feeOn s = true → s.fee ≤ 500000 ∧ 2 * s.ledger.iss lp ≤ maxU128) :
    ∃ s', removeLiquidity c s who (a, b) liq = .ok s' := by
  obtain ⟨inv, kb, kq, p, hsort, hp, rfl, hlt⟩ := lpOf_key hlp
  have hI := hr.inv hc
  obtain ⟨hb, hq, hmin, _⟩ := hI.pool _ p hp
  obtain ⟨s1, p1, hm⟩ := mintProtocolFee_succeeds (p := p) hI.wf hfee
  obtain ⟨f1, f2, f3, f4, f5, f6, _, _⟩ := mintProtocolFee_ok hm
  have w1 := mintProtocolFee_wf hm hI.wf
  have fb := mintProtocolFee_bal hm
  have hliq1 : liq ≤ s1.ledger.bal p1.lp who := by rw [f3]; exact hliq.trans (fb _ _)
  have hiss : liq < s1.ledger.iss p1.lp := by
    have t1 := two_le_iss w1 (x := p1.lp) h2
    have t2 : c.minLiq ≤ s1.ledger.bal p1.lp c.lock := by rw [f3]; exact hmin.trans (fb _ _)
    have := hc.minLiq
    omega
  have lb : liq * p1.base / s1.ledger.iss p1.lp < p1.base := mul_div_lt_of_lt hiss (by omega)
  have lq : liq * p1.quote / s1.ledger.iss p1.lp < p1.quote := mul_div_lt_of_lt hiss (by omega)
  -- the reserves are there
  have rb : p1.base ≤ s1.ledger.bal kb c.acct := by
    have t := (hI.backed kb).apply (kb, kq)
    rw [hp] at t
    simp only [claimOf, if_true] at t
    have := fb kb c.acct
    omega
  have rq : p1.quote ≤ s1.ledger.bal kq c.acct := by
    have t := (hI.backed kq).apply (kb, kq)
    rw [hp] at t
    simp only [claimOf, if_true] at t
    have := fb kq c.acct
    omega
  have ub : p1.base ≤ maxU128 := rb.trans ((Ledger.bal_le_iss w1 _ _).trans (w1 _).2)
  have uq : p1.quote ≤ maxU128 := rq.trans ((Ledger.bal_le_iss w1 _ _).trans (w1 _).2)
  generalize hob : liq * p1.base / s1.ledger.iss p1.lp = ob at lb
  generalize hoq : liq * p1.quote / s1.ledger.iss p1.lp = oq at lq
  obtain ⟨l1, e1⟩ := Ledger.burn_succeeds hliq1
  have a1 : ∀ x, l1.bal x c.acct = s1.ledger.bal x c.acct := fun x => by
    have := Ledger.burn_bal e1 x c.acct
    simpa [show ¬ c.acct = who from fun e => h1 e.symm] using this
  obtain ⟨l2, e2⟩ := Ledger.transfer_succeeds (l := l1) (a := kb) (s := c.acct) (d := who) (m := ob)
    (k := decide (kb = c.native)) (by rw [a1]; omega) (fun _ => by rw [a1]; omega)
  have a2 : l2.bal kq c.acct = s1.ledger.bal kq c.acct := by
    have := Ledger.transfer_bal e2 kq c.acct
    simp only [show ¬ kq = kb by omega, false_and, if_false, Nat.add_zero] at this
    rw [this, a1]
  obtain ⟨l3, e3⟩ := Ledger.transfer_succeeds (l := l2) (a := kq) (s := c.acct) (d := who) (m := oq)
    (k := decide (kq = c.native)) (by rw [a2]; omega) (fun _ => by rw [a2]; omega)
  have hrem : ∃ s2 p2, doRemove c s1 who p1 liq kb kq = .ok (s2, p2) := by
    have : ∃ r, doRemove c s1 who p1 liq kb kq = .ok r := by
      unfold doRemove
      simp only [reservesToRemove, bind_ok_iff, Prod.exists, cdiv_ok_iff, toU128_ok_iff, csub_ok_iff, pure_ok_iff]
      exact ⟨_, _, ob, oq, ⟨ob, ⟨by omega, hob.symm⟩, ob, ⟨by omega, rfl⟩, oq, ⟨by omega, hoq.symm⟩, oq, ⟨by omega, rfl⟩,
        rfl⟩, _, ⟨lb.le, rfl⟩, _, ⟨lq.le, rfl⟩, l1, e1, l2, e2, l3, e3, rfl⟩
    obtain ⟨⟨s2, p2⟩, h⟩ := this
    exact ⟨s2, p2, h⟩
  obtain ⟨s2, p2, hrem⟩ := hrem
  refine ⟨{ s2 with pools := upd s2.pools (kb, kq) (some p2) }, ?_⟩
  unfold removeLiquidity
  simp only [bind_ok_iff, Prod.exists, okOr_ok_iff, pure_ok_iff]
  exact ⟨inv, kb, kq, hsort, p, hp, s1, p1, hm, s2, p2, hrem, rfl⟩

/-! ### The blocked pool -/

/-- A protocol fee above one half is being charged. -/
def FeeTooHigh (s : State) : Prop := 500000 < s.fee ∧ s.fee ≤ million ∧ s.feeTo.isSome

/-- The pool of the pair remembers no reserves: it has had no deposit or withdrawal since the fee was switched on. -/
def Fresh (s : State) (a b : Nat) : Prop := lastView s a b = some (0, 0)

/-- With a fee above one half the fee of a pool that remembers no reserves cannot be computed. -/
theorem protocolFees_div_zero {s : State} {p : Pool} (hf : FeeTooHigh s) (hl : p.baseLast = 0) (hb : 0 < p.base)
    (hq : 0 < p.quote) : ∃ e, protocolFees s p = .error e := by
  cases h : protocolFees s p with
  | error e => exact ⟨e, rfl⟩
  | ok f =>
    exfalso
    unfold protocolFees at h
    dsimp only at h
    have hr : 0 < Nat.sqrt (p.base * p.quote) := Nat.sqrt_pos.2 (Nat.mul_pos hb hq)
    have hz : Nat.sqrt (p.baseLast * p.quoteLast) = 0 := by rw [hl, Nat.zero_mul]; rfl
    rw [hz, if_neg (by omega)] at h
    simp only [bind_ok_iff, precipFloor_ok_iff, csub_ok_iff, cdiv_ok_iff, toU128_ok_iff, Nat.one_mul] at h
    obtain ⟨q, ⟨h0, rfl⟩, sc, ⟨_, rfl⟩, g, ⟨hd, _⟩, _⟩ := h
    apply hd
    have h1 : million / s.fee ≤ 1 := by
      have : million / s.fee < 2 := by
        rw [Nat.div_lt_iff_lt_mul (Nat.pos_of_ne_zero h0)]
        exact lt_of_lt_of_le (by decide : million < 2 * 500001) (Nat.mul_le_mul_left 2 hf.1)
      omega
    have : min maxU128 (million / s.fee) - 1 = 0 := by omega
    rw [this, Nat.mul_zero]

theorem mintProtocolFee_blocked {s : State} {p : Pool} (hf : FeeTooHigh s) (hl : p.baseLast = 0) (hb : 0 < p.base)
    (hq : 0 < p.quote) {r : State × Pool} : mintProtocolFee s p ≠ .ok r := by
  obtain ⟨e, he⟩ := protocolFees_div_zero hf hl hb hq
  have hon : feeOn s = true := by
    unfold feeOn
    have := hf.1
    simp only [hf.2.2, Bool.and_true, decide_eq_true_eq]
    omega
  unfold mintProtocolFee
  rw [if_pos hon, he]
  exact fun h => by cases h

theorem fresh_key {s : State} {a b : Nat} (h : Fresh s a b) :
    ∃ k p, (k = (a, b) ∨ k = (b, a)) ∧ k.2 < k.1 ∧ s.pools k = some p ∧ p.baseLast = 0 ∧ p.quoteLast = 0 := by
  unfold Fresh lastView at h
  split_ifs at h with h1 h2
  · simp only [Option.map_eq_some_iff, Prod.mk.injEq] at h
    obtain ⟨p, hp, e1, e2⟩ := h
    exact ⟨_, p, Or.inl rfl, h1, hp, e1, e2⟩
  · simp only [Option.map_eq_some_iff, Prod.mk.injEq] at h
    obtain ⟨p, hp, e1, e2⟩ := h
    exact ⟨_, p, Or.inr rfl, h2, hp, e2, e1⟩

/-- C208: while a protocol fee above one half is charged, nobody can withdraw from or deposit into a pool that has had
no deposit or withdrawal since the fee was switched on: not with any amount. -/
theorem C208_blocked {c : Cfg} (hc : c.OK) {s : State} {a b : Nat} (hr : Reach c s) (hf : FeeTooHigh s)
    (hfr : Fresh s a b) (who liq : Nat) (d m : Nat × Nat) (s' : State) :
    removeLiquidity c s who (a, b) liq ≠ .ok s' ∧ addLiquidity c s who (a, b) d m ≠ .ok s' := by
  obtain ⟨k, p, hk, hlt, hp, l1, l2⟩ := fresh_key hfr
  obtain ⟨hb, hq, _, _⟩ := (hr.inv hc).pool k p hp
  have hkey : ∀ kb kq, (((a, b) : Nat × Nat).2 < (a, b).1 ∧ kb = (a, b).1 ∧ kq = (a, b).2) ∨
      (((a, b) : Nat × Nat).1 < (a, b).2 ∧ kb = (a, b).2 ∧ kq = (a, b).1) → (kb, kq) = k := by
    rintro kb kq (⟨h1, rfl, rfl⟩ | ⟨h1, rfl, rfl⟩) <;> rcases hk with rfl | rfl <;> first | rfl | (simp only at *; omega)
  constructor
  · intro h
    obtain ⟨kb, kq, q, s1, p1, _, _, hpair, hq0, hfee, _⟩ := removeLiquidity_ok h
    rw [hkey kb kq hpair] at hq0
    obtain rfl : p = q := Option.some.inj (hp.symm.trans hq0)
    exact mintProtocolFee_blocked hf l1 hb hq hfee
  · intro h
    obtain ⟨kb, kq, q, ib, iq, s1, p1, _, _, _, _, _, _, hpair, hq0, _, _, _, _, _, hfee, _⟩ := addLiquidity_ok h
    have hpair' : (((a, b) : Nat × Nat).2 < (a, b).1 ∧ kb = (a, b).1 ∧ kq = (a, b).2) ∨
      (((a, b) : Nat × Nat).1 < (a, b).2 ∧ kb = (a, b).2 ∧ kq = (a, b).1) := by
      rcases hpair with ⟨h1, h2, h3, _⟩ | ⟨h1, h2, h3, _⟩
      · exact Or.inl ⟨h1, h2, h3⟩
      · exact Or.inr ⟨h1, h2, h3⟩
    rw [hkey kb kq hpair'] at hq0
    obtain rfl : p = q := Option.some.inj (hp.symm.trans hq0)
    exact mintProtocolFee_blocked hf l1 hb hq hfee

/-- A history during which the governance keeps the protocol fee above one half. -/
inductive WhileTooHigh (c : Cfg) : State → State → Prop
  | refl {s : State} (h : FeeTooHigh s) : WhileTooHigh c s s
  | tail {s s1 s2 : State} (h : WhileTooHigh c s s1) (hs : Step c s1 s2) (hf : FeeTooHigh s2) : WhileTooHigh c s s2

theorem WhileTooHigh.reach {c : Cfg} {s s' : State} (h : WhileTooHigh c s s') (hr : Reach c s) :
    Reach c s' ∧ FeeTooHigh s' := by
  induction h with
  | refl hf => exact ⟨hr, hf⟩
  | tail _ hs hf ih => exact ⟨.step ih.1 hs, hf⟩

/-- No call of such a history makes the pool remember anything. -/
theorem step_keeps_fresh {c : Cfg} (hc : c.OK) {s s' : State} {a b : Nat} (hr : Reach c s) (hf : FeeTooHigh s)
    (hfr : Fresh s a b) (hs : Step c s s') : Fresh s' a b := by
  cases hs with
  | env e => unfold Fresh lastView at *; rw [e.pools]; exact hfr
  | call call hk h =>
    obtain ⟨k, p, hkk, hlt, hp, l1, l2⟩ := fresh_key hfr
    obtain ⟨hb, hq, _, _⟩ := (hr.inv hc).pool k p hp
    -- it is enough that the stored pool remembers nothing
    have goal : ∀ p', s'.pools k = some p' → p'.baseLast = 0 → p'.quoteLast = 0 → Fresh s' a b := by
      intro p' e e1 e2
      rcases hkk with rfl | rfl
      · simp only at hlt; unfold Fresh lastView; rw [if_pos hlt, e]; simp [e1, e2]
      · simp only at hlt; unfold Fresh lastView; rw [if_neg (by omega), if_pos hlt, e]; simp [e1, e2]
    have other : ∀ k' q', s'.pools = upd s.pools k' (some q') → k ≠ k' → Fresh s' a b := by
      intro k' q' e hne
      exact goal p (by rw [e, upd_of_ne _ _ hne, hp]) l1 l2
    cases call with
    | add who pair d m =>
      obtain ⟨kb, kq, q0, ib, iq, s1, p1, s2, p2, _, _, _, _, hpair, hq0, _, _, _, _, _, hfee, hadd, rfl⟩ :=
        addLiquidity_ok h
      obtain ⟨_, _, _, _, _, f6, _, _⟩ := mintProtocolFee_ok hfee
      obtain ⟨_, _, _, _, _, _, _, _, _, rfl, _⟩ := doAdd_ok hadd
      refine other (kb, kq) p2 (by simp [f6]) ?_
      rintro rfl
      obtain rfl : p = q0 := Option.some.inj (hp.symm.trans hq0)
      exact mintProtocolFee_blocked hf l1 hb hq hfee
    | remove who pair liq =>
      obtain ⟨kb, kq, q0, s1, p1, s2, p2, hpair, hq0, hfee, hrem, rfl⟩ := removeLiquidity_ok h
      obtain ⟨_, _, _, _, _, f6, _, _⟩ := mintProtocolFee_ok hfee
      obtain ⟨_, _, _, _, _, _, _, _, _, _, _, rfl, _⟩ := doRemove_ok hrem
      refine other (kb, kq) p2 (by simp [f6]) ?_
      rintro rfl
      obtain rfl : p = q0 := Option.some.inj (hp.symm.trans hq0)
      exact mintProtocolFee_blocked hf l1 hb hq hfee
    | create pair am rcv lp =>
      obtain ⟨kb, kq, ba, qa, s2, p2, hpair, hnone, hiss, hadd, rfl⟩ := createPool_ok h
      obtain ⟨_, _, _, _, _, _, _, _, _, rfl, _⟩ := doAdd_ok hadd
      refine other (kb, kq) p2 rfl ?_
      rintro rfl
      rw [hp] at hnone; cases hnone
    | setFee f =>
      simp only [exec, updateFee, bind_ok_iff, ensure_ok_iff, pure_ok_iff] at h
      obtain ⟨_, _, rfl⟩ := h
      exact goal p hp l1 l2
    | setFeeTo f =>
      simp only [exec, updateFeeTo, Except.ok.injEq] at h
      subst h
      exact goal p hp l1 l2
    | swap who x y n =>
      simp only [exec, bind_ok_iff, Prod.exists, pure_ok_iff] at h
      obtain ⟨s1, z, hsw, rfl⟩ := h
      obtain ⟨k', q, q', _, _, _, _, _, hq', rfl, _, _, e1, e2, _⟩ := doSwap_ok hsw
      by_cases e : k = k'
      · subst e
        obtain rfl : p = q := Option.some.inj (hp.symm.trans hq')
        exact goal q' (by simp) (by rw [e1, l1]) (by rw [e2, l2])
      · exact other k' q' rfl e

/-- C208: and this lasts: however long the fee stays above one half, whatever else happens, nobody gets anything out of
that pool's reserves except by trading. -/
theorem C208_blocked_forever {c : Cfg} (hc : c.OK) {s t : State} {a b : Nat} (hr : Reach c s) (hfr : Fresh s a b)
    (hw : WhileTooHigh c s t) (who liq : Nat) (d m : Nat × Nat) (t' : State) :
    removeLiquidity c t who (a, b) liq ≠ .ok t' ∧ addLiquidity c t who (a, b) d m ≠ .ok t' := by
  have hfresh : Fresh t a b := by
    induction hw with
    | refl hf => exact hfr
    | tail h hs hf ih => exact step_keeps_fresh hc (h.reach hr).1 (h.reach hr).2 ih hs
  exact C208_blocked hc (hw.reach hr).1 (hw.reach hr).2 hfresh who liq d m t'

/-! ### A reachable blocked pool -/

/-- The example pool after the governance has set a protocol fee of 60 % and a receiver. -/
def exHigh : State := { ex1 with fee := 600000, feeTo := some 9 }
theorem exHigh_reach : Reach exCfg exHigh := by
  have h1 : Reach exCfg { ex1 with fee := 600000 } := .step ex1_reach (.call (.setFee 600000) trivial rfl)
  exact .step h1 (.call (.setFeeTo 9) trivial rfl)
theorem exHigh_tooHigh : FeeTooHigh exHigh := ⟨by decide, by decide, rfl⟩
theorem exHigh_fresh : Fresh exHigh 1 2 := by unfold Fresh; decide +kernel

/-- C208 is FALSE: account 7 owns LP tokens of a reachable pool and cannot redeem a single one. -/
theorem C208_refuted : ¬ C208_statement exCfg := by
  intro h
  obtain ⟨s', hs⟩ := h exHigh 7 1 2 50 1 exHigh_reach (by decide) (by decide) (by decide +kernel) (by decide +kernel)
  exact (C208_blocked exCfg_ok exHigh_reach exHigh_tooHigh exHigh_fresh 7 1 (0, 0) (0, 0) s').1 hs

/-- Non-vacuity: account 7 owns 9990 LP tokens and can redeem them all when no fee is charged, and also with a fee
of 50 %. -/
example : (∃ s', removeLiquidity exCfg ex1 7 (1, 2) 9990 = .ok s') ∧
    ∃ s', removeLiquidity exCfg { exHigh with fee := 500000 } 7 (1, 2) 9990 = .ok s' := by
  constructor
  · refine C208_exit_partial exCfg_ok ex1_reach (lp := 50) (by decide) (by decide) (by decide +kernel)
      (by decide +kernel) (fun e => ?_)
    have : feeOn ex1 = false := by decide +kernel
    rw [this] at e; cases e
  · refine C208_exit_partial exCfg_ok (s := { exHigh with fee := 500000 }) ?_ (lp := 50) (by decide) (by decide)
      (by decide +kernel) (by decide +kernel) (fun _ => ⟨Nat.le_refl _, by decide +kernel⟩)
    exact .step exHigh_reach (.call (.setFee 500000) trivial rfl)

/-- Non-vacuity of the lasting blockade: a trade happens meanwhile. -/
example : ∃ t, WhileTooHigh exCfg exHigh t ∧ t.ledger.bal 1 7 < exHigh.ledger.bal 1 7 := by
  have hd : okAnd (exec exCfg exHigh (.swap 7 1 2 1000)) (fun t => decide (t.ledger.bal 1 7 < exHigh.ledger.bal 1 7)
      && decide (t.fee = 600000) && t.feeTo.isSome) = true := by decide +kernel
  cases h : exec exCfg exHigh (.swap 7 1 2 1000) with
  | error e => rw [h] at hd; cases hd
  | ok t =>
    rw [h] at hd
    simp only [okAnd, Bool.and_eq_true, decide_eq_true_eq] at hd
    exact ⟨t, .tail (.refl exHigh_tooHigh) (.call (.swap 7 1 2 1000) ⟨by decide, by decide⟩ h)
      ⟨by omega, by rw [hd.1.2]; decide, hd.2⟩,
      hd.1.1⟩

end Verif.Amm
