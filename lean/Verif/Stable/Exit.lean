import Verif.Stable.Props3

/-!
# C209: can a liquidity provider always leave a stableswap pool?

`remove_liquidity` first computes the protocol fee from the curve invariants of the present and of the remembered
reserves, and unwraps the results.  The Newton iteration behind the invariant divides with rounding in the middle of
its formula; for lopsided reserves (from a factor of about a hundred thousand, which two assets with 12 and 6 decimals
have from the start) it then runs in a circle and gives up after 255 rounds.  On such a pool every deposit and every
withdrawal panics.
-/

set_option linter.unusedSimpArgs false

namespace Verif.Stable
open Verif
open Verif.Amm (Pool Pool.new claimOf two_le_iss mul_div_lt_of_lt)

/-- The full claim: in every reachable state whoever owns LP tokens of a pool can redeem any part of them. -/
def C209_statement (c : Cfg) : Prop := ∀ s who a b lp liq, Reach c s → who ≠ c.acct → who ≠ c.lock →
  lpOf s a b = some lp → liq ≤ s.ledger.bal lp who → ∃ s', removeLiquidity c s who (a, b) liq = .ok s'

/-- The curve invariant of the two reserves is found. -/
def Solvable (c : Cfg) (ra rb : Nat) : Prop := ∃ d, Curve c ra rb d

/-! ### When leaving works -/

theorem protocolFees_succeeds {c : Cfg} (hc : c.OK) {l : Ledger} {p : Pool} (h0 : c.fee ≠ 0) (hf : c.fee ≤ c.lpFee)
    (hi : l.iss p.lp ≤ maxU128) (hs : Solvable c p.base p.quote) (hl : Solvable c p.baseLast p.quoteLast) :
    ∃ f, protocolFees c l p = .ok f ∧ f ≤ l.iss p.lp := by
  obtain ⟨r, hr⟩ := hs
  obtain ⟨rl, hrl⟩ := hl
  unfold protocolFees delta
  unfold Curve at hr hrl
  rw [hr, hrl]
  simp only [unwrapR, ok_bind]
  by_cases hle : r ≤ rl
  · exact ⟨0, if_pos hle, Nat.zero_le _⟩
  · rw [if_neg hle]
    have hsum : 0 < c.lpFee + c.fee := by omega
    have p1 : 1 ≤ c.fee * million / (c.lpFee + c.fee) := by
      rw [Nat.le_div_iff_mul_le hsum, Nat.one_mul]
      exact hc.fee.trans (Nat.le_mul_of_pos_left _ (by omega))
    have p2 : c.fee * million / (c.lpFee + c.fee) ≤ 500000 := by
      apply Nat.div_le_of_le_mul
      calc c.fee * million = (2 * c.fee) * 500000 := by
            rw [show (million : Nat) = 2 * 500000 from rfl, ← Nat.mul_assoc, Nat.mul_comm c.fee 2]
        _ ≤ (c.lpFee + c.fee) * 500000 := Nat.mul_le_mul_right _ (by omega)
    have hfr : feeReciprocal c = precipFloor (c.fee * million / (c.lpFee + c.fee)) 1 := by
      unfold feeReciprocal feeSum
      rw [if_pos hc.fee, ok_bind, permillFromRational_small hc.fee (by omega) hsum]
    rw [hfr]
    generalize c.fee * million / (c.lpFee + c.fee) = f at p1 p2
    have h2 : 2 ≤ million / f := by
      rw [Nat.le_div_iff_mul_le (by omega)]
      exact (Nat.mul_le_mul_left 2 p2).trans (by decide)
    have hm : million / f ≤ maxU128 := (Nat.div_le_self _ _).trans (by decide)
    generalize hq : million / f = q at h2 hm
    have hden : r - rl ≤ r * (q - 1) + rl := by
      have : r * 1 ≤ r * (q - 1) := Nat.mul_le_mul_left r (by omega)
      omega
    have hbound : (r - rl) * l.iss p.lp / (r * (q - 1) + rl) ≤ l.iss p.lp := by
      apply Nat.div_le_of_le_mul
      exact Nat.mul_le_mul_right _ hden
    refine ⟨_, ?_, hbound⟩
    simp only [bind_ok_iff, precipFloor_ok_iff, csub_ok_iff, cdiv_ok_iff, toU128_ok_iff, Nat.one_mul]
    exact ⟨q, ⟨by omega, by rw [hq, Nat.min_eq_right hm]⟩, q - 1, ⟨by omega, rfl⟩, _, ⟨by omega, rfl⟩,
      hbound.trans hi, rfl⟩

theorem mintProtocolFee_succeeds {c : Cfg} (hc : c.OK) {s : State} {p : Pool} (hw : s.ledger.WF)
    (hfee : c.fee ≠ 0 → c.fee ≤ c.lpFee ∧ 2 * s.ledger.iss p.lp ≤ maxU128 ∧ Solvable c p.base p.quote ∧
      Solvable c p.baseLast p.quoteLast) :
    ∃ s' p', mintProtocolFee c s p = .ok (s', p') := by
  unfold mintProtocolFee
  cases hon : feeOn c with
  | false =>
    simp only [Bool.false_eq_true, if_false]
    split_ifs
    · exact ⟨_, _, rfl⟩
    · exact ⟨_, _, rfl⟩
  | true =>
    obtain ⟨h1, h2, h3, h4⟩ := hfee (feeOn_iff.1 hon)
    obtain ⟨f, hf, hle⟩ := protocolFees_succeeds hc (feeOn_iff.1 hon) h1 (p := p) (hw p.lp).2 h3 h4
    obtain ⟨l, hl⟩ := Ledger.mint_succeeds (l := s.ledger) (a := p.lp) (w := c.feeTo) (m := f) (by omega)
    refine ⟨{ s with ledger := l }, p, ?_⟩
    simp only [if_true, bind_ok_iff, pure_ok_iff]
    exact ⟨f, hf, l, hl, rfl⟩

/-- C209 (partial): every holder of LP tokens can redeem any part of them if there is no protocol fee; or if the
protocol's part of the fee is at most one half, the LP supply is at most half the largest amount, and the curve
invariants of the present and of the remembered reserves are found. -/
theorem C209_exit_partial {c : Cfg} (hc : c.OK) {s : State} {who a b lp liq ra rb la lb : Nat} (hab : b < a)
    (hr : Reach c s) (h1 : who ≠ c.acct) (h2 : who ≠ c.lock) (hlp : lpOf s a b = some lp)
    (hv : view s a b = some (ra, rb)) (hlast : lastView s a b = some (la, lb)) (hliq : liq ≤ s.ledger.bal lp who)
    (hfee : c.fee ≠ 0 → c.fee ≤ c.lpFee ∧ 2 * s.ledger.iss lp ≤ maxU128 ∧ Solvable c ra rb ∧ Solvable c la lb) :
    ∃ s', removeLiquidity c s who (a, b) liq = .ok s' ∧ removeLiquidity c s who (b, a) liq = .ok s' := by
  unfold lpOf at hlp
  rw [if_pos hab, Option.map_eq_some_iff] at hlp
  obtain ⟨p, hp, rfl⟩ := hlp
  unfold view at hv; unfold lastView at hlast
  rw [if_pos hab, hp] at hv hlast
  simp only [Option.map_some, Option.some.injEq, Prod.mk.injEq] at hv hlast
  obtain ⟨rfl, rfl⟩ := hv
  obtain ⟨rfl, rfl⟩ := hlast
  have hI := hr.inv hc
  obtain ⟨hmin, _⟩ := hI.pool _ p hp
  obtain ⟨s1, p1, hm⟩ := mintProtocolFee_succeeds hc (p := p) hI.wf hfee
  obtain ⟨f1, f2, f3, f6, _, _⟩ := mintProtocolFee_ok hm
  have w1 := mintProtocolFee_wf hm hI.wf
  have fb := mintProtocolFee_bal hm
  have hliq1 : liq ≤ s1.ledger.bal p1.lp who := by rw [f3]; exact hliq.trans (fb _ _)
  have hiss : liq < s1.ledger.iss p1.lp := by
    have t1 := two_le_iss w1 (x := p1.lp) h2
    have t2 : c.minLiq ≤ s1.ledger.bal p1.lp c.lock := by rw [f3]; exact hmin.trans (fb _ _)
    have := hc.minLiq
    omega
  have lb : liq * p1.base / s1.ledger.iss p1.lp ≤ p1.base :=
    Nat.div_le_of_le_mul (Nat.mul_le_mul_right _ hiss.le)
  have lq : liq * p1.quote / s1.ledger.iss p1.lp ≤ p1.quote :=
    Nat.div_le_of_le_mul (Nat.mul_le_mul_right _ hiss.le)
  have rb : p1.base ≤ s1.ledger.bal a c.acct := by
    have t := (hI.backed a).apply (a, b)
    rw [hp] at t
    simp only [claimOf, if_true] at t
    have := fb a c.acct
    omega
  have rq : p1.quote ≤ s1.ledger.bal b c.acct := by
    have t := (hI.backed b).apply (a, b)
    rw [hp] at t
    simp only [claimOf, if_true] at t
    have := fb b c.acct
    omega
  have ub : p1.base ≤ maxU128 := rb.trans ((Ledger.bal_le_iss w1 _ _).trans (w1 _).2)
  have uq : p1.quote ≤ maxU128 := rq.trans ((Ledger.bal_le_iss w1 _ _).trans (w1 _).2)
  generalize hob : liq * p1.base / s1.ledger.iss p1.lp = ob at lb
  generalize hoq : liq * p1.quote / s1.ledger.iss p1.lp = oq at lq
  obtain ⟨l1, e1⟩ := Ledger.burn_succeeds hliq1
  have a1 : ∀ x, l1.bal x c.acct = s1.ledger.bal x c.acct := fun x => by
    have := Ledger.burn_bal e1 x c.acct
    simpa [show ¬ c.acct = who from fun e => h1 e.symm] using this
  obtain ⟨l2, e2⟩ := Ledger.transfer_succeeds (l := l1) (a := a) (s := c.acct) (d := who) (m := ob)
    (k := false) (by rw [a1]; omega) (fun e => by cases e)
  have a2 : l2.bal b c.acct = s1.ledger.bal b c.acct := by
    have := Ledger.transfer_bal e2 b c.acct
    simp only [show ¬ b = a by omega, false_and, if_false, Nat.add_zero] at this
    rw [this, a1]
  obtain ⟨l3, e3⟩ := Ledger.transfer_succeeds (l := l2) (a := b) (s := c.acct) (d := who) (m := oq)
    (k := false) (by rw [a2]; omega) (fun e => by cases e)
  have hrem : ∃ r, doRemove c s1 who p1 liq a b = .ok r := by
    unfold doRemove
    simp only [reservesToRemove, bind_ok_iff, Prod.exists, cdiv_ok_iff, toU128_ok_iff, csub_ok_iff, pure_ok_iff]
    exact ⟨_, _, ob, oq, ⟨ob, ⟨by omega, hob.symm⟩, ob, ⟨by omega, rfl⟩, oq, ⟨by omega, hoq.symm⟩, oq, ⟨by omega, rfl⟩,
      rfl⟩, _, ⟨lb, rfl⟩, _, ⟨lq, rfl⟩, l1, e1, l2, e2, l3, e3, rfl⟩
  obtain ⟨⟨s2, p2⟩, hrem⟩ := hrem
  refine ⟨{ s2 with pools := upd s2.pools (a, b) (some p2) }, ?_, ?_⟩
  · unfold removeLiquidity
    simp only [bind_ok_iff, Prod.exists, okOr_ok_iff, pure_ok_iff]
    exact ⟨false, a, b, sortAssets_ok_iff.2 (Or.inl ⟨hab, rfl⟩), p, hp, s1, p1, hm, s2, p2, hrem, rfl⟩
  · unfold removeLiquidity
    simp only [bind_ok_iff, Prod.exists, okOr_ok_iff, pure_ok_iff]
    exact ⟨true, a, b, sortAssets_ok_iff.2 (Or.inr ⟨hab, rfl⟩), p, hp, s1, p1, hm, s2, p2, hrem, rfl⟩

/-! ### The stuck pool -/

/-- The pool of the pair (`b < a`) holds reserves whose curve invariant is not found. -/
def Stuck (c : Cfg) (s : State) (a b : Nat) : Prop := ∃ ra rb, view s a b = some (ra, rb) ∧ ¬ Solvable c ra rb

theorem stuck_key {c : Cfg} {s : State} {a b : Nat} (hab : b < a) (h : Stuck c s a b) :
    ∃ p, s.pools (a, b) = some p ∧ ¬ Solvable c p.base p.quote := by
  obtain ⟨ra, rb, hv, hn⟩ := h
  unfold view at hv
  rw [if_pos hab, Option.map_eq_some_iff] at hv
  obtain ⟨p, hp, e⟩ := hv
  simp only [Prod.mk.injEq] at e
  obtain ⟨rfl, rfl⟩ := e
  exact ⟨p, hp, hn⟩

theorem mintProtocolFee_stuck {c : Cfg} {s : State} {p : Pool} (hf : c.fee ≠ 0) (hn : ¬ Solvable c p.base p.quote)
    {r : State × Pool} : mintProtocolFee c s p ≠ .ok r := by
  intro h
  obtain ⟨s', p'⟩ := r
  obtain ⟨_, _, _, _, _, hcase⟩ := mintProtocolFee_ok h
  rcases hcase with ⟨_, _, f, hfe, _⟩ | ⟨hoff, _⟩
  · unfold protocolFees at hfe
    simp only [bind_ok_iff, unwrapR_ok_iff] at hfe
    obtain ⟨_, _, d, hd, _⟩ := hfe
    exact hn ⟨d, hd⟩
  · exact hf (feeOn_false.1 hoff)

/-- C209: where the invariant is not found nobody can withdraw or deposit, with any amount, in either order of the
two assets, and nobody can sell the asset with the larger number. -/
theorem C209_stuck {c : Cfg} {s : State} {a b : Nat} (hab : b < a) (hf : c.fee ≠ 0) (hst : Stuck c s a b)
    (who liq x : Nat) (d m : Nat × Nat) (s' : State) (y : Nat) :
    removeLiquidity c s who (a, b) liq ≠ .ok s' ∧ removeLiquidity c s who (b, a) liq ≠ .ok s' ∧
    addLiquidity c s who (a, b) d m ≠ .ok s' ∧ addLiquidity c s who (b, a) d m ≠ .ok s' ∧
    doSwap c s who a b x ≠ .ok (s', y) := by
  obtain ⟨p, hp, hn⟩ := stuck_key hab hst
  have key : ∀ {pr : Nat × Nat} {kb kq : Nat}, (pr = (a, b) ∨ pr = (b, a)) →
      ((pr.2 < pr.1 ∧ kb = pr.1 ∧ kq = pr.2) ∨ (pr.1 < pr.2 ∧ kb = pr.2 ∧ kq = pr.1)) → (kb, kq) = (a, b) := by
    rintro pr kb kq (rfl | rfl) (⟨h1, rfl, rfl⟩ | ⟨h1, rfl, rfl⟩) <;> simp only at * <;> first | rfl | omega
  have rem : ∀ pr : Nat × Nat, (pr = (a, b) ∨ pr = (b, a)) → removeLiquidity c s who pr liq ≠ .ok s' := by
    intro pr hpr h
    obtain ⟨kb, kq, q, s1, p1, _, _, hpair, hq0, hfee, _⟩ := removeLiquidity_ok h
    rw [key hpr hpair] at hq0
    obtain rfl : p = q := Option.some.inj (hp.symm.trans hq0)
    exact mintProtocolFee_stuck hf hn hfee
  have add : ∀ pr : Nat × Nat, (pr = (a, b) ∨ pr = (b, a)) → addLiquidity c s who pr d m ≠ .ok s' := by
    intro pr hpr h
    obtain ⟨kb, kq, q, ib, iq, s1, p1, _, _, _, _, _, _, hpair, hq0, _, _, _, _, _, hfee, _⟩ := addLiquidity_ok h
    have hpair' : (pr.2 < pr.1 ∧ kb = pr.1 ∧ kq = pr.2) ∨ (pr.1 < pr.2 ∧ kb = pr.2 ∧ kq = pr.1) := by
      rcases hpair with ⟨h1, h2, h3, _⟩ | ⟨h1, h2, h3, _⟩
      · exact Or.inl ⟨h1, h2, h3⟩
      · exact Or.inr ⟨h1, h2, h3⟩
    rw [key hpr hpair'] at hq0
    obtain rfl : p = q := Option.some.inj (hp.symm.trans hq0)
    exact mintProtocolFee_stuck hf hn hfee
  refine ⟨rem _ (Or.inl rfl), rem _ (Or.inr rfl), add _ (Or.inl rfl), add _ (Or.inr rfl), ?_⟩
  intro h
  obtain ⟨k, q, q', _, _, ra, rb, _, hq0, _, hcase, _, _, _, _, _, _, hout, _⟩ := doSwap_ok h
  rcases hcase with ⟨_, rfl, rfl, rfl, _⟩ | ⟨hlt, _⟩
  · obtain rfl : p = q := Option.some.inj (hp.symm.trans hq0)
    unfold amountOut at hout
    simp only [bind_ok_iff] at hout
    obtain ⟨_, _, _, _, dd, hd, _⟩ := hout
    exact hn ⟨dd, hd⟩
  · omega

theorem unwrapR_unsolved {c : Cfg} {x y : Nat} (h : ¬ Solvable c x y) : unwrapR (delta c x y) = .error .panic := by
  unfold delta
  cases e : computeD x y c.amp with
  | error e => rfl
  | ok d => exact absurd ⟨d, e⟩ h

/-- C209: a withdrawal from a stuck pool does not return an error to the caller: it panics. -/
theorem C209_stuck_panics {c : Cfg} {s : State} {a b : Nat} (hab : b < a) (hf : c.fee ≠ 0) (hst : Stuck c s a b)
    (who liq : Nat) : removeLiquidity c s who (a, b) liq = .error .panic := by
  obtain ⟨p, hp, hn⟩ := stuck_key hab hst
  have hm : mintProtocolFee c s p = .error .panic := by
    unfold mintProtocolFee
    rw [if_pos (feeOn_iff.2 hf)]
    unfold protocolFees
    rw [unwrapR_unsolved hn]
    by_cases hl : Solvable c p.baseLast p.quoteLast
    · obtain ⟨d, hd⟩ := hl
      unfold delta
      unfold Curve at hd
      rw [hd]; rfl
    · rw [unwrapR_unsolved hl]; rfl
  unfold removeLiquidity
  have hsort : sortAssets a b = .ok (false, a, b) := sortAssets_ok_iff.2 (Or.inl ⟨hab, rfl⟩)
  simp only [hsort, ok_bind, hp, okOr, hm]
  rfl

/-- A call that does not buy the asset with the larger number from this pool. -/
def Call.noRescue (a b : Nat) : Call → Prop
  | .swap _ x y _ => ¬ (x = b ∧ y = a)
  | _ => True

/-- Histories in which nobody buys the asset `a` for the asset `b` from the pool. -/
inductive Unrescued (c : Cfg) (a b : Nat) : State → State → Prop
  | refl (s : State) : Unrescued c a b s s
  | call {s s1 s2 : State} (h : Unrescued c a b s s1) (k : Call) (hk : k.signerOK c) (hn : k.noRescue a b)
      (hs : exec c s1 k = .ok s2) : Unrescued c a b s s2
  | env {s s1 s2 : State} (h : Unrescued c a b s s1) (he : Env c s1 s2) : Unrescued c a b s s2

/-- C209: a stuck pool stays stuck, with the same reserves, until somebody buys the asset with the larger number
from it: whatever else happens, nobody can deposit or withdraw. -/
theorem C209_stuck_until_rescued {c : Cfg} {s t : State} {a b ra rb : Nat} (hab : b < a) (hf : c.fee ≠ 0)
    (hv : view s a b = some (ra, rb)) (hn : ¬ Solvable c ra rb) (h : Unrescued c a b s t) :
    view t a b = some (ra, rb) := by
  induction h with
  | refl => exact hv
  | env h he ih => have := ih; unfold view at this ⊢; rw [he.pools]; exact this
  | @call s1 s2 h k hk hnr hs ih =>
    have hv1 := ih
    have hstuck := fun who liq x d m s' y => C209_stuck hab hf ⟨ra, rb, hv1, hn⟩ who liq x d m s' y
    have hat : ∀ k' q', s2.pools = upd s1.pools k' (some q') → k' ≠ (a, b) → view s2 a b = some (ra, rb) := by
      intro k' q' e hne
      unfold view at hv1 ⊢
      rw [if_pos hab] at hv1 ⊢
      rw [e, upd_of_ne _ _ (Ne.symm hne)]; exact hv1
    have pairs : ∀ {pr : Nat × Nat} {kb kq : Nat},
      ((pr.2 < pr.1 ∧ kb = pr.1 ∧ kq = pr.2) ∨ (pr.1 < pr.2 ∧ kb = pr.2 ∧ kq = pr.1)) → (kb, kq) = (a, b) →
      pr = (a, b) ∨ pr = (b, a) := by
      rintro ⟨u, v⟩ kb kq (⟨_, rfl, rfl⟩ | ⟨_, rfl, rfl⟩) e <;> simp only [Prod.mk.injEq] at e ⊢ <;> omega
    cases k with
    | add who pair d m =>
      have hs : addLiquidity c s1 who pair d m = .ok s2 := hs
      have hs0 := hs
      obtain ⟨kb, kq, q0, ib, iq, t1, p1, t2, p2, _, _, _, _, hpair, _, _, _, _, _, _, hfee, hadd, rfl⟩ :=
        addLiquidity_ok hs
      obtain ⟨_, _, _, f6, _, _⟩ := mintProtocolFee_ok hfee
      obtain ⟨_, _, _, _, _, _, _, _, _, _, _, _, _, _, _, rfl, _⟩ := doAdd_ok hadd
      refine hat (kb, kq) p2 (by simp [f6]) ?_
      intro e
      have hpair' : (pair.2 < pair.1 ∧ kb = pair.1 ∧ kq = pair.2) ∨ (pair.1 < pair.2 ∧ kb = pair.2 ∧ kq = pair.1) := by
        rcases hpair with ⟨h1, h2, h3, _⟩ | ⟨h1, h2, h3, _⟩
        · exact Or.inl ⟨h1, h2, h3⟩
        · exact Or.inr ⟨h1, h2, h3⟩
      rcases pairs hpair' e with rfl | rfl
      · exact (hstuck who 0 0 d m _ 0).2.2.1 hs0
      · exact (hstuck who 0 0 d m _ 0).2.2.2.1 hs0
    | remove who pair liq =>
      have hs : removeLiquidity c s1 who pair liq = .ok s2 := hs
      have hs0 := hs
      obtain ⟨kb, kq, q0, t1, p1, t2, p2, hpair, _, hfee, hrem, rfl⟩ := removeLiquidity_ok hs
      obtain ⟨_, _, _, f6, _, _⟩ := mintProtocolFee_ok hfee
      obtain ⟨_, _, _, _, _, _, _, _, _, _, _, rfl, _⟩ := doRemove_ok hrem
      refine hat (kb, kq) p2 (by simp [f6]) ?_
      intro e
      rcases pairs hpair e with rfl | rfl
      · exact (hstuck who liq 0 (0, 0) (0, 0) _ 0).1 hs0
      · exact (hstuck who liq 0 (0, 0) (0, 0) _ 0).2.1 hs0
    | create pair am rcv lp =>
      obtain ⟨kb, kq, ba, qa, t2, p2, hpair, hnone, hiss, hadd, rfl⟩ := createPool_ok hs
      obtain ⟨_, _, _, _, _, _, _, _, _, _, _, _, _, _, _, rfl, _⟩ := doAdd_ok hadd
      refine hat (kb, kq) p2 rfl ?_
      intro e
      obtain ⟨p, hp, _⟩ := stuck_key hab ⟨ra, rb, hv1, hn⟩
      rw [e, hp] at hnone; cases hnone
    | swap who x y n =>
      simp only [exec, bind_ok_iff, Prod.exists, pure_ok_iff] at hs
      obtain ⟨t1, z, hsw, rfl⟩ := hs
      have hsw0 := hsw
      obtain ⟨k', q, q', l1, l2, ra', rb', m, hq', rfl, hcase, _⟩ := doSwap_ok hsw
      refine hat k' q' rfl ?_
      intro e
      rcases hcase with ⟨_, rfl, _⟩ | ⟨_, rfl, _⟩
      · simp only [Prod.mk.injEq] at e
        obtain ⟨rfl, rfl⟩ := e
        exact (hstuck who 0 n (0, 0) (0, 0) _ z).2.2.2.2 hsw0
      · simp only [Prod.mk.injEq] at e
        exact hnr ⟨e.2, e.1⟩

/-! ### A reachable stuck pool -/

/-- One unit of an asset with 12 decimals against two units of an asset with 6 decimals. -/
theorem exStuck : ¬ Solvable vanilla (10 ^ 12) (2 * 10 ^ 6) := by
  rintro ⟨d, hd⟩
  unfold Curve at hd
  have : okAnd (computeD (10 ^ 12) (2 * 10 ^ 6) vanilla.amp) (fun _ => true) = false := by decide +kernel
  rw [hd] at this; cases this

/-- C209 is FALSE for the constants of the vanilla runtime: account 1 creates a pool with one unit of an asset with 12
decimals and two units of an asset with 6 decimals, and cannot redeem a single LP token. -/
theorem C209_refuted : ¬ C209_statement vanilla := by
  intro H
  have h : okAnd (run vanilla ex0 [.create (20, 10) (10 ^ 12, 2 * 10 ^ 6) 1 77]) (fun s =>
      decide (lpOf s 20 10 = some 77) && decide (view s 20 10 = some (10 ^ 12, 2 * 10 ^ 6)) &&
      decide (1 ≤ s.ledger.bal 77 1)) = true := by decide +kernel
  obtain ⟨s, hs, hp⟩ := okAnd_iff.1 h
  simp only [Bool.and_eq_true, decide_eq_true_eq] at hp
  have hr := ex_reach (by simp [Call.signerOK, vanilla]) hs
  obtain ⟨s', hs'⟩ := H s 1 20 10 77 1 hr (by decide) (by decide) hp.1.1 hp.2
  exact (C209_stuck (c := vanilla) (by decide) (by decide) ⟨_, _, hp.1.2, exStuck⟩ 1 1 0 (0, 0) (0, 0) s' 0).1 hs'

/-- The stuck pool stays stuck while others open a pool of their own. -/
example : ∃ s t, Reach vanilla s ∧ view s 20 10 = some (10 ^ 12, 2 * 10 ^ 6) ∧ Unrescued vanilla 20 10 s t ∧
    (t.pools (30, 10)).isSome ∧ s.pools (30, 10) = none := by
  have h : okAnd (run vanilla ex0 [.create (20, 10) (10 ^ 12, 2 * 10 ^ 6) 1 77]) (fun s =>
      decide (view s 20 10 = some (10 ^ 12, 2 * 10 ^ 6)) && decide (s.pools (30, 10) = none) &&
      okAnd (exec vanilla s (.create (10, 30) (3000000, 2000000) 1 78)) (fun t => (t.pools (30, 10)).isSome)) = true := by
    decide +kernel
  obtain ⟨s, hs, hp⟩ := okAnd_iff.1 h
  simp only [Bool.and_eq_true, decide_eq_true_eq] at hp
  obtain ⟨t, ht, hp2⟩ := okAnd_iff.1 hp.2
  exact ⟨s, t, ex_reach (by simp [Call.signerOK, vanilla]) hs, hp.1.1,
    .call (.refl s) (.create (10, 30) (3000000, 2000000) 1 78) (by simp [Call.signerOK, vanilla]) trivial ht, hp2, hp.1.2⟩

/-- Non-vacuity of the partial theorem: from a balanced pool of the vanilla runtime the creator takes out all the LP
tokens she has. -/
example : ∃ s s', Reach vanilla s ∧ lpOf s 20 10 = some 77 ∧ 0 < s.ledger.bal 77 1 ∧
    removeLiquidity vanilla s 1 (20, 10) (s.ledger.bal 77 1) = .ok s' := by
  have h : okAnd (run vanilla ex0 [.create (20, 10) (1000000, 1000000) 1 77]) (fun s =>
      decide (lpOf s 20 10 = some 77) && decide (view s 20 10 = some (1000000, 1000000)) &&
      decide (lastView s 20 10 = some (1000000, 1000000)) && decide (0 < s.ledger.bal 77 1) &&
      decide (2 * s.ledger.iss 77 ≤ maxU128)) = true := by decide +kernel
  obtain ⟨s, hs, hp⟩ := okAnd_iff.1 h
  simp only [Bool.and_eq_true, decide_eq_true_eq] at hp
  have hr := ex_reach (by simp [Call.signerOK, vanilla]) hs
  have hsol : Solvable vanilla 1000000 1000000 := by
    have : okAnd (computeD 1000000 1000000 vanilla.amp) (fun _ => true) = true := by decide +kernel
    obtain ⟨d, hd, _⟩ := okAnd_iff.1 this
    exact ⟨d, hd⟩
  obtain ⟨s', hs', _⟩ := C209_exit_partial vanilla_ok (who := 1) (liq := s.ledger.bal 77 1) (by decide) hr (by decide)
    (by decide) hp.1.1.1.1 hp.1.1.1.2 hp.1.1.2 (Nat.le_refl _) (fun _ => ⟨by decide, hp.2, hsol, hsol⟩)
  exact ⟨s, s', hr, hp.1.1.1.1, hp.1.2, hs'⟩

end Verif.Stable
