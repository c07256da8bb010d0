import Verif.Amm.Props

set_option linter.unnecessarySeqFocus false
set_option linter.unusedSimpArgs false

/-!
# AMM: liquidity properties (C07 – C12)
-/

namespace Verif.Amm
open Verif

/-! ### Helper lemmas -/

theorem feeOn_false_iff {s : State} : feeOn s = false ↔ s.fee = 0 ∨ s.feeTo = none := by
  unfold feeOn
  cases s.feeTo <;> simp

/-- Lifting facts about the stored pool to the direction-independent view. -/
theorem view_of_pool {s : State} {a b kb kq : Nat} {p : Pool}
    (hpair : (b < a ∧ kb = a ∧ kq = b) ∨ (a < b ∧ kb = b ∧ kq = a)) (hp : s.pools (kb, kq) = some p) :
    view s a b = some (if b < a then (p.base, p.quote) else (p.quote, p.base)) ∧
    lpOf s a b = some p.lp := by
  rcases hpair with ⟨hlt, rfl, rfl⟩ | ⟨hlt, rfl, rfl⟩
  · simp [view, lpOf, hlt, hp]
  · simp [view, lpOf, hlt, hp, Nat.lt_asymm hlt]

theorem mintProtocolFee_iss {s s' : State} {p p' : Pool} (h : mintProtocolFee s p = .ok (s', p')) :
    ∃ f, (feeOn s = false → f = 0) ∧ (feeOn s = true → protocolFees s p = .ok f) ∧
      s'.ledger.iss p.lp = s.ledger.iss p.lp + f ∧
      (∀ x, x ≠ p.lp → s'.ledger.iss x = s.ledger.iss x) ∧
      (∀ x w, s'.ledger.bal x w = s.ledger.bal x w + (if x = p.lp ∧ s.feeTo = some w then f else 0)) := by
  obtain ⟨-, -, -, -, -, -, -, h⟩ := mintProtocolFee_ok h
  rcases h with ⟨hf, _, f, rcv, hfe, hr, hm⟩ | ⟨hf, rfl⟩
  · refine ⟨f, by simp [hf], fun _ => hfe, ?_, ?_, ?_⟩
    · have := Ledger.mint_iss hm p.lp; simpa using this
    · intro x hx; have := Ledger.mint_iss hm x; simpa [hx] using this
    · intro x w
      have := Ledger.mint_bal hm x w
      rw [hr]
      simp only [Option.some.injEq, eq_comm (a := rcv)]
      exact this
  · exact ⟨0, fun _ => rfl, by simp [hf], rfl, fun _ _ => rfl, fun x w => by simp⟩

/-- Total effect of a successful `add_liquidity` on an already initialised pool. -/
theorem addLiquidity_eff {c : Cfg} {s s' : State} {who : Nat} {pair d m : Nat × Nat}
    (h : addLiquidity c s who pair d m = .ok s') :
    ∃ b q p p' ib iq liq f db dq mb mq,
      ((pair.2 < pair.1 ∧ b = pair.1 ∧ q = pair.2 ∧ db = d.1 ∧ dq = d.2 ∧ mb = m.1 ∧ mq = m.2) ∨
       (pair.1 < pair.2 ∧ b = pair.2 ∧ q = pair.1 ∧ db = d.2 ∧ dq = d.1 ∧ mb = m.2 ∧ mq = m.1)) ∧
      s.pools (b, q) = some p ∧ s'.pools = upd s.pools (b, q) (some p') ∧ p'.lp = p.lp ∧
      p'.base = p.base + ib ∧ p'.quote = p.quote + iq ∧
      ib ≤ db ∧ iq ≤ dq ∧ mb ≤ ib ∧ mq ≤ iq ∧
      (feeOn s = false → f = 0) ∧ (feeOn s = true → protocolFees s p = .ok f) ∧
      s'.fee = s.fee ∧ s'.feeTo = s.feeTo ∧
      (feeOn s = true → p'.baseLast = p'.base ∧ p'.quoteLast = p'.quote) ∧
      (s.ledger.iss p.lp + f ≠ 0 →
        s'.ledger.iss p.lp = s.ledger.iss p.lp + f + liq ∧
        liq * p.base ≤ ib * (s.ledger.iss p.lp + f) ∧ liq * p.quote ≤ iq * (s.ledger.iss p.lp + f) ∧
        ∀ x w, s'.ledger.bal x w + (if x = b ∧ w = who then ib else 0) + (if x = q ∧ w = who then iq else 0)
          = s.ledger.bal x w + (if x = p.lp ∧ s.feeTo = some w then f else 0)
            + (if x = p.lp ∧ w = who then liq else 0)
            + (if x = b ∧ w = c.acct then ib else 0) + (if x = q ∧ w = c.acct then iq else 0)) := by
  obtain ⟨b, q, p, ib, iq, s1, p1, s2, p2, db, dq, mb, mq, hpair, hp, hid, h1, h2, h3, h4, hfee, hadd, rfl⟩ :=
    addLiquidity_ok h
  obtain ⟨f1, f2, f3, f4, f5, f6, _, _⟩ := mintProtocolFee_ok hfee
  obtain ⟨f, g1, g2, g3, g4, g5⟩ := mintProtocolFee_iss hfee
  obtain ⟨l0, liq, l1, l2, l3, e0, e1, e2, e3, rfl, eb, eq', elp, _, _, hlast⟩ := doAdd_ok hadd
  have hon : feeOn s1 = feeOn s := by unfold feeOn; rw [f4, f5]
  refine ⟨b, q, p, p2, ib, iq, liq, f, db, dq, mb, mq, hpair, hp, by simp [f6], by rw [elp, f3],
    by rw [eb, f1], by rw [eq', f2], h1, h2, h3, h4, g1, g2, f4, f5, by rw [← hon]; exact hlast, ?_⟩
  intro hne
  have hne' : s1.ledger.iss p1.lp ≠ 0 := by rw [f3, g3]; exact hne
  rcases liquidityFor_ok e0 with ⟨hz, _⟩ | ⟨_, rfl, hb0, hq0, hliq⟩
  · exact absurd hz hne'
  · rw [f3, g3, f1, f2] at hliq
    rw [f3] at e1
    refine ⟨?_, ?_, ?_, ?_⟩
    · have i1 := Ledger.mint_iss e1 p.lp
      have i2 := Ledger.transfer_iss e2
      have i3 := Ledger.transfer_iss e3
      simp only [i3, i2]
      rw [i1, g3]; simp
    · have : liq ≤ ib * (s.ledger.iss p.lp + f) / p.base := by rw [hliq]; exact Nat.min_le_left _ _
      exact (Nat.mul_le_mul_right _ this).trans (Nat.div_mul_le_self _ _)
    · have : liq ≤ iq * (s.ledger.iss p.lp + f) / p.quote := by rw [hliq]; exact Nat.min_le_right _ _
      exact (Nat.mul_le_mul_right _ this).trans (Nat.div_mul_le_self _ _)
    · intro x w
      have i0 := g5 x w
      have i1 := Ledger.mint_bal e1 x w
      have i2 := Ledger.transfer_bal e2 x w
      have i3 := Ledger.transfer_bal e3 x w
      simp only at *
      omega

/-- Total effect of a successful `remove_liquidity`. -/
theorem removeLiquidity_eff {c : Cfg} {s s' : State} {who : Nat} {pair : Nat × Nat} {liq : Nat}
    (h : removeLiquidity c s who pair liq = .ok s') :
    ∃ b q p p' f ob oq,
      ((pair.2 < pair.1 ∧ b = pair.1 ∧ q = pair.2) ∨ (pair.1 < pair.2 ∧ b = pair.2 ∧ q = pair.1)) ∧
      s.pools (b, q) = some p ∧ s'.pools = upd s.pools (b, q) (some p') ∧ p'.lp = p.lp ∧
      ob ≤ p.base ∧ oq ≤ p.quote ∧ p'.base = p.base - ob ∧ p'.quote = p.quote - oq ∧
      (feeOn s = false → f = 0) ∧ (feeOn s = true → protocolFees s p = .ok f) ∧
      s'.fee = s.fee ∧ s'.feeTo = s.feeTo ∧
      (feeOn s = true → p'.baseLast = p'.base ∧ p'.quoteLast = p'.quote) ∧
      s.ledger.iss p.lp + f ≠ 0 ∧
      ob = liq * p.base / (s.ledger.iss p.lp + f) ∧ oq = liq * p.quote / (s.ledger.iss p.lp + f) ∧
      s'.ledger.iss p.lp = s.ledger.iss p.lp + f - liq ∧
      (s.ledger.WF → who ≠ c.lock → liq + s.ledger.bal p.lp c.lock ≤ s.ledger.iss p.lp + f) ∧
      ∀ x w, s'.ledger.bal x w + (if x = p.lp ∧ w = who then liq else 0)
            + (if x = b ∧ w = c.acct then ob else 0) + (if x = q ∧ w = c.acct then oq else 0)
          = s.ledger.bal x w + (if x = p.lp ∧ s.feeTo = some w then f else 0)
            + (if x = b ∧ w = who then ob else 0) + (if x = q ∧ w = who then oq else 0) := by
  obtain ⟨b, q, p, s1, p1, s2, p2, hpair, hp, hfee, hrem, rfl⟩ := removeLiquidity_ok h
  obtain ⟨f1, f2, f3, f4, f5, f6, _, _⟩ := mintProtocolFee_ok hfee
  obtain ⟨f, g1, g2, g3, g4, g5⟩ := mintProtocolFee_iss hfee
  obtain ⟨ob, oq, l1, l2, l3, hz, hob, hoq, e1, e2, e3, rfl, hb, hq, eb, eq', elp, hlast⟩ := doRemove_ok hrem
  have hon : feeOn s1 = feeOn s := by unfold feeOn; rw [f4, f5]
  rw [f3] at hob hoq hz e1
  rw [g3] at hob hoq hz
  rw [f1] at hob hb eb
  rw [f2] at hoq hq eq'
  refine ⟨b, q, p, p2, f, ob, oq, hpair, hp, by simp [f6], by rw [elp, f3], hb, hq, eb, eq', g1, g2, f4, f5,
    by rw [← hon]; exact hlast, hz, hob, hoq, ?_, ?_, ?_⟩
  · have i1 := Ledger.burn_iss e1 p.lp
    have i2 := Ledger.transfer_iss e2
    have i3 := Ledger.transfer_iss e3
    simp only [i3, i2]
    rw [i1, g3]; simp
  · intro hwf hl
    have w1 := mintProtocolFee_wf hfee hwf
    have := Ledger.burn_le e1
    have := two_le_iss w1 (x := p.lp) hl
    have := mintProtocolFee_bal hfee p.lp c.lock
    omega
  · intro x w
    have i0 := g5 x w
    have i1 := Ledger.burn_bal e1 x w
    have i2 := Ledger.transfer_bal e2 x w
    have i3 := Ledger.transfer_bal e3 x w
    simp only at *
    omega

theorem iss_pos {c : Cfg} (hc : c.OK) {s : State} (h : Inv c s) {k : Nat × Nat} {p : Pool}
    (hp : s.pools k = some p) : s.ledger.iss p.lp ≠ 0 := by
  have := (h.pool k p hp).2.2.1
  have := Ledger.bal_le_iss h.wf p.lp c.lock
  have := hc.minLiq
  omega

/-! ## C07 -/

/-- C07: `add_liquidity` takes `xa` of the first and `xb` of the second asset, within the caller's desired and
minimum amounts, adds exactly these to the reserves, and does not lower the reserves per LP token
(compared with the supply `T + f` after the protocol's own fee mint `f`, which is 0 when fees are off). -/
theorem C07_add_no_dilution {c : Cfg} (hc : c.OK) {s s' : State} {who : Nat} {pair d m : Nat × Nat}
    (hr : Reach c s) (hw : who ≠ c.acct) (h : addLiquidity c s who pair d m = .ok s') :
    ∃ ra rb xa xb lp f, view s pair.1 pair.2 = some (ra, rb) ∧ lpOf s pair.1 pair.2 = some lp ∧
      view s' pair.1 pair.2 = some (ra + xa, rb + xb) ∧
      xa ≤ d.1 ∧ xb ≤ d.2 ∧ m.1 ≤ xa ∧ m.2 ≤ xb ∧
      ((s.fee = 0 ∨ s.feeTo = none) → f = 0) ∧
      (lp ≠ pair.1 → lp ≠ pair.2 →
        s'.ledger.bal pair.1 who + xa = s.ledger.bal pair.1 who ∧
        s'.ledger.bal pair.2 who + xb = s.ledger.bal pair.2 who) ∧
      s.ledger.iss lp + f ≤ s'.ledger.iss lp ∧
      ra * s'.ledger.iss lp ≤ (ra + xa) * (s.ledger.iss lp + f) ∧
      rb * s'.ledger.iss lp ≤ (rb + xb) * (s.ledger.iss lp + f) := by
  obtain ⟨b, q, p, p', ib, iq, liq, f, db, dq, mb, mq, hpair, hp, hpools, hlp, eb, eq', h1, h2, h3, h4, hf, _,
    _, _, _, hrest⟩ := addLiquidity_eff h
  have hne := iss_pos hc (hr.inv hc) hp
  obtain ⟨hi, hl1, hl2, hbal⟩ := hrest (by omega)
  have hp' : s'.pools (b, q) = some p' := by rw [hpools]; simp
  have hcases : (pair.2 < pair.1 ∧ b = pair.1 ∧ q = pair.2) ∨ (pair.1 < pair.2 ∧ b = pair.2 ∧ q = pair.1) := by
    rcases hpair with ⟨a, b, c, _⟩ | ⟨a, b, c, _⟩
    · exact Or.inl ⟨a, b, c⟩
    · exact Or.inr ⟨a, b, c⟩
  obtain ⟨v1, v2⟩ := view_of_pool hcases hp
  obtain ⟨v3, _⟩ := view_of_pool hcases hp'
  have k1 : p.base * (s.ledger.iss p.lp + f + liq) ≤ (p.base + ib) * (s.ledger.iss p.lp + f) := by
    have e1 : p.base * (s.ledger.iss p.lp + f + liq) = p.base * (s.ledger.iss p.lp + f) + liq * p.base := by ring
    have e2 : (p.base + ib) * (s.ledger.iss p.lp + f) =
      p.base * (s.ledger.iss p.lp + f) + ib * (s.ledger.iss p.lp + f) := by ring
    omega
  have k2 : p.quote * (s.ledger.iss p.lp + f + liq) ≤ (p.quote + iq) * (s.ledger.iss p.lp + f) := by
    have e1 : p.quote * (s.ledger.iss p.lp + f + liq) = p.quote * (s.ledger.iss p.lp + f) + liq * p.quote := by ring
    have e2 : (p.quote + iq) * (s.ledger.iss p.lp + f) =
      p.quote * (s.ledger.iss p.lp + f) + iq * (s.ledger.iss p.lp + f) := by ring
    omega
  have hwa : ¬ who = c.acct := hw
  have b1 := hbal b who
  have b2 := hbal q who
  rcases hpair with ⟨hlt, rfl, rfl, rfl, rfl, rfl, rfl⟩ | ⟨hlt, rfl, rfl, rfl, rfl, rfl, rfl⟩
  · simp only [hlt, if_true] at v1 v3
    refine ⟨p.base, p.quote, ib, iq, p.lp, f, v1, v2, by rw [v3, eb, eq'], h1, h2, h3, h4,
      fun hh => hf (feeOn_false_iff.2 hh), fun n1 n2 => ?_, by omega, by rw [hi]; exact k1, by rw [hi]; exact k2⟩
    have hne12 : ¬ pair.1 = pair.2 := by omega
    have hne21 : ¬ pair.2 = pair.1 := by omega
    simp only [hne12, hne21, hwa, Ne.symm n1, Ne.symm n2, and_true, true_and, false_and, and_false, if_true,
      if_false] at b1 b2
    omega
  · simp only [Nat.lt_asymm hlt, if_false] at v1 v3
    refine ⟨p.quote, p.base, iq, ib, p.lp, f, v1, v2, by rw [v3, eb, eq'], h2, h1, h4, h3,
      fun hh => hf (feeOn_false_iff.2 hh), fun n1 n2 => ?_, by omega, by rw [hi]; exact k2, by rw [hi]; exact k1⟩
    have hne12 : ¬ pair.1 = pair.2 := by omega
    have hne21 : ¬ pair.2 = pair.1 := by omega
    simp only [hne12, hne21, hwa, Ne.symm n1, Ne.symm n2, and_true, true_and, false_and, and_false, if_true,
      if_false] at b1 b2
    omega

example : ∃ s', addLiquidity exCfg ex1 7 (1, 2) (1000, 5000) (1000, 4000) = .ok s' := by
  have : okAnd (addLiquidity exCfg ex1 7 (1, 2) (1000, 5000) (1000, 4000)) (fun _ => true) = true := by
    decide +kernel
  obtain ⟨s', h, _⟩ := okAnd_iff.1 this
  exact ⟨s', h⟩

/-! ## C08 -/

theorem remaining_share {l r t : Nat} (h : l ≤ t) (ht : t ≠ 0) :
    r * (t - l) ≤ (r - l * r / t) * t := by
  have h1 := Nat.div_mul_le_self (l * r) t
  have e1 : r * (t - l) = r * t - r * l := by rw [Nat.mul_sub]
  have e2 : (r - l * r / t) * t = r * t - l * r / t * t := by rw [Nat.sub_mul]
  have e3 : r * l = l * r := by ring
  omega

/-- C08: `remove_liquidity` burns exactly `liq` LP tokens of the caller, pays exactly
`⌊liq · reserve / T⌋` of both assets, where `T` is the LP supply (after the protocol's fee mint `f`, 0 when fees
are off), and does not lower the reserves per LP token of the remaining holders. -/
theorem C08_remove_pro_rata {c : Cfg} (hc : c.OK) {s s' : State} {who : Nat} {pair : Nat × Nat} {liq : Nat}
    (hr : Reach c s) (hw : who ≠ c.acct) (hl : who ≠ c.lock)
    (h : removeLiquidity c s who pair liq = .ok s') :
    ∃ ra rb lp f T, view s pair.1 pair.2 = some (ra, rb) ∧ lpOf s pair.1 pair.2 = some lp ∧
      ((s.fee = 0 ∨ s.feeTo = none) → f = 0) ∧ T = s.ledger.iss lp + f ∧ liq < T ∧
      view s' pair.1 pair.2 = some (ra - liq * ra / T, rb - liq * rb / T) ∧
      liq * ra / T < ra ∧ liq * rb / T < rb ∧
      s'.ledger.iss lp + liq = T ∧
      ra * s'.ledger.iss lp ≤ (ra - liq * ra / T) * T ∧
      rb * s'.ledger.iss lp ≤ (rb - liq * rb / T) * T ∧
      (lp ≠ pair.1 → lp ≠ pair.2 →
        s'.ledger.bal lp who + liq = s.ledger.bal lp who + (if s.feeTo = some who then f else 0) ∧
        s'.ledger.bal pair.1 who = s.ledger.bal pair.1 who + liq * ra / T ∧
        s'.ledger.bal pair.2 who = s.ledger.bal pair.2 who + liq * rb / T) := by
  obtain ⟨b, q, p, p', f, ob, oq, hpair, hp, hpools, hlp, hb, hq, eb, eq', hf, _, _, _, _, hz, hob, hoq, hi, hlk,
    hbal⟩ := removeLiquidity_eff h
  obtain ⟨pb, pq, pl, pk⟩ := (hr.inv hc).pool _ p hp
  have hp' : s'.pools (b, q) = some p' := by rw [hpools]; simp
  obtain ⟨v1, v2⟩ := view_of_pool hpair hp
  obtain ⟨v3, _⟩ := view_of_pool hpair hp'
  have hlt : liq < s.ledger.iss p.lp + f := by
    have := hlk (hr.inv hc).wf hl
    have := hc.minLiq
    omega
  have lb : liq * p.base / (s.ledger.iss p.lp + f) < p.base := mul_div_lt_of_lt hlt pb
  have lq : liq * p.quote / (s.ledger.iss p.lp + f) < p.quote := mul_div_lt_of_lt hlt pq
  have rb := remaining_share (r := p.base) (Nat.le_of_lt hlt) hz
  have rq := remaining_share (r := p.quote) (Nat.le_of_lt hlt) hz
  have hwa : ¬ who = c.acct := hw
  have b0 := hbal p.lp who
  have b1 := hbal b who
  have b2 := hbal q who
  rw [eb, eq', hob, hoq] at v3
  rcases hpair with ⟨hlt', rfl, rfl⟩ | ⟨hlt', rfl, rfl⟩
  · simp only [hlt', if_true] at v1 v3
    refine ⟨p.base, p.quote, p.lp, f, _, v1, v2, fun hh => hf (feeOn_false_iff.2 hh), rfl, hlt, v3, lb, lq,
      by omega, by rw [hi]; exact rb, by rw [hi]; exact rq, fun n1 n2 => ?_⟩
    have hne12 : ¬ pair.1 = pair.2 := by omega
    have hne21 : ¬ pair.2 = pair.1 := by omega
    simp only [hne12, hne21, hwa, n1, n2, Ne.symm n1, Ne.symm n2, and_true, true_and, false_and, and_false,
      if_true, if_false] at b0 b1 b2
    rw [← hob, ← hoq]
    refine ⟨by omega, by omega, by omega⟩
  · simp only [Nat.lt_asymm hlt', if_false] at v1 v3
    refine ⟨p.quote, p.base, p.lp, f, _, v1, v2, fun hh => hf (feeOn_false_iff.2 hh), rfl, hlt, v3, lq, lb,
      by omega, by rw [hi]; exact rq, by rw [hi]; exact rb, fun n1 n2 => ?_⟩
    have hne12 : ¬ pair.1 = pair.2 := by omega
    have hne21 : ¬ pair.2 = pair.1 := by omega
    simp only [hne12, hne21, hwa, n1, n2, Ne.symm n1, Ne.symm n2, and_true, true_and, false_and, and_false,
      if_true, if_false] at b0 b1 b2
    rw [← hob, ← hoq]
    refine ⟨by omega, by omega, by omega⟩

example : ∃ s', removeLiquidity exCfg ex1 7 (1, 2) 500 = .ok s' := by
  have : okAnd (removeLiquidity exCfg ex1 7 (1, 2) 500) (fun _ => true) = true := by
    decide +kernel
  obtain ⟨s', h, _⟩ := okAnd_iff.1 this
  exact ⟨s', h⟩

/-! ## C09 -/

/-- C09: with protocol fees off, removing at most the LP tokens just received from an `add_liquidity`
leaves the user with at most the original balance of each of the two assets. -/
theorem C09_add_remove {c : Cfg} (hc : c.OK) {s s1 s2 : State} {who lp : Nat} {pair d m : Nat × Nat}
    {liq : Nat} (hr : Reach c s) (hw : who ≠ c.acct)
    (hoff : s.fee = 0 ∨ s.feeTo = none)
    (hlp : lpOf s pair.1 pair.2 = some lp) (hne : lp ≠ pair.1 ∧ lp ≠ pair.2)
    (hadd : addLiquidity c s who pair d m = .ok s1)
    (hliq : liq ≤ s1.ledger.bal lp who - s.ledger.bal lp who)
    (hrem : removeLiquidity c s1 who pair liq = .ok s2) :
    s2.ledger.bal pair.1 who ≤ s.ledger.bal pair.1 who ∧
    s2.ledger.bal pair.2 who ≤ s.ledger.bal pair.2 who := by
  obtain ⟨b, q, p, p', ib, iq, sh, f, db, dq, mb, mq, hpair, hp, hpools, hlp', eb, eq', _, _, _, _, hf, _,
    hfee, hfeeTo, _, hrest⟩ := addLiquidity_eff hadd
  have hne0 := iss_pos hc (hr.inv hc) hp
  obtain ⟨hi, hl1, hl2, hbal⟩ := hrest (by omega)
  obtain ⟨b2, q2, p2, p2', f2, ob, oq, hpair2, hp2, _, _, _, _, _, _, hf2, _, _, _, _, hz2, hob, hoq, _, _, hbal2⟩ :=
    removeLiquidity_eff hrem
  have hcases : (pair.2 < pair.1 ∧ b = pair.1 ∧ q = pair.2) ∨ (pair.1 < pair.2 ∧ b = pair.2 ∧ q = pair.1) := by
    rcases hpair with ⟨a, b, c, _⟩ | ⟨a, b, c, _⟩
    · exact Or.inl ⟨a, b, c⟩
    · exact Or.inr ⟨a, b, c⟩
  have hk : b2 = b ∧ q2 = q := by
    rcases hcases with ⟨h1, rfl, rfl⟩ | ⟨h1, rfl, rfl⟩ <;>
    rcases hpair2 with ⟨h2, rfl, rfl⟩ | ⟨h2, rfl, rfl⟩ <;> first | exact ⟨rfl, rfl⟩ | omega
  obtain ⟨rfl, rfl⟩ := hk
  rw [hpools] at hp2
  simp only [upd_same, Option.some.injEq] at hp2
  subst hp2
  have hoff0 : feeOn s = false := feeOn_false_iff.2 hoff
  have hoff1 : feeOn s1 = false := by unfold feeOn; rw [hfee, hfeeTo]; exact hoff0
  have f0 := hf hoff0
  have f20 := hf2 hoff1
  subst f0 f20
  have hlpeq : lp = p.lp := by
    have := (view_of_pool hcases hp).2
    rw [hlp] at this; cases this; rfl
  subst hlpeq
  simp only [Nat.add_zero] at *
  have hbq : b2 ≠ q2 := by rcases hcases with ⟨h, rfl, rfl⟩ | ⟨h, rfl, rfl⟩ <;> omega
  have hlb : p.lp ≠ b2 ∧ p.lp ≠ q2 := by
    rcases hcases with ⟨h, rfl, rfl⟩ | ⟨h, rfl, rfl⟩
    · exact hne
    · exact ⟨hne.2, hne.1⟩
  have hwa : ¬ who = c.acct := hw
  have hqb : ¬ q2 = b2 := fun e => hbq e.symm
  have x0 := hbal p.lp who
  have x1 := hbal b2 who
  have x2 := hbal q2 who
  have y1 := hbal2 b2 who
  have y2 := hbal2 q2 who
  simp only [hbq, hqb, hlb.1, hlb.2, Ne.symm hlb.1, Ne.symm hlb.2, hwa, hlp', and_true, true_and, false_and,
    and_false, if_true, if_false, ite_self, Nat.add_zero] at x0 x1 x2 y1 y2
  have hls : liq ≤ sh := by omega
  rw [hlp', hi, eb] at hob
  rw [hlp', hi, eq'] at hoq
  have key : ∀ r i o : Nat, sh * r ≤ i * s.ledger.iss p.lp →
      o = liq * (r + i) / (s.ledger.iss p.lp + sh) → o ≤ i := by
    intro r i o h1 h2
    rw [h2]
    apply Nat.div_le_of_le_mul
    have h3 : liq * (r + i) ≤ sh * (r + i) := Nat.mul_le_mul_right _ hls
    have e1 : sh * (r + i) = sh * r + sh * i := by ring
    have e2 : (s.ledger.iss p.lp + sh) * i = i * s.ledger.iss p.lp + sh * i := by ring
    omega
  have k1 := key p.base ib ob hl1 hob
  have k2 := key p.quote iq oq hl2 hoq
  rcases hcases with ⟨h, rfl, rfl⟩ | ⟨h, rfl, rfl⟩
  · exact ⟨by omega, by omega⟩
  · exact ⟨by omega, by omega⟩

example : ∃ s1 s2, addLiquidity exCfg exS 7 (1, 2) (1000, 5000) (1000, 4000) = .ok s1 ∧
    removeLiquidity exCfg s1 7 (1, 2) (s1.ledger.bal 50 7 - exS.ledger.bal 50 7) = .ok s2 ∧
    s1.ledger.bal 50 7 - exS.ledger.bal 50 7 = 2000000 ∧ s2.ledger.bal 1 7 = 1000000 := by
  have : okAnd (do
      let s1 ← addLiquidity exCfg exS 7 (1, 2) (1000, 5000) (1000, 4000)
      let s2 ← removeLiquidity exCfg s1 7 (1, 2) (s1.ledger.bal 50 7 - exS.ledger.bal 50 7)
      pure (s1, s2)) (fun r => r.1.ledger.bal 50 7 - exS.ledger.bal 50 7 = 2000000 ∧
        r.2.ledger.bal 1 7 = 1000000) = true := by
    decide +kernel
  obtain ⟨⟨s1, s2⟩, h, hz⟩ := okAnd_iff.1 this
  simp only [bind_ok_iff, pure_ok_iff, Prod.mk.injEq] at h
  obtain ⟨_, e1, _, e2, rfl, rfl⟩ := h
  simp only [decide_eq_true_eq] at hz
  exact ⟨_, _, e1, e2, hz.1, hz.2⟩

/-! ## C10 -/

/-- C10 (a): in every reachable state each pool's LP supply, and even the part held by the lock account nobody
controls, is at least `MinimumLiquidity`. -/
theorem C10_min_liquidity {c : Cfg} (hc : c.OK) {s : State} (h : Reach c s) {a b lp : Nat}
    (hlp : lpOf s a b = some lp) :
    c.minLiq ≤ s.ledger.bal lp c.lock ∧ c.minLiq ≤ s.ledger.iss lp := by
  have key : ∀ k p, s.pools k = some p → c.minLiq ≤ s.ledger.bal p.lp c.lock ∧ c.minLiq ≤ s.ledger.iss p.lp := by
    intro k p hp
    have h1 := ((h.inv hc).pool k p hp).2.2.1
    exact ⟨h1, h1.trans (Ledger.bal_le_iss (h.inv hc).wf _ _)⟩
  unfold lpOf at hlp
  split_ifs at hlp with h1 h2
  · simp only [Option.map_eq_some_iff] at hlp
    obtain ⟨p, hp, rfl⟩ := hlp
    exact key _ p hp
  · simp only [Option.map_eq_some_iff] at hlp
    obtain ⟨p, hp, rfl⟩ := hlp
    exact key _ p hp

/-- C10 (b): no step of the chain lowers any balance of the lock account. -/
theorem C10_lock_monotone {c : Cfg} (hc : c.OK) {s s' : State} (h : Reach c s) (hs : Step c s s') (x : Nat) :
    s.ledger.bal x c.lock ≤ s'.ledger.bal x c.lock :=
  hs.lock_mono hc (h.inv hc).wf x

example : Reach exCfg ex1 ∧ lpOf ex1 1 2 = some 50 ∧ ex1.ledger.bal 50 101 = 10 :=
  ⟨ex1_reach, by decide +kernel, by decide +kernel⟩

/-! ## C11 -/

/-- C11 as stated is FALSE of the code.  Turning the protocol fee on for a pool that already has liquidity makes
the next liquidity event mint LP tokens to the fee receiver although no trade ever happened: pool (5000, 20000)
with 10000 LP tokens, fee 20 %; a removal of 0 liquidity mints 2500 LP tokens (20 % of the pool) to receiver 9.
History: create_pool, update_protocol_fee, update_protocol_fee_receiver, remove_liquidity(0). -/
theorem C11_fee_without_growth :
    ∃ s1 s2 s3 s4, createPool exCfg ex0 (1, 2) (5000, 20000) 7 50 = .ok s1 ∧ updateFee s1 200000 = .ok s2 ∧
      updateFeeTo s2 9 = .ok s3 ∧ removeLiquidity exCfg s3 7 (1, 2) 0 = .ok s4 ∧
      view s1 1 2 = some (5000, 20000) ∧ view s3 1 2 = some (5000, 20000) ∧ s3.ledger.iss 50 = 10000 ∧
      s3.ledger.bal 50 9 = 0 ∧ s4.ledger.bal 50 9 = 2500 := by
  have : okAnd (do
      let s1 ← createPool exCfg ex0 (1, 2) (5000, 20000) 7 50
      let s2 ← updateFee s1 200000
      let s3 ← updateFeeTo s2 9
      let s4 ← removeLiquidity exCfg s3 7 (1, 2) 0
      pure (s1, s2, s3, s4)) (fun r => view r.1 1 2 = some (5000, 20000) ∧
        view r.2.2.1 1 2 = some (5000, 20000) ∧ r.2.2.1.ledger.iss 50 = 10000 ∧
        r.2.2.1.ledger.bal 50 9 = 0 ∧ r.2.2.2.ledger.bal 50 9 = 2500) = true := by
    decide +kernel
  obtain ⟨⟨s1, s2, s3, s4⟩, h, hz⟩ := okAnd_iff.1 this
  simp only [bind_ok_iff, pure_ok_iff, Prod.mk.injEq] at h
  obtain ⟨_, e1, _, e2, _, e3, _, e4, rfl, rfl, rfl, rfl⟩ := h
  simp only [decide_eq_true_eq] at hz
  exact ⟨_, _, _, _, e1, e2, e3, e4, hz⟩

/-- A run of trades (on any pools, by anybody) with no liquidity event and no fee change. -/
inductive Trades (c : Cfg) : State → State → Prop
  | refl (s : State) : Trades c s s
  | tail {s s1 s2 : State} {who a b x y : Nat} (h : Trades c s s1)
      (hs : doSwap c s1 who a b x = .ok (s2, y)) : Trades c s s2

/-- The state right after a liquidity event on pool `(b, q)` with the fee on: reserves are remembered. -/
theorem event_remembers_add {c : Cfg} {s s' : State} {who : Nat} {pair d m : Nat × Nat}
    (hon : feeOn s = true) (h : addLiquidity c s who pair d m = .ok s') :
    ∃ k p, s'.pools k = some p ∧ (k = (pair.1, pair.2) ∨ k = (pair.2, pair.1)) ∧
      p.baseLast = p.base ∧ p.quoteLast = p.quote := by
  obtain ⟨b, q, p, p', ib, iq, liq, f, db, dq, mb, mq, hpair, hp, hpools, hlp, eb, eq', _, _, _, _, _, _,
    _, _, hlast, _⟩ := addLiquidity_eff h
  refine ⟨(b, q), p', by rw [hpools]; simp, ?_, hlast hon⟩
  rcases hpair with ⟨_, rfl, rfl, _⟩ | ⟨_, rfl, rfl, _⟩ <;> simp

theorem event_remembers_remove {c : Cfg} {s s' : State} {who : Nat} {pair : Nat × Nat} {liq : Nat}
    (hon : feeOn s = true) (h : removeLiquidity c s who pair liq = .ok s') :
    ∃ k p, s'.pools k = some p ∧ (k = (pair.1, pair.2) ∨ k = (pair.2, pair.1)) ∧
      p.baseLast = p.base ∧ p.quoteLast = p.quote := by
  obtain ⟨b, q, p, p', f, ob, oq, hpair, hp, hpools, hlp, hb, hq, eb, eq', hf, _, _, _, hlast, _⟩ :=
    removeLiquidity_eff h
  refine ⟨(b, q), p', by rw [hpools]; simp, ?_, hlast hon⟩
  rcases hpair with ⟨_, rfl, rfl⟩ | ⟨_, rfl, rfl⟩ <;> simp

theorem Trades.keeps {c : Cfg} {s s' : State} (h : Trades c s s') {k : Nat × Nat} {p : Pool}
    (hp : s.pools k = some p) : ∃ p', s'.pools k = some p' ∧ p'.lp = p.lp ∧ p'.baseLast = p.baseLast ∧
      p'.quoteLast = p.quoteLast ∧ s'.fee = s.fee ∧ s'.feeTo = s.feeTo ∧ s'.ledger.iss = s.ledger.iss := by
  induction h with
  | refl => exact ⟨p, hp, rfl, rfl, rfl, rfl, rfl, rfl⟩
  | tail h hs ih =>
    obtain ⟨p1, h1, h2, h3, h4, h5, h6, h7⟩ := ih
    obtain ⟨k2, q, q', l1, l2, ra, rb, m, hq, rfl, hcase, hlp, hb, hqq, _, _, _, _, _, _, e1, e2⟩ := doSwap_ok hs
    have hiss : l2.iss = _ := (Ledger.transfer_iss e2).trans (Ledger.transfer_iss e1)
    by_cases e : k = k2
    · subst e
      rw [h1] at hq; cases hq
      exact ⟨q', by simp, hlp.trans h2, hb.trans h3, hqq.trans h4, h5, h6, hiss.trans h7⟩
    · exact ⟨p1, by simp [upd_of_ne _ _ e, h1], h2, h3, h4, h5, h6, hiss.trans h7⟩

/-- C11, the part that holds.  Let the fee be on with share `1/n`, `n = ⌊10⁶/fee⌋`.  If the pool's remembered reserves
are the ones right after a liquidity event made with the fee on, then after any number of trades the LP tokens
`f` minted to the protocol at the next liquidity event are worth at most `1/n` of the growth of `√k`:
`f/(T+f) · √k' ≤ (√k' − √k)/n`.
Missing compared with the English property: the first liquidity event after the fee is switched on (see
`C11_fee_without_growth`). -/
theorem C11_fee_of_growth_partial {c : Cfg} {s s' : State} (ht : Trades c s s') {k : Nat × Nat}
    {p p' : Pool} (hp : s.pools k = some p) (hp' : s'.pools k = some p')
    (hlast : p.baseLast = p.base ∧ p.quoteLast = p.quote) {f : Nat}
    (hf : protocolFees s' p' = .ok f) :
    f * (million / s'.fee) * Nat.sqrt (p'.base * p'.quote) ≤
      (s'.ledger.iss p'.lp + f) *
        (Nat.sqrt (p'.base * p'.quote) - Nat.sqrt (p.base * p.quote)) := by
  obtain ⟨p1, h1, h2, h3, h4, _⟩ := ht.keeps hp
  rw [hp'] at h1; cases h1
  unfold protocolFees at hf
  rw [h3, h4, hlast.1, hlast.2] at hf
  simp only at hf
  set R := Nat.sqrt (p'.base * p'.quote)
  set L := Nat.sqrt (p.base * p.quote)
  set T := s'.ledger.iss p'.lp
  split_ifs at hf with hle
  · simp only [Except.ok.injEq] at hf
    subst hf; simp
  · simp only [bind_ok_iff, precipFloor_ok_iff, csub_ok_iff, cdiv_ok_iff, toU128_ok_iff] at hf
    obtain ⟨r, ⟨hfee0, hr⟩, sc, ⟨hr1, hsc⟩, g, ⟨hd, hg⟩, hmax, rfl⟩ := hf
    have hr' : r = million / s'.fee := by
      rw [hr, Nat.one_mul]
      apply Nat.min_eq_right
      exact (Nat.div_le_self _ _).trans (by decide)
    have hmul : f * (R * sc + L) ≤ (R - L) * T := by rw [hg]; exact Nat.div_mul_le_self _ _
    have hsc' : million / s'.fee = sc + 1 := by omega
    rw [hsc']
    obtain ⟨D, hD⟩ : ∃ D, R = L + D := ⟨R - L, by omega⟩
    have hRL : R - L = D := by omega
    rw [hRL] at hmul ⊢
    rw [hD] at hmul ⊢
    have e1 : f * (sc + 1) * (L + D) = f * ((L + D) * sc + L) + f * D := by ring
    have e2 : (T + f) * D = D * T + f * D := by ring
    omega

/-- Non-vacuity: after an event with the fee on and one trade, 19 LP tokens go to the protocol. -/
example : protocolFees { exS with fee := 200000, feeTo := some 9, ledger := ⟨exS.ledger.bal, fun _ => 10000⟩ }
    ⟨20000, 5100, 20000, 5000, 50, 0, 0, 0⟩ = .ok 19 := by decide +kernel

/-! ## C12 -/

theorem sortAssets_swap (a b : Nat) (h : a ≠ b) : ∃ inv kb kq, sortAssets a b = .ok (inv, kb, kq) ∧
    sortAssets b a = .ok (!inv, kb, kq) := by
  rcases Nat.lt_or_gt_of_ne h with hlt | hlt
  · exact ⟨true, b, a, sortAssets_ok_iff.2 (Or.inr ⟨hlt, rfl⟩), sortAssets_ok_iff.2 (Or.inl ⟨hlt, rfl⟩)⟩
  · exact ⟨false, a, b, sortAssets_ok_iff.2 (Or.inl ⟨hlt, rfl⟩), sortAssets_ok_iff.2 (Or.inr ⟨hlt, rfl⟩)⟩

/-- C12 (a): `add_liquidity` does not depend on the order of the pair. -/
theorem C12_add_order (c : Cfg) (s : State) (who a b x y m n : Nat) :
    addLiquidity c s who (a, b) (x, y) (m, n) = addLiquidity c s who (b, a) (y, x) (n, m) := by
  by_cases h : a = b
  · subst h; simp [addLiquidity, sortAssets]
  · obtain ⟨inv, kb, kq, h1, h2⟩ := sortAssets_swap a b h
    unfold addLiquidity
    rw [h1, h2]
    simp only [ok_bind]
    cases inv <;> rfl

/-- C12 (b): `remove_liquidity` does not depend on the order of the pair. -/
theorem C12_remove_order (c : Cfg) (s : State) (who a b liq : Nat) :
    removeLiquidity c s who (a, b) liq = removeLiquidity c s who (b, a) liq := by
  by_cases h : a = b
  · subst h; rfl
  · obtain ⟨inv, kb, kq, h1, h2⟩ := sortAssets_swap a b h
    unfold removeLiquidity
    rw [h1, h2]
    simp only [ok_bind]

/-- C12 (c): `create_pool` does not depend on the order of the pair. -/
theorem C12_create_order (c : Cfg) (s : State) (a b x y rcv lp : Nat) :
    createPool c s (a, b) (x, y) rcv lp = createPool c s (b, a) (y, x) rcv lp := by
  by_cases h : a = b
  · subst h; simp [createPool, sortAssets]
  · obtain ⟨inv, kb, kq, h1, h2⟩ := sortAssets_swap a b h
    unfold createPool
    rw [h1, h2]
    simp only [ok_bind]
    cases inv <;> rfl

/-- C12 (d): a pair of identical assets is always rejected. -/
theorem C12_identical (c : Cfg) (s : State) (who a : Nat) (d m : Nat × Nat) (liq rcv lp x : Nat) :
    addLiquidity c s who (a, a) d m = .error .identicalAssets ∧
    removeLiquidity c s who (a, a) liq = .error .identicalAssets ∧
    createPool c s (a, a) d rcv lp = .error .identicalAssets ∧
    doSwap c s who a a x = .error .identicalAssets := by
  simp [addLiquidity, removeLiquidity, createPool, doSwap, sortAssets]

end Verif.Amm
