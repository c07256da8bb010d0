import Verif.Stable.Spec

set_option linter.unnecessarySeqFocus false
set_option linter.unusedSimpArgs false

namespace Verif.Stable
open Verif
open Verif.Amm (Pool Pool.new claimOf)

@[simp] theorem unwrapR_ok_iff {α : Type} {r : R α} {a : α} : unwrapR r = .ok a ↔ r = .ok a := by
  cases r <;> simp [unwrapR]

theorem sortAssets_ok_iff {a b : Nat} {r} : sortAssets a b = .ok r ↔
    (b < a ∧ r = (false, a, b)) ∨ (a < b ∧ r = (true, b, a)) := by
  unfold sortAssets
  split_ifs <;> simp_all [eq_comm] <;> omega

theorem updateOracle_ok {s : State} {p p' : Pool} (h : updateOracle s p = .ok p') :
    p'.base = p.base ∧ p'.quote = p.quote ∧ p'.lp = p.lp ∧ p'.baseLast = p.baseLast ∧
      p'.quoteLast = p.quoteLast := by
  unfold updateOracle at h
  split_ifs at h
  · simp only [bind_ok_iff, toU128_ok_iff, fixSatFromRational_ok_iff, cadd_ok_iff, pure_ok_iff] at h
    obtain ⟨_, _, _, _, _, _, _, _, _, _, _, _, rfl⟩ := h
    simp
  · simp only [pure_ok_iff] at h
    subst h; simp

/-- Everything about a successful swap. -/
theorem doSwap_ok {c : Cfg} {s s' : State} {who a b x y : Nat}
    (h : doSwap c s who a b x = .ok (s', y)) :
    ∃ (k : Nat × Nat) (p p' : Pool) (l1 l2 : Ledger) (ra rb m : Nat),
      s.pools k = some p ∧ s' = { s with ledger := l2, pools := upd s.pools k (some p') } ∧
      ((b < a ∧ k = (a, b) ∧ ra = p.base ∧ rb = p.quote ∧ p'.base = ra + x ∧ p'.quote = rb - y) ∨
       (a < b ∧ k = (b, a) ∧ ra = p.quote ∧ rb = p.base ∧ p'.quote = ra + x ∧ p'.base = rb - y)) ∧
      p'.lp = p.lp ∧ p'.baseLast = p.baseLast ∧ p'.quoteLast = p.quoteLast ∧
      precipFloor c.lpFee 1 = .ok m ∧ m ≤ x ∧ rb ≠ 0 ∧ amountOut c x ra rb = .ok y ∧
      ra + x ≤ maxU128 ∧ y ≤ rb ∧
      s.ledger.transfer a who c.acct x true = .ok l1 ∧
      l1.transfer b c.acct who y false = .ok l2 := by
  unfold doSwap at h
  simp only [bind_ok_iff, Prod.exists, sortAssets_ok_iff, okOr_ok_iff, ensure_ok_iff, cadd_ok_iff,
    csub_ok_iff, pure_ok_iff] at h
  obtain ⟨inv, kb, kq, hsort, p, hp, m, hm, _, hmx, _, hne, out, hout, ni, ⟨hni, rfl⟩, no, ⟨hno, rfl⟩,
    p', hp', l1, hl1, l2, hl2, heq⟩ := h
  obtain ⟨h1, h2, h3, h4, h5⟩ := updateOracle_ok hp'
  simp only [Prod.mk.injEq] at heq hsort
  obtain ⟨rfl, rfl⟩ := heq
  rcases hsort with ⟨hlt, rfl, rfl, rfl⟩ | ⟨hlt, rfl, rfl, rfl⟩
  · simp only [Bool.false_eq_true, if_false] at *
    exact ⟨_, p, p', l1, l2, p.base, p.quote, m, hp, rfl, Or.inl ⟨hlt, rfl, rfl, rfl, h1, h2⟩,
      h3, h4, h5, hm, hmx, hne, hout, hni, hno, hl1, hl2⟩
  · simp only [if_true] at *
    exact ⟨_, p, p', l1, l2, p.quote, p.base, m, hp, rfl, Or.inr ⟨hlt, rfl, rfl, rfl, h2, h1⟩,
      h3, h4, h5, hm, hmx, hne, hout, hni, hno, hl1, hl2⟩

theorem liquidityFor_ok {c : Cfg} {l l' : Ledger} {p : Pool} {ib iq liq : Nat}
    (h : liquidityFor c l p ib iq = .ok (l', liq)) :
    (l.iss p.lp = 0 ∧ l.mint p.lp c.lock c.minLiq = .ok l' ∧ c.minLiq ≤ Nat.sqrt (ib * iq) ∧
      liq = Nat.sqrt (ib * iq) - c.minLiq) ∨
    (l.iss p.lp ≠ 0 ∧ l' = l ∧ p.base ≠ 0 ∧ p.quote ≠ 0 ∧
      liq = min (ib * l.iss p.lp / p.base) (iq * l.iss p.lp / p.quote)) := by
  unfold liquidityFor at h
  split_ifs at h with h0
  · left
    simp only [firstLiquidity, bind_ok_iff, csub_ok_iff, toU128_ok_iff, pure_ok_iff,
      Prod.mk.injEq] at h
    obtain ⟨l1, hl1, r, ⟨hr, rfl⟩, r2, ⟨_, rfl⟩, rfl, rfl⟩ := h
    exact ⟨h0, hl1, hr, rfl⟩
  · right
    simp only [shareLiquidity, bind_ok_iff, cdiv_ok_iff, toU128_ok_iff, pure_ok_iff,
      Prod.mk.injEq] at h
    obtain ⟨r, ⟨x, ⟨hx, rfl⟩, x2, ⟨_, rfl⟩, y, ⟨hy, rfl⟩, y2, ⟨_, rfl⟩, rfl⟩, rfl, rfl⟩ := h
    exact ⟨h0, rfl, hx, hy, rfl⟩

/-- Everything about a successful `do_add_liquidity`. -/
theorem doAdd_ok {c : Cfg} {s s' : State} {who : Nat} {p p' : Pool} {ib iq b q : Nat}
    (h : doAdd c s who p ib iq b q = .ok (s', p')) :
    ∃ d0 l0 liq d1 m l1 l2 l3, d0Of c (s.pools (b, q)) = .ok d0 ∧
      liquidityFor c s.ledger p ib iq = .ok (l0, liq) ∧
      d1Of c (s.pools (b, q)) d0 (p.base + ib) (p.quote + iq) = .ok d1 ∧
      boostedLiquidity (s.ledger.iss p.lp) liq d0 d1 = .ok m ∧
      l0.mint p.lp who m = .ok l1 ∧
      l1.transfer b who c.acct ib true = .ok l2 ∧
      l2.transfer q who c.acct iq true = .ok l3 ∧
      s' = { s with ledger := l3 } ∧ p'.base = p.base + ib ∧ p'.quote = p.quote + iq ∧
      p'.lp = p.lp ∧ p.base + ib ≤ maxU128 ∧ p.quote + iq ≤ maxU128 ∧
      (feeOn c = true → p'.baseLast = p'.base ∧ p'.quoteLast = p'.quote) := by
  unfold doAdd at h
  simp only [bind_ok_iff, Prod.exists, cadd_ok_iff, unwrapR_ok_iff, pure_ok_iff, Prod.mk.injEq] at h
  obtain ⟨d0, hd0, l0, liq, hliq, nb, ⟨hnb, rfl⟩, nq, ⟨hnq, rfl⟩, d1, hd1, m, hm, l1, hl1, l2, hl2, l3, hl3,
    rfl, rfl⟩ := h
  refine ⟨d0, l0, liq, d1, m, l1, l2, l3, hd0, hliq, hd1, hm, hl1, hl2, hl3, rfl, ?_, ?_, ?_, hnb, hnq, ?_⟩
  · split <;> rfl
  · split <;> rfl
  · split <;> rfl
  · intro hf; simp [hf]

/-- Everything about a successful `do_remove_liquidity`. -/
theorem doRemove_ok {c : Cfg} {s s' : State} {who : Nat} {p p' : Pool} {liq b q : Nat}
    (h : doRemove c s who p liq b q = .ok (s', p')) :
    ∃ ob oq l1 l2 l3, s.ledger.iss p.lp ≠ 0 ∧
      ob = liq * p.base / s.ledger.iss p.lp ∧ oq = liq * p.quote / s.ledger.iss p.lp ∧
      s.ledger.burn p.lp who liq = .ok l1 ∧
      l1.transfer b c.acct who ob false = .ok l2 ∧
      l2.transfer q c.acct who oq false = .ok l3 ∧
      s' = { s with ledger := l3 } ∧ ob ≤ p.base ∧ oq ≤ p.quote ∧
      p'.base = p.base - ob ∧ p'.quote = p.quote - oq ∧
      p'.lp = p.lp ∧ (feeOn c = true → p'.baseLast = p'.base ∧ p'.quoteLast = p'.quote) := by
  unfold doRemove at h
  simp only [reservesToRemove, bind_ok_iff, Prod.exists, cdiv_ok_iff, toU128_ok_iff, csub_ok_iff,
    pure_ok_iff, Prod.mk.injEq] at h
  obtain ⟨ob, oq, ⟨b1, ⟨hz, rfl⟩, b2, ⟨_, rfl⟩, q1, ⟨_, rfl⟩, q2, ⟨_, rfl⟩, rfl, rfl⟩, nb, ⟨hnb, rfl⟩,
    nq, ⟨hnq, rfl⟩, l1, hl1, l2, hl2, l3, hl3, rfl, rfl⟩ := h
  refine ⟨_, _, l1, l2, l3, hz, rfl, rfl, hl1, hl2, hl3, rfl, hnb, hnq, ?_, ?_, ?_, ?_⟩
  · split <;> rfl
  · split <;> rfl
  · split <;> rfl
  · intro hf; simp [hf]

/-- Everything about a successful `do_mint_protocol_fee`. -/
theorem mintProtocolFee_ok {c : Cfg} {s s' : State} {p p' : Pool}
    (h : mintProtocolFee c s p = .ok (s', p')) :
    p'.base = p.base ∧ p'.quote = p.quote ∧ p'.lp = p.lp ∧
    s'.pools = s.pools ∧ s'.block = s.block ∧
    ((feeOn c = true ∧ p' = p ∧ ∃ f, protocolFees c s.ledger p = .ok f ∧
        s.ledger.mint p.lp c.feeTo f = .ok s'.ledger) ∨
     (feeOn c = false ∧ s' = s)) := by
  unfold mintProtocolFee at h
  split_ifs at h with hf hk
  · simp only [bind_ok_iff, pure_ok_iff, Prod.mk.injEq] at h
    obtain ⟨f, hfe, l, hl, rfl, rfl⟩ := h
    simp only [true_and]
    exact Or.inl ⟨hf, f, hfe, hl⟩
  · simp only [Except.ok.injEq, Prod.mk.injEq] at h
    obtain ⟨rfl, rfl⟩ := h
    simp_all
  · simp only [Except.ok.injEq, Prod.mk.injEq] at h
    obtain ⟨rfl, rfl⟩ := h
    simp_all

theorem mintProtocolFee_bal {c : Cfg} {s s' : State} {p p' : Pool}
    (h : mintProtocolFee c s p = .ok (s', p'))
    (x y : Nat) : s.ledger.bal x y ≤ s'.ledger.bal x y := by
  obtain ⟨-, -, -, -, -, h⟩ := mintProtocolFee_ok h
  rcases h with ⟨_, _, f, _, hm⟩ | ⟨_, rfl⟩
  · have := Ledger.mint_bal hm x y; omega
  · exact Nat.le_refl _

theorem mintProtocolFee_wf {c : Cfg} {s s' : State} {p p' : Pool}
    (h : mintProtocolFee c s p = .ok (s', p')) (hw : s.ledger.WF) : s'.ledger.WF := by
  obtain ⟨-, -, -, -, -, h⟩ := mintProtocolFee_ok h
  rcases h with ⟨_, _, f, _, hm⟩ | ⟨_, rfl⟩
  · exact Ledger.mint_wf hm hw
  · exact hw

/-- Shape of a successful `add_liquidity`. -/
theorem addLiquidity_ok {c : Cfg} {s s' : State} {who : Nat} {pair d m : Nat × Nat}
    (h : addLiquidity c s who pair d m = .ok s') :
    ∃ b q p ib iq s1 p1 s2 p2 db dq mb mq,
      ((pair.2 < pair.1 ∧ b = pair.1 ∧ q = pair.2 ∧ db = d.1 ∧ dq = d.2 ∧ mb = m.1 ∧ mq = m.2) ∨
       (pair.1 < pair.2 ∧ b = pair.2 ∧ q = pair.1 ∧ db = d.2 ∧ dq = d.1 ∧ mb = m.2 ∧ mq = m.1)) ∧
      s.pools (b, q) = some p ∧ idealAmounts p db dq = .ok (ib, iq) ∧
      ib ≤ db ∧ iq ≤ dq ∧ mb ≤ ib ∧ mq ≤ iq ∧
      mintProtocolFee c s p = .ok (s1, p1) ∧ doAdd c s1 who p1 ib iq b q = .ok (s2, p2) ∧
      s' = { s2 with pools := upd s2.pools (b, q) (some p2) } := by
  unfold addLiquidity at h
  simp only [bind_ok_iff, Prod.exists, sortAssets_ok_iff, okOr_ok_iff, ensure_ok_iff,
    pure_ok_iff] at h
  obtain ⟨inv, b, q, hsort, p, hp, ib, iq, hid, _, ⟨h1, h2⟩, _, ⟨h3, h4⟩, s1, p1, hfee, s2, p2, hadd,
    rfl⟩ := h
  simp only [Prod.mk.injEq] at hsort
  rcases hsort with ⟨hlt, rfl, rfl, rfl⟩ | ⟨hlt, rfl, rfl, rfl⟩
  · exact ⟨_, _, p, ib, iq, s1, p1, s2, p2, _, _, _, _, Or.inl ⟨hlt, rfl, rfl, rfl, rfl, rfl, rfl⟩,
      hp, hid, h1, h2, h3, h4, hfee, hadd, rfl⟩
  · exact ⟨_, _, p, ib, iq, s1, p1, s2, p2, _, _, _, _, Or.inr ⟨hlt, rfl, rfl, rfl, rfl, rfl, rfl⟩,
      hp, hid, h1, h2, h3, h4, hfee, hadd, rfl⟩

/-- Shape of a successful `remove_liquidity`. -/
theorem removeLiquidity_ok {c : Cfg} {s s' : State} {who : Nat} {pair : Nat × Nat} {liq : Nat}
    (h : removeLiquidity c s who pair liq = .ok s') :
    ∃ b q p s1 p1 s2 p2,
      ((pair.2 < pair.1 ∧ b = pair.1 ∧ q = pair.2) ∨ (pair.1 < pair.2 ∧ b = pair.2 ∧ q = pair.1)) ∧
      s.pools (b, q) = some p ∧
      mintProtocolFee c s p = .ok (s1, p1) ∧ doRemove c s1 who p1 liq b q = .ok (s2, p2) ∧
      s' = { s2 with pools := upd s2.pools (b, q) (some p2) } := by
  unfold removeLiquidity at h
  simp only [bind_ok_iff, Prod.exists, sortAssets_ok_iff, okOr_ok_iff, ensure_ok_iff,
    pure_ok_iff] at h
  obtain ⟨inv, b, q, hsort, p, hp, s1, p1, hfee, s2, p2, hrem, rfl⟩ := h
  simp only [Prod.mk.injEq] at hsort
  rcases hsort with ⟨hlt, rfl, rfl, rfl⟩ | ⟨hlt, rfl, rfl, rfl⟩
  · exact ⟨_, _, p, s1, p1, s2, p2, Or.inl ⟨hlt, rfl, rfl⟩, hp, hfee, hrem, rfl⟩
  · exact ⟨_, _, p, s1, p1, s2, p2, Or.inr ⟨hlt, rfl, rfl⟩, hp, hfee, hrem, rfl⟩

/-- Shape of a successful `create_pool`. -/
theorem createPool_ok {c : Cfg} {s s' : State} {pair am : Nat × Nat} {rcv lp : Nat}
    (h : createPool c s pair am rcv lp = .ok s') :
    ∃ b q ba qa s2 p2,
      ((pair.2 < pair.1 ∧ b = pair.1 ∧ q = pair.2 ∧ ba = am.1 ∧ qa = am.2) ∨
       (pair.1 < pair.2 ∧ b = pair.2 ∧ q = pair.1 ∧ ba = am.2 ∧ qa = am.1)) ∧
      s.pools (b, q) = none ∧ s.ledger.iss lp = 0 ∧
      doAdd c s rcv (Pool.new lp) ba qa b q = .ok (s2, p2) ∧
      s' = { s2 with pools := upd s2.pools (b, q) (some p2) } := by
  unfold createPool at h
  simp only [bind_ok_iff, Prod.exists, sortAssets_ok_iff, ensure_ok_iff, pure_ok_iff] at h
  obtain ⟨inv, b, q, hsort, _, hp, _, hiss, s2, p2, hadd, rfl⟩ := h
  simp only [Prod.mk.injEq] at hsort
  rcases hsort with ⟨hlt, rfl, rfl, rfl⟩ | ⟨hlt, rfl, rfl, rfl⟩
  · exact ⟨_, _, _, _, s2, p2, Or.inl ⟨hlt, rfl, rfl, rfl, rfl⟩, hp, hiss, hadd, rfl⟩
  · exact ⟨_, _, _, _, s2, p2, Or.inr ⟨hlt, rfl, rfl, rfl, rfl⟩, hp, hiss, hadd, rfl⟩

theorem reserves_ok_iff {s : State} {a b : Nat} {r} : reserves s a b = .ok r ↔ view s a b = some r := by
  unfold reserves view
  simp only [bind_ok_iff, Prod.exists, sortAssets_ok_iff, okOr_ok_iff, Prod.mk.injEq]
  constructor
  · rintro ⟨inv, kb, kq, ⟨hlt, rfl, rfl, rfl⟩ | ⟨hlt, rfl, rfl, rfl⟩, p, hp, hr⟩
    · simp only [Bool.false_eq_true, if_false, pure_ok_iff] at hr
      simp [hlt, hp, hr]
    · simp only [if_true, pure_ok_iff] at hr
      simp [hlt, Nat.lt_asymm hlt, hp, hr]
  · intro h
    split_ifs at h with h1 h2
    · simp only [Option.map_eq_some_iff] at h
      obtain ⟨p, hp, hr⟩ := h
      exact ⟨false, a, b, Or.inl ⟨h1, rfl, rfl, rfl⟩, p, hp, by simpa using hr⟩
    · simp only [Option.map_eq_some_iff] at h
      obtain ⟨p, hp, hr⟩ := h
      exact ⟨true, b, a, Or.inr ⟨h2, rfl, rfl, rfl⟩, p, hp, by simpa using hr⟩

end Verif.Stable
