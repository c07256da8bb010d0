import Verif.Amm.Spec

set_option linter.unnecessarySeqFocus false
set_option linter.unusedSimpArgs false

namespace Verif.Amm
open Verif

/-! ### Arithmetic -/

theorem net_eq {f x : Nat} (hf : f ≤ million) : x - pmulCeil f x = x * (million - f) / million := by
  unfold pmulCeil ceilDiv million at *
  have h1 : x * (1000000 - f) = x * 1000000 - x * f := by rw [Nat.mul_sub]
  have h2 : x * f ≤ x * 1000000 := Nat.mul_le_mul_left x hf
  rw [h1]
  generalize x * f = z at *
  omega

theorem amountOut_ok_iff {c : Cfg} {x ri ro y : Nat} :
    amountOut c x ri ro = .ok y ↔ pmulCeil c.lpFee x ≤ x ∧ ri + (x - pmulCeil c.lpFee x) ≠ 0 ∧
      y ≤ maxU128 ∧ y = (x - pmulCeil c.lpFee x) * ro / (ri + (x - pmulCeil c.lpFee x)) := by
  unfold amountOut
  simp only [bind_ok_iff, csub_ok_iff, cdiv_ok_iff, toU128_ok_iff]
  constructor
  · rintro ⟨a, ⟨h1, rfl⟩, b, ⟨h2, rfl⟩, h3, rfl⟩
    exact ⟨h1, h2, h3, rfl⟩
  · rintro ⟨h1, h2, h3, h4⟩
    exact ⟨_, ⟨h1, rfl⟩, _, ⟨h2, rfl⟩, h4 ▸ h3, h4⟩

/-- `floor(n·ro/(ri+n)) = y` keeps the product: `ri·ro ≤ (ri+n)·(ro-y)`. -/
theorem product_core {n ri ro y : Nat} (hy : y = n * ro / (ri + n)) :
    ri * ro ≤ (ri + n) * (ro - y) := by
  have h : y * (ri + n) ≤ n * ro := by rw [hy]; exact Nat.div_mul_le_self _ _
  have h2 : (ri + n) * ro = ri * ro + n * ro := by ring
  have h3 : (ri + n) * y = y * (ri + n) := by ring
  rw [Nat.mul_sub]
  omega

theorem out_le_core {n ri ro y : Nat} (hy : y = n * ro / (ri + n)) : y ≤ ro := by
  rw [hy]
  apply Nat.div_le_of_le_mul
  exact Nat.mul_le_mul_right ro (by omega)

theorem out_lt_core {n ri ro y : Nat} (hri : 0 < ri) (hro : 0 < ro) (hy : y = n * ro / (ri + n)) :
    y < ro := by
  rw [hy, Nat.div_lt_iff_lt_mul (by omega)]
  have : ro * (ri + n) = ro * ri + n * ro := by ring
  have := Nat.mul_pos hro hri
  omega

theorem out_mono_core {n m ri ro : Nat} (h : n ≤ m) (hd : ri + n ≠ 0) :
    n * ro / (ri + n) ≤ m * ro / (ri + m) := by
  rw [Nat.le_div_iff_mul_le (by omega)]
  have h1 := Nat.div_mul_le_self (n * ro) (ri + n)
  set q := n * ro / (ri + n) with hq
  have h2 : q ≤ ro := out_le_core hq
  have e : q * (ri + m) = q * (ri + n) + q * (m - n) := by
    rw [← Nat.mul_add]; congr 1; omega
  have e2 : m * ro = n * ro + ro * (m - n) := by
    rw [Nat.mul_comm ro, ← Nat.add_mul]; congr 1; omega
  have h3 := Nat.mul_le_mul_right (m - n) h2
  omega

/-! ### Effects of the building blocks -/

theorem sortAssets_ok_iff {a b : Nat} {r} : sortAssets a b = .ok r ↔
    (b < a ∧ r = (false, a, b)) ∨ (a < b ∧ r = (true, b, a)) := by
  unfold sortAssets
  split_ifs <;> simp_all [eq_comm] <;> omega

theorem updateOracle_ok {s : State} {p p' : Pool} (h : updateOracle s p = .ok p') :
    p'.base = p.base ∧ p'.quote = p.quote ∧ p'.lp = p.lp ∧ p'.baseLast = p.baseLast ∧
      p'.quoteLast = p.quoteLast := by
  unfold updateOracle at h
  split_ifs at h
  · simp only [bind_ok_iff, toU128_ok_iff, fixSatFromRational_ok_iff, cadd_ok_iff, pure_ok_iff] at h
    obtain ⟨_, _, _, _, _, _, _, _, _, _, _, _, rfl⟩ := h
    simp
  · simp only [pure_ok_iff] at h
    subst h; simp

/-- Everything about a successful swap. -/
theorem doSwap_ok {c : Cfg} {s s' : State} {who a b x y : Nat}
    (h : doSwap c s who a b x = .ok (s', y)) :
    ∃ (k : Nat × Nat) (p p' : Pool) (l1 l2 : Ledger) (ra rb m : Nat),
      s.pools k = some p ∧ s' = { s with ledger := l2, pools := upd s.pools k (some p') } ∧
      ((b < a ∧ k = (a, b) ∧ ra = p.base ∧ rb = p.quote ∧ p'.base = ra + x ∧ p'.quote = rb - y) ∨
       (a < b ∧ k = (b, a) ∧ ra = p.quote ∧ rb = p.base ∧ p'.quote = ra + x ∧ p'.base = rb - y)) ∧
      p'.lp = p.lp ∧ p'.baseLast = p.baseLast ∧ p'.quoteLast = p.quoteLast ∧
      precipCeil c.lpFee 1 = .ok m ∧ m ≤ x ∧ rb ≠ 0 ∧ amountOut c x ra rb = .ok y ∧
      ra + x ≤ maxU128 ∧ y ≤ rb ∧
      s.ledger.transfer a who c.acct x (a = c.native) = .ok l1 ∧
      l1.transfer b c.acct who y (b = c.native) = .ok l2 := by
  unfold doSwap at h
  simp only [bind_ok_iff, Prod.exists, sortAssets_ok_iff, okOr_ok_iff, ensure_ok_iff, cadd_ok_iff,
    csub_ok_iff, pure_ok_iff] at h
  obtain ⟨inv, kb, kq, hsort, p, hp, m, hm, _, hmx, _, hne, out, hout, ni, ⟨hni, rfl⟩, no, ⟨hno, rfl⟩,
    p', hp', l1, hl1, l2, hl2, heq⟩ := h
  obtain ⟨h1, h2, h3, h4, h5⟩ := updateOracle_ok hp'
  simp only [Prod.mk.injEq] at heq hsort
  obtain ⟨rfl, rfl⟩ := heq
  rcases hsort with ⟨hlt, rfl, rfl, rfl⟩ | ⟨hlt, rfl, rfl, rfl⟩
  · simp only [Bool.false_eq_true, if_false] at *
    exact ⟨_, p, p', l1, l2, p.base, p.quote, m, hp, rfl, Or.inl ⟨hlt, rfl, rfl, rfl, h1, h2⟩,
      h3, h4, h5, hm, hmx, hne, hout, hni, hno, hl1, hl2⟩
  · simp only [if_true] at *
    exact ⟨_, p, p', l1, l2, p.quote, p.base, m, hp, rfl, Or.inr ⟨hlt, rfl, rfl, rfl, h2, h1⟩,
      h3, h4, h5, hm, hmx, hne, hout, hni, hno, hl1, hl2⟩

theorem liquidityFor_ok {c : Cfg} {l l' : Ledger} {p : Pool} {ib iq liq : Nat}
    (h : liquidityFor c l p ib iq = .ok (l', liq)) :
    (l.iss p.lp = 0 ∧ l.mint p.lp c.lock c.minLiq = .ok l' ∧ c.minLiq ≤ Nat.sqrt (ib * iq) ∧
      liq = Nat.sqrt (ib * iq) - c.minLiq) ∨
    (l.iss p.lp ≠ 0 ∧ l' = l ∧ p.base ≠ 0 ∧ p.quote ≠ 0 ∧
      liq = min (ib * l.iss p.lp / p.base) (iq * l.iss p.lp / p.quote)) := by
  unfold liquidityFor at h
  split_ifs at h with h0
  · left
    simp only [firstLiquidity, bind_ok_iff, csub_ok_iff, toU128_ok_iff, pure_ok_iff,
      Prod.mk.injEq] at h
    obtain ⟨l1, hl1, r, ⟨hr, rfl⟩, r2, ⟨_, rfl⟩, rfl, rfl⟩ := h
    exact ⟨h0, hl1, hr, rfl⟩
  · right
    simp only [shareLiquidity, bind_ok_iff, cdiv_ok_iff, toU128_ok_iff, pure_ok_iff,
      Prod.mk.injEq] at h
    obtain ⟨r, ⟨x, ⟨hx, rfl⟩, x2, ⟨_, rfl⟩, y, ⟨hy, rfl⟩, y2, ⟨_, rfl⟩, rfl⟩, rfl, rfl⟩ := h
    exact ⟨h0, rfl, hx, hy, rfl⟩

/-- Everything about a successful `do_add_liquidity`. -/
theorem doAdd_ok {c : Cfg} {s s' : State} {who : Nat} {p p' : Pool} {ib iq b q : Nat}
    (h : doAdd c s who p ib iq b q = .ok (s', p')) :
    ∃ l0 liq l1 l2 l3, liquidityFor c s.ledger p ib iq = .ok (l0, liq) ∧
      l0.mint p.lp who liq = .ok l1 ∧
      l1.transfer b who c.acct ib (b = c.native) = .ok l2 ∧
      l2.transfer q who c.acct iq (q = c.native) = .ok l3 ∧
      s' = { s with ledger := l3 } ∧ p'.base = p.base + ib ∧ p'.quote = p.quote + iq ∧
      p'.lp = p.lp ∧ p.base + ib ≤ maxU128 ∧ p.quote + iq ≤ maxU128 ∧
      (feeOn s = true → p'.baseLast = p'.base ∧ p'.quoteLast = p'.quote) := by
  unfold doAdd at h
  simp only [bind_ok_iff, Prod.exists, cadd_ok_iff, pure_ok_iff, Prod.mk.injEq] at h
  obtain ⟨l0, liq, hliq, nb, ⟨hnb, rfl⟩, nq, ⟨hnq, rfl⟩, l1, hl1, l2, hl2, l3, hl3, rfl, rfl⟩ := h
  refine ⟨l0, liq, l1, l2, l3, hliq, hl1, hl2, hl3, rfl, ?_, ?_, ?_, hnb, hnq, ?_⟩
  · split <;> rfl
  · split <;> rfl
  · split <;> rfl
  · intro hf; simp [hf]

/-- Everything about a successful `do_remove_liquidity`. -/
theorem doRemove_ok {c : Cfg} {s s' : State} {who : Nat} {p p' : Pool} {liq b q : Nat}
    (h : doRemove c s who p liq b q = .ok (s', p')) :
    ∃ ob oq l1 l2 l3, s.ledger.iss p.lp ≠ 0 ∧
      ob = liq * p.base / s.ledger.iss p.lp ∧ oq = liq * p.quote / s.ledger.iss p.lp ∧
      s.ledger.burn p.lp who liq = .ok l1 ∧
      l1.transfer b c.acct who ob (b = c.native) = .ok l2 ∧
      l2.transfer q c.acct who oq (q = c.native) = .ok l3 ∧
      s' = { s with ledger := l3 } ∧ ob ≤ p.base ∧ oq ≤ p.quote ∧
      p'.base = p.base - ob ∧ p'.quote = p.quote - oq ∧
      p'.lp = p.lp ∧ (feeOn s = true → p'.baseLast = p'.base ∧ p'.quoteLast = p'.quote) := by
  unfold doRemove at h
  simp only [reservesToRemove, bind_ok_iff, Prod.exists, cdiv_ok_iff, toU128_ok_iff, csub_ok_iff,
    pure_ok_iff, Prod.mk.injEq] at h
  obtain ⟨ob, oq, ⟨b1, ⟨hz, rfl⟩, b2, ⟨_, rfl⟩, q1, ⟨_, rfl⟩, q2, ⟨_, rfl⟩, rfl, rfl⟩, nb, ⟨hnb, rfl⟩,
    nq, ⟨hnq, rfl⟩, l1, hl1, l2, hl2, l3, hl3, rfl, rfl⟩ := h
  refine ⟨_, _, l1, l2, l3, hz, rfl, rfl, hl1, hl2, hl3, rfl, hnb, hnq, ?_, ?_, ?_, ?_⟩
  · split <;> rfl
  · split <;> rfl
  · split <;> rfl
  · intro hf; simp [hf]

/-- Everything about a successful `do_mint_protocol_fee`. -/
theorem mintProtocolFee_ok {s s' : State} {p p' : Pool} (h : mintProtocolFee s p = .ok (s', p')) :
    p'.base = p.base ∧ p'.quote = p.quote ∧ p'.lp = p.lp ∧ s'.fee = s.fee ∧ s'.feeTo = s.feeTo ∧
    s'.pools = s.pools ∧ s'.block = s.block ∧
    ((feeOn s = true ∧ p' = p ∧ ∃ f rcv, protocolFees s p = .ok f ∧ s.feeTo = some rcv ∧
        s.ledger.mint p.lp rcv f = .ok s'.ledger) ∨
     (feeOn s = false ∧ s' = s)) := by
  unfold mintProtocolFee at h
  split_ifs at h with hf hk
  · simp only [bind_ok_iff, okOr_ok_iff, pure_ok_iff, Prod.mk.injEq] at h
    obtain ⟨f, hfe, rcv, hr, l, hl, rfl, rfl⟩ := h
    simp only [true_and]
    exact Or.inl ⟨hf, f, rcv, hfe, hr, hl⟩
  · simp only [Except.ok.injEq, Prod.mk.injEq] at h
    obtain ⟨rfl, rfl⟩ := h
    simp_all
  · simp only [Except.ok.injEq, Prod.mk.injEq] at h
    obtain ⟨rfl, rfl⟩ := h
    simp_all

theorem mintProtocolFee_bal {s s' : State} {p p' : Pool} (h : mintProtocolFee s p = .ok (s', p'))
    (x y : Nat) : s.ledger.bal x y ≤ s'.ledger.bal x y := by
  obtain ⟨-, -, -, -, -, -, -, h⟩ := mintProtocolFee_ok h
  rcases h with ⟨_, _, f, rcv, _, _, hm⟩ | ⟨_, rfl⟩
  · have := Ledger.mint_bal hm x y; omega
  · exact Nat.le_refl _

theorem mintProtocolFee_wf {s s' : State} {p p' : Pool} (h : mintProtocolFee s p = .ok (s', p'))
    (hw : s.ledger.WF) : s'.ledger.WF := by
  obtain ⟨-, -, -, -, -, -, -, h⟩ := mintProtocolFee_ok h
  rcases h with ⟨_, _, f, rcv, _, _, hm⟩ | ⟨_, rfl⟩
  · exact Ledger.mint_wf hm hw
  · exact hw

/-- Shape of a successful `add_liquidity`. -/
theorem addLiquidity_ok {c : Cfg} {s s' : State} {who : Nat} {pair d m : Nat × Nat}
    (h : addLiquidity c s who pair d m = .ok s') :
    ∃ b q p ib iq s1 p1 s2 p2 db dq mb mq,
      ((pair.2 < pair.1 ∧ b = pair.1 ∧ q = pair.2 ∧ db = d.1 ∧ dq = d.2 ∧ mb = m.1 ∧ mq = m.2) ∨
       (pair.1 < pair.2 ∧ b = pair.2 ∧ q = pair.1 ∧ db = d.2 ∧ dq = d.1 ∧ mb = m.2 ∧ mq = m.1)) ∧
      s.pools (b, q) = some p ∧ idealAmounts p db dq = .ok (ib, iq) ∧
      ib ≤ db ∧ iq ≤ dq ∧ mb ≤ ib ∧ mq ≤ iq ∧
      mintProtocolFee s p = .ok (s1, p1) ∧ doAdd c s1 who p1 ib iq b q = .ok (s2, p2) ∧
      s' = { s2 with pools := upd s2.pools (b, q) (some p2) } := by
  unfold addLiquidity at h
  simp only [bind_ok_iff, Prod.exists, sortAssets_ok_iff, okOr_ok_iff, ensure_ok_iff,
    pure_ok_iff] at h
  obtain ⟨inv, b, q, hsort, p, hp, ib, iq, hid, _, ⟨h1, h2⟩, _, ⟨h3, h4⟩, s1, p1, hfee, s2, p2, hadd,
    rfl⟩ := h
  simp only [Prod.mk.injEq] at hsort
  rcases hsort with ⟨hlt, rfl, rfl, rfl⟩ | ⟨hlt, rfl, rfl, rfl⟩
  · exact ⟨_, _, p, ib, iq, s1, p1, s2, p2, _, _, _, _, Or.inl ⟨hlt, rfl, rfl, rfl, rfl, rfl, rfl⟩,
      hp, hid, h1, h2, h3, h4, hfee, hadd, rfl⟩
  · exact ⟨_, _, p, ib, iq, s1, p1, s2, p2, _, _, _, _, Or.inr ⟨hlt, rfl, rfl, rfl, rfl, rfl, rfl⟩,
      hp, hid, h1, h2, h3, h4, hfee, hadd, rfl⟩

/-- Shape of a successful `remove_liquidity`. -/
theorem removeLiquidity_ok {c : Cfg} {s s' : State} {who : Nat} {pair : Nat × Nat} {liq : Nat}
    (h : removeLiquidity c s who pair liq = .ok s') :
    ∃ b q p s1 p1 s2 p2,
      ((pair.2 < pair.1 ∧ b = pair.1 ∧ q = pair.2) ∨ (pair.1 < pair.2 ∧ b = pair.2 ∧ q = pair.1)) ∧
      s.pools (b, q) = some p ∧
      mintProtocolFee s p = .ok (s1, p1) ∧ doRemove c s1 who p1 liq b q = .ok (s2, p2) ∧
      s' = { s2 with pools := upd s2.pools (b, q) (some p2) } := by
  unfold removeLiquidity at h
  simp only [bind_ok_iff, Prod.exists, sortAssets_ok_iff, okOr_ok_iff, ensure_ok_iff,
    pure_ok_iff] at h
  obtain ⟨inv, b, q, hsort, p, hp, s1, p1, hfee, s2, p2, hrem, rfl⟩ := h
  simp only [Prod.mk.injEq] at hsort
  rcases hsort with ⟨hlt, rfl, rfl, rfl⟩ | ⟨hlt, rfl, rfl, rfl⟩
  · exact ⟨_, _, p, s1, p1, s2, p2, Or.inl ⟨hlt, rfl, rfl⟩, hp, hfee, hrem, rfl⟩
  · exact ⟨_, _, p, s1, p1, s2, p2, Or.inr ⟨hlt, rfl, rfl⟩, hp, hfee, hrem, rfl⟩

/-- Shape of a successful `create_pool`. -/
theorem createPool_ok {c : Cfg} {s s' : State} {pair am : Nat × Nat} {rcv lp : Nat}
    (h : createPool c s pair am rcv lp = .ok s') :
    ∃ b q ba qa s2 p2,
      ((pair.2 < pair.1 ∧ b = pair.1 ∧ q = pair.2 ∧ ba = am.1 ∧ qa = am.2) ∨
       (pair.1 < pair.2 ∧ b = pair.2 ∧ q = pair.1 ∧ ba = am.2 ∧ qa = am.1)) ∧
      s.pools (b, q) = none ∧ s.ledger.iss lp = 0 ∧
      doAdd c s rcv (Pool.new lp) ba qa b q = .ok (s2, p2) ∧
      s' = { s2 with pools := upd s2.pools (b, q) (some p2) } := by
  unfold createPool at h
  simp only [bind_ok_iff, Prod.exists, sortAssets_ok_iff, ensure_ok_iff, pure_ok_iff] at h
  obtain ⟨inv, b, q, hsort, _, hp, _, hiss, s2, p2, hadd, rfl⟩ := h
  simp only [Prod.mk.injEq] at hsort
  rcases hsort with ⟨hlt, rfl, rfl, rfl⟩ | ⟨hlt, rfl, rfl, rfl⟩
  · exact ⟨_, _, _, _, s2, p2, Or.inl ⟨hlt, rfl, rfl, rfl, rfl⟩, hp, hiss, hadd, rfl⟩
  · exact ⟨_, _, _, _, s2, p2, Or.inr ⟨hlt, rfl, rfl, rfl, rfl⟩, hp, hiss, hadd, rfl⟩

theorem reserves_ok_iff {s : State} {a b : Nat} {r} : reserves s a b = .ok r ↔ view s a b = some r := by
  unfold reserves view
  simp only [bind_ok_iff, Prod.exists, sortAssets_ok_iff, okOr_ok_iff, Prod.mk.injEq]
  constructor
  · rintro ⟨inv, kb, kq, ⟨hlt, rfl, rfl, rfl⟩ | ⟨hlt, rfl, rfl, rfl⟩, p, hp, hr⟩
    · simp only [Bool.false_eq_true, if_false, pure_ok_iff] at hr
      simp [hlt, hp, hr]
    · simp only [if_true, pure_ok_iff] at hr
      simp [hlt, Nat.lt_asymm hlt, hp, hr]
  · intro h
    split_ifs at h with h1 h2
    · simp only [Option.map_eq_some_iff] at h
      obtain ⟨p, hp, hr⟩ := h
      exact ⟨false, a, b, Or.inl ⟨h1, rfl, rfl, rfl⟩, p, hp, by simpa using hr⟩
    · simp only [Option.map_eq_some_iff] at h
      obtain ⟨p, hp, hr⟩ := h
      exact ⟨true, b, a, Or.inr ⟨h2, rfl, rfl, rfl⟩, p, hp, by simpa using hr⟩

theorem amountsOut_two {c : Cfg} {s : State} {a b x y ra rb : Nat} (hv : view s a b = some (ra, rb))
    (hout : amountOut c x ra rb = .ok y) : amountsOut c s x [a, b] = .ok [x, y] := by
  have hr := reserves_ok_iff.2 hv
  simp only [amountsOut, amountsOutFrom, bind_ok_iff, Prod.exists, pure_ok_iff]
  exact ⟨[y], ⟨ra, rb, hr, y, hout, [], rfl, rfl⟩, rfl⟩

end Verif.Amm
