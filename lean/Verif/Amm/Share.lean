import Verif.Amm.Props3

/-!
# What an LP token stands for (for C202)

The measure a price feed can use: the product of the reserves per square of the LP supply, `x·y / S²`.  No trade, deposit
or withdrawal lowers it, for any pool, whoever calls; only the protocol's own fee dilutes it, when that is switched on.
-/

namespace Verif.Amm
open Verif

/-- Only the pool's own LP token changes supply in `add_liquidity`. -/
theorem addLiquidity_iss {c : Cfg} {s s' : State} {who : Nat} {pair d m : Nat × Nat}
    (h : addLiquidity c s who pair d m = .ok s') :
    ∃ b q p, s.pools (b, q) = some p ∧ ((b, q) = (pair.1, pair.2) ∨ (b, q) = (pair.2, pair.1)) ∧
      ∀ x, x ≠ p.lp → s'.ledger.iss x = s.ledger.iss x := by
  obtain ⟨b, q, p, ib, iq, s1, p1, s2, p2, db, dq, mb, mq, hpair, hp, hid, h1, h2, h3, h4, hfee, hadd, rfl⟩ :=
    addLiquidity_ok h
  obtain ⟨_, _, f3, _⟩ := mintProtocolFee_ok hfee
  obtain ⟨f, _, _, _, g4, _⟩ := mintProtocolFee_iss hfee
  obtain ⟨l0, liq, l1, l2, l3, e0, e1, e2, e3, rfl, _⟩ := doAdd_ok hadd
  refine ⟨b, q, p, hp, ?_, fun x hx => ?_⟩
  · rcases hpair with ⟨_, rfl, rfl, _⟩ | ⟨_, rfl, rfl, _⟩ <;> simp
  · have i1 := Ledger.mint_iss e1 x
    have i2 := Ledger.transfer_iss e2
    have i3 := Ledger.transfer_iss e3
    rw [f3] at i1
    rw [if_neg hx] at i1
    have i0 : l0.iss x = s1.ledger.iss x := by
      rcases liquidityFor_ok e0 with ⟨_, hm, _⟩ | ⟨_, rfl, _⟩
      · have := Ledger.mint_iss hm x
        rw [f3, if_neg hx] at this
        simpa using this
      · rfl
    show l3.iss x = s.ledger.iss x
    rw [i3, i2, i1, ← g4 x hx, ← i0]
    simp

/-- The same for `remove_liquidity`. -/
theorem removeLiquidity_iss {c : Cfg} {s s' : State} {who : Nat} {pair : Nat × Nat} {liq : Nat}
    (h : removeLiquidity c s who pair liq = .ok s') :
    ∃ b q p, s.pools (b, q) = some p ∧ ((b, q) = (pair.1, pair.2) ∨ (b, q) = (pair.2, pair.1)) ∧
      ∀ x, x ≠ p.lp → s'.ledger.iss x = s.ledger.iss x := by
  obtain ⟨b, q, p, s1, p1, s2, p2, hpair, hp, hfee, hrem, rfl⟩ := removeLiquidity_ok h
  obtain ⟨_, _, f3, _⟩ := mintProtocolFee_ok hfee
  obtain ⟨f, _, _, _, g4, _⟩ := mintProtocolFee_iss hfee
  obtain ⟨ob, oq, l1, l2, l3, _, _, _, e1, e2, e3, rfl, _⟩ := doRemove_ok hrem
  refine ⟨b, q, p, hp, ?_, fun x hx => ?_⟩
  · rcases hpair with ⟨_, rfl, rfl⟩ | ⟨_, rfl, rfl⟩ <;> simp
  · have i1 := Ledger.burn_iss e1 x
    have i2 := Ledger.transfer_iss e2
    have i3 := Ledger.transfer_iss e3
    rw [f3, if_neg hx] at i1
    show l3.iss x = s.ledger.iss x
    rw [i3, i2, ← g4 x hx]
    simpa using i1

/-- Only the new LP token gets a supply in `create_pool`. -/
theorem createPool_iss {c : Cfg} {s s' : State} {pair am : Nat × Nat} {rcv lp : Nat}
    (h : createPool c s pair am rcv lp = .ok s') :
    s.ledger.iss lp = 0 ∧ (∀ x, x ≠ lp → s'.ledger.iss x = s.ledger.iss x) ∧
    (∀ k p, s.pools k = some p → s'.pools k = some p) := by
  obtain ⟨b, q, ba, qa, s2, p2, _, hn, hz, hadd, rfl⟩ := createPool_ok h
  obtain ⟨l0, liq, l1, l2, l3, e0, e1, e2, e3, rfl, _⟩ := doAdd_ok hadd
  refine ⟨hz, fun x hx => ?_, fun k p hk => ?_⟩
  · have i1 := Ledger.mint_iss e1 x
    have i2 := Ledger.transfer_iss e2
    have i3 := Ledger.transfer_iss e3
    have hx' : x ≠ (Pool.new lp).lp := hx
    rw [if_neg hx'] at i1
    have i0 : l0.iss x = s.ledger.iss x := by
      rcases liquidityFor_ok e0 with ⟨_, hm, _⟩ | ⟨_, rfl, _⟩
      · have := Ledger.mint_iss hm x
        rw [if_neg hx'] at this
        simpa using this
      · rfl
    show l3.iss x = s.ledger.iss x
    rw [i3, i2, i1, ← i0]
    simp
  · have hne : k ≠ (b, q) := by
      rintro rfl
      rw [hn] at hk
      cases hk
    show upd s.pools (b, q) (some p2) k = some p
    rw [upd_of_ne _ _ hne]
    exact hk

/-- A trade changes one pool, whose product of reserves does not fall, no supply, and no balance of third parties. -/
theorem doSwap_grows {c : Cfg} {s t : State} {who a b x y : Nat} (h : doSwap c s who a b x = .ok (t, y)) :
    ∃ k p p', s.pools k = some p ∧ t.pools = upd s.pools k (some p') ∧ p'.lp = p.lp ∧
      p.base * p.quote ≤ p'.base * p'.quote ∧ t.ledger.iss = s.ledger.iss ∧
      ∀ z v, v ≠ who → v ≠ c.acct → t.ledger.bal z v = s.ledger.bal z v := by
  obtain ⟨ra, rb, ra', rb', v1, v2, e1, e2, _, _, hle, _⟩ := C01_swap_product h
  obtain ⟨k2, p0, p', l1, l2, ra, rb, m, hp0, rfl, hcase, hlp, _, _, _, _, _, _, _, _, t1, t2⟩ := doSwap_ok h
  refine ⟨k2, p0, p', hp0, rfl, hlp, ?_, (Ledger.transfer_iss t2).trans (Ledger.transfer_iss t1), fun z v hv hv' => ?_⟩
  · rcases hcase with ⟨hl, rfl, rfl, rfl, g1, g2⟩ | ⟨hl, rfl, rfl, rfl, g1, g2⟩
    · unfold view at v1 v2
      rw [if_pos hl] at v1 v2
      simp only [hp0, upd_same, Option.map_some, Option.some.injEq, Prod.mk.injEq] at v1 v2
      obtain ⟨rfl, rfl⟩ := v1
      obtain ⟨rfl, rfl⟩ := v2
      exact hle
    · unfold view at v1 v2
      rw [if_neg (Nat.lt_asymm hl), if_pos hl] at v1 v2
      simp only [hp0, upd_same, Option.map_some, Option.some.injEq, Prod.mk.injEq] at v1 v2
      obtain ⟨rfl, rfl⟩ := v1
      obtain ⟨rfl, rfl⟩ := v2
      rw [Nat.mul_comm p0.base, Nat.mul_comm p'.base]
      exact hle
  · have b1 := Ledger.transfer_bal t1 z v
    have b2 := Ledger.transfer_bal t2 z v
    simp only [hv, hv', and_false, if_false, Nat.add_zero] at b1 b2
    exact b2.trans b1

/-- A run of trades, in the same terms. -/
theorem Trades.grows {c : Cfg} {s s' : State} (h : Trades c s s') : s'.ledger.iss = s.ledger.iss ∧
    ∀ k, (s'.pools k = none → s.pools k = none) ∧ ∀ p', s'.pools k = some p' →
      ∃ p, s.pools k = some p ∧ p'.lp = p.lp ∧ p.base * p.quote ≤ p'.base * p'.quote := by
  induction h with
  | refl => exact ⟨rfl, fun k => ⟨id, fun p' hp => ⟨p', hp, rfl, Nat.le_refl _⟩⟩⟩
  | tail h hs ih =>
    obtain ⟨hi, hk⟩ := ih
    obtain ⟨k2, p0, p1, hp0, hpools, hlp, hle, hiss, _⟩ := doSwap_grows hs
    refine ⟨hiss.trans hi, fun k => ?_⟩
    rw [hpools]
    by_cases e : k = k2
    · subst e
      rw [upd_same]
      refine ⟨by rintro ⟨⟩, ?_⟩
      rintro p' ⟨⟩
      obtain ⟨p, g1, g2, g3⟩ := (hk k).2 _ hp0
      exact ⟨p, g1, hlp.trans g2, g3.trans hle⟩
    · rw [upd_of_ne _ _ e]
      exact hk k

theorem fee_of {s : State} {p : Pool} {f : Nat} (h1 : feeOn s = false → f = 0)
    (h2 : feeOn s = true → protocolFees s p = .ok f) : f = 0 ∨ feeOn s = true ∧ protocolFees s p = .ok f := by
  cases h : feeOn s with
  | false => exact .inl (h1 h)
  | true => exact .inr ⟨rfl, h2 h⟩

/-- One call, with the protocol fee `f` it mints. -/
theorem share_call {c : Cfg} (hc : c.OK) {s s' : State} (hr : Reach c s) {k : Call} (hk : k.signerOK c)
    (h : exec c s k = .ok s') {key : Nat × Nat} {p : Pool} (hp : s.pools key = some p) :
    ∃ p' f, s'.pools key = some p' ∧ p'.lp = p.lp ∧ (f = 0 ∨ feeOn s = true ∧ protocolFees s p = .ok f) ∧
      p.base * p.quote * s'.ledger.iss p.lp ^ 2 ≤ p'.base * p'.quote * (s.ledger.iss p.lp + f) ^ 2 := by
  have same : ∀ (s' : State), s'.pools key = some p → s'.ledger.iss p.lp = s.ledger.iss p.lp →
      ∃ p' f, s'.pools key = some p' ∧ p'.lp = p.lp ∧ (f = 0 ∨ feeOn s = true ∧ protocolFees s p = .ok f) ∧
      p.base * p.quote * s'.ledger.iss p.lp ^ 2 ≤ p'.base * p'.quote * (s.ledger.iss p.lp + f) ^ 2 := by
    intro s' h1 h2
    exact ⟨p, 0, h1, rfl, Or.inl rfl, by rw [h2, Nat.add_zero]⟩
  cases k with
  | add who pair d m =>
    have h : addLiquidity c s who pair d m = .ok s' := h
    obtain ⟨b, q, p0, p', ib, iq, liq, f, db, dq, mb, mq, hpair, hp0, hpools, hlp, eb, eq', _, _, _, _, hf, hf',
      _, _, _, hrest⟩ := addLiquidity_eff h
    obtain ⟨b2, q2, p2, hp2, hkey, hoth⟩ := addLiquidity_iss h
    have hbq : (b2, q2) = (b, q) := by
      have a1 := (hr.inv hc).pool _ p0 hp0
      have a2 := (hr.inv hc).pool _ p2 hp2
      have o1 : q < b := by
        rcases hpair with ⟨hl, rfl, rfl, _⟩ | ⟨hl, rfl, rfl, _⟩ <;> exact hl
      have o2 : q2 < b2 := a2.2.2.2
      rcases hpair with ⟨hl, rfl, rfl, _⟩ | ⟨hl, rfl, rfl, _⟩ <;> rcases hkey with e | e <;>
        simp only [Prod.mk.injEq] at e ⊢ <;> omega
    rw [hbq, hp0] at hp2
    cases hp2
    by_cases he : key = (b, q)
    · subst he
      obtain rfl : p0 = p := Option.some.inj (hp0.symm.trans hp)
      have hne := iss_pos hc (hr.inv hc) hp0
      obtain ⟨hi, hl1, hl2, _⟩ := hrest (by omega)
      refine ⟨p', f, by rw [hpools]; simp, hlp, fee_of hf hf', ?_⟩
      rw [hi, eb, eq']
      have k1 : p0.base * (s.ledger.iss p0.lp + f + liq) ≤ (p0.base + ib) * (s.ledger.iss p0.lp + f) := by
        nlinarith
      have k2 : p0.quote * (s.ledger.iss p0.lp + f + liq) ≤ (p0.quote + iq) * (s.ledger.iss p0.lp + f) := by
        nlinarith
      have := Nat.mul_le_mul k1 k2
      calc _ = p0.base * (s.ledger.iss p0.lp + f + liq) * (p0.quote * (s.ledger.iss p0.lp + f + liq)) := by ring
        _ ≤ _ := this
        _ = _ := by ring
    · refine same _ (by rw [hpools, upd_of_ne _ _ he]; exact hp) (hoth _ ?_)
      intro e
      exact he (lp_unique_keys hc hr _ _ _ _ hp hp0 e)
  | remove who pair liq =>
    have h : removeLiquidity c s who pair liq = .ok s' := h
    obtain ⟨b, q, p0, p', f, ob, oq, hpair, hp0, hpools, hlp, hb, hq, eb, eq', hf, hf', _, _, _, hz, hob, hoq, hi, hlk,
      _⟩ := removeLiquidity_eff h
    obtain ⟨b2, q2, p2, hp2, hkey, hoth⟩ := removeLiquidity_iss h
    have hbq : (b2, q2) = (b, q) := by
      have a2 := (hr.inv hc).pool _ p2 hp2
      have o2 : q2 < b2 := a2.2.2.2
      rcases hpair with ⟨hl, rfl, rfl⟩ | ⟨hl, rfl, rfl⟩ <;> rcases hkey with e | e <;>
        simp only [Prod.mk.injEq] at e ⊢ <;> omega
    rw [hbq, hp0] at hp2
    cases hp2
    by_cases he : key = (b, q)
    · subst he
      obtain rfl : p0 = p := Option.some.inj (hp0.symm.trans hp)
      have hl := hlk (hr.inv hc).wf hk.2
      refine ⟨p', f, by rw [hpools]; simp, hlp, fee_of hf hf', ?_⟩
      have hle : liq ≤ s.ledger.iss p0.lp + f := by omega
      have k1 := remaining_share (r := p0.base) hle hz
      have k2 := remaining_share (r := p0.quote) hle hz
      rw [← hob] at k1
      rw [← hoq] at k2
      rw [hi, eb, eq']
      have := Nat.mul_le_mul k1 k2
      calc _ = p0.base * (s.ledger.iss p0.lp + f - liq) * (p0.quote * (s.ledger.iss p0.lp + f - liq)) := by ring
        _ ≤ _ := this
        _ = _ := by ring
    · refine same _ (by rw [hpools, upd_of_ne _ _ he]; exact hp) (hoth _ ?_)
      intro e
      exact he (lp_unique_keys hc hr _ _ _ _ hp hp0 e)
  | create pair am rcv lp =>
    have h : createPool c s pair am rcv lp = .ok s' := h
    obtain ⟨hz, hoth, hpl⟩ := createPool_iss h
    refine same _ (hpl _ _ hp) (hoth _ ?_)
    rintro rfl
    exact iss_pos hc (hr.inv hc) hp hz
  | setFee fee =>
    have h : updateFee s fee = .ok s' := h
    simp only [updateFee, bind_ok_iff, ensure_ok_iff, exists_const, pure_ok_iff] at h
    obtain ⟨_, rfl⟩ := h
    exact same _ hp rfl
  | setFeeTo t =>
    have h : updateFeeTo s t = .ok s' := h
    cases h
    exact same _ hp rfl
  | swap who a b x =>
    have h : (do let (s, _) ← doSwap c s who a b x; pure s : R State) = .ok s' := h
    simp only [bind_ok_iff, Prod.exists, pure_ok_iff] at h
    obtain ⟨t, y, hsw, rfl⟩ := h
    obtain ⟨k2, p0, p', hp0, hpools, hlp, hle, hiss, _⟩ := doSwap_grows hsw
    by_cases he : key = k2
    · subst he
      obtain rfl : p0 = p := Option.some.inj (hp0.symm.trans hp)
      refine ⟨p', 0, by rw [hpools]; simp, hlp, .inl rfl, ?_⟩
      rw [hiss, Nat.add_zero]
      exact Nat.mul_le_mul_right _ hle
    · refine same _ ?_ (congrFun hiss _)
      rw [hpools, upd_of_ne _ _ he]
      exact hp

/-- A history with the protocol fee switched off: calls by anybody on any pool, and whatever else happens on the chain
except minting or burning LP tokens behind the pallet's back (nothing does, see C192). -/
inductive Calm (c : Cfg) : State → State → Prop
  | refl (s : State) : Calm c s s
  | call {s t u : State} (h : Calm c s t) (k : Call) (hk : k.signerOK c) (hoff : feeOn t = false)
      (he : exec c t k = .ok u) : Calm c s u
  | env {s t u : State} (h : Calm c s t) (he : Env c t u)
      (hi : ∀ key p, t.pools key = some p → u.ledger.iss p.lp = t.ledger.iss p.lp) : Calm c s u

theorem Calm.reach {c : Cfg} {s s' : State} (h : Calm c s s') (hr : Reach c s) : Reach c s' := by
  induction h with
  | refl => exact hr
  | call _ k hk _ he ih => exact .step ih (.call k hk he)
  | env _ he _ ih => exact .step ih (.env he)

/-- **C202** As long as the protocol fee is off, the reserves that an LP token stands for never shrink: over any history of
calls by anyone, `x·y / S²` of every pool only grows.  With the fee on, one call mints for the
protocol either nothing or the fee `f` of `protocolFees` (C11, C80: a share of the growth since the last event), and compared with the supply including these the same holds. -/
theorem C202_share_never_falls {c : Cfg} (hc : c.OK) {s : State} (hr : Reach c s) :
    (∀ s', Calm c s s' → ∀ key p, s.pools key = some p → ∃ p', s'.pools key = some p' ∧ p'.lp = p.lp ∧
      p.base * p.quote * s'.ledger.iss p.lp ^ 2 ≤ p'.base * p'.quote * s.ledger.iss p.lp ^ 2) ∧
    (∀ k s', k.signerOK c → exec c s k = .ok s' → ∀ key p, s.pools key = some p →
      ∃ p' f, s'.pools key = some p' ∧ p'.lp = p.lp ∧ (f = 0 ∨ feeOn s = true ∧ protocolFees s p = .ok f) ∧
        p.base * p.quote * s'.ledger.iss p.lp ^ 2 ≤ p'.base * p'.quote * (s.ledger.iss p.lp + f) ^ 2) := by
  refine ⟨fun s' h key p hp => ?_, fun k s' hk he key p hp => share_call hc hr hk he hp⟩
  induction h with
  | refl => exact ⟨p, hp, rfl, Nat.le_refl _⟩
  | @call t u h k hk hoff he ih =>
    obtain ⟨p1, h1, h2, h3⟩ := ih
    obtain ⟨p2, f, g1, g2, g3, g4⟩ := share_call hc (h.reach hr) hk he h1
    have g3 : f = 0 := g3.resolve_right (by rw [hoff]; simp)
    rw [g3, Nat.add_zero, h2] at g4
    refine ⟨p2, g1, g2.trans h2, ?_⟩
    have hpos : 0 < t.ledger.iss p.lp := by
      have := iss_pos hc ((h.reach hr).inv hc) h1
      rw [h2] at this
      omega
    have hsq : 0 < t.ledger.iss p.lp ^ 2 := Nat.pow_pos hpos
    refine Nat.le_of_mul_le_mul_right ?_ hsq
    calc p.base * p.quote * u.ledger.iss p.lp ^ 2 * t.ledger.iss p.lp ^ 2
        = p.base * p.quote * t.ledger.iss p.lp ^ 2 * u.ledger.iss p.lp ^ 2 := by ring
      _ ≤ p1.base * p1.quote * s.ledger.iss p.lp ^ 2 * u.ledger.iss p.lp ^ 2 := Nat.mul_le_mul_right _ h3
      _ = p1.base * p1.quote * u.ledger.iss p.lp ^ 2 * s.ledger.iss p.lp ^ 2 := by ring
      _ ≤ p2.base * p2.quote * t.ledger.iss p.lp ^ 2 * s.ledger.iss p.lp ^ 2 := Nat.mul_le_mul_right _ g4
      _ = _ := by ring
  | @env t u h he hi ih =>
    obtain ⟨p1, h1, h2, h3⟩ := ih
    have := hi _ _ h1
    rw [h2] at this
    exact ⟨p1, by rw [he.pools]; exact h1, h2, by rw [this]; exact h3⟩

/-- In the example pool a trade and a deposit do change reserves and supply. -/
example : Calm exCfg ex1 ex1 ∧ feeOn ex1 = false ∧ (∃ p, ex1.pools (2, 1) = some p) ∧
    okAnd (exec exCfg ex1 (.swap 7 1 2 1000)) (fun t => okAnd (exec exCfg t (.add 7 (1, 2) (600, 1700) (0, 0))) (fun u =>
      decide (ex1.ledger.iss 50 < u.ledger.iss 50))) = true :=
  ⟨.refl _, by decide +kernel, by
    have : (ex1.pools (2, 1)).isSome = true := by decide +kernel
    exact Option.isSome_iff_exists.1 this, by decide +kernel⟩

end Verif.Amm
