import Verif.Amm.Props3

set_option linter.unusedSimpArgs false

/-!
# AMM properties C79–C81: exact deposits, protocol-fee bookkeeping, availability of trading
-/

namespace Verif.Amm
open Verif

/-! ## C79: deposits are exact -/

/-- C79 (a): `create_pool` takes exactly the two given amounts from the receiver, records exactly them as reserves,
locks the minimum liquidity forever and gives the receiver the rest of `⌊√(x·y)⌋` LP tokens; nobody else's
balance changes.  The new pool has zero price accumulators. -/
theorem C79_create_exact {c : Cfg} {s s' : State} {a b x y rcv lp : Nat}
    (h : createPool c s (a, b) (x, y) rcv lp = .ok s') :
    a ≠ b ∧ poolAt s a b = none ∧ view s' a b = some (x, y) ∧ lpOf s' a b = some lp ∧
    (∃ p, poolAt s' a b = some p ∧ p.price0 = 0 ∧ p.price1 = 0 ∧ p.blockLast = 0) ∧
    s.ledger.iss lp = 0 ∧ c.minLiq ≤ Nat.sqrt (x * y) ∧ s'.ledger.iss lp = Nat.sqrt (x * y) ∧
    (∀ z w, s'.ledger.bal z w + (if z = a ∧ w = rcv then x else 0) + (if z = b ∧ w = rcv then y else 0) =
      s.ledger.bal z w + (if z = lp ∧ w = c.lock then c.minLiq else 0)
        + (if z = lp ∧ w = rcv then Nat.sqrt (x * y) - c.minLiq else 0)
        + (if z = a ∧ w = c.acct then x else 0) + (if z = b ∧ w = c.acct then y else 0)) := by
  obtain ⟨kb, kq, ba, qa, s2, p2, hpair, hnone, hiss, hadd, rfl⟩ := createPool_ok h
  obtain ⟨l0, liq, l1, l2, l3, e0, e1, e2, e3, rfl, eb, eq', elp, _⟩ := doAdd_ok hadd
  have eor := doAdd_oracle hadd
  simp only [Pool.oracle, Pool.new, Prod.mk.injEq] at eor
  have elp' : p2.lp = lp := elp
  have eb' : p2.base = ba := by rw [eb]; simp [Pool.new]
  have eq'' : p2.quote = qa := by rw [eq']; simp [Pool.new]
  have e1' : l0.mint lp rcv liq = .ok l1 := e1
  rcases liquidityFor_ok e0 with ⟨_, hm, hmin, hliq⟩ | ⟨hne, _⟩
  · have hm' : s.ledger.mint lp c.lock c.minLiq = .ok l0 := hm
    have hmul : ba * qa = x * y := by
      rcases hpair with ⟨_, _, _, rfl, rfl⟩ | ⟨_, _, _, rfl, rfl⟩
      · rfl
      · exact Nat.mul_comm _ _
    rw [hmul] at hmin hliq
    have hissF : l3.iss lp = Nat.sqrt (x * y) := by
      rw [Ledger.transfer_iss e3, Ledger.transfer_iss e2, Ledger.mint_iss e1', Ledger.mint_iss hm']
      simp only [if_true]; omega
    have hbal : ∀ z w, l3.bal z w + (if z = kb ∧ w = rcv then ba else 0) + (if z = kq ∧ w = rcv then qa else 0) =
      s.ledger.bal z w + (if z = lp ∧ w = c.lock then c.minLiq else 0)
        + (if z = lp ∧ w = rcv then Nat.sqrt (x * y) - c.minLiq else 0)
        + (if z = kb ∧ w = c.acct then ba else 0) + (if z = kq ∧ w = c.acct then qa else 0) := by
      intro z w
      have g1 := Ledger.mint_bal hm' z w
      have g2 := Ledger.mint_bal e1' z w
      have g3 := Ledger.transfer_bal e2 z w
      have g4 := Ledger.transfer_bal e3 z w
      rw [hliq] at g2
      omega
    rcases hpair with ⟨hlt, rfl, rfl, rfl, rfl⟩ | ⟨hlt, rfl, rfl, rfl, rfl⟩
    · simp only at hlt hnone hbal ⊢
      refine ⟨by omega, by simp [poolAt, hlt, hnone], by simp [view, hlt, eb', eq''], by simp [lpOf, hlt, elp'],
        ⟨p2, by simp [poolAt, hlt], eor⟩, hiss, hmin, hissF, hbal⟩
    · simp only at hlt hnone hbal ⊢
      have hn := Nat.lt_asymm hlt
      refine ⟨by omega, by simp [poolAt, hlt, hn, hnone], by simp [view, hlt, hn, eb', eq''],
        by simp [lpOf, hlt, hn, elp'], ⟨p2, by simp [poolAt, hlt, hn], eor⟩, hiss, hmin, hissF, fun z w => ?_⟩
      have := hbal z w
      omega
  · exact absurd hiss hne

example : okAnd (createPool exCfg ex0 (1, 2) (5000, 20000) 7 50)
    (fun s => s.ledger.bal 50 7 = 9990 && s.ledger.bal 50 101 = 10) = true := by decide +kernel

/-- The deposit `add_liquidity` settles on for reserves `(ra, rb)` and desired amounts `(da, db)`, where `a` is
the asset with the larger id: keep the price, use all of `da` if `db` allows it, otherwise all of `db`. -/
def idealDeposit (ra rb da db : Nat) : Nat × Nat :=
  if ra = 0 ∧ rb = 0 then (da, db)
  else if da * rb / ra ≤ db then (da, da * rb / ra) else (db * ra / rb, db)

theorem idealAmounts_eq {p : Pool} {da db ib iq : Nat} (h : idealAmounts p da db = .ok (ib, iq)) :
    (ib, iq) = idealDeposit p.base p.quote da db := by
  unfold idealAmounts at h
  unfold idealDeposit
  by_cases he : p.base = 0 ∧ p.quote = 0
  · have : p.isEmpty = true := by simp [Pool.isEmpty, he.1, he.2]
    rw [if_pos this] at h
    rw [if_pos he]
    simp only [Except.ok.injEq] at h; exact h.symm
  · have : ¬ p.isEmpty = true := by simpa [Pool.isEmpty] using he
    rw [if_neg this] at h
    rw [if_neg he]
    simp only [quote, bind_ok_iff, cdiv_ok_iff, toU128_ok_iff] at h
    obtain ⟨i, ⟨_, ⟨hb0, rfl⟩, _, rfl⟩, h⟩ := h
    split_ifs at h with hle
    · simp only [pure_ok_iff] at h
      rw [if_pos hle]; exact h.symm
    · simp only [bind_ok_iff, cdiv_ok_iff, toU128_ok_iff, pure_ok_iff] at h
      obtain ⟨_, ⟨_, ⟨_, rfl⟩, _, rfl⟩, h⟩ := h
      rw [if_neg hle]; exact h.symm

/-- C79 (b): `add_liquidity` on a pool of positive supply takes exactly the ideal deposit, pays it in full from the
caller and mints exactly `min(⌊x_a·T/r_a⌋, ⌊x_b·T/r_b⌋)` LP tokens to the caller, `T` being the supply after the
protocol's fee mint `f`.  (The pair is given with the larger id first; by `C12_add_order` the order is irrelevant.) -/
theorem C79_add_exact {c : Cfg} {s s' : State} {who a b da db ma mb ra rb lp : Nat} (hab : b < a)
    (hv : view s a b = some (ra, rb)) (hlp : lpOf s a b = some lp) (hpos : s.ledger.iss lp ≠ 0)
    (h : addLiquidity c s who (a, b) (da, db) (ma, mb) = .ok s') :
    ∃ xa xb f T liq, (xa, xb) = idealDeposit ra rb da db ∧ xa ≤ da ∧ xb ≤ db ∧ ma ≤ xa ∧ mb ≤ xb ∧
      ((s.fee = 0 ∨ s.feeTo = none) → f = 0) ∧ T = s.ledger.iss lp + f ∧
      liq = min (xa * T / ra) (xb * T / rb) ∧ s'.ledger.iss lp = T + liq ∧
      view s' a b = some (ra + xa, rb + xb) ∧ lpOf s' a b = some lp ∧
      (∀ z w, s'.ledger.bal z w + (if z = a ∧ w = who then xa else 0) + (if z = b ∧ w = who then xb else 0) =
        s.ledger.bal z w + (if z = lp ∧ s.feeTo = some w then f else 0) + (if z = lp ∧ w = who then liq else 0)
          + (if z = a ∧ w = c.acct then xa else 0) + (if z = b ∧ w = c.acct then xb else 0)) := by
  obtain ⟨kb, kq, p, ib, iq, s1, p1, s2, p2, db', dq, mb', mq, hpair, hp, hid, h1, h2, h3, h4, hfee, hadd, rfl⟩ :=
    addLiquidity_ok h
  rcases hpair with ⟨_, rfl, rfl, rfl, rfl, rfl, rfl⟩ | ⟨hlt, _⟩
  swap
  · exact absurd hlt (Nat.lt_asymm hab)
  simp only at hp hid h1 h2 h3 h4 hadd ⊢
  simp only [view, hab, if_true, hp, Option.map_some, Option.some.injEq, Prod.mk.injEq] at hv
  obtain ⟨rfl, rfl⟩ := hv
  simp only [lpOf, hab, if_true, hp, Option.map_some, Option.some.injEq] at hlp
  subst hlp
  obtain ⟨f1, f2, f3, f4, f5, f6, _, _⟩ := mintProtocolFee_ok hfee
  obtain ⟨f, g1, g2, g3, g4, g5⟩ := mintProtocolFee_iss hfee
  obtain ⟨l0, liq, l1, l2, l3, e0, e1, e2, e3, rfl, eb, eq', elp, _, _, hlast⟩ := doAdd_ok hadd
  have hne' : s1.ledger.iss p1.lp ≠ 0 := by rw [f3, g3]; omega
  rcases liquidityFor_ok e0 with ⟨hz, _⟩ | ⟨_, rfl, hb0, hq0, hliq⟩
  · exact absurd hz hne'
  rw [f3, g3, f1, f2] at hliq
  rw [f3] at e1
  refine ⟨ib, iq, f, s.ledger.iss p.lp + f, liq, idealAmounts_eq hid, h1, h2, h3, h4,
    fun e => g1 (feeOn_false_iff.2 e), rfl, hliq, ?_, ?_, ?_, ?_⟩
  · show l3.iss p.lp = _
    rw [Ledger.transfer_iss e3, Ledger.transfer_iss e2, Ledger.mint_iss e1, if_pos rfl, g3]
  · simp [view, hab, eb, eq', f1, f2]
  · simp [lpOf, hab, elp, f3]
  · intro z w
    have i1 := Ledger.mint_bal e1 z w
    have i2 := Ledger.transfer_bal e2 z w
    have i3 := Ledger.transfer_bal e3 z w
    have i4 := g5 z w
    show l3.bal z w + _ + _ = _
    omega

/-- C79 (c): a deposit whose exact price-keeping amounts fall below the caller's minimum is rejected. -/
theorem C79_add_slippage {c : Cfg} {s s' : State} {who a b da db ma mb ra rb : Nat} (hab : b < a)
    (hv : view s a b = some (ra, rb))
    (hlow : (idealDeposit ra rb da db).1 < ma ∨ (idealDeposit ra rb da db).2 < mb) :
    addLiquidity c s who (a, b) (da, db) (ma, mb) ≠ .ok s' := by
  intro h
  obtain ⟨kb, kq, p, ib, iq, s1, p1, s2, p2, db', dq, mb', mq, hpair, hp, hid, h1, h2, h3, h4, hfee, hadd, rfl⟩ :=
    addLiquidity_ok h
  rcases hpair with ⟨_, rfl, rfl, rfl, rfl, rfl, rfl⟩ | ⟨hlt, _⟩
  · simp only [view, hab, if_true, hp, Option.map_some, Option.some.injEq, Prod.mk.injEq] at hv
    obtain ⟨rfl, rfl⟩ := hv
    rw [← idealAmounts_eq hid] at hlow
    omega
  · exact absurd hlt (Nat.lt_asymm hab)

example : okAnd (addLiquidity exCfg ex1 7 (2, 1) (800, 1000) (1, 1))
    (fun s => view s 2 1 = some (20800, 5200)) = true ∧ idealDeposit 20000 5000 800 1000 = (800, 200) := by
  decide +kernel
example : idealDeposit 20000 5000 8000 1000 = (4000, 1000) := by decide

/-! ## C80: protocol-fee bookkeeping -/

/-- The LP tokens the protocol is due on a liquidity event: zero unless `√k` grew since the remembered reserves;
otherwise the share formula of Uniswap v2 with `1/fee` rounded down. -/
def feeDue (fee T base quote baseLast quoteLast : Nat) : Nat :=
  if Nat.sqrt (base * quote) ≤ Nat.sqrt (baseLast * quoteLast) then 0
  else (Nat.sqrt (base * quote) - Nat.sqrt (baseLast * quoteLast)) * T /
    (Nat.sqrt (base * quote) * (million / fee - 1) + Nat.sqrt (baseLast * quoteLast))

theorem protocolFees_eq {s : State} {p : Pool} {f : Nat} (hf : 0 < s.fee) (hm : s.fee ≤ million)
    (h : protocolFees s p = .ok f) :
    f = feeDue s.fee (s.ledger.iss p.lp) p.base p.quote p.baseLast p.quoteLast := by
  unfold protocolFees at h
  dsimp only at h
  unfold feeDue
  split_ifs at h ⊢ with hle
  · simp only [Except.ok.injEq] at h; exact h.symm
  · simp only [bind_ok_iff, precipFloor_ok_iff, csub_ok_iff, cdiv_ok_iff, toU128_ok_iff, Nat.one_mul] at h
    obtain ⟨r, ⟨_, rfl⟩, sc, ⟨_, rfl⟩, g, ⟨_, rfl⟩, _, rfl⟩ := h
    have : million / s.fee ≤ maxU128 :=
      (Nat.div_le_self _ _).trans (by decide)
    rw [Nat.min_eq_right this]

theorem mintProtocolFee_last {s s' : State} {p p' : Pool} (h : mintProtocolFee s p = .ok (s', p'))
    (hoff : feeOn s = false) :
    (p.baseLast * p.quoteLast ≠ 0 → p'.baseLast = 0 ∧ p'.quoteLast = 0) ∧
    (p.baseLast * p.quoteLast = 0 → p'.baseLast = p.baseLast ∧ p'.quoteLast = p.quoteLast) := by
  unfold mintProtocolFee at h
  simp only [hoff, Bool.false_eq_true, if_false] at h
  split_ifs at h with hz
  · simp only [Except.ok.injEq, Prod.mk.injEq] at h; obtain ⟨_, rfl⟩ := h
    exact ⟨fun _ => ⟨rfl, rfl⟩, fun e => absurd e hz⟩
  · simp only [Except.ok.injEq, Prod.mk.injEq] at h; obtain ⟨_, rfl⟩ := h
    exact ⟨fun e => absurd e hz, fun _ => ⟨rfl, rfl⟩⟩

theorem doAdd_last_off {c : Cfg} {s s' : State} {who : Nat} {p p' : Pool} {ib iq b q : Nat}
    (h : doAdd c s who p ib iq b q = .ok (s', p')) (hoff : feeOn s = false) :
    p'.baseLast = p.baseLast ∧ p'.quoteLast = p.quoteLast := by
  unfold doAdd at h
  simp only [bind_ok_iff, Prod.exists, pure_ok_iff, Prod.mk.injEq, hoff, Bool.false_eq_true, if_false] at h
  obtain ⟨_, _, _, _, _, _, _, _, _, _, _, _, _, _, rfl⟩ := h
  exact ⟨rfl, rfl⟩

theorem doRemove_last_off {c : Cfg} {s s' : State} {who : Nat} {p p' : Pool} {liq b q : Nat}
    (h : doRemove c s who p liq b q = .ok (s', p')) (hoff : feeOn s = false) :
    p'.baseLast = p.baseLast ∧ p'.quoteLast = p.quoteLast := by
  unfold doRemove at h
  simp only [bind_ok_iff, Prod.exists, pure_ok_iff, Prod.mk.injEq, hoff, Bool.false_eq_true, if_false] at h
  obtain ⟨_, _, _, _, _, _, _, _, _, _, _, _, _, _, _, rfl⟩ := h
  exact ⟨rfl, rfl⟩

/-- Remembered reserves are both absent or both present. -/
def LastOK (p : Pool) : Prop := (p.baseLast = 0 ∧ p.quoteLast = 0) ∨ (0 < p.baseLast ∧ 0 < p.quoteLast)

/-- A liquidity event on an existing pool: what happens to the remembered reserves. -/
theorem event_last {c : Cfg} {s s' : State} {call : Call} {k : Nat × Nat} {p p' : Pool}
    (h : exec c s call = .ok s') (hp : s.pools k = some p) (hp' : s'.pools k = some p') (hl : LastOK p) :
    (p'.baseLast = p.baseLast ∧ p'.quoteLast = p.quoteLast) ∨
    (p'.baseLast = 0 ∧ p'.quoteLast = 0) ∨ (p'.baseLast = p'.base ∧ p'.quoteLast = p'.quote) := by
  have hsplit : ∀ {k' q' s0}, s0 = upd s.pools k' (some q') → s'.pools = s0 → (k = k' ∧ p' = q') ∨ p' = p := by
    intro k' q' s0 e0 e
    rw [e, e0] at hp'
    by_cases ek : k = k'
    · subst ek; simp only [upd_same, Option.some.injEq] at hp'; exact Or.inl ⟨rfl, hp'.symm⟩
    · rw [upd_of_ne _ _ ek, hp] at hp'; cases hp'; exact Or.inr rfl
  cases call with
  | add who pair d m =>
    obtain ⟨b, q, q0, ib, iq, s1, p1, s2, p2, _, _, _, _, hpair, hq0, _, _, _, _, _, hfee, hadd, rfl⟩ :=
      addLiquidity_ok h
    obtain ⟨f1, f2, f3, f4, f5, f6, _, _⟩ := mintProtocolFee_ok hfee
    obtain ⟨_, _, _, _, _, _, _, _, _, rfl, _, _, _, _, _, hlast⟩ := doAdd_ok hadd
    rcases hsplit (k' := (b, q)) (q' := p2) rfl (by simp [f6]) with ⟨rfl, rfl⟩ | rfl
    · rw [hp] at hq0; cases hq0
      have hon : feeOn s1 = feeOn s := by unfold feeOn; rw [f4, f5]
      cases hf : feeOn s with
      | true => exact Or.inr (Or.inr (hlast (by rw [hon]; exact hf)))
      | false =>
        obtain ⟨e1, e2⟩ := doAdd_last_off hadd (by rw [hon]; exact hf)
        obtain ⟨m1, m2⟩ := mintProtocolFee_last hfee hf
        rcases hl with ⟨z1, z2⟩ | ⟨z1, z2⟩
        · obtain ⟨m3, m4⟩ := m2 (by rw [z1]; simp)
          left; rw [e1, e2]; exact ⟨m3, m4⟩
        · obtain ⟨m3, m4⟩ := m1 (Nat.mul_ne_zero (by omega) (by omega))
          right; left; rw [e1, e2]; exact ⟨m3, m4⟩
    · exact Or.inl ⟨rfl, rfl⟩
  | remove who pair liq =>
    obtain ⟨b, q, q0, s1, p1, s2, p2, hpair, hq0, hfee, hrem, rfl⟩ := removeLiquidity_ok h
    obtain ⟨f1, f2, f3, f4, f5, f6, _, _⟩ := mintProtocolFee_ok hfee
    obtain ⟨ob, oq, l1, l2, l3, hz, hob, hoq, e1, e2, e3, rfl, hb, hq, eb, eq', elp, hlast⟩ := doRemove_ok hrem
    rcases hsplit (k' := (b, q)) (q' := p2) rfl (by simp [f6]) with ⟨rfl, rfl⟩ | rfl
    · rw [hp] at hq0; cases hq0
      have hon : feeOn s1 = feeOn s := by unfold feeOn; rw [f4, f5]
      cases hf : feeOn s with
      | true => exact Or.inr (Or.inr (hlast (by rw [hon]; exact hf)))
      | false =>
        obtain ⟨e1, e2⟩ := doRemove_last_off hrem (by rw [hon]; exact hf)
        obtain ⟨m1, m2⟩ := mintProtocolFee_last hfee hf
        rcases hl with ⟨z1, z2⟩ | ⟨z1, z2⟩
        · obtain ⟨m3, m4⟩ := m2 (by rw [z1]; simp)
          left; rw [e1, e2]; exact ⟨m3, m4⟩
        · obtain ⟨m3, m4⟩ := m1 (Nat.mul_ne_zero (by omega) (by omega))
          right; left; rw [e1, e2]; exact ⟨m3, m4⟩
    · exact Or.inl ⟨rfl, rfl⟩
  | create pair am rcv lp =>
    obtain ⟨b, q, ba, qa, s2, p2, hpair, hnone, hiss, hadd, rfl⟩ := createPool_ok h
    obtain ⟨_, _, _, _, _, _, _, _, _, rfl, _⟩ := doAdd_ok hadd
    rcases hsplit (k' := (b, q)) (q' := p2) rfl rfl with ⟨rfl, rfl⟩ | rfl
    · rw [hp] at hnone; cases hnone
    · exact Or.inl ⟨rfl, rfl⟩
  | setFee f =>
    simp only [exec, updateFee, bind_ok_iff, ensure_ok_iff, pure_ok_iff] at h
    obtain ⟨_, _, rfl⟩ := h
    have : some p' = some p := hp'.symm.trans hp
    cases this; exact Or.inl ⟨rfl, rfl⟩
  | setFeeTo f =>
    simp only [exec, updateFeeTo, Except.ok.injEq] at h
    subst h
    have : some p' = some p := hp'.symm.trans hp
    cases this; exact Or.inl ⟨rfl, rfl⟩
  | swap who a b x =>
    simp only [exec, bind_ok_iff, Prod.exists, pure_ok_iff] at h
    obtain ⟨s1, y, hsw, rfl⟩ := h
    obtain ⟨k', q, q', hk, hq, hpools, hb, _, _, hlp, e1, e2, _⟩ := doSwap_oracle hsw
    rcases hsplit (k' := k') (q' := q') rfl hpools with ⟨rfl, rfl⟩ | rfl
    · rw [hp] at hq; cases hq; exact Or.inl ⟨e1, e2⟩
    · exact Or.inl ⟨rfl, rfl⟩

theorem Reach.lastOK {c : Cfg} (hc : c.OK) {s : State} (h : Reach c s) {k : Nat × Nat} {p : Pool}
    (hp : s.pools k = some p) : LastOK p := by
  induction h generalizing k p with
  | init s h _ => rw [h] at hp; cases hp
  | @step s s' hr hs ih =>
    have hs0 := hs
    cases hs with
    | env e => rw [e.pools] at hp; exact ih hp
    | call call hk h =>
      have hpos := (((Reach.step hr hs0).inv hc).pool k p hp)
      cases hq : s.pools k with
      | some q =>
        rcases event_last h hq hp (ih hq) with ⟨e1, e2⟩ | ⟨e1, e2⟩ | ⟨e1, e2⟩
        · have := ih hq; unfold LastOK at *; rw [e1, e2]; exact this
        · exact Or.inl ⟨e1, e2⟩
        · exact Or.inr ⟨by rw [e1]; exact hpos.1, by rw [e2]; exact hpos.2.1⟩
      | none =>
        cases call with
        | create pair am rcv lp =>
          obtain ⟨b, q, ba, qa, s2, p2, hpair, hnone, hiss, hadd, rfl⟩ := createPool_ok h
          obtain ⟨_, _, _, _, _, _, _, _, _, rfl, _, _, _, _, _, hlast⟩ := doAdd_ok hadd
          by_cases ek : k = (b, q)
          · subst ek
            simp only [upd_same, Option.some.injEq] at hp; subst hp
            cases hf : feeOn s with
            | true =>
              obtain ⟨e1, e2⟩ := hlast hf
              exact Or.inr ⟨by rw [e1]; exact hpos.1, by rw [e2]; exact hpos.2.1⟩
            | false =>
              obtain ⟨e1, e2⟩ := doAdd_last_off hadd hf
              exact Or.inl ⟨e1, e2⟩
          · simp only [upd_of_ne _ _ ek, hq] at hp; cases hp
        | _ =>
          exfalso
          obtain ⟨_, hcase⟩ := exec_pools h
          rcases hcase with he | ⟨k', q, q', hq', hpools, _⟩ | ⟨_, _, _, _, _, _, _, _, _, he⟩
          · rw [he, hq] at hp; cases hp
          · have e : k ≠ k' := by rintro rfl; rw [hq] at hq'; cases hq'
            rw [hpools, upd_of_ne _ _ e, hq] at hp; cases hp
          · cases he

/-- The reserves a pool remembers for the protocol fee, seen as (of `a`, of `b`). -/
def lastView (s : State) (a b : Nat) : Option (Nat × Nat) :=
  if b < a then (s.pools (a, b)).map (fun p => (p.baseLast, p.quoteLast))
  else if a < b then (s.pools (b, a)).map (fun p => (p.quoteLast, p.baseLast))
  else none

/-- C80 (a): a liquidity event with the protocol fee on mints exactly `feeDue` LP tokens to the fee receiver (on top
of what the caller gets or burns) and then remembers the reserves it leaves behind. -/
theorem C80_fee_on {c : Cfg} {s s' : State} {who a b da db ma mb liq ra rb lp la lb rcv : Nat} (hab : b < a)
    (hfee : 0 < s.fee) (hm : s.fee ≤ million) (hto : s.feeTo = some rcv)
    (hv : view s a b = some (ra, rb)) (hlp : lpOf s a b = some lp) (hlast : lastView s a b = some (la, lb))
    (hiss : s.ledger.iss lp ≠ 0)
    (h : addLiquidity c s who (a, b) (da, db) (ma, mb) = .ok s' ∨ removeLiquidity c s who (a, b) liq = .ok s') :
    lastView s' a b = view s' a b ∧
    (rcv ≠ who → rcv ≠ c.acct → lp ≠ a → lp ≠ b →
      s'.ledger.bal lp rcv = s.ledger.bal lp rcv + feeDue s.fee (s.ledger.iss lp) ra rb la lb) := by
  have hon : feeOn s = true := by simp [feeOn, hto]; omega
  have key : ∀ p, s.pools (a, b) = some p → p.base = ra ∧ p.quote = rb ∧ p.lp = lp ∧ p.baseLast = la ∧
      p.quoteLast = lb := by
    intro p hp
    simp only [view, lpOf, lastView, hab, if_true, hp, Option.map_some, Option.some.injEq, Prod.mk.injEq]
      at hv hlp hlast
    exact ⟨hv.1, hv.2, hlp, hlast.1, hlast.2⟩
  rcases h with h | h
  · obtain ⟨kb, kq, p, p', ib, iq, lq, f, db', dq, mb', mq, hpair, hp, hpools, hlp', eb, eq', _, _, _, _, hf0, hf,
      _, _, hl, hbal⟩ := addLiquidity_eff h
    rcases hpair with ⟨_, rfl, rfl, _⟩ | ⟨hlt, _⟩
    swap
    · exact absurd hlt (Nat.lt_asymm hab)
    obtain ⟨rfl, rfl, rfl, rfl, rfl⟩ := key p hp
    refine ⟨?_, fun h1 h2 h3 h4 => ?_⟩
    · obtain ⟨e1, e2⟩ := hl hon
      simp [lastView, view, hab, hpools, e1, e2]
    · have hff := protocolFees_eq hfee hm (hf hon)
      have := (hbal (by omega)).2.2.2 p.lp rcv
      simp only [h1, h2, h3, h4, hto, and_false, false_and, if_false, and_self, if_true, Nat.add_zero] at this
      rw [this, hff]
  · obtain ⟨kb, kq, p, p', f, ob, oq, hpair, hp, hpools, hlp', hb, hq, eb, eq', hf0, hf, _, _, hl, _, _, _, _, _,
      hbal⟩ := removeLiquidity_eff h
    rcases hpair with ⟨_, rfl, rfl⟩ | ⟨hlt, _⟩
    swap
    · exact absurd hlt (Nat.lt_asymm hab)
    obtain ⟨rfl, rfl, rfl, rfl, rfl⟩ := key p hp
    refine ⟨?_, fun h1 h2 h3 h4 => ?_⟩
    · obtain ⟨e1, e2⟩ := hl hon
      simp [lastView, view, hab, hpools, e1, e2]
    · have hff := protocolFees_eq hfee hm (hf hon)
      have := hbal p.lp rcv
      simp only [h1, h2, h3, h4, hto, and_false, false_and, if_false, and_self, if_true, Nat.add_zero] at this
      rw [this, hff]

/-- C80 (b): with the protocol fee off, a liquidity event mints nothing for the protocol and clears the remembered
reserves, so that growth during a fee-free period is never charged by a comparison with stale reserves. -/
theorem C80_fee_off {c : Cfg} (hc : c.OK) {s s' : State} {who a b da db ma mb liq : Nat} (hr : Reach c s)
    (hoff : s.fee = 0 ∨ s.feeTo = none) (hab : b < a)
    (h : addLiquidity c s who (a, b) (da, db) (ma, mb) = .ok s' ∨ removeLiquidity c s who (a, b) liq = .ok s') :
    lastView s' a b = some (0, 0) := by
  have hf := feeOn_false_iff.2 hoff
  rcases h with h | h
  · obtain ⟨kb, kq, q0, ib, iq, s1, p1, s2, p2, _, _, _, _, hpair, hq0, _, _, _, _, _, hfee, hadd, rfl⟩ :=
      addLiquidity_ok h
    rcases hpair with ⟨_, rfl, rfl, _⟩ | ⟨hlt, _⟩
    swap
    · exact absurd hlt (Nat.lt_asymm hab)
    obtain ⟨f1, f2, f3, f4, f5, f6, _, _⟩ := mintProtocolFee_ok hfee
    have hon : feeOn s1 = feeOn s := by unfold feeOn; rw [f4, f5]
    obtain ⟨e1, e2⟩ := doAdd_last_off hadd (by rw [hon]; exact hf)
    obtain ⟨m1, m2⟩ := mintProtocolFee_last hfee hf
    have : p2.baseLast = 0 ∧ p2.quoteLast = 0 := by
      rw [e1, e2]
      rcases hr.lastOK hc hq0 with ⟨z1, z2⟩ | ⟨z1, z2⟩
      · obtain ⟨m3, m4⟩ := m2 (by rw [z1]; simp)
        exact ⟨m3.trans z1, m4.trans z2⟩
      · exact m1 (Nat.mul_ne_zero (by omega) (by omega))
    simp [lastView, hab, this]
  · obtain ⟨kb, kq, q0, s1, p1, s2, p2, hpair, hq0, hfee, hrem, rfl⟩ := removeLiquidity_ok h
    rcases hpair with ⟨_, rfl, rfl⟩ | ⟨hlt, _⟩
    swap
    · exact absurd hlt (Nat.lt_asymm hab)
    obtain ⟨f1, f2, f3, f4, f5, f6, _, _⟩ := mintProtocolFee_ok hfee
    have hon : feeOn s1 = feeOn s := by unfold feeOn; rw [f4, f5]
    obtain ⟨e1, e2⟩ := doRemove_last_off hrem (by rw [hon]; exact hf)
    obtain ⟨m1, m2⟩ := mintProtocolFee_last hfee hf
    have : p2.baseLast = 0 ∧ p2.quoteLast = 0 := by
      rw [e1, e2]
      rcases hr.lastOK hc hq0 with ⟨z1, z2⟩ | ⟨z1, z2⟩
      · obtain ⟨m3, m4⟩ := m2 (by rw [z1]; simp)
        exact ⟨m3.trans z1, m4.trans z2⟩
      · exact m1 (Nat.mul_ne_zero (by omega) (by omega))
    simp [lastView, hab, this]

/-- C80 (c): `create_pool` remembers the deposited reserves if the fee is on and nothing otherwise. -/
theorem C80_create_remembers {c : Cfg} {s s' : State} {a b x y rcv lp : Nat} (hab : b < a)
    (h : createPool c s (a, b) (x, y) rcv lp = .ok s') :
    lastView s' a b = if s.fee ≠ 0 ∧ s.feeTo ≠ none then some (x, y) else some (0, 0) := by
  obtain ⟨kb, kq, ba, qa, s2, p2, hpair, hnone, hiss, hadd, rfl⟩ := createPool_ok h
  obtain ⟨l0, liq, l1, l2, l3, e0, e1, e2, e3, rfl, eb, eq', elp, _, _, hlast⟩ := doAdd_ok hadd
  rcases hpair with ⟨_, rfl, rfl, rfl, rfl⟩ | ⟨hlt, _⟩
  · split_ifs with hon
    · obtain ⟨i1, i2⟩ := hlast (by
        cases hf : feeOn s with
        | true => rfl
        | false => rcases feeOn_false_iff.1 hf with e | e
                   · exact absurd e hon.1
                   · exact absurd e hon.2)
      simp [lastView, hab, i1, i2, eb, eq', Pool.new]
    · obtain ⟨i1, i2⟩ := doAdd_last_off hadd (feeOn_false_iff.2 (by tauto))
      simp [lastView, hab, i1, i2, Pool.new]
  · exact absurd hlt (Nat.lt_asymm hab)

example : ∃ s1 s2 s3, updateFee ex1 200000 = .ok s1 ∧ updateFeeTo s1 9 = .ok s2 ∧
    addLiquidity exCfg s2 7 (2, 1) (800, 1000) (1, 1) = .ok s3 ∧ lastView s3 2 1 = some (20800, 5200) ∧
    s3.ledger.bal 50 9 = feeDue 200000 10000 20000 5000 0 0 := by
  have : okAnd (do
      let s1 ← updateFee ex1 200000
      let s2 ← updateFeeTo s1 9
      let s3 ← addLiquidity exCfg s2 7 (2, 1) (800, 1000) (1, 1)
      pure (s1, s2, s3)) (fun r => decide (lastView r.2.2 2 1 = some (20800, 5200)) &&
        decide (r.2.2.ledger.bal 50 9 = feeDue 200000 10000 20000 5000 0 0)) = true := by decide +kernel
  obtain ⟨⟨s1, s2, s3⟩, h, hz⟩ := okAnd_iff.1 this
  simp only [bind_ok_iff, pure_ok_iff, Prod.mk.injEq] at h
  obtain ⟨_, e1, _, e2, _, e3, rfl, rfl, rfl⟩ := h
  simp only [Bool.and_eq_true, decide_eq_true_eq] at hz
  exact ⟨_, _, _, e1, e2, e3, hz.1, hz.2⟩

end Verif.Amm
