import Verif.Staking.TypesLemmas
import Verif.Loans.Views

/-! # What each call changes, in terms of the state before -/

set_option linter.unusedSimpArgs false
set_option linter.unusedVariables false

namespace Verif.Staking
open Verif

variable {c : Cfg} {s s' : State}

@[simp] theorem setTok_tok (s : State) (l : Ledger) : (s.setTok l).tok = l := rfl
@[simp] theorem reducible_false (l : Ledger) (a w : Nat) : l.reducible a w false = l.bal a w := by
  simp [Ledger.reducible]

theorem toLiquid_ok {r m q : Nat} : toLiquid r m = .ok q ↔
    r ≠ 0 ∧ DIV * DIV / r ≤ maxU128 ∧ DIV * DIV / r * m / DIV ≤ maxU128 ∧ q = DIV * DIV / r * m / DIV := by
  simp only [toLiquid, okOr_ok_iff, Option.bind_eq_some_iff, fixDiv_iff, fixMulInt_iff]
  constructor
  · rintro ⟨a, ⟨h1, h2, rfl⟩, h3, rfl⟩
    exact ⟨h1, h2, h3, rfl⟩
  · rintro ⟨h1, h2, h3, rfl⟩
    exact ⟨_, ⟨h1, h2, rfl⟩, h3, rfl⟩

theorem toStaking_ok {r q m : Nat} : toStaking r q = .ok m ↔ r * q / DIV ≤ maxU128 ∧ m = r * q / DIV := by
  simp only [toStaking, okOr_ok_iff, fixMulInt_iff]

theorem stake_view {w m : Nat} (h : stake c s w m = .ok s') :
    ∃ l1 l2 l3 q, c.minStake ≤ m ∧ c.xcmFees + pmulFloor s.rf m ≤ m ∧
      s.tok.transfer c.staking w c.acct (m - c.xcmFees) false = .ok l1 ∧
      l1.transfer c.staking w c.xcmAcct c.xcmFees false = .ok l2 ∧
      toLiquid s.rate (m - c.xcmFees - pmulFloor s.rf m) = .ok q ∧
      satAdd (totalBonded c s) (m - c.xcmFees - pmulFloor s.rf m) ≤ marketCap c s ∧
      l2.mint c.liquid w q = .ok l3 ∧
      s' = { s with
        lo := { s.lo with ledger := l3 },
        pool := { s.pool with
          stake := ⟨s.pool.stake.total + (m - c.xcmFees - pmulFloor s.rf m), s.pool.stake.reserved⟩ },
        reserves := s.reserves + pmulFloor s.rf m,
        log := .staked w (m - c.xcmFees - pmulFloor s.rf m) :: s.log } := by
  simp only [stake, bind_ok_iff, ensure_ok_iff, exists_const, csub_ok_iff, cadd_ok_iff, ensureMarketCap,
    pure_ok_iff] at h
  obtain ⟨hm, _, ⟨h1, rfl⟩, l1, hl1, l2, hl2, _, ⟨h2, rfl⟩, q, hq, hcap, l3, hl3, hh, he, t, ⟨h3, rfl⟩, rfl⟩ := h
  obtain ⟨rfl, _⟩ := Half.add_ok he
  exact ⟨l1, l2, l3, q, hm, by omega, hl1, hl2, hq, hcap, hl3, rfl⟩

theorem instantUnstake_view {w m : Nat} (h : instantUnstake c s w m = .ok s') :
    ∃ cf k l1 l2 l3, collFactor s c.collateral = .ok cf ∧ precipCeil cf m = .ok k ∧
      s.tok.mint c.collateral c.acct k = .ok l1 ∧
      l1.transfer c.collateral c.acct c.lo.acct k false = .ok l2 ∧
      l2.transfer c.staking c.lo.acct c.acct (m - c.instantFee * m / DIV) false = .ok l3 ∧
      l3.transfer c.staking c.acct w (m - c.instantFee * m / DIV) false = .ok s'.tok ∧
      s' = { s with lo := s'.lo } := by
  simp only [instantUnstake, bind_ok_iff, okOr_ok_iff, fixMulInt_iff, csub_ok_iff, pure_ok_iff] at h
  obtain ⟨f, ⟨_, rfl⟩, b, ⟨_, rfl⟩, cf, hcf, k, hk, l1, hl1, x1, hx1, x2, hx2, l4, hl4, rfl⟩ := h
  obtain ⟨mk, bk, xx, e, r, l2, _, _, _, _, _, _, _, _, _, hl2, rfl⟩ := Loans.mint_view hx1
  obtain ⟨mk, bk, xx, d, l3, _, _, _, _, _, _, _, _, hl3, rfl⟩ := Loans.borrow_view hx2
  refine ⟨cf, k, l1, l2, l3, hcf, hk, hl1, hl2, ?_, hl4, rfl⟩
  have : ∀ y : Loans.State, (tryCollateral c y).ledger = y.ledger := by
    intro y
    unfold tryCollateral
    rcases commit_cases y (Loans.setCollateral c.lo y c.acct c.collateral true) with h | h
    · rw [(Loans.setCollateral_view h).2]; rfl
    · rw [h.1]
  rw [this] at hl3
  exact hl3

theorem claimLoans_view {m : Nat} (h : claimLoans c s m = .ok s') :
    ∃ r x k l1 l2, r ≤ m ∧
      s.tok.transfer c.staking c.acct c.lo.acct r false = .ok l1 ∧
      l1.transfer c.collateral c.lo.acct c.acct x false = .ok l2 ∧
      l2.burn c.collateral c.acct k = .ok s'.tok ∧
      s' = { s with lo := s'.lo } := by
  simp only [claimLoans, bind_ok_iff, pure_ok_iff] at h
  obtain ⟨x1, h1, d, hd, x2, h2, cf, hcf, k, hk, ⟨y1, y2⟩, hy, l, hl, rfl⟩ := h
  obtain ⟨b1, rfl, _⟩ := Loans.accrue_ok h1
  obtain ⟨_, b, x, d', l1, _, _, _, _, _, _, hl1, rfl⟩ := Loans.repay_view h2
  obtain ⟨mk, b', e, r, _, _, _, _, _, hv⟩ := Loans.doRedeem_view hy
  obtain ⟨x', r', l2, _, _, _, _, _, _, hl2, he⟩ := Loans.redeemVoucher_view hv
  simp only at he
  subst he
  exact ⟨_, _, k, l1, l2, Nat.min_le_right _ _, hl1, hl2, hl, rfl⟩

theorem unstakeSlow_view {w q r : Nat} {p : Provider} (h : unstakeSlow c s w q r p = .ok s') :
    ∃ l1 l2 s1, s.era + c.bonding + 1 ≤ maxU32 ∧
      (pushChunk ((s.unlockings (unlockKey c w p)).getD []) (s.rate * (q - r) / DIV) (s.era + c.bonding + 1)).length ≤ 32 ∧
      s.tok.burn c.liquid w q = .ok l1 ∧ l1.mint c.liquid c.acct r = .ok l2 ∧
      viaLoans c { s.setTok l2 with
        unlockings := upd s.unlockings (unlockKey c w p) (some (pushChunk
          ((s.unlockings (unlockKey c w p)).getD []) (s.rate * (q - r) / DIV) (s.era + c.bonding + 1))) } w
        (s.rate * (q - r) / DIV) p = .ok s1 ∧
      s' = { s1 with
        pool := { s1.pool with
          unstake := ⟨s1.pool.unstake.total + s.rate * (q - r) / DIV, s1.pool.unstake.reserved⟩ },
        log := .unstaked (unlockKey c w p) (s.rate * (q - r) / DIV) :: s1.log } := by
  simp only [unstakeSlow, targetEra, bind_ok_iff, toStaking_ok, eraAdd_ok_iff, ensure_ok_iff, exists_const,
    pure_ok_iff] at h
  obtain ⟨_, ⟨_, rfl⟩, _, ⟨_, ⟨h1, rfl⟩, h2, rfl⟩, h3, l1, hl1, l2, hl2, s1, hs1, hh, he, rfl⟩ := h
  obtain ⟨rfl, _⟩ := Half.add_ok he
  exact ⟨l1, l2, s1, h2, h3, hl1, hl2, hs1, rfl⟩

theorem unstake_view {w q : Nat} {p : Provider} (h : unstake c s w q p = .ok s') :
    c.minUnstake ≤ q ∧ pmulFloor s.urf q ≤ q ∧ s.ureserves + pmulFloor s.urf q ≤ maxU128 ∧
    ((p = .pool ∧ s' = requestFast c { s with ureserves := s.ureserves + pmulFloor s.urf q } w
        (q - pmulFloor s.urf q)) ∨
     (p ≠ .pool ∧ unstakeSlow c { s with ureserves := s.ureserves + pmulFloor s.urf q } w q
        (pmulFloor s.urf q) p = .ok s')) := by
  simp only [unstake, bind_ok_iff, ensure_ok_iff, exists_const, cadd_ok_iff, csub_ok_iff] at h
  obtain ⟨h1, _, ⟨h2, rfl⟩, _, ⟨h3, rfl⟩, h⟩ := h
  refine ⟨h1, h3, h2, ?_⟩
  split at h
  · rename_i hp
    simp only [Except.ok.injEq] at h
    exact .inl ⟨hp, h.symm⟩
  · exact .inr ⟨by assumption, h⟩

theorem claimFor_view {w : Nat} (h : claimFor c s w = .ok s') :
    ∃ xs s1, s.unlockings w = some xs ∧ dueSum s.era xs ≠ 0 ∧ dueSum s.era xs ≤ unclaimed c s ∧
      payClaim c s w (dueSum s.era xs) = .ok s1 ∧
      s' = { s1 with
        unlockings := upd s.unlockings w (retained s.era xs),
        log := .claimed w (dueSum s.era xs) :: s.log } := by
  simp only [claimFor, bind_ok_iff, okOr_ok_iff, ensure_ok_iff, exists_const, pure_ok_iff] at h
  obtain ⟨xs, hxs, m, hm, h1, h2, s1, hs1, rfl⟩ := h
  cases sumDue_ok hm
  exact ⟨xs, s1, hxs, h1, h2, hs1, rfl⟩

theorem retained_getD (e : Nat) (xs : List Chunk) :
    (retained e xs).getD [] = xs.filter (fun ch => decide (e < ch.era)) := by
  unfold retained
  split_ifs with h
  · rw [h]; rfl
  · rfl

theorem settleFast_view {w q : Nat} (h : settleFast c s w q = .ok s') :
    ∃ l1 l2 l3, s.tok.burn c.liquid w (q - fixSatMul c.fastFee q) = .ok l1 ∧
      l1.transfer c.liquid w c.feeRecv (fixSatMul c.fastFee q) false = .ok l2 ∧
      s.pool.stake.reserved + s.rate * (q - fixSatMul c.fastFee q) / DIV ≤ s.pool.stake.total ∧
      l2.transfer c.staking c.acct w (s.rate * (q - fixSatMul c.fastFee q) / DIV) false = .ok l3 ∧
      s' = { s with
        lo := { s.lo with ledger := l3 },
        pool := { s.pool with stake :=
          ⟨s.pool.stake.total - s.rate * (q - fixSatMul c.fastFee q) / DIV, s.pool.stake.reserved⟩ } } := by
  simp only [settleFast, bind_ok_iff, toStaking_ok, pure_ok_iff] at h
  obtain ⟨l1, h1, l2, h2, _, ⟨_, rfl⟩, hh, he, l3, h3, rfl⟩ := h
  obtain ⟨hr, rfl⟩ := Half.sub_ok he
  exact ⟨l1, l2, l3, h1, h2, hr, h3, rfl⟩

theorem fastMatch_view {w : Nat} (h : fastMatch c s w = .ok s') :
    (s.fast w = none ∧ s' = s) ∨
    ∃ b q a s1, s.fast w = some b ∧ q = min b (s.tok.bal c.liquid w) ∧
      s.pool.stake.reserved ≤ s.pool.stake.total ∧
      toLiquid s.rate (s.pool.stake.total - s.pool.stake.reserved) = .ok a ∧
      trySettle c s w (min q a) = .ok s1 ∧
      s' = { s1 with fast := upd s.fast w (restOf (q - min q a)) } := by
  unfold fastMatch at h
  split at h
  · rename_i hn
    cases h
    exact .inl ⟨hn, rfl⟩
  · rename_i b hb
    simp only [fastMatchOf, bind_ok_iff, Half.free_ok, pure_ok_iff, reducible_false] at h
    obtain ⟨_, ⟨hle, rfl⟩, a, ha, s1, hs1, rfl⟩ := h
    exact .inr ⟨b, _, a, s1, hb, rfl, hle, ha, hs1, rfl⟩

/-! ### Requests -/

/-- What sending requests changes: nothing but fees, locks and the list of requests in flight. -/
structure Sent (c : Cfg) (s s' : State) : Prop where
  frame : s' = { s with
    lo := { s.lo with ledger := s'.tok },
    pool := s'.pool,
    reqs := s'.reqs,
    nextId := s'.nextId,
    matched := s'.matched }
  wf : s.tok.WF → s'.tok.WF
  bal : ∀ x y, (x ≠ c.staking ∨ y ≠ c.xcmAcct) → s'.tok.bal x y = s.tok.bal x y
  iss : ∀ x, x ≠ c.staking → s'.tok.iss x = s.tok.iss x
  stake : s'.pool.stake.total = s.pool.stake.total
  unstake : s'.pool.unstake.total = s.pool.unstake.total
  stakeLe : s.pool.stake.reserved ≤ s.pool.stake.total → s'.pool.stake.reserved ≤ s.pool.stake.total
  unstakeLe : s.pool.unstake.reserved ≤ s.pool.unstake.total → s'.pool.unstake.reserved ≤ s.pool.unstake.total
  new : ∃ rs : List (Nat × Req), s'.reqs = s.reqs ++ rs ∧ s'.nextId = s.nextId + rs.length ∧
    rs.map Prod.fst = List.range' s.nextId rs.length ∧
    (∀ x ∈ rs, x.2.idx ∈ c.indices ∧ (x.2.later = true → s.ledgers x.2.idx ≠ none)) ∧
    s'.pool.stake.reserved = s.pool.stake.reserved + (rs.map (fun x => x.2.stakeAmt)).sum ∧
    s'.pool.unstake.reserved = s.pool.unstake.reserved + (rs.map (fun x => x.2.unstakeAmt)).sum

theorem Sent.refl (c : Cfg) (s : State) : Sent c s s :=
  ⟨rfl, id, fun _ _ _ => rfl, fun _ _ => rfl, rfl, rfl, id, id, [], by simp⟩

theorem Sent.trans {s1 s2 s3 : State} (h1 : Sent c s1 s2) (h2 : Sent c s2 s3) : Sent c s1 s3 := by
  refine ⟨?_, fun h => h2.wf (h1.wf h), fun x y h => (h2.bal x y h).trans (h1.bal x y h),
    fun x h => (h2.iss x h).trans (h1.iss x h), h2.stake.trans h1.stake, h2.unstake.trans h1.unstake, ?_, ?_, ?_⟩
  · rw [h2.frame, h1.frame]
    simp [State.tok]
  · intro h
    have := h1.stakeLe h
    have h3 := h2.stakeLe (by rw [h1.stake]; exact this)
    rw [h1.stake] at h3
    exact h3
  · intro h
    have := h1.unstakeLe h
    have h3 := h2.unstakeLe (by rw [h1.unstake]; exact this)
    rw [h1.unstake] at h3
    exact h3
  · obtain ⟨r1, e1, n1, i1, x1, a1, b1⟩ := h1.new
    obtain ⟨r2, e2, n2, i2, x2, a2, b2⟩ := h2.new
    refine ⟨r1 ++ r2, by rw [e2, e1, List.append_assoc], by rw [n2, n1, List.length_append]; omega, ?_, ?_, ?_, ?_⟩
    · rw [List.map_append, i1, i2, n1, List.length_append, List.range'_append_1]
    · intro x hx
      have hl : s2.ledgers = s1.ledgers := by rw [h1.frame]
      rw [hl] at x2
      rcases List.mem_append.1 hx with h | h
      · exact x1 x h
      · exact x2 x h
    · rw [a2, a1, List.map_append, List.sum_append]; omega
    · rw [b2, b1, List.map_append, List.sum_append]; omega

theorem isSome_ne {α : Type} {o : Option α} (h : o.isSome = true) : o ≠ none := by
  intro e; rw [e] at h; cases h

theorem send_view {r : Req} (h : send c s r = .ok s') :
    ∃ l, s.tok.burn c.staking c.xcmAcct (s.fee r.kind) = .ok l ∧
      s' = { s with
        lo := { s.lo with ledger := l },
        reqs := s.reqs ++ [(s.nextId, r)],
        nextId := s.nextId + 1 } := by
  simp only [send, bind_ok_iff, ensure_ok_iff, exists_const, pure_ok_iff] at h
  obtain ⟨l, hl, _, rfl⟩ := h
  refine ⟨l, ?_, rfl⟩
  split at hl
  · cases hl; assumption
  · exact absurd hl (by simp)

theorem send_sent {r : Req} {p : Pool} (h : send c { s with pool := p } r = .ok s') (hi : r.idx ∈ c.indices)
    (hb : r.later = true → s.ledgers r.idx ≠ none)
    (h1 : p.stake = ⟨s.pool.stake.total, s.pool.stake.reserved + r.stakeAmt⟩)
    (h2 : p.unstake = ⟨s.pool.unstake.total, s.pool.unstake.reserved + r.unstakeAmt⟩)
    (h3 : r.stakeAmt ≠ 0 → s.pool.stake.reserved + r.stakeAmt ≤ s.pool.stake.total)
    (h4 : r.unstakeAmt ≠ 0 → s.pool.unstake.reserved + r.unstakeAmt ≤ s.pool.unstake.total) : Sent c s s' := by
  obtain ⟨l, hl, rfl⟩ := send_view h
  obtain ⟨ps, pu⟩ := p
  simp only at h1 h2
  subst h1 h2
  refine ⟨rfl, fun hw => Ledger.burn_wf hl hw, ?_, ?_, rfl, rfl, ?_, ?_, [(s.nextId, r)], rfl, rfl, by simp, ?_, ?_, ?_⟩
  · intro x y hxy
    have := Ledger.burn_bal hl x y
    rw [if_neg (by rintro ⟨rfl, rfl⟩; exact hxy.elim (fun h => h rfl) (fun h => h rfl))] at this
    exact this
  · intro x hx
    have := Ledger.burn_iss hl x
    rw [if_neg hx] at this
    exact this
  · intro hle
    simp only
    by_cases h0 : r.stakeAmt = 0
    · omega
    · exact h3 h0
  · intro hle
    simp only
    by_cases h0 : r.unstakeAmt = 0
    · omega
    · exact h4 h0
  · intro x hx
    simp only [List.mem_singleton] at hx
    subst hx
    exact ⟨hi, hb⟩
  · simp
  · simp

theorem doBondExtra_sent {i m : Nat} (h : doBondExtra c s i m = .ok s') : Sent c s s' := by
  unfold doBondExtra at h
  split at h
  · cases h; exact .refl _ _
  · simp only [bind_ok_iff, ensure_ok_iff, exists_const, ensureLedgerCap] at h
    obtain ⟨hi, hb, _, hh, he, h⟩ := h
    obtain ⟨rfl, hle⟩ := Half.lock_ok he
    exact send_sent h hi (fun _ => isSome_ne hb) rfl rfl (fun _ => hle) (by simp [Req.unstakeAmt])

theorem doBond_sent {i m : Nat} (h : doBond c s i m = .ok s') : Sent c s s' := by
  unfold doBond at h
  split at h
  · cases h; exact .refl _ _
  · split at h
    · exact doBondExtra_sent h
    · simp only [bind_ok_iff, ensure_ok_iff, exists_const, ensureLedgerCap] at h
      obtain ⟨hi, _, _, hh, he, h⟩ := h
      obtain ⟨rfl, hle⟩ := Half.lock_ok he
      exact send_sent h hi (by simp [Req.later]) rfl rfl (fun _ => hle) (by simp [Req.unstakeAmt])

theorem doUnbond_sent {i m : Nat} (h : doUnbond c s i m = .ok s') : Sent c s s' := by
  unfold doUnbond at h
  split at h
  · cases h; exact .refl _ _
  · simp only [bind_ok_iff, ensure_ok_iff, exists_const, okOr_ok_iff] at h
    obtain ⟨hi, _, hb, _, _, hh, he, h⟩ := h
    obtain ⟨rfl, hle⟩ := Half.lock_ok he
    exact send_sent h hi (fun _ => by simp only [Req.idx]; rw [hb]; simp) rfl rfl (by simp [Req.stakeAmt]) (fun _ => hle)

theorem doRebond_sent {i m : Nat} (h : doRebond c s i m = .ok s') : Sent c s s' := by
  unfold doRebond at h
  split at h
  · cases h; exact .refl _ _
  · simp only [bind_ok_iff, ensure_ok_iff, exists_const] at h
    obtain ⟨hi, hb, hh, he, h⟩ := h
    obtain ⟨rfl, hle⟩ := Half.lock_ok he
    exact send_sent h hi (fun _ => isSome_ne hb) rfl rfl (fun _ => hle) (by simp [Req.unstakeAmt])

theorem doWithdraw_sent {i : Nat} (h : doWithdraw c s i = .ok s') : Sent c s s' := by
  unfold doWithdraw at h
  split at h
  · cases h; exact .refl _ _
  · simp only [bind_ok_iff, ensure_ok_iff, exists_const] at h
    obtain ⟨hi, hb, h⟩ := h
    exact send_sent (p := s.pool) h hi (fun _ => isSome_ne hb) (by simp [Req.stakeAmt]) (by simp [Req.unstakeAmt])
      (by simp [Req.stakeAmt]) (by simp [Req.unstakeAmt])

theorem doNominate_sent {i : Nat} (h : doNominate c s i = .ok s') : Sent c s s' := by
  simp only [doNominate, bind_ok_iff, ensure_ok_iff, exists_const] at h
  obtain ⟨hi, hb, h⟩ := h
  exact send_sent (p := s.pool) h hi (fun _ => isSome_ne hb) (by simp [Req.stakeAmt]) (by simp [Req.unstakeAmt])
    (by simp [Req.stakeAmt]) (by simp [Req.unstakeAmt])

theorem forEach_sent {α : Type} {f : State → α → R State}
    (hf : ∀ s s' x, f s x = .ok s' → Sent c s s') :
    ∀ {xs : List α} {s s' : State}, forEach f s xs = .ok s' → Sent c s s'
  | [], s, s', h => by simp only [forEach] at h; cases h; exact .refl _ _
  | x :: xs, s, s', h => by
    simp only [forEach, bind_ok_iff] at h
    obtain ⟨s1, h1, h2⟩ := h
    exact (hf _ _ _ h1).trans (forEach_sent hf h2)

theorem multiBond_sent {m : Nat} (h : multiBond c s m = .ok s') : Sent c s s' := by
  unfold multiBond at h
  split at h
  · cases h; exact .refl _ _
  · exact forEach_sent (fun _ _ _ => doBond_sent) h
theorem multiUnbond_sent {m : Nat} (h : multiUnbond c s m = .ok s') : Sent c s s' := by
  unfold multiUnbond at h
  split at h
  · cases h; exact .refl _ _
  · exact forEach_sent (fun _ _ _ => doUnbond_sent) h
theorem multiRebond_sent {m : Nat} (h : multiRebond c s m = .ok s') : Sent c s s' := by
  unfold multiRebond at h
  split at h
  · cases h; exact .refl _ _
  · exact forEach_sent (fun _ _ _ => doRebond_sent) h

theorem doMatching_sent (h : doMatching c s = .ok s') : Sent c s s' := by
  simp only [doMatching, bind_ok_iff] at h
  obtain ⟨x, _, s1, h1, s2, h2, s3, h3, h4⟩ := h
  have h0 : Sent c s { s with matched := true } :=
    ⟨rfl, id, fun _ _ _ => rfl, fun _ _ => rfl, rfl, rfl, id, id, [], by simp⟩
  exact h0.trans ((multiBond_sent h1).trans ((multiRebond_sent h2).trans ((multiUnbond_sent h3).trans
    (forEach_sent (fun _ _ _ => doWithdraw_sent) h4))))

theorem initMatching_sent (h : initMatching c s = .ok s') : Sent c s s' := by
  unfold initMatching at h
  split at h
  · exact doMatching_sent h
  · cases h; exact .refl _ _

/-! ### Responses -/

theorem updLedger_view {i : Nat} {f : SLedger → R SLedger} (h : updLedger s i f = .ok s') :
    ∃ l l', s.ledgers i = some l ∧ f l = .ok l' ∧
      s' = { s with ledgers := upd s.ledgers i (some l'), updated := upd s.updated i true } := by
  simp only [updLedger, bind_ok_iff, okOr_ok_iff, pure_ok_iff] at h
  obtain ⟨l, hl, l', hl', rfl⟩ := h
  exact ⟨l, l', hl, hl', rfl⟩

theorem findReq_mem {xs : List (Nat × Req)} {q : Nat} {r : Req} (h : findReq xs q = some r) : (q, r) ∈ xs := by
  unfold findReq at h
  simp only [Option.map_eq_some_iff] at h
  obtain ⟨⟨q', r'⟩, hf, rfl⟩ := h
  have h1 := List.mem_of_find?_eq_some hf
  have h2 := List.find?_some hf
  simp only [beq_iff_eq] at h2
  subst h2
  exact h1

theorem notify_view {q : Nat} {ok : Bool} (h : notify c s q ok = .ok s') :
    s' = s ∨ ∃ r s1, ok = true ∧ findReq s.reqs q = some r ∧ applyReq c s r = .ok s1 ∧
      s' = { s1 with reqs := s1.reqs.filter (fun x => x.1 != q) } := by
  unfold notify at h
  split at h
  · cases h; exact .inl rfl
  · rename_i r hr
    split at h
    · cases h; exact .inl rfl
    · rename_i hok
      simp only [bind_ok_iff, pure_ok_iff] at h
      obtain ⟨s1, h1, rfl⟩ := h
      exact .inr ⟨r, s1, by simpa using hok, hr, h1, rfl⟩

/-! ### Rate -/

theorem newRate_ge {r : Nat} (h : newRate c s = .ok r) : s.rate ≤ r := by
  unfold newRate at h
  split at h
  · cases h; exact Nat.le_refl _
  · simp only [bind_ok_iff, pure_ok_iff] at h
    obtain ⟨_, _, _, _, _, _, rfl⟩ := h
    split <;> omega

theorem commit_newRate_ge : s.rate ≤ commit s.rate (newRate c s) := by
  rcases commit_cases s.rate (newRate c s) with h | h
  · exact newRate_ge h
  · rw [h.1]

end Verif.Staking
