import Verif.System.Inv
import Verif.System.Fixture
import Verif.Amm.Props
import Verif.Stable.Props
import Verif.Streaming.Props
import Verif.Farming.Props
import Verif.Loans.Props
import Verif.Staking.Props
import Verif.Crowdloans.Props
import Verif.Crowdloans.Props2

/-!
# C189–C192: the pallets together

The models of the pallets are proved correct under assumptions about the rest of the chain (their `Env`).  Here those
assumptions are discharged: the rest of the chain is the other seven pallets, with the calls between them.
-/

namespace Verif.System
open Verif

variable {c : Cfg} {D : Nat → Prop} {s s' : State}

/-! ## C189: every pallet's guarantees hold at the same time -/

/-- **C189.**  Whatever happens to the eight pallets together, what each of them sees is one of its own histories: all
theorems about reachable states of one pallet hold for all of them at once, over the same ledger. -/
theorem C189_each_pallet (hc : c.OK D) (h : Reach c D s) :
    Amm.Reach c.amm s.ammV ∧ Stable.Reach c.stb s.stbV ∧ Farming.Reach c.farm s.farmV ∧ Loans.Reach c.lo s.loV ∧
    Streaming.Reach c.str s.strV ∧ Staking.Reach c.stk s.stkV ∧ Crowdloans.Reach c.cl D s.clV ∧
    Bridge.Reach c.br s.brV :=
  let i := h.inv hc
  ⟨i.amm, i.stb, i.farm, i.lo, i.str, i.stk, i.cl, i.br⟩

/-- A history in which every pallet is used is reachable; its configuration is sane. -/
example : exC.OK exD ∧ Reach exC exD ex3 ∧ Amm.Reach exC.amm ex3.ammV ∧ Loans.Reach exC.lo ex3.loV :=
  ⟨exC_ok, ex3_reach, (C189_each_pallet exC_ok ex3_reach).1, (C189_each_pallet exC_ok ex3_reach).2.2.2.1⟩
example : ex2.ledger.bal 1 1001 = 4000 ∧ ex2.ledger.bal 1 1002 = 100000 ∧ ex2.ledger.bal 1 1003 = 20000 ∧
    ex2.ledger.bal 1 1006 = 1000 ∧ ex2.ledger.bal 60 2060 = 1000 ∧ ex2.ledger.bal 1 1009 = 600 ∧
    ex2.ledger.bal 2 1010 = 3 := by decide +kernel

/-- **C189.**  All obligations are covered at the same time, by balances in the one ledger. -/
theorem C189_solvent (hc : c.OK D) (h : Reach c D s) (x : Nat) :
    (∀ S : Finset (Nat × Nat), ∑ k ∈ S, Amm.claimOf x k (s.amm.pools k) ≤ s.ledger.bal x c.amm.acct) ∧
    (∀ S : Finset (Nat × Nat), ∑ k ∈ S, Amm.claimOf x k (s.stb.pools k) ≤ s.ledger.bal x c.stb.acct) ∧
    (∀ S : Finset Nat, ∑ i ∈ S, Streaming.owed x (s.str.streams i) ≤ s.ledger.bal x c.str.acct) ∧
    (∀ (S : Finset Farming.Key) (U : Finset Nat),
      ∑ k ∈ S, (∑ w ∈ U, Farming.userOwed s.farm x k w + Farming.streamOwed s.farm x k)
        ≤ s.ledger.bal x (c.farm.acct x)) ∧
    (s.lo.books x).reserves ≤ s.ledger.bal x c.lo.acct + (s.lo.books x).borrows ∧
    s.stk.reserves + s.stk.pool.stake.total ≤ s.ledger.bal c.stk.staking c.stk.acct ∧
    (∀ S : Finset Crowdloans.Key, (S.sum fun k => match s.cl.vaults k with
      | some v => v.pending + v.flying
      | none => 0) ≤ s.ledger.bal c.cl.relay c.cl.acct) := by
  have i := h.inv hc
  refine ⟨Amm.C02_reserves_backed hc.amm i.amm x, (Stable.C58_solvent hc.stb i.stb).1 x,
    Streaming.C19_solvent hc.str i.str x, Farming.C26_solvent i.farm x, Loans.C55_reserves_covered hc.lo i.lo x,
    Staking.C65_pool_held hc.stk i.stk, Crowdloans.C93_backed hc.cl i.cl⟩

/-- In the example the AMM owes 4000 of asset 1, the stableswap pallet 100000, a stream 1000, liquid staking 14980 and
crowdloans 600, all at the same time. -/
example : Amm.claimOf 1 (5, 1) (ex1.amm.pools (5, 1)) = 4000 ∧ Amm.claimOf 1 (2, 1) (ex1.stb.pools (2, 1)) = 100000 ∧
    Streaming.owed 1 (ex1.str.streams 0) = 1000 ∧ ex1.stk.reserves + ex1.stk.pool.stake.total = 14980 ∧
    (match ex1.cl.vaults exK with | some v => v.pending + v.flying | none => 0) = 600 ∧
    Farming.userOwed ex1.farm 60 exF 7 = 1000 ∧ Farming.streamOwed ex1.farm 2 exF = 3000 := by decide +kernel

/-- No two pallets keep what they owe in the same account. -/
theorem spends_keeps_ne (hc : c.OK D) {p q : Pallet} {w : Nat} (hpq : p ≠ q) (h : spends c p w) : ¬ keeps c q w :=
  fun hk => hpq (hc.apart p q w h hk)

/-- **C189.**  Nothing is promised twice: of every asset, the tokens held by any set of ordinary accounts, the reserves
of all AMM and stableswap pools, everything owed by streams and by farming, the relay tokens of contributors that have
not left the chain and the reserves and pooled stake of liquid staking are together at most the total issuance. -/
theorem C189_nothing_promised_twice (hc : c.OK D) (h : Reach c D s) (x : Nat) (A B : Finset (Nat × Nat))
    (T : Finset Nat) (F : Finset Farming.Key) (U : Finset Nat) (V : Finset Crowdloans.Key) (W : Finset Nat)
    (hW : ∀ w ∈ W, ¬ Vaulted c w) :
    ∑ w ∈ W, s.ledger.bal x w
      + ∑ k ∈ A, Amm.claimOf x k (s.amm.pools k)
      + ∑ k ∈ B, Amm.claimOf x k (s.stb.pools k)
      + ∑ i ∈ T, Streaming.owed x (s.str.streams i)
      + ∑ k ∈ F, (∑ w ∈ U, Farming.userOwed s.farm x k w + Farming.streamOwed s.farm x k)
      + (if x = c.cl.relay then (V.sum fun k => match s.cl.vaults k with
          | some v => v.pending + v.flying
          | none => 0) else 0)
      + (if x = c.stk.staking then s.stk.reserves + s.stk.pool.stake.total else 0)
      ≤ s.ledger.iss x := by
  obtain ⟨h1, h2, h3, h4, _, h6, h7⟩ := C189_solvent hc h x
  have i := h.inv hc
  have ne : ∀ {p q : Pallet} {w v : Nat}, p ≠ q → spends c p w → keeps c q v → w ≠ v := by
    intro p q w v hpq hs hk e
    subst e
    exact spends_keeps_ne hc hpq hs hk
  have n12 : c.amm.acct ≠ c.stb.acct := ne (p := .amm) (q := .stable) (by decide) rfl (.inl rfl)
  have n13 : c.amm.acct ≠ c.str.acct := ne (p := .amm) (q := .streaming) (by decide) rfl rfl
  have n14 : c.amm.acct ≠ c.farm.acct x := ne (p := .amm) (q := .farming) (by decide) rfl ⟨x, rfl⟩
  have n15 : c.amm.acct ≠ c.cl.acct := ne (p := .amm) (q := .crowdloans) (by decide) rfl rfl
  have n16 : c.amm.acct ≠ c.stk.acct := ne (p := .amm) (q := .staking) (by decide) rfl rfl
  have n23 : c.stb.acct ≠ c.str.acct := ne (p := .stable) (q := .streaming) (by decide) rfl rfl
  have n24 : c.stb.acct ≠ c.farm.acct x := ne (p := .stable) (q := .farming) (by decide) rfl ⟨x, rfl⟩
  have n25 : c.stb.acct ≠ c.cl.acct := ne (p := .stable) (q := .crowdloans) (by decide) rfl rfl
  have n26 : c.stb.acct ≠ c.stk.acct := ne (p := .stable) (q := .staking) (by decide) rfl rfl
  have n34 : c.str.acct ≠ c.farm.acct x := ne (p := .streaming) (q := .farming) (by decide) rfl ⟨x, rfl⟩
  have n35 : c.str.acct ≠ c.cl.acct := ne (p := .streaming) (q := .crowdloans) (by decide) rfl rfl
  have n36 : c.str.acct ≠ c.stk.acct := ne (p := .streaming) (q := .staking) (by decide) rfl rfl
  have n45 : c.farm.acct x ≠ c.cl.acct := ne (p := .farming) (q := .crowdloans) (by decide) ⟨x, rfl⟩ rfl
  have n46 : c.farm.acct x ≠ c.stk.acct := ne (p := .farming) (q := .staking) (by decide) ⟨x, rfl⟩ rfl
  have n56 : c.cl.acct ≠ c.stk.acct := ne (p := .crowdloans) (q := .staking) (by decide) (.inl rfl) rfl
  have k1 : c.amm.acct ∉ W := fun hm => hW _ hm ⟨.amm, .inl rfl⟩
  have k2 : c.stb.acct ∉ W := fun hm => hW _ hm ⟨.stable, .inl rfl⟩
  have k3 : c.str.acct ∉ W := fun hm => hW _ hm ⟨.streaming, rfl⟩
  have k4 : c.farm.acct x ∉ W := fun hm => hW _ hm ⟨.farming, x, rfl⟩
  have k5 : c.cl.acct ∉ W := fun hm => hW _ hm ⟨.crowdloans, rfl⟩
  have k6 : c.stk.acct ∉ W := fun hm => hW _ hm ⟨.staking, rfl⟩
  have hs := ((i.wf x).1).le (insert c.amm.acct (insert c.stb.acct (insert c.str.acct (insert (c.farm.acct x)
    (insert c.cl.acct (insert c.stk.acct W))))))
  rw [Finset.sum_insert (by simp [*]), Finset.sum_insert (by simp [*]), Finset.sum_insert (by simp [*]),
    Finset.sum_insert (by simp [*]), Finset.sum_insert (by simp [*]), Finset.sum_insert k6] at hs
  have g1 := h1 A
  have g2 := h2 B
  have g3 := h3 T
  have g4 := h4 F U
  have g5 : (if x = c.cl.relay then (V.sum fun k => match s.cl.vaults k with
      | some v => v.pending + v.flying
      | none => 0) else 0) ≤ s.ledger.bal x c.cl.acct := by
    split_ifs with e
    · rw [e]; exact h7 V
    · exact Nat.zero_le _
  have g6 : (if x = c.stk.staking then s.stk.reserves + s.stk.pool.stake.total else 0) ≤ s.ledger.bal x c.stk.acct := by
    split_ifs with e
    · rw [e]; exact h6
    · exact Nat.zero_le _
  omega

/-- The sum of the promises of the example, with the tokens users 7, 8 and 9 hold, is close to the issuance: it is
short of it by what the lending pallet and the XCM account hold. -/
example : ex1.ledger.bal 1 7 + ex1.ledger.bal 1 8 + ex1.ledger.bal 1 9 + 4000 + 100000 + 1000 + 600 + 14980 + 20000 +
    ex1.ledger.bal 1 1008 = ex1.ledger.iss 1 ∧ ¬ Vaulted exC 7 := by
  refine ⟨by decide +kernel, fun h => absurd (exC_vaulted h) (by decide)⟩

/-! ## C190: nobody pays without being asked; C192: who mints and burns -/

/-- What a call of the system does to the ledger. -/
theorem call_guar (hc : c.OK D) (h : Inv c D s) {k : Call} (hk : k.OK c D s) (he : exec c s k = .ok s') :
    Guar (fun w => k.takesFrom s w ∨ ∃ p, k.uses p ∧ spends c p w) (k.issues c s) s.ledger s'.ledger := by
  cases k with
  | amm k =>
    simp only [exec, bind_ok_iff, pure_ok_iff] at he
    obtain ⟨x, hx, rfl⟩ := he
    exact (Amm.exec_guar hx).1.mono (fun w hw => hw.imp id (fun e => ⟨.amm, rfl, e⟩)) (fun _ h => h)
  | stable k =>
    simp only [exec, bind_ok_iff, pure_ok_iff] at he
    obtain ⟨x, hx, rfl⟩ := he
    exact (Stable.exec_guar hx).1.mono (fun w hw => hw.imp id (fun e => ⟨.stable, rfl, e⟩)) (fun _ h => h)
  | farming k =>
    simp only [exec, bind_ok_iff, pure_ok_iff] at he
    obtain ⟨x, hx, rfl⟩ := he
    exact (Farming.exec_guar hx).mono (fun w hw => hw.imp id (fun e => ⟨.farming, rfl, e⟩)) (fun _ h => h)
  | loans k =>
    simp only [exec, bind_ok_iff, pure_ok_iff] at he
    obtain ⟨x, hx, rfl⟩ := he
    exact (Loans.exec_guar hx).mono (fun w hw => hw.imp id (fun e => ⟨.loans, rfl, e⟩)) (fun _ h => h)
  | streaming k =>
    simp only [exec, bind_ok_iff, pure_ok_iff] at he
    obtain ⟨x, hx, rfl⟩ := he
    exact (Streaming.exec_guar hx).mono (fun w hw => hw.imp id (fun e => ⟨.streaming, rfl, e⟩)) (fun _ h => h)
  | staking k =>
    simp only [exec, bind_ok_iff, pure_ok_iff] at he
    obtain ⟨x, hx, rfl⟩ := he
    have ho : ∀ w ∈ (Call.staking k).actors, ¬ Vaulted c w := hk.actors
    have hp : ¬ k.pays s.stkV c.stk.lo.acct := by
      intro hw
      have hv : Vaulted c c.stk.lo.acct := ⟨.loans, rfl⟩
      cases k with
      | stake w' m => exact ho w' (by simp [Call.actors]) (by rw [show c.stk.lo.acct = w' from hw] at hv; exact hv)
      | unstake w' q p => exact ho w' (by simp [Call.actors]) (by rw [show c.stk.lo.acct = w' from hw] at hv; exact hv)
      | fastMatch ws => exact hw.2 (h.fast _ hv)
      | _ => exact hw
    have hx' : c.stk.xcmAcct ≠ c.stk.lo.acct := fun e => by
      have := hc.apart .staking .loans c.stk.xcmAcct (.inr rfl) e
      cases this
    refine (Staking.exec_guar hx hc.stk.loans hx' hp).1.mono (fun w hw => ?_) (fun _ h => h)
    rcases hw with h1 | h1 | h1 | h1
    · refine .inl ?_
      cases k <;> exact h1
    · exact .inr ⟨.staking, .inl rfl, .inl h1⟩
    · exact .inr ⟨.staking, .inl rfl, .inr h1⟩
    · exact .inr ⟨.loans, .inr rfl, .inl h1⟩
  | crowdloans k =>
    have src : ∀ w, (Crowdloans.srcOf c.cl k w ∨ w = c.cl.streaming.acct) →
        ((Call.crowdloans k).takesFrom s w ∨ ∃ p, (Call.crowdloans k).uses p ∧ spends c p w) := by
      intro w hw
      rcases hw with (h1 | h1 | h1) | h1
      · exact .inl h1
      · exact .inr ⟨.crowdloans, .inl rfl, .inl h1⟩
      · exact .inr ⟨.crowdloans, .inl rfl, .inr h1⟩
      · exact .inr ⟨.streaming, .inr rfl, h1⟩
    have hplain : ∀ {s'}, (do let x ← Crowdloans.exec c.cl s.clV k; pure (s.putCl x) : R State) = .ok s' →
        Guar (fun w => (Call.crowdloans k).takesFrom s w ∨ ∃ p, (Call.crowdloans k).uses p ∧ spends c p w)
          ((Call.crowdloans k).issues c s) s.ledger s'.ledger := by
      intro s' he
      simp only [bind_ok_iff, pure_ok_iff] at he
      obtain ⟨x, hx, rfl⟩ := he
      exact (Crowdloans.exec_guar hx).1.mono src (fun _ h => h)
    cases k with
    | redeemAndLend who k m =>
      simp only [exec, crowd, redeemAndLend, bind_ok_iff, pure_ok_iff] at he
      obtain ⟨_, _, x, hx, y, hy, rfl⟩ := he
      have hw : who ∈ (Crowdloans.Call.redeemAndLend who k m).payers := by simp [Crowdloans.Call.payers]
      have g1 := (Crowdloans.redeem_quiet (src := fun w => w = who) (cur := Crowdloans.curOf c.cl s.clV) hx rfl
        (.inl rfl) (fun a ha => .inr ha)).guar
      have g2 : Guar (fun w => w = who) (Crowdloans.curOf c.cl s.clV) x.tok y.ledger := Loans.mint_guar hy rfl
      exact (g1.trans g2).mono (fun w e => .inl (by rw [e]; exact hw)) (fun _ h => h)
    | _ => exact hplain he
  | bridge k =>
    simp only [exec, bind_ok_iff, pure_ok_iff] at he
    obtain ⟨x, hx, rfl⟩ := he
    exact (Bridge.exec_guar hx).1.mono (fun w hw => hw.imp id (fun e => ⟨.bridge, rfl, e⟩)) (fun _ h => h)
  | bridgeBlock =>
    simp only [exec, Except.ok.injEq] at he
    subst he
    exact Guar.refl
  | bridgeMembers ms =>
    simp only [exec, Except.ok.injEq] at he
    subst he
    show Guar _ _ s.ledger (Bridge.changeMembers c.br s.brV ms).ledger
    rw [(Bridge.changeMembers_same (c := c.br) (s := s.brV) ms).1]
    exact Guar.refl

/-- **C190.**  No call of any pallet lowers the balance of an ordinary account in any asset, unless that account signed
it to pay in, is named by governance as the one to pay, or has a pending fast-unstake request that is matched. -/
theorem C190_nobody_else_pays (hc : c.OK D) (h : Reach c D s) {k : Call} (hk : k.OK c D s) (he : exec c s k = .ok s')
    {w : Nat} (hw : ¬ k.takesFrom s w) (hs : ∀ p, ¬ spends c p w) (a : Nat) :
    s.ledger.bal a w ≤ s'.ledger.bal a w :=
  (call_guar hc (h.inv hc) hk he).bal a w (fun hx => hx.elim hw (fun ⟨p, _, e⟩ => hs p e))

/-- 7's redemption is not paid by 8. -/
example : ¬ exLend.takesFrom ex3 8 ∧ (∀ p, ¬ spends exC p 8) ∧ ex3.ledger.bal 1 8 ≤ ex4.ledger.bal 1 8 := by
  have h1 : ¬ exLend.takesFrom ex3 8 := by simp [exLend, Call.takesFrom, Crowdloans.Call.payers]
  have h2 : ∀ p, ¬ spends exC p 8 := by intro p; cases p <;> simp [spends, exC]; omega
  exact ⟨h1, h2, C190_nobody_else_pays exC_ok ex3_reach (exLend_ok _) ex4_step h1 h2 1⟩
/-- It burns 7's derivative tokens and moves as many relay tokens to the lending pallet. -/
example : ex3.ledger.bal 50 7 = 100 ∧ ex4.ledger.bal 50 7 = 10 ∧ ex3.ledger.bal 1 1003 = 20000 ∧
    ex4.ledger.bal 1 1003 = 20090 ∧ ex3.lo.vouchers 1 7 = 0 ∧ ex4.lo.vouchers 1 7 = 4500 ∧
    ex4.ledger.bal 1 7 = ex3.ledger.bal 1 7 := by decide +kernel

/-- **C190.**  No call lowers a balance of an account in which a pallet keeps what it owes, unless that pallet acts in
the call. -/
theorem C190_vaults_apart (hc : c.OK D) (h : Reach c D s) {k : Call} (hk : k.OK c D s) (he : exec c s k = .ok s')
    {q : Pallet} {w : Nat} (hq : keeps c q w) (hu : ¬ k.uses q) (a : Nat) :
    s.ledger.bal a w ≤ s'.ledger.bal a w := by
  have i := h.inv hc
  refine (call_guar hc i hk he).bal a w (fun hx => ?_)
  rcases hx with hx | ⟨p, hp, hs⟩
  · have hv : Vaulted c w := ⟨q, hq⟩
    have ho := hk.actors
    cases k with
    | amm k => exact ho w hx hv
    | stable k => exact ho w hx hv
    | farming k => refine ho w ?_ hv; cases k <;> simp_all [Call.takesFrom, Farming.Call.payers, Call.actors]
    | loans k => exact ho w (Loans.payers_sub_signers k w hx) hv
    | streaming k => refine ho w ?_ hv; cases k <;> simp_all [Call.takesFrom, Streaming.Call.payers, Call.actors]
    | staking k =>
      cases k with
      | stake w' m => exact ho w' (by simp [Call.actors]) (by rw [show w = w' from hx] at hv; exact hv)
      | unstake w' q p => exact ho w' (by simp [Call.actors]) (by rw [show w = w' from hx] at hv; exact hv)
      | fastMatch ws => exact hx.2 (i.fast w hv)
      | _ => exact hx
    | crowdloans k => exact ho w hx hv
    | bridge k => exact ho w hx hv
    | bridgeBlock => exact hx
    | bridgeMembers ms => exact hx
  · exact hu (hc.apart p q w hs hq ▸ hp)

example : keeps exC .amm 1001 ∧ ¬ exLend.uses .amm ∧ ex3.ledger.bal 1 1001 = 4000 ∧ ex4.ledger.bal 1 1001 = 4000 :=
  ⟨.inl rfl, by simp [exLend, Call.uses], by decide +kernel, by decide +kernel⟩

/-- **C192.**  A call mints or burns only what its pallet is there to issue: the AMM and the stableswap pallet the LP
tokens of their pools, the bridge external tokens, liquid staking the staking, liquid and collateral currency,
crowdloans the relay currency and derivative tokens; farming, lending and streaming nothing. -/
theorem C192_only_issuers_issue (hc : c.OK D) (h : Reach c D s) {k : Call} (hk : k.OK c D s)
    (he : exec c s k = .ok s') {a : Nat} (ha : ¬ k.issues c s a) : s'.ledger.iss a = s.ledger.iss a :=
  (call_guar hc (h.inv hc) hk he).iss a ha

/-- The AMM does not issue the liquid token although it has a pool of it; liquid staking does. -/
example : ¬ exLend.issues exC ex3 5 ∧ ex3.ledger.iss 5 = ex4.ledger.iss 5 ∧ 0 < ex3.ledger.iss 5 ∧
    ex3.ledger.iss 50 = 100 ∧ ex4.ledger.iss 50 = 10 := by
  refine ⟨?_, by decide +kernel, by decide +kernel, by decide +kernel, by decide +kernel⟩
  rintro (h | ⟨l, h⟩)
  · cases h
  · have := ((ex3_reach.inv exC_ok).ct 5 ⟨l, h⟩)
    rcases this with h | h <;> cases h

/-- **C192.**  In particular the liquid currency is minted and burnt by liquid staking only, and derivative tokens by
crowdloans only, whatever pools and bridged tokens have been registered. -/
theorem C192_liquid (hc : c.OK D) (h : Reach c D s) {k : Call} (hk : k.OK c D s) (he : exec c s k = .ok s') :
    ((∀ x, k ≠ .staking x) → s'.ledger.iss c.stk.liquid = s.ledger.iss c.stk.liquid) ∧
    ((∀ x, k ≠ .crowdloans x) → ∀ T, D T → s'.ledger.iss T = s.ledger.iss T) := by
  have i := h.inv hc
  constructor
  · intro hn
    refine C192_only_issuers_issue hc h hk he (fun ha => ?_)
    cases k with
    | amm k => exact ha.elim (fun e => i.lp _ e (.inl rfl)) (fun e => hk.lp k rfl _ e (.inl rfl))
    | stable k => exact ha.elim (fun e => i.slp _ e (.inl rfl)) (fun e => hk.slp k rfl _ e (.inl rfl))
    | bridge k => exact i.ext _ ha (.inl rfl)
    | staking k => exact hn k rfl
    | crowdloans k => exact ha.elim (fun e => hc.relay e.symm) (fun e => hc.liquidD (i.ct _ e))
    | _ => exact ha
  · intro hn T hT
    refine C192_only_issuers_issue hc h hk he (fun ha => ?_)
    cases k with
    | amm k => exact ha.elim (fun e => i.lp _ e (.inr hT)) (fun e => hk.lp k rfl _ e (.inr hT))
    | stable k => exact ha.elim (fun e => i.slp _ e (.inr hT)) (fun e => hk.slp k rfl _ e (.inr hT))
    | bridge k => exact i.ext _ ha (.inr hT)
    | staking k =>
      rcases ha with rfl | rfl | rfl
      · exact hc.stakingD hT
      · exact hc.liquidD hT
      · exact hc.collateralD hT
    | crowdloans k => exact hn k rfl
    | _ => exact ha

example : (∀ x, exLend ≠ .staking x) ∧ exD 50 ∧ ex3.ledger.iss 5 = ex4.ledger.iss 5 :=
  ⟨(by intro x h; cases h), .inl rfl, by decide +kernel⟩

/-! ## C191: XCM responses reach the pallet that asked -/

/-- **C191.**  Query ids of liquid staking and of crowdloans never coincide, and all are below the next one. -/
theorem C191_ids_apart (hc : c.OK D) (h : Reach c D s) :
    (∀ x ∈ s.stk.reqs, x.1 < s.query) ∧ (∀ q r, s.cl.requests q = some r → q < s.query) ∧
    (∀ q r r', (q, r) ∈ s.stk.reqs → s.cl.requests q ≠ some r') := by
  have i := h.inv hc
  refine ⟨(Staking.ReachP.inv hc.stk i.stk).ids, fun q r hq => ((Crowdloans.Reach.inv hc.cl i.cl).reqs q r hq).2, ?_⟩
  intro q r r' hq e
  rw [i.apart _ hq] at e
  cases e

/-- Both pallets wait for responses at the same time. -/
example : ex2.stk.reqs.map (fun x => x.1) = [3, 4] ∧ (ex2.cl.requests 0).isSome ∧ (ex2.cl.requests 2).isSome ∧
    ex2.query = 5 := by decide +kernel

theorem findReq_none {xs : List (Nat × Staking.Req)} {q : Nat} (h : ∀ r, (q, r) ∉ xs) : Staking.findReq xs q = none := by
  unfold Staking.findReq
  rw [List.find?_eq_none.2]
  · rfl
  · intro x hx e
    simp only [beq_iff_eq] at e
    exact h x.2 (e ▸ hx)

/-- **C191.**  A response delivered to the pallet that did not ask changes nothing at all. -/
theorem C191_wrong_pallet (hc : c.OK D) (h : Reach c D s) (q : Nat) (ok : Bool) :
    ((∃ r, (q, r) ∈ s.stk.reqs) → ∃ s', exec c s (.crowdloans (.notify q ok)) = .ok s' ∧ s'.ledger = s.ledger ∧
      s'.clV = s.clV ∧ s'.stkV = s.stkV ∧ s'.strV = s.strV) ∧
    ((∃ r, s.cl.requests q = some r) → ∃ s', exec c s (.staking (.notify q ok)) = .ok s' ∧ s'.ledger = s.ledger ∧
      s'.clV = s.clV ∧ s'.stkV = s.stkV ∧ s'.loV = s.loV) := by
  obtain ⟨_, _, h3⟩ := C191_ids_apart hc h
  constructor
  · rintro ⟨r, hr⟩
    have e : s.clV.requests q = none := by
      cases e : s.cl.requests q with
      | none => exact e
      | some r' => exact absurd e (h3 q r r' hr)
    have e2 : Crowdloans.notify c.cl s.clV q ok = .ok s.clV := by
      unfold Crowdloans.notify; rw [e]
    exact ⟨s.putCl s.clV, by simp only [exec, crowd, Crowdloans.exec, e2]; rfl, rfl, rfl, rfl, rfl⟩
  · rintro ⟨r, hr⟩
    have e : Staking.findReq s.stkV.reqs q = none := findReq_none (fun r' hm => h3 q r' r hm hr)
    have e2 : Staking.notify c.stk s.stkV q ok = .ok s.stkV := by
      unfold Staking.notify; rw [e]
    exact ⟨s.putStk s.stkV, by simp only [exec, Staking.exec, e2]; rfl, rfl, rfl, rfl, rfl⟩

end Verif.System
