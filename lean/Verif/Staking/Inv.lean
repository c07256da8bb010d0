import Verif.Staking.Views

/-! # Invariants of liquid staking -/

set_option linter.unusedSimpArgs false
set_option linter.unusedVariables false

namespace Verif.Staking
open Verif

variable {c : Cfg} {s s' : State}

/-! ### Sums over the derivative indices -/

theorem sum_off {f f' : Nat → Nat} : ∀ {xs : List Nat}, (∀ j ∈ xs, f' j = f j) → (xs.map f').sum = (xs.map f).sum
  | [], _ => rfl
  | x :: xs, h => by
    simp only [List.map_cons, List.sum_cons]
    rw [h x (by simp), sum_off (fun j hj => h j (by simp [hj]))]

theorem sum_upd {f f' : Nat → Nat} {i : Nat} : ∀ {xs : List Nat}, xs.Nodup → i ∈ xs → (∀ j, j ≠ i → f' j = f j) →
    (xs.map f').sum + f i = (xs.map f).sum + f' i
  | [], _, h, _ => absurd h (by simp)
  | x :: xs, hn, hi, h => by
    rw [List.nodup_cons] at hn
    simp only [List.map_cons, List.sum_cons]
    by_cases hx : x = i
    · subst hx
      rw [sum_off (f := f) (f' := f') (fun j hj => h j (fun e => hn.1 (e ▸ hj)))]
      omega
    · have hi' : i ∈ xs := by
        rcases List.mem_cons.1 hi with h | h
        · exact absurd h.symm hx
        · exact h
      have := sum_upd hn.2 hi' h
      rw [h x hx]
      omega

theorem foldl_satAdd (f : Nat → Nat) : ∀ (xs : List Nat) (a : Nat), a ≤ maxU128 →
    xs.foldl (fun acc i => satAdd acc (f i)) a = min maxU128 (a + (xs.map f).sum)
  | [], a, h => by simp; omega
  | x :: xs, a, h => by
    simp only [List.foldl_cons, List.map_cons, List.sum_cons]
    rw [foldl_satAdd f xs (satAdd a (f x)) (by unfold satAdd; omega)]
    unfold satAdd
    omega

theorem satSum_eq (f : Nat → Nat) (xs : List Nat) : satSum f xs = min maxU128 (xs.map f).sum := by
  unfold satSum
  rw [foldl_satAdd f xs 0 (Nat.zero_le _)]
  omega

theorem totalActive_eq : totalActive c s = min maxU128 (bonded c s) := satSum_eq _ _

/-! ### The invariant -/

/-- What the pallet owes and what it has. -/
structure Inv (c : Cfg) (s : State) : Prop where
  wf : s.tok.WF
  keys : ∀ i l, s.ledgers i = some l → i ∈ c.indices
  cons : ∀ i l, s.ledgers i = some l → l.Consistent
  relay : ∀ i l, s.relayLedger i = some l → l.Consistent
  idx : ∀ x ∈ s.reqs, x.2.idx ∈ c.indices
  live : ∀ x ∈ s.reqs, x.2.later = true → s.ledgers x.2.idx ≠ none
  ids : ∀ x ∈ s.reqs, x.1 < s.nextId
  nodup : (s.reqs.map Prod.fst).Nodup
  sres : s.pool.stake.reserved = (s.reqs.map (fun x => x.2.stakeAmt)).sum
  ures : s.pool.unstake.reserved = (s.reqs.map (fun x => x.2.unstakeAmt)).sum
  sle : s.pool.stake.reserved ≤ s.pool.stake.total
  ule : s.pool.unstake.reserved ≤ s.pool.unstake.total
  solv : s.reserves + s.pool.stake.total ≤ held c s
  claims : SumLe (owed s) (held c s + unbonding c s + s.pool.unstake.total - (s.reserves + s.pool.stake.total))
  rf : s.rf ≤ million
  urf : s.urf ≤ million
  commission : s.commission < DIV

theorem Fresh.inv (h : Fresh c s) : Inv c s where
  wf := h.wf
  keys := by intro i l hl; rw [h.ledgers] at hl; cases hl
  cons := by intro i l hl; rw [h.ledgers] at hl; cases hl
  relay := h.relay
  idx := by simp [h.reqs]
  live := by simp [h.reqs]
  ids := by simp [h.reqs]
  nodup := by simp [h.reqs]
  sres := by simp [h.reqs, h.pool]
  ures := by simp [h.reqs, h.pool]
  sle := by simp [h.pool]
  ule := by simp [h.pool]
  solv := by simp [h.pool, h.reserves]
  claims := by
    intro S
    simp [owed, h.unlockings]
  rf := h.rf
  urf := h.urf
  commission := h.commission

/-- Everything but the token ledger, the reserves, the pool totals, the unlocking queues, the requests and the
ledgers. -/
theorem Inv.congr (h : Inv c s) (hw : s'.tok.WF) (hl : s'.ledgers = s.ledgers) (hr : s'.relayLedger = s.relayLedger)
    (hq : s'.reqs = s.reqs) (hn : s'.nextId = s.nextId)
    (h1 : s'.pool.stake.reserved = s.pool.stake.reserved) (h2 : s'.pool.unstake.reserved = s.pool.unstake.reserved)
    (h3 : s'.pool.stake.reserved ≤ s'.pool.stake.total) (h4 : s'.pool.unstake.reserved ≤ s'.pool.unstake.total)
    (h5 : s'.reserves + s'.pool.stake.total ≤ held c s')
    (h6 : SumLe (owed s')
      (held c s' + unbonding c s + s'.pool.unstake.total - (s'.reserves + s'.pool.stake.total)))
    (h7 : s'.rf ≤ million) (h8 : s'.urf ≤ million) (h9 : s'.commission < DIV) : Inv c s' where
  wf := hw
  keys := by rw [hl]; exact h.keys
  cons := by rw [hl]; exact h.cons
  relay := by rw [hr]; exact h.relay
  idx := by rw [hq]; exact h.idx
  live := by rw [hq, hl]; exact h.live
  ids := by rw [hq, hn]; exact h.ids
  nodup := by rw [hq]; exact h.nodup
  sres := by rw [hq, h1]; exact h.sres
  ures := by rw [hq, h2]; exact h.ures
  sle := h3
  ule := h4
  solv := h5
  claims := by
    have : unbonding c s' = unbonding c s := by
      unfold unbonding lockedOf; rw [hl]
    rw [this]; exact h6
  rf := h7
  urf := h8
  commission := h9

theorem owed_congr (h : s'.unlockings = s.unlockings) : owed s' = owed s := by
  funext w; unfold owed; rw [h]

/-! ### Users' calls -/

theorem Inv.on_stake {w m : Nat} (hc : c.Ok) (h : Inv c s) (hw : w ≠ c.acct) (e : stake c s w m = .ok s') :
    Inv c s' := by
  obtain ⟨l1, l2, l3, q, _, hle, e1, e2, _, _, e3, rfl⟩ := stake_view e
  have b1 := Ledger.transfer_bal e1 c.staking c.acct
  have b2 := Ledger.transfer_bal e2 c.staking c.acct
  have b3 := Ledger.mint_bal e3 c.staking c.acct
  simp [hw.symm, hc.xcm, hc.sl] at b1 b2 b3
  have hh : held c { s with
        lo := { s.lo with ledger := l3 },
        pool := { s.pool with
          stake := ⟨s.pool.stake.total + (m - c.xcmFees - pmulFloor s.rf m), s.pool.stake.reserved⟩ },
        reserves := s.reserves + pmulFloor s.rf m,
        log := .staked w (m - c.xcmFees - pmulFloor s.rf m) :: s.log } = held c s + (m - c.xcmFees) := by
    simp only [held, State.tok] at *
    omega
  have hs := h.solv
  have := h.sle
  refine h.congr (Ledger.mint_wf e3 (Ledger.transfer_wf e2 (Ledger.transfer_wf e1 h.wf))) rfl rfl rfl rfl rfl rfl
    (by simp only; omega) h.ule (by rw [hh]; simp only; omega) ?_ h.rf h.urf h.commission
  rw [hh]
  refine h.claims.mono (fun _ => Nat.le_refl _) ?_
  simp only
  omega

theorem instantUnstake_held {w m : Nat} (hc : c.Ok) (hw : w ≠ c.acct) (e : instantUnstake c s w m = .ok s') :
    held c s' = held c s ∧ (s.tok.WF → s'.tok.WF) ∧ s' = { s with lo := s'.lo } ∧
    s'.tok.iss c.liquid = s.tok.iss c.liquid := by
  obtain ⟨cf, k, l1, l2, l3, _, _, e1, e2, e3, e4, hs⟩ := instantUnstake_view e
  have b1 := Ledger.mint_bal e1 c.staking c.acct
  have b2 := Ledger.transfer_bal e2 c.staking c.acct
  have b3 := Ledger.transfer_bal e3 c.staking c.acct
  have b4 := Ledger.transfer_bal e4 c.staking c.acct
  simp [hc.sc, hc.loans, hw.symm] at b1 b2 b3 b4
  refine ⟨by simp only [held]; omega, fun hwf => ?_, hs, ?_⟩
  · exact Ledger.transfer_wf e4 (Ledger.transfer_wf e3 (Ledger.transfer_wf e2 (Ledger.mint_wf e1 hwf)))
  · have i1 := Ledger.mint_iss e1 c.liquid
    rw [if_neg hc.lc] at i1
    rw [Ledger.transfer_iss e4, Ledger.transfer_iss e3, Ledger.transfer_iss e2, i1]
    omega

theorem viaLoans_held {w m : Nat} {p : Provider} (hc : c.Ok) (hw : w ≠ c.acct) (e : viaLoans c s w m p = .ok s') :
    held c s' = held c s ∧ (s.tok.WF → s'.tok.WF) ∧ s' = { s with lo := s'.lo } ∧
    s'.tok.iss c.liquid = s.tok.iss c.liquid := by
  unfold viaLoans at e
  split at e
  · exact instantUnstake_held hc hw e
  · cases e; exact ⟨rfl, id, rfl, rfl⟩

theorem owed_upd (s : State) (k : Nat) (o : Option (List Chunk)) (s' : State)
    (h : s'.unlockings = upd s.unlockings k o) (w : Nat) :
    owed s' w = if w = k then chunkSum (o.getD []) else owed s w := by
  unfold owed
  rw [h, upd_apply]
  split <;> rfl

/-- Effect of the slow path of `unstake` on everything the invariants look at. -/
theorem unstakeSlow_eff {w q r : Nat} {p : Provider} (hc : c.Ok) (hw : w ≠ c.acct)
    (e : unstakeSlow c s w q r p = .ok s') :
    s' = { s with
      lo := s'.lo,
      unlockings := upd s.unlockings (unlockKey c w p) (some (pushChunk
          ((s.unlockings (unlockKey c w p)).getD []) (s.rate * (q - r) / DIV) (s.era + c.bonding + 1))),
      pool := { s.pool with unstake := ⟨s.pool.unstake.total + s.rate * (q - r) / DIV, s.pool.unstake.reserved⟩ },
      log := .unstaked (unlockKey c w p) (s.rate * (q - r) / DIV) :: s.log } ∧
    held c s' = held c s ∧ (s.tok.WF → s'.tok.WF) ∧
    (s.tok.WF → s'.tok.iss c.liquid + q = s.tok.iss c.liquid + r) ∧ q ≤ s.tok.bal c.liquid w := by
  obtain ⟨l1, l2, s1, _, _, e1, e2, e3, rfl⟩ := unstakeSlow_view e
  obtain ⟨v1, v2, v3, v4⟩ := viaLoans_held hc hw e3
  have b1 := Ledger.burn_bal e1 c.staking c.acct
  have b2 := Ledger.mint_bal e2 c.staking c.acct
  have i1 := Ledger.burn_iss e1 c.liquid
  have i2 := Ledger.mint_iss e2 c.liquid
  simp [hc.sl] at b1 b2 i1 i2
  have hv : ∀ x : State, x = { s1 with
        pool := { s1.pool with
          unstake := ⟨s1.pool.unstake.total + s.rate * (q - r) / DIV, s1.pool.unstake.reserved⟩ },
        log := .unstaked (unlockKey c w p) (s.rate * (q - r) / DIV) :: s1.log } → held c x = held c s1 ∧ x.tok = s1.tok := by
    rintro x rfl; exact ⟨rfl, rfl⟩
  obtain ⟨k1, k2⟩ := hv _ rfl
  rw [k1, k2, v1, v4]
  refine ⟨?_, ?_, ?_, ?_, Ledger.burn_le e1⟩
  · rw [v3]; rfl
  · exact b2.trans b1
  · intro hwf
    exact v2 (Ledger.mint_wf e2 (Ledger.burn_wf e1 hwf))
  · intro hwf
    have i0 := (Ledger.burn_le e1).trans (Ledger.bal_le_iss hwf _ _)
    have i00 : l2.iss c.liquid + q = s.tok.iss c.liquid + r := by omega
    exact i00

theorem Inv.on_unstakeSlow {w q r : Nat} {p : Provider} (hc : c.Ok) (h : Inv c s) (hw : w ≠ c.acct)
    (e : unstakeSlow c s w q r p = .ok s') : Inv c s' := by
  obtain ⟨hf, hh, hwf, _⟩ := unstakeSlow_eff hc hw e
  have hu := hf
  generalize s'.lo = x at hu hf
  generalize hm : s.rate * (q - r) / DIV = m at *
  have hs := h.solv
  have := h.ule
  have ho := owed_upd s (unlockKey c w p) _ s' (by rw [hu])
  have hp : s'.pool = { s.pool with unstake := ⟨s.pool.unstake.total + m, s.pool.unstake.reserved⟩ } := by rw [hu]
  have hr : s'.reserves = s.reserves := by rw [hu]
  refine h.congr (hwf h.wf) (by rw [hu]) (by rw [hu]) (by rw [hu]) (by rw [hu]) (by rw [hp]) (by rw [hp])
    (by rw [hp]; exact h.sle) (by rw [hp]; simp only; omega) (by rw [hh, hp, hr]; exact h.solv) ?_
    (by rw [hu]; exact h.rf) (by rw [hu]; exact h.urf) (by rw [hu]; exact h.commission)
  rw [hp, hr, hh]
  refine h.claims.update (unlockKey c w p) ?_ ?_
  · intro i hi
    rw [ho, if_neg hi]
  · rw [ho, if_pos rfl]
    have := pushChunk_sum_le ((s.unlockings (unlockKey c w p)).getD []) m (s.era + c.bonding + 1)
    simp only [Option.getD_some]
    unfold owed
    omega

theorem Inv.on_unstake {w q : Nat} {p : Provider} (hc : c.Ok) (h : Inv c s) (hw : w ≠ c.acct)
    (e : unstake c s w q p = .ok s') : Inv c s' := by
  obtain ⟨_, _, _, ⟨_, rfl⟩ | ⟨_, e⟩⟩ := unstake_view e
  · exact h.congr h.wf rfl rfl rfl rfl rfl rfl h.sle h.ule h.solv h.claims h.rf h.urf h.commission
  · refine Inv.on_unstakeSlow hc ?_ hw e
    exact h.congr h.wf rfl rfl rfl rfl rfl rfl h.sle h.ule h.solv h.claims h.rf h.urf h.commission

/-- What paying a claim does. -/
theorem payClaim_eff {w m : Nat} (hc : c.Ok) (e : payClaim c s w m = .ok s') :
    s' = { s with lo := s'.lo } ∧ (s.tok.WF → s'.tok.WF) ∧ held c s ≤ held c s' + m ∧
    s'.tok.iss c.liquid = s.tok.iss c.liquid := by
  unfold payClaim at e
  split at e
  · obtain ⟨r, x, k, l1, l2, hr, e1, e2, e3, hs⟩ := claimLoans_view e
    have b1 := Ledger.transfer_bal e1 c.staking c.acct
    have b2 := Ledger.transfer_bal e2 c.staking c.acct
    have b3 := Ledger.burn_bal e3 c.staking c.acct
    simp [hc.sc, hc.loans] at b1 b2 b3
    refine ⟨hs, fun hwf => Ledger.burn_wf e3 (Ledger.transfer_wf e2 (Ledger.transfer_wf e1 hwf)), ?_, ?_⟩
    · simp only [held]; omega
    · have i1 := Ledger.burn_iss e3 c.liquid
      rw [if_neg hc.lc] at i1
      rw [i1, Ledger.transfer_iss e2, Ledger.transfer_iss e1]
      omega
  · simp only [bind_ok_iff, pure_ok_iff] at e
    obtain ⟨l, el, rfl⟩ := e
    refine ⟨rfl, fun hwf => Ledger.transfer_wf el hwf, ?_, ?_⟩
    · have b1 := Ledger.transfer_bal el c.staking c.acct
      simp only [held, setTok_tok]
      simp only [true_and] at b1
      split_ifs at b1 <;> omega
    · exact congrFun (Ledger.transfer_iss el) _

theorem Inv.on_claimFor {w : Nat} (hc : c.Ok) (h : Inv c s) (e : claimFor c s w = .ok s') : Inv c s' := by
  obtain ⟨xs, s1, hxs, _, hle, hp, rfl⟩ := claimFor_view e
  obtain ⟨hf, hwf, hh, _⟩ := payClaim_eff hc hp
  have hs := h.solv
  have k1 : s1.pool = s.pool := by rw [hf]
  have k2 : s1.reserves = s.reserves := by rw [hf]
  have ho := owed_upd s w (retained s.era xs) { s1 with
        unlockings := upd s.unlockings w (retained s.era xs),
        log := .claimed w (dueSum s.era xs) :: s.log } rfl
  have hle' : dueSum s.era xs ≤ held c s - s.reserves - s.pool.stake.total := by
    simpa [unclaimed, held] using hle
  have hh' : held c { s1 with
        unlockings := upd s.unlockings w (retained s.era xs),
        log := .claimed w (dueSum s.era xs) :: s.log } = held c s1 := rfl
  refine h.congr (hwf h.wf) (by rw [hf]) (by rw [hf]) (by rw [hf]) (by rw [hf]) (by rw [hf]) (by rw [hf])
    (by simp only [k1]; exact h.sle) (by simp only [k1]; exact h.ule) (by rw [hh']; simp only [k1, k2]; omega) ?_
    (by rw [hf]; exact h.rf) (by rw [hf]; exact h.urf) (by rw [hf]; exact h.commission)
  refine h.claims.update w (fun i hi => by rw [ho, if_neg hi]) ?_
  rw [ho, if_pos rfl, retained_getD]
  have := due_add_rest s.era xs
  have h2 : owed s w = chunkSum xs := by unfold owed; rw [hxs]; rfl
  rw [hh', h2]
  simp only [k1, k2]
  omega

/-- What a fast match does. -/
theorem settleFast_eff {w q : Nat} (hc : c.Ok) (e : settleFast c s w q = .ok s') :
    let m := s.rate * (q - fixSatMul c.fastFee q) / DIV
    (s.tok.WF → s'.tok.WF) ∧ s.pool.stake.reserved + m ≤ s.pool.stake.total ∧
    held c s ≤ held c s' + m ∧
    (s.tok.WF → s'.tok.iss c.liquid + (q - fixSatMul c.fastFee q) = s.tok.iss c.liquid) ∧
    s' = { s with
      lo := s'.lo,
      pool := { s.pool with stake := ⟨s.pool.stake.total - m, s.pool.stake.reserved⟩ } } := by
  obtain ⟨l1, l2, l3, e1, e2, hle, e3, rfl⟩ := settleFast_view e
  have b1 := Ledger.burn_bal e1 c.staking c.acct
  have b2 := Ledger.transfer_bal e2 c.staking c.acct
  have b3 := Ledger.transfer_bal e3 c.staking c.acct
  simp [hc.sl] at b1 b2
  simp only [true_and, if_true] at b3
  have hx : held c s = s.tok.bal c.staking c.acct := rfl
  generalize s.rate * (q - fixSatMul c.fastFee q) / DIV = m at *
  refine ⟨fun hwf => Ledger.transfer_wf e3 (Ledger.transfer_wf e2 (Ledger.burn_wf e1 hwf)), hle, ?_, ?_, rfl⟩
  · show _ ≤ l3.bal c.staking c.acct + m
    split_ifs at b3 <;> omega
  · intro hwf
    have i1 := Ledger.burn_iss e1 c.liquid
    have i0 := (Ledger.burn_le e1).trans (Ledger.bal_le_iss hwf _ _)
    simp only [if_true] at i1
    show l3.iss _ + _ = _
    rw [Ledger.transfer_iss e3, Ledger.transfer_iss e2]
    omega

theorem Inv.on_trySettle {w q : Nat} (hc : c.Ok) (h : Inv c s) (e : trySettle c s w q = .ok s') : Inv c s' := by
  unfold trySettle at e
  split at e
  · cases e; exact h
  · obtain ⟨hwf, hle, hh, _, hf⟩ := settleFast_eff hc e
    generalize s.rate * (q - fixSatMul c.fastFee q) / DIV = m at *
    have k1 : s'.pool = { s.pool with stake := ⟨s.pool.stake.total - m, s.pool.stake.reserved⟩ } := by rw [hf]
    have k2 : s'.reserves = s.reserves := by rw [hf]
    have hs := h.solv
    refine h.congr (hwf h.wf) (by rw [hf]) (by rw [hf]) (by rw [hf]) (by rw [hf]) (by rw [k1]) (by rw [k1])
      (by rw [k1]; simp only; omega) (by rw [k1]; exact h.ule) (by rw [k1, k2]; simp only; omega) ?_
      (by rw [hf]; exact h.rf) (by rw [hf]; exact h.urf) (by rw [hf]; exact h.commission)
    rw [owed_congr (s := s) (by rw [hf])]
    refine h.claims.mono (fun _ => Nat.le_refl _) ?_
    rw [k1, k2]
    simp only
    omega

theorem Inv.on_fastMatch {w : Nat} (hc : c.Ok) (h : Inv c s) (e : fastMatch c s w = .ok s') : Inv c s' := by
  rcases fastMatch_view e with ⟨_, rfl⟩ | ⟨b, q, a, s1, _, _, _, _, e1, rfl⟩
  · exact h
  · have h1 := h.on_trySettle hc e1
    exact h1.congr h1.wf rfl rfl rfl rfl rfl rfl h1.sle h1.ule h1.solv h1.claims h1.rf h1.urf h1.commission

theorem Inv.on_fastMatchAll (hc : c.Ok) : ∀ {ws : List Nat} {s s' : State}, Inv c s →
    fastMatchAll c s ws = .ok s' → Inv c s'
  | [], s, s', h, e => by simp only [fastMatchAll] at e; cases e; exact h
  | w :: ws, s, s', h, e => by
    simp only [fastMatchAll, bind_ok_iff] at e
    obtain ⟨s1, e1, e2⟩ := e
    exact Inv.on_fastMatchAll hc (h.on_fastMatch hc e1) e2

/-! ### Requests and responses -/

theorem Inv.on_sent (hc : c.Ok) (h : Inv c s) (e : Sent c s s') : Inv c s' := by
  obtain ⟨rs, hr, hn, hi, hx, a1, a2⟩ := e.new
  have hf := e.frame
  have k0 : held c s' = held c s := e.bal _ _ (.inr hc.xcm)
  have k1 : s'.ledgers = s.ledgers := by rw [hf]
  have k2 : s'.reserves = s.reserves := by rw [hf]
  have k3 : unbonding c s' = unbonding c s := by unfold unbonding lockedOf; rw [k1]
  have k4 : owed s' = owed s := owed_congr (by rw [hf])
  refine ⟨e.wf h.wf, by rw [k1]; exact h.keys, by rw [k1]; exact h.cons, by rw [hf]; exact h.relay, ?_, ?_, ?_, ?_, ?_, ?_,
    ?_, ?_, by rw [k0, k2, e.stake]; exact h.solv, by rw [k0, k2, k3, k4, e.stake, e.unstake]; exact h.claims,
    by rw [hf]; exact h.rf, by rw [hf]; exact h.urf, by rw [hf]; exact h.commission⟩
  · intro x hxm
    rw [hr] at hxm
    rcases List.mem_append.1 hxm with h1 | h1
    · exact h.idx x h1
    · exact (hx x h1).1
  · intro x hxm
    rw [hr] at hxm
    rw [k1]
    rcases List.mem_append.1 hxm with h1 | h1
    · exact h.live x h1
    · exact (hx x h1).2
  · intro x hxm
    rw [hr] at hxm
    rw [hn]
    rcases List.mem_append.1 hxm with h1 | h1
    · have := h.ids x h1; omega
    · have h2 : x.1 ∈ rs.map Prod.fst := List.mem_map.2 ⟨x, h1, rfl⟩
      rw [hi, List.mem_range'_1] at h2
      omega
  · rw [hr, List.map_append, List.nodup_append']
    refine ⟨h.nodup, by rw [hi]; exact List.nodup_range', ?_⟩
    intro y h1 h2
    rw [hi, List.mem_range'_1] at h2
    obtain ⟨x, h3, rfl⟩ := List.mem_map.1 h1
    have := h.ids x h3
    omega
  · rw [a1, hr, List.map_append, List.sum_append, h.sres]
  · rw [a2, hr, List.map_append, List.sum_append, h.ures]
  · rw [e.stake]; exact e.stakeLe h.sle
  · rw [e.unstake]; exact e.unstakeLe h.ule

/-- Removing the one request with a given id. -/
theorem sum_remove (f : Req → Nat) : ∀ {xs : List (Nat × Req)} {q : Nat} {r : Req}, (xs.map Prod.fst).Nodup →
    (q, r) ∈ xs → ((xs.filter (fun x => x.1 != q)).map (fun x => f x.2)).sum + f r = (xs.map (fun x => f x.2)).sum
  | [], q, r, _, h => absurd h (by simp)
  | x :: xs, q, r, hn, h => by
    rw [List.map_cons, List.nodup_cons] at hn
    by_cases hx : x.1 = q
    · have hxr : x = (q, r) := by
        rcases List.mem_cons.1 h with h | h
        · exact h.symm
        · exfalso
          exact hn.1 (by rw [hx]; exact List.mem_map.2 ⟨(q, r), h, rfl⟩)
      subst hxr
      have hrest : xs.filter (fun x => x.1 != q) = xs := by
        rw [List.filter_eq_self]
        intro y hy
        simp only [bne_iff_ne, ne_eq]
        intro hyq
        exact hn.1 (by simp only; rw [← hyq]; exact List.mem_map.2 ⟨y, hy, rfl⟩)
      simp only [List.filter_cons, bne_self_eq_false, Bool.false_eq_true, if_false, hrest, List.map_cons, List.sum_cons]
      omega
    · have h' : (q, r) ∈ xs := by
        rcases List.mem_cons.1 h with h | h
        · exact absurd (by rw [← h]) hx
        · exact h
      have ih := sum_remove f hn.2 h'
      simp only [List.filter_cons, bne_iff_ne, ne_eq, hx, not_false_eq_true, if_true, List.map_cons, List.sum_cons]
      omega

/-- The part of a rebond that the ledger has no unlocking chunks for. -/
def shortfall (s : State) : Req → Nat
  | .rebond i m => m - min m (lockedOf s i)
  | _ => 0

/-- Effect of an executed request on everything the invariants look at: `i` is the derivative account, `l'` its new
ledger, the pool loses `m` on one side and the same `x` on both, `burnt` leaves the pallet's account and `got`
reaches it. -/
structure Applied (c : Cfg) (s s' : State) (r : Req) : Prop where
  wf : s.tok.WF → s'.tok.WF
  iss : s'.tok.iss c.liquid = s.tok.iss c.liquid
  frame : s' = { s with lo := s'.lo, pool := s'.pool, ledgers := s'.ledgers, updated := s'.updated }
  off : ∀ j, j ≠ r.idx → s'.ledgers j = s.ledgers j
  cons : ∀ l, s'.ledgers r.idx = some l → l.Consistent
  some : ∀ j, s.ledgers j ≠ none → s'.ledgers j ≠ none
  sres : s'.pool.stake.reserved + r.stakeAmt = s.pool.stake.reserved
  ures : s'.pool.unstake.reserved + r.unstakeAmt = s.pool.unstake.reserved
  /-- the pool loses the request's amount and, on both sides, a common amount `x` -/
  pool : ∃ x, s'.pool.stake.total + r.stakeAmt + x = s.pool.stake.total ∧
    s'.pool.unstake.total + r.unstakeAmt + x = s.pool.unstake.total ∧
    s'.pool.stake.reserved ≤ s'.pool.stake.total ∧ s'.pool.unstake.reserved ≤ s'.pool.unstake.total
  /-- money in = money out -/
  money : held c s' + lockedOf s' r.idx + r.stakeAmt = held c s + lockedOf s r.idx + r.unstakeAmt +
    shortfall s r
  /-- the pallet's account pays at most what leaves the pool -/
  paid : held c s ≤ held c s' + r.stakeAmt
  /-- stake in = stake out -/
  active : activeOf s' r.idx + r.unstakeAmt + shortfall s r = activeOf s r.idx + r.stakeAmt

theorem applyReq_eff {r : Req} (hc : c.Ok) (h : Inv c s) (e : applyReq c s r = .ok s') : Applied c s s' r := by
  have hsle := h.sle
  have hule := h.ule
  cases r with
  | bond i m =>
    simp only [applyReq, bind_ok_iff, ensure_ok_iff, exists_const, pure_ok_iff] at e
    obtain ⟨hn, p, hp, l, hl, rfl⟩ := e
    obtain ⟨h1, h2, x, h3, h4, rfl⟩ := Pool.consolidateStake_ok hp
    have b1 := Ledger.burn_bal hl c.staking c.acct
    have i1 := Ledger.burn_iss hl c.liquid
    have b0 := Ledger.burn_le hl
    have b00 := Ledger.bal_le_iss h.wf c.staking c.acct
    have b000 := (h.wf c.staking).2
    rw [if_neg hc.sl.symm] at i1
    simp at b1
    have hn' : s.ledgers i = none := by simpa using hn
    refine ⟨fun hw => Ledger.burn_wf hl hw, i1, rfl, ?_, ?_, ?_, ?_, ?_, ⟨x, ?_, ?_, ?_, ?_⟩, ?_, ?_, ?_⟩
    · intro j hj; exact upd_of_ne _ _ hj
    · intro l hl'
      simp only [Req.idx, State.setTok, upd_same, Option.some.injEq] at hl'
      subst hl'
      exact SLedger.new_consistent (by omega)
    · intro j hj
      simp only [State.setTok, upd_apply]
      split
      · simp
      · exact hj
    · simp only [Req.stakeAmt]; omega
    · simp only [Req.unstakeAmt]; omega
    · simp only [Req.stakeAmt]; omega
    · simp only [Req.unstakeAmt]; omega
    · simp only; omega
    · simp only; omega
    · simp only [held, lockedOf, Req.idx, upd_same, hn', Req.stakeAmt, Req.unstakeAmt, shortfall, SLedger.new, SLedger.locked,
        chunkSum_nil, State.setTok, State.tok] at *
      omega
    · simp only [held, Req.stakeAmt, State.setTok, State.tok] at *
      omega
    · simp only [activeOf, Req.idx, State.setTok, upd_same, hn', Req.stakeAmt, Req.unstakeAmt, shortfall, SLedger.new]
      omega
  | bondExtra i m =>
    simp only [applyReq, bind_ok_iff, pure_ok_iff] at e
    obtain ⟨s1, hs1, p, hp, t, ht, rfl⟩ := e
    obtain ⟨l, l', hl, hl', rfl⟩ := updLedger_view hs1
    obtain ⟨h1, h2, x, h3, h4, rfl⟩ := Pool.consolidateStake_ok hp
    dsimp only at h1 h2 h3 h4
    have hcl := h.cons i l hl
    obtain ⟨hc', rfl⟩ := SLedger.bondExtra_ok hl' hcl
    have b1 := Ledger.burn_bal ht c.staking c.acct
    have i1 := Ledger.burn_iss ht c.liquid
    rw [if_neg hc.sl.symm] at i1
    simp at b1
    refine ⟨fun hw => Ledger.burn_wf ht hw, i1, rfl, ?_, ?_, ?_, ?_, ?_, ⟨x, ?_, ?_, ?_, ?_⟩, ?_, ?_, ?_⟩
    · intro j hj; exact upd_of_ne _ _ hj
    · intro l hl'
      simp only [Req.idx, State.setTok, upd_same, Option.some.injEq] at hl'
      subst hl'
      exact hc'
    · intro j hj
      simp only [State.setTok, upd_apply]
      split
      · simp
      · exact hj
    · simp only [Req.stakeAmt] at *; omega
    · simp only [Req.unstakeAmt] at *; omega
    · simp only [Req.stakeAmt] at *; omega
    · simp only [Req.unstakeAmt] at *; omega
    · simp only at *; omega
    · simp only at *; omega
    · simp only [held, lockedOf, Req.idx, upd_same, hl, Req.stakeAmt, Req.unstakeAmt, shortfall, SLedger.locked,
        State.setTok, State.tok] at *
      omega
    · simp only [held, Req.stakeAmt, State.setTok, State.tok] at *
      omega
    · simp only [activeOf, Req.idx, State.setTok, upd_same, hl, Req.stakeAmt, Req.unstakeAmt, shortfall]
      omega
  | unbond i m =>
    simp only [applyReq, bind_ok_iff, pure_ok_iff, eraAdd_ok_iff] at e
    obtain ⟨_, ⟨_, rfl⟩, s1, hs1, p, hp, rfl⟩ := e
    obtain ⟨l, l', hl, hl', rfl⟩ := updLedger_view hs1
    obtain ⟨h1, h2, x, h3, h4, rfl⟩ := Pool.consolidateUnstake_ok hp
    dsimp only at h1 h2 h3 h4
    have hcl := h.cons i l hl
    obtain ⟨hv, hc', ha, hk, ht⟩ := SLedger.unbond_ok hl' hcl
    refine ⟨id, rfl, rfl, ?_, ?_, ?_, ?_, ?_, ⟨x, ?_, ?_, ?_, ?_⟩, ?_, ?_, ?_⟩
    · intro j hj; exact upd_of_ne _ _ hj
    · intro l hl'
      simp only [Req.idx, State.setTok, upd_same, Option.some.injEq] at hl'
      subst hl'
      exact hc'
    · intro j hj
      simp only [State.setTok, upd_apply]
      split
      · simp
      · exact hj
    · simp only [Req.stakeAmt] at *; omega
    · simp only [Req.unstakeAmt] at *; omega
    · simp only [Req.stakeAmt] at *; omega
    · simp only [Req.unstakeAmt] at *; omega
    · simp only at *; omega
    · simp only at *; omega
    · simp only [held, lockedOf, Req.idx, upd_same, hl, Req.stakeAmt, Req.unstakeAmt, shortfall, State.setTok, State.tok] at *
      omega
    · simp only [held, Req.stakeAmt, State.setTok, State.tok] at *
      omega
    · simp only [activeOf, Req.idx, State.setTok, upd_same, hl, Req.stakeAmt, Req.unstakeAmt, shortfall]
      omega
  | rebond i m =>
    simp only [applyReq, bind_ok_iff, pure_ok_iff] at e
    obtain ⟨s1, hs1, p, hp, rfl⟩ := e
    obtain ⟨l, l', hl, hl', rfl⟩ := updLedger_view hs1
    obtain ⟨h1, h2, x, h3, h4, rfl⟩ := Pool.consolidateStake_ok hp
    dsimp only at h1 h2 h3 h4
    have hcl := h.cons i l hl
    obtain ⟨hc', ha, hk, ht⟩ := SLedger.rebond_ok hl' hcl
    refine ⟨id, rfl, rfl, ?_, ?_, ?_, ?_, ?_, ⟨x, ?_, ?_, ?_, ?_⟩, ?_, ?_, ?_⟩
    · intro j hj; exact upd_of_ne _ _ hj
    · intro l hl'
      simp only [Req.idx, State.setTok, upd_same, Option.some.injEq] at hl'
      subst hl'
      exact hc'
    · intro j hj
      simp only [State.setTok, upd_apply]
      split
      · simp
      · exact hj
    · simp only [Req.stakeAmt] at *; omega
    · simp only [Req.unstakeAmt] at *; omega
    · simp only [Req.stakeAmt] at *; omega
    · simp only [Req.unstakeAmt] at *; omega
    · simp only at *; omega
    · simp only at *; omega
    · simp only [held, lockedOf, Req.idx, upd_same, hl, Req.stakeAmt, Req.unstakeAmt, shortfall, State.setTok, State.tok] at *
      omega
    · simp only [held, Req.stakeAmt, State.setTok, State.tok] at *
      omega
    · simp only [activeOf, lockedOf, Req.idx, upd_same, hl, Req.stakeAmt, Req.unstakeAmt, shortfall]
      omega
  | withdraw i =>
    simp only [applyReq, applyWithdraw, bind_ok_iff, okOr_ok_iff] at e
    obtain ⟨l0, hl0, t, ht, e⟩ := e
    obtain ⟨l, l', hl, hl', rfl⟩ := updLedger_view e
    have : l = l0 := Option.some.inj (hl.symm.trans hl0)
    subst this
    cases hl'
    have hcl := h.cons i l hl0
    obtain ⟨hc', ha, hk, htot⟩ := SLedger.consolidate_ok s.era hcl
    have b1 := Ledger.mint_bal ht c.staking c.acct
    have i1 := Ledger.mint_iss ht c.liquid
    rw [if_neg hc.sl.symm] at i1
    simp at b1
    refine ⟨fun hw => Ledger.mint_wf ht hw, i1, rfl, ?_, ?_, ?_, ?_, ?_, ⟨0, ?_, ?_, ?_, ?_⟩, ?_, ?_, ?_⟩
    · intro j hj; exact upd_of_ne _ _ hj
    · intro l hl'
      simp only [Req.idx, State.setTok, upd_same, Option.some.injEq] at hl'
      subst hl'
      exact hc'
    · intro j hj
      simp only [State.setTok, upd_apply]
      split
      · simp
      · exact hj
    · rfl
    · rfl
    · rfl
    · rfl
    · exact hsle
    · exact hule
    · simp only [held, lockedOf, Req.idx, upd_same, hl0, Req.stakeAmt, Req.unstakeAmt, shortfall, State.setTok, State.tok] at *
      omega
    · simp only [held, Req.stakeAmt, State.setTok, State.tok] at *
      omega
    · simp only [activeOf, Req.idx, State.setTok, upd_same, hl0, Req.stakeAmt, Req.unstakeAmt, shortfall]
      omega
  | nominate i =>
    simp only [applyReq] at e
    cases e
    exact ⟨id, rfl, rfl, fun _ _ => rfl, fun l hl => h.cons _ l hl, fun _ h => h, rfl, rfl,
      ⟨0, rfl, rfl, hsle, hule⟩, rfl, Nat.le_refl _, rfl⟩

theorem unbonding_upd {i : Nat} (hc : c.Ok) (hi : i ∈ c.indices) (hoff : ∀ j, j ≠ i → s'.ledgers j = s.ledgers j) :
    unbonding c s' + lockedOf s i = unbonding c s + lockedOf s' i :=
  sum_upd hc.nodup hi (fun j hj => by unfold lockedOf; rw [hoff j hj])
theorem bonded_upd {i : Nat} (hc : c.Ok) (hi : i ∈ c.indices) (hoff : ∀ j, j ≠ i → s'.ledgers j = s.ledgers j) :
    bonded c s' + activeOf s i = bonded c s + activeOf s' i :=
  sum_upd hc.nodup hi (fun j hj => by unfold activeOf; rw [hoff j hj])

theorem Inv.on_notify {q : Nat} {ok : Bool} (hc : c.Ok) (h : Inv c s) (e : notify c s q ok = .ok s') : Inv c s' := by
  rcases notify_view e with rfl | ⟨r, s1, _, hr, e1, rfl⟩
  · exact h
  · have hm := findReq_mem hr
    have hi : r.idx ∈ c.indices := h.idx _ hm
    have a := applyReq_eff hc h e1
    have hf := a.frame
    have k1 : s1.reqs = s.reqs := by rw [hf]
    have k2 : s1.reserves = s.reserves := by rw [hf]
    have k3 : owed s1 = owed s := owed_congr (by rw [hf])
    obtain ⟨x, p1, p2, p3, p4⟩ := a.pool
    have u := unbonding_upd hc hi a.off
    have r1 := a.sres
    have r2 := a.ures
    have r3 := a.money
    have r4 := a.paid
    have g1 := sum_remove Req.stakeAmt h.nodup hm
    have g2 := sum_remove Req.unstakeAmt h.nodup hm
    have i1 := h.sres
    have i2 := h.ures
    have i3 := h.solv
    refine ⟨a.wf h.wf, ?_, ?_, by rw [hf]; exact h.relay, ?_, ?_, ?_, ?_, ?_, ?_, p3, p4, ?_, ?_, by rw [hf]; exact h.rf,
      by rw [hf]; exact h.urf, by rw [hf]; exact h.commission⟩
    · intro j l hl
      by_cases hj : j = r.idx
      · subst hj; exact hi
      · exact h.keys j l ((a.off j hj).symm.trans hl)
    · intro j l hl
      by_cases hj : j = r.idx
      · subst hj; exact a.cons l hl
      · exact h.cons j l ((a.off j hj).symm.trans hl)
    · intro y hy
      simp only [k1, List.mem_filter] at hy
      exact h.idx y hy.1
    · intro y hy hy2
      simp only [k1, List.mem_filter] at hy
      exact a.some _ (h.live y hy.1 hy2)
    · intro y hy
      simp only [k1, List.mem_filter] at hy
      have : s1.nextId = s.nextId := by rw [hf]
      simp only [this]
      exact h.ids y hy.1
    · simp only [k1]
      exact h.nodup.sublist (List.Sublist.map _ List.filter_sublist)
    · simp only [k1]; omega
    · simp only [k1]; omega
    · show s1.reserves + s1.pool.stake.total ≤ held c s1
      rw [k2]; omega
    · show SumLe (owed s1) (held c s1 + unbonding c s1 + s1.pool.unstake.total - (s1.reserves + s1.pool.stake.total))
      rw [k3, k2]
      refine h.claims.mono (fun _ => Nat.le_refl _) ?_
      omega

/-! ### Ledgers, eras, governance -/

theorem Inv.on_ledger {i : Nat} {n : SLedger} {t : Ledger} {l : SLedger} (hc : c.Ok) (h : Inv c s)
    (hl : s.ledgers i = some l) (hn : n.Consistent) (hk : l.locked ≤ n.locked) (hw : t.WF)
    (hh : t.bal c.staking c.acct = held c s) :
    Inv c { s.setTok t with ledgers := upd s.ledgers i (some n), updated := upd s.updated i true } := by
  have hi := h.keys i l hl
  have u := unbonding_upd (s' := { s.setTok t with ledgers := upd s.ledgers i (some n), updated := upd s.updated i true })
    hc hi (fun j hj => upd_of_ne _ _ hj)
  have u1 : lockedOf s i = l.locked := by unfold lockedOf; rw [hl]
  have u2 : lockedOf { s.setTok t with ledgers := upd s.ledgers i (some n), updated := upd s.updated i true } i
      = n.locked := by unfold lockedOf; simp
  have hs := h.solv
  refine ⟨hw, ?_, ?_, h.relay, h.idx, ?_, h.ids, h.nodup, h.sres, h.ures, h.sle, h.ule, ?_, ?_, h.rf, h.urf, h.commission⟩
  · intro j l' hl'
    simp only [upd_apply] at hl'
    split at hl'
    · rename_i e; rw [e]; exact hi
    · exact h.keys j l' hl'
  · intro j l' hl'
    simp only [upd_apply] at hl'
    split at hl'
    · cases hl'; exact hn
    · exact h.cons j l' hl'
  · intro y hy hy2
    simp only [upd_apply]
    split
    · simp
    · exact h.live y hy hy2
  · show s.reserves + s.pool.stake.total ≤ t.bal _ _
    rw [hh]; exact hs
  · refine SumLe.mono (f := owed s) h.claims (fun _ => Nat.le_refl _) ?_
    show _ ≤ t.bal c.staking c.acct + unbonding c _ + s.pool.unstake.total - (s.reserves + s.pool.stake.total)
    rw [hh]
    omega

theorem setLedger_view {i : Nat} {n : SLedger} {proof : Bool} (e : setLedger c s i n proof = .ok s') :
    ∃ l q t, s.ledgers i = some l ∧ s.updated i = false ∧ s.reqs = [] ∧ l.total < n.total ∧ l.active < n.active ∧
      n.unlocking = l.unlocking ∧ proof = true ∧ s.relayLedger i = some n ∧
      inflate c s (n.total - l.total) = .ok q ∧ s.tok.mint c.liquid c.feeRecv q = .ok t ∧
      s' = { s.setTok t with ledgers := upd s.ledgers i (some n), updated := upd s.updated i true } := by
  simp only [setLedger, bind_ok_iff, okOr_ok_iff, ensure_ok_iff, exists_const] at e
  obtain ⟨l, hl, ⟨h1, h2⟩, ⟨h3, h4, h5⟩, ⟨h6, h7⟩, q, hq, t, ht, e⟩ := e
  obtain ⟨_, l', _, hl', rfl⟩ := updLedger_view e
  cases hl'
  exact ⟨l, q, t, hl, h1, h2, h3, h4, h5, h6, h7, hq, ht, rfl⟩

theorem Inv.on_setLedger {i : Nat} {n : SLedger} {proof : Bool} (hc : c.Ok) (h : Inv c s)
    (e : setLedger c s i n proof = .ok s') : Inv c s' := by
  obtain ⟨l, q, t, hl, _, _, _, _, hu, _, hn, _, ht, rfl⟩ := setLedger_view e
  have b := Ledger.mint_bal ht c.staking c.acct
  simp [hc.sl] at b
  refine h.on_ledger hc hl (h.relay i n hn) ?_ (Ledger.mint_wf ht h.wf) b
  unfold SLedger.locked; rw [hu]

theorem forceLedger_view {i : Nat} {n : SLedger} (e : forceLedger s i n = .ok s') :
    ∃ l, s.ledgers i = some l ∧ s.reqs = [] ∧
      s' = { s with ledgers := upd s.ledgers i (some n), updated := upd s.updated i true } := by
  simp only [forceLedger, bind_ok_iff, okOr_ok_iff, ensure_ok_iff, exists_const] at e
  obtain ⟨l, hl, ⟨_, h2⟩, e⟩ := e
  obtain ⟨_, l', _, hl', rfl⟩ := updLedger_view e
  cases hl'
  exact ⟨l, hl, h2, rfl⟩

theorem Inv.on_forceLedger {i : Nat} {n : SLedger} (hc : c.Ok) (h : Inv c s)
    (hk : (Call.forceLedger i n).ok c s) (e : forceLedger s i n = .ok s') : Inv c s' := by
  obtain ⟨l, hl, _, rfl⟩ := forceLedger_view e
  exact h.on_ledger (t := s.tok) hc hl hk.1 (hk.2 l hl).2 h.wf rfl

theorem Inv.on_advanceEra (h : Inv c s) (n : Nat) : Inv c (advanceEra c s n) := by
  unfold advanceEra
  split
  · exact h
  · exact h.congr h.wf rfl rfl rfl rfl rfl rfl h.sle h.ule h.solv h.claims h.rf h.urf h.commission

theorem Inv.on_onInit (hc : c.Ok) (h : Inv c s) : Inv c (onInit c s) := by
  unfold onInit
  rcases commit_cases s (initBlock c s) with e | e
  · simp only [initBlock, bind_ok_iff, pure_ok_iff] at e
    obtain ⟨s1, e1, e2⟩ := e
    have e3 : commit s (initBlock c s) = advanceEra c s1 (eraOffset c s1) := e2.symm
    rw [e3]
    exact (h.on_sent hc (initMatching_sent e1)).on_advanceEra _
  · rw [e.1]; exact h

theorem Inv.on_reduceReserves {recv m : Nat} (h : Inv c s) (e : reduceReserves c s recv m = .ok s') : Inv c s' := by
  simp only [reduceReserves, bind_ok_iff, csub_ok_iff, pure_ok_iff] at e
  obtain ⟨_, ⟨hm, rfl⟩, l, hl, rfl⟩ := e
  have b := Ledger.transfer_bal hl c.staking c.acct
  simp only [true_and] at b
  have hs := h.solv
  have hh : held c s ≤ l.bal c.staking c.acct + m := by
    simp only [held]
    split_ifs at b <;> omega
  refine h.congr (Ledger.transfer_wf hl h.wf) rfl rfl rfl rfl rfl rfl h.sle h.ule ?_ ?_ h.rf h.urf h.commission
  · show s.reserves - m + s.pool.stake.total ≤ l.bal c.staking c.acct
    omega
  · refine SumLe.mono (f := owed s) h.claims (fun _ => Nat.le_refl _) ?_
    show _ ≤ l.bal c.staking c.acct + _ + s.pool.unstake.total - (s.reserves - m + s.pool.stake.total)
    omega

theorem Inv.on_reduceUReserves {recv m : Nat} (hc : c.Ok) (h : Inv c s) (e : reduceUReserves c s recv m = .ok s') :
    Inv c s' := by
  simp only [reduceUReserves, bind_ok_iff, csub_ok_iff, pure_ok_iff] at e
  obtain ⟨_, ⟨hm, rfl⟩, l, hl, rfl⟩ := e
  have b := Ledger.transfer_bal hl c.staking c.acct
  simp [hc.sl] at b
  have hh : l.bal c.staking c.acct = held c s := b
  refine h.congr (Ledger.transfer_wf hl h.wf) rfl rfl rfl rfl rfl rfl h.sle h.ule ?_ ?_ h.rf h.urf h.commission
  · show s.reserves + s.pool.stake.total ≤ l.bal c.staking c.acct
    rw [hh]; exact h.solv
  · show SumLe (owed s) (l.bal c.staking c.acct + _ + s.pool.unstake.total - (s.reserves + s.pool.stake.total))
    rw [hh]; exact h.claims

theorem Inv.on_call {k : Call} (hc : c.Ok) (h : Inv c s) (hk : k.ok c s) (e : exec c s k = .ok s') : Inv c s' := by
  cases k <;> simp only [exec] at e
  case stake => exact h.on_stake hc hk e
  case unstake => exact h.on_unstake hc hk e
  case cancelUnstake =>
    simp only [cancelUnstake, Except.ok.injEq] at e
    subst e
    exact h.congr h.wf rfl rfl rfl rfl rfl rfl h.sle h.ule h.solv h.claims h.rf h.urf h.commission
  case claimFor => exact h.on_claimFor hc e
  case fastMatch => exact h.on_fastMatchAll hc e
  case bond => exact h.on_sent hc (doBond_sent e)
  case bondExtra => exact h.on_sent hc (doBondExtra_sent e)
  case unbond => exact h.on_sent hc (doUnbond_sent e)
  case rebond => exact h.on_sent hc (doRebond_sent e)
  case withdraw => exact h.on_sent hc (doWithdraw_sent e)
  case nominate => exact h.on_sent hc (doNominate_sent e)
  case notify => exact h.on_notify hc e
  case setEraStart =>
    cases e
    exact h.congr h.wf rfl rfl rfl rfl rfl rfl h.sle h.ule h.solv h.claims h.rf h.urf h.commission
  case forceEra =>
    cases e
    exact h.congr h.wf rfl rfl rfl rfl rfl rfl h.sle h.ule h.solv h.claims h.rf h.urf h.commission
  case forceAdvance => cases e; exact h.on_advanceEra _
  case forceMatching => exact h.on_sent hc (doMatching_sent e)
  case forceLedger => exact h.on_forceLedger hc hk e
  case setEra =>
    simp only [setEra, bind_ok_iff, ensure_ok_iff, exists_const, pure_ok_iff] at e
    obtain ⟨_, rfl⟩ := e
    exact h.on_advanceEra _
  case setLedger => exact h.on_setLedger hc e
  case reduceReserves => exact h.on_reduceReserves e
  case reduceUReserves => exact h.on_reduceUReserves hc e
  case setRf =>
    simp only [setRf, bind_ok_iff, ensure_ok_iff, exists_const, pure_ok_iff] at e
    obtain ⟨⟨_, hp⟩, rfl⟩ := e
    exact h.congr h.wf rfl rfl rfl rfl rfl rfl h.sle h.ule h.solv h.claims (Nat.le_of_lt hp) h.urf h.commission
  case setUrf =>
    simp only [setUrf, bind_ok_iff, ensure_ok_iff, exists_const, pure_ok_iff] at e
    obtain ⟨hp, rfl⟩ := e
    exact h.congr h.wf rfl rfl rfl rfl rfl rfl h.sle h.ule h.solv h.claims h.rf (Nat.le_of_lt hp) h.commission
  case setCap =>
    simp only [setCap, bind_ok_iff, ensure_ok_iff, exists_const, pure_ok_iff] at e
    obtain ⟨_, rfl⟩ := e
    exact h.congr h.wf rfl rfl rfl rfl rfl rfl h.sle h.ule h.solv h.claims h.rf h.urf h.commission
  case setCommission =>
    simp only [setCommission, bind_ok_iff, ensure_ok_iff, exists_const, pure_ok_iff] at e
    obtain ⟨⟨_, hp⟩, rfl⟩ := e
    exact h.congr h.wf rfl rfl rfl rfl rfl rfl h.sle h.ule h.solv h.claims h.rf h.urf hp
  case onInit => cases e; exact h.on_onInit hc
  case onFinalize =>
    cases e
    exact h.congr h.wf rfl rfl rfl rfl rfl rfl h.sle h.ule h.solv h.claims h.rf h.urf h.commission

theorem Inv.on_env (h : Inv c s) (e : Env c s s') : Inv c s' := by
  have hf := e.same
  have hs := h.solv
  have hst : held c s ≤ held c s' := e.staking
  have k1 : s'.ledgers = s.ledgers := by rw [hf]
  have k2 : s'.reserves = s.reserves := by rw [hf]
  have k3 : unbonding c s' = unbonding c s := by unfold unbonding lockedOf; rw [k1]
  have k4 : owed s' = owed s := owed_congr (by rw [hf])
  have k5 : s'.pool = s.pool := by rw [hf]
  have k6 : s'.reqs = s.reqs := by rw [hf]
  refine ⟨e.wf, by rw [k1]; exact h.keys, by rw [k1]; exact h.cons, e.relay, by rw [k6]; exact h.idx,
    by rw [k6, k1]; exact h.live, ?_, by rw [k6]; exact h.nodup, by rw [k5, k6]; exact h.sres, by rw [k5, k6]; exact h.ures, by rw [k5]; exact h.sle,
    by rw [k5]; exact h.ule, by rw [k2, k5]; omega, ?_,
    by rw [hf]; exact h.rf, by rw [hf]; exact h.urf, by rw [hf]; exact h.commission⟩
  · intro x hx
    rw [k6] at hx
    have := h.ids x hx
    have := e.ids
    omega
  · rw [k4]
    refine h.claims.mono (fun _ => Nat.le_refl _) ?_
    rw [k2, k3, k5]
    omega

theorem ReachP.inv {P : State → Call → Prop} (hc : c.Ok) (h : ReachP c P s) : Inv c s := by
  induction h with
  | init h => exact h.inv
  | step _ hs ih =>
    cases hs with
    | call k hk _ e => exact ih.on_call hc hk e
    | env e => exact ih.on_env e

end Verif.Staking
