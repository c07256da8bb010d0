import Verif.Staking.Inv

/-! # Backing of the liquid tokens -/

set_option linter.unusedSimpArgs false
set_option linter.unusedVariables false

namespace Verif.Staking
open Verif

variable {c : Cfg} {s s' : State}

/-- All liquid tokens at the current rate, plus what waits to be unbonded, are worth at most what is staked on the
relay chain plus what waits to be bonded. -/
def Covered (c : Cfg) (s : State) : Prop :=
  s.rate * s.tok.iss c.liquid + s.pool.unstake.total * DIV ≤ (bonded c s + s.pool.stake.total) * DIV

/-- All liquid tokens at the current rate, plus the reserves, plus everybody's claims, are worth at most what the
pallet holds and what its derivative accounts have on the relay chain. -/
def Solvent (c : Cfg) (s : State) : Prop := ∃ u, SumsTo (owed s) u ∧
  s.rate * s.tok.iss c.liquid + (s.reserves + u) * DIV ≤ (held c s + bonded c s + unbonding c s) * DIV

theorem bonded_congr (h : s'.ledgers = s.ledgers) : bonded c s' = bonded c s := by
  unfold bonded activeOf; rw [h]
theorem unbonding_congr (h : s'.ledgers = s.ledgers) : unbonding c s' = unbonding c s := by
  unfold unbonding lockedOf; rw [h]

theorem Solvent.move (h : Solvent c s) (hu : s'.unlockings = s.unlockings)
    (hn : s'.rate * s'.tok.iss c.liquid + s'.reserves * DIV + (held c s + bonded c s + unbonding c s) * DIV ≤
      s.rate * s.tok.iss c.liquid + s.reserves * DIV + (held c s' + bonded c s' + unbonding c s') * DIV) :
    Solvent c s' := by
  obtain ⟨u, h1, h2⟩ := h
  refine ⟨u, by rw [owed_congr hu]; exact h1, ?_⟩
  rw [Nat.add_mul] at h2 ⊢
  omega

theorem toLiquid_le {r m q : Nat} (h : toLiquid r m = .ok q) : r * q ≤ m * DIV := by
  obtain ⟨_, _, _, rfl⟩ := toLiquid_ok.1 h
  have hD : 0 < DIV := DIV_pos
  generalize DIV = D at *
  have h1 : D * D / r * m / D * D ≤ D * D / r * m := Nat.div_mul_le_self _ _
  have h2 : D * D / r * r ≤ D * D := Nat.div_mul_le_self _ _
  refine Nat.le_of_mul_le_mul_right ?_ hD
  calc r * (D * D / r * m / D) * D = r * (D * D / r * m / D * D) := by ring
    _ ≤ r * (D * D / r * m) := Nat.mul_le_mul_left _ h1
    _ = (D * D / r * r) * m := by ring
    _ ≤ (D * D) * m := Nat.mul_le_mul_right _ h2
    _ = m * D * D := by ring

/-! ### Stake, unstake, claim, fast match -/

theorem stake_eff {w m : Nat} (hc : c.Ok) (hw : w ≠ c.acct) (e : stake c s w m = .ok s') :
    ∃ q, toLiquid s.rate (m - c.xcmFees - pmulFloor s.rf m) = .ok q ∧ c.xcmFees + pmulFloor s.rf m ≤ m ∧
      held c s' = held c s + (m - c.xcmFees) ∧ s'.tok.iss c.liquid = s.tok.iss c.liquid + q ∧
      s' = { s with
        lo := s'.lo,
        pool := { s.pool with
          stake := ⟨s.pool.stake.total + (m - c.xcmFees - pmulFloor s.rf m), s.pool.stake.reserved⟩ },
        reserves := s.reserves + pmulFloor s.rf m,
        log := .staked w (m - c.xcmFees - pmulFloor s.rf m) :: s.log } := by
  obtain ⟨l1, l2, l3, q, _, hle, e1, e2, hq, _, e3, rfl⟩ := stake_view e
  have b1 := Ledger.transfer_bal e1 c.staking c.acct
  have b2 := Ledger.transfer_bal e2 c.staking c.acct
  have b3 := Ledger.mint_bal e3 c.staking c.acct
  have i3 := Ledger.mint_iss e3 c.liquid
  simp [hw.symm, hc.xcm, hc.sl] at b1 b2 b3
  rw [if_pos rfl, Ledger.transfer_iss e2, Ledger.transfer_iss e1] at i3
  refine ⟨q, hq, hle, ?_, i3, rfl⟩
  show l3.bal _ _ = s.tok.bal _ _ + _
  omega

theorem Covered.on_stake {w m : Nat} (hc : c.Ok) (h : Covered c s) (hw : w ≠ c.acct) (e : stake c s w m = .ok s') :
    Covered c s' := by
  obtain ⟨q, hq, hle, _, hi, hf⟩ := stake_eff hc hw e
  have hv := toLiquid_le hq
  have k1 : s'.rate = s.rate := by rw [hf]
  have k2 : s'.pool.unstake.total = s.pool.unstake.total := by rw [hf]
  have k3 : s'.pool.stake.total = s.pool.stake.total + (m - c.xcmFees - pmulFloor s.rf m) := by rw [hf]
  have k4 : bonded c s' = bonded c s := bonded_congr (by rw [hf])
  unfold Covered at *
  rw [k1, k2, k3, k4, hi, Nat.mul_add, ← Nat.add_assoc, Nat.add_mul (bonded c s + s.pool.stake.total)]
  omega

theorem Solvent.on_stake {w m : Nat} (hc : c.Ok) (h : Solvent c s) (hw : w ≠ c.acct) (e : stake c s w m = .ok s') :
    Solvent c s' := by
  obtain ⟨q, hq, hle, hh, hi, hf⟩ := stake_eff hc hw e
  have hv := toLiquid_le hq
  have k1 : s'.rate = s.rate := by rw [hf]
  have k2 : s'.reserves = s.reserves + pmulFloor s.rf m := by rw [hf]
  have k4 : bonded c s' = bonded c s := bonded_congr (by rw [hf])
  have k5 : unbonding c s' = unbonding c s := unbonding_congr (by rw [hf])
  refine h.move (by rw [hf]) ?_
  rw [k1, k2, k4, k5, hi, hh]
  generalize pmulFloor s.rf m = p at *
  obtain ⟨a, rfl⟩ : ∃ a, m = c.xcmFees + p + a := ⟨m - c.xcmFees - p, by omega⟩
  have e1 : c.xcmFees + p + a - c.xcmFees - p = a := by omega
  have e2 : c.xcmFees + p + a - c.xcmFees = p + a := by omega
  rw [e1] at hv
  rw [e2]
  nlinarith

theorem Covered.on_unstakeSlow {w q r : Nat} {p : Provider} (hc : c.Ok) (hwf : s.tok.WF) (hr : r ≤ q) (h : Covered c s)
    (hw : w ≠ c.acct) (e : unstakeSlow c s w q r p = .ok s') : Covered c s' := by
  obtain ⟨hf, hh, _, hi, _⟩ := unstakeSlow_eff hc hw e
  have hi := hi hwf
  have k1 : s'.rate = s.rate := by rw [hf]
  have k2 : s'.pool.unstake.total = s.pool.unstake.total + s.rate * (q - r) / DIV := by rw [hf]
  have k3 : s'.pool.stake.total = s.pool.stake.total := by rw [hf]
  have k4 : bonded c s' = bonded c s := bonded_congr (by rw [hf])
  have hv : s.rate * (q - r) / DIV * DIV ≤ s.rate * (q - r) := Nat.div_mul_le_self _ _
  have hi' : s.tok.iss c.liquid = s'.tok.iss c.liquid + (q - r) := by omega
  unfold Covered at *
  rw [hi', Nat.mul_add] at h
  rw [k1, k2, k3, k4, Nat.add_mul]
  omega

theorem SumsTo.bump {f f' : Nat → Nat} {t : Nat} (h : SumsTo f t) (p : Nat) (m : Nat)
    (hoff : ∀ i, i ≠ p → f' i = f i) (hp : f' p ≤ f p + m) : ∃ t', SumsTo f' t' ∧ t' ≤ t + m := by
  have := h.apply p
  refine ⟨t + f' p - f p, h.update p hoff (by omega), by omega⟩

theorem Solvent.on_unstakeSlow {w q r : Nat} {p : Provider} (hc : c.Ok) (hwf : s.tok.WF) (hr : r ≤ q) (h : Solvent c s)
    (hw : w ≠ c.acct) (e : unstakeSlow c s w q r p = .ok s') : Solvent c s' := by
  obtain ⟨hf, hh, _, hi, _⟩ := unstakeSlow_eff hc hw e
  have hi := hi hwf
  have k1 : s'.rate = s.rate := by rw [hf]
  have k2 : s'.reserves = s.reserves := by rw [hf]
  have k4 : bonded c s' = bonded c s := bonded_congr (by rw [hf])
  have k5 : unbonding c s' = unbonding c s := unbonding_congr (by rw [hf])
  have ho := owed_upd s (unlockKey c w p) _ s' (by rw [hf])
  have hv : s.rate * (q - r) / DIV * DIV ≤ s.rate * (q - r) := Nat.div_mul_le_self _ _
  have hi' : s.tok.iss c.liquid = s'.tok.iss c.liquid + (q - r) := by omega
  obtain ⟨u, h1, h2⟩ := h
  obtain ⟨u', hu1, hu2⟩ := SumsTo.bump (f' := owed s') h1 (unlockKey c w p) (s.rate * (q - r) / DIV)
    (fun i hi => by rw [ho, if_neg hi]) (by
      rw [ho, if_pos rfl]
      have := pushChunk_sum_le ((s.unlockings (unlockKey c w p)).getD []) (s.rate * (q - r) / DIV) (s.era + c.bonding + 1)
      simp only [Option.getD_some]
      unfold owed
      omega)
  refine ⟨u', hu1, ?_⟩
  rw [k1, k2, k4, k5, hh]
  rw [hi', Nat.mul_add] at h2
  generalize s.rate * (q - r) / DIV = m at *
  have : (s.reserves + u') * DIV ≤ (s.reserves + u) * DIV + m * DIV := by
    rw [← Nat.add_mul]; exact Nat.mul_le_mul_right _ (by omega)
  omega

theorem Covered.on_unstake {w q : Nat} {p : Provider} (hc : c.Ok) (hwf : s.tok.WF) (h : Covered c s)
    (hw : w ≠ c.acct) (e : unstake c s w q p = .ok s') : Covered c s' := by
  obtain ⟨_, hle, _, ⟨_, rfl⟩ | ⟨_, e⟩⟩ := unstake_view e
  · exact h
  · exact Covered.on_unstakeSlow (s := { s with ureserves := s.ureserves + pmulFloor s.urf q }) hc hwf hle h hw e

theorem Solvent.on_unstake {w q : Nat} {p : Provider} (hc : c.Ok) (hwf : s.tok.WF) (h : Solvent c s)
    (hw : w ≠ c.acct) (e : unstake c s w q p = .ok s') : Solvent c s' := by
  obtain ⟨_, hle, _, ⟨_, rfl⟩ | ⟨_, e⟩⟩ := unstake_view e
  · exact h
  · exact Solvent.on_unstakeSlow (s := { s with ureserves := s.ureserves + pmulFloor s.urf q }) hc hwf hle h hw e

theorem Covered.on_claimFor {w : Nat} (hc : c.Ok) (h : Covered c s) (e : claimFor c s w = .ok s') : Covered c s' := by
  obtain ⟨xs, s1, hxs, _, hle, hp, rfl⟩ := claimFor_view e
  obtain ⟨hf, _, _, hi⟩ := payClaim_eff hc hp
  have k1 : s1.rate = s.rate := by rw [hf]
  have k2 : s1.pool = s.pool := by rw [hf]
  have k4 : bonded c s1 = bonded c s := bonded_congr (by rw [hf])
  show s1.rate * s1.tok.iss c.liquid + s1.pool.unstake.total * DIV ≤ (bonded c s1 + s1.pool.stake.total) * DIV
  rw [k1, k2, k4, hi]
  exact h

theorem Solvent.on_claimFor {w : Nat} (hc : c.Ok) (h : Solvent c s) (e : claimFor c s w = .ok s') : Solvent c s' := by
  obtain ⟨xs, s1, hxs, _, hle, hp, rfl⟩ := claimFor_view e
  obtain ⟨hf, _, hh, hi⟩ := payClaim_eff hc hp
  have k1 : s1.rate = s.rate := by rw [hf]
  have k2 : s1.reserves = s.reserves := by rw [hf]
  have k4 : bonded c s1 = bonded c s := bonded_congr (by rw [hf])
  have k5 : unbonding c s1 = unbonding c s := unbonding_congr (by rw [hf])
  have ho := owed_upd s w (retained s.era xs) { s1 with
        unlockings := upd s.unlockings w (retained s.era xs),
        log := .claimed w (dueSum s.era xs) :: s.log } rfl
  obtain ⟨u, h1, h2⟩ := h
  have h3 := due_add_rest s.era xs
  have h4 : owed s w = chunkSum xs := by unfold owed; rw [hxs]; rfl
  have h5 := h1.apply w
  refine ⟨u - dueSum s.era xs, h1.update w (fun i hi => by rw [ho, if_neg hi]) ?_, ?_⟩
  · rw [ho, if_pos rfl, retained_getD, h4]
    omega
  · show s1.rate * s1.tok.iss c.liquid + (s1.reserves + (u - dueSum s.era xs)) * DIV ≤
      (held c s1 + bonded c s1 + unbonding c s1) * DIV
    rw [k1, k2, k4, k5, hi]
    have h6 : (s.reserves + u) * DIV = (s.reserves + (u - dueSum s.era xs)) * DIV + dueSum s.era xs * DIV := by
      rw [← Nat.add_mul]; congr 1; omega
    have h7 : (held c s + bonded c s + unbonding c s) * DIV ≤
        (held c s1 + bonded c s + unbonding c s) * DIV + dueSum s.era xs * DIV := by
      rw [← Nat.add_mul]; exact Nat.mul_le_mul_right _ (by omega)
    omega

theorem Covered.on_trySettle {w q : Nat} (hc : c.Ok) (hwf : s.tok.WF) (h : Covered c s)
    (e : trySettle c s w q = .ok s') : Covered c s' := by
  unfold trySettle at e
  split at e
  · cases e; exact h
  · obtain ⟨_, hle, _, hi, hf⟩ := settleFast_eff hc e
    have hi := hi hwf
    have hv : s.rate * (q - fixSatMul c.fastFee q) / DIV * DIV ≤ s.rate * (q - fixSatMul c.fastFee q) :=
      Nat.div_mul_le_self _ _
    have k1 : s'.rate = s.rate := by rw [hf]
    have k2 : s'.pool.unstake.total = s.pool.unstake.total := by rw [hf]
    have k3 : s'.pool.stake.total = s.pool.stake.total - s.rate * (q - fixSatMul c.fastFee q) / DIV := by rw [hf]
    have k4 : bonded c s' = bonded c s := bonded_congr (by rw [hf])
    unfold Covered at *
    rw [← hi, Nat.mul_add] at h
    rw [k1, k2, k3, k4]
    generalize s.rate * (q - fixSatMul c.fastFee q) / DIV = m at *
    have : (bonded c s + s.pool.stake.total) * DIV = (bonded c s + (s.pool.stake.total - m)) * DIV + m * DIV := by
      rw [← Nat.add_mul]; congr 1; omega
    omega

theorem Solvent.on_trySettle {w q : Nat} (hc : c.Ok) (hwf : s.tok.WF) (h : Solvent c s)
    (e : trySettle c s w q = .ok s') : Solvent c s' := by
  unfold trySettle at e
  split at e
  · cases e; exact h
  · obtain ⟨_, hle, hh, hi, hf⟩ := settleFast_eff hc e
    have hi := hi hwf
    have hv : s.rate * (q - fixSatMul c.fastFee q) / DIV * DIV ≤ s.rate * (q - fixSatMul c.fastFee q) :=
      Nat.div_mul_le_self _ _
    have k1 : s'.rate = s.rate := by rw [hf]
    have k2 : s'.reserves = s.reserves := by rw [hf]
    have k4 : bonded c s' = bonded c s := bonded_congr (by rw [hf])
    have k5 : unbonding c s' = unbonding c s := unbonding_congr (by rw [hf])
    refine h.move (by rw [hf]) ?_
    rw [k1, k2, k4, k5, ← hi, Nat.mul_add]
    generalize s.rate * (q - fixSatMul c.fastFee q) / DIV = m at *
    have h7 : (held c s + bonded c s + unbonding c s) * DIV ≤
        (held c s' + bonded c s + unbonding c s) * DIV + m * DIV := by
      rw [← Nat.add_mul]; exact Nat.mul_le_mul_right _ (by omega)
    omega

theorem Covered.on_fastMatch {w : Nat} (hc : c.Ok) (hwf : s.tok.WF) (h : Covered c s) (e : fastMatch c s w = .ok s') :
    Covered c s' := by
  rcases fastMatch_view e with ⟨_, rfl⟩ | ⟨b, q, a, s1, _, _, _, _, e1, rfl⟩
  · exact h
  · have h1 := h.on_trySettle hc hwf e1
    exact h1

theorem Solvent.on_fastMatch {w : Nat} (hc : c.Ok) (hwf : s.tok.WF) (h : Solvent c s) (e : fastMatch c s w = .ok s') :
    Solvent c s' := by
  rcases fastMatch_view e with ⟨_, rfl⟩ | ⟨b, q, a, s1, _, _, _, _, e1, rfl⟩
  · exact h
  · have h1 := h.on_trySettle hc hwf e1
    exact h1

theorem fastMatchAll_ind {Q : State → Prop} (hc : c.Ok)
    (hQ : ∀ s s' w, Inv c s → Q s → fastMatch c s w = .ok s' → Q s') : ∀ {ws : List Nat} {s s' : State}, Inv c s → Q s →
    fastMatchAll c s ws = .ok s' → Q s'
  | [], s, s', _, h, e => by simp only [fastMatchAll] at e; cases e; exact h
  | w :: ws, s, s', hi, h, e => by
    simp only [fastMatchAll, bind_ok_iff] at e
    obtain ⟨s1, e1, e2⟩ := e
    exact fastMatchAll_ind hc hQ (hi.on_fastMatch hc e1) (hQ _ _ _ hi h e1) e2

/-! ### Requests and responses -/

theorem Covered.on_sent (hc : c.Ok) (h : Covered c s) (e : Sent c s s') : Covered c s' := by
  have hf := e.frame
  have k1 : s'.rate = s.rate := by rw [hf]
  have k4 : bonded c s' = bonded c s := bonded_congr (by rw [hf])
  unfold Covered at *
  rw [k1, k4, e.stake, e.unstake, e.iss _ hc.sl.symm]
  exact h

theorem Solvent.on_sent (hc : c.Ok) (h : Solvent c s) (e : Sent c s s') : Solvent c s' := by
  have hf := e.frame
  have k1 : s'.rate = s.rate := by rw [hf]
  have k2 : s'.reserves = s.reserves := by rw [hf]
  have k4 : bonded c s' = bonded c s := bonded_congr (by rw [hf])
  have k5 : unbonding c s' = unbonding c s := unbonding_congr (by rw [hf])
  have k0 : held c s' = held c s := e.bal _ _ (.inr hc.xcm)
  refine h.move (by rw [hf]) ?_
  rw [k0, k1, k2, k4, k5, e.iss _ hc.sl.symm]

theorem Covered.on_applied {r : Req} (hc : c.Ok) (hi : r.idx ∈ c.indices) (h : Covered c s) (e : Applied c s s' r)
    (hz : shortfall s r = 0) : Covered c s' := by
  have hf := e.frame
  have k1 : s'.rate = s.rate := by rw [hf]
  have u := bonded_upd hc hi e.off
  have a := e.active
  obtain ⟨x, p1, p2, _, _⟩ := e.pool
  unfold Covered at *
  rw [k1, e.iss]
  have h1 : bonded c s' + s'.pool.stake.total + s.pool.unstake.total =
      bonded c s + s.pool.stake.total + s'.pool.unstake.total := by omega
  have h2 : (bonded c s' + s'.pool.stake.total) * DIV + s.pool.unstake.total * DIV =
      (bonded c s + s.pool.stake.total) * DIV + s'.pool.unstake.total * DIV := by
    rw [← Nat.add_mul, ← Nat.add_mul, h1]
  omega

theorem Solvent.on_applied {r : Req} (hc : c.Ok) (hi : r.idx ∈ c.indices) (h : Solvent c s) (e : Applied c s s' r) :
    Solvent c s' := by
  have hf := e.frame
  have k1 : s'.rate = s.rate := by rw [hf]
  have k2 : s'.reserves = s.reserves := by rw [hf]
  have u := bonded_upd hc hi e.off
  have u2 := unbonding_upd hc hi e.off
  have a := e.active
  have b := e.money
  refine h.move (by rw [hf]) ?_
  rw [k1, k2, e.iss]
  have : held c s + bonded c s + unbonding c s = held c s' + bonded c s' + unbonding c s' := by omega
  rw [this]

/-! ### Rewards and the exchange rate -/

/-- The commission on rewards is worth at most the commission's share of the rewards. -/
theorem inflate_le {rew q : Nat} (hq : inflate c s rew = .ok q) (h : Covered c s) (hk : s.commission < DIV)
    (hb : bonded c s + s.pool.stake.total + rew ≤ maxU128) : s.rate * q ≤ s.commission * rew / DIV * DIV := by
  unfold inflate at hq
  split at hq
  · cases hq; simp
  · simp only [bind_ok_iff, cadd_ok_iff, csub_ok_iff, pure_ok_iff] at hq
    obtain ⟨_, ⟨h1, rfl⟩, a, ⟨h2, rfl⟩, rfl⟩ := hq
    rw [totalActive_eq] at *
    have e1 : min maxU128 (bonded c s) = bonded c s := by omega
    rw [e1] at *
    have hD : 0 < DIV := DIV_pos
    have hkr : s.commission * rew / DIV ≤ rew := by
      rw [Nat.div_le_iff_le_mul hD]
      have := Nat.mul_le_mul_right rew (Nat.le_of_lt hk)
      rw [Nat.mul_comm rew]
      omega
    have e2 : fixSatMul s.commission rew = s.commission * rew / DIV := by unfold fixSatMul; omega
    rw [e2]
    generalize s.commission * rew / DIV = k at *
    have e3 : satAdd (bonded c s + s.pool.stake.total - s.pool.unstake.total) rew =
        bonded c s + s.pool.stake.total - s.pool.unstake.total + rew := by unfold satAdd; omega
    rw [e3]
    unfold Covered at h
    generalize ha : bonded c s + s.pool.stake.total - s.pool.unstake.total = a at *
    have ha' : s.rate * s.tok.iss c.liquid ≤ a * DIV := by
      have : (bonded c s + s.pool.stake.total) * DIV = a * DIV + s.pool.unstake.total * DIV := by
        rw [← Nat.add_mul]; congr 1; omega
      omega
    cases hv : fixFromRational k (a + rew - k) with
    | none => simp [fixSatMul]
    | some v =>
      obtain ⟨_, _, hv3⟩ := fixFromRational_iff.1 hv
      simp only [Option.getD_some]
      have hvd : v * (a + rew - k) ≤ k * DIV := by
        rw [hv3]; exact Nat.div_mul_le_self _ _
      have hq1 : fixSatMul v (s.tok.iss c.liquid) * DIV ≤ v * s.tok.iss c.liquid :=
        (Nat.mul_le_mul_right _ (Nat.min_le_right _ _)).trans (Nat.div_mul_le_self _ _)
      generalize fixSatMul v (s.tok.iss c.liquid) = q at *
      refine Nat.le_of_mul_le_mul_right ?_ hD
      calc s.rate * q * DIV = s.rate * (q * DIV) := by ring
        _ ≤ s.rate * (v * s.tok.iss c.liquid) := Nat.mul_le_mul_left _ hq1
        _ = v * (s.rate * s.tok.iss c.liquid) := by ring
        _ ≤ v * (a * DIV) := Nat.mul_le_mul_left _ ha'
        _ = v * a * DIV := by ring
        _ ≤ v * (a + rew - k) * DIV := Nat.mul_le_mul_right _ (Nat.mul_le_mul_left _ (by omega))
        _ ≤ k * DIV * DIV := Nat.mul_le_mul_right _ hvd

theorem setLedger_rewards {i : Nat} {n l : SLedger} (hl : l.Consistent) (hn : n.Consistent) (hu : n.unlocking = l.unlocking)
    (h1 : l.total < n.total) : n.active = l.active + (n.total - l.total) := by
  have := hl.1; have := hn.1
  have : n.locked = l.locked := by unfold SLedger.locked; rw [hu]
  omega

/-- The assumption on updates with rewards: everything fits `u128`. -/
def RewardFits (c : Cfg) (s : State) (i : Nat) (n : SLedger) : Prop :=
  bonded c s + s.pool.stake.total + (n.total - totalOf s i) ≤ maxU128

theorem setLedger_eff {i : Nat} {n : SLedger} {proof : Bool} (hc : c.Ok) (hi : Inv c s)
    (e : setLedger c s i n proof = .ok s') :
    ∃ q, inflate c s (n.total - totalOf s i) = .ok q ∧ s'.tok.iss c.liquid = s.tok.iss c.liquid + q ∧
      held c s' = held c s ∧ bonded c s' = bonded c s + (n.total - totalOf s i) ∧ unbonding c s' = unbonding c s ∧
      s' = { s with lo := s'.lo, ledgers := s'.ledgers, updated := s'.updated } := by
  obtain ⟨l, q, t, hl, _, _, h1, _, hu, _, hn, hq, ht, rfl⟩ := setLedger_view e
  have hL : totalOf s i = l.total := by unfold totalOf; rw [hl]
  have hA : activeOf s i = l.active := by unfold activeOf; rw [hl]
  have hK : lockedOf s i = l.locked := by unfold lockedOf; rw [hl]
  have hr := setLedger_rewards (i := i) (hi.cons i l hl) (hi.relay i n hn) hu h1
  have hii := hi.keys i l hl
  have u1 := bonded_upd (s' := { s.setTok t with ledgers := upd s.ledgers i (some n), updated := upd s.updated i true })
    hc hii (fun j hj => upd_of_ne _ _ hj)
  have u2 := unbonding_upd (s' := { s.setTok t with ledgers := upd s.ledgers i (some n), updated := upd s.updated i true })
    hc hii (fun j hj => upd_of_ne _ _ hj)
  have a1 : activeOf { s.setTok t with ledgers := upd s.ledgers i (some n), updated := upd s.updated i true } i
      = n.active := by unfold activeOf; simp
  have a2 : lockedOf { s.setTok t with ledgers := upd s.ledgers i (some n), updated := upd s.updated i true } i
      = l.locked := by unfold lockedOf SLedger.locked; simp [hu]
  have b := Ledger.mint_bal ht c.staking c.acct
  have i1 := Ledger.mint_iss ht c.liquid
  rw [if_pos rfl] at i1
  simp [hc.sl] at b
  rw [hL]
  refine ⟨q, hq, i1, b, by omega, by omega, rfl⟩

theorem Covered.on_setLedger {i : Nat} {n : SLedger} {proof : Bool} (hc : c.Ok) (hi : Inv c s) (h : Covered c s)
    (hb : RewardFits c s i n) (e : setLedger c s i n proof = .ok s') : Covered c s' := by
  obtain ⟨q, hq, h1, h2, h3, h4, hf⟩ := setLedger_eff hc hi e
  have h5 := inflate_le hq h hi.commission hb
  have h6 : s.commission * (n.total - totalOf s i) / DIV * DIV ≤ (n.total - totalOf s i) * DIV := by
    refine (Nat.div_mul_le_self _ _).trans ?_
    rw [Nat.mul_comm _ DIV]
    exact Nat.mul_le_mul_right _ (Nat.le_of_lt hi.commission)
  have k1 : s'.rate = s.rate := by rw [hf]
  have k2 : s'.pool = s.pool := by rw [hf]
  unfold Covered at *
  rw [k1, k2, h1, h3, Nat.mul_add]
  have : (bonded c s + (n.total - totalOf s i) + s.pool.stake.total) * DIV =
      (bonded c s + s.pool.stake.total) * DIV + (n.total - totalOf s i) * DIV := by ring
  omega

theorem Solvent.on_setLedger {i : Nat} {n : SLedger} {proof : Bool} (hc : c.Ok) (hi : Inv c s) (h : Solvent c s)
    (hcv : Covered c s) (hb : RewardFits c s i n) (e : setLedger c s i n proof = .ok s') : Solvent c s' := by
  obtain ⟨q, hq, h1, h2, h3, h4, hf⟩ := setLedger_eff hc hi e
  have h5 := inflate_le hq hcv hi.commission hb
  have h6 : s.commission * (n.total - totalOf s i) / DIV * DIV ≤ (n.total - totalOf s i) * DIV := by
    refine (Nat.div_mul_le_self _ _).trans ?_
    rw [Nat.mul_comm _ DIV]
    exact Nat.mul_le_mul_right _ (Nat.le_of_lt hi.commission)
  have k1 : s'.rate = s.rate := by rw [hf]
  have k2 : s'.reserves = s.reserves := by rw [hf]
  refine h.move (by rw [hf]) ?_
  rw [k1, k2, h1, h2, h3, h4, Nat.mul_add]
  have : (held c s + (bonded c s + (n.total - totalOf s i)) + unbonding c s) * DIV =
      (held c s + bonded c s + unbonding c s) * DIV + (n.total - totalOf s i) * DIV := by ring
  omega

theorem forceLedger_eff {i : Nat} {n : SLedger} (hc : c.Ok) (hi : Inv c s) (hk : (Call.forceLedger i n).ok c s)
    (e : forceLedger s i n = .ok s') :
    bonded c s ≤ bonded c s' ∧ unbonding c s ≤ unbonding c s' ∧
      s' = { s with ledgers := s'.ledgers, updated := s'.updated } := by
  obtain ⟨l, hl, _, rfl⟩ := forceLedger_view e
  obtain ⟨g1, g2⟩ := hk.2 l hl
  have hii := hi.keys i l hl
  have u1 := bonded_upd (s' := { s with ledgers := upd s.ledgers i (some n), updated := upd s.updated i true })
    hc hii (fun j hj => upd_of_ne _ _ hj)
  have u2 := unbonding_upd (s' := { s with ledgers := upd s.ledgers i (some n), updated := upd s.updated i true })
    hc hii (fun j hj => upd_of_ne _ _ hj)
  have hA : activeOf s i = l.active := by unfold activeOf; rw [hl]
  have hK : lockedOf s i = l.locked := by unfold lockedOf; rw [hl]
  have a1 : activeOf { s with ledgers := upd s.ledgers i (some n), updated := upd s.updated i true } i
      = n.active := by unfold activeOf; simp
  have a2 : lockedOf { s with ledgers := upd s.ledgers i (some n), updated := upd s.updated i true } i
      = n.locked := by unfold lockedOf; simp
  exact ⟨by omega, by omega, rfl⟩

theorem Covered.on_forceLedger {i : Nat} {n : SLedger} (hc : c.Ok) (hi : Inv c s) (hk : (Call.forceLedger i n).ok c s)
    (h : Covered c s) (e : forceLedger s i n = .ok s') : Covered c s' := by
  obtain ⟨h1, _, hf⟩ := forceLedger_eff hc hi hk e
  have k1 : s'.rate = s.rate := by rw [hf]
  have k2 : s'.pool = s.pool := by rw [hf]
  have k3 : s'.tok = s.tok := by rw [hf]; rfl
  unfold Covered at *
  rw [k1, k2, k3]
  exact h.trans (Nat.mul_le_mul_right _ (by omega))

theorem Solvent.on_forceLedger {i : Nat} {n : SLedger} (hc : c.Ok) (hi : Inv c s) (hk : (Call.forceLedger i n).ok c s)
    (h : Solvent c s) (e : forceLedger s i n = .ok s') : Solvent c s' := by
  obtain ⟨h1, h2, hf⟩ := forceLedger_eff hc hi hk e
  have k1 : s'.rate = s.rate := by rw [hf]
  have k2 : s'.reserves = s.reserves := by rw [hf]
  have k3 : s'.tok = s.tok := by rw [hf]; rfl
  refine h.move (by rw [hf]) ?_
  have : (held c s + bonded c s + unbonding c s) * DIV ≤ (held c s' + bonded c s' + unbonding c s') * DIV := by
    refine Nat.mul_le_mul_right _ ?_
    simp only [held, k3]
    omega
  rw [k1, k2, k3]
  omega

/-- A new rate prices all liquid tokens within what backs them. -/
theorem newRate_cases {r : Nat} (h : newRate c s = .ok r) : r = s.rate ∨
    r * s.tok.iss c.liquid + s.pool.unstake.total * DIV ≤ (bonded c s + s.pool.stake.total) * DIV := by
  unfold newRate at h
  split at h
  · cases h; exact .inl rfl
  · simp only [bind_ok_iff, cadd_ok_iff, csub_ok_iff, okOr_ok_iff, pure_ok_iff] at h
    obtain ⟨_, ⟨h1, rfl⟩, a, ⟨h2, rfl⟩, r', hr, rfl⟩ := h
    split
    · right
      rw [totalActive_eq] at *
      obtain ⟨_, _, hr3⟩ := fixFromRational_iff.1 hr
      have h3 : r' * s.tok.iss c.liquid ≤
          (min maxU128 (bonded c s) + s.pool.stake.total - s.pool.unstake.total) * DIV := by
        rw [hr3]; exact Nat.div_mul_le_self _ _
      have h4 : (min maxU128 (bonded c s) + s.pool.stake.total - s.pool.unstake.total) * DIV + s.pool.unstake.total * DIV
          ≤ (bonded c s + s.pool.stake.total) * DIV := by
        rw [← Nat.add_mul]; exact Nat.mul_le_mul_right _ (by omega)
      omega
    · exact .inl rfl

theorem advanceEra_cases (n : Nat) : (advanceEra c s n).rate = s.rate ∨
    (advanceEra c s n).rate * s.tok.iss c.liquid + s.pool.unstake.total * DIV ≤
      (bonded c s + s.pool.stake.total) * DIV := by
  unfold advanceEra
  split
  · exact .inl rfl
  · rcases commit_cases s.rate (newRate c s) with h | h
    · exact newRate_cases h
    · exact .inl h.1

theorem advanceEra_frame (n : Nat) : advanceEra c s n = { s with
    eraStart := (advanceEra c s n).eraStart,
    era := (advanceEra c s n).era,
    rate := (advanceEra c s n).rate,
    matched := (advanceEra c s n).matched } := by
  unfold advanceEra
  split <;> rfl

theorem Covered.on_advanceEra (h : Covered c s) (n : Nat) : Covered c (advanceEra c s n) := by
  have hf := advanceEra_frame (c := c) (s := s) n
  have hr := advanceEra_cases (c := c) (s := s) n
  generalize advanceEra c s n = s' at *
  have k1 : bonded c s' = bonded c s := bonded_congr (by rw [hf])
  have k2 : s'.pool = s.pool := by rw [hf]
  have k3 : s'.tok = s.tok := by rw [hf]; rfl
  unfold Covered at *
  rw [k1, k2, k3]
  rcases hr with hr | hr
  · rw [hr]; exact h
  · exact hr

theorem sumLe_total {f : Nat → Nat} {t b : Nat} (h : SumsTo f t) (hb : SumLe f b) : t ≤ b := by
  obtain ⟨S, _, rfl⟩ := h
  exact hb S

theorem Solvent.on_advanceEra (hi : Inv c s) (h : Solvent c s) (n : Nat) : Solvent c (advanceEra c s n) := by
  have hf := advanceEra_frame (c := c) (s := s) n
  have hr := advanceEra_cases (c := c) (s := s) n
  generalize advanceEra c s n = s' at *
  have k1 : bonded c s' = bonded c s := bonded_congr (by rw [hf])
  have k5 : unbonding c s' = unbonding c s := unbonding_congr (by rw [hf])
  have k2 : s'.reserves = s.reserves := by rw [hf]
  have k3 : s'.tok = s.tok := by rw [hf]; rfl
  have k4 : held c s' = held c s := by unfold held; rw [k3]
  obtain ⟨u, h1, h2⟩ := h
  refine ⟨u, by rw [owed_congr (s := s) (by rw [hf])]; exact h1, ?_⟩
  rw [k1, k2, k3, k4, k5]
  rcases hr with hr | hr
  · rw [hr]; exact h2
  · have h3 := sumLe_total h1 hi.claims
    have h4 := hi.solv
    have h5 : (s.reserves + u) * DIV + (bonded c s + s.pool.stake.total) * DIV ≤
        (held c s + bonded c s + unbonding c s) * DIV + s.pool.unstake.total * DIV := by
      rw [← Nat.add_mul, ← Nat.add_mul]; exact Nat.mul_le_mul_right _ (by omega)
    omega

/-! ### All calls -/

/-- Rebonds are executed in full, and rewards fit `u128`. -/
def FullRebond (c : Cfg) (s : State) : Call → Prop
  | .notify q true => ∀ i m, findReq s.reqs q = some (.rebond i m) → m ≤ lockedOf s i
  | .setLedger i n _ => RewardFits c s i n
  | _ => True

/-- Rewards fit `u128` and are reported only while the liquid tokens are covered. -/
def FairReward (c : Cfg) (s : State) : Call → Prop
  | .setLedger i n _ => RewardFits c s i n ∧ Covered c s
  | _ => True

theorem Fresh.covered (h : Fresh c s) : Covered c s := by
  unfold Covered
  rw [h.iss, h.pool]
  simp

theorem Fresh.solvent (h : Fresh c s) : Solvent c s := by
  refine ⟨0, ?_, ?_⟩
  · exact SumsTo.zero.congr (fun i => by simp [owed, h.unlockings])
  · rw [h.iss, h.reserves]
    simp

theorem shortfall_zero {r : Req} (h : ∀ i m, r = .rebond i m → m ≤ lockedOf s i) : shortfall s r = 0 := by
  cases r with
  | rebond i m =>
    have := h i m rfl
    simp only [shortfall]
    omega
  | _ => rfl

theorem Covered.on_call {k : Call} (hc : c.Ok) (hi : Inv c s) (h : Covered c s) (hk : k.ok c s) (hp : FullRebond c s k)
    (e : exec c s k = .ok s') : Covered c s' := by
  cases k <;> simp only [exec] at e
  case stake => exact h.on_stake hc hk e
  case unstake => exact h.on_unstake hc hi.wf hk e
  case cancelUnstake =>
    simp only [cancelUnstake, Except.ok.injEq] at e
    subst e
    exact h
  case claimFor => exact h.on_claimFor hc e
  case fastMatch => exact fastMatchAll_ind hc (fun _ _ _ hi h e => h.on_fastMatch hc hi.wf e) hi h e
  case bond => exact h.on_sent hc (doBond_sent e)
  case bondExtra => exact h.on_sent hc (doBondExtra_sent e)
  case unbond => exact h.on_sent hc (doUnbond_sent e)
  case rebond => exact h.on_sent hc (doRebond_sent e)
  case withdraw => exact h.on_sent hc (doWithdraw_sent e)
  case nominate => exact h.on_sent hc (doNominate_sent e)
  case notify q ok =>
    rcases notify_view e with rfl | ⟨r, s1, rfl, hr, e1, rfl⟩
    · exact h
    · have a := applyReq_eff hc hi e1
      have hii : r.idx ∈ c.indices := hi.idx _ (findReq_mem hr)
      have h1 := h.on_applied hc hii a (shortfall_zero (fun i m hrm => hp i m (by rw [hr, hrm])))
      exact h1
  case setEraStart => cases e; exact h
  case forceEra => cases e; exact h
  case forceAdvance => cases e; exact h.on_advanceEra _
  case forceMatching => exact h.on_sent hc (doMatching_sent e)
  case forceLedger => exact h.on_forceLedger hc hi hk e
  case setEra =>
    simp only [setEra, bind_ok_iff, ensure_ok_iff, exists_const, pure_ok_iff] at e
    obtain ⟨_, rfl⟩ := e
    exact h.on_advanceEra _
  case setLedger => exact h.on_setLedger hc hi hp e
  case reduceReserves =>
    simp only [reduceReserves, bind_ok_iff, csub_ok_iff, pure_ok_iff] at e
    obtain ⟨_, _, l, hl, rfl⟩ := e
    unfold Covered
    show s.rate * l.iss c.liquid + _ ≤ _
    rw [Ledger.transfer_iss hl]
    exact h
  case reduceUReserves =>
    simp only [reduceUReserves, bind_ok_iff, csub_ok_iff, pure_ok_iff] at e
    obtain ⟨_, _, l, hl, rfl⟩ := e
    unfold Covered
    show s.rate * l.iss c.liquid + _ ≤ _
    rw [Ledger.transfer_iss hl]
    exact h
  case setRf =>
    simp only [setRf, bind_ok_iff, ensure_ok_iff, exists_const, pure_ok_iff] at e
    obtain ⟨_, rfl⟩ := e
    exact h
  case setUrf =>
    simp only [setUrf, bind_ok_iff, ensure_ok_iff, exists_const, pure_ok_iff] at e
    obtain ⟨_, rfl⟩ := e
    exact h
  case setCap =>
    simp only [setCap, bind_ok_iff, ensure_ok_iff, exists_const, pure_ok_iff] at e
    obtain ⟨_, rfl⟩ := e
    exact h
  case setCommission =>
    simp only [setCommission, bind_ok_iff, ensure_ok_iff, exists_const, pure_ok_iff] at e
    obtain ⟨_, rfl⟩ := e
    exact h
  case onInit =>
    cases e
    unfold onInit
    rcases commit_cases s (initBlock c s) with e | e
    · simp only [initBlock, bind_ok_iff, pure_ok_iff] at e
      obtain ⟨s1, e1, e2⟩ := e
      have e3 : commit s (initBlock c s) = advanceEra c s1 (eraOffset c s1) := e2.symm
      rw [e3]
      exact (h.on_sent hc (initMatching_sent e1)).on_advanceEra _
    · rw [e.1]; exact h
  case onFinalize => cases e; exact h

theorem Solvent.on_call {k : Call} (hc : c.Ok) (hi : Inv c s) (h : Solvent c s) (hk : k.ok c s) (hp : FairReward c s k)
    (e : exec c s k = .ok s') : Solvent c s' := by
  cases k <;> simp only [exec] at e
  case stake => exact h.on_stake hc hk e
  case unstake => exact h.on_unstake hc hi.wf hk e
  case cancelUnstake =>
    simp only [cancelUnstake, Except.ok.injEq] at e
    subst e
    exact h
  case claimFor => exact h.on_claimFor hc e
  case fastMatch => exact fastMatchAll_ind hc (fun _ _ _ hi h e => h.on_fastMatch hc hi.wf e) hi h e
  case bond => exact h.on_sent hc (doBond_sent e)
  case bondExtra => exact h.on_sent hc (doBondExtra_sent e)
  case unbond => exact h.on_sent hc (doUnbond_sent e)
  case rebond => exact h.on_sent hc (doRebond_sent e)
  case withdraw => exact h.on_sent hc (doWithdraw_sent e)
  case nominate => exact h.on_sent hc (doNominate_sent e)
  case notify q ok =>
    rcases notify_view e with rfl | ⟨r, s1, rfl, hr, e1, rfl⟩
    · exact h
    · have a := applyReq_eff hc hi e1
      have hii : r.idx ∈ c.indices := hi.idx _ (findReq_mem hr)
      have h1 := h.on_applied hc hii a
      exact h1
  case setEraStart => cases e; exact h
  case forceEra => cases e; exact h
  case forceAdvance => cases e; exact h.on_advanceEra hi _
  case forceMatching => exact h.on_sent hc (doMatching_sent e)
  case forceLedger => exact h.on_forceLedger hc hi hk e
  case setEra =>
    simp only [setEra, bind_ok_iff, ensure_ok_iff, exists_const, pure_ok_iff] at e
    obtain ⟨_, rfl⟩ := e
    exact h.on_advanceEra hi _
  case setLedger => exact h.on_setLedger hc hi hp.2 hp.1 e
  case reduceReserves recv m =>
    simp only [reduceReserves, bind_ok_iff, csub_ok_iff, pure_ok_iff] at e
    obtain ⟨_, ⟨hm, rfl⟩, l, hl, rfl⟩ := e
    have b := Ledger.transfer_bal hl c.staking c.acct
    simp only [true_and, if_true] at b
    have hh : held c s ≤ l.bal c.staking c.acct + m := by
      simp only [held]
      omega
    refine h.move rfl ?_
    show s.rate * l.iss c.liquid + (s.reserves - m) * DIV + (held c s + bonded c s + unbonding c s) * DIV ≤
      s.rate * s.tok.iss c.liquid + s.reserves * DIV + (l.bal c.staking c.acct + bonded c s + unbonding c s) * DIV
    rw [Ledger.transfer_iss hl]
    have : (s.reserves - m) * DIV + (held c s + bonded c s + unbonding c s) * DIV ≤
      s.reserves * DIV + (l.bal c.staking c.acct + bonded c s + unbonding c s) * DIV := by
      rw [← Nat.add_mul, ← Nat.add_mul]
      exact Nat.mul_le_mul_right _ (by omega)
    omega
  case reduceUReserves =>
    simp only [reduceUReserves, bind_ok_iff, csub_ok_iff, pure_ok_iff] at e
    obtain ⟨_, _, l, hl, rfl⟩ := e
    have b := Ledger.transfer_bal hl c.staking c.acct
    simp [hc.sl] at b
    refine h.move rfl ?_
    show s.rate * l.iss c.liquid + s.reserves * DIV + (held c s + bonded c s + unbonding c s) * DIV ≤
      s.rate * s.tok.iss c.liquid + s.reserves * DIV + (l.bal c.staking c.acct + bonded c s + unbonding c s) * DIV
    rw [Ledger.transfer_iss hl, b]
    exact Nat.le_refl _
  case setRf =>
    simp only [setRf, bind_ok_iff, ensure_ok_iff, exists_const, pure_ok_iff] at e
    obtain ⟨_, rfl⟩ := e
    exact h
  case setUrf =>
    simp only [setUrf, bind_ok_iff, ensure_ok_iff, exists_const, pure_ok_iff] at e
    obtain ⟨_, rfl⟩ := e
    exact h
  case setCap =>
    simp only [setCap, bind_ok_iff, ensure_ok_iff, exists_const, pure_ok_iff] at e
    obtain ⟨_, rfl⟩ := e
    exact h
  case setCommission =>
    simp only [setCommission, bind_ok_iff, ensure_ok_iff, exists_const, pure_ok_iff] at e
    obtain ⟨_, rfl⟩ := e
    exact h
  case onInit =>
    cases e
    unfold onInit
    rcases commit_cases s (initBlock c s) with e | e
    · simp only [initBlock, bind_ok_iff, pure_ok_iff] at e
      obtain ⟨s1, e1, e2⟩ := e
      have e3 : commit s (initBlock c s) = advanceEra c s1 (eraOffset c s1) := e2.symm
      rw [e3]
      have st := initMatching_sent e1
      exact (h.on_sent hc st).on_advanceEra (hi.on_sent hc st) _
    · rw [e.1]; exact h
  case onFinalize => cases e; exact h

theorem Covered.on_env (h : Covered c s) (e : Env c s s') : Covered c s' := by
  have hf := e.same
  have k1 : bonded c s' = bonded c s := bonded_congr (by rw [hf])
  have k2 : s'.pool = s.pool := by rw [hf]
  have k3 : s'.rate = s.rate := by rw [hf]
  unfold Covered at *
  rw [k1, k2, k3, e.iss]
  exact h

theorem Solvent.on_env (h : Solvent c s) (e : Env c s s') : Solvent c s' := by
  have hf := e.same
  have k1 : bonded c s' = bonded c s := bonded_congr (by rw [hf])
  have k5 : unbonding c s' = unbonding c s := unbonding_congr (by rw [hf])
  have k2 : s'.reserves = s.reserves := by rw [hf]
  have k3 : s'.rate = s.rate := by rw [hf]
  have k4 : held c s ≤ held c s' := e.staking
  refine h.move (by rw [hf]) ?_
  rw [k1, k2, k3, k5, e.iss]
  have : (held c s + bonded c s + unbonding c s) * DIV ≤ (held c s' + bonded c s + unbonding c s) * DIV :=
    Nat.mul_le_mul_right _ (by omega)
  omega

theorem ReachP.covered {P : State → Call → Prop} (hc : c.Ok) (hP : ∀ s k, P s k → FullRebond c s k) (h : ReachP c P s) :
    Covered c s := by
  induction h with
  | init h => exact h.covered
  | step h1 hs ih =>
    cases hs with
    | call k hk hp e => exact ih.on_call hc (h1.inv hc) hk (hP _ _ hp) e
    | env e => exact ih.on_env e

theorem ReachP.solvent {P : State → Call → Prop} (hc : c.Ok) (hP : ∀ s k, P s k → FairReward c s k) (h : ReachP c P s) :
    Solvent c s := by
  induction h with
  | init h => exact h.solvent
  | step h1 hs ih =>
    cases hs with
    | call k hk hp e => exact ih.on_call hc (h1.inv hc) hk (hP _ _ hp) e
    | env e => exact ih.on_env e

end Verif.Staking
