import Verif.Staking.Props
import Verif.Staking.Dist

/-! # Properties C70 - C76: amounts of stakes, fast unstakes, matching, caps, reserves, commission -/

set_option linter.unusedSimpArgs false
set_option linter.unusedVariables false

namespace Verif.Staking
open Verif

variable {c : Cfg} {s s' : State} {P : State → Call → Prop}

/-! ## Histories that meet the side conditions of the partial theorems -/

/-- All calls of a list pass a check in the state in which they are made. -/
def runOk (c : Cfg) (chk : State → Call → Bool) : State → List Call → Bool
  | _, [] => true
  | s, k :: ks => k.plain c && chk s k && runOk c chk (commit s (exec c s k)) ks

theorem run_reachP {chk : State → Call → Bool} (hchk : ∀ s k, chk s k = true → P s k) : ∀ {ks : List Call} {s : State},
    ReachP c P s → runOk c chk s ks = true → ReachP c P (run c s ks)
  | [], s, h, _ => h
  | k :: ks, s, h, hk => by
    simp only [runOk, Bool.and_eq_true] at hk
    have : ReachP c P (commit s (exec c s k)) := by
      rcases commit_cases s (exec c s k) with he | he
      · exact .step h (.call k (Call.plain_ok hk.1.1) (hchk _ _ hk.1.2) he)
      · rw [he.1]; exact h
    show ReachP c P (run c (commit s (exec c s k)) ks)
    exact run_reachP hchk this hk.2

theorem pass_reachP {d : Nat} {r : Nat → Option SLedger} (hc : c.Ok) (h : ReachP c P s)
    (hr : ∀ i l, r i = some l → l.Consistent) : ReachP c P (pass s d r) :=
  .step h (.env (pass_env (h.inv hc).wf hr))

/-- The decidable form of `FullRebond`. -/
def chkFull (c : Cfg) (s : State) : Call → Bool
  | .notify q true => match findReq s.reqs q with
    | some (.rebond i m) => decide (m ≤ lockedOf s i)
    | _ => true
  | .setLedger i n _ => decide (bonded c s + s.pool.stake.total + (n.total - totalOf s i) ≤ maxU128)
  | _ => true

theorem chkFull_ok (s : State) (k : Call) (h : chkFull c s k = true) : FullRebond c s k := by
  cases k <;> try trivial
  case notify q ok =>
    cases ok
    · trivial
    · intro i m hf
      simp only [chkFull, hf] at h
      exact of_decide_eq_true h
  case setLedger i n p =>
    simp only [chkFull, decide_eq_true_eq] at h
    exact h

/-- A rebond executed in full, then a reward of 1000. -/
def exF0 : State := run exC ex0 [.stake 7 10000, .stake 9 1000]
def exF1 : State := run exC (pass exF0 30 (fun _ => none)) [.onInit, .notify 0 true, .notify 1 true,
  .unstake 7 3000 .relay, .unstake 9 500 .loans]
def exF2 : State := run exC (pass exF1 100 (fun _ => none)) [.onInit]
def exF3 : State := run exC (pass exF2 30 (fun _ => none)) [.onInit, .notify 2 true, .setCap 100000, .stake 7 2200]
def exF4 : State := run exC (pass exF3 100 (fun _ => none)) [.onInit]
def exF5 : State := run exC (pass exF4 30 (fun _ => none)) [.onInit, .notify 3 true, .onFinalize]
def exF5Ledger : Nat → Option SLedger := fun i => if i = 1 then some ⟨5870, 5870, []⟩ else none
def exF6 : State := run exC (pass exF5 100 exF5Ledger) [.setLedger 1 ⟨5870, 5870, []⟩ true, .onInit]

theorem exF5Ledger_consistent : ∀ i l, exF5Ledger i = some l → l.Consistent := by
  intro i l h
  unfold exF5Ledger at h
  split at h
  · cases h; exact ⟨by decide, by decide⟩
  · cases h

theorem exF6_reach : ReachP exC (FullRebond exC) exF6 := by
  refine run_reachP chkFull_ok (pass_reachP exC_ok ?_ exF5Ledger_consistent) (by decide +kernel)
  refine run_reachP chkFull_ok (pass_reachP exC_ok ?_ none_consistent) (by decide +kernel)
  refine run_reachP chkFull_ok (pass_reachP exC_ok ?_ none_consistent) (by decide +kernel)
  refine run_reachP chkFull_ok (pass_reachP exC_ok ?_ none_consistent) (by decide +kernel)
  refine run_reachP chkFull_ok (pass_reachP exC_ok ?_ none_consistent) (by decide +kernel)
  refine run_reachP chkFull_ok (pass_reachP exC_ok ?_ none_consistent) (by decide +kernel)
  exact run_reachP chkFull_ok (.init ex0_fresh) (by decide +kernel)

/-- C62 and C63 are not vacuous: 9664 liquid tokens at rate 1.094 against 10573 staked, after a full rebond and a reward. -/
example : ReachP exC (FullRebond exC) exF6 ∧ exF6.rate = 1094060430463576158 ∧ exF6.tok.iss exC.liquid = 9664 ∧
    bonded exC exF6 = 10573 ∧ unbonding exC exF6 = 1297 := ⟨exF6_reach, by decide +kernel⟩
/-- Nor is the other partial form of C63, in a state in which C62 fails. -/
theorem exR2_fair : ReachP exC (FairReward exC) exR2 := by
  have hchk : ∀ s k, (match k with | .setLedger _ _ _ => false | _ => true) = true → FairReward exC s k := by
    intro s k h; cases k <;> trivial
  refine run_reachP hchk ?_ (by decide)
  refine run_reachP hchk (pass_reachP exC_ok ?_ none_consistent) (by decide)
  refine run_reachP hchk (pass_reachP exC_ok ?_ none_consistent) (by decide)
  refine run_reachP hchk ?_ (by decide)
  refine run_reachP hchk (pass_reachP exC_ok ?_ none_consistent) (by decide)
  refine run_reachP hchk (pass_reachP exC_ok ?_ none_consistent) (by decide)
  refine run_reachP hchk ?_ (by decide)
  refine run_reachP hchk ?_ (by decide)
  refine run_reachP hchk (pass_reachP exC_ok ?_ none_consistent) (by decide)
  refine run_reachP hchk (pass_reachP exC_ok ?_ none_consistent) (by decide)
  refine run_reachP hchk ?_ (by decide)
  refine run_reachP hchk ?_ (by decide)
  refine run_reachP hchk (pass_reachP exC_ok ?_ none_consistent) (by decide)
  exact run_reachP hchk (.init ex0_fresh) (by decide)

/-! ## C70 -/

/-- C70 (a): a stake takes exactly `m` staking tokens from the staker: the fee goes to the XCM account, the rest to the
pallet, which books the reserve factor's share as reserves and the net amount for bonding, and the staker gets the
net amount's worth of liquid tokens at the current rate, rounded down (by at most one unit plus the error of the
reciprocal of the rate). -/
theorem C70_stake_exact {w m : Nat} (hc : c.Ok) (hw : w ≠ c.acct) (hx : w ≠ c.xcmAcct) (e : stake c s w m = .ok s') :
    ∃ net q, net + m * s.rf / 1000000 + c.xcmFees = m ∧
      s'.tok.bal c.staking w + m = s.tok.bal c.staking w ∧
      s'.tok.bal c.staking c.acct = s.tok.bal c.staking c.acct + (m - c.xcmFees) ∧
      s'.tok.bal c.staking c.xcmAcct = s.tok.bal c.staking c.xcmAcct + c.xcmFees ∧
      s'.reserves = s.reserves + m * s.rf / 1000000 ∧
      s'.pool.stake.total = s.pool.stake.total + net ∧
      s'.tok.bal c.liquid w = s.tok.bal c.liquid w + q ∧ s'.tok.iss c.liquid = s.tok.iss c.liquid + q ∧
      s.rate * q ≤ net * DIV ∧ net * DIV * DIV < s.rate * ((q + 1) * DIV + net) := by
  obtain ⟨l1, l2, l3, q, _, hle, e1, e2, hq, _, e3, rfl⟩ := stake_view e
  refine ⟨m - c.xcmFees - pmulFloor s.rf m, q, ?_, ?_, ?_, ?_, rfl, rfl, ?_, ?_, toLiquid_le hq, ?_⟩
  · show m - c.xcmFees - pmulFloor s.rf m + pmulFloor s.rf m + c.xcmFees = m
    omega
  · have b1 := Ledger.transfer_bal e1 c.staking w
    have b2 := Ledger.transfer_bal e2 c.staking w
    have b3 := Ledger.mint_bal e3 c.staking w
    simp [hw, hx, hc.sl] at b1 b2 b3
    show l3.bal c.staking w + m = s.tok.bal c.staking w
    omega
  · have b1 := Ledger.transfer_bal e1 c.staking c.acct
    have b2 := Ledger.transfer_bal e2 c.staking c.acct
    have b3 := Ledger.mint_bal e3 c.staking c.acct
    simp [hw.symm, hc.xcm, hc.sl] at b1 b2 b3
    show l3.bal c.staking c.acct = s.tok.bal c.staking c.acct + _
    omega
  · have b1 := Ledger.transfer_bal e1 c.staking c.xcmAcct
    have b2 := Ledger.transfer_bal e2 c.staking c.xcmAcct
    have b3 := Ledger.mint_bal e3 c.staking c.xcmAcct
    simp [hx.symm, hc.xcm.symm, hc.sl] at b1 b2 b3
    show l3.bal c.staking c.xcmAcct = s.tok.bal c.staking c.xcmAcct + _
    omega
  · have b1 := Ledger.transfer_bal e1 c.liquid w
    have b2 := Ledger.transfer_bal e2 c.liquid w
    have b3 := Ledger.mint_bal e3 c.liquid w
    simp [hc.sl.symm] at b1 b2 b3
    show l3.bal c.liquid w = s.tok.bal c.liquid w + _
    omega
  · have i3 := Ledger.mint_iss e3 c.liquid
    rw [if_pos rfl, Ledger.transfer_iss e2, Ledger.transfer_iss e1] at i3
    exact i3
  · obtain ⟨h0, _, _, rfl⟩ := toLiquid_ok.1 hq
    generalize m - c.xcmFees - pmulFloor s.rf m = n
    have hD : 0 < DIV := DIV_pos
    generalize DIV = D at *
    have h1 : D * D / s.rate * n < (D * D / s.rate * n / D + 1) * D := by
      exact (Nat.lt_mul_div_succ _ hD).trans_eq (Nat.mul_comm _ _)
    have h2 : D * D < s.rate * (D * D / s.rate + 1) := Nat.lt_mul_div_succ _ (by omega)
    by_cases hn : n = 0
    · subst hn
      simp only [Nat.zero_mul, Nat.mul_zero, Nat.zero_div, Nat.add_zero, Nat.zero_add, Nat.one_mul]
      positivity
    · generalize D * D / s.rate * n / D = z at *
      calc n * D * D = n * (D * D) := by ring
        _ < n * (s.rate * (D * D / s.rate + 1)) := Nat.mul_lt_mul_of_pos_left h2 (by omega)
        _ = s.rate * (D * D / s.rate * n + n) := by ring
        _ ≤ s.rate * ((z + 1) * D + n) := Nat.mul_le_mul_left _ (by omega)

/-- C70 (b): staking and unstaking all that was minted, while the rate is the same, never promises more than the net
amount staked. -/
theorem C70_no_profit {w v m q n : Nat} {p : Provider} {s1 s2 : State} (hc : c.Ok) (hw : w ≠ c.acct)
    (e : stake c s w m = .ok s') (hq : s'.tok.iss c.liquid = s.tok.iss c.liquid + q)
    (h1 : s1.rate = s.rate) (hp : p ≠ .pool) (hv : v ≠ c.acct) (hn : n ≤ q) (e2 : unstake c s1 v n p = .ok s2) :
    owed s2 (unlockKey c v p) ≤ owed s1 (unlockKey c v p) + (m - c.xcmFees - m * s.rf / 1000000) := by
  obtain ⟨q', hq', _, _, hi, _⟩ := stake_eff hc hw e
  have : q' = q := by omega
  subst this
  have h2 := toLiquid_le hq'
  obtain ⟨_, _, _, ⟨h, _⟩ | ⟨_, e2⟩⟩ := unstake_view e2
  · exact absurd h hp
  · obtain ⟨hf, _⟩ := unstakeSlow_eff hc hv e2
    have ho := owed_upd s1 _ _ s2 (by rw [hf]) (unlockKey c v p)
    rw [if_pos rfl] at ho
    rw [ho]
    simp only [Option.getD_some]
    refine (pushChunk_sum_le _ _ _).trans ?_
    have h3 : s1.rate * (n - pmulFloor s1.urf n) / DIV ≤ m - c.xcmFees - pmulFloor s.rf m := by
      refine (Nat.div_le_div_right (c := DIV) ?_).trans (Nat.le_of_eq (Nat.mul_div_cancel _ DIV_pos))
      rw [h1]
      exact (Nat.mul_le_mul_left _ (by omega)).trans h2
    have h4 : pmulFloor s.rf m = m * s.rf / 1000000 := rfl
    rw [h4] at h3
    exact Nat.add_le_add_left h3 _

example : okAnd (stake exC ex0 7 10000) (fun t => t.tok.bal 5 7 == 9890 && t.reserves == 100) = true := by decide +kernel
example : okAnd (stake exC exF6 7 10000) (fun t => t.tok.iss 5 == 18703) = true := by decide +kernel

/-! ## C71 -/

/-- C71 (a): what fast unstaking does for one account with a pending request of `b`: of the request, capped by the
account's liquid tokens and by what the unlocked pooled stake is worth, `k` tokens are matched; the fee goes to the
fee receiver, the rest is burnt and paid for at the current rate from the pool, and the unmatched rest stays
requested. -/
theorem C71_fast_exact {w b : Nat} (hc : c.Ok) (hw : w ≠ c.acct) (hf : w ≠ c.feeRecv) (hb : s.fast w = some b)
    (e : fastMatch c s w = .ok s') :
    ∃ worth k fee, toLiquid s.rate (s.pool.stake.total - s.pool.stake.reserved) = .ok worth ∧
      k = min (min b (s.tok.bal c.liquid w)) worth ∧ fee = min maxU128 (c.fastFee * k / DIV) ∧
      s'.tok.bal c.liquid w + (k - fee) + fee = s.tok.bal c.liquid w ∧
      s'.tok.bal c.liquid c.feeRecv = s.tok.bal c.liquid c.feeRecv + fee ∧
      s'.tok.bal c.staking w = s.tok.bal c.staking w + s.rate * (k - fee) / DIV ∧
      s'.tok.bal c.staking c.acct + s.rate * (k - fee) / DIV = s.tok.bal c.staking c.acct ∧
      s'.pool.stake.total + s.rate * (k - fee) / DIV = s.pool.stake.total ∧
      s'.pool.stake.reserved = s.pool.stake.reserved ∧ s'.pool.unstake = s.pool.unstake ∧
      (s'.fast w).getD 0 = min b (s.tok.bal c.liquid w) - k ∧ ∀ v, v ≠ w → s'.fast v = s.fast v := by
  rcases fastMatch_view e with ⟨h, _⟩ | ⟨b', q, a, s1, h1, rfl, hle, ha, hs, rfl⟩
  · rw [hb] at h; cases h
  · rw [hb] at h1
    cases h1
    have hrest : ∀ x, ((restOf x).getD 0) = x := by
      intro x; unfold restOf; split_ifs with h <;> simp [h]
    refine ⟨a, _, _, ha, rfl, rfl, ?_⟩
    have hfx : ∀ k, min maxU128 (c.fastFee * k / DIV) = fixSatMul c.fastFee k := fun k => rfl
    have hlast : (({ s1 with fast := upd s.fast w (restOf (min b (s.tok.bal c.liquid w) -
          min (min b (s.tok.bal c.liquid w)) a)) } : State).fast w).getD 0 =
          min b (s.tok.bal c.liquid w) - min (min b (s.tok.bal c.liquid w)) a ∧
        ∀ v, v ≠ w → ({ s1 with fast := upd s.fast w (restOf (min b (s.tok.bal c.liquid w) -
          min (min b (s.tok.bal c.liquid w)) a)) } : State).fast v = s.fast v := by
      refine ⟨?_, fun v hv => upd_of_ne _ _ hv⟩
      simp only [upd_same]
      exact hrest _
    simp only [hfx]
    generalize min (min b (s.tok.bal c.liquid w)) a = k at *
    unfold trySettle at hs
    split at hs
    · cases hs
      rename_i hk
      have : fixSatMul c.fastFee k = 0 := by rw [hk]; simp [fixSatMul]
      rw [this, hk]
      rw [hk] at hlast
      simp only [Nat.zero_sub, Nat.mul_zero, Nat.zero_div, Nat.add_zero, Nat.sub_zero] at hlast ⊢
      refine ⟨?_, ?_, ?_, ?_, ?_, ?_, ?_, hlast.1, hlast.2⟩ <;> trivial
    · obtain ⟨l1, l2, l3, e1, e2, hh, e3, rfl⟩ := settleFast_view hs
      generalize fixSatMul c.fastFee k = f at *
      have x1 := Ledger.burn_bal e1 c.liquid w
      have x2 := Ledger.transfer_bal e2 c.liquid w
      have x3 := Ledger.transfer_bal e3 c.liquid w
      have y1 := Ledger.burn_bal e1 c.liquid c.feeRecv
      have y2 := Ledger.transfer_bal e2 c.liquid c.feeRecv
      have y3 := Ledger.transfer_bal e3 c.liquid c.feeRecv
      have z1 := Ledger.burn_bal e1 c.staking w
      have z2 := Ledger.transfer_bal e2 c.staking w
      have z3 := Ledger.transfer_bal e3 c.staking w
      have u1 := Ledger.burn_bal e1 c.staking c.acct
      have u2 := Ledger.transfer_bal e2 c.staking c.acct
      have u3 := Ledger.transfer_bal e3 c.staking c.acct
      simp [hw, hf, hf.symm, hw.symm, hc.sl, hc.sl.symm] at x1 x2 x3 y1 y2 y3 z1 z2 z3 u1 u2 u3
      refine ⟨?_, ?_, ?_, ?_, ?_, rfl, rfl, hlast.1, hlast.2⟩
      · show l3.bal c.liquid w + _ + _ = _; omega
      · show l3.bal c.liquid c.feeRecv = _; omega
      · show l3.bal c.staking w = _; omega
      · show l3.bal c.staking c.acct + _ = _; omega
      · show s.pool.stake.total - _ + _ = _; omega

/-- C71 (b): after any history fast unstaking of an account cannot fail for lack of funds or of pooled stake: only an
unrepresentable value of the pool stops it. -/
theorem C71_fast_succeeds {w a : Nat} (hc : c.Ok) (h : ReachP c P s) (hfee : c.fastFee ≤ DIV)
    (ha : toLiquid s.rate (s.pool.stake.total - s.pool.stake.reserved) = .ok a) : ∃ s', fastMatch c s w = .ok s' := by
  have hi := h.inv hc
  unfold fastMatch
  cases hb : s.fast w with
  | none => exact ⟨_, rfl⟩
  | some b =>
    simp only [fastMatchOf, reducible_false]
    rw [Half.free_ok.2 ⟨hi.sle, rfl⟩]
    simp only [ok_bind]
    rw [ha]
    simp only [ok_bind]
    have hk1 : min (min b (s.tok.bal c.liquid w)) a ≤ s.tok.bal c.liquid w :=
      (Nat.min_le_left _ _).trans (Nat.min_le_right _ _)
    have hk2 : min (min b (s.tok.bal c.liquid w)) a ≤ a := Nat.min_le_right _ _
    generalize hk : min (min b (s.tok.bal c.liquid w)) a = k at *
    suffices hs : ∃ s1, trySettle c s w k = .ok s1 by
      obtain ⟨s1, hs⟩ := hs
      rw [hs]
      exact ⟨_, rfl⟩
    unfold trySettle
    split
    · exact ⟨_, rfl⟩
    · have hf : fixSatMul c.fastFee k ≤ k := by
        unfold fixSatMul
        refine (Nat.min_le_right _ _).trans ?_
        refine Nat.div_le_of_le_mul ?_
        exact Nat.mul_le_mul_right _ hfee
      unfold settleFast
      simp only
      generalize fixSatMul c.fastFee k = f at *
      obtain ⟨l1, h1⟩ := Ledger.burn_succeeds (l := s.tok) (a := c.liquid) (w := w) (m := k - f) (by omega)
      have x1 := Ledger.burn_bal h1 c.liquid w
      simp only [true_and, if_true] at x1
      obtain ⟨l2, h2⟩ := Ledger.transfer_succeeds (l := l1) (a := c.liquid) (s := w) (d := c.feeRecv) (m := f) (k := false)
        (by omega) (by simp)
      have hle := toLiquid_le ha
      have hm : s.rate * (k - f) / DIV ≤ s.pool.stake.total - s.pool.stake.reserved := by
        refine (Nat.div_le_div_right (c := DIV) ?_).trans (Nat.le_of_eq (Nat.mul_div_cancel _ DIV_pos))
        exact (Nat.mul_le_mul_left _ (by omega)).trans hle
      have hb1 := Ledger.bal_le_iss hi.wf c.staking c.acct
      have hb2 := (hi.wf c.staking).2
      have hb3 := hi.solv
      have hb4 := hi.sle
      have hh : held c s = s.tok.bal c.staking c.acct := rfl
      have z1 := Ledger.burn_bal h1 c.staking c.acct
      have z2 := Ledger.transfer_bal h2 c.staking c.acct
      simp [hc.sl] at z1 z2
      obtain ⟨l3, h3⟩ := Ledger.transfer_succeeds (l := l2) (a := c.staking) (s := c.acct) (d := w)
        (m := s.rate * (k - f) / DIV) (k := false) (by omega) (by simp)
      rw [h1]
      simp only [ok_bind]
      rw [h2]
      simp only [ok_bind]
      rw [toStaking_ok.2 ⟨by omega, rfl⟩]
      simp only [ok_bind]
      rw [Half.sub_of (by omega)]
      simp only [ok_bind]
      rw [h3]
      exact ⟨_, rfl⟩

/-- C71 (c): it touches the requests and liquid tokens of the listed accounts and the fee receiver only. -/
theorem C71_fast_frame {ws : List Nat} {v : Nat} (hc : c.Ok) (hv : v ∉ ws) (e : fastMatchAll c s ws = .ok s') :
    s'.fast v = s.fast v ∧ (v ≠ c.feeRecv → s'.tok.bal c.liquid v = s.tok.bal c.liquid v) := by
  induction ws generalizing s with
  | nil => simp only [fastMatchAll] at e; cases e; exact ⟨rfl, fun _ => rfl⟩
  | cons w ws ih =>
    simp only [fastMatchAll, bind_ok_iff] at e
    obtain ⟨s1, e1, e2⟩ := e
    simp only [List.mem_cons, not_or] at hv
    obtain ⟨i1, i2⟩ := ih hv.2 e2
    suffices h : s1.fast v = s.fast v ∧ (v ≠ c.feeRecv → s1.tok.bal c.liquid v = s.tok.bal c.liquid v) from
      ⟨i1.trans h.1, fun hf => (i2 hf).trans (h.2 hf)⟩
    rcases fastMatch_view e1 with ⟨_, rfl⟩ | ⟨b, q, a, s2, _, _, _, _, e3, rfl⟩
    · exact ⟨rfl, fun _ => rfl⟩
    · refine ⟨upd_of_ne _ _ hv.1, fun hf => ?_⟩
      show s2.tok.bal c.liquid v = _
      unfold trySettle at e3
      split at e3
      · cases e3; rfl
      · obtain ⟨l1, l2, l3, h1, h2, _, h3, rfl⟩ := settleFast_view e3
        have x1 := Ledger.burn_bal h1 c.liquid v
        have x2 := Ledger.transfer_bal h2 c.liquid v
        have x3 := Ledger.transfer_bal h3 c.liquid v
        simp [hv.1, hf, hc.sl.symm] at x1 x2 x3
        show l3.bal c.liquid v = _
        omega

/-- In `ex3` user 9 has asked for a fast unstake of 198; after another stake it is matched. -/
example : ex3.fast 9 = some 198 ∧ okAnd (fastMatch exC (run exC ex3 [.setCap 100000, .stake 7 500]) 9)
    (fun t => t.tok.bal 1 9 == ex3.tok.bal 1 9 + 197 && (t.fast 9).isNone && t.tok.bal 5 202 == 1) = true := by
  decide +kernel

/-! ## C72 -/

/-- C72 (a): after any history the matching of the pool succeeds; it nets the free stake against the free unstake, and
what is left over is either unbonded, or rebonded as far as something is unbonding and bonded beyond that. -/
theorem C72_matching (hc : c.Ok) (h : ReachP c P s) (locked : Nat) :
    ∃ b r u, s.pool.matching locked = .ok (b, r, u) ∧
      (s.pool.stake.total - s.pool.stake.reserved) + u = (s.pool.unstake.total - s.pool.unstake.reserved) + b + r ∧
      (u = 0 ∨ b + r = 0) ∧ r ≤ locked ∧ (b ≠ 0 → r = locked) := by
  have hi := h.inv hc
  unfold Pool.matching
  rw [Half.free_ok.2 ⟨hi.sle, rfl⟩]
  simp only [ok_bind]
  rw [Half.free_ok.2 ⟨hi.ule, rfl⟩]
  simp only [ok_bind]
  generalize s.pool.stake.total - s.pool.stake.reserved = fs
  generalize s.pool.unstake.total - s.pool.unstake.reserved = fu
  unfold split
  split_ifs
  · exact ⟨_, _, _, rfl, by omega, by omega, by omega, by omega⟩
  · exact ⟨_, _, _, rfl, by omega, by omega, by omega, by omega⟩
  · exact ⟨_, _, _, rfl, by omega, by omega, by omega, by omega⟩

/-- The ledgers and caps stay, and exactly the requests `rs` are added. -/
structure Sends (s s' : State) (rs : List Req) : Prop where
  ledgers : s'.ledgers = s.ledgers
  cap : s'.cap = s.cap
  era : s'.era = s.era
  reqs : s'.reqs.map Prod.snd = s.reqs.map Prod.snd ++ rs

theorem Sends.refl (s : State) : Sends s s [] := ⟨rfl, rfl, rfl, by simp⟩
theorem Sends.trans {s1 s2 s3 : State} {r1 r2 : List Req} (h1 : Sends s1 s2 r1) (h2 : Sends s2 s3 r2) :
    Sends s1 s3 (r1 ++ r2) :=
  ⟨h2.ledgers.trans h1.ledgers, h2.cap.trans h1.cap, h2.era.trans h1.era, by rw [h2.reqs, h1.reqs, List.append_assoc]⟩
theorem send_sends {p : Pool} {r : Req} (h : send c { s with pool := p } r = .ok s') : Sends s s' [r] := by
  obtain ⟨l, hl, rfl⟩ := send_view h
  exact ⟨rfl, rfl, rfl, by simp⟩

/-- The request that bonds: the first time for a derivative account `bond`, then `bond_extra`. -/
def bondReq (s : State) (d : Nat × Nat) : Req := if (s.ledgers d.1).isSome then .bondExtra d.1 d.2 else .bond d.1 d.2

theorem doBond_sends {i m : Nat} (h0 : 0 < m) (h : doBond c s i m = .ok s') : Sends s s' [bondReq s (i, m)] := by
  unfold doBond at h
  rw [if_neg (by omega)] at h
  unfold bondReq
  split at h
  · rename_i hb
    unfold doBondExtra at h
    rw [if_neg (by omega)] at h
    simp only [bind_ok_iff, ensure_ok_iff, exists_const, ensureLedgerCap] at h
    obtain ⟨_, _, _, _, _, h⟩ := h
    rw [if_pos hb]
    exact send_sends h
  · rename_i hb
    simp only [bind_ok_iff, ensure_ok_iff, exists_const, ensureLedgerCap] at h
    obtain ⟨_, _, _, _, _, h⟩ := h
    rw [if_neg hb]
    exact send_sends h

theorem doUnbond_sends {i m : Nat} (h0 : 0 < m) (h : doUnbond c s i m = .ok s') : Sends s s' [.unbond i m] := by
  unfold doUnbond at h
  rw [if_neg (by omega)] at h
  simp only [bind_ok_iff, ensure_ok_iff, exists_const, okOr_ok_iff] at h
  obtain ⟨hi, _, hb, _, _, hh, he, h⟩ := h
  exact send_sends h

theorem doRebond_sends {i m : Nat} (h0 : 0 < m) (h : doRebond c s i m = .ok s') : Sends s s' [.rebond i m] := by
  unfold doRebond at h
  rw [if_neg (by omega)] at h
  simp only [bind_ok_iff, ensure_ok_iff, exists_const] at h
  obtain ⟨hi, hb, hh, he, h⟩ := h
  exact send_sends h

/-- What a derivative account can withdraw now. -/
def withdrawable (s : State) (i : Nat) : Bool := decide (unbondedOf s i ≠ 0)

theorem doWithdraw_sends {i : Nat} (h : doWithdraw c s i = .ok s') :
    Sends s s' (if withdrawable s i then [.withdraw i] else []) := by
  unfold doWithdraw at h
  unfold withdrawable
  split at h
  · rename_i h0
    cases h
    simp only [h0, ne_eq, not_true_eq_false, decide_false, Bool.false_eq_true, if_false]
    exact .refl _
  · rename_i h0
    simp only [bind_ok_iff, ensure_ok_iff, exists_const] at h
    obtain ⟨_, _, h⟩ := h
    simp only [h0, ne_eq, not_false_eq_true, decide_true, if_true]
    exact send_sends (p := s.pool) h

theorem forEach_sends {α : Type} {f : State → α → R State} {s0 : State} {g : α → List Req} : ∀ {xs : List α} {s s' : State},
    forEach f s xs = .ok s' → s.ledgers = s0.ledgers → s.era = s0.era →
    (∀ s s' x, x ∈ xs → s.ledgers = s0.ledgers → s.era = s0.era → f s x = .ok s' → Sends s s' (g x)) →
    Sends s s' (xs.flatMap g)
  | [], s, s', h, _, _, _ => by simp only [forEach] at h; cases h; exact .refl _
  | x :: xs, s, s', h, hl, he, hf => by
    simp only [forEach, bind_ok_iff] at h
    obtain ⟨s1, h1, h2⟩ := h
    have a := hf _ _ _ List.mem_cons_self hl he h1
    have b := forEach_sends h2 (a.ledgers.trans hl) (a.era.trans he) (fun s s' y hy => hf s s' y (List.mem_cons_of_mem _ hy))
    rw [List.flatMap_cons]
    exact a.trans b

theorem strategy_bond_zero (st : Strategy) (xs : List (Nat × Nat × Nat)) (cap mb : Nat) : st.bond xs 0 cap mb = [] := by
  cases st
  · simp [Strategy.bond, avgBond]
  · show maxMinBondGo cap mb 0 _ = []
    generalize xs.insertionSort (fun a b => a.2.1 ≤ b.2.1) = ys
    cases ys <;> simp [maxMinBondGo]
theorem strategy_unbond_zero (st : Strategy) (xs : List (Nat × Nat)) (mb : Nat) : st.unbond xs 0 mb = [] := by
  cases st
  · simp [Strategy.unbond, avgUnbond]
  · show maxMinTakeGo mb 0 _ = []
    generalize xs.insertionSort (fun a b => b.2 ≤ a.2) = ys
    cases ys <;> simp [maxMinTakeGo]
theorem avgRebondGo_zero : ∀ xs : List (Nat × Nat), avgRebondGo 0 xs = []
  | [] => rfl
  | x :: xs => by simp [avgRebondGo, avgRebondGo_zero xs]
theorem strategy_rebond_zero (st : Strategy) (xs : List (Nat × Nat)) : st.rebond xs 0 = [] := by
  cases st
  · simp [Strategy.rebond, avgRebond, avgRebondGo_zero]
  · show maxMinTakeGo 0 0 _ = []
    generalize xs.insertionSort (fun a b => b.2 ≤ a.2) = ys
    cases ys <;> simp [maxMinTakeGo]

theorem bond_pos (st : Strategy) {xs : List (Nat × Nat × Nat)} {input cap mb : Nat} {d : Nat × Nat}
    (h : d ∈ st.bond xs input cap mb) : 0 < d.2 := by
  cases st
  · obtain ⟨_, _, _, h, _⟩ := avgBond_mem h; exact h
  · obtain ⟨_, _, _, h, _⟩ := maxMinBondGo_mem h; exact h
theorem unbond_pos (st : Strategy) {xs : List (Nat × Nat)} {input mb : Nat} {d : Nat × Nat}
    (h : d ∈ st.unbond xs input mb) : 0 < d.2 := by
  cases st
  · obtain ⟨_, _, h, _⟩ := avgUnbond_mem h; exact h
  · obtain ⟨_, _, h, _⟩ := maxMinTakeGo_mem h; exact h
theorem rebond_pos (st : Strategy) {xs : List (Nat × Nat)} {input : Nat} {d : Nat × Nat}
    (h : d ∈ st.rebond xs input) : 0 < d.2 := by
  cases st
  · obtain ⟨_, _, h, _⟩ := avgRebondGo_mem h; exact h
  · obtain ⟨_, _, h, _⟩ := maxMinTakeGo_mem h; exact h

/-- C72 (b): the era's matching sends exactly these requests: the configured distributions of the amounts to bond, to
rebond and to unbond, and a withdrawal for each derivative account with something to withdraw. -/
theorem C72_requests (e : doMatching c s = .ok s') : ∃ b r u,
    s.pool.matching (totalUnbonding c s) = .ok (b, r, u) ∧
    s'.reqs.map Prod.snd = s.reqs.map Prod.snd ++
      ((c.strategy.bond (c.indices.map (fun i => (i, activeOf s i, totalOf s i))) b s.cap c.minBond).map (bondReq s) ++
       ((c.strategy.rebond (c.indices.map (fun i => (i, unbondingOf s i))) r).map (fun d => Req.rebond d.1 d.2) ++
        ((c.strategy.unbond (c.indices.map (fun i => (i, activeOf s i))) u c.minBond).map (fun d => Req.unbond d.1 d.2) ++
         (c.indices.filter (fun i => (s.ledgers i).isSome && withdrawable s i)).map Req.withdraw))) := by
  simp only [doMatching, bind_ok_iff] at e
  obtain ⟨⟨b, r, u⟩, hm, s1, h1, s2, h2, s3, h3, h4⟩ := e
  refine ⟨b, r, u, hm, ?_⟩
  have hact : ∀ t : State, t.ledgers = s.ledgers → (activeOf t = activeOf s ∧ totalOf t = totalOf s ∧
      unbondingOf t = unbondingOf s ∧ (t.era = s.era → unbondedOf t = unbondedOf s)) := by
    intro t ht
    refine ⟨?_, ?_, ?_, ?_⟩
    · funext i; unfold activeOf; rw [ht]
    · funext i; unfold totalOf; rw [ht]
    · funext i; unfold unbondingOf; rw [ht]
    · intro he; funext i; unfold unbondedOf; rw [ht, he]
  have a1 : Sends s s1 ((c.strategy.bond (c.indices.map (fun i => (i, activeOf s i, totalOf s i))) b s.cap c.minBond).map
      (bondReq s)) := by
    unfold multiBond at h1
    split at h1
    · rename_i hb
      simp only at hb
      cases h1
      rw [hb, strategy_bond_zero]
      exact ⟨rfl, rfl, rfl, by simp⟩
    · have := forEach_sends (s0 := s) (g := fun d => [bondReq s d]) h1 rfl rfl (fun t t' d hd hl _ h => by
        have := doBond_sends (bond_pos _ hd) h
        have hb : bondReq t (d.1, d.2) = bondReq s d := by unfold bondReq; simp only; rw [hl]
        rw [hb] at this
        exact this)
      rw [← List.map_eq_flatMap] at this
      exact ⟨this.ledgers, this.cap, this.era, this.reqs⟩
  obtain ⟨k1, k2, k3, k4⟩ := hact s1 a1.ledgers
  have a2 : Sends s1 s2 ((c.strategy.rebond (c.indices.map (fun i => (i, unbondingOf s i))) r).map
      (fun d => Req.rebond d.1 d.2)) := by
    unfold multiRebond at h2
    split at h2
    · rename_i hb
      simp only at hb
      cases h2
      rw [hb, strategy_rebond_zero]
      exact .refl _
    · rw [k3] at h2
      have := forEach_sends (s0 := s1) (g := fun d => [Req.rebond d.1 d.2]) h2 rfl rfl
        (fun t t' d hd hl _ h => doRebond_sends (rebond_pos _ hd) h)
      rw [← List.map_eq_flatMap] at this
      exact this
  obtain ⟨k1', k2', k3', k4'⟩ := hact s2 (a2.ledgers.trans a1.ledgers)
  have a3 : Sends s2 s3 ((c.strategy.unbond (c.indices.map (fun i => (i, activeOf s i))) u c.minBond).map
      (fun d => Req.unbond d.1 d.2)) := by
    unfold multiUnbond at h3
    split at h3
    · rename_i hb
      simp only at hb
      cases h3
      rw [hb, strategy_unbond_zero]
      exact .refl _
    · rw [k1'] at h3
      have := forEach_sends (s0 := s2) (g := fun d => [Req.unbond d.1 d.2]) h3 rfl rfl
        (fun t t' d hd hl _ h => doUnbond_sends (unbond_pos _ hd) h)
      rw [← List.map_eq_flatMap] at this
      exact this
  have hl3 := a3.ledgers.trans (a2.ledgers.trans a1.ledgers)
  have he3 := a3.era.trans (a2.era.trans a1.era)
  have a4 : Sends s3 s' ((c.indices.filter (fun i => (s.ledgers i).isSome && withdrawable s i)).map Req.withdraw) := by
    unfold multiWithdraw at h4
    rw [hl3] at h4
    have := forEach_sends (s0 := s3) (g := fun i => if withdrawable s i then [Req.withdraw i] else []) h4 rfl rfl
      (fun t t' i _ hl he h => by
        have hw := doWithdraw_sends h
        have hb : withdrawable t i = withdrawable s i := by
          unfold withdrawable
          rw [(hact t (hl.trans hl3)).2.2.2 (he.trans he3)]
        rw [hb] at hw
        exact hw)
    have hfm : ∀ xs : List Nat, (xs.filter (fun i => (s.ledgers i).isSome)).flatMap
        (fun i => if withdrawable s i then [Req.withdraw i] else []) =
        (xs.filter (fun i => (s.ledgers i).isSome && withdrawable s i)).map Req.withdraw := by
      intro xs
      induction xs with
      | nil => rfl
      | cons x xs ih =>
        cases h1 : (s.ledgers x).isSome <;> cases h2 : withdrawable s x <;>
          simp [List.filter_cons, h1, h2] <;> simpa using ih
    rw [hfm] at this
    exact this
  exact (a1.trans (a2.trans (a3.trans a4))).reqs

example : Reach exC ex2 ∧ okAnd (doMatching exC (run exC ex2 [.unstake 7 3000 .relay]))
    (fun t => t.reqs.map Prod.snd == [.unbond 0 2970]) = true := ⟨ex2_reach, by decide +kernel⟩
example : Reach exC ex4 ∧ okAnd (doMatching exC (run exC ex4 [.setCap 100000, .stake 7 5000]))
    (fun t => t.reqs.map Prod.snd == [.bondExtra 0 1475, .rebond 0 3465]) = true := ⟨ex4_reach, by decide +kernel⟩

/-! ## C74 -/

/-- C74, statement: a stake is accepted only if everything bonded or pooled for bonding stays within the market cap. -/
def C74_statement : Prop := ∀ (c : Cfg), c.Ok → ∀ s, Reach c s → ∀ w m s', w ≠ c.acct → stake c s w m = .ok s' →
  (c.indices.map (totalOf s')).sum + s'.pool.stake.total ≤ s'.cap * c.indices.length

/-- C74 fails: what is pooled and not yet bonded is not counted. -/
theorem C74_refuted : ¬ C74_statement := by
  intro h
  have h1 : okAnd (stake exC (run exC ex0 [.stake 7 10000]) 7 10000) (fun s' =>
      decide (¬ (exC.indices.map (totalOf s')).sum + s'.pool.stake.total ≤ s'.cap * exC.indices.length)) = true := by
    decide +kernel
  obtain ⟨s', h2, h3⟩ := okAnd_iff.1 h1
  have := h exC exC_ok _ (run_reach (ks := [.stake 7 10000]) ex0_reach (by decide)) 7 10000 s' (by decide) h2
  exact of_decide_eq_true h3 this

/-- C74, partial: everything bonded plus this stake stays within the market cap (if the totals fit `u128`). -/
theorem C74_market_cap_partial {w m : Nat} (e : stake c s w m = .ok s')
    (hfit : (c.indices.map (totalOf s)).sum + m < maxU128) :
    (c.indices.map (totalOf s)).sum + (m - c.xcmFees - m * s.rf / 1000000) ≤ s.cap * c.indices.length := by
  obtain ⟨_, _, _, _, _, hle, _, _, _, hcap, _⟩ := stake_view e
  have h1 : totalBonded c s = min maxU128 ((c.indices.map (totalOf s)).sum) := satSum_eq _ _
  rw [h1] at hcap
  unfold satAdd marketCap at hcap
  have h4 : pmulFloor s.rf m = m * s.rf / 1000000 := rfl
  rw [h4] at hcap hle
  generalize m * s.rf / 1000000 = r at *
  generalize s.cap * c.indices.length = z at *
  omega

/-- C74, partial: no request to bond goes above the cap of a derivative account. -/
theorem C74_bond_cap_partial {i m : Nat} (h0 : m ≠ 0) (e : doBond c s i m = .ok s') (hfit : totalOf s i + m < maxU128 ∨ s.cap < maxU128) :
    totalOf s i + m ≤ s.cap := by
  unfold doBond at e
  rw [if_neg h0] at e
  split at e
  · unfold doBondExtra at e
    rw [if_neg h0] at e
    simp only [bind_ok_iff, ensure_ok_iff, exists_const, ensureLedgerCap] at e
    have := e.2.2.1
    unfold satAdd at this
    omega
  · simp only [bind_ok_iff, ensure_ok_iff, exists_const, ensureLedgerCap] at e
    have := e.2.2.1
    unfold satAdd at this
    omega

example : okAnd (stake exC ex0 7 10000) (fun _ => true) = true ∧ errIs (stake exC ex0 7 20000) .capExceeded = true := by
  decide +kernel

/-! ## C75 -/

/-- C75, statement: after any history the pallet's account holds the unstake reserves, in liquid tokens. -/
def C75_statement : Prop := ∀ (c : Cfg), c.Ok → ∀ s, Reach c s → s.ureserves ≤ s.tok.bal c.liquid c.acct

/-- C75 fails: an unstake through the matching pool is charged the reserve in the books, but no tokens are taken. -/
theorem C75_refuted : ¬ C75_statement := by
  intro h
  have := h exC exC_ok _ (run_reach (ks := [.unstake 7 5000 .pool]) ex2_reach (by decide))
  revert this
  decide +kernel

/-- Unstakes through the matching pool are not charged a reserve. -/
def NoPoolFee (s : State) : Call → Prop
  | .unstake _ q .pool => pmulFloor s.urf q = 0
  | _ => True

theorem applyReq_liquid {r : Req} (hc : c.Ok) (e : applyReq c s r = .ok s') (w : Nat) :
    s'.tok.bal c.liquid w = s.tok.bal c.liquid w := by
  cases r <;> simp only [applyReq, applyWithdraw, bind_ok_iff, ensure_ok_iff, exists_const, pure_ok_iff,
    okOr_ok_iff] at e
  · obtain ⟨_, _, _, l, hl, rfl⟩ := e
    have := Ledger.burn_bal hl c.liquid w
    simp [hc.sl.symm] at this
    exact this
  · obtain ⟨_, e0, _, _, l, hl, rfl⟩ := e
    obtain ⟨_, _, _, _, rfl⟩ := updLedger_view e0
    have := Ledger.burn_bal hl c.liquid w
    simp [hc.sl.symm] at this
    exact this
  · obtain ⟨_, _, _, e0, _, _, rfl⟩ := e
    obtain ⟨_, _, _, _, rfl⟩ := updLedger_view e0; rfl
  · obtain ⟨_, e0, _, _, rfl⟩ := e
    obtain ⟨_, _, _, _, rfl⟩ := updLedger_view e0; rfl
  · obtain ⟨_, _, l, hl, e0⟩ := e
    obtain ⟨_, _, _, _, rfl⟩ := updLedger_view e0
    have := Ledger.mint_bal hl c.liquid w
    simp [hc.sl.symm] at this
    exact this
  · cases e; rfl

/-- The invariant of C75. -/
structure URes (c : Cfg) (s : State) : Prop where
  fast : s.fast c.acct = none
  held : s.ureserves ≤ s.tok.bal c.liquid c.acct

theorem URes.congr (h : URes c s) (h1 : s'.fast c.acct = s.fast c.acct) (h2 : s'.ureserves = s.ureserves)
    (h3 : s.tok.bal c.liquid c.acct ≤ s'.tok.bal c.liquid c.acct) : URes c s' :=
  ⟨h1.trans h.fast, by rw [h2]; exact h.held.trans h3⟩

theorem URes.on_sent (hc : c.Ok) (h : URes c s) (e : Sent c s s') : URes c s' :=
  h.congr (by rw [e.frame]) (by rw [e.frame]) (Nat.le_of_eq (e.bal _ _ (.inl hc.sl.symm)).symm)

theorem URes.on_call {k : Call} (hc : c.Ok) (hi : Inv c s) (h : URes c s) (hk : k.ok c s) (hp : NoPoolFee s k)
    (e : exec c s k = .ok s') : URes c s' := by
  cases k <;> simp only [exec] at e
  case stake w m =>
    obtain ⟨l1, l2, l3, q, _, _, e1, e2, _, _, e3, rfl⟩ := stake_view e
    have b1 := Ledger.transfer_bal e1 c.liquid c.acct
    have b2 := Ledger.transfer_bal e2 c.liquid c.acct
    have b3 := Ledger.mint_bal e3 c.liquid c.acct
    simp [hc.sl.symm] at b1 b2
    refine h.congr rfl rfl ?_
    show _ ≤ l3.bal c.liquid c.acct
    omega
  case unstake w q p =>
    simp only [Call.ok] at hk
    obtain ⟨_, _, _, ⟨rfl, rfl⟩ | ⟨hne, e⟩⟩ := unstake_view e
    · simp only [NoPoolFee] at hp
      refine h.congr (upd_of_ne _ _ hk.symm) ?_ (Nat.le_refl _)
      show s.ureserves + pmulFloor s.urf q = _
      omega
    · obtain ⟨l1, l2, s1, _, _, e1, e2, e3, rfl⟩ := unstakeSlow_view e
      have b1 := Ledger.burn_bal e1 c.liquid c.acct
      have b2 := Ledger.mint_bal e2 c.liquid c.acct
      rw [if_neg (fun hh => hk hh.2.symm)] at b1
      rw [if_pos ⟨rfl, rfl⟩] at b2
      have b1' : l1.bal c.liquid c.acct = s.tok.bal c.liquid c.acct := b1
      have key : s1.fast = s.fast ∧ s1.ureserves = s.ureserves + pmulFloor s.urf q ∧
          s1.tok.bal c.liquid c.acct = l2.bal c.liquid c.acct := by
        unfold viaLoans at e3
        split at e3
        · obtain ⟨cf, k, m1, m2, m3, _, _, f1, f2, f3, f4, hf⟩ := instantUnstake_view e3
          have x1 := Ledger.mint_bal f1 c.liquid c.acct
          have x2 := Ledger.transfer_bal f2 c.liquid c.acct
          have x3 := Ledger.transfer_bal f3 c.liquid c.acct
          have x4 := Ledger.transfer_bal f4 c.liquid c.acct
          simp [hc.sl.symm, hc.lc] at x1 x2 x3 x4
          refine ⟨by rw [hf]; rfl, by rw [hf]; rfl, ?_⟩
          have x1' : m1.bal c.liquid c.acct = l2.bal c.liquid c.acct := x1
          omega
        · cases e3; exact ⟨rfl, rfl, rfl⟩
      refine ⟨by show s1.fast _ = none; rw [key.1]; exact h.fast, ?_⟩
      show s1.ureserves ≤ s1.tok.bal c.liquid c.acct
      have := h.held
      omega
  case cancelUnstake w m =>
    simp only [Call.ok] at hk
    cases e
    exact h.congr (upd_of_ne _ _ hk.symm) rfl (Nat.le_refl _)
  case claimFor w =>
    obtain ⟨xs, s1, hxs, _, hle, hp, rfl⟩ := claimFor_view e
    unfold payClaim at hp
    split at hp
    · obtain ⟨r, x, k, l1, l2, _, f1, f2, f3, hf⟩ := claimLoans_view hp
      have x1 := Ledger.transfer_bal f1 c.liquid c.acct
      have x2 := Ledger.transfer_bal f2 c.liquid c.acct
      have x3 := Ledger.burn_bal f3 c.liquid c.acct
      simp [hc.sl.symm, hc.lc] at x1 x2 x3
      refine h.congr (by show s1.fast _ = _; rw [hf]) (by show s1.ureserves = _; rw [hf]) ?_
      show _ ≤ s1.tok.bal c.liquid c.acct
      omega
    · simp only [bind_ok_iff, pure_ok_iff] at hp
      obtain ⟨l, hl, rfl⟩ := hp
      have x1 := Ledger.transfer_bal hl c.liquid c.acct
      simp [hc.sl.symm] at x1
      exact h.congr rfl rfl (Nat.le_of_eq x1.symm)
  case fastMatch ws =>
    clear hp hk hi
    induction ws generalizing s with
    | nil => simp only [fastMatchAll] at e; cases e; exact h
    | cons w ws ih =>
      simp only [fastMatchAll, bind_ok_iff] at e
      obtain ⟨s1, e1, e2⟩ := e
      refine ih ?_ e2
      rcases fastMatch_view e1 with ⟨_, rfl⟩ | ⟨b, q, a, s2, hw, _, _, _, e3, rfl⟩
      · exact h
      · have hwa : c.acct ≠ w := by
          rintro rfl
          rw [h.fast] at hw
          cases hw
        have key : s2.ureserves = s.ureserves ∧ s.tok.bal c.liquid c.acct ≤ s2.tok.bal c.liquid c.acct := by
          unfold trySettle at e3
          split at e3
          · cases e3; exact ⟨rfl, Nat.le_refl _⟩
          · obtain ⟨l1, l2, l3, h1, h2, _, h3, rfl⟩ := settleFast_view e3
            have x1 := Ledger.burn_bal h1 c.liquid c.acct
            have x2 := Ledger.transfer_bal h2 c.liquid c.acct
            have x3 := Ledger.transfer_bal h3 c.liquid c.acct
            simp [hwa, hc.sl.symm] at x1 x2 x3
            refine ⟨rfl, ?_⟩
            show _ ≤ l3.bal c.liquid c.acct
            omega
        exact h.congr (upd_of_ne _ _ hwa) key.1 key.2
  case bond => exact h.on_sent hc (doBond_sent e)
  case bondExtra => exact h.on_sent hc (doBondExtra_sent e)
  case unbond => exact h.on_sent hc (doUnbond_sent e)
  case rebond => exact h.on_sent hc (doRebond_sent e)
  case withdraw => exact h.on_sent hc (doWithdraw_sent e)
  case nominate => exact h.on_sent hc (doNominate_sent e)
  case notify q ok =>
    rcases notify_view e with rfl | ⟨r, s1, _, hr, e1, rfl⟩
    · exact h
    · have a := applyReq_eff hc hi e1
      have b := applyReq_liquid hc e1 c.acct
      exact h.congr (by show s1.fast _ = _; rw [a.frame]) (by show s1.ureserves = _; rw [a.frame]) (Nat.le_of_eq b.symm)
  case setEraStart => cases e; exact h.congr rfl rfl (Nat.le_refl _)
  case forceEra => cases e; exact h.congr rfl rfl (Nat.le_refl _)
  case forceAdvance =>
    cases e
    rw [advanceEra_frame]
    exact h.congr rfl rfl (Nat.le_refl _)
  case forceMatching => exact h.on_sent hc (doMatching_sent e)
  case forceLedger =>
    obtain ⟨_, _, _, rfl⟩ := forceLedger_view e
    exact h.congr rfl rfl (Nat.le_refl _)
  case setEra =>
    simp only [setEra, bind_ok_iff, ensure_ok_iff, exists_const, pure_ok_iff] at e
    obtain ⟨_, rfl⟩ := e
    rw [advanceEra_frame]
    exact h.congr rfl rfl (Nat.le_refl _)
  case setLedger =>
    obtain ⟨_, _, l, _, _, _, _, _, _, _, _, _, hm, rfl⟩ := setLedger_view e
    have := Ledger.mint_bal hm c.liquid c.acct
    refine h.congr rfl rfl ?_
    show _ ≤ l.bal c.liquid c.acct
    omega
  case reduceReserves =>
    simp only [reduceReserves, bind_ok_iff, csub_ok_iff, pure_ok_iff] at e
    obtain ⟨_, _, l, hl, rfl⟩ := e
    have x1 := Ledger.transfer_bal hl c.liquid c.acct
    simp [hc.sl.symm] at x1
    exact h.congr rfl rfl (Nat.le_of_eq x1.symm)
  case reduceUReserves recv m =>
    simp only [reduceUReserves, bind_ok_iff, csub_ok_iff, pure_ok_iff] at e
    obtain ⟨_, ⟨h1, rfl⟩, l, hl, rfl⟩ := e
    have x1 := Ledger.transfer_bal hl c.liquid c.acct
    simp only [true_and, if_true] at x1
    have := h.held
    refine ⟨h.fast, ?_⟩
    show s.ureserves - m ≤ l.bal c.liquid c.acct
    omega
  case setRf =>
    simp only [setRf, bind_ok_iff, ensure_ok_iff, exists_const, pure_ok_iff] at e
    obtain ⟨_, rfl⟩ := e
    exact h.congr rfl rfl (Nat.le_refl _)
  case setUrf =>
    simp only [setUrf, bind_ok_iff, ensure_ok_iff, exists_const, pure_ok_iff] at e
    obtain ⟨_, rfl⟩ := e
    exact h.congr rfl rfl (Nat.le_refl _)
  case setCap =>
    simp only [setCap, bind_ok_iff, ensure_ok_iff, exists_const, pure_ok_iff] at e
    obtain ⟨_, rfl⟩ := e
    exact h.congr rfl rfl (Nat.le_refl _)
  case setCommission =>
    simp only [setCommission, bind_ok_iff, ensure_ok_iff, exists_const, pure_ok_iff] at e
    obtain ⟨_, rfl⟩ := e
    exact h.congr rfl rfl (Nat.le_refl _)
  case onInit =>
    cases e
    unfold onInit
    rcases commit_cases s (initBlock c s) with e | e
    · simp only [initBlock, bind_ok_iff, pure_ok_iff] at e
      obtain ⟨s1, e1, e2⟩ := e
      have e3 : commit s (initBlock c s) = advanceEra c s1 (eraOffset c s1) := e2.symm
      rw [e3, advanceEra_frame]
      have h1 := h.on_sent hc (initMatching_sent e1)
      exact h1.congr rfl rfl (Nat.le_refl _)
    · rw [e.1]; exact h
  case onFinalize => cases e; exact h.congr rfl rfl (Nat.le_refl _)

/-- C75, partial: it holds in all histories without reserves charged on unstakes through the matching pool. -/
theorem C75_ureserves_partial (hc : c.Ok) (h : ReachP c NoPoolFee s) : s.ureserves ≤ s.tok.bal c.liquid c.acct := by
  suffices hu : URes c s from hu.held
  induction h with
  | init h => exact ⟨h.fast _, by rw [h.ureserves]; exact Nat.zero_le _⟩
  | step h1 hs ih =>
    cases hs with
    | call k hk hp e => exact ih.on_call hc (h1.inv hc) hk hp e
    | env e => exact ih.congr (by rw [e.same]) (by rw [e.same]) e.liquid

theorem exF3_reach : ReachP exC NoPoolFee exF3 := by
  have hchk : ∀ s k, (match k with | .unstake _ _ .pool => false | _ => true) = true → NoPoolFee s k := by
    intro s k h; cases k <;> try trivial
    case unstake w q p => cases p <;> trivial
  refine run_reachP hchk (pass_reachP exC_ok ?_ none_consistent) (by decide)
  refine run_reachP hchk (pass_reachP exC_ok ?_ none_consistent) (by decide)
  refine run_reachP hchk (pass_reachP exC_ok ?_ none_consistent) (by decide)
  exact run_reachP hchk (.init ex0_fresh) (by decide)
example : ReachP exC NoPoolFee exF3 ∧ exF3.ureserves = 35 ∧ exF3.tok.bal exC.liquid exC.acct = 35 :=
  ⟨exF3_reach, by decide +kernel⟩

/-! ## C76 -/

/-- C76: after any history with full rebonds, the liquid tokens that a reward report mints go to the fee receiver and are
worth, at the current rate, at most the commission's share of the reward. -/
theorem C76_commission (hc : c.Ok) (h : ReachP c (FullRebond c) s) {i : Nat} {n l : SLedger} {proof : Bool}
    (hl : s.ledgers i = some l) (hf : RewardFits c s i n) (e : setLedger c s i n proof = .ok s') :
    ∃ q, s'.tok.iss c.liquid = s.tok.iss c.liquid + q ∧
      s'.tok.bal c.liquid c.feeRecv = s.tok.bal c.liquid c.feeRecv + q ∧
      s.rate * q ≤ s.commission * (n.total - l.total) ∧ s.rate * q ≤ (n.total - l.total) * DIV ∧
      (∀ a w, (a ≠ c.liquid ∨ w ≠ c.feeRecv) → s'.tok.bal a w = s.tok.bal a w) ∧
      s'.ledgers i = some n ∧ ∀ j, j ≠ i → s'.ledgers j = s.ledgers j := by
  have hi := h.inv hc
  have hcov : Covered c s := h.covered hc (fun _ _ h => h)
  obtain ⟨l0, q, t, h1, _, _, _, _, _, _, _, h8, h9, rfl⟩ := setLedger_view e
  rw [hl] at h1
  cases h1
  have hto : totalOf s i = l.total := by unfold totalOf; rw [hl]
  unfold RewardFits at hf
  rw [hto] at hf
  have hk := inflate_le h8 hcov hi.commission hf
  have i9 := Ledger.mint_iss h9 c.liquid
  have b9 := Ledger.mint_bal h9 c.liquid c.feeRecv
  simp only [true_and, if_true] at i9 b9
  have hk2 := hk.trans (Nat.div_mul_le_self _ _)
  refine ⟨q, i9, b9, hk2, ?_, ?_, upd_same _ _ _, fun j hj => upd_of_ne _ _ hj⟩
  · refine hk2.trans ?_
    rw [Nat.mul_comm _ DIV]
    exact Nat.mul_le_mul_right _ (Nat.le_of_lt hi.commission)
  · intro a w ha
    have := Ledger.mint_bal h9 a w
    rw [if_neg (by rintro ⟨rfl, rfl⟩; simp at ha)] at this
    exact this

example : okAnd (setLedger exC (pass exF5 100 exF5Ledger) 1 ⟨5870, 5870, []⟩ true)
    (fun t => decide (0 < t.tok.iss 5 - exF5.tok.iss 5)) = true := by decide +kernel

end Verif.Staking
