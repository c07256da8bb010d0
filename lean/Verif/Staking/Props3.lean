import Verif.Staking.Props2

/-!
# Liquid staking: requests, fast unstaking, eras, rates, settings (C176 – C180)
-/

set_option linter.unusedSimpArgs false
set_option linter.unusedVariables false

namespace Verif.Staking
open Verif
variable {c : Cfg} {s s' : State}

/-! ## C176: requests to the relay chain -/

/-- From `s` to `s'` request `r` is sent, with fee `f` burnt from the account of the XCM helper, and the matching pool is
`p` afterwards. Nothing else changes. -/
def Asked (c : Cfg) (f : Nat) (r : Req) (p : Pool) (s s' : State) : Prop :=
  ∃ l, s.tok.burn c.staking c.xcmAcct f = .ok l ∧
    s' = { s with
      lo := { s.lo with ledger := l }
      pool := p
      reqs := s.reqs ++ [(s.nextId, r)]
      nextId := s.nextId + 1 }

/-- `p` with `m` more locked in the half that is to be staked. -/
def lockStake (p : Pool) (m : Nat) : Pool := { p with stake := ⟨p.stake.total, p.stake.reserved + m⟩ }
/-- `p` with `m` more locked in the half that is to be unstaked. -/
def lockUnstake (p : Pool) (m : Nat) : Pool := { p with unstake := ⟨p.unstake.total, p.unstake.reserved + m⟩ }

theorem send_iff {r : Req} {p : Pool} :
    send c { s with pool := p } r = .ok s' ↔ s.link = true ∧ Asked c (s.fee r.kind) r p s s' := by
  unfold send Asked
  simp only [bind_ok_iff, ensure_ok_iff, exists_const, pure_ok_iff]
  constructor
  · rintro ⟨l, hl, hk, rfl⟩
    refine ⟨hk, l, ?_, rfl⟩
    cases hb : s.tok.burn c.staking c.xcmAcct (s.fee r.kind) with
    | ok l' =>
      have : State.tok { s with pool := p } = s.tok := rfl
      rw [this, hb] at hl
      cases hl
      rfl
    | error e =>
      have : State.tok { s with pool := p } = s.tok := rfl
      rw [this, hb] at hl
      cases hl
  · rintro ⟨hk, l, hl, rfl⟩
    refine ⟨l, ?_, hk, rfl⟩
    have : State.tok { s with pool := p } = s.tok := rfl
    rw [this, hl]

theorem lock_iff {h h' : Half} {m : Nat} :
    h.lock m = .ok h' ↔ h.reserved + m ≤ maxU128 ∧ h.reserved + m ≤ h.total ∧ h' = ⟨h.total, h.reserved + m⟩ := by
  unfold Half.lock
  simp only [bind_ok_iff, cadd_ok_iff, ensure_ok_iff, exists_const, pure_ok_iff]
  constructor
  · rintro ⟨r, ⟨h1, rfl⟩, h2, rfl⟩
    exact ⟨h1, h2, rfl⟩
  · rintro ⟨h1, h2, rfl⟩
    exact ⟨_, ⟨h1, rfl⟩, h2, rfl⟩

/-- **C176, bond.** A derivative account without a ledger is bonded exactly if it is one of the pallet's, the amount reaches
the minimum, fits the cap of an account and the unlocked part of the matching pool, the helper can pay the fee and the
message can be sent. The amount is locked. -/
theorem C176_bond {i m : Nat} (hm : m ≠ 0) (hi : s.ledgers i = none) :
    exec c s (.bond i m) = .ok s' ↔
      i ∈ c.indices ∧ c.minBond ≤ m ∧ min maxU128 m ≤ s.cap ∧
      (s.pool.stake.reserved + m ≤ maxU128 ∧ s.pool.stake.reserved + m ≤ s.pool.stake.total) ∧
      s.link = true ∧ Asked c (s.fee 0) (.bond i m) (lockStake s.pool m) s s' := by
  show doBond c s i m = .ok s' ↔ _
  unfold doBond
  rw [if_neg hm, if_neg (by rw [hi]; simp)]
  have ht : satAdd (totalOf s i) m = min maxU128 m := by
    unfold satAdd totalOf
    rw [hi]
    simp
  simp only [bind_ok_iff, ensure_ok_iff, exists_const, ensureLedgerCap, ht, lock_iff]
  constructor
  · rintro ⟨h1, h2, h3, h, ⟨h4, h5, rfl⟩, h6⟩
    exact ⟨h1, h2, h3, ⟨h4, h5⟩, send_iff.1 h6⟩
  · rintro ⟨h1, h2, h3, ⟨h4, h5⟩, h6⟩
    exact ⟨h1, h2, h3, _, ⟨h4, h5, rfl⟩, send_iff.2 h6⟩

/-- **C176, bond more.** Likewise for an account with a ledger, for which there is no minimum; `bond` does the same. -/
theorem C176_bond_extra {i m : Nat} {l : SLedger} (hm : m ≠ 0) (hi : s.ledgers i = some l) :
    (exec c s (.bondExtra i m) = .ok s' ↔
      i ∈ c.indices ∧ min maxU128 (l.total + m) ≤ s.cap ∧
      (s.pool.stake.reserved + m ≤ maxU128 ∧ s.pool.stake.reserved + m ≤ s.pool.stake.total) ∧
      s.link = true ∧ Asked c (s.fee 1) (.bondExtra i m) (lockStake s.pool m) s s') ∧
    exec c s (.bond i m) = exec c s (.bondExtra i m) := by
  refine ⟨?_, ?_⟩
  · show doBondExtra c s i m = .ok s' ↔ _
    unfold doBondExtra
    rw [if_neg hm]
    have ht : satAdd (totalOf s i) m = min maxU128 (l.total + m) := by
      unfold satAdd totalOf
      rw [hi]
    have hs : (s.ledgers i).isSome = true := by rw [hi]; rfl
    simp only [bind_ok_iff, ensure_ok_iff, exists_const, ensureLedgerCap, ht, lock_iff, hs, true_and]
    constructor
    · rintro ⟨h1, h3, h, ⟨h4, h5, rfl⟩, h6⟩
      exact ⟨h1, h3, ⟨h4, h5⟩, send_iff.1 h6⟩
    · rintro ⟨h1, h3, ⟨h4, h5⟩, h6⟩
      exact ⟨h1, h3, _, ⟨h4, h5, rfl⟩, send_iff.2 h6⟩
  · show doBond c s i m = doBondExtra c s i m
    unfold doBond
    rw [if_neg hm, if_pos (by rw [hi]; rfl)]

/-- Without a ledger `bond_extra`, `unbond`, `rebond` and `nominate` are rejected; nothing is done for amount 0. -/
theorem C176_no_ledger {i m : Nat} (hi : s.ledgers i = none) (hm : m ≠ 0) :
    (∀ s', exec c s (.bondExtra i m) ≠ .ok s') ∧ (∀ s', exec c s (.unbond i m) ≠ .ok s') ∧
    (∀ s', exec c s (.rebond i m) ≠ .ok s') ∧ ∀ s', exec c s (.nominate i) ≠ .ok s' := by
  have hs : ¬ (s.ledgers i).isSome = true := by rw [hi]; simp
  refine ⟨fun s' h => ?_, fun s' h => ?_, fun s' h => ?_, fun s' h => ?_⟩
  · change doBondExtra c s i m = .ok s' at h
    unfold doBondExtra at h
    rw [if_neg hm] at h
    simp only [bind_ok_iff, ensure_ok_iff, exists_const, hs, false_and, and_false] at h
    exact absurd h.2.1 (by decide)
  · change doUnbond c s i m = .ok s' at h
    unfold doUnbond at h
    rw [if_neg hm, hi] at h
    simp only [bind_ok_iff, ensure_ok_iff, exists_const, okOr_ok_iff] at h
    obtain ⟨-, l, hl, -⟩ := h
    cases hl
  · change doRebond c s i m = .ok s' at h
    unfold doRebond at h
    rw [if_neg hm] at h
    simp only [bind_ok_iff, ensure_ok_iff, exists_const, hs, false_and, and_false] at h
    exact absurd h.2.1 (by decide)
  · change doNominate c s i = .ok s' at h
    unfold doNominate at h
    simp only [bind_ok_iff, ensure_ok_iff, exists_const, hs, false_and, and_false] at h
    exact absurd h.2.1 (by decide)

/-- **C176, amount 0.** No request is sent. -/
theorem C176_zero (i : Nat) : exec c s (.bond i 0) = .ok s ∧ exec c s (.bondExtra i 0) = .ok s ∧
    exec c s (.unbond i 0) = .ok s ∧ exec c s (.rebond i 0) = .ok s := by
  refine ⟨?_, ?_, ?_, ?_⟩
  · show doBond c s i 0 = _
    unfold doBond; rw [if_pos rfl]
  · show doBondExtra c s i 0 = _
    unfold doBondExtra; rw [if_pos rfl]
  · show doUnbond c s i 0 = _
    unfold doUnbond; rw [if_pos rfl]
  · show doRebond c s i 0 = _
    unfold doRebond; rw [if_pos rfl]

/-- **C176, unbond.** Unbonding is asked for exactly if the ledger has fewer than 32 chunks and keeps the minimum, and the
amount fits the unlocked part of what is to be unstaked. -/
theorem C176_unbond {i m : Nat} {l : SLedger} (hm : m ≠ 0) (hi : s.ledgers i = some l) :
    exec c s (.unbond i m) = .ok s' ↔
      i ∈ c.indices ∧ l.unlocking.length < 32 ∧ c.minBond ≤ l.active - m ∧
      (s.pool.unstake.reserved + m ≤ maxU128 ∧ s.pool.unstake.reserved + m ≤ s.pool.unstake.total) ∧
      s.link = true ∧ Asked c (s.fee 2) (.unbond i m) (lockUnstake s.pool m) s s' := by
  show doUnbond c s i m = .ok s' ↔ _
  unfold doUnbond
  rw [if_neg hm, hi]
  simp only [bind_ok_iff, ensure_ok_iff, exists_const, okOr_ok_iff, Option.some.injEq, exists_eq_left', lock_iff]
  constructor
  · rintro ⟨h1, h2, h3, h, ⟨h4, h5, rfl⟩, h6⟩
    exact ⟨h1, h2, h3, ⟨h4, h5⟩, send_iff.1 h6⟩
  · rintro ⟨h1, h2, h3, ⟨h4, h5⟩, h6⟩
    exact ⟨h1, h2, h3, _, ⟨h4, h5, rfl⟩, send_iff.2 h6⟩

/-- **C176, rebond.** -/
theorem C176_rebond {i m : Nat} {l : SLedger} (hm : m ≠ 0) (hi : s.ledgers i = some l) :
    exec c s (.rebond i m) = .ok s' ↔
      i ∈ c.indices ∧
      (s.pool.stake.reserved + m ≤ maxU128 ∧ s.pool.stake.reserved + m ≤ s.pool.stake.total) ∧
      s.link = true ∧ Asked c (s.fee 3) (.rebond i m) (lockStake s.pool m) s s' := by
  show doRebond c s i m = .ok s' ↔ _
  unfold doRebond
  have hs : (s.ledgers i).isSome = true := by rw [hi]; rfl
  rw [if_neg hm]
  simp only [bind_ok_iff, ensure_ok_iff, exists_const, hs, true_and, lock_iff]
  constructor
  · rintro ⟨h1, h, ⟨h4, h5, rfl⟩, h6⟩
    exact ⟨h1, ⟨h4, h5⟩, send_iff.1 h6⟩
  · rintro ⟨h1, ⟨h4, h5⟩, h6⟩
    exact ⟨h1, _, ⟨h4, h5, rfl⟩, send_iff.2 h6⟩

theorem foldl_due (e : Nat) (xs : List Chunk) (a : Nat) :
    xs.foldl (fun acc ch => if ch.era ≤ e then satAdd acc ch.value else acc) a = 0 ↔
      a = 0 ∧ ∀ ch ∈ xs, ch.era ≤ e → ch.value = 0 := by
  induction xs generalizing a with
  | nil => simp
  | cons x xs ih =>
    rw [List.foldl_cons, ih]
    have hM : maxU128 ≠ 0 := by decide
    by_cases hx : x.era ≤ e
    · rw [if_pos hx]
      have : satAdd a x.value = 0 ↔ a = 0 ∧ x.value = 0 := by
        unfold satAdd
        omega
      rw [this]
      simp only [List.mem_cons, forall_eq_or_imp, hx, true_implies]
      tauto
    · rw [if_neg hx]
      simp only [List.mem_cons, forall_eq_or_imp, hx, false_implies, true_and]

/-- **C176, withdraw.** Withdrawal is asked for exactly if the ledger has something whose era has come; otherwise nothing is
done. -/
theorem C176_withdraw {i : Nat} {l : SLedger} (hi : s.ledgers i = some l) :
    exec c s (.withdraw i) = .ok s' ↔
      if ∃ ch ∈ l.unlocking, ch.era ≤ s.era ∧ ch.value ≠ 0 then
        i ∈ c.indices ∧ s.link = true ∧ Asked c (s.fee 4) (.withdraw i) s.pool s s'
      else s' = s := by
  show doWithdraw c s i = .ok s' ↔ _
  unfold doWithdraw
  have hs : (s.ledgers i).isSome = true := by rw [hi]; rfl
  have hu : unbondedOf s i = 0 ↔ ¬ ∃ ch ∈ l.unlocking, ch.era ≤ s.era ∧ ch.value ≠ 0 := by
    unfold unbondedOf
    rw [hi]
    dsimp only
    rw [foldl_due]
    push Not
    simp
  by_cases h : ∃ ch ∈ l.unlocking, ch.era ≤ s.era ∧ ch.value ≠ 0
  · rw [if_neg (fun e => hu.1 e h), if_pos h]
    simp only [bind_ok_iff, ensure_ok_iff, exists_const, hs, true_and]
    exact and_congr_right (fun _ => send_iff (p := s.pool))
  · rw [if_pos (hu.2 h), if_neg h]
    exact ⟨fun e => by cases e; rfl, fun e => by rw [e]⟩

/-- An account without a ledger has nothing to withdraw. -/
theorem C176_withdraw_none {i : Nat} (hi : s.ledgers i = none) : exec c s (.withdraw i) = .ok s := by
  show doWithdraw c s i = _
  unfold doWithdraw unbondedOf
  rw [hi]
  exact if_pos rfl

/-- **C176, nominate.** -/
theorem C176_nominate {i : Nat} {l : SLedger} (hi : s.ledgers i = some l) :
    exec c s (.nominate i) = .ok s' ↔
      i ∈ c.indices ∧ s.link = true ∧ Asked c (s.fee 5) (.nominate i) s.pool s s' := by
  show doNominate c s i = .ok s' ↔ _
  unfold doNominate
  have hs : (s.ledgers i).isSome = true := by rw [hi]; rfl
  simp only [bind_ok_iff, ensure_ok_iff, exists_const, hs, true_and]
  exact and_congr_right (fun _ => send_iff (p := s.pool))

example : okAnd (exec exC (run exC ex0 [.stake 7 4000]) (.bond 0 1000)) (fun t => decide (t.reqs = [(0, .bond 0 1000)])) = true ∧
    okAnd (exec exC (run exC ex2 [.unstake 7 500 .relay]) (.unbond 0 20)) (fun t => decide (t.reqs = [(2, .unbond 0 20)])) = true ∧
    okAnd (exec exC (run exC ex2 [.setCap 20000, .stake 7 500]) (.bondExtra 0 20))
      (fun t => decide (t.reqs = [(2, .bondExtra 0 20)])) = true ∧
    okAnd (exec exC ex0 (.nominate 0)) (fun _ => true) = false ∧
    okAnd (exec exC ex2 (.nominate 0)) (fun s' => decide (s'.reqs = [(2, .nominate 0)])) = true := by decide +kernel

/-! ## C177: unstaking through the pool, and at once through the lending pallet -/

/-- **C177, request.** A fast unstake is recorded exactly if it reaches the minimum; the fee share is booked, and the request
grows by the rest, at most to what the account can spend. No token moves. -/
theorem C177_request {w q : Nat} : exec c s (.unstake w q .pool) = .ok s' ↔
    c.minUnstake ≤ q ∧ s.ureserves + q * s.urf / 1000000 ≤ maxU128 ∧ q * s.urf / 1000000 ≤ q ∧
    s' = { s with
      ureserves := s.ureserves + q * s.urf / 1000000
      fast := upd s.fast w (some (min (min maxU128 ((s.fast w).getD 0 + (q - q * s.urf / 1000000)))
        (s.tok.bal c.liquid w))) } := by
  show unstake c s w q .pool = .ok s' ↔ _
  unfold unstake
  simp only [bind_ok_iff, ensure_ok_iff, exists_const, cadd_ok_iff, csub_ok_iff, if_true]
  constructor
  · rintro ⟨h1, _, ⟨h2, rfl⟩, _, ⟨h3, -⟩, h⟩
    refine ⟨h1, h2, h3, ?_⟩
    cases h
    rfl
  · rintro ⟨h1, h2, h3, rfl⟩
    exact ⟨h1, _, ⟨h2, rfl⟩, _, ⟨h3, rfl⟩, rfl⟩

/-- **C177, cancel.** Cancelling always succeeds: it lowers the request, first to what the account can spend and then by the
amount (not below 0), and touches nothing else. -/
theorem C177_cancel (w m : Nat) : ∃ s', exec c s (.cancelUnstake w m) = .ok s' ∧
    s'.fast w = some (min ((s.fast w).getD 0) (s.tok.bal c.liquid w) - m) ∧
    (∀ v, v ≠ w → s'.fast v = s.fast v) ∧ s' = { s with fast := s'.fast } := by
  refine ⟨_, rfl, ?_, fun v hv => ?_, rfl⟩
  · show upd s.fast w _ w = _
    rw [upd_same]
    rfl
  · exact upd_of_ne _ _ hv

/-- **C177, at once.** Unstaking through the lending pallet pays the value minus the fee to the account at once; unstaking
through the relay chain pays nothing yet. The liquid tokens are gone in both cases. -/
theorem C177_at_once {w q : Nat} {p : Provider} (hc : c.Ok) (hw : w ≠ c.acct) (hl : w ≠ c.lo.acct) (hp : p ≠ .pool)
    (e : exec c s (.unstake w q p) = .ok s') :
    s'.tok.bal c.staking w = s.tok.bal c.staking w +
      (if p = .loans then s.rate * (q - q * s.urf / 1000000) / DIV -
        c.instantFee * (s.rate * (q - q * s.urf / 1000000) / DIV) / DIV else 0) ∧
    s'.tok.bal c.liquid w + q = s.tok.bal c.liquid w := by
  obtain ⟨-, -, -, h | ⟨-, h⟩⟩ := unstake_view e
  · exact absurd h.1 hp
  obtain ⟨l1, l2, s1, -, -, e1, e2, e3, rfl⟩ := unstakeSlow_view h
  have hle := Ledger.burn_le e1
  have b1 := Ledger.burn_bal e1 c.staking w
  have b2 := Ledger.mint_bal e2 c.staking w
  have q1 := Ledger.burn_bal e1 c.liquid w
  have q2 := Ledger.mint_bal e2 c.liquid w
  simp only [hc.sl, hc.sl.symm, hw, and_false, false_and, if_false, and_self, if_true] at b1 b2 q1 q2
  have hle' : q ≤ s.tok.bal c.liquid w := hle
  have q1' : l1.bal c.liquid w + q = s.tok.bal c.liquid w := q1
  have b1' : l1.bal c.staking w = s.tok.bal c.staking w := b1
  have key : s1.tok.bal c.staking w = l2.bal c.staking w + (if p = .loans then
      s.rate * (q - pmulFloor s.urf q) / DIV - c.instantFee * (s.rate * (q - pmulFloor s.urf q) / DIV) / DIV else 0) ∧
      s1.tok.bal c.liquid w = l2.bal c.liquid w := by
    unfold viaLoans at e3
    by_cases hpl : p = .loans
    · rw [if_pos hpl] at e3
      obtain ⟨cf, k, k1, k2, k3, -, -, f1, f2, f3, f4, -⟩ := instantUnstake_view e3
      have g1 := Ledger.mint_bal f1 c.staking w
      have g2 := Ledger.transfer_bal f2 c.staking w
      have g3 := Ledger.transfer_bal f3 c.staking w
      have g4 := Ledger.transfer_bal f4 c.staking w
      have h1 := Ledger.mint_bal f1 c.liquid w
      have h2 := Ledger.transfer_bal f2 c.liquid w
      have h3 := Ledger.transfer_bal f3 c.liquid w
      have h4 := Ledger.transfer_bal f4 c.liquid w
      simp [hc.sc, hc.sc.symm, hc.lc, hc.lc.symm, hc.sl, hc.sl.symm, hw, hl, hw.symm, hl.symm] at g1 g2 g3 g4 h1 h2 h3 h4
      rw [if_pos hpl]
      refine ⟨?_, ?_⟩
      · rw [g4, g3, g2, g1]
        rfl
      · rw [h4, h3, h2, h1]
        rfl
    · rw [if_neg hpl] at e3 ⊢
      cases e3
      exact ⟨rfl, rfl⟩
  refine ⟨?_, ?_⟩
  · show s1.tok.bal c.staking w = _
    rw [key.1, b2, b1']
    rfl
  · show s1.tok.bal c.liquid w + q = _
    rw [key.2, q2, Nat.add_zero, q1']

example : okAnd (exec exC ex2 (.unstake 7 49 .pool)) (fun _ => true) = false ∧
    okAnd (exec exC ex2 (.unstake 7 100 .pool)) (fun t => decide (t.fast 7 = some 99)) = true ∧
    okAnd (exec exC ex2 (.unstake 9 500 .loans)) (fun t => decide (t.tok.bal 1 9 = ex2.tok.bal 1 9 + 491)) = true := by
  decide +kernel

/-! ## C178: eras -/

/-- The next era has begun: the relay chain's current block becomes the start of the era, matching is due again. -/
theorem C178_advance {n : Nat} (hn : n ≠ 0) : ∃ s', exec c s (.forceAdvance n) = .ok s' ∧
    s'.era = min maxU32 (s.era + n) ∧ s'.eraStart = s.relayBlock ∧ s'.matched = false ∧
    s' = { s with era := s'.era, eraStart := s'.eraStart, matched := s'.matched, rate := s'.rate } := by
  refine ⟨advanceEra c s n, rfl, ?_⟩
  unfold advanceEra
  rw [if_neg hn]
  exact ⟨rfl, rfl, rfl, rfl⟩

/-- Advancing by 0 eras does nothing. -/
theorem C178_advance_zero : exec c s (.forceAdvance 0) = .ok s := rfl

/-- **C178, proof of the era.** The era is set exactly by a proof of the relay chain's era. An era that is not later than the
one known changes nothing; a later one is what is known from then on. -/
theorem C178_set_era {e : Nat} {proof : Bool} :
    exec c s (.setEra e proof) = .ok s' ↔
      (proof = true ∧ s.relayEra = e) ∧
      if e ≤ s.era then s' = s else exec c s (.forceAdvance (e - s.era)) = .ok s' := by
  show setEra c s e proof = .ok s' ↔ _
  unfold setEra
  simp only [bind_ok_iff, ensure_ok_iff, exists_const, pure_ok_iff]
  refine and_congr_right (fun _ => ?_)
  by_cases h : e ≤ s.era
  · rw [if_pos h, Nat.sub_eq_zero_of_le h]
    exact ⟨fun q => q.symm, fun q => q.symm⟩
  · rw [if_neg h]
    exact ⟨fun q => by rw [← q]; rfl, fun q => by cases q; rfl⟩

theorem C178_set_era_known {e : Nat} {proof : Bool} (he : e ≤ maxU32) (h : exec c s (.setEra e proof) = .ok s') :
    s'.era = max s.era e := by
  obtain ⟨-, h⟩ := C178_set_era.1 h
  by_cases hl : e ≤ s.era
  · rw [if_pos hl] at h
    rw [h]
    omega
  · rw [if_neg hl] at h
    obtain ⟨s1, h1, h2, -⟩ := C178_advance (c := c) (s := s) (n := e - s.era) (by omega)
    rw [h1] at h
    cases h
    rw [h2]
    omega

/-- **C178, by root.** -/
theorem C178_force (e b : Nat) :
    exec c s (.forceEra e) = .ok { s with era := e, matched := false } ∧
    exec c s (.setEraStart b) = .ok { s with eraStart := b } := ⟨rfl, rfl⟩

/-- The number of whole eras since the start of the current one. -/
theorem C178_offset (h : c.eraLength ≠ 0) (n : Nat) :
    eraOffset c s = n ↔ (s.relayBlock < s.eraStart ∧ n = 0) ∨
      (s.eraStart + n * c.eraLength ≤ s.relayBlock ∧ s.relayBlock < s.eraStart + (n + 1) * c.eraLength) := by
  unfold eraOffset
  have hp : 0 < c.eraLength := Nat.pos_of_ne_zero h
  by_cases hb : s.relayBlock < s.eraStart
  · rw [if_pos (Or.inl hb)]
    have h1 : n * c.eraLength = 0 ∨ 0 < n * c.eraLength := Nat.eq_zero_or_pos _
    constructor
    · intro q
      exact Or.inl ⟨hb, q.symm⟩
    · rintro (q | ⟨q, -⟩)
      · exact q.2.symm
      · omega
  · rw [if_neg (by rintro (q | q); exacts [hb q, h q]), Nat.div_eq_iff hp]
    have : (n + 1) * c.eraLength = n * c.eraLength + c.eraLength := by ring
    constructor
    · rintro ⟨q1, q2⟩
      exact Or.inr ⟨by omega, by omega⟩
    · rintro (q | ⟨q1, q2⟩)
      · exact absurd q.1 hb
      · exact ⟨by omega, by omega⟩

/-- If eras have no length, time never advances them. -/
theorem C178_offset_zero (h : c.eraLength = 0) : eraOffset c s = 0 := by
  unfold eraOffset
  rw [if_pos (Or.inr h)]

/-- **C178, start of a block.** Once the requests of this era have been sent, a block only advances the era, by the number of
whole eras since the start of the current one. -/
theorem C178_block_matched (h : s.matched = true) :
    exec c s .onInit = exec c s (.forceAdvance (eraOffset c s)) := by
  show Except.ok (onInit c s) = Except.ok (advanceEra c s (eraOffset c s))
  unfold onInit initBlock initMatching
  rw [if_neg (by rw [h]; simp)]
  rfl

/-- Likewise before the relay chain has stored its election's solution. -/
theorem C178_block_early (h : s.relayBlock < min maxU32 (s.eraStart + c.solutionOffset)) :
    exec c s .onInit = exec c s (.forceAdvance (eraOffset c s)) := by
  show Except.ok (onInit c s) = Except.ok (advanceEra c s (eraOffset c s))
  unfold onInit initBlock initMatching
  rw [if_neg (by rw [Nat.add_comm]; rintro ⟨-, q⟩; omega)]
  rfl

/-- Otherwise the block first sends the requests, exactly as root can; if that fails nothing happens in this block. -/
theorem C178_block_due (hm : s.matched = false) (h : min maxU32 (s.eraStart + c.solutionOffset) ≤ s.relayBlock) :
    (∀ s1, exec c s .forceMatching = .ok s1 →
      exec c s .onInit = exec c s1 (.forceAdvance (eraOffset c s1))) ∧
    ((∀ s1, exec c s .forceMatching ≠ .ok s1) → exec c s .onInit = .ok s) := by
  have hi : initMatching c s = doMatching c s := by
    unfold initMatching
    rw [if_pos ⟨hm, by rw [Nat.add_comm]; exact h⟩]
  refine ⟨fun s1 h1 => ?_, fun h1 => ?_⟩
  · change doMatching c s = .ok s1 at h1
    show Except.ok (onInit c s) = Except.ok (advanceEra c s1 (eraOffset c s1))
    unfold onInit initBlock
    rw [hi, h1]
    rfl
  · show Except.ok (onInit c s) = Except.ok s
    unfold onInit initBlock
    rw [hi]
    cases hd : doMatching c s with
    | ok s1 => exact absurd hd (h1 s1)
    | error e => rfl

theorem send_matched {p : Pool} {r : Req} (h : send c { s with pool := p } r = .ok s') : s'.matched = s.matched := by
  obtain ⟨l, -, rfl⟩ := (send_iff.1 h).2
  rfl
theorem doBondExtra_matched {i m : Nat} (h : doBondExtra c s i m = .ok s') : s'.matched = s.matched := by
  unfold doBondExtra at h
  split at h
  · cases h; rfl
  simp only [bind_ok_iff, ensure_ok_iff, exists_const] at h
  obtain ⟨_, _, _, _, _, _, h⟩ := h
  exact send_matched h
theorem doBond_matched {i m : Nat} (h : doBond c s i m = .ok s') : s'.matched = s.matched := by
  unfold doBond at h
  split at h
  · cases h; rfl
  split at h
  · exact doBondExtra_matched h
  simp only [bind_ok_iff, ensure_ok_iff, exists_const] at h
  obtain ⟨_, _, _, _, _, _, h⟩ := h
  exact send_matched h
theorem doUnbond_matched {i m : Nat} (h : doUnbond c s i m = .ok s') : s'.matched = s.matched := by
  unfold doUnbond at h
  split at h
  · cases h; rfl
  simp only [bind_ok_iff, ensure_ok_iff, exists_const] at h
  obtain ⟨_, _, _, _, _, _, _, h⟩ := h
  exact send_matched h
theorem doRebond_matched {i m : Nat} (h : doRebond c s i m = .ok s') : s'.matched = s.matched := by
  unfold doRebond at h
  split at h
  · cases h; rfl
  simp only [bind_ok_iff, ensure_ok_iff, exists_const] at h
  obtain ⟨_, _, _, _, h⟩ := h
  exact send_matched h
theorem doWithdraw_matched {i : Nat} (h : doWithdraw c s i = .ok s') : s'.matched = s.matched := by
  unfold doWithdraw at h
  split at h
  · cases h; rfl
  simp only [bind_ok_iff, ensure_ok_iff, exists_const] at h
  obtain ⟨-, -, h⟩ := h
  exact send_matched (p := s.pool) h
theorem forEach_matched {α : Type} {f : State → α → R State} (hf : ∀ s s' x, f s x = .ok s' → s'.matched = s.matched) :
    ∀ {xs : List α} {s s' : State}, forEach f s xs = .ok s' → s'.matched = s.matched
  | [], s, s', h => by cases h; rfl
  | x :: xs, s, s', h => by
    simp only [forEach, bind_ok_iff] at h
    obtain ⟨s1, h1, h2⟩ := h
    exact (forEach_matched hf h2).trans (hf _ _ _ h1)

/-- Once the requests have been sent, they are not sent again in this era. -/
theorem C178_matched (h : exec c s .forceMatching = .ok s') : s'.matched = true := by
  change doMatching c s = .ok s' at h
  simp only [doMatching, bind_ok_iff] at h
  obtain ⟨x, -, s1, h1, s2, h2, s3, h3, h4⟩ := h
  have e4 : s'.matched = s3.matched := forEach_matched (fun _ _ _ => doWithdraw_matched) h4
  have e3 : s3.matched = s2.matched := by
    unfold multiUnbond at h3
    split at h3
    · cases h3; rfl
    · exact forEach_matched (fun _ _ _ => doUnbond_matched) h3
  have e2 : s2.matched = s1.matched := by
    unfold multiRebond at h2
    split at h2
    · cases h2; rfl
    · exact forEach_matched (fun _ _ _ => doRebond_matched) h2
  have e1 : s1.matched = true := by
    unfold multiBond at h1
    split at h1
    · cases h1; rfl
    · exact forEach_matched (fun _ _ _ => doBond_matched) h1
  rw [e4, e3, e2, e1]

/-- **C178, end of a block.** The marks of updated ledgers are cleared, nothing else changes. -/
theorem C178_block_end : ∃ s', exec c s .onFinalize = .ok s' ∧ (∀ i, s'.updated i = false) ∧
    s' = { s with updated := s'.updated } := ⟨_, rfl, fun _ => rfl, rfl⟩

example : okAnd (exec exC (pass ex2 100 (fun _ => none)) .onInit) (fun t => decide (t.era = ex2.era + 1 ∧ t.matched = false)) = true ∧
    ex2.matched = true ∧ okAnd (exec exC { ex2 with relayEra := 7 } (.setEra 7 true)) (fun t => decide (t.era = 7)) = true := by
  decide +kernel

/-! ## C179: the exchange rate and the commission -/

/-- The staking currency that the liquid currency stands for: active bonds plus what is to be staked minus what is to be
unstaked. -/
def Backing (c : Cfg) (s : State) (b : Nat) : Prop :=
  totalActive c s + s.pool.stake.total ≤ maxU128 ∧ b + s.pool.unstake.total = totalActive c s + s.pool.stake.total

/-- **C179, rate.** When an era begins the rate becomes the backing per liquid token, if there are any and that is more than
before. -/
theorem C179_rate {n b : Nat} (hn : n ≠ 0) (hb : Backing c s b) (hl : s.tok.iss c.liquid ≠ 0)
    (hf : b * DIV / s.tok.iss c.liquid ≤ maxU128) (e : exec c s (.forceAdvance n) = .ok s') :
    s'.rate = max s.rate (b * DIV / s.tok.iss c.liquid) := by
  have h : newRate c s = .ok (max s.rate (b * DIV / s.tok.iss c.liquid)) := by
    unfold newRate
    rw [if_neg hl]
    simp only [bind_ok_iff, cadd_ok_iff, csub_ok_iff, okOr_ok_iff, fixFromRational_iff, pure_ok_iff]
    refine ⟨_, ⟨hb.1, rfl⟩, b, ⟨by have := hb.2; omega, by have := hb.2; omega⟩, _, ⟨hl, hf, rfl⟩, ?_⟩
    split
    · rename_i q
      exact (Nat.max_eq_right (le_of_lt q)).symm
    · rename_i q
      exact (Nat.max_eq_left (not_lt.1 q)).symm
  change Except.ok (advanceEra c s n) = .ok s' at e
  unfold advanceEra at e
  rw [if_neg hn, h] at e
  cases e
  rfl

/-- It stays as it is if there are no liquid tokens, or if more is to be unstaked than there is. -/
theorem C179_rate_kept {n : Nat} (h : s.tok.iss c.liquid = 0 ∨ ∀ b, ¬ Backing c s b)
    (e : exec c s (.forceAdvance n) = .ok s') : s'.rate = s.rate := by
  change Except.ok (advanceEra c s n) = .ok s' at e
  cases e
  unfold advanceEra
  by_cases hn : n = 0
  · rw [if_pos hn]
  rw [if_neg hn]
  show commit s.rate (newRate c s) = s.rate
  cases hr : newRate c s with
  | error e => rfl
  | ok r =>
    show r = s.rate
    unfold newRate at hr
    by_cases h0 : s.tok.iss c.liquid = 0
    · rw [if_pos h0] at hr
      cases hr
      rfl
    · rw [if_neg h0] at hr
      simp only [bind_ok_iff, cadd_ok_iff, csub_ok_iff, okOr_ok_iff, pure_ok_iff] at hr
      obtain ⟨_, ⟨h1, rfl⟩, a, ⟨h2, rfl⟩, -⟩ := hr
      exact absurd ⟨h1, Nat.sub_add_cancel h2⟩ (h.resolve_left h0 _)

/-- **C179, commission.** For a reward of `r` the commission `k` is paid in new liquid tokens, at the rate that the tokens will
have with the rest of the reward. -/
theorem C179_inflate {r b k : Nat} (hl : s.tok.iss c.liquid ≠ 0) (hk : k = s.commission * r / DIV) (hr : r ≠ 0)
    (hc : s.commission ≠ 0) (hb : Backing c s b) (hf : b + r ≤ maxU128) (hkr : k < b + r) (hc1 : s.commission ≤ DIV)
    (hx : k * DIV / (b + r - k) * s.tok.iss c.liquid / DIV ≤ maxU128) (hy : k * DIV / (b + r - k) ≤ maxU128) :
    inflate c s r = .ok (k * DIV / (b + r - k) * s.tok.iss c.liquid / DIV) := by
  have hkm : s.commission * r / DIV ≤ maxU128 := by rw [← hk]; omega
  have hks : fixSatMul s.commission r = k := by
    unfold fixSatMul
    rw [hk]
    exact Nat.min_eq_right hkm
  have hsa : satAdd b r = b + r := by
    unfold satAdd
    omega
  have hfr : fixFromRational k (b + r - k) = some (k * DIV / (b + r - k)) := by
    rw [fixFromRational_iff]
    exact ⟨by omega, hy, rfl⟩
  unfold inflate
  rw [if_neg (by tauto)]
  simp only [bind_ok_iff, cadd_ok_iff, csub_ok_iff, pure_ok_iff]
  refine ⟨_, ⟨hb.1, rfl⟩, b, ⟨by have := hb.2; omega, by have := hb.2; omega⟩, ?_⟩
  rw [hks, hsa, hfr]
  unfold fixSatMul
  exact Nat.min_eq_right hx

/-- No commission is taken without liquid tokens, at rate 0, or without a reward. -/
theorem C179_inflate_zero {r : Nat} (h : s.tok.iss c.liquid = 0 ∨ s.commission = 0 ∨ r = 0) :
    inflate c s r = .ok 0 := by
  unfold inflate
  rw [if_pos h]

/-- **C179, reported ledger.** A ledger is accepted exactly if it is the one that the relay chain has, for an account that
has one, it shows a reward and no other change, no request is open and it is the first change of this account in the
block. -/
theorem C179_set_ledger {i : Nat} {n : SLedger} {proof : Bool} :
    exec c s (.setLedger i n proof) = .ok s' ↔ ∃ l, s.ledgers i = some l ∧
      (s.updated i = false ∧ s.reqs = []) ∧
      (l.total < n.total ∧ l.active < n.active ∧ n.unlocking = l.unlocking) ∧
      (proof = true ∧ s.relayLedger i = some n) ∧
      ∃ q t, inflate c s (n.total - l.total) = .ok q ∧ s.tok.mint c.liquid c.feeRecv q = .ok t ∧
        s' = { s.setTok t with ledgers := upd s.ledgers i (some n), updated := upd s.updated i true } := by
  constructor
  · intro h
    obtain ⟨l, q, t, h1, h2, h3, h4, h5, h6, h7, h8, h9, h10, h11⟩ := setLedger_view h
    exact ⟨l, h1, ⟨h2, h3⟩, ⟨h4, h5, h6⟩, ⟨h7, h8⟩, q, t, h9, h10, h11⟩
  · rintro ⟨l, h1, h2, h3, h4, q, t, h5, h6, rfl⟩
    show setLedger c s i n proof = _
    unfold setLedger
    simp only [bind_ok_iff, okOr_ok_iff, ensure_ok_iff, exists_const]
    refine ⟨l, h1, h2, h3, h4, q, h5, t, h6, ?_⟩
    exact updLedger_of (s := s.setTok t) h1 rfl

/-- **C179, ledger set by root.** -/
theorem C179_force_ledger {i : Nat} {n : SLedger} :
    exec c s (.forceLedger i n) = .ok s' ↔ (∃ l, s.ledgers i = some l) ∧ (s.updated i = false ∧ s.reqs = []) ∧
      s' = { s with ledgers := upd s.ledgers i (some n), updated := upd s.updated i true } := by
  show forceLedger s i n = .ok s' ↔ _
  unfold forceLedger
  simp only [bind_ok_iff, okOr_ok_iff, ensure_ok_iff, exists_const]
  constructor
  · rintro ⟨l, h1, h2, h3⟩
    rw [updLedger_of (l' := n) h1 rfl] at h3
    cases h3
    exact ⟨⟨l, h1⟩, h2, rfl⟩
  · rintro ⟨⟨l, h1⟩, h2, rfl⟩
    exact ⟨l, h1, h2, updLedger_of h1 rfl⟩

/-- The state in which a reward is reported. -/
def exP3 : State := pass exF5 100 exF5Ledger
example : exP3.tok.iss exC.liquid ≠ 0 ∧ exP3.commission ≠ 0 ∧
    totalActive exC exP3 + exP3.pool.stake.total ≤ maxU128 ∧
    exP3.pool.unstake.total ≤ totalActive exC exP3 + exP3.pool.stake.total ∧
    okAnd (exec exC exP3 (.setLedger 1 ⟨5870, 5870, []⟩ true))
      (fun t => okAnd (exec exC t (.forceAdvance 1)) (fun u => decide (t.rate < u.rate))) = true := by decide +kernel

/-! ## C73, the average strategy -/

/-- **C73.** The average strategy bonds to exactly those accounts that an equal share would bring to the minimum, and gives them
the share, or what the cap leaves. -/
theorem C73_average_bond (xs : List (Nat × Nat × Nat)) (input cap mb : Nat) (i m : Nat) :
    (i, m) ∈ Strategy.average.bond xs input cap mb ↔
      ∃ active total, (i, active, total) ∈ xs ∧ mb ≤ min maxU128 (input / xs.length + active) ∧
        m = min (cap - total) (input / xs.length) ∧ m ≠ 0 := by
  show (i, m) ∈ avgBond xs input cap mb ↔ _
  unfold avgBond
  rw [List.mem_filterMap]
  constructor
  · rintro ⟨⟨j, a, t⟩, hx, h⟩
    dsimp only at h
    split at h
    · cases h
    rename_i h1
    split at h
    · cases h
    rename_i h2
    cases h
    exact ⟨a, t, hx, not_lt.1 h1, rfl, h2⟩
  · rintro ⟨a, t, hx, h1, rfl, h2⟩
    refine ⟨(i, a, t), hx, ?_⟩
    have h1' : ¬ satAdd (input / xs.length) a < mb := not_lt.2 h1
    dsimp only
    rw [if_neg h1', if_neg h2]

/-- **C73.** Likewise for unbonding: the share is taken from exactly those accounts that keep the minimum. -/
theorem C73_average_unbond (xs : List (Nat × Nat)) (input mb : Nat) (i m : Nat) :
    (i, m) ∈ Strategy.average.unbond xs input mb ↔
      ∃ active, (i, active) ∈ xs ∧ mb ≤ active - m ∧ m = input / xs.length ∧ m ≠ 0 := by
  show (i, m) ∈ avgUnbond xs input mb ↔ _
  unfold avgUnbond
  rw [List.mem_filterMap]
  constructor
  · rintro ⟨⟨j, a⟩, hx, h⟩
    dsimp only at h
    split at h
    · cases h
    rename_i h1
    split at h
    · cases h
    rename_i h2
    cases h
    exact ⟨a, hx, not_lt.1 h1, rfl, h2⟩
  · rintro ⟨a, hx, h1, rfl, h2⟩
    refine ⟨(i, a), hx, ?_⟩
    dsimp only
    rw [if_neg (not_lt.2 h1), if_neg h2]

example : (0, 10) ∈ Strategy.average.bond [(0, 5, 20), (1, 0, 0)] 20 30 15 ∧ (1, 10) ∉ Strategy.average.bond [(0, 5, 20), (1, 0, 0)] 20 30 15 ∧
    (1, 10) ∈ Strategy.average.unbond [(0, 5), (1, 20)] 20 10 := by decide

/-! ## C180: settings and reserves -/

/-- **C180, settings.** -/
theorem C180_settings {x : Nat} :
    (exec c s (.setRf x) = .ok s' ↔ (0 < x ∧ x < 1000000) ∧ s' = { s with rf := x }) ∧
    (exec c s (.setUrf x) = .ok s' ↔ x < 1000000 ∧ s' = { s with urf := x }) ∧
    (exec c s (.setCap x) = .ok s' ↔ x ≠ 0 ∧ s' = { s with cap := x }) ∧
    (exec c s (.setCommission x) = .ok s' ↔ (0 < x ∧ x < DIV) ∧ s' = { s with commission := x }) := by
  refine ⟨?_, ?_, ?_, ?_⟩
  · show setRf s x = .ok s' ↔ _
    unfold setRf million
    simp only [bind_ok_iff, ensure_ok_iff, exists_const, pure_ok_iff]
    exact and_congr_right (fun _ => eq_comm)
  · show setUrf s x = .ok s' ↔ _
    unfold setUrf million
    simp only [bind_ok_iff, ensure_ok_iff, exists_const, pure_ok_iff]
    exact and_congr_right (fun _ => eq_comm)
  · show setCap s x = .ok s' ↔ _
    unfold setCap
    simp only [bind_ok_iff, ensure_ok_iff, exists_const, pure_ok_iff]
    exact and_congr_right (fun _ => eq_comm)
  · show setCommission s x = .ok s' ↔ _
    unfold setCommission
    simp only [bind_ok_iff, ensure_ok_iff, exists_const, pure_ok_iff]
    exact and_congr_right (fun _ => eq_comm)

/-- **C180, reserves.** At most the booked reserves are paid out, from the pallet's account, whole if wanted. -/
theorem C180_reserves {recv m : Nat} :
    (exec c s (.reduceReserves recv m) = .ok s' ↔ m ≤ s.reserves ∧
      ∃ l, s.tok.transfer c.staking c.acct recv m false = .ok l ∧
        s' = { s.setTok l with reserves := s.reserves - m }) ∧
    (exec c s (.reduceUReserves recv m) = .ok s' ↔ m ≤ s.ureserves ∧
      ∃ l, s.tok.transfer c.liquid c.acct recv m false = .ok l ∧
        s' = { s.setTok l with ureserves := s.ureserves - m }) := by
  refine ⟨?_, ?_⟩
  · show reduceReserves c s recv m = .ok s' ↔ _
    unfold reduceReserves
    simp only [bind_ok_iff, csub_ok_iff, pure_ok_iff]
    constructor
    · rintro ⟨t, ⟨h1, rfl⟩, l, h2, rfl⟩
      exact ⟨h1, l, h2, rfl⟩
    · rintro ⟨h1, l, h2, rfl⟩
      exact ⟨_, ⟨h1, rfl⟩, l, h2, rfl⟩
  · show reduceUReserves c s recv m = .ok s' ↔ _
    unfold reduceUReserves
    simp only [bind_ok_iff, csub_ok_iff, pure_ok_iff]
    constructor
    · rintro ⟨t, ⟨h1, rfl⟩, l, h2, rfl⟩
      exact ⟨h1, l, h2, rfl⟩
    · rintro ⟨h1, l, h2, rfl⟩
      exact ⟨_, ⟨h1, rfl⟩, l, h2, rfl⟩

/-- The settings that governance controls. -/
def Settings (s : State) : Nat × Nat × Nat × Nat := (s.rf, s.urf, s.cap, s.commission)
/-- A call that only governance may make, lib.rs:620-662, 1043-1063, 1084-1104. -/
def Call.sets : Call → Prop
  | .setRf _ | .setUrf _ | .setCap _ | .setCommission _ => True
  | _ => False

/-- **C180, frame.** No other call, of a user, of the relay chain or of a block, changes a setting. -/
theorem C180_frame {k : Call} (hk : ¬ k.sets) (e : exec c s k = .ok s') : Settings s' = Settings s := by
  have hadv : ∀ (x : State) n, Settings (advanceEra c x n) = Settings x := by
    intro x n
    unfold advanceEra
    split
    · rfl
    · rfl
  have hsent : ∀ {x y : State}, Sent c x y → Settings y = Settings x := by
    intro x y h; rw [h.frame]; rfl
  cases k <;> simp only [exec] at e
  case stake =>
    obtain ⟨_, _, _, _, _, _, _, _, _, _, _, rfl⟩ := stake_view e
    rfl
  case unstake w q p =>
    obtain ⟨_, _, _, ⟨_, rfl⟩ | ⟨_, e⟩⟩ := unstake_view e
    · rfl
    · obtain ⟨l1, l2, s1, _, _, e1, e2, e3, rfl⟩ := unstakeSlow_view e
      unfold viaLoans at e3
      split at e3
      · obtain ⟨_, _, _, _, _, _, _, _, _, _, _, hf⟩ := instantUnstake_view e3
        show Settings s1 = _
        rw [hf]
        rfl
      · cases e3; rfl
  case cancelUnstake => cases e; rfl
  case claimFor w =>
    obtain ⟨xs, s1, hxs, _, hle, hp, rfl⟩ := claimFor_view e
    unfold payClaim at hp
    split at hp
    · obtain ⟨_, _, _, _, _, _, _, _, _, hf⟩ := claimLoans_view hp
      show Settings s1 = _
      rw [hf]
      rfl
    · simp only [bind_ok_iff, pure_ok_iff] at hp
      obtain ⟨_, _, rfl⟩ := hp
      rfl
  case fastMatch ws =>
    clear hk
    induction ws generalizing s with
    | nil => simp only [fastMatchAll] at e; cases e; rfl
    | cons w ws ih =>
      simp only [fastMatchAll, bind_ok_iff] at e
      obtain ⟨s1, e1, e2⟩ := e
      refine (ih e2).trans ?_
      rcases fastMatch_view e1 with ⟨_, rfl⟩ | ⟨b, q, a, s2, _, _, _, _, e3, rfl⟩
      · rfl
      · unfold trySettle at e3
        split at e3
        · cases e3; rfl
        · obtain ⟨_, _, _, _, _, _, _, rfl⟩ := settleFast_view e3
          rfl
  case bond => exact hsent (doBond_sent e)
  case bondExtra => exact hsent (doBondExtra_sent e)
  case unbond => exact hsent (doUnbond_sent e)
  case rebond => exact hsent (doRebond_sent e)
  case withdraw => exact hsent (doWithdraw_sent e)
  case nominate => exact hsent (doNominate_sent e)
  case notify q ok =>
    rcases notify_view e with rfl | ⟨r, s1, _, hr, e1, rfl⟩
    · rfl
    · have : Settings s1 = Settings s := by
        cases r <;> simp only [applyReq, applyWithdraw, bind_ok_iff, ensure_ok_iff, exists_const, pure_ok_iff,
          okOr_ok_iff] at e1
        · obtain ⟨_, _, _, _, _, rfl⟩ := e1; rfl
        · obtain ⟨_, e0, _, _, _, _, rfl⟩ := e1
          obtain ⟨_, _, _, _, rfl⟩ := updLedger_view e0; rfl
        · obtain ⟨_, _, _, e0, _, _, rfl⟩ := e1
          obtain ⟨_, _, _, _, rfl⟩ := updLedger_view e0; rfl
        · obtain ⟨_, e0, _, _, rfl⟩ := e1
          obtain ⟨_, _, _, _, rfl⟩ := updLedger_view e0; rfl
        · obtain ⟨_, _, _, _, e0⟩ := e1
          obtain ⟨_, _, _, _, rfl⟩ := updLedger_view e0; rfl
        · cases e1; rfl
      exact this
  case setEraStart => cases e; rfl
  case forceEra => cases e; rfl
  case forceAdvance => cases e; exact hadv _ _
  case forceMatching => exact hsent (doMatching_sent e)
  case forceLedger =>
    obtain ⟨_, _, _, rfl⟩ := forceLedger_view e
    rfl
  case setEra =>
    simp only [setEra, bind_ok_iff, ensure_ok_iff, exists_const, pure_ok_iff] at e
    obtain ⟨_, rfl⟩ := e
    exact hadv _ _
  case setLedger =>
    obtain ⟨_, _, _, _, _, _, _, _, _, _, _, _, _, rfl⟩ := setLedger_view e
    rfl
  case reduceReserves =>
    simp only [reduceReserves, bind_ok_iff, csub_ok_iff, pure_ok_iff] at e
    obtain ⟨_, _, _, _, rfl⟩ := e
    rfl
  case reduceUReserves =>
    simp only [reduceUReserves, bind_ok_iff, csub_ok_iff, pure_ok_iff] at e
    obtain ⟨_, _, _, _, rfl⟩ := e
    rfl
  case setRf => exact absurd trivial hk
  case setUrf => exact absurd trivial hk
  case setCap => exact absurd trivial hk
  case setCommission => exact absurd trivial hk
  case onInit =>
    cases e
    unfold onInit
    rcases commit_cases s (initBlock c s) with e | e
    · simp only [initBlock, bind_ok_iff, pure_ok_iff] at e
      obtain ⟨s1, e1, e2⟩ := e
      have e3 : commit s (initBlock c s) = advanceEra c s1 (eraOffset c s1) := e2.symm
      rw [e3, hadv]
      exact hsent (initMatching_sent e1)
    · rw [e.1]
  case onFinalize => cases e; rfl

example : okAnd (exec exC ex2 (.reduceReserves 9 ex2.reserves)) (fun t => decide (t.reserves = 0)) = true ∧ ex2.reserves ≠ 0 ∧
    okAnd (exec exC ex2 (.setRf 1000000)) (fun _ => true) = false ∧ okAnd (exec exC ex2 (.setRf 20000)) (fun _ => true) = true := by
  decide +kernel

end Verif.Staking
