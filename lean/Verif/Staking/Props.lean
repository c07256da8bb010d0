import Verif.Staking.Fixture
import Mathlib.Logic.Relation

/-! # Properties C61 - C69: exchange rate, backing, claims, requests -/

set_option linter.unusedSimpArgs false
set_option linter.unusedVariables false

namespace Verif.Staking
open Verif

variable {c : Cfg} {s s' : State} {P : State → Call → Prop}

/-! ## Two overlapping rebonds, and a reward report after them -/

/-- Before the relay chain answers the first automatic rebond, the next era's matching sends a second one for the same
unlocking chunk. -/
def exR0 : State := run exC (pass (run exC (pass (run exC ex4 [.setCap 100000, .stake 7 3200]) 100 (fun _ => none))
  [.onInit]) 30 (fun _ => none)) [.onInit]
def exR1 : State := run exC (pass (run exC (pass (run exC exR0 [.stake 9 3200]) 100 (fun _ => none)) [.onInit]) 30
  (fun _ => none)) [.onInit]
/-- The relay chain executes the first in full and the second in part. -/
def exR2 : State := run exC exR1 [.notify 3 true, .notify 4 true, .onFinalize]
/-- The relay chain pays a reward of 1000; the commission is 90%. -/
def exRewarded : Nat → Option SLedger := fun i => if i = 1 then some ⟨5870, 5870, []⟩ else none
def exR3 : State := run exC (pass (run exC exR2 [.setCommission 900000000000000000]) 0 exRewarded)
  [.setLedger 1 ⟨5870, 5870, []⟩ true]

theorem exRewarded_consistent : ∀ i l, exRewarded i = some l → l.Consistent := by
  intro i l h
  unfold exRewarded at h
  split at h
  · cases h; exact ⟨by decide, by decide⟩
  · cases h

theorem exR1_reach : Reach exC exR1 :=
  run_reach (pass_reach exC_ok (run_reach (pass_reach exC_ok (run_reach (run_reach (pass_reach exC_ok (run_reach
    (pass_reach exC_ok (run_reach ex4_reach (by decide)) none_consistent) (by decide)) none_consistent) (by decide))
    (by decide)) none_consistent) (by decide)) none_consistent) (by decide)
theorem exR2_reach : Reach exC exR2 := run_reach exR1_reach (by decide)
theorem exR3_reach : Reach exC exR3 :=
  run_reach (pass_reach exC_ok (run_reach exR2_reach (by decide)) exRewarded_consistent) (by decide)

/-! ## C61 -/

theorem rate_step (h : Step c P s s') : s.rate ≤ s'.rate := by
  have hadv : ∀ (x : State) n, x.rate ≤ (advanceEra c x n).rate := by
    intro x n
    unfold advanceEra
    split
    · exact Nat.le_refl _
    · exact commit_newRate_ge
  have hsent : ∀ {x y : State}, Sent c x y → y.rate = x.rate := by
    intro x y h; rw [h.frame]
  cases h with
  | env e => rw [e.same]
  | call k hk hp e =>
    cases k <;> simp only [exec] at e
    case stake =>
      obtain ⟨_, _, _, _, _, _, _, _, _, _, _, rfl⟩ := stake_view e
      exact Nat.le_refl _
    case unstake w q p =>
      obtain ⟨_, _, _, ⟨_, rfl⟩ | ⟨_, e⟩⟩ := unstake_view e
      · exact Nat.le_refl _
      · obtain ⟨l1, l2, s1, _, _, e1, e2, e3, rfl⟩ := unstakeSlow_view e
        unfold viaLoans at e3
        split at e3
        · obtain ⟨_, _, _, _, _, _, _, _, _, _, _, hf⟩ := instantUnstake_view e3
          simp only
          rw [hf]
          exact Nat.le_refl _
        · cases e3; exact Nat.le_refl _
    case cancelUnstake => cases e; exact Nat.le_refl _
    case claimFor w =>
      obtain ⟨xs, s1, hxs, _, hle, hp, rfl⟩ := claimFor_view e
      unfold payClaim at hp
      split at hp
      · obtain ⟨_, _, _, _, _, _, _, _, _, hf⟩ := claimLoans_view hp
        simp only
        rw [hf]
      · simp only [bind_ok_iff, pure_ok_iff] at hp
        obtain ⟨_, _, rfl⟩ := hp
        exact Nat.le_refl _
    case fastMatch ws =>
      clear hp hk
      induction ws generalizing s with
      | nil => simp only [fastMatchAll] at e; cases e; exact Nat.le_refl _
      | cons w ws ih =>
        simp only [fastMatchAll, bind_ok_iff] at e
        obtain ⟨s1, e1, e2⟩ := e
        refine Nat.le_trans ?_ (ih e2)
        rcases fastMatch_view e1 with ⟨_, rfl⟩ | ⟨b, q, a, s2, _, _, _, _, e3, rfl⟩
        · exact Nat.le_refl _
        · unfold trySettle at e3
          split at e3
          · cases e3; exact Nat.le_refl _
          · obtain ⟨_, _, _, _, _, _, _, rfl⟩ := settleFast_view e3
            exact Nat.le_refl _
    case bond => rw [hsent (doBond_sent e)]
    case bondExtra => rw [hsent (doBondExtra_sent e)]
    case unbond => rw [hsent (doUnbond_sent e)]
    case rebond => rw [hsent (doRebond_sent e)]
    case withdraw => rw [hsent (doWithdraw_sent e)]
    case nominate => rw [hsent (doNominate_sent e)]
    case notify q ok =>
      rcases notify_view e with rfl | ⟨r, s1, _, hr, e1, rfl⟩
      · exact Nat.le_refl _
      · have : s1.rate = s.rate := by
          cases r <;> simp only [applyReq, applyWithdraw, bind_ok_iff, ensure_ok_iff, exists_const, pure_ok_iff,
            okOr_ok_iff] at e1
          · obtain ⟨_, _, _, _, _, rfl⟩ := e1; rfl
          · obtain ⟨_, e0, _, _, _, _, rfl⟩ := e1
            obtain ⟨_, _, _, _, rfl⟩ := updLedger_view e0; rfl
          · obtain ⟨_, _, _, e0, _, _, rfl⟩ := e1
            obtain ⟨_, _, _, _, rfl⟩ := updLedger_view e0; rfl
          · obtain ⟨_, e0, _, _, rfl⟩ := e1
            obtain ⟨_, _, _, _, rfl⟩ := updLedger_view e0; rfl
          · obtain ⟨_, _, _, _, e0⟩ := e1
            obtain ⟨_, _, _, _, rfl⟩ := updLedger_view e0; rfl
          · cases e1; rfl
        simp only
        rw [this]
    case setEraStart => cases e; exact Nat.le_refl _
    case forceEra => cases e; exact Nat.le_refl _
    case forceAdvance => cases e; exact hadv _ _
    case forceMatching => rw [hsent (doMatching_sent e)]
    case forceLedger =>
      obtain ⟨_, _, _, rfl⟩ := forceLedger_view e
      exact Nat.le_refl _
    case setEra =>
      simp only [setEra, bind_ok_iff, ensure_ok_iff, exists_const, pure_ok_iff] at e
      obtain ⟨_, rfl⟩ := e
      exact hadv _ _
    case setLedger =>
      obtain ⟨_, _, _, _, _, _, _, _, _, _, _, _, _, rfl⟩ := setLedger_view e
      exact Nat.le_refl _
    case reduceReserves =>
      simp only [reduceReserves, bind_ok_iff, csub_ok_iff, pure_ok_iff] at e
      obtain ⟨_, _, _, _, rfl⟩ := e
      exact Nat.le_refl _
    case reduceUReserves =>
      simp only [reduceUReserves, bind_ok_iff, csub_ok_iff, pure_ok_iff] at e
      obtain ⟨_, _, _, _, rfl⟩ := e
      exact Nat.le_refl _
    case setRf =>
      simp only [setRf, bind_ok_iff, ensure_ok_iff, exists_const, pure_ok_iff] at e
      obtain ⟨_, rfl⟩ := e
      exact Nat.le_refl _
    case setUrf =>
      simp only [setUrf, bind_ok_iff, ensure_ok_iff, exists_const, pure_ok_iff] at e
      obtain ⟨_, rfl⟩ := e
      exact Nat.le_refl _
    case setCap =>
      simp only [setCap, bind_ok_iff, ensure_ok_iff, exists_const, pure_ok_iff] at e
      obtain ⟨_, rfl⟩ := e
      exact Nat.le_refl _
    case setCommission =>
      simp only [setCommission, bind_ok_iff, ensure_ok_iff, exists_const, pure_ok_iff] at e
      obtain ⟨_, rfl⟩ := e
      exact Nat.le_refl _
    case onInit =>
      cases e
      unfold onInit
      rcases commit_cases s (initBlock c s) with e | e
      · simp only [initBlock, bind_ok_iff, pure_ok_iff] at e
        obtain ⟨s1, e1, e2⟩ := e
        have e3 : commit s (initBlock c s) = advanceEra c s1 (eraOffset c s1) := e2.symm
        rw [e3, ← hsent (initMatching_sent e1)]
        exact hadv _ _
      · rw [e.1]
    case onFinalize => cases e; exact Nat.le_refl _

/-- C61: whatever happens between two states, the exchange rate of the later one is not lower. -/
theorem C61_rate_monotone (h : Relation.ReflTransGen (Step c P) s s') : s.rate ≤ s'.rate := by
  induction h with
  | refl => exact Nat.le_refl _
  | tail _ hs ih => exact ih.trans (rate_step hs)

/-- Rewards do raise it: a reward of 1000 on index 0 is visible in the next era. -/
def exW : State := run exC (pass (run exC (pass ex2 0 (fun i => if i = 0 then some ⟨7000, 7000, []⟩ else none))
  [.onFinalize, .setLedger 0 ⟨7000, 7000, []⟩ true]) 100 (fun _ => none)) [.onInit]
example : ex2.rate = 1000000000000000000 ∧ exW.rate = 1082831600072979383 := by decide +kernel

/-! ## C62 -/

/-- C62, statement: after any history the liquid tokens, at the current rate, together with what waits to be unbonded,
are worth at most what is staked on the relay chain plus what waits to be bonded. -/
def C62_statement : Prop := ∀ (c : Cfg), c.Ok → ∀ s, Reach c s →
  s.rate * s.tok.iss c.liquid + s.pool.unstake.total * DIV ≤ (bonded c s + s.pool.stake.total) * DIV

/-- C62 fails when the relay chain executes only part of a rebond: 13721 tokens at rate 1, but 10870 staked. -/
theorem C62_refuted : ¬ C62_statement := by
  intro h
  have := h exC exC_ok exR2 exR2_reach
  revert this
  decide +kernel

/-- C62, partial: it holds in all histories in which every rebond the relay chain reports as executed was executed in
full, and in which the staked total fits `u128`. -/
theorem C62_covered_partial (hc : c.Ok) (h : ReachP c (FullRebond c) s) :
    s.rate * s.tok.iss c.liquid + s.pool.unstake.total * DIV ≤ (bonded c s + s.pool.stake.total) * DIV :=
  h.covered hc (fun _ _ h => h)

/-! ## C63 -/

/-- C63, statement: after any history, all liquid tokens at the current rate, all claims of unstakers and the reserves
together are worth at most what the pallet holds plus what its derivative accounts have on the relay chain. -/
def C63_statement : Prop := ∀ (c : Cfg), c.Ok → ∀ s, Reach c s → ∀ S : Finset Nat,
  s.rate * s.tok.iss c.liquid + (s.reserves + ∑ w ∈ S, owed s w) * DIV ≤
    (held c s + bonded c s + unbonding c s) * DIV

/-- C63 fails when the commission on a reward is computed after a partly executed rebond. -/
theorem C63_refuted : ¬ C63_statement := by
  intro h
  have := h exC exC_ok exR3 exR3_reach {7, 100}
  revert this
  decide +kernel

/-- C63, partial: it holds in all histories in which rewards fit `u128` and are reported only while the liquid tokens
are covered (C62); rebonds may be executed in part. -/
theorem C63_solvent_partial (hc : c.Ok) (h : ReachP c (FairReward c) s) (S : Finset Nat) :
    s.rate * s.tok.iss c.liquid + (s.reserves + ∑ w ∈ S, owed s w) * DIV ≤
      (held c s + bonded c s + unbonding c s) * DIV := by
  obtain ⟨u, h1, h2⟩ := h.solvent hc (fun _ _ h => h)
  have := h1.le S
  have : (s.reserves + ∑ w ∈ S, owed s w) * DIV ≤ (s.reserves + u) * DIV := Nat.mul_le_mul_right _ (by omega)
  omega

/-- C63, partial: in particular it holds in the histories of C62. -/
theorem C63_solvent_full_rebonds_partial (hc : c.Ok) (h : ReachP c (FullRebond c) s) (S : Finset Nat) :
    s.rate * s.tok.iss c.liquid + (s.reserves + ∑ w ∈ S, owed s w) * DIV ≤
      (held c s + bonded c s + unbonding c s) * DIV := by
  refine C63_solvent_partial hc ?_ S
  have : ReachP c (fun s k => FullRebond c s k ∧ Covered c s) s := by
    induction h with
    | init h => exact .init h
    | step h1 hs ih =>
      refine .step ih ?_
      cases hs with
      | call k hk hp e => exact .call k hk ⟨hp, C62_covered_partial hc h1⟩ e
      | env e => exact .env e
  clear h
  induction this with
  | init h => exact .init h
  | step h1 hs ih =>
    refine .step ih ?_
    cases hs with
    | call k hk hp e =>
      refine .call k hk ?_ e
      cases k <;> trivial
    | env e => exact .env e

/-! ## C64 -/

/-- C64: after any history the claims of all unstakers together are covered by what the pallet holds beyond the reserves
and the pooled stake, what is unbonding on the relay chain, and what waits to be unbonded. -/
theorem C64_claims_backed (hc : c.Ok) (h : ReachP c P s) (S : Finset Nat) :
    s.reserves + s.pool.stake.total + ∑ w ∈ S, owed s w ≤ held c s + unbonding c s + s.pool.unstake.total := by
  have h1 := (h.inv hc).claims S
  have h2 := (h.inv hc).solv
  omega

example : Reach exC ex3 ∧ owed ex3 7 = 2970 ∧ owed ex3 100 = 495 ∧ ex3.pool.unstake.total = 3465 :=
  ⟨ex3_reach, by decide +kernel⟩
example : Reach exC ex4 ∧ owed ex4 7 = 2970 ∧ owed ex4 100 = 495 ∧ unbonding exC ex4 = 3465 :=
  ⟨ex4_reach, by decide +kernel⟩

/-! ## C65 -/

/-- C65: after any history the pallet's account holds the reserves and all of the pooled stake. -/
theorem C65_pool_held (hc : c.Ok) (h : ReachP c P s) : s.reserves + s.pool.stake.total ≤ s.tok.bal c.staking c.acct :=
  (h.inv hc).solv

example : Reach exC ex1 ∧ ex1.reserves = 110 ∧ ex1.pool.stake.total = 10870 := ⟨ex1_reach, by decide +kernel⟩

/-! ## C66 -/

/-- C66: after any history the amounts locked in the matching pool are exactly those of the requests in flight, and
they are there. -/
theorem C66_locks_exact (hc : c.Ok) (h : ReachP c P s) :
    s.pool.stake.reserved = (s.reqs.map (fun x => x.2.stakeAmt)).sum ∧
    s.pool.unstake.reserved = (s.reqs.map (fun x => x.2.unstakeAmt)).sum ∧
    s.pool.stake.reserved ≤ s.pool.stake.total ∧ s.pool.unstake.reserved ≤ s.pool.unstake.total :=
  ⟨(h.inv hc).sres, (h.inv hc).ures, (h.inv hc).sle, (h.inv hc).ule⟩

theorem findReq_of_mem {xs : List (Nat × Req)} {q : Nat} {r : Req} (hn : (xs.map Prod.fst).Nodup) (h : (q, r) ∈ xs) :
    findReq xs q = some r := by
  induction xs with
  | nil => cases h
  | cons x xs ih =>
    rw [List.map_cons, List.nodup_cons] at hn
    unfold findReq
    rw [List.find?_cons]
    by_cases hx : x.1 = q
    · have hxr : x = (q, r) := by
        rcases List.mem_cons.1 h with h | h
        · exact h.symm
        · exfalso
          exact hn.1 (by rw [hx]; exact List.mem_map.2 ⟨(q, r), h, rfl⟩)
      subst hxr
      simp
    · have h' : (q, r) ∈ xs := by
        rcases List.mem_cons.1 h with h | h
        · exact absurd (by rw [← h]) hx
        · exact h
      have : (x.1 == q) = false := by simpa using hx
      rw [this]
      exact ih hn.2 h'

theorem mem_stakeAmt {xs : List (Nat × Req)} {x : Nat × Req} (f : Req → Nat) (h : x ∈ xs) :
    f x.2 ≤ (xs.map (fun x => f x.2)).sum := by
  induction xs with
  | nil => cases h
  | cons y ys ih =>
    rw [List.map_cons, List.sum_cons]
    rcases List.mem_cons.1 h with rfl | h
    · omega
    · have := ih h; omega

theorem notify_of {q : Nat} {r : Req} {s1 : State} (hr : findReq s.reqs q = some r) (h : applyReq c s r = .ok s1) :
    ∃ s', notify c s q true = .ok s' := by
  unfold notify
  rw [hr]
  simp only [Bool.true_eq_false, if_false]
  rw [h]
  exact ⟨_, rfl⟩

theorem updLedger_of {i : Nat} {l l' : SLedger} {f : SLedger → R SLedger} (h1 : s.ledgers i = some l) (h2 : f l = .ok l') :
    updLedger s i f = .ok { s with ledgers := upd s.ledgers i (some l'), updated := upd s.updated i true } := by
  unfold updLedger
  rw [h1]
  simp only [okOr_some, ok_bind]
  rw [h2]
  rfl

/-- C66: the response that a rebond in flight was executed is always accepted. -/
theorem C66_rebond_accepted (hc : c.Ok) (h : ReachP c P s) {q i m : Nat} (hq : (q, Req.rebond i m) ∈ s.reqs) :
    ∃ s', notify c s q true = .ok s' := by
  have hi := h.inv hc
  have hl := hi.live _ hq rfl
  simp only [Req.idx] at hl
  obtain ⟨l, hl⟩ := Option.ne_none_iff_exists'.1 hl
  obtain ⟨l', hl'⟩ := SLedger.rebond_total m (hi.cons i l hl)
  have h1 : m ≤ _ := mem_stakeAmt Req.stakeAmt hq
  rw [← hi.sres] at h1
  obtain ⟨p, hp⟩ := Pool.consolidateStake_total (p := s.pool) h1 hi.sle hi.ule
  refine notify_of (s1 := { s with ledgers := upd s.ledgers i (some l'), updated := upd s.updated i true, pool := p })
    (findReq_of_mem hi.nodup hq) ?_
  simp only [applyReq]
  rw [updLedger_of hl hl']
  simp only [ok_bind]
  rw [hp]
  rfl

/-- C66: the response that an extra bond in flight was executed is always accepted, if the ledger's total fits
`u128`. -/
theorem C66_bondExtra_accepted (hc : c.Ok) (h : ReachP c P s) {q i m : Nat} (hq : (q, Req.bondExtra i m) ∈ s.reqs)
    (hfit : totalOf s i + m ≤ maxU128) : ∃ s', notify c s q true = .ok s' := by
  have hi := h.inv hc
  have hl := hi.live _ hq rfl
  simp only [Req.idx] at hl
  obtain ⟨l, hl⟩ := Option.ne_none_iff_exists'.1 hl
  have ht : totalOf s i = l.total := by unfold totalOf; rw [hl]
  rw [ht] at hfit
  have hcons := (hi.cons i l hl).1
  have hl' : l.bondExtra m = .ok { l with total := l.total + m, active := l.active + m } := by
    unfold SLedger.bondExtra
    rw [cadd_ok_iff.2 ⟨hfit, rfl⟩, cadd_ok_iff.2 ⟨(by omega : l.active + m ≤ maxU128), rfl⟩]
    rfl
  have h1 : m ≤ _ := mem_stakeAmt Req.stakeAmt hq
  rw [← hi.sres] at h1
  obtain ⟨p, hp⟩ := Pool.consolidateStake_total (p := s.pool) h1 hi.sle hi.ule
  have hh : m ≤ s.tok.bal c.staking c.acct := by
    have := hi.sle; have := hi.solv
    unfold held at this
    omega
  obtain ⟨t, ht⟩ := Ledger.burn_succeeds hh
  refine notify_of (s1 := { s.setTok t with
    ledgers := upd s.ledgers i (some { l with total := l.total + m, active := l.active + m }),
    updated := upd s.updated i true,
    pool := p }) (findReq_of_mem hi.nodup hq) ?_
  simp only [applyReq]
  rw [updLedger_of hl hl']
  simp only [ok_bind]
  rw [hp]
  simp only [ok_bind]
  have : ({ s with
    ledgers := upd s.ledgers i (some { l with total := l.total + m, active := l.active + m }),
    updated := upd s.updated i true } : State).tok = s.tok := rfl
  rw [this, ht]
  rfl

/-- C66: the response that a first bond in flight was executed is accepted unless another first bond of the same account
was answered before. -/
theorem C66_bond_accepted (hc : c.Ok) (h : ReachP c P s) {q i m : Nat} (hq : (q, Req.bond i m) ∈ s.reqs)
    (hn : s.ledgers i = none) : ∃ s', notify c s q true = .ok s' := by
  have hi := h.inv hc
  have h1 : m ≤ _ := mem_stakeAmt Req.stakeAmt hq
  rw [← hi.sres] at h1
  obtain ⟨p, hp⟩ := Pool.consolidateStake_total (p := s.pool) h1 hi.sle hi.ule
  have hh : m ≤ s.tok.bal c.staking c.acct := by
    have := hi.sle; have := hi.solv
    unfold held at this
    omega
  obtain ⟨t, ht⟩ := Ledger.burn_succeeds hh
  refine notify_of (s1 := { s.setTok t with ledgers := upd s.ledgers i (some (.new m)), pool := p })
    (findReq_of_mem hi.nodup hq) ?_
  simp only [applyReq]
  rw [ensure_of (by rw [hn]; rfl)]
  simp only [ok_bind]
  rw [hp]
  simp only [ok_bind]
  rw [ht]
  rfl

/-- C66: the response that an unbond in flight was executed is accepted unless less than its amount is left active. -/
theorem C66_unbond_accepted (hc : c.Ok) (h : ReachP c P s) {q i m : Nat} (hq : (q, Req.unbond i m) ∈ s.reqs)
    (ha : m ≤ activeOf s i) (he : s.era + c.bonding ≤ maxU32) : ∃ s', notify c s q true = .ok s' := by
  have hi := h.inv hc
  have hl := hi.live _ hq rfl
  simp only [Req.idx] at hl
  obtain ⟨l, hl⟩ := Option.ne_none_iff_exists'.1 hl
  have ht : activeOf s i = l.active := by unfold activeOf; rw [hl]
  rw [ht] at ha
  have hl' : l.unbond m (s.era + c.bonding) = .ok { l with
      active := l.active - m,
      unlocking := pushChunk l.unlocking m (s.era + c.bonding) } := by
    unfold SLedger.unbond
    rw [csub_ok_iff.2 ⟨ha, rfl⟩]
    rfl
  have h1 : m ≤ _ := mem_stakeAmt Req.unstakeAmt hq
  rw [← hi.ures] at h1
  obtain ⟨p, hp⟩ := Pool.consolidateUnstake_total (p := s.pool) h1 hi.sle hi.ule
  refine notify_of (s1 := { s with
    ledgers := upd s.ledgers i (some { l with
      active := l.active - m,
      unlocking := pushChunk l.unlocking m (s.era + c.bonding) }),
    updated := upd s.updated i true,
    pool := p }) (findReq_of_mem hi.nodup hq) ?_
  simp only [applyReq]
  rw [eraAdd_ok_iff.2 ⟨he, rfl⟩]
  simp only [ok_bind]
  rw [updLedger_of hl hl']
  simp only [ok_bind]
  rw [hp]
  rfl

example : Reach exC ex1 ∧ ex1.reqs = [(0, .bond 0 6000), (1, .bond 1 4870)] ∧ ex1.ledgers 0 = none :=
  ⟨ex1_reach, by decide +kernel⟩
example : Reach exC ex3 ∧ ex3.reqs = [(2, .unbond 0 3465)] ∧ activeOf ex3 0 = 6000 := ⟨ex3_reach, by decide +kernel⟩
example : Reach exC exR1 ∧ exR1.reqs = [(3, .rebond 0 3158), (4, .rebond 0 3158)] := ⟨exR1_reach, by decide +kernel⟩

/-! ## C67 -/

/-- C67: a response that reports a failure, or that answers no request in flight, changes nothing. -/
theorem C67_failed_or_unknown {q : Nat} {ok : Bool} (h : ok = false ∨ ∀ r, (q, r) ∉ s.reqs) :
    notify c s q ok = .ok s := by
  unfold notify
  cases hr : findReq s.reqs q with
  | none => rfl
  | some r =>
    have hm := findReq_mem hr
    rcases h with h | h
    · simp [h]
    · exact absurd hm (h r)

/-- Requests that are gone do not come back. -/
def Gone (q : Nat) (s : State) : Prop := q < s.nextId ∧ ∀ r, (q, r) ∉ s.reqs

theorem gone_of_sent {q : Nat} (h : Gone q s) (e : Sent c s s') : Gone q s' := by
  obtain ⟨rs, hr, hn, hi, _⟩ := e.new
  refine ⟨by rw [hn]; have := h.1; omega, ?_⟩
  intro r hm
  rw [hr] at hm
  rcases List.mem_append.1 hm with h1 | h1
  · exact h.2 r h1
  · have h2 : q ∈ rs.map Prod.fst := List.mem_map.2 ⟨(q, r), h1, rfl⟩
    rw [hi, List.mem_range'_1] at h2
    have := h.1
    omega

theorem gone_frame {q : Nat} (h : Gone q s) (h1 : s'.reqs = s.reqs) (h2 : s.nextId ≤ s'.nextId) : Gone q s' :=
  ⟨h.1.trans_le h2, by rw [h1]; exact h.2⟩

theorem reqs_frame_fastMatchAll (hc : c.Ok) : ∀ {ws : List Nat} {s s' : State},
    fastMatchAll c s ws = .ok s' → s'.reqs = s.reqs ∧ s'.nextId = s.nextId
  | [], s, s', e => by simp only [fastMatchAll] at e; cases e; exact ⟨rfl, rfl⟩
  | w :: ws, s, s', e => by
    simp only [fastMatchAll, bind_ok_iff] at e
    obtain ⟨s1, e1, e2⟩ := e
    obtain ⟨i1, i2⟩ := reqs_frame_fastMatchAll hc e2
    rw [i1, i2]
    rcases fastMatch_view e1 with ⟨_, rfl⟩ | ⟨b, q, a, s2, _, _, _, _, e3, rfl⟩
    · exact ⟨rfl, rfl⟩
    · unfold trySettle at e3
      split at e3
      · cases e3; exact ⟨rfl, rfl⟩
      · obtain ⟨_, _, _, _, _, _, _, rfl⟩ := settleFast_view e3
        exact ⟨rfl, rfl⟩

theorem gone_step (hc : c.Ok) {q : Nat} (hi : Inv c s) (h : Gone q s) (hs : Step c P s s') : Gone q s' := by
  cases hs with
  | env e => exact gone_frame h (by rw [e.same]) e.ids
  | call k hk hp e =>
    cases k <;> simp only [exec] at e
    case stake =>
      obtain ⟨_, _, _, _, _, _, _, _, _, _, _, rfl⟩ := stake_view e
      exact h
    case unstake w q p =>
      obtain ⟨_, _, _, ⟨_, rfl⟩ | ⟨_, e⟩⟩ := unstake_view e
      · exact h
      · obtain ⟨hf, _⟩ := unstakeSlow_eff hc hk e
        exact gone_frame h (by rw [hf]) (by rw [hf])
    case cancelUnstake => cases e; exact h
    case claimFor w =>
      obtain ⟨xs, s1, hxs, _, hle, hp, rfl⟩ := claimFor_view e
      obtain ⟨hf, _⟩ := payClaim_eff hc hp
      exact gone_frame h (by rw [hf]) (by rw [hf])
    case fastMatch ws =>
      obtain ⟨h1, h2⟩ := reqs_frame_fastMatchAll hc e
      exact gone_frame h h1 (by rw [h2])
    case bond => exact gone_of_sent h (doBond_sent e)
    case bondExtra => exact gone_of_sent h (doBondExtra_sent e)
    case unbond => exact gone_of_sent h (doUnbond_sent e)
    case rebond => exact gone_of_sent h (doRebond_sent e)
    case withdraw => exact gone_of_sent h (doWithdraw_sent e)
    case nominate => exact gone_of_sent h (doNominate_sent e)
    case notify q' ok =>
      rcases notify_view e with rfl | ⟨r, s1, _, hr, e1, rfl⟩
      · exact h
      · have a := applyReq_eff hc hi e1
        have k1 : s1.reqs = s.reqs := by rw [a.frame]
        have k2 : s1.nextId = s.nextId := by rw [a.frame]
        refine ⟨by simp only [k2]; exact h.1, ?_⟩
        intro r hm
        simp only [k1, List.mem_filter] at hm
        exact h.2 r hm.1
    case setEraStart => cases e; exact h
    case forceEra => cases e; exact h
    case forceAdvance => cases e; rw [advanceEra_frame]; exact h
    case forceMatching => exact gone_of_sent h (doMatching_sent e)
    case forceLedger =>
      obtain ⟨_, _, _, rfl⟩ := forceLedger_view e
      exact h
    case setEra =>
      simp only [setEra, bind_ok_iff, ensure_ok_iff, exists_const, pure_ok_iff] at e
      obtain ⟨_, rfl⟩ := e
      rw [advanceEra_frame]
      exact h
    case setLedger =>
      obtain ⟨_, _, _, _, _, _, _, _, _, _, _, _, _, rfl⟩ := setLedger_view e
      exact h
    case reduceReserves =>
      simp only [reduceReserves, bind_ok_iff, csub_ok_iff, pure_ok_iff] at e
      obtain ⟨_, _, _, _, rfl⟩ := e
      exact h
    case reduceUReserves =>
      simp only [reduceUReserves, bind_ok_iff, csub_ok_iff, pure_ok_iff] at e
      obtain ⟨_, _, _, _, rfl⟩ := e
      exact h
    case setRf =>
      simp only [setRf, bind_ok_iff, ensure_ok_iff, exists_const, pure_ok_iff] at e
      obtain ⟨_, rfl⟩ := e
      exact h
    case setUrf =>
      simp only [setUrf, bind_ok_iff, ensure_ok_iff, exists_const, pure_ok_iff] at e
      obtain ⟨_, rfl⟩ := e
      exact h
    case setCap =>
      simp only [setCap, bind_ok_iff, ensure_ok_iff, exists_const, pure_ok_iff] at e
      obtain ⟨_, rfl⟩ := e
      exact h
    case setCommission =>
      simp only [setCommission, bind_ok_iff, ensure_ok_iff, exists_const, pure_ok_iff] at e
      obtain ⟨_, rfl⟩ := e
      exact h
    case onInit =>
      cases e
      unfold onInit
      rcases commit_cases s (initBlock c s) with e | e
      · simp only [initBlock, bind_ok_iff, pure_ok_iff] at e
        obtain ⟨s1, e1, e2⟩ := e
        have e3 : commit s (initBlock c s) = advanceEra c s1 (eraOffset c s1) := e2.symm
        rw [e3, advanceEra_frame]
        have hg := gone_of_sent h (initMatching_sent e1)
        exact hg
      · rw [e.1]; exact h
    case onFinalize => cases e; exact h

/-- C67: once the response that a request in flight was executed has been accepted, every later response with the same id
changes nothing, in whatever state: a request is applied at most once. -/
theorem C67_once (hc : c.Ok) (h : ReachP c P s) {q : Nat} {r : Req} (hr : (q, r) ∈ s.reqs) {s1 s2 : State}
    (e : notify c s q true = .ok s1) (hs : Relation.ReflTransGen (Step c P) s1 s2) (hp : P s (.notify q true)) (ok : Bool) :
    notify c s2 q ok = .ok s2 := by
  have hi := h.inv hc
  have hg : Gone q s1 := by
    rcases notify_view e with rfl | ⟨r', s0, _, hr', e1, rfl⟩
    · exfalso
      unfold notify at e
      rw [findReq_of_mem hi.nodup hr] at e
      simp only [Bool.true_eq_false, if_false, bind_ok_iff, pure_ok_iff] at e
      obtain ⟨s0, e1, e2⟩ := e
      have a := applyReq_eff hc hi e1
      have h1 : s1.reqs = s0.reqs.filter (fun x => x.1 != q) := by
        conv_lhs => rw [← e2]
      rw [h1, List.mem_filter] at hr
      simp at hr
    · have a := applyReq_eff hc hi e1
      have k1 : s0.reqs = s.reqs := by rw [a.frame]
      have k2 : s0.nextId = s.nextId := by rw [a.frame]
      refine ⟨by simp only [k2]; exact hi.ids _ hr, ?_⟩
      intro r hm
      simp only [List.mem_filter] at hm
      simp at hm
  have hr1 : ReachP c P s1 := .step h (.call (.notify q true) trivial hp (by simp only [exec]; exact e))
  have : Gone q s2 ∧ ReachP c P s2 := by
    induction hs with
    | refl => exact ⟨hg, hr1⟩
    | tail _ hs ih => exact ⟨gone_step hc (ih.2.inv hc) ih.1 hs, .step ih.2 hs⟩
  exact C67_failed_or_unknown (.inr this.1.2)

example : Reach exC ex1 ∧ (0, Req.bond 0 6000) ∈ ex1.reqs ∧ okAnd (notify exC ex1 0 true) (fun _ => true) = true :=
  ⟨ex1_reach, by decide +kernel, by decide +kernel⟩

/-! ## C68 -/

/-- C68: after any history the total of every staking ledger is its active stake plus all of its unlocking chunks. -/
theorem C68_ledger_total (hc : c.Ok) (h : ReachP c P s) {i : Nat} {l : SLedger} (hl : s.ledgers i = some l) :
    l.total = l.active + (l.unlocking.map Chunk.value).sum :=
  ((h.inv hc).cons i l hl).1

example : Reach exC ex4 ∧ ex4.ledgers 0 = some ⟨6000, 2535, [⟨3465, 29⟩]⟩ := ⟨ex4_reach, by decide +kernel⟩

/-! ## C69 -/

/-- C69 (a): a claim pays exactly the chunks that are due, to the account itself, and keeps the others. -/
theorem C69_claim_exact {w : Nat} (hw : w ≠ c.lo.acct) (hwa : w ≠ c.acct) (e : claimFor c s w = .ok s') :
    s'.tok.bal c.staking w = s.tok.bal c.staking w + due s s.era w ∧ due s s.era w ≠ 0 ∧
    (s'.unlockings w).getD [] = ((s.unlockings w).getD []).filter (fun ch => decide (s.era < ch.era)) ∧
    due s' s.era w = 0 ∧ owed s' w + due s s.era w = owed s w ∧
    ∀ v, v ≠ w → s'.unlockings v = s.unlockings v := by
  obtain ⟨xs, s1, hxs, hne, hle, hp, rfl⟩ := claimFor_view e
  unfold payClaim at hp
  rw [if_neg (by unfold Cfg.loansAcct; exact hw)] at hp
  simp only [bind_ok_iff, pure_ok_iff] at hp
  obtain ⟨l, hl, rfl⟩ := hp
  have b := Ledger.transfer_bal hl c.staking w
  simp [hwa] at b
  have hd : due s s.era w = dueSum s.era xs := by unfold due; rw [hxs]; rfl
  have ho : owed s w = chunkSum xs := by unfold owed; rw [hxs]; rfl
  have h1 := due_add_rest s.era xs
  refine ⟨by rw [hd]; exact b, by rw [hd]; exact hne, ?_, ?_, ?_, ?_⟩
  · simp only [upd_same, retained_getD, hxs, Option.getD_some]
  · unfold due
    simp only [upd_same, retained_getD]
    exact rest_due _ _
  · rw [hd, ho]
    unfold owed
    simp only [upd_same, retained_getD]
    omega
  · intro v hv
    exact upd_of_ne _ _ hv

/-- C69 (b): what is unstaked now is not due before `BondingDuration + 1` eras from now, and nothing else becomes due
earlier or later. -/
theorem C69_not_early {w q r : Nat} {p : Provider} (hc : c.Ok) (hw : w ≠ c.acct) (hp : p ≠ .pool)
    (e : unstake c s w q p = .ok s') {t v : Nat} (ht : t < s.era + c.bonding + 1) : due s' t v = due s t v := by
  obtain ⟨_, _, _, ⟨h, _⟩ | ⟨_, e⟩⟩ := unstake_view e
  · exact absurd h hp
  · obtain ⟨hf, _⟩ := unstakeSlow_eff hc hw e
    unfold due
    rw [hf]
    simp only [upd_apply]
    split
    · rename_i hv
      subst hv
      simp only [Option.getD_some]
      exact pushChunk_due _ _ _ _ ht
    · rfl

/-- C69 (c): from then on it is due in full. -/
theorem C69_due_later {w q : Nat} {p : Provider} (hc : c.Ok) (hw : w ≠ c.acct) (hp : p ≠ .pool)
    (e : unstake c s w q p = .ok s') {t : Nat} (ht : s.era + c.bonding + 1 ≤ t)
    (hfit : owed s (unlockKey c w p) + s.rate * (q - pmulFloor s.urf q) / DIV ≤ maxU128) :
    due s' t (unlockKey c w p) = due s t (unlockKey c w p) + s.rate * (q - pmulFloor s.urf q) / DIV := by
  obtain ⟨_, _, _, ⟨h, _⟩ | ⟨_, e⟩⟩ := unstake_view e
  · exact absurd h hp
  · obtain ⟨hf, _⟩ := unstakeSlow_eff hc hw e
    unfold due
    rw [hf]
    simp only [upd_same, Option.getD_some]
    exact pushChunk_due' _ _ _ _ ht hfit

/-- C69 (d): a claim of a due amount succeeds as soon as the pallet holds it beyond the reserves and the pooled stake. -/
theorem C69_claim_succeeds (hc : c.Ok) (h : ReachP c P s) {w : Nat} (hw : w ≠ c.lo.acct) (h0 : due s s.era w ≠ 0)
    (hb : due s s.era w + s.reserves + s.pool.stake.total ≤ s.tok.bal c.staking c.acct) :
    ∃ s', claimFor c s w = .ok s' := by
  have hi := h.inv hc
  have hi1 := Ledger.bal_le_iss hi.wf c.staking c.acct
  have hi2 := (hi.wf c.staking).2
  cases hx : s.unlockings w with
  | none => exact absurd (by unfold due; rw [hx]; rfl) h0
  | some xs =>
    have hd : due s s.era w = dueSum s.era xs := by unfold due; rw [hx]; rfl
    rw [hd] at h0 hb
    obtain ⟨l, hl⟩ := Ledger.transfer_succeeds (l := s.tok) (a := c.staking) (s := c.acct) (d := w)
      (m := dueSum s.era xs) (k := false) (by omega) (by simp)
    unfold claimFor
    rw [hx]
    simp only [okOr_some, ok_bind]
    rw [sumDue_total (by omega)]
    simp only [ok_bind]
    rw [ensure_of h0, ensure_of (by
      unfold unclaimed
      rw [reducible_false]
      omega)]
    simp only [ok_bind, payClaim]
    rw [if_neg (by unfold Cfg.loansAcct; exact hw), hl]
    exact ⟨_, rfl⟩

/-- The effect of each call on the log and on the queues. -/
theorem log_call {k : Call} (hc : c.Ok) (hi : Inv c s) (hk : k.ok c s) (e : exec c s k = .ok s') :
    (s'.unlockings = s.unlockings ∧ ((s'.log = s.log) ∨ ∃ w m, s'.log = .staked w m :: s.log)) ∨
    (∃ w q p m, k = .unstake w q p ∧ m = s.rate * (q - pmulFloor s.urf q) / DIV ∧
      s'.unlockings = upd s.unlockings (unlockKey c w p) (some (pushChunk
        ((s.unlockings (unlockKey c w p)).getD []) m (s.era + c.bonding + 1))) ∧
      s'.log = .unstaked (unlockKey c w p) m :: s.log) ∨
    (∃ w xs, k = .claimFor w ∧ s.unlockings w = some xs ∧ s'.unlockings = upd s.unlockings w (retained s.era xs) ∧
      s'.log = .claimed w (dueSum s.era xs) :: s.log) := by
  have hsent : ∀ {x y : State}, Sent c x y → y.unlockings = x.unlockings ∧ (y.log = x.log ∨ ∃ w m, y.log = .staked w m :: x.log) := by
    intro x y h; rw [h.frame]; exact ⟨rfl, .inl rfl⟩
  cases k <;> simp only [exec] at e
  case stake =>
    obtain ⟨_, _, _, _, _, _, _, _, _, _, _, rfl⟩ := stake_view e
    exact .inl ⟨rfl, .inr ⟨_, _, rfl⟩⟩
  case unstake w q p =>
    obtain ⟨_, _, _, ⟨_, rfl⟩ | ⟨_, e⟩⟩ := unstake_view e
    · exact .inl ⟨rfl, .inl rfl⟩
    · obtain ⟨hf, _⟩ := unstakeSlow_eff hc hk e
      refine .inr (.inl ⟨w, q, p, _, rfl, rfl, ?_, ?_⟩)
      · rw [hf]
      · rw [hf]
  case cancelUnstake => cases e; exact .inl ⟨rfl, .inl rfl⟩
  case claimFor w =>
    obtain ⟨xs, s1, hxs, _, hle, hp, rfl⟩ := claimFor_view e
    exact .inr (.inr ⟨w, xs, rfl, hxs, rfl, rfl⟩)
  case fastMatch ws =>
    left
    suffices h : s'.unlockings = s.unlockings ∧ s'.log = s.log from ⟨h.1, .inl h.2⟩
    clear hk hi
    induction ws generalizing s with
    | nil => simp only [fastMatchAll] at e; cases e; exact ⟨rfl, rfl⟩
    | cons w ws ih =>
      simp only [fastMatchAll, bind_ok_iff] at e
      obtain ⟨s1, e1, e2⟩ := e
      obtain ⟨i1, i2⟩ := ih e2
      rw [i1, i2]
      rcases fastMatch_view e1 with ⟨_, rfl⟩ | ⟨b, q, a, s2, _, _, _, _, e3, rfl⟩
      · exact ⟨rfl, rfl⟩
      · unfold trySettle at e3
        split at e3
        · cases e3; exact ⟨rfl, rfl⟩
        · obtain ⟨_, _, _, _, _, _, _, rfl⟩ := settleFast_view e3
          exact ⟨rfl, rfl⟩
  case bond => exact .inl (hsent (doBond_sent e))
  case bondExtra => exact .inl (hsent (doBondExtra_sent e))
  case unbond => exact .inl (hsent (doUnbond_sent e))
  case rebond => exact .inl (hsent (doRebond_sent e))
  case withdraw => exact .inl (hsent (doWithdraw_sent e))
  case nominate => exact .inl (hsent (doNominate_sent e))
  case notify q ok =>
    left
    rcases notify_view e with rfl | ⟨r, s1, _, hr, e1, rfl⟩
    · exact ⟨rfl, .inl rfl⟩
    · have a := applyReq_eff hc hi e1
      exact ⟨by rw [a.frame], .inl (by rw [a.frame])⟩
  case setEraStart => cases e; exact .inl ⟨rfl, .inl rfl⟩
  case forceEra => cases e; exact .inl ⟨rfl, .inl rfl⟩
  case forceAdvance => cases e; rw [advanceEra_frame]; exact .inl ⟨rfl, .inl rfl⟩
  case forceMatching => exact .inl (hsent (doMatching_sent e))
  case forceLedger =>
    obtain ⟨_, _, _, rfl⟩ := forceLedger_view e
    exact .inl ⟨rfl, .inl rfl⟩
  case setEra =>
    simp only [setEra, bind_ok_iff, ensure_ok_iff, exists_const, pure_ok_iff] at e
    obtain ⟨_, rfl⟩ := e
    rw [advanceEra_frame]
    exact .inl ⟨rfl, .inl rfl⟩
  case setLedger =>
    obtain ⟨_, _, _, _, _, _, _, _, _, _, _, _, _, rfl⟩ := setLedger_view e
    exact .inl ⟨rfl, .inl rfl⟩
  case reduceReserves =>
    simp only [reduceReserves, bind_ok_iff, csub_ok_iff, pure_ok_iff] at e
    obtain ⟨_, _, _, _, rfl⟩ := e
    exact .inl ⟨rfl, .inl rfl⟩
  case reduceUReserves =>
    simp only [reduceUReserves, bind_ok_iff, csub_ok_iff, pure_ok_iff] at e
    obtain ⟨_, _, _, _, rfl⟩ := e
    exact .inl ⟨rfl, .inl rfl⟩
  case setRf =>
    simp only [setRf, bind_ok_iff, ensure_ok_iff, exists_const, pure_ok_iff] at e
    obtain ⟨_, rfl⟩ := e
    exact .inl ⟨rfl, .inl rfl⟩
  case setUrf =>
    simp only [setUrf, bind_ok_iff, ensure_ok_iff, exists_const, pure_ok_iff] at e
    obtain ⟨_, rfl⟩ := e
    exact .inl ⟨rfl, .inl rfl⟩
  case setCap =>
    simp only [setCap, bind_ok_iff, ensure_ok_iff, exists_const, pure_ok_iff] at e
    obtain ⟨_, rfl⟩ := e
    exact .inl ⟨rfl, .inl rfl⟩
  case setCommission =>
    simp only [setCommission, bind_ok_iff, ensure_ok_iff, exists_const, pure_ok_iff] at e
    obtain ⟨_, rfl⟩ := e
    exact .inl ⟨rfl, .inl rfl⟩
  case onInit =>
    cases e
    left
    unfold onInit
    rcases commit_cases s (initBlock c s) with e | e
    · simp only [initBlock, bind_ok_iff, pure_ok_iff] at e
      obtain ⟨s1, e1, e2⟩ := e
      have e3 : commit s (initBlock c s) = advanceEra c s1 (eraOffset c s1) := e2.symm
      rw [e3, advanceEra_frame]
      have hg := hsent (initMatching_sent e1)
      exact hg
    · rw [e.1]; exact ⟨rfl, .inl rfl⟩
  case onFinalize => cases e; exact .inl ⟨rfl, .inl rfl⟩

/-- The effect of each step on the log and on the queues. -/
theorem log_step (hc : c.Ok) (hi : Inv c s) (hs : Step c P s s') :
    (s'.unlockings = s.unlockings ∧ ((s'.log = s.log) ∨ ∃ w m, s'.log = .staked w m :: s.log)) ∨
    (∃ w q p m, P s (.unstake w q p) ∧ m = s.rate * (q - pmulFloor s.urf q) / DIV ∧
      s'.unlockings = upd s.unlockings (unlockKey c w p) (some (pushChunk
        ((s.unlockings (unlockKey c w p)).getD []) m (s.era + c.bonding + 1))) ∧
      s'.log = .unstaked (unlockKey c w p) m :: s.log) ∨
    (∃ w xs, s.unlockings w = some xs ∧ s'.unlockings = upd s.unlockings w (retained s.era xs) ∧
      s'.log = .claimed w (dueSum s.era xs) :: s.log) := by
  cases hs with
  | env e => left; rw [e.same]; exact ⟨rfl, .inl rfl⟩
  | call k hk hp e =>
    rcases log_call hc hi hk e with h | ⟨w, q, p, m, rfl, h⟩ | ⟨w, xs, rfl, h⟩
    · exact .inl h
    · exact .inr (.inl ⟨w, q, p, m, hp, h⟩)
    · exact .inr (.inr ⟨w, xs, h⟩)

/-- C69 (e): nobody else can touch an account's queue: it changes only by the account's own unstakes and by claims for
it (which pay it, whoever sends them). -/
theorem C69_queue_private (hc : c.Ok) (h : ReachP c P s) {k : Call} (hk : k.ok c s) (e : exec c s k = .ok s') {v : Nat}
    (hv : v ≠ c.lo.acct) (h1 : ∀ q p, k ≠ .unstake v q p) (h2 : k ≠ .claimFor v) : s'.unlockings v = s.unlockings v := by
  rcases log_call hc (h.inv hc) hk e with h | ⟨w, q, p, m, rfl, _, h, _⟩ | ⟨w, xs, rfl, _, h, _⟩
  · rw [h.1]
  · rw [h]
    refine upd_of_ne _ _ ?_
    unfold unlockKey Cfg.loansAcct
    rintro rfl
    split_ifs at hv h1 with hp
    · exact hv rfl
    · exact h1 _ _ rfl
  · rw [h]
    exact upd_of_ne _ _ (fun hh => h2 (by rw [hh]))

theorem unstakedFor_cons (x : State) (e : Event) (w : Nat) (h : x.log = e :: s.log) :
    unstakedFor x w = e.unstakedOf w + unstakedFor s w := by
  unfold unstakedFor; rw [h]; simp
theorem claimedBy_cons (x : State) (e : Event) (w : Nat) (h : x.log = e :: s.log) :
    claimedBy x w = e.claimedOf w + claimedBy s w := by
  unfold claimedBy; rw [h]; simp

/-- C69 (f): after any history what an account has claimed plus what it can still claim is at most what was unstaked for
it. -/
theorem C69_never_more (hc : c.Ok) (h : ReachP c P s) (w : Nat) : claimedBy s w + owed s w ≤ unstakedFor s w := by
  induction h with
  | init h => simp [claimedBy, owed, h.log, h.unlockings]
  | @step s s' h hs ih =>
    rcases log_step hc (h.inv hc) hs with ⟨h1, h2 | ⟨w', m, h2⟩⟩ | ⟨w', q, p, m, _, hm, h1, h2⟩ | ⟨w', xs, hx, h1, h2⟩
    · have e1 : claimedBy s' w = claimedBy s w := by unfold claimedBy; rw [h2]
      have e2 : unstakedFor s' w = unstakedFor s w := by unfold unstakedFor; rw [h2]
      rw [e1, e2, owed_congr h1]
      exact ih
    · have e1 := claimedBy_cons _ _ w h2
      have e2 := unstakedFor_cons _ _ w h2
      simp only [Event.unstakedOf, Event.claimedOf] at e1 e2
      rw [owed_congr h1]
      omega
    · have e1 := claimedBy_cons _ _ w h2
      have e2 := unstakedFor_cons _ _ w h2
      simp only [Event.unstakedOf, Event.claimedOf] at e1 e2
      have ho := owed_upd s _ _ _ h1 w
      have hb := pushChunk_sum_le ((s.unlockings (unlockKey c w' p)).getD []) m (s.era + c.bonding + 1)
      simp only [Option.getD_some] at ho
      by_cases hw : w = unlockKey c w' p
      · rw [if_pos hw] at ho
        rw [if_pos hw.symm] at e2
        have : owed s w = chunkSum ((s.unlockings (unlockKey c w' p)).getD []) := by unfold owed; rw [hw]
        omega
      · rw [if_neg hw] at ho
        rw [if_neg (Ne.symm hw)] at e2
        omega
    · have e1 := claimedBy_cons _ _ w h2
      have e2 := unstakedFor_cons _ _ w h2
      simp only [Event.unstakedOf, Event.claimedOf] at e1 e2
      have ho := owed_upd s _ _ _ h1 w
      rw [retained_getD] at ho
      have hd := due_add_rest s.era xs
      by_cases hw : w = w'
      · rw [if_pos hw] at ho
        rw [if_pos hw.symm] at e1
        have : owed s w = chunkSum xs := by unfold owed; rw [hw, hx]; rfl
        omega
      · rw [if_neg hw] at ho
        rw [if_neg (Ne.symm hw)] at e1
        omega

/-- Queues fit `u128`. -/
def QueueFits (c : Cfg) (s : State) : Call → Prop
  | .unstake w q p => owed s (unlockKey c w p) + s.rate * (q - pmulFloor s.urf q) / DIV ≤ maxU128
  | _ => True

/-- C69 (g): and exactly that, in all histories in which the queues fit `u128`: nothing is lost either. -/
theorem C69_never_less (hc : c.Ok) (h : ReachP c (QueueFits c) s) (w : Nat) :
    claimedBy s w + owed s w = unstakedFor s w := by
  induction h with
  | init h => simp [claimedBy, owed, unstakedFor, h.log, h.unlockings]
  | @step s s' h hs ih =>
    rcases log_step hc (h.inv hc) hs with ⟨h1, h2 | ⟨w', m, h2⟩⟩ | ⟨w', q, p, m, hP, hm, h1, h2⟩ | ⟨w', xs, hx, h1, h2⟩
    · have e1 : claimedBy s' w = claimedBy s w := by unfold claimedBy; rw [h2]
      have e2 : unstakedFor s' w = unstakedFor s w := by unfold unstakedFor; rw [h2]
      rw [e1, e2, owed_congr h1]
      exact ih
    · have e1 := claimedBy_cons _ _ w h2
      have e2 := unstakedFor_cons _ _ w h2
      simp only [Event.unstakedOf, Event.claimedOf] at e1 e2
      rw [owed_congr h1]
      omega
    · have e1 := claimedBy_cons _ _ w h2
      have e2 := unstakedFor_cons _ _ w h2
      simp only [Event.unstakedOf, Event.claimedOf] at e1 e2
      have ho := owed_upd s _ _ _ h1 w
      simp only [QueueFits, ← hm] at hP
      have hb := pushChunk_sum ((s.unlockings (unlockKey c w' p)).getD []) m (s.era + c.bonding + 1) hP
      simp only [Option.getD_some] at ho
      by_cases hw : w = unlockKey c w' p
      · rw [if_pos hw] at ho
        rw [if_pos hw.symm] at e2
        have : owed s w = chunkSum ((s.unlockings (unlockKey c w' p)).getD []) := by unfold owed; rw [hw]
        omega
      · rw [if_neg hw] at ho
        rw [if_neg (Ne.symm hw)] at e2
        omega
    · have e1 := claimedBy_cons _ _ w h2
      have e2 := unstakedFor_cons _ _ w h2
      simp only [Event.unstakedOf, Event.claimedOf] at e1 e2
      have ho := owed_upd s _ _ _ h1 w
      rw [retained_getD] at ho
      have hd := due_add_rest s.era xs
      by_cases hw : w = w'
      · rw [if_pos hw] at ho
        rw [if_pos hw.symm] at e1
        have : owed s w = chunkSum xs := by unfold owed; rw [hw, hx]; rfl
        omega
      · rw [if_neg hw] at ho
        rw [if_neg (Ne.symm hw)] at e1
        omega

end Verif.Staking
