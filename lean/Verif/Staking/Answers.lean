import Verif.Staking.Panic
import Verif.Staking.Props

set_option linter.unusedSimpArgs false
set_option linter.unusedVariables false

/-! # C228: can the answer of the relay chain always be processed? -/

namespace Verif.Staking
open Verif

variable {c : Cfg} {s s' : State}

/-- **C228, the property as one would want it**: in every reachable state every answer of the relay chain can be processed
without a panic, which would stop block production, since an answer arrives in an inherent message nobody can leave out. -/
def C228_statement : Prop := ∀ (c : Cfg) (s : State) (q : Nat) (ok : Bool), c.Ok → Reach c s →
  exec c s (.notify q ok) ≠ .error .panic

/-- **C228 (partial)**: an answer is processed without a panic if it reports a failure; or if it is about something unknown;
or if what is unbonded is at most the active stake noted for that derivative account and the numbers are representable. -/
theorem C228_answers_partial (q : Nat) (ok : Bool)
    (h : ok = true → ∀ r, findReq s.reqs q = some r → Answerable c s r) :
    exec c s (.notify q ok) ≠ .error .panic := np_notify (c := c) (s := s) (q := q) (ok := ok) h

/-- 7 unstakes 4000 in one era and, before the relay chain has answered, 3500 more in the next one. -/
def exA1 : State := run exC (pass (run exC (pass (run exC ex2 [.unstake 7 4000 .relay]) 100 (fun _ => none)) [.onInit]) 30
  (fun _ => none)) [.onInit]
def exA2 : State := run exC (pass (run exC (pass (run exC exA1 [.unstake 7 3500 .relay]) 100 (fun _ => none)) [.onInit]) 30
  (fun _ => none)) [.onInit]
/-- The answer to the first request has arrived. -/
def exA3 : State := run exC exA2 [.notify 2 true]

theorem exA3_reach : Reach exC exA3 :=
  run_reach (run_reach (pass_reach exC_ok (run_reach (pass_reach exC_ok (run_reach (run_reach (pass_reach exC_ok (run_reach
    (pass_reach exC_ok (run_reach ex2_reach (by decide)) none_consistent) (by decide)) none_consistent) (by decide))
    (by decide)) none_consistent) (by decide)) none_consistent) (by decide)) (by decide)

/-- The two requests: both are computed from the active stake of 6000 the pallet had noted before the first answer. -/
example : exA2.reqs = [(2, .unbond 0 3960), (3, .unbond 0 3465)] ∧ (exA2.ledgers 0).map SLedger.active = some 6000 ∧
    (exA3.ledgers 0).map SLedger.active = some 2040 := by decide +kernel

/-- **C228 is FALSE**: two unbonding requests that are under way at the same time may exceed the active stake together; the
relay chain unbonds what there is and reports success, and the answer to the second one panics in
`self.active -= value`. -/
theorem C228_refuted : ¬ C228_statement := by
  intro H
  have h : errIs (exec exC exA3 (.notify 3 true)) .panic = true := by decide +kernel
  have hn := H exC exA3 3 true exC_ok exA3_reach
  generalize exec exC exA3 (.notify 3 true) = r at h hn
  cases r with
  | ok _ => cases h
  | error e => exact hn (congrArg _ (of_decide_eq_true h))

/-- Non-vacuity of the partial theorem: the first of the two answers is processed, and notes what is unbonded. -/
example : (∀ r, findReq exA2.reqs 2 = some r → Answerable exC exA2 r) ∧
    okAnd (exec exC exA2 (.notify 2 true)) (fun s => decide ((s.ledgers 0).map SLedger.active = some 2040)) = true := by
  refine ⟨?_, by decide +kernel⟩
  intro r hr
  have h1 : findReq exA2.reqs 2 = some (.unbond 0 3960) := by decide +kernel
  rw [h1] at hr
  cases hr
  have h2 : (exA2.ledgers 0).map SLedger.active = some 6000 := by decide +kernel
  refine ⟨by decide +kernel, ?_⟩
  intro l hl
  rw [hl] at h2
  have : l.active = 6000 := Option.some.inj h2
  omega

/-! ### Histories in which the relay chain is asked again only after it has answered -/

/-- No derivative account has two unbonding requests under way. -/
def Single (s : State) : Prop := ∀ q q' i m m', (q, Req.unbond i m) ∈ s.reqs → (q', Req.unbond i m') ∈ s.reqs → q = q'

/-- A step after which no derivative account has two unbonding requests under way. -/
def Patient (c : Cfg) (s : State) (k : Call) : Prop := ∀ s', exec c s k = .ok s' → Single s'

/-- What is being unbonded is covered by the noted active stake. -/
def Meets (s : State) : Prop := ∀ q i m, (q, Req.unbond i m) ∈ s.reqs → m ≤ activeOf s i

/-- New unbonding requests are covered. -/
def Adds (s s' : State) : Prop := s'.ledgers = s.ledgers ∧
  ∀ q i m, (q, Req.unbond i m) ∈ s'.reqs → (q, Req.unbond i m) ∈ s.reqs ∨ m ≤ activeOf s i

theorem activeOf_congr {i : Nat} (h : s'.ledgers = s.ledgers) : activeOf s' i = activeOf s i := by
  unfold activeOf; rw [h]

theorem Adds.refl (s : State) : Adds s s := ⟨rfl, fun _ _ _ h => .inl h⟩
theorem Adds.trans {s'' : State} (h : Adds s s') (h' : Adds s' s'') : Adds s s'' := by
  refine ⟨h'.1.trans h.1, fun q i m hm => ?_⟩
  rcases h'.2 q i m hm with h1 | h1
  · exact h.2 q i m h1
  · exact .inr (by rw [activeOf_congr h.1] at h1; exact h1)

theorem Adds.meets (h : Adds s s') (hm : Meets s) : Meets s' := by
  intro q i m hq
  rw [activeOf_congr h.1]
  rcases h.2 q i m hq with h1 | h1
  · exact hm q i m h1
  · exact h1

theorem send_adds {r : Req} {p : Pool} (h : send c { s with pool := p } r = .ok s')
    (hr : ∀ i m, r = .unbond i m → m ≤ activeOf s i) : Adds s s' := by
  obtain ⟨l, _, rfl⟩ := send_view h
  refine ⟨rfl, fun q i m hm => ?_⟩
  rcases List.mem_append.1 hm with h1 | h1
  · exact .inl h1
  · rw [List.mem_singleton] at h1
    exact .inr (hr i m (Prod.mk.inj h1).2.symm)

theorem doBondExtra_adds {i m : Nat} (h : doBondExtra c s i m = .ok s') : Adds s s' := by
  unfold doBondExtra at h
  split at h
  · cases h; exact .refl _
  · simp only [bind_ok_iff, ensure_ok_iff, exists_const] at h
    obtain ⟨_, _, _, _, _, _, h⟩ := h
    exact send_adds h (by simp)

theorem doBond_adds {i m : Nat} (h : doBond c s i m = .ok s') : Adds s s' := by
  unfold doBond at h
  split at h
  · cases h; exact .refl _
  · split at h
    · exact doBondExtra_adds h
    · simp only [bind_ok_iff, ensure_ok_iff, exists_const] at h
      obtain ⟨_, _, _, _, _, _, h⟩ := h
      exact send_adds h (by simp)

theorem doUnbond_adds {i m : Nat} (hb : 0 < c.minBond) (h : doUnbond c s i m = .ok s') : Adds s s' := by
  unfold doUnbond at h
  split at h
  · cases h; exact .refl _
  · simp only [bind_ok_iff, ensure_ok_iff, exists_const, okOr_ok_iff] at h
    obtain ⟨_, l, hl, _, hm, _, _, h⟩ := h
    refine send_adds h ?_
    intro j n hj
    cases hj
    unfold activeOf
    rw [hl]
    show m ≤ l.active
    omega

theorem doRebond_adds {i m : Nat} (h : doRebond c s i m = .ok s') : Adds s s' := by
  unfold doRebond at h
  split at h
  · cases h; exact .refl _
  · simp only [bind_ok_iff, ensure_ok_iff, exists_const] at h
    obtain ⟨_, _, _, _, h⟩ := h
    exact send_adds h (by simp)

theorem doWithdraw_adds {i : Nat} (h : doWithdraw c s i = .ok s') : Adds s s' := by
  unfold doWithdraw at h
  split at h
  · cases h; exact .refl _
  · simp only [bind_ok_iff, ensure_ok_iff, exists_const] at h
    obtain ⟨_, _, h⟩ := h
    exact send_adds (p := s.pool) h (by simp)

theorem doNominate_adds {i : Nat} (h : doNominate c s i = .ok s') : Adds s s' := by
  simp only [doNominate, bind_ok_iff, ensure_ok_iff, exists_const] at h
  obtain ⟨_, _, h⟩ := h
  exact send_adds (p := s.pool) h (by simp)

theorem forEach_adds {α : Type} {f : State → α → R State} (hf : ∀ s s' x, f s x = .ok s' → Adds s s') :
    ∀ {xs : List α} {s s' : State}, forEach f s xs = .ok s' → Adds s s'
  | [], s, s', h => by simp only [forEach] at h; cases h; exact .refl _
  | x :: xs, s, s', h => by
    simp only [forEach, bind_ok_iff] at h
    obtain ⟨s1, h1, h2⟩ := h
    exact (hf _ _ _ h1).trans (forEach_adds hf h2)

theorem doMatching_adds (hb : 0 < c.minBond) (h : doMatching c s = .ok s') : Adds s s' := by
  simp only [doMatching, bind_ok_iff] at h
  obtain ⟨x, _, s1, h1, s2, h2, s3, h3, h4⟩ := h
  have h0 : Adds s { s with matched := true } := ⟨rfl, fun _ _ _ h => .inl h⟩
  have g1 : Adds { s with matched := true } s1 := by
    unfold multiBond at h1
    split at h1
    · cases h1; exact .refl _
    · exact forEach_adds (fun _ _ _ => doBond_adds) h1
  have g2 : Adds s1 s2 := by
    unfold multiRebond at h2
    split at h2
    · cases h2; exact .refl _
    · exact forEach_adds (fun _ _ _ => doRebond_adds) h2
  have g3 : Adds s2 s3 := by
    unfold multiUnbond at h3
    split at h3
    · cases h3; exact .refl _
    · exact forEach_adds (fun _ _ _ => doUnbond_adds hb) h3
  exact h0.trans (g1.trans (g2.trans (g3.trans (forEach_adds (fun _ _ _ => doWithdraw_adds) h4))))

theorem meets_frame (h : Meets s) (h1 : s'.reqs = s.reqs) (h2 : s'.ledgers = s.ledgers) : Meets s' := by
  intro q i m hq
  rw [activeOf_congr h2]
  rw [h1] at hq
  exact h q i m hq

theorem meets_nil (h : s.reqs = []) : Meets s := by
  intro q i m hq; rw [h] at hq; cases hq

theorem ledgers_frame_fastMatchAll : ∀ {ws : List Nat} {s s' : State},
    fastMatchAll c s ws = .ok s' → s'.ledgers = s.ledgers
  | [], s, s', e => by simp only [fastMatchAll] at e; cases e; rfl
  | w :: ws, s, s', e => by
    simp only [fastMatchAll, bind_ok_iff] at e
    obtain ⟨s1, e1, e2⟩ := e
    rw [ledgers_frame_fastMatchAll e2]
    rcases fastMatch_view e1 with ⟨_, rfl⟩ | ⟨b, q, a, s2, _, _, _, _, e3, rfl⟩
    · rfl
    · unfold trySettle at e3
      split at e3
      · cases e3; rfl
      · obtain ⟨_, _, _, _, _, _, _, rfl⟩ := settleFast_view e3
        rfl

theorem meets_notify (hc : c.Ok) (hi : Inv c s) (hs : Single s) (h : Meets s) {q : Nat} {ok : Bool}
    (e : notify c s q ok = .ok s') : Meets s' := by
  rcases notify_view e with rfl | ⟨r, s1, _, hr, e1, rfl⟩
  · exact h
  · have a := applyReq_eff hc hi e1
    have k1 : s1.reqs = s.reqs := by rw [a.frame]
    intro q' i m hm
    simp only [k1, List.mem_filter, bne_iff_ne, ne_eq] at hm
    have hold := h q' i m hm.1
    show m ≤ activeOf s1 i
    by_cases hj : i = r.idx
    · have ha := a.active
      rw [← hj] at ha
      cases r with
      | unbond j n =>
        have hij : i = j := hj
        subst hij
        exact absurd (hs q' q i m n hm.1 (findReq_mem hr)) hm.2
      | rebond j n =>
        simp only [Req.unstakeAmt, Req.stakeAmt, shortfall] at ha
        omega
      | bond j n =>
        simp only [Req.unstakeAmt, Req.stakeAmt, shortfall] at ha
        omega
      | bondExtra j n =>
        simp only [Req.unstakeAmt, Req.stakeAmt, shortfall] at ha
        omega
      | withdraw j =>
        simp only [Req.unstakeAmt, Req.stakeAmt, shortfall] at ha
        omega
      | nominate j =>
        simp only [Req.unstakeAmt, Req.stakeAmt, shortfall] at ha
        omega
    · have : activeOf s1 i = activeOf s i := by unfold activeOf; rw [a.off i hj]
      rw [this]; exact hold

theorem meets_step {P : State → Call → Prop} (hc : c.Ok) (hb : 0 < c.minBond) (hi : Inv c s) (hsg : Single s)
    (h : Meets s) (hs : Step c P s s') : Meets s' := by
  cases hs with
  | env e => exact meets_frame h (by rw [e.same]) (by rw [e.same])
  | call k hk hp e =>
    cases k <;> simp only [exec] at e
    case stake =>
      obtain ⟨_, _, _, _, _, _, _, _, _, _, _, rfl⟩ := stake_view e
      exact h
    case unstake w q p =>
      obtain ⟨_, _, _, ⟨_, rfl⟩ | ⟨_, e⟩⟩ := unstake_view e
      · exact h
      · obtain ⟨hf, _⟩ := unstakeSlow_eff hc hk e
        exact meets_frame h (by rw [hf]) (by rw [hf])
    case cancelUnstake => cases e; exact h
    case claimFor w =>
      obtain ⟨xs, s1, hxs, _, hle, hp, rfl⟩ := claimFor_view e
      obtain ⟨hf, _⟩ := payClaim_eff hc hp
      exact meets_frame h (by rw [hf]) (by rw [hf])
    case fastMatch ws => exact meets_frame h (reqs_frame_fastMatchAll hc e).1 (ledgers_frame_fastMatchAll e)
    case bond => exact (doBond_adds e).meets h
    case bondExtra => exact (doBondExtra_adds e).meets h
    case unbond => exact (doUnbond_adds hb e).meets h
    case rebond => exact (doRebond_adds e).meets h
    case withdraw => exact (doWithdraw_adds e).meets h
    case nominate => exact (doNominate_adds e).meets h
    case notify q' ok => exact meets_notify hc hi hsg h e
    case setEraStart => cases e; exact h
    case forceEra => cases e; exact h
    case forceAdvance => cases e; rw [advanceEra_frame]; exact h
    case forceMatching => exact (doMatching_adds hb e).meets h
    case forceLedger =>
      simp only [forceLedger, bind_ok_iff, ensure_ok_iff, exists_const, okOr_ok_iff] at e
      obtain ⟨_, _, hn, e⟩ := e
      obtain ⟨_, _, _, _, rfl⟩ := updLedger_view e
      exact meets_nil hn.2
    case setEra =>
      simp only [setEra, bind_ok_iff, ensure_ok_iff, exists_const, pure_ok_iff] at e
      obtain ⟨_, rfl⟩ := e
      rw [advanceEra_frame]
      exact h
    case setLedger =>
      simp only [setLedger, bind_ok_iff, ensure_ok_iff, exists_const, okOr_ok_iff] at e
      obtain ⟨_, _, hn, _, _, _, _, _, _, e⟩ := e
      obtain ⟨_, _, _, _, rfl⟩ := updLedger_view e
      exact meets_nil hn.2
    case reduceReserves =>
      simp only [reduceReserves, bind_ok_iff, csub_ok_iff, pure_ok_iff] at e
      obtain ⟨_, _, _, _, rfl⟩ := e
      exact h
    case reduceUReserves =>
      simp only [reduceUReserves, bind_ok_iff, csub_ok_iff, pure_ok_iff] at e
      obtain ⟨_, _, _, _, rfl⟩ := e
      exact h
    case setRf =>
      simp only [setRf, bind_ok_iff, ensure_ok_iff, exists_const, pure_ok_iff] at e
      obtain ⟨_, rfl⟩ := e
      exact h
    case setUrf =>
      simp only [setUrf, bind_ok_iff, ensure_ok_iff, exists_const, pure_ok_iff] at e
      obtain ⟨_, rfl⟩ := e
      exact h
    case setCap =>
      simp only [setCap, bind_ok_iff, ensure_ok_iff, exists_const, pure_ok_iff] at e
      obtain ⟨_, rfl⟩ := e
      exact h
    case setCommission =>
      simp only [setCommission, bind_ok_iff, ensure_ok_iff, exists_const, pure_ok_iff] at e
      obtain ⟨_, rfl⟩ := e
      exact h
    case onInit =>
      cases e
      unfold onInit
      rcases commit_cases s (initBlock c s) with e | e
      · simp only [initBlock, bind_ok_iff, pure_ok_iff] at e
        obtain ⟨s1, e1, e2⟩ := e
        have e3 : commit s (initBlock c s) = advanceEra c s1 (eraOffset c s1) := e2.symm
        rw [e3, advanceEra_frame]
        have hg : Meets s1 := by
          unfold initMatching at e1
          split at e1
          · exact (doMatching_adds hb e1).meets h
          · cases e1; exact h
        exact hg
      · rw [e.1]; exact h
    case onFinalize => cases e; exact h

theorem patient_inv (hc : c.Ok) (hb : 0 < c.minBond) (h : ReachP c (Patient c) s) : Single s ∧ Meets s := by
  induction h with
  | init h =>
    refine ⟨?_, meets_nil h.reqs⟩
    intro q q' i m m' hq
    rw [h.reqs] at hq; cases hq
  | @step s s' h hs ih =>
    refine ⟨?_, meets_step hc hb (h.inv hc) ih.1 ih.2 hs⟩
    cases hs with
    | call k hk hp e => exact hp _ e
    | env e => rw [e.same]; exact ih.1

/-- **C228 for patient histories**: if no derivative account ever has two unbonding requests under way, and a positive
minimum has to stay bonded, then the answer that an unbonding was executed is not only free of panics but always accepted. -/
theorem C228_patient_partial (hc : c.Ok) (hb : 0 < c.minBond) (h : ReachP c (Patient c) s) {q i m : Nat}
    (hq : (q, Req.unbond i m) ∈ s.reqs) (he : s.era + c.bonding ≤ maxU32) : ∃ s', exec c s (.notify q true) = .ok s' :=
  C66_unbond_accepted hc h hq ((patient_inv hc hb h).2 q i m hq) he

/-- … and no answer to any request panics, if the era and the ledgers stay representable. -/
theorem C228_patient_noPanic_partial (hc : c.Ok) (hb : 0 < c.minBond) (h : ReachP c (Patient c) s) (q : Nat) (ok : Bool)
    (he : s.era + c.bonding ≤ maxU32) (hf : ∀ i m, (q, Req.bondExtra i m) ∈ s.reqs → totalOf s i + m ≤ maxU128) :
    exec c s (.notify q ok) ≠ .error .panic := by
  refine C228_answers_partial q ok fun _ r hr => ?_
  have hm := findReq_mem hr
  have hi := h.inv hc
  cases r with
  | unbond i m =>
    refine ⟨he, fun l hl => ?_⟩
    have := (patient_inv hc hb h).2 q i m hm
    unfold activeOf at this
    rw [hl] at this
    exact this
  | bondExtra i m =>
    intro l hl
    have := hf i m hm
    unfold totalOf at this
    rw [hl] at this
    have h1 := hi.cons i l hl
    have h2 : l.total = l.active + (l.unlocking.map Chunk.value).sum := h1.1
    have h3 : l.total + m ≤ maxU128 := this
    exact ⟨h3, by omega, by omega⟩
  | rebond i m =>
    intro l hl
    have h1 := hi.cons i l hl
    have h2 : l.total = l.active + (l.unlocking.map Chunk.value).sum := h1.1
    have h3 := h1.2
    exact ⟨by omega, by omega, by omega⟩
  | bond => trivial
  | withdraw => trivial
  | nominate => trivial

/-! Non-vacuity: a patient history in which two rounds of unbonding are asked for and answered. -/

def singleB (s : State) : Bool := s.reqs.all fun x => s.reqs.all fun y => match x.2, y.2 with
  | .unbond i _, .unbond j _ => i != j || x.1 == y.1
  | _, _ => true

theorem singleB_iff (h : singleB s = true) : Single s := by
  intro q q' i m m' h1 h2
  have := (List.all_eq_true.1 ((List.all_eq_true.1 h) _ h1)) _ h2
  simpa using this

def checked (c : Cfg) : State → List Call → Bool
  | _, [] => true
  | s, k :: ks => singleB (commit s (exec c s k)) && checked c (commit s (exec c s k)) ks

theorem run_patient : ∀ {ks : List Call} {s : State}, ReachP c (Patient c) s → (∀ k ∈ ks, k.plain c = true) →
    checked c s ks = true → ReachP c (Patient c) (run c s ks)
  | [], s, h, _, _ => h
  | k :: ks, s, h, hk, hch => by
    have h1 := hk k (by simp)
    rw [checked, Bool.and_eq_true] at hch
    have : ReachP c (Patient c) (commit s (exec c s k)) := by
      rcases commit_cases s (exec c s k) with he | he
      · refine .step h (.call k (Call.plain_ok h1) ?_ he)
        intro s' hs'
        have e : commit s (exec c s k) = s' := by rw [hs']; rfl
        rw [← e]
        exact singleB_iff hch.1
      · rw [he.1]; exact h
    show ReachP c (Patient c) (run c (commit s (exec c s k)) ks)
    exact run_patient this (fun k' hk' => hk k' (by simp [hk'])) hch.2

theorem pass_patient {d : Nat} (hc : c.Ok) (h : ReachP c (Patient c) s) : ReachP c (Patient c) (pass s d (fun _ => none)) :=
  .step h (.env (pass_env (h.inv hc).wf none_consistent))

/-- As `exA2`, but the relay chain answers the first request before the second one is made. -/
def exB1 : State := run exC exA1 [.notify 2 true]
def exB2 : State := run exC (pass (run exC (pass (run exC exB1 [.unstake 7 3500 .relay]) 100 (fun _ => none)) [.onInit]) 30
  (fun _ => none)) [.onInit]

theorem exA1_patient : ReachP exC (Patient exC) exA1 :=
  run_patient (pass_patient exC_ok (run_patient (pass_patient exC_ok (run_patient (run_patient (run_patient (pass_patient
    exC_ok (run_patient (.init ex0_fresh) (by decide) (by decide +kernel))) (by decide) (by decide +kernel)) (by decide)
    (by decide +kernel)) (by decide) (by decide +kernel))) (by decide) (by decide +kernel))) (by decide) (by decide +kernel)

theorem exB2_patient : ReachP exC (Patient exC) exB2 :=
  run_patient (pass_patient exC_ok (run_patient (pass_patient exC_ok (run_patient (run_patient exA1_patient (by decide)
    (by decide +kernel)) (by decide) (by decide +kernel))) (by decide) (by decide +kernel))) (by decide) (by decide +kernel)

example : 0 < exC.minBond ∧ exA1.reqs = [(2, .unbond 0 3960)] ∧ exB2.reqs = [(3, .unbond 1 3465)] ∧
    exB2.era + exC.bonding ≤ maxU32 := by decide +kernel

end Verif.Staking
