import Verif.Bridge.Inv

set_option linter.unusedSimpArgs false

/-!
# Bridge: property theorems (C30 – C35, C50 – C53)

Vocabulary in `Verif/Bridge/Spec.lean`: `Reach` (all histories of calls, blocks, committee changes and foreign
ledger moves), `since ch` (the events since chain `ch` was last registered), `Event.resolves`, `Event.pays`,
`Event.sentNonce`, `GoodReg`.
-/

namespace Verif.Bridge
open Verif

/-! Fixture: chain 9 is registered, asset 1 is the home token 100 and asset 2 the external token 200; the
relay committee is {11, 12, 13} with threshold 2; user 7 holds 1000 of each asset, the bridge 500 of asset 1. -/
def exCfg : Cfg := ⟨1000, 999, 998, fun _ _ => 0, 0, 1, 1, 100, 50⟩
@[irreducible] def exL : Ledger := Ledger.ofList [(1, 7, 1000), (2, 7, 1000), (1, 1000, 500)]
theorem exL_wf : exL.WF := by unfold exL; exact Ledger.ofList_wf _
def ex0 : State := changeMembers exCfg
  ⟨exL, 1, fun _ => none, fun _ => none, fun _ => none, fun _ => none, fun _ _ => none, [], 5, []⟩ [11, 12, 13]
theorem ex0_reach : Reach exCfg ex0 := .step (.init exL [] 5 exL_wf) (.members _)
def run (s : State) : List Call → State
  | [] => s
  | k :: ks => run (commit s (exec exCfg s k)) ks
theorem run_reach {s : State} (h : Reach exCfg s) : ∀ ks : List Call, Reach exCfg (run s ks)
  | [] => h
  | k :: ks => by
    refine run_reach (s := commit s (exec exCfg s k)) ?_ ks
    rcases commit_cases s (exec exCfg s k) with he | ⟨he, _⟩
    · exact .step h (.call k he)
    · rw [he]; exact h
def exTok : Token := ⟨100, false, 3, true, 400, 0, 400, 0⟩
def exTok2 : Token := ⟨200, true, 3, true, 400, 0, 400, 0⟩
def exPay : MCall := ⟨100, 8, 50⟩
def exBad : MCall := ⟨100, 66, 50⟩
def exSetup : List Call := [.registerChain 9, .registerToken 1 exTok, .registerToken 2 exTok2]
def ex1 : State := run ex0 exSetup
theorem ex1_reach : Reach exCfg ex1 := run_reach ex0_reach _
/-- One approving vote on nonce 4. -/
def ex2 : State := run ex1 [.materialize (some 11) 9 4 exPay true]
theorem ex2_reach : Reach exCfg ex2 := run_reach ex1_reach _
/-- The second vote pays nonce 4 out. -/
def ex3 : State := run ex2 [.materialize (some 12) 9 4 exPay true]
theorem ex3_reach : Reach exCfg ex3 := run_reach ex2_reach _
example : ex0.threshold = 2 := by decide +kernel

variable {c : Cfg} {s s' : State}

/-! ## C30 -/

/-- C30: in every reachable state the nonce registry of every chain consists of non-empty, ascending,
disjoint and non-adjacent intervals. -/
theorem C30_registry_good (h : Reach c s) {ch : Nat} {reg : List (Nat × Nat)} (hr : s.registry ch = some reg) :
    GoodReg reg := (h.inv.reg ch reg hr).1

/-- C30: a nonce counts as bridged exactly if a payout or a rejection for it was recorded since the chain
was registered. -/
theorem C30_bridged_iff_resolved (h : Reach c s) {ch : Nat} (hc : (s.nonces ch).isSome) (n : Nat) :
    hasBridged s ch n = true ↔ ∃ e ∈ since ch s.events, e.resolves ch n = true := by
  cases hr : s.registry ch with
  | none => rw [(h.inv.dom ch).2 hr] at hc; cases hc
  | some reg => rw [hasBridged_iff hr]; exact (h.inv.reg ch reg hr).2 n

/-- Resolving nonce `n` (of a well-formed registry that does not contain it) adds `n` and nothing else. -/
theorem C30_resolve_adds_one {reg reg' : List (Nat × Nat)} {n : Nat} (hg : GoodReg reg)
    (hn : inReg reg n = false) (h : addNonce reg n = .ok reg') :
    GoodReg reg' ∧ ∀ m, inReg reg' m = true ↔ inReg reg m = true ∨ m = n := by
  have := addNonce_spec hg (fun hc => by rw [inReg_iff.2 hc] at hn; cases hn) h
  simpa only [inReg_iff] using this

/-- C30: after a successful `materialize` call the bridged nonces are the ones before, plus the voted nonce if
this vote decided it. -/
theorem C30_materialize (h : Reach c s) {o : Option Nat} {ch n : Nat} {call : MCall} {f : Bool}
    (hm : materialize c s o ch n call f = .ok s') (ch' m : Nat) :
    hasBridged s' ch' m = true ↔
      hasBridged s ch' m = true ∨ (ch' = ch ∧ m = n ∧ ∃ e, s'.events.head? = some e ∧ e.resolves ch n = true) := by
  obtain ⟨w, p, _, hn, hb, hp, _, _, hv, h2⟩ := materialize_ok hm
  have key : ∀ {st : Status} {t : State} {reg' : Option (List (Nat × Nat))} {e : Event},
      ((s.registry ch = none ∧ reg' = none) ∨
        ∃ reg r, s.registry ch = some reg ∧ addNonce reg n = .ok r ∧ reg' = some r) →
      t.registry = upd s.registry ch reg' → t.events.head? = some e → e.resolves ch n = true →
      (hasBridged t ch' m = true ↔
        hasBridged s ch' m = true ∨ (ch' = ch ∧ m = n ∧ ∃ e, t.events.head? = some e ∧ e.resolves ch n = true)) := by
    intro st t reg' e hr ht he hres
    rcases hr with ⟨h0, _⟩ | ⟨reg, r, h0, ha, rfl⟩
    · rw [(h.inv.dom ch).2 h0] at hn; cases hn
    · by_cases hc : ch' = ch
      · subst hc
        have hr' : t.registry ch' = some r := by rw [ht]; simp
        rw [hasBridged_iff hr', hasBridged_iff h0]
        have hnc : ¬ Cov reg n := by rw [← hasBridged_iff h0, hb]; simp
        rw [(addNonce_spec (h.inv.reg ch' reg h0).1 hnc ha).2 m]
        constructor
        · rintro (h | h)
          · exact .inl h
          · exact .inr ⟨rfl, h, e, he, hres⟩
        · rintro (h | ⟨_, h, _⟩)
          · exact .inl h
          · exact .inr h
      · unfold hasBridged
        rw [ht, upd_of_ne _ _ hc]
        simp [hc]
  rcases h2 with ⟨_, h2⟩ | ⟨_, _, _, h2⟩ | ⟨_, rfl⟩
  · obtain ⟨_, _, l, l', reg', _, _, hr, rfl⟩ := execute_ok h2
    exact key (st := .approved) (reg' := reg') (e := .minted ch n call) hr rfl rfl (by simp [Event.resolves])
  · obtain ⟨reg', hr, rfl⟩ := cancelMat_ok h2
    exact key (st := .approved) (reg' := reg') (e := .rejected ch n) hr rfl rfl (by simp [Event.resolves])
  · have : hasBridged (afterVote s p ch n w call f .initiated) ch' m = hasBridged s ch' m := rfl
    rw [this]
    constructor
    · exact .inl
    · rintro (h | ⟨_, _, e, he, hr⟩)
      · exact h
      · have : e = voteEvent s ch n w call f := by simpa [afterVote] using he.symm
        subst this
        cases f <;> simp [voteEvent, Event.resolves] at hr

/-- Nonces 4, 6, 5 resolved in this order merge to the single interval [4, 6]. -/
def ex4 : State := run ex3 [.materialize (some 11) 9 6 exPay true, .materialize (some 12) 9 6 exPay true,
  .materialize (some 11) 9 5 exBad false, .materialize (some 12) 9 5 exBad false]
theorem ex4_reach : Reach exCfg ex4 := run_reach ex3_reach _
example : (ex3.registry 9 = some [(4, 4)] ∧ ex4.registry 9 = some [(4, 6)]) ∧ (ex3.nonces 9).isSome ∧
    okAnd (materialize exCfg ex2 (some 12) 9 4 exPay true) (fun _ => true) := by decide +kernel
example : inReg [(1, 3), (5, 6)] 4 = false ∧ okAnd (addNonce [(1, 3), (5, 6)] 4) (fun r => r = [(1, 6)]) := by
  decide +kernel

/-! ## C31 -/

/-- C31: since the registration of a chain each of its nonces was resolved — paid out or voted down — at most
once; in particular at most one payout. -/
theorem C31_resolved_at_most_once (h : Reach c s) (ch n : Nat) :
    (since ch s.events).countP (Event.resolves ch n) ≤ 1 ∧ (since ch s.events).countP (Event.pays ch n) ≤ 1 := by
  have h1 := h.inv.once ch n
  refine ⟨h1, Nat.le_trans (List.countP_mono_left ?_) h1⟩
  intro e _ he
  cases e <;> simp_all [Event.pays, Event.resolves]

/-- C31: once a nonce is resolved no further vote on it succeeds — for any proposal, by anyone, in any
later state up to a new registration of the chain. -/
theorem C31_no_vote_after_resolution (h : Reach c s) {ch n : Nat}
    (hr : ∃ e ∈ since ch s.events, e.resolves ch n = true) (o : Option Nat) (call : MCall) (f : Bool) :
    ∀ s', materialize c s o ch n call f ≠ .ok s' := by
  intro s' hm
  obtain ⟨_, _, _, hn, hb, _⟩ := materialize_ok hm
  rw [(C30_bridged_iff_resolved h hn n).2 hr] at hb
  cases hb

/-- C31: ... and for a committee member on a registered chain the error is `ProposalAlreadyComplete`. -/
theorem C31_vote_after_resolution_error (h : Reach c s) {ch n : Nat}
    (hr : ∃ e ∈ since ch s.events, e.resolves ch n = true) (hn : (s.nonces ch).isSome) {w : Nat}
    (hw : w ∈ s.members) (call : MCall) (f : Bool) :
    materialize c s (some w) ch n call f = .error .proposalAlreadyComplete := by
  have hb := (C30_bridged_iff_resolved h hn n).2 hr
  unfold materialize
  simp [relayMember, ensure, hw, hn, hb, bind, Except.bind, pure, Except.pure]

example : Reach exCfg ex3 ∧ (∃ e ∈ since 9 ex3.events, e.resolves 9 4 = true) ∧ (ex3.nonces 9).isSome ∧
    13 ∈ ex3.members ∧ ex3.ledger.bal 1 8 = 50 := ⟨ex3_reach, by decide +kernel⟩

/-- Limit of C31 (a finding): after governance unregisters and re-registers a chain the registry is empty,
and an old nonce can be paid out a second time. -/
theorem C31_replay_after_reregistration :
    ∃ (c : Cfg) (s : State) (ch n : Nat), Reach c s ∧ s.events.countP (Event.pays ch n) = 2 :=
  ⟨exCfg, run ex3 [.unregisterChain 9, .registerChain 9, .materialize (some 11) 9 4 ⟨100, 8, 51⟩ true,
    .materialize (some 12) 9 4 ⟨100, 8, 51⟩ true], 9, 4, run_reach ex3_reach _, by decide +kernel⟩

/-! ## C32 -/

/-- The voters behind a payout or a new vote made by a `materialize` call. -/
theorem materialize_events (h : Reach c s) {o : Option Nat} {ch n : Nat} {call : MCall} {f : Bool}
    (hm : materialize c s o ch n call f = .ok s') :
    ∃ new, s'.events = new ++ s.events ∧
      (∀ ch' n' v call' b, Event.voteFor ch' n' v call' b ∈ new → b = s.now ∧ (v ∈ s.members ∨ (o = none ∧ v = c.rootOp))) ∧
      (∀ ch' n' call', Event.minted ch' n' call' ∈ new →
        ∃ voters : List Nat, voters.Nodup ∧ s.threshold ≤ voters.length ∧
          ∀ v ∈ voters, ∃ b, Event.voteFor ch' n' v call' b ∈ s'.events ∧ b ≤ s.now ∧ s.now < b + c.lifetime) := by
  obtain ⟨w, p, hw, hn, hb, hp, _, hexp, hv, h2⟩ := materialize_ok hm
  have hmem : ∀ ch' n' v call' b, Event.voteFor ch' n' v call' b = voteEvent s ch n w call f →
      b = s.now ∧ (v ∈ s.members ∨ (o = none ∧ v = c.rootOp)) := by
    intro ch' n' v call' b he
    cases f with
    | false => simp [voteEvent] at he
    | true =>
      simp only [voteEvent, if_true, Event.voteFor.injEq] at he
      obtain ⟨_, _, rfl, _, rfl⟩ := he
      refine ⟨rfl, ?_⟩
      rcases relayMember_ok hw with ⟨h1, h2⟩ | ⟨_, h⟩
      · exact .inr ⟨h1, h2⟩
      · exact .inl h
  have hno : ∀ ch' n' call', Event.minted ch' n' call' ≠ voteEvent s ch n w call f := by
    intros; cases f <;> simp [voteEvent]
  rcases h2 with ⟨hthr, h2⟩ | ⟨_, _, _, h2⟩ | ⟨_, rfl⟩
  · obtain ⟨_, _, l, l', reg', _, _, _, rfl⟩ := execute_ok h2
    refine ⟨[.minted ch n call, voteEvent s ch n w call f], rfl, ?_, ?_⟩
    · intro ch' n' v call' b he
      simp only [List.mem_cons, reduceCtorEq, false_or, List.not_mem_nil, or_false] at he
      exact hmem _ _ _ _ _ he
    · intro ch' n' call' he
      simp only [List.mem_cons, Event.minted.injEq, List.not_mem_nil, or_false] at he
      rcases he with ⟨rfl, rfl, rfl⟩ | he
      · have hok := voted_ok (f := f) (st := .initiated) h.inv hp hv
        refine ⟨(voted p w f).votesFor, (List.nodup_append.1 hok.nodup).1, hthr, ?_⟩
        intro v hv'
        obtain ⟨b, h1, h2, h3⟩ := hok.votes v hv'
        refine ⟨b, List.mem_cons_of_mem _ h1, h3, ?_⟩
        have : (voted p w f).expiry = p.expiry := by unfold voted; split_ifs <;> rfl
        simp only [this] at h2
        omega
      · exact absurd he (hno _ _ _)
  · obtain ⟨reg', _, rfl⟩ := cancelMat_ok h2
    refine ⟨[.rejected ch n, voteEvent s ch n w call f], rfl, ?_, ?_⟩
    · intro ch' n' v call' b he
      simp only [List.mem_cons, reduceCtorEq, false_or, List.not_mem_nil, or_false] at he
      exact hmem _ _ _ _ _ he
    · intro ch' n' call' he
      simp only [List.mem_cons, reduceCtorEq, false_or, List.not_mem_nil, or_false] at he
      exact absurd he (hno _ _ _)
  · refine ⟨[voteEvent s ch n w call f], rfl, ?_, ?_⟩
    · intro ch' n' v call' b he
      simp only [List.mem_cons, List.not_mem_nil, or_false] at he
      exact hmem _ _ _ _ _ he
    · intro ch' n' call' he
      simp only [List.mem_cons, List.not_mem_nil, or_false] at he
      exact absurd he (hno _ _ _)

theorem mutate_events {t : Nat} {g : Token → Token} (h : mutateToken s t g = .ok s') : s'.events = s.events := by
  unfold mutateToken at h
  simp only [bind_ok_iff, ensure_ok_iff, pure_ok_iff, exists_const] at h
  obtain ⟨_, rfl⟩ := h; rfl

/-- C32: whatever a step adds to the event log, (a) every approving vote in it was cast in the current block
by a current relay member (or the root operator), and (b) every payout in it is backed by at least
`threshold` pairwise different accounts, each of which voted for exactly this chain, nonce, token, recipient
and amount within the last `lifetime` blocks. The threshold is at least 1. -/
theorem C32_payout_backed (h : Reach c s) (hs : Step c s s') :
    0 < s.threshold ∧ ∃ new, s'.events = new ++ s.events ∧
      (∀ ch n v call b, Event.voteFor ch n v call b ∈ new → b = s.now ∧ (v ∈ s.members ∨ v = c.rootOp)) ∧
      (∀ ch n call, Event.minted ch n call ∈ new →
        ∃ voters : List Nat, voters.Nodup ∧ s.threshold ≤ voters.length ∧
          ∀ v ∈ voters, ∃ b, Event.voteFor ch n v call b ∈ s'.events ∧ b ≤ s.now ∧ s.now < b + c.lifetime) := by
  refine ⟨h.inv.thr, ?_⟩
  have triv : ∀ new, s'.events = new ++ s.events →
      (∀ e ∈ new, (∀ ch n v call b, e ≠ Event.voteFor ch n v call b) ∧ ∀ ch n call, e ≠ .minted ch n call) →
      ∃ new, s'.events = new ++ s.events ∧
      (∀ ch n v call b, Event.voteFor ch n v call b ∈ new → b = s.now ∧ (v ∈ s.members ∨ v = c.rootOp)) ∧
      (∀ ch n call, Event.minted ch n call ∈ new →
        ∃ voters : List Nat, voters.Nodup ∧ s.threshold ≤ voters.length ∧
          ∀ v ∈ voters, ∃ b, Event.voteFor ch n v call b ∈ s'.events ∧ b ≤ s.now ∧ s.now < b + c.lifetime) := by
    intro new h1 h2
    exact ⟨new, h1, fun _ _ _ _ _ he => absurd rfl ((h2 _ he).1 _ _ _ _ _),
      fun _ _ _ he => absurd rfl ((h2 _ he).2 _ _ _)⟩
  cases hs with
  | call k hk =>
    cases k with
    | registerChain ch =>
      simp only [exec, registerChain, bind_ok_iff, ensure_ok_iff, pure_ok_iff, exists_const] at hk
      obtain ⟨_, rfl⟩ := hk
      exact triv [.registered ch] rfl (by simp)
    | unregisterChain ch =>
      simp only [exec, unregisterChain, bind_ok_iff, ensure_ok_iff, pure_ok_iff, exists_const] at hk
      obtain ⟨_, rfl⟩ := hk
      exact triv [.removed ch] rfl (by simp)
    | registerToken a t =>
      simp only [exec, registerToken, bind_ok_iff, ensure_ok_iff, pure_ok_iff, exists_const] at hk
      obtain ⟨_, rfl⟩ := hk
      exact triv [] rfl (by simp)
    | unregisterToken t =>
      simp only [exec, unregisterToken, bind_ok_iff, ensure_ok_iff, pure_ok_iff, exists_const] at hk
      obtain ⟨_, rfl⟩ := hk
      exact triv [] rfl (by simp)
    | setFee t x => exact triv [] (mutate_events (g := fun y => { y with fee := x }) hk) (by simp)
    | setStatus t x => exact triv [] (mutate_events (g := fun y => { y with enable := x }) hk) (by simp)
    | setCap t d x => exact triv [] (by simp only [exec, setCap] at hk; exact mutate_events hk) (by simp)
    | cleanCap t d => exact triv [] (by simp only [exec, cleanCap] at hk; exact mutate_events hk) (by simp)
    | teleport w ch t d m =>
      obtain ⟨k, l, _, _, _, _, _, _, _, _, rfl⟩ := teleport_ok hk
      exact triv [_] rfl (by simp)
    | materialize o ch n call f =>
      obtain ⟨new, h1, h2, h3⟩ := materialize_events h hk
      refine ⟨new, h1, fun ch n v call b he => ?_, h3⟩
      obtain ⟨h4, h5⟩ := h2 ch n v call b he
      exact ⟨h4, h5.imp id And.right⟩
  | block => exact triv [] rfl (by simp)
  | members ms =>
    refine triv [] ?_ (by simp)
    unfold changeMembers
    cases hc : changeThreshold c { s with members := ms } with
    | error e => rfl
    | ok t => obtain ⟨_, rfl⟩ := changeThreshold_ok hc; rfl
  | env he => exact triv [] (by rw [he.eq]; rfl) (by simp)

example : Reach exCfg ex2 ∧ ∃ s', Step exCfg ex2 s' ∧ Event.minted 9 4 exPay ∈ s'.events ∧
    Event.minted 9 4 exPay ∉ ex2.events := by
  refine ⟨ex2_reach, ex3, ?_, by decide +kernel⟩
  have h : okAnd (exec exCfg ex2 (.materialize (some 12) 9 4 exPay true)) (fun _ => true) := by decide +kernel
  obtain ⟨s', h1, _⟩ := okAnd_iff.1 h
  have : ex3 = s' := by unfold ex3 run; rw [h1]; rfl
  rw [this]
  exact .call _ h1

/-! ## C33 -/

/-- C33: a successful teleport keeps the outgoing total within the cap; the total grows by exactly the
amount and no other token or token setting changes. -/
theorem C33_out_cap (h : Reach c s) {w ch t d m : Nat} (ht : teleport c s w ch t d m = .ok s') :
    ∃ a tok, s.assetIds t = some a ∧ s.tokens a = some tok ∧ tok.outAmount + m ≤ tok.outCap ∧
      s'.tokens a = some { tok with outAmount := tok.outAmount + m } ∧ s'.assetIds = s.assetIds ∧
      ∀ a', a' ≠ a → s'.tokens a' = s.tokens a' := by
  obtain ⟨k, l, _, h2, _, _, hcap, _, _, _, rfl⟩ := teleport_ok ht
  obtain ⟨tok, h3, h4, _, h5⟩ := h.inv.token_get h2
  rw [h5] at hcap
  exact ⟨s.assetId t, tok, h3, h4, hcap, by simp [h5], rfl, fun a' ha => upd_of_ne _ _ ha⟩

/-- C33: a successful payout keeps the incoming total within the cap; the total grows by exactly the
amount and no other token or token setting changes. -/
theorem C33_in_cap (h : Reach c s) {o : Option Nat} {ch n : Nat} {call : MCall} {f : Bool}
    (hm : materialize c s o ch n call f = .ok s') (hp : s'.events.head? = some (.minted ch n call)) :
    ∃ a tok, s.assetIds call.token = some a ∧ s.tokens a = some tok ∧ tok.inAmount + call.amount ≤ tok.inCap ∧
      s'.tokens a = some { tok with inAmount := tok.inAmount + call.amount } ∧ s'.assetIds = s.assetIds ∧
      ∀ a', a' ≠ a → s'.tokens a' = s.tokens a' := by
  obtain ⟨w, p, _, _, _, _, _, _, _, h2⟩ := materialize_ok hm
  rcases h2 with ⟨_, h2⟩ | ⟨_, _, _, h2⟩ | ⟨_, rfl⟩
  · obtain ⟨h3, hcap, l, l', reg', _, _, _, rfl⟩ := execute_ok h2
    obtain ⟨tok, h4, h5, _, h6⟩ := h.inv.token_get h3
    change (s.token (s.assetId call.token)).inAmount + _ ≤ (s.token (s.assetId call.token)).inCap at hcap
    rw [h6] at hcap
    refine ⟨s.assetId call.token, tok, h4, h5, hcap, ?_, rfl, fun a' ha => upd_of_ne _ _ ha⟩
    have : State.token (afterVote s p ch n w call f .approved) (State.assetId (afterVote s p ch n w call f .approved) call.token) = tok := h6
    show upd _ (s.assetId call.token) _ (s.assetId call.token) = _
    rw [upd_same, this]
  · obtain ⟨reg', _, rfl⟩ := cancelMat_ok h2
    simp at hp
  · cases f <;> simp [afterVote, voteEvent] at hp

example : okAnd (teleport exCfg ex1 7 9 100 5 400) (fun _ => true) ∧
    errIs (teleport exCfg ex1 7 9 100 5 401) .bridgeOutCapExceeded ∧
    okAnd (materialize exCfg ex2 (some 12) 9 4 exPay true) (fun s' => s'.events.head? = some (.minted 9 4 exPay)) := by
  decide +kernel

/-! ## C34 -/

/-- C34: a teleport by anyone but the bridge itself takes exactly `m` from the caller, gives the bridge account
the fee (external token: `m` is burned and the fee minted) or all of `m` (home token), changes no other
balance, reduces the issuance of an external token by `m - fee`, and records the transfer of `m - fee` under
the next nonce. -/
theorem C34_teleport (h : Reach c s) {w ch t d m : Nat} (hw : w ≠ c.acct) (ht : teleport c s w ch t d m = .ok s') :
    ∃ a tok k, s.assetIds t = some a ∧ s.tokens a = some tok ∧ s.nonces ch = some k ∧ tok.enable = true ∧ tok.fee ≤ m ∧
      s'.ledger.bal a w + m = s.ledger.bal a w ∧
      s'.ledger.bal a c.acct = s.ledger.bal a c.acct + (if tok.external then tok.fee else m) ∧
      (∀ x y, (x ≠ a ∨ (y ≠ w ∧ y ≠ c.acct)) → s'.ledger.bal x y = s.ledger.bal x y) ∧
      s'.ledger.iss a + (if tok.external then m - tok.fee else 0) = s.ledger.iss a ∧
      (∀ x, x ≠ a → s'.ledger.iss x = s.ledger.iss x) ∧
      s'.nonces ch = some (k + 1) ∧ (∀ ch', ch' ≠ ch → s'.nonces ch' = s.nonces ch') ∧
      s'.events = .teleported w ch (k + 1) t d (m - tok.fee) tok.fee :: s.events := by
  obtain ⟨k, l, hk, h2, _, hen, hcap, hfee, _, hl, rfl⟩ := teleport_ok ht
  obtain ⟨tok, h3, h4, _, h5⟩ := h.inv.token_get h2
  rw [h5] at hl hfee hen
  have hwf := h.inv.wf
  refine ⟨s.assetId t, tok, k, h3, h4, hk, hen, hfee, ?_⟩
  simp only [h5, upd_same]
  unfold takeIn at hl
  have hw' : c.acct ≠ w := fun e => hw e.symm
  split_ifs at hl with hx
  · simp only [bind_ok_iff] at hl
    obtain ⟨l1, hb, hm⟩ := hl
    have b1 := Ledger.burn_bal hb
    have b2 := Ledger.mint_bal hm
    have i1 := Ledger.burn_iss hb
    have i2 := Ledger.mint_iss hm
    have le := Ledger.burn_le hb
    have hii : m ≤ s.ledger.iss (s.assetId t) := Nat.le_trans le (Ledger.bal_le_iss hwf _ _)
    simp only [hx, if_true]
    refine ⟨?_, ?_, ?_, ?_, ?_, trivial, ?_, trivial⟩
    · have := b1 (s.assetId t) w
      simp only [and_self, if_true] at this
      rw [b2, ← this]; simp [hw]
    · have := b1 (s.assetId t) c.acct
      simp only [hw', and_false, if_false, Nat.add_zero] at this
      rw [b2, this]; simp
    · intro x y hxy
      rw [b2, ← b1]
      rcases hxy with h | ⟨h, h'⟩
      · simp [h]
      · simp [h, h']
    · rw [i2, i1]; simp; omega
    · intro x hne
      rw [i2, i1]; simp [hne]
    · intro ch' hne; exact upd_of_ne _ _ hne
  · have b := Ledger.transfer_bal hl
    have i := Ledger.transfer_iss hl
    have le := Ledger.transfer_le hl
    simp only [hx, if_false, Bool.false_eq_true]
    refine ⟨?_, ?_, ?_, ?_, ?_, trivial, ?_, trivial⟩
    · simpa [hw, hw'] using b (s.assetId t) w
    · simpa [hw, hw'] using b (s.assetId t) c.acct
    · intro x y hxy
      have := b x y
      rcases hxy with h | ⟨h, h'⟩
      · simpa [h] using this
      · simpa [h, h'] using this
    · rw [i]; rfl
    · intro x _; rw [i]
    · intro ch' hne; exact upd_of_ne _ _ hne

theorem countdown_reverse (k : Nat) : (countdown k).reverse = List.range' 1 k := by
  induction k with
  | zero => rfl
  | succ k ih =>
    simp only [countdown, List.reverse_cons, ih]
    rw [List.range'_concat]; simp [Nat.add_comm]

/-- C34: since the registration of a chain the outgoing transfers carry the nonces 1, 2, …, k, in this order
and without gap or repetition, where `k` is the stored counter. -/
theorem C34_nonces (h : Reach c s) {ch k : Nat} (hk : s.nonces ch = some k) :
    ((since ch s.events).filterMap (Event.sentNonce ch)).reverse = List.range' 1 k := by
  rw [h.inv.sent ch k hk, countdown_reverse]

def ex5 : State := run ex1 [.teleport 7 9 100 5 40, .teleport 7 9 200 5 60]
theorem ex5_reach : Reach exCfg ex5 := run_reach ex1_reach _
example : 7 ≠ exCfg.acct ∧ ex5.nonces 9 = some 2 ∧ ex5.ledger.bal 1 7 = 960 ∧ ex5.ledger.bal 1 1000 = 540 ∧
    ex5.ledger.bal 2 7 = 940 ∧ ex5.ledger.bal 2 1000 = 3 ∧ ex5.ledger.iss 2 = 943 := by decide +kernel

/-! ## C35 -/

/-- C35 as a user would want it: after one more vote against a wrong proposal, every vote for another
proposal of the same nonce that would have been accepted before is still accepted. -/
def C35_statement : Prop := ∀ (c : Cfg) (s s' s'' : State) (o o' : Option Nat) (ch n : Nat) (call call' : MCall),
  Reach c s → call' ≠ call → materialize c s o ch n call false = .ok s' →
  materialize c s o' ch n call' true = .ok s'' → ∃ t, materialize c s' o' ch n call' true = .ok t

/-- Member 11 has voted against the wrong proposal for nonce 4; the genuine one has one approval. -/
def ex6 : State := run ex2 [.materialize (some 11) 9 4 exBad false]
theorem ex6_reach : Reach exCfg ex6 := run_reach ex2_reach _

/-- C35 is false of the code: voting down a wrong proposal uses up the nonce, and the genuine transfer can
never be paid out (a finding). -/
theorem C35_refuted : ¬ C35_statement := by
  intro h
  have h1 : okAnd (materialize exCfg ex6 (some 13) 9 4 exBad false)
      (fun s' => errIs (materialize exCfg s' (some 12) 9 4 exPay true) .proposalAlreadyComplete) := by decide +kernel
  have h2 : okAnd (materialize exCfg ex6 (some 12) 9 4 exPay true) (fun _ => true) := by decide +kernel
  obtain ⟨s', h1, h1'⟩ := okAnd_iff.1 h1
  obtain ⟨s'', h2, _⟩ := okAnd_iff.1 h2
  obtain ⟨t, ht⟩ := h _ _ _ _ _ _ _ _ _ _ ex6_reach (by decide) h1 h2
  simp only [ht, errIs] at h1'
  exact Bool.false_ne_true h1'

/-- The state with other proposals and another event log. -/
def reskin (P : Nat → Nat × MCall → Option Proposal) (E : List Event) (s : State) : State :=
  { s with
    props := P,
    events := E }

theorem updateCap_reskin (P E) (a m : Nat) (d : Dir) :
    updateCap (reskin P E s) a m d = (updateCap s a m d).map (reskin P E) := by
  unfold updateCap
  have : State.token (reskin P E s) a = s.token a := rfl
  simp only [this]
  cases underCap (s.token a) m d <;> rfl

theorem updateRegistry_reskin (P E) (ch n : Nat) :
    updateRegistry (reskin P E s) ch n = (updateRegistry s ch n).map (reskin P E) := by
  unfold updateRegistry
  have : (reskin P E s).registry = s.registry := rfl
  rw [this]
  cases s.registry ch with
  | none => rfl
  | some reg => simp only; cases addNonce reg n <;> rfl

theorem execute_reskin {P E} {ch n : Nat} {call : MCall} {t : State} (h : execute c s ch n call = .ok t) :
    ∃ t', execute c (reskin P E s) ch n call = .ok t' := by
  unfold execute at h ⊢
  simp only [bind_ok_iff, ensure_ok_iff, pure_ok_iff, exists_const] at h ⊢
  obtain ⟨h1, h2, s1, hs1, l, hl, l', hl', s2, hs2, _⟩ := h
  refine ⟨_, h1, h2, reskin P E s1, ?_, l, hl, l', hl', reskin P E s2, ?_, rfl⟩
  · have := updateCap_reskin (s := s) P E (s.assetId call.token) call.amount .inn
    rw [hs1] at this
    exact this
  · have := updateRegistry_reskin (s := { s1 with ledger := l' }) P E ch n
    rw [hs2] at this
    exact this

theorem cancelMat_reskin {P E} {ch n : Nat} {t : State} (h : cancelMat s ch n = .ok t) :
    ∃ t', cancelMat (reskin P E s) ch n = .ok t' := by
  unfold cancelMat at h ⊢
  simp only [bind_ok_iff, pure_ok_iff] at h ⊢
  obtain ⟨s2, hs2, _⟩ := h
  refine ⟨_, reskin P E s2, ?_, rfl⟩
  rw [updateRegistry_reskin, hs2]; rfl

/-- C35, the part that holds: a vote against a wrong proposal that does not decide it (no `rejected` event)
leaves every other proposal of the nonce as votable — and as payable — as before. -/
theorem C35_undecided_partial {s'' : State} {o o' : Option Nat} {ch n : Nat} {call call' : MCall}
    (hne : call' ≠ call) (hm : materialize c s o ch n call false = .ok s')
    (hu : ∃ w, s'.events.head? = some (.voteAgainst ch n w call s.now))
    (hm' : materialize c s o' ch n call' true = .ok s'') : ∃ t, materialize c s' o' ch n call' true = .ok t := by
  obtain ⟨w, p, hw, hn, hb, hp, _, _, hv, h2⟩ := materialize_ok hm
  obtain ⟨w0, hu⟩ := hu
  rcases h2 with ⟨_, h2⟩ | ⟨_, _, _, h2⟩ | ⟨_, rfl⟩
  · obtain ⟨_, _, l, l', reg', _, _, _, rfl⟩ := execute_ok h2
    simp at hu
  · obtain ⟨reg', _, rfl⟩ := cancelMat_ok h2
    simp at hu
  · have hk : (n, call') ≠ (n, call) := by simpa using hne
    have hprop : (afterVote s p ch n w call false .initiated).props ch (n, call') = s.props ch (n, call') := by
      simp [afterVote, setProp, upd_of_ne _ _ hk]
    unfold materialize at hm' ⊢
    simp only [bind_ok_iff, ensure_ok_iff, exists_const] at hm' ⊢
    obtain ⟨w', hw', h1, h2, u, hu, q, hq, h3, h4, h5, h6⟩ := hm'
    have hq' : openProp c (afterVote s p ch n w call false .initiated) ch n call' = .ok q := by
      unfold openProp at hq ⊢
      rw [hprop]
      exact hq
    have hr : relayMember c (afterVote s p ch n w call false .initiated) o' = .ok w' := by
      cases o' <;> exact hw'
    have hfin : ∃ t, resolve c (castVote (afterVote s p ch n w call false .initiated) q ch n w' call' true) ch n call' = .ok t := by
      rw [castVote_eq] at h6 ⊢
      unfold resolve at h6 ⊢
      simp only [setProp, upd_same, okOr] at h6 ⊢
      simp only [bind_ok_iff, ensure_ok_iff, exists_const] at h6 ⊢
      obtain ⟨x, hx, h7, u8, h8, h9⟩ := h6
      cases hx
      have hthr : (afterVote s p ch n w call false .initiated).threshold = s.threshold := rfl
      have hmem : (afterVote s p ch n w call false .initiated).members = s.members := rfl
      simp only [hthr, hmem]
      cases hst : ((voted q w' true).tryComplete s.threshold s.members.length).2 with
      | approved =>
        simp only [hst] at h9
        obtain ⟨t, ht⟩ := execute_reskin h9
        exact ⟨t, _, rfl, h7, u8, h8, by simp only [hst]; exact ht⟩
      | rejected =>
        simp only [hst] at h9
        obtain ⟨t, ht⟩ := cancelMat_reskin h9
        exact ⟨t, _, rfl, h7, u8, h8, by simp only [hst]; exact ht⟩
      | initiated => exact ⟨_, _, rfl, h7, u8, h8, by simp only [hst]; rfl⟩
    obtain ⟨t, ht⟩ := hfin
    exact ⟨t, w', hr, h1, h2, u, hu, q, hq', h3, h4, h5, ht⟩

example : exBad ≠ exPay ∧ okAnd (materialize exCfg ex2 (some 11) 9 4 exBad false)
      (fun s' => s'.events.head? = some (.voteAgainst 9 4 11 exBad ex2.now)) ∧
    okAnd (materialize exCfg ex2 (some 12) 9 4 exPay true) (fun _ => true) := by decide +kernel

/-! ## C50 -/

/-- C50: the two token tables are inverse to each other: bridge token `t` stands for asset `a` exactly if the
settings of asset `a` carry the id `t`. In particular no two assets share a bridge token id. -/
theorem C50_token_registry (h : Reach c s) (t a : Nat) :
    (s.assetIds t = some a ↔ ∃ tok, s.tokens a = some tok ∧ tok.id = t) ∧
    (∀ a' tok tok', s.tokens a = some tok → s.tokens a' = some tok' → tok.id = tok'.id → a = a') := by
  refine ⟨h.inv.bij t a, ?_⟩
  intro a' tok tok' h1 h2 he
  have e1 := (h.inv.bij tok.id a).2 ⟨tok, h1, rfl⟩
  have e2 := (h.inv.bij tok.id a').2 ⟨tok', h2, he.symm⟩
  rw [e1] at e2
  exact Option.some.inj e2

example : Reach exCfg ex1 ∧ ex1.assetIds 200 = some 2 ∧ ex1.tokens 2 = some exTok2 := ⟨ex1_reach, by decide +kernel⟩

/-! ## C51 -/

/-- The percentage in parts per million. -/
theorem pct_parts {x : Nat} (h : x ≤ 100) : min million (x * 10000) = x * 10000 := by unfold million; omega

theorem thr_spec {x n : Nat} (h : x ≤ 100) :
    x * n ≤ pmulCeil (min million (x * 10000)) n * 100 ∧
    pmulCeil (min million (x * 10000)) n * 100 < x * n + 100 := by
  rw [pct_parts h]
  have h1 : n * (x * 10000) ≤ pmulCeil (x * 10000) n * million := (ceilDiv_le_iff million_pos).1 (Nat.le_refl _)
  have h2 : ¬ n * (x * 10000) ≤ (pmulCeil (x * 10000) n - 1) * million ∨ pmulCeil (x * 10000) n = 0 := by
    by_cases h0 : pmulCeil (x * 10000) n = 0
    · exact .inr h0
    · left
      intro h3
      have : pmulCeil (x * 10000) n ≤ pmulCeil (x * 10000) n - 1 := (ceilDiv_le_iff million_pos).2 h3
      omega
  have e : n * (x * 10000) = x * n * 10000 := by ring
  rw [e] at h1 h2
  generalize pmulCeil (x * 10000) n = t at h1 h2 ⊢
  generalize x * n = y at h1 h2 ⊢
  unfold million at h1 h2
  omega

/-- C51: after a change of the committee to a non-empty one (of any size) the threshold is the percentage of
its size, rounded up, and between 1 and the size: `thr - 1 < pct/100 · size ≤ thr`. -/
theorem C51_threshold (hp : 0 < c.pct) (hp' : c.pct ≤ 100) (ms : List Nat) (hms : ms ≠ []) :
    (changeMembers c s ms).members = ms ∧
    c.pct * ms.length ≤ (changeMembers c s ms).threshold * 100 ∧
    ((changeMembers c s ms).threshold - 1) * 100 < c.pct * ms.length ∧
    1 ≤ (changeMembers c s ms).threshold ∧ (changeMembers c s ms).threshold ≤ ms.length := by
  have hn : 0 < ms.length := List.length_pos_iff.2 hms
  have hs := thr_spec (n := ms.length) hp'
  have hle : pmulCeil (min million (c.pct * 10000)) ms.length ≤ ms.length := pmulCeil_le (Nat.min_le_left _ _)
  have hpos : 0 < c.pct * ms.length := Nat.mul_pos hp hn
  have hv : validThreshold c (pmulCeil (min million (c.pct * 10000)) ms.length) ms.length := by
    refine ⟨?_, by omega, hle⟩
    rw [pct_parts hp']
    refine Nat.le_min.2 ⟨by unfold million; omega, ?_⟩
    rw [Nat.le_div_iff_mul_le (by omega), Nat.max_eq_left hn]
    rw [pct_parts hp'] at hs
    have : c.pct * 10000 * ms.length = c.pct * ms.length * 10000 := by ring
    rw [this]
    generalize pmulCeil (c.pct * 10000) ms.length = t at hs ⊢
    unfold million
    omega
  have hc : changeThreshold c { s with members := ms } =
      .ok { s with members := ms, threshold := pmulCeil (min million (c.pct * 10000)) ms.length } := by
    unfold changeThreshold
    dsimp only
    rw [ensure_of hv]; rfl
  unfold changeMembers
  rw [hc]
  simp only [commit]
  generalize pmulCeil (min million (c.pct * 10000)) ms.length = t at hs hle ⊢
  exact ⟨trivial, hs.1, by omega, by omega, hle⟩

example : (changeMembers exCfg ex0 [1, 2, 3, 4, 5]).threshold = 3 := by decide +kernel

/-- C51: a change to an empty committee keeps the old threshold, so nothing can be approved by members. -/
theorem C51_empty (s : State) : (changeMembers c s []).threshold = s.threshold ∧ (changeMembers c s []).members = [] := by
  have hc : changeThreshold c { s with members := [] } = .error .invalidVoteThreshold := by
    unfold changeThreshold
    have : ¬ validThreshold c (pmulCeil (min million (c.pct * 10000)) 0) 0 := by
      unfold validThreshold
      rintro ⟨_, h1, h2⟩
      omega
    simp only [List.length_nil, ensure, this, if_false]
    rfl
  unfold changeMembers
  rw [hc]
  exact ⟨rfl, rfl⟩

/-! ## C52 -/

/-- C52: a payout of an asset other than the native one gives exactly `amount` to the recipient: minted for an
external token, taken from the bridge account for a home token. No other balance of this asset changes, and
the only other change of any balance is the optional gift of native tokens from the gift account. -/
theorem C52_payout (h : Reach c s) {o : Option Nat} {ch n : Nat} {call : MCall} {f : Bool}
    (hm : materialize c s o ch n call f = .ok s') (hp : s'.events.head? = some (.minted ch n call))
    (hd : call.dest ≠ c.acct) {a : Nat} {tok : Token} (ha : s.assetIds call.token = some a)
    (ht : s.tokens a = some tok) (hnat : a ≠ c.native) :
    s'.ledger.bal a call.dest = s.ledger.bal a call.dest + call.amount ∧
    s'.ledger.bal a c.acct + (if tok.external then 0 else call.amount) = s.ledger.bal a c.acct ∧
    s'.ledger.iss a = s.ledger.iss a + (if tok.external then call.amount else 0) ∧
    (∀ x y, (x ≠ a ∨ (y ≠ call.dest ∧ y ≠ c.acct)) → (x ≠ c.native ∨ (y ≠ c.gift ∧ y ≠ call.dest)) →
      s'.ledger.bal x y = s.ledger.bal x y) ∧
    (∀ x, x ≠ a → s'.ledger.iss x = s.ledger.iss x) := by
  obtain ⟨w, p, _, _, _, _, _, _, _, h2⟩ := materialize_ok hm
  have hg : ∀ {l l' : Ledger} {w a m : Nat}, grantBonus c l w a m = .ok l' → (∀ x, l'.iss x = l.iss x) ∧
      ∀ x y, (x ≠ c.native ∨ (y ≠ c.gift ∧ y ≠ w)) → l'.bal x y = l.bal x y := by
    intro l l' w a m hg
    rcases grantBonus_ok hg with rfl | ⟨g, hg⟩
    · exact ⟨fun _ => rfl, fun _ _ _ => rfl⟩
    · refine ⟨fun x => by rw [Ledger.transfer_iss hg], fun x y hxy => ?_⟩
      have := Ledger.transfer_bal hg x y
      rcases hxy with h | ⟨h, h'⟩
      · simpa [h] using this
      · simpa [h, h'] using this
  rcases h2 with ⟨_, h2⟩ | ⟨_, _, _, h2⟩ | ⟨_, rfl⟩
  · obtain ⟨h3, _, l, l', reg', hl, hl', _, rfl⟩ := execute_ok h2
    have e1 : State.assetId (afterVote s p ch n w call f .approved) call.token = a := by
      show s.assetId call.token = a
      simp [State.assetId, ha]
    rw [e1] at hl hl'
    have e2 : State.token (afterVote s p ch n w call f .approved) a = tok := by
      show s.token a = tok
      simp [State.token, ht]
    rw [e2] at hl
    change payOut c s.ledger tok a call = .ok l at hl
    obtain ⟨g1, g2⟩ := hg hl'
    have hd' : c.acct ≠ call.dest := fun e => hd e.symm
    simp only [g1]
    rw [g2 a call.dest (.inl hnat), g2 a c.acct (.inl hnat)]
    unfold payOut at hl
    split_ifs at hl with hx
    · have b := Ledger.mint_bal hl
      have i := Ledger.mint_iss hl
      simp only [hx, if_true]
      refine ⟨by rw [b]; simp, by rw [b]; simp [hd'], by rw [i]; simp, ?_, ?_⟩
      · intro x y h1 h2
        rw [g2 x y h2, b]
        rcases h1 with h | ⟨h, h'⟩
        · simp [h]
        · simp [h]
      · intro x h1; rw [i]; simp [h1]
    · have b := Ledger.transfer_bal hl
      have i := Ledger.transfer_iss hl
      simp only [hx, if_false, Bool.false_eq_true]
      refine ⟨by simpa [hd, hd'] using b a call.dest, by simpa [hd, hd'] using b a c.acct, by rw [i]; rfl, ?_, ?_⟩
      · intro x y h1 h2
        rw [g2 x y h2]
        have := b x y
        rcases h1 with h | ⟨h, h'⟩
        · simpa [h] using this
        · simpa [h, h'] using this
      · intro x h1; rw [i]
  · obtain ⟨reg', _, rfl⟩ := cancelMat_ok h2
    simp at hp
  · cases f <;> simp [afterVote, voteEvent] at hp

example : exPay.dest ≠ exCfg.acct ∧ ex2.assetIds exPay.token = some 1 ∧ ex2.tokens 1 = some exTok ∧ 1 ≠ exCfg.native ∧
    okAnd (materialize exCfg ex2 (some 12) 9 4 exPay true) (fun s' => s'.events.head? = some (.minted 9 4 exPay) ∧
      s'.ledger.bal 1 8 = 50 ∧ s'.ledger.bal 1 1000 = 450) := by decide +kernel

/-! ## C53 -/

/-- C53: the vote that brings a proposal to the threshold pays it out in the same call: a successful approving
vote on a proposal that already has `threshold - 1` approvals ends with the payout event, and a vote short of
the threshold never pays. -/
theorem C53_threshold_vote_pays {o : Option Nat} {ch n : Nat} {call : MCall} {p : Proposal}
    (hp : s.props ch (n, call) = some p) (hm : materialize c s o ch n call true = .ok s') :
    s'.events.head? = some (.minted ch n call) ↔ s.threshold ≤ p.votesFor.length + 1 := by
  obtain ⟨w, q, _, _, _, hq, _, _, _, h2⟩ := materialize_ok hm
  have : q = p := by
    rcases openProp_ok hq with h | ⟨h, _⟩
    · rw [hp] at h; exact (Option.some.inj h).symm
    · rw [hp] at h; cases h
  subst this
  have hl : (voted q w true).votesFor.length = q.votesFor.length + 1 := by simp [voted]
  rw [hl] at h2
  rcases h2 with ⟨h1, h2⟩ | ⟨h1, _, _, h2⟩ | ⟨h1, rfl⟩
  · obtain ⟨_, _, l, l', reg', _, _, _, rfl⟩ := execute_ok h2
    simp [h1]
  · obtain ⟨reg', _, rfl⟩ := cancelMat_ok h2
    simp; omega
  · simp [afterVote, voteEvent]; omega

example : (ex2.props 9 (4, exPay)).map (fun p => p.votesFor) = some [11] ∧ ex2.threshold = 2 ∧
    okAnd (materialize exCfg ex2 (some 12) 9 4 exPay true) (fun _ => true) := by decide +kernel

end Verif.Bridge
