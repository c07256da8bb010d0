import Verif.Bridge.Props2

set_option linter.unusedSimpArgs false

/-!
# Bridge: on which side a vote counts (C225)

A relayer who votes against a transfer does not expect to be the one who pays it out, and one who votes for it
does not expect to reject it.  Both happen after the committee has become smaller in between, because the vote
is recorded first and then *both* counts are compared with the present threshold (types.rs:52-62).
-/

namespace Verif.Bridge
open Verif

variable {c : Cfg} {s s' s0 : State}

/-- A history of calls, blocks and foreign ledger moves in which the committee does not change. -/
inductive Steady (c : Cfg) (s0 : State) : State → Prop
  | refl : Steady c s0 s0
  | call {s s' : State} (h : Steady c s0 s) (k : Call) (hk : exec c s k = .ok s') : Steady c s0 s'
  | block {s : State} (h : Steady c s0 s) : Steady c s0 (newBlock s)
  | env {s s' : State} (h : Steady c s0 s) (he : Env s s') : Steady c s0 s'

theorem Steady.reach (h : Steady c s0 s) (h0 : Reach c s0) : Reach c s := by
  induction h with
  | refl => exact h0
  | call _ k hk ih => exact .step ih (.call k hk)
  | block _ ih => exact .step ih .block
  | env _ he ih => exact .step ih (.env he)

/-- How often nonce `n` of chain `ch` was paid out, and how often it was voted down. -/
def payouts (ch n : Nat) (evs : List Event) : Nat := evs.countP (Event.pays ch n)
/-- See `payouts`. -/
def rejections (ch n : Nat) (evs : List Event) : Nat := evs.countP (fun e => decide (e = .rejected ch n))

/-- C225 as a relayer would want it: a vote against pays nothing out and moves no tokens, a vote for rejects
nothing. -/
def C225_statement : Prop := ∀ (c : Cfg) (s s' : State) (o : Option Nat) (ch n : Nat) (call : MCall) (f : Bool),
  Reach c s → materialize c s o ch n call f = .ok s' →
  (f = false → payouts ch n s'.events = payouts ch n s.events ∧ s'.ledger = s.ledger) ∧
  (f = true → rejections ch n s'.events = rejections ch n s.events)

/-! Two of five relayers (threshold 3) approve; the committee shrinks to three (threshold 2). -/
def exFive : State := run (changeMembers exCfg ex1 [11, 12, 13, 14, 15])
  [.materialize (some 11) 9 4 exPay true, .materialize (some 12) 9 4 exPay true]
def exThree : State := changeMembers exCfg exFive [11, 12, 13]
theorem exThree_reach : Reach exCfg exThree :=
  .step (run_reach (.step ex1_reach (.members _)) _) (.members _)

/-! Three of six relayers (threshold 3) decline; the committee shrinks to four (threshold 2). -/
def exSix : State := run (changeMembers exCfg ex1 [11, 12, 13, 14, 15, 16])
  [.materialize (some 11) 9 4 exPay false, .materialize (some 12) 9 4 exPay false,
    .materialize (some 13) 9 4 exPay false]
def exFour : State := changeMembers exCfg exSix [13, 14, 15, 16]
theorem exFour_reach : Reach exCfg exFour :=
  .step (run_reach (.step ex1_reach (.members _)) _) (.members _)

/-- A finding: after the committee has shrunk a vote *against* pays the transfer out. -/
theorem C225_against_pays : ∃ (c : Cfg) (s s' : State) (o : Option Nat) (ch n : Nat) (call : MCall),
    Reach c s ∧ materialize c s o ch n call false = .ok s' ∧ payouts ch n s'.events = payouts ch n s.events + 1 ∧
    s'.ledger.bal (s.assetId call.token) call.dest = s.ledger.bal (s.assetId call.token) call.dest + call.amount := by
  have h : okAnd (materialize exCfg exThree (some 13) 9 4 exPay false) (fun s' =>
      decide (payouts 9 4 s'.events = payouts 9 4 exThree.events + 1) &&
      decide (s'.ledger.bal (exThree.assetId exPay.token) exPay.dest =
        exThree.ledger.bal (exThree.assetId exPay.token) exPay.dest + exPay.amount)) := by decide +kernel
  obtain ⟨s', h1, h2⟩ := okAnd_iff.1 h
  simp only [Bool.and_eq_true, decide_eq_true_eq] at h2
  exact ⟨_, _, s', _, _, _, _, exThree_reach, h1, h2.1, h2.2⟩

/-- A finding: after the committee has shrunk a vote *for* rejects the transfer (and uses up its nonce). -/
theorem C225_for_rejects : ∃ (c : Cfg) (s s' : State) (o : Option Nat) (ch n : Nat) (call : MCall),
    Reach c s ∧ materialize c s o ch n call true = .ok s' ∧
    rejections ch n s'.events = rejections ch n s.events + 1 ∧ hasBridged s' ch n = true := by
  have h : okAnd (materialize exCfg exFour (some 14) 9 4 exPay true) (fun s' =>
      decide (rejections 9 4 s'.events = rejections 9 4 exFour.events + 1) && hasBridged s' 9 4) := by decide +kernel
  obtain ⟨s', h1, h2⟩ := okAnd_iff.1 h
  simp only [Bool.and_eq_true, decide_eq_true_eq] at h2
  exact ⟨_, _, s', _, _, _, _, exFour_reach, h1, h2.1, h2.2⟩

/-- C225 is false of the code. -/
theorem C225_refuted : ¬ C225_statement := by
  intro h
  obtain ⟨c, s, s', o, ch, n, call, hr, hm, hp, _⟩ := C225_against_pays
  have := ((h c s s' o ch n call false hr hm).1 rfl).1
  omega

/-- What the steady committee keeps true of one proposal: while it is open it has neither enough approvals nor
enough refusals. -/
def Undecided (s : State) (ch n : Nat) (call : MCall) : Prop := ∀ p, s.props ch (n, call) = some p →
  p.status = .initiated → p.votesFor.length < s.threshold ∧
    ¬ (s.threshold ≤ s.members.length ∧ s.members.length < p.votesAgainst.length + s.threshold)

/-- An undecided vote has tested both counts. -/
theorem materialize_open {o : Option Nat} {ch n : Nat} {call : MCall} {f : Bool}
    (h : materialize c s o ch n call f = .ok s') {q : Proposal} (hq : s'.props ch (n, call) = some q)
    (hi : q.status = .initiated) : q.votesFor.length < s.threshold ∧
    ¬ (s.threshold ≤ s.members.length ∧ s.members.length < q.votesAgainst.length + s.threshold) := by
  unfold materialize at h
  simp only [bind_ok_iff, ensure_ok_iff, exists_const] at h
  obtain ⟨w, hw, h1, h2, u, _, p, hp, h3, h4, h5, h6⟩ := h
  rw [castVote_eq] at h6
  unfold resolve at h6
  simp only [bind_ok_iff, ensure_ok_iff, okOr_ok_iff, exists_const, setProp, upd_same, Option.some.injEq] at h6
  obtain ⟨q', rfl, _, _, _, h7⟩ := h6
  unfold Proposal.tryComplete at h7
  split_ifs at h7 with h8 h9
  · obtain ⟨_, _, l, l', reg', _, _, _, rfl⟩ := execute_ok h7
    simp only [upd_same, Option.some.injEq] at hq
    subst hq; cases hi
  · obtain ⟨reg', _, rfl⟩ := cancelMat_ok h7
    simp only [upd_same, Option.some.injEq] at hq
    subst hq; cases hi
  · rw [pure_ok_iff] at h7
    subst h7
    simp only [upd_same, Option.some.injEq] at hq
    subst hq
    exact ⟨by omega, h9⟩

theorem materialize_frame {o : Option Nat} {ch n : Nat} {call : MCall} {f : Bool}
    (h : materialize c s o ch n call f = .ok s') : s'.threshold = s.threshold ∧ s'.members = s.members ∧
    ∀ ch' n' call', (ch', n', call') ≠ (ch, n, call) → s'.props ch' (n', call') = s.props ch' (n', call') := by
  obtain ⟨w, p, _, _, _, _, _, _, _, h2⟩ := materialize_ok h
  have key : ∀ st, ∀ ch' n' call', (ch', n', call') ≠ (ch, n, call) →
      (afterVote s p ch n w call f st).props ch' (n', call') = s.props ch' (n', call') := by
    intro st ch' n' call' hne
    unfold afterVote setProp
    dsimp only
    by_cases h1 : ch' = ch
    · subst h1
      rw [upd_same]
      exact upd_of_ne _ _ (fun e => hne (by rw [e]))
    · rw [upd_of_ne _ _ h1]
  rcases h2 with ⟨_, h2⟩ | ⟨_, _, _, h2⟩ | ⟨_, rfl⟩
  · obtain ⟨_, _, l, l', reg', _, _, _, rfl⟩ := execute_ok h2
    exact ⟨rfl, rfl, key .approved⟩
  · obtain ⟨reg', _, rfl⟩ := cancelMat_ok h2
    exact ⟨rfl, rfl, key .rejected⟩
  · exact ⟨rfl, rfl, key .initiated⟩

theorem Steady.undecided (h : Steady c s0 s) (h0 : Reach c s0) {ch n : Nat} {call : MCall}
    (hn : s0.props ch (n, call) = none) : Undecided s ch n call := by
  induction h with
  | refl => intro p hp; rw [hn] at hp; cases hp
  | @call s s' hs k hk ih =>
    have same : s'.props = s.props → s'.threshold = s.threshold → s'.members = s.members →
        Undecided s' ch n call := by
      intro e1 e2 e3 p hp hi
      rw [e2, e3]
      rw [e1] at hp
      exact ih p hp hi
    have hr := hs.reach h0
    cases k with
    | registerChain x =>
      unfold exec registerChain at hk
      simp only [bind_ok_iff, ensure_ok_iff, pure_ok_iff, exists_const] at hk
      obtain ⟨_, rfl⟩ := hk; exact same rfl rfl rfl
    | unregisterChain x =>
      unfold exec unregisterChain at hk
      simp only [bind_ok_iff, ensure_ok_iff, pure_ok_iff, exists_const] at hk
      obtain ⟨_, rfl⟩ := hk; exact same rfl rfl rfl
    | registerToken a t =>
      unfold exec registerToken at hk
      simp only [bind_ok_iff, ensure_ok_iff, pure_ok_iff, exists_const] at hk
      obtain ⟨_, rfl⟩ := hk; exact same rfl rfl rfl
    | unregisterToken t =>
      unfold exec unregisterToken at hk
      simp only [bind_ok_iff, ensure_ok_iff, pure_ok_iff, exists_const] at hk
      obtain ⟨_, rfl⟩ := hk; exact same rfl rfl rfl
    | setFee t f => obtain ⟨_, _, _, _, rfl⟩ := (C108_settings hr rfl).1 hk; exact same rfl rfl rfl
    | setStatus t f => obtain ⟨_, _, _, _, rfl⟩ := (C108_settings hr rfl).1 hk; exact same rfl rfl rfl
    | setCap t d f => obtain ⟨_, _, _, _, rfl⟩ := (C108_settings hr rfl).1 hk; exact same rfl rfl rfl
    | cleanCap t d => obtain ⟨_, _, _, _, rfl⟩ := (C108_settings hr rfl).1 hk; exact same rfl rfl rfl
    | teleport w ch' t d m =>
      obtain ⟨k, l, _, _, _, _, _, _, _, _, rfl⟩ := teleport_ok hk
      exact same rfl rfl rfl
    | materialize o ch' n' call' f =>
      have hk : materialize c s o ch' n' call' f = .ok s' := hk
      obtain ⟨e2, e3, e1⟩ := materialize_frame hk
      intro p hp hi
      by_cases he : (ch, n, call) = (ch', n', call')
      · cases he
        rw [e2, e3]
        exact materialize_open hk hp hi
      · rw [e1 _ _ _ he] at hp
        rw [e2, e3]
        exact ih p hp hi
  | @block s hs ih =>
    intro p hp hi
    have hp' : (match s.props ch (n, call) with
      | some p => if p.expiry ≤ s.now + 1 then none else some p
      | none => none) = some p := hp
    cases hq : s.props ch (n, call) with
    | none => rw [hq] at hp'; cases hp'
    | some q =>
      rw [hq] at hp'
      dsimp only at hp'
      split_ifs at hp' with h1
      cases hp'
      exact ih p hq hi
  | env _ he ih => intro p hp hi; rw [he.eq] at hp ⊢; exact ih p hp hi

/-- C225, the part that holds: while the committee does not change after the first vote on a proposal, a vote
against it pays nothing out and moves no tokens, and a vote for it rejects nothing.  Missing: committees that
change in between, for which the property is false (`C225_against_pays`, `C225_for_rejects`). -/
theorem C225_sides_partial (h0 : Reach c s0) {o : Option Nat} {ch n : Nat} {call : MCall} {f : Bool}
    (hn : s0.props ch (n, call) = none) (hs : Steady c s0 s) (hm : materialize c s o ch n call f = .ok s') :
    (f = false → payouts ch n s'.events = payouts ch n s.events ∧ s'.ledger = s.ledger) ∧
    (f = true → rejections ch n s'.events = rejections ch n s.events) := by
  have hu := hs.undecided h0 hn
  have ht := (hs.reach h0).inv.thr
  obtain ⟨w, p, _, _, _, hp, hi, _, _, h2⟩ := materialize_ok hm
  have hp' : p.votesFor.length < s.threshold ∧
      ¬ (s.threshold ≤ s.members.length ∧ s.members.length < p.votesAgainst.length + s.threshold) := by
    rcases openProp_ok hp with e | ⟨_, rfl⟩
    · exact hu p e hi
    · exact ⟨ht, by simp⟩
  rcases h2 with ⟨h3, h2⟩ | ⟨_, h3, h4, h2⟩ | ⟨_, rfl⟩
  · obtain ⟨_, _, l, l', reg', _, _, _, rfl⟩ := execute_ok h2
    cases f
    · simp [voted] at h3; omega
    · exact ⟨by simp, fun _ => by simp [rejections, afterVote, voteEvent]⟩
  · obtain ⟨reg', _, rfl⟩ := cancelMat_ok h2
    cases f
    · exact ⟨fun _ => ⟨by simp [payouts, afterVote, voteEvent, Event.pays], rfl⟩, by simp⟩
    · simp only [voted, if_true] at h4; exact absurd ⟨h3, h4⟩ hp'.2
  · refine ⟨fun hf => ⟨?_, rfl⟩, fun hf => ?_⟩
    · subst hf; simp [payouts, afterVote, voteEvent, Event.pays]
    · subst hf; simp [rejections, afterVote, voteEvent]

/-- Non-vacuity: a refusal after an approval, with an unchanged committee, leaves the transfer open. -/
example : Reach exCfg ex1 ∧ ex1.props 9 (4, exPay) = none ∧ Steady exCfg ex1 ex2 ∧
    okAnd (materialize exCfg ex2 (some 12) 9 4 exPay false) (fun s' => payouts 9 4 s'.events == 0) ∧
    okAnd (materialize exCfg ex2 (some 12) 9 4 exPay true) (fun s' => payouts 9 4 s'.events == 1) := by
  refine ⟨ex1_reach, by decide +kernel, ?_, by decide +kernel, by decide +kernel⟩
  have h : okAnd (exec exCfg ex1 (.materialize (some 11) 9 4 exPay true)) (fun _ => true) := by decide +kernel
  obtain ⟨t, h1, _⟩ := okAnd_iff.1 h
  have e : ex2 = t := by
    show commit ex1 (exec exCfg ex1 (.materialize (some 11) 9 4 exPay true)) = t
    rw [h1]; rfl
  rw [e]
  exact .call .refl _ h1

end Verif.Bridge
