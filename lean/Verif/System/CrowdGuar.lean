import Verif.System.StreamGuar
import Verif.Crowdloans.Spec

/-! # What the crowdloans pallet guarantees to everybody else -/

namespace Verif.Crowdloans
open Verif Verif.System

/-- The accounts a call may take tokens from, other than the pallet's own. -/
def Call.payers : Call → List Nat
  | .contribute who _ _ _ => [who]
  | .redeem who _ _ => [who]
  | .redeemAndLend who _ _ => [who]
  | _ => []

/-- The derivative token a call introduces. -/
def Call.newCtoken : Call → List Nat
  | .createVault _ ct _ _ _ => [ct]
  | _ => []

/-- `a` is the derivative token of some lease. -/
def IsCtoken (s : State) (a : Nat) : Prop := ∃ l, s.ctokenOf l = some a

/-- A part of a call that leaves streams alone. -/
structure Quiet (src cur : Nat → Prop) (s s' : State) : Prop where
  guar : Guar src cur s.tok s'.tok
  str : s'.str = { s.str with ledger := s'.tok }
  ct : s'.ctokenOf = s.ctokenOf
  ids : s.nextQuery ≤ s'.nextQuery
  reqs : ∀ q, s'.requests q ≠ none → s.requests q ≠ none ∨ s.nextQuery ≤ q

variable {c : Cfg} {s s' : State} {src cur : Nat → Prop}

theorem Quiet.refl : Quiet src cur s s := ⟨Guar.refl, rfl, rfl, le_refl _, fun _ h => .inl h⟩

theorem Quiet.trans {s1 s2 : State} (h : Quiet src cur s s1) (g : Quiet src cur s1 s2) : Quiet src cur s s2 :=
  ⟨h.guar.trans g.guar, by rw [g.str, h.str], g.ct.trans h.ct, le_trans h.ids g.ids,
    fun q hq => (g.reqs q hq).elim (h.reqs q) (fun hi => .inr (le_trans h.ids hi))⟩

theorem Quiet.of (hs : s'.str = s.str) (hc : s'.ctokenOf = s.ctokenOf)
    (hi : s.nextQuery ≤ s'.nextQuery := by exact le_refl _)
    (hr : ∀ q, s'.requests q ≠ none → s.requests q ≠ none ∨ s.nextQuery ≤ q := by exact fun _ h => .inl h) : Quiet src cur s s' :=
  ⟨by simp only [State.tok, hs]; exact Guar.refl, by simp only [State.tok, hs], hc, hi, hr⟩

theorem Quiet.tok {l : Ledger} (h : Guar src cur s.tok l) : Quiet src cur s (s.withTok l) := ⟨h, rfl, rfl, le_refl _, fun _ h => .inl h⟩

theorem updateContribution_quiet {v v' : Vault} {who m : Nat} {code : Option Nat} {add : Bool} {k : Kind} {x : Nat}
    (h : updateContribution s v who m code add k = .ok (s', v', x)) : Quiet src cur s s' := by
  simp only [updateContribution, bind_ok_iff, pure_ok_iff, Prod.mk.injEq] at h
  obtain ⟨_, _, _, _, rfl, _⟩ := h
  exact Quiet.of rfl rfl

theorem migrateContribution_quiet {v v' : Vault} {who m : Nat} {a b : Kind}
    (h : migrateContribution s v who m a b = .ok (s', v')) : Quiet src cur s s' := by
  simp only [migrateContribution, bind_ok_iff, pure_ok_iff, Prod.mk.injEq, Prod.exists] at h
  obtain ⟨s1, _, _, h1, s2, _, _, h2, rfl, _⟩ := h
  exact (updateContribution_quiet h1).trans (updateContribution_quiet h2)

theorem sendXcm_quiet {f : Fee} {r : Req} (h : sendXcm c s f r = .ok s') (hx : src c.xcmAcct) (hr : cur c.relay) :
    Quiet src cur s s' := by
  simp only [sendXcm, bind_ok_iff, pure_ok_iff] at h
  obtain ⟨l, hl, _, _, rfl⟩ := h
  unfold burnFee at hl
  split at hl
  · cases hl
    rename_i hl
    exact (Quiet.tok (Guar.burn hl hx hr)).trans (Quiet.of rfl rfl (Nat.le_succ _) (fun q hq => by
      by_cases e : q = s.nextQuery
      · exact .inr (le_of_eq e.symm)
      · refine .inl (fun h => hq ?_)
        show upd s.requests s.nextQuery _ q = none
        rw [upd_of_ne _ _ e]; exact h))
  · simp at hl

theorem doContribute_quiet {k : Key} {p : Bool} {who m code : Nat} (h : doContribute c s k p who m code = .ok s')
    (hx : src c.xcmAcct) (hr : cur c.relay) : Quiet src cur s s' := by
  unfold doContribute at h
  split_ifs at h
  · simp only [bind_ok_iff] at h
    obtain ⟨_, _, h⟩ := h
    exact sendXcm_quiet h hx hr
  · exact sendXcm_quiet h hx hr

theorem book_quiet {k : Key} {v v' : Vault} {who m code : Nat} (h : book c s k v who m code = .ok (s', v'))
    (hx : src c.xcmAcct) (hr : cur c.relay) : Quiet src cur s s' := by
  unfold book at h
  split_ifs at h
  · simp only [bind_ok_iff, pure_ok_iff, Prod.mk.injEq, Prod.exists] at h
    obtain ⟨s1, _, _, h1, s2, h2, rfl, _⟩ := h
    exact (updateContribution_quiet h1).trans (doContribute_quiet h2 hx hr)
  · simp only [bind_ok_iff, pure_ok_iff, Prod.mk.injEq, Prod.exists] at h
    obtain ⟨s1, _, _, h1, rfl, _⟩ := h
    exact updateContribution_quiet h1

theorem migrateLoop_quiet {k : Key} (hx : src c.xcmAcct) (hr : cur c.relay) :
    ∀ {n : Nat} {l : List Entry} {s s' : State} {v v' : Vault} {b : Bool},
      migrateLoop c k n l s v = .ok (s', v', b) → Quiet src cur s s'
  | n, [], s, s', v, v', b, h => by
    simp only [migrateLoop, Except.ok.injEq, Prod.mk.injEq] at h; rw [← h.1]; exact Quiet.refl
  | 0, _ :: _, s, s', v, v', b, h => by
    simp only [migrateLoop, Except.ok.injEq, Prod.mk.injEq] at h; rw [← h.1]; exact Quiet.refl
  | n + 1, e :: l, s, s', v, v', b, h => by
    simp only [migrateLoop, bind_ok_iff, Prod.exists] at h
    obtain ⟨s1, v1, h1, s2, h2, h3⟩ := h
    exact ((migrateContribution_quiet h1).trans (doContribute_quiet h2 hx hr)).trans (migrateLoop_quiet hx hr h3)

theorem refundOne_quiet {v v' : Vault} {kind : Kind} {who m : Nat} (h : refundOne c s v kind who m = .ok (s', v'))
    (ha : src c.acct) (hr : cur c.relay) : Quiet src cur s s' := by
  simp only [refundOne, bind_ok_iff, pure_ok_iff, Prod.mk.injEq, Prod.exists] at h
  obtain ⟨l, hl, s1, _, _, h1, rfl, _⟩ := h
  have g : Guar src cur s.tok l := by
    unfold refundPay at hl
    split_ifs at hl
    · exact Guar.mint hl hr
    · exact Guar.transfer hl ha
  exact ((Quiet.tok g).trans (updateContribution_quiet h1)).trans (Quiet.of rfl rfl)

theorem refundLoop_quiet (ha : src c.acct) (hr : cur c.relay) :
    ∀ {n : Nat} {l : List (Kind × Entry)} {s s' : State} {v v' : Vault} {b : Bool},
      refundLoop c n l s v = .ok (s', v', b) → Quiet src cur s s'
  | n, [], s, s', v, v', b, h => by
    simp only [refundLoop, Except.ok.injEq, Prod.mk.injEq] at h; rw [← h.1]; exact Quiet.refl
  | 0, _ :: _, s, s', v, v', b, h => by
    simp only [refundLoop, Except.ok.injEq, Prod.mk.injEq] at h; rw [← h.1]; exact Quiet.refl
  | n + 1, e :: l, s, s', v, v', b, h => by
    simp only [refundLoop, bind_ok_iff, Prod.exists] at h
    obtain ⟨s1, v1, h1, h2⟩ := h
    exact (refundOne_quiet h1 ha hr).trans (refundLoop_quiet ha hr h2)

theorem movePhase_quiet {para : Nat} {a b : Phase} (h : movePhase s para a b = .ok s') : Quiet src cur s s' := by
  simp only [movePhase, bind_ok_iff, pure_ok_iff, Prod.exists] at h
  obtain ⟨_, _, _, _, _, rfl⟩ := h
  exact Quiet.of rfl rfl

theorem askBack_quiet {para : Nat} {a b : Phase} (h : askBack c s para a b = .ok s') (hx : src c.xcmAcct)
    (hr : cur c.relay) : Quiet src cur s s' := by
  simp only [askBack, doWithdraw, bind_ok_iff, pure_ok_iff, Prod.exists] at h
  obtain ⟨_, _, _, _, _, s1, h1, rfl⟩ := h
  exact (sendXcm_quiet h1 hx hr).trans (Quiet.of rfl rfl)

theorem redeem_quiet {who : Nat} {k : Key} {m : Nat} (h : redeem c s who k m = .ok s') (hw : src who)
    (hr : cur c.relay) (hc : ∀ a, IsCtoken s a → cur a) : Quiet src cur s s' := by
  simp only [redeem, bind_ok_iff, pure_ok_iff, okOr_ok_iff] at h
  obtain ⟨ct, hct, _, _, _, _, _, _, _, _, l1, h1, l2, h2, rfl⟩ := h
  exact (Quiet.tok ((Guar.burn h1 hw (hc ct ⟨_, hct⟩)).trans (Guar.mint h2 hr))).trans (Quiet.of rfl rfl)

theorem upd_none_ne {f : Nat → Option Req} {q x : Nat} (h : upd f q none x ≠ none) : f x ≠ none := by
  by_cases e : x = q
  · subst e; rw [upd_same] at h; exact absurd rfl h
  · rw [upd_of_ne _ _ e] at h; exact h

theorem notify_quiet {q : Nat} {e : Bool} (h : notify c s q e = .ok s') (ha : src c.acct) (hr : cur c.relay) :
    Quiet src cur s s' := by
  unfold notify at h
  split at h
  · cases h; exact Quiet.refl
  · simp only [contributed, bind_ok_iff, pure_ok_iff, Prod.exists] at h
    obtain ⟨_, ⟨_, _, l, hl, s1, _, h1, rfl⟩, rfl⟩ := h
    exact ((Quiet.tok (Guar.burn hl ha hr)).trans (migrateContribution_quiet h1)).trans (Quiet.of rfl rfl (le_refl _) (fun x hx => .inl (upd_none_ne hx)))
  · simp only [bounced, bind_ok_iff, pure_ok_iff, Prod.exists] at h
    obtain ⟨_, _, l, hl, s1, _, _, h1, rfl⟩ := h
    exact ((Quiet.tok (Guar.transfer hl ha)).trans (updateContribution_quiet h1)).trans (Quiet.of rfl rfl)
  · simp only [withdrawn, bind_ok_iff, pure_ok_iff] at h
    obtain ⟨_, ⟨_, _, rfl⟩, rfl⟩ := h
    exact Quiet.of rfl rfl (le_refl _) (fun x hx => .inl (upd_none_ne hx))
  · cases h; exact Quiet.refl

/-- How a call changes streams: not at all, or by opening one stream paid by the pallet account. -/
def StrStep (c : Cfg) (src cur : Nat → Prop) (s s' : State) : Prop :=
  (Guar src cur s.tok s'.tok ∧ s'.str = { s.str with ledger := s'.tok }) ∨
  ∃ l who m a b, Guar src cur s.tok l ∧
    Streaming.exec c.streaming { s.str with ledger := l } (.traitCreate c.acct who m c.native a b false) = .ok s'.str

theorem claim_guar {who : Nat} {k : Key} {f : Bool} (h : claim c s who k f = .ok s') (ha : src c.acct)
    (hc : ∀ a, IsCtoken s a → cur a) :
    Guar (fun w => src w ∨ w = c.streaming.acct) cur s.tok s'.tok ∧ s'.ctokenOf = s.ctokenOf ∧
      StrStep c src cur s s' ∧ s'.nextQuery = s.nextQuery ∧ s'.requests = s.requests := by
  simp only [claim, bind_ok_iff, pure_ok_iff, okOr_ok_iff] at h
  obtain ⟨ct, hct, v, hv, _, _, _, _, l, hl, s1, h1, rfl⟩ := h
  have g : Guar src cur s.tok l := Guar.mint hl (hc ct ⟨_, hct⟩)
  unfold payBonus at h1
  split_ifs at h1
  · cases h1
    exact ⟨g.mono (fun w hw => .inl hw) (fun _ h => h), rfl, .inl ⟨g, rfl⟩, rfl, rfl⟩
  · simp only [bind_ok_iff, pure_ok_iff] at h1
    obtain ⟨str, h2, rfl⟩ := h1
    have h3 : Streaming.exec c.streaming { s.str with ledger := l }
      (.traitCreate c.acct who _ c.native _ _ false) = .ok str := h2
    refine ⟨(g.mono (fun w hw => .inl hw) (fun _ h => h)).trans
      ((Streaming.exec_guar h3).mono (fun w hw => ?_) (fun _ h => h.elim)), rfl, .inr ⟨l, who, _, _, _, g, h3⟩, rfl, rfl⟩
    simp only [Streaming.Call.payers, List.mem_singleton] at hw
    rcases hw with rfl | rfl
    · exact .inl ha
    · exact .inr rfl

/-- The accounts a crowdloans call may take tokens from. -/
abbrev srcOf (c : Cfg) (k : Call) (w : Nat) : Prop := w ∈ k.payers ∨ w = c.acct ∨ w = c.xcmAcct
/-- The assets a crowdloans call may mint or burn. -/
abbrev curOf (c : Cfg) (s : State) (a : Nat) : Prop := a = c.relay ∨ IsCtoken s a

/-- A crowdloans call takes tokens only from the pallet's and the XCM helper's accounts, and from the account it names
when it contributes or redeems; it mints and burns only the relay token and derivative tokens. -/
theorem exec_quiet {k : Call} (h : exec c s k = .ok s') :
    Quiet (srcOf c k) (curOf c s) s s' ∨
    ((∃ ct, k.newCtoken = [ct] ∧ s'.str = s.str ∧ s'.nextQuery = s.nextQuery ∧ s'.requests = s.requests ∧
      ∃ l, s'.ctokenOf = upd s.ctokenOf l (some ct)) ∨
    (Guar (fun w => srcOf c k w ∨ w = c.streaming.acct) (curOf c s) s.tok s'.tok ∧ s'.ctokenOf = s.ctokenOf ∧
      StrStep c (srcOf c k) (curOf c s) s s' ∧ s'.nextQuery = s.nextQuery ∧ s'.requests = s.requests)) := by
  have hr : curOf c s c.relay := .inl rfl
  have hc : ∀ a, IsCtoken s a → curOf c s a := fun a h => .inr h
  have ha : ∀ k : Call, srcOf c k c.acct := fun k => .inr (.inl rfl)
  have hx : ∀ k : Call, srcOf c k c.xcmAcct := fun k => .inr (.inr rfl)
  cases k with
  | createVault k ct p cap eb =>
    simp only [exec, createVault, bind_ok_iff, pure_ok_iff] at h
    obtain ⟨_, _, _, _, _, _, _, _, _, _, _, _, _, _, rfl⟩ := h
    exact .inr (.inl ⟨ct, rfl, rfl, rfl, rfl, _, rfl⟩)
  | updateVault para cap eb p =>
    simp only [exec, updateVault, bind_ok_iff, pure_ok_iff, Prod.exists] at h
    obtain ⟨_, _, _, _, _, rfl⟩ := h
    exact .inl (Quiet.of rfl rfl)
  | «open» para => exact .inl (movePhase_quiet h)
  | contribute who para m code =>
    simp only [exec, contribute, bind_ok_iff, pure_ok_iff, Prod.exists] at h
    obtain ⟨_, _, _, _, _, _, _, _, _, _, _, _, _, _, _, _, _, _, _, l, hl, s1, _, h1, rfl⟩ := h
    exact .inl (((Quiet.tok (Guar.transfer hl (.inl (by simp [Call.payers])))).trans
      (book_quiet h1 (hx _) hr)).trans (Quiet.of rfl rfl))
  | setVrf f =>
    simp only [exec, setVrf, Except.ok.injEq] at h
    subst h; exact .inl (Quiet.of rfl rfl)
  | close para => exact .inl (movePhase_quiet h)
  | reopen para => exact .inl (movePhase_quiet h)
  | auctionSucceeded para => exact .inl (movePhase_quiet h)
  | auctionFailed para => exact .inl (askBack_quiet h (hx _) hr)
  | claim who k => exact .inr (.inr (claim_guar h (ha _) hc))
  | withdraw who k =>
    simp only [exec, withdraw, bind_ok_iff, pure_ok_iff] at h
    obtain ⟨_, _, _, _, _, _, _, _, l, hl, rfl⟩ := h
    exact .inl ((Quiet.tok (Guar.mint hl hr)).trans (Quiet.of rfl rfl))
  | redeem who k m => exact .inl (redeem_quiet h (.inl (by simp [Call.payers])) hr hc)
  | slotExpired para => exact .inl (askBack_quiet h (hx _) hr)
  | migratePending para =>
    simp only [exec, migratePending, bind_ok_iff, pure_ok_iff, Prod.exists] at h
    obtain ⟨_, _, _, _, _, _, _, s1, _, _, h1, rfl⟩ := h
    exact .inl ((migrateLoop_quiet (hx _) hr h1).trans (Quiet.of rfl rfl))
  | notify q e => exact .inl (notify_quiet h (ha _) hr)
  | refund k =>
    simp only [exec, refund, bind_ok_iff, pure_ok_iff, Prod.exists] at h
    obtain ⟨_, _, _, _, s1, _, _, h1, rfl⟩ := h
    exact .inl ((refundLoop_quiet (ha _) hr h1).trans (Quiet.of rfl rfl))
  | dissolve k =>
    simp only [exec, dissolve, bind_ok_iff, pure_ok_iff] at h
    obtain ⟨_, _, _, _, _, _, _, _, _, _, rfl⟩ := h
    exact .inl (Quiet.of rfl rfl)
  | refundFor who k kind m =>
    simp only [exec, refundFor, bind_ok_iff, pure_ok_iff, Prod.exists] at h
    obtain ⟨_, _, _, _, _, _, s1, _, h1, rfl⟩ := h
    exact .inl ((refundOne_quiet h1 (ha _) hr).trans (Quiet.of rfl rfl))
  | updateProxy p =>
    simp only [exec, updateProxy, Except.ok.injEq] at h
    subst h; exact .inl (Quiet.of rfl rfl)
  | updateBonus lease b =>
    simp only [exec, updateBonus, bind_ok_iff, pure_ok_iff] at h
    obtain ⟨_, _, _, _, rfl⟩ := h
    exact .inl (Quiet.of rfl rfl)
  | forceClaim who k => exact .inr (.inr (claim_guar h (ha _) hc))
  | redeemAndLend who k m =>
    simp only [exec, redeemAndLend, bind_ok_iff, pure_ok_iff] at h
    obtain ⟨_, _, s1, h1, l, hl, rfl⟩ := h
    exact .inl ((redeem_quiet h1 (.inl (by simp [Call.payers])) hr hc).trans
      (Quiet.tok (Guar.transfer hl (.inl (by simp [Call.payers])))))

/-- The same, summed up. -/
theorem exec_guar {k : Call} (h : exec c s k = .ok s') :
    Guar (fun w => srcOf c k w ∨ w = c.streaming.acct) (curOf c s) s.tok s'.tok ∧
    (∀ a, IsCtoken s' a → IsCtoken s a ∨ a ∈ k.newCtoken) ∧
    StrStep c (srcOf c k) (curOf c s) s s' ∧ s.nextQuery ≤ s'.nextQuery ∧
    (∀ q, s'.requests q ≠ none → s.requests q ≠ none ∨ s.nextQuery ≤ q) := by
  rcases exec_quiet h with q | ⟨ct, h1, h2, h4, h5, l, h3⟩ | ⟨g, h2, h3, h4, h5⟩
  · exact ⟨q.guar.mono (fun w hw => .inl hw) (fun _ h => h), fun a ⟨l, hl⟩ => .inl ⟨l, q.ct ▸ hl⟩, .inl ⟨q.guar, q.str⟩, q.ids, q.reqs⟩
  · refine ⟨by simp only [State.tok, h2]; exact Guar.refl, fun a ⟨l', hl⟩ => ?_, .inl ⟨by simp only [State.tok, h2]; exact Guar.refl, by simp only [State.tok, h2]⟩, le_of_eq h4.symm, fun q hq => .inl (h5 ▸ hq)⟩
    rw [h3] at hl
    by_cases e : l' = l
    · subst e; rw [upd_same, Option.some.injEq] at hl; subst hl; exact .inr (by simp [h1])
    · rw [upd_of_ne _ _ e] at hl; exact .inl ⟨l', hl⟩
  · exact ⟨g, fun a ⟨l, hl⟩ => .inl ⟨l, h2 ▸ hl⟩, h3, le_of_eq h4.symm, fun q hq => .inl (h5 ▸ hq)⟩

end Verif.Crowdloans
