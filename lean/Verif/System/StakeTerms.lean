import Verif.System.StakeGuar
import Verif.Staking.Props3
import Verif.System.CrowdGuar
import Verif.System.Terms
import Verif.Streaming.Props

/-! # What users' calls of liquid staking and crowdloans leave alone -/

namespace Verif.Staking
open Verif Verif.System
variable {c : Cfg} {s s' : State}

/-- A staker's call leaves everybody else's unbonding chunks and fast-unstake request alone. -/
theorem exec_pos {k : Call} {w : Nat} (h : exec c s k = .ok s')
    (hk : (∃ m, k = .stake w m) ∨ (∃ q p, k = .unstake w q p) ∨ ∃ m, k = .cancelUnstake w m) {v : Nat} (hv : v ≠ w)
    (ha : v ≠ c.loansAcct) : s'.unlockings v = s.unlockings v ∧ s'.fast v = s.fast v := by
  rcases hk with ⟨m, rfl⟩ | ⟨q, p, rfl⟩ | ⟨m, rfl⟩ <;> simp only [exec] at h
  · obtain ⟨_, _, _, _, _, _, _, _, _, _, _, rfl⟩ := stake_view h
    exact ⟨rfl, rfl⟩
  · obtain ⟨_, _, _, ⟨_, rfl⟩ | ⟨_, e⟩⟩ := unstake_view h
    · refine ⟨rfl, upd_of_ne _ _ hv⟩
    · obtain ⟨l1, l2, s1, _, _, e1, e2, e3, rfl⟩ := unstakeSlow_view e
      have hu : v ≠ unlockKey c w p := by
        unfold unlockKey; split_ifs <;> assumption
      unfold viaLoans at e3
      split at e3
      · obtain ⟨_, _, _, _, _, _, _, _, _, _, _, hf⟩ := instantUnstake_view e3
        rw [hf]
        exact ⟨upd_of_ne _ _ hu, rfl⟩
      · cases e3; exact ⟨upd_of_ne _ _ hu, rfl⟩
  · cases h
    exact ⟨rfl, upd_of_ne _ _ hv⟩

end Verif.Staking

namespace Verif.Crowdloans
open Verif Verif.System
variable {c : Cfg} {s s' s'' : State}

/-- The terms of a vault: everything but the amounts. -/
def VaultTerms (v : Vault) : Nat × Phase × Bool × Nat × Nat × Nat :=
  (v.ctoken, v.phase, v.proxied, v.cap, v.endBlock, v.trie)
/-- The terms of all vaults, whether contributions are suspended, the derivative tokens and current leases, the proxy
account and the bonuses. -/
def Terms (s : State) : (Key → Option (Nat × Phase × Bool × Nat × Nat × Nat)) × Bool × (Nat × Nat → Option Nat) ×
    (Nat → Option (Nat × Nat)) × Option Nat × (Nat × Nat → Bonus) :=
  (fun k => (s.vaults k).map VaultTerms, s.isVrf, s.ctokenOf, s.leaseOf, s.proxy, s.bonus)

/-- Everything governance or an automator has set is as before, and so is every contribution of anybody but `w`. -/
structure LeavesOthers (w : Nat) (s s' : State) : Prop where
  terms : Terms s' = Terms s
  child : ∀ t k v, v ≠ w → getEntry (s'.child (t, k)) v = getEntry (s.child (t, k)) v

theorem LeavesOthers.refl {w : Nat} : LeavesOthers w s s := ⟨rfl, fun _ _ _ _ => rfl⟩
theorem LeavesOthers.trans {w : Nat} (h : LeavesOthers w s s') (g : LeavesOthers w s' s'') : LeavesOthers w s s'' :=
  ⟨g.terms.trans h.terms, fun t k v hv => (g.child t k v hv).trans (h.child t k v hv)⟩

theorem set_terms {v : Vault} {k : Kind} {x : Nat} : VaultTerms (v.set k x) = VaultTerms v := by
  cases k <;> rfl

theorem updateContribution_leavesOthers {v v' : Vault} {who m : Nat} {code : Option Nat} {add : Bool} {k : Kind} {x : Nat}
    (h : updateContribution s v who m code add k = .ok (s', v', x)) :
    LeavesOthers who s s' ∧ VaultTerms v' = VaultTerms v ∧ s'.vaults = s.vaults := by
  simp only [updateContribution, bind_ok_iff, pure_ok_iff, Prod.mk.injEq] at h
  obtain ⟨_, _, n, _, rfl, rfl, _⟩ := h
  refine ⟨⟨rfl, fun t k' u hu => ?_⟩, set_terms, rfl⟩
  dsimp only
  by_cases e : (t, k') = (v.trie, k)
  · rw [e, upd_same]
    split_ifs
    · exact getEntry_kill_ne hu
    · exact getEntry_put_ne hu
  · rw [upd_of_ne _ _ e]

theorem sendXcm_leavesOthers {w : Nat} {f : Fee} {r : Req} (h : sendXcm c s f r = .ok s') :
    LeavesOthers w s s' ∧ s'.vaults = s.vaults := by
  simp only [sendXcm, bind_ok_iff, pure_ok_iff] at h
  obtain ⟨l, _, _, _, rfl⟩ := h
  exact ⟨⟨rfl, fun _ _ _ _ => rfl⟩, rfl⟩

theorem doContribute_leavesOthers {w : Nat} {k : Key} {p : Bool} {who m code : Nat}
    (h : doContribute c s k p who m code = .ok s') : LeavesOthers w s s' ∧ s'.vaults = s.vaults := by
  unfold doContribute at h
  split_ifs at h
  · simp only [bind_ok_iff] at h
    obtain ⟨_, _, h⟩ := h
    exact sendXcm_leavesOthers h
  · exact sendXcm_leavesOthers h

theorem book_leavesOthers {k : Key} {v v' : Vault} {who m code : Nat} (h : book c s k v who m code = .ok (s', v')) :
    LeavesOthers who s s' ∧ VaultTerms v' = VaultTerms v ∧ s'.vaults = s.vaults := by
  unfold book at h
  split_ifs at h
  · simp only [bind_ok_iff, pure_ok_iff, Prod.mk.injEq, Prod.exists] at h
    obtain ⟨s1, _, _, h1, s2, h2, rfl, rfl⟩ := h
    obtain ⟨a1, a2, a3⟩ := updateContribution_leavesOthers h1
    obtain ⟨b1, b2⟩ := doContribute_leavesOthers (w := who) h2
    exact ⟨a1.trans b1, a2, b2.trans a3⟩
  · simp only [bind_ok_iff, pure_ok_iff, Prod.mk.injEq, Prod.exists] at h
    obtain ⟨s1, _, _, h1, rfl, rfl⟩ := h
    exact updateContribution_leavesOthers h1

theorem putVault_leavesOthers {w : Nat} {k : Key} {v v' : Vault} {ev : List Ev} (hv : s.vaults k = some v)
    (h : VaultTerms v' = VaultTerms v) : LeavesOthers w s { s.putVault k v' with log := ev } := by
  refine ⟨?_, fun _ _ _ _ => rfl⟩
  unfold Terms State.putVault
  dsimp only
  rw [map_upd hv h]

theorem current_some {para : Nat} {k : Key} {v : Vault} (h : s.current para = some (k, v)) : s.vaults k = some v := by
  simp only [State.current, Option.bind_eq_bind, Option.bind_eq_some_iff, Option.some.injEq, Prod.mk.injEq] at h
  obtain ⟨k', _, v', hv, rfl, rfl⟩ := h
  exact hv

theorem contribute_leavesOthers {w para m code : Nat} (h : contribute c s w para m code = .ok s') : LeavesOthers w s s' := by
  simp only [contribute, bind_ok_iff, pure_ok_iff, Prod.exists, okOr_ok_iff] at h
  obtain ⟨k, v, hkv, _, _, _, _, _, _, _, _, _, _, _, _, _, _, _, _, l, hl, s1, v1, h1, rfl⟩ := h
  obtain ⟨a1, a2, a3⟩ := book_leavesOthers h1
  have hv : s1.vaults k = some v := by rw [a3]; exact current_some hkv
  have e : LeavesOthers w s (s.withTok l) := ⟨rfl, fun _ _ _ _ => rfl⟩
  exact e.trans (a1.trans (putVault_leavesOthers hv a2))

theorem kill_leavesOthers {w t : Nat} {kd : Kind} (x : State) :
    LeavesOthers w x { x with child := upd x.child (t, kd) (killEntry (x.child (t, kd)) w) } := by
  refine ⟨rfl, fun t' k' u hu => ?_⟩
  dsimp only
  by_cases e : (t', k') = (t, kd)
  · rw [e, upd_same]; exact getEntry_kill_ne hu
  · rw [upd_of_ne _ _ e]

theorem payBonus_leavesOthers {w : Nat} {lease : Nat × Nat} {who m : Nat} (h : payBonus c s lease who m = .ok s') :
    LeavesOthers w s s' := by
  unfold payBonus at h
  split_ifs at h
  · cases h; exact .refl
  · simp only [bind_ok_iff, pure_ok_iff] at h
    obtain ⟨str, _, rfl⟩ := h
    exact ⟨rfl, fun _ _ _ _ => rfl⟩

theorem claim_leavesOthers {w : Nat} {k : Key} {f : Bool} (h : claim c s w k f = .ok s') : LeavesOthers w s s' := by
  simp only [claim, bind_ok_iff, pure_ok_iff] at h
  obtain ⟨ct, _, v, _, _, _, _, _, l, hl, s1, h1, rfl⟩ := h
  have e : LeavesOthers w s (s.withTok l) := ⟨rfl, fun _ _ _ _ => rfl⟩
  have e2 := payBonus_leavesOthers (w := w) h1
  refine e.trans ((kill_leavesOthers (t := v.trie) (kd := .contributed) _).trans (LeavesOthers.trans e2 ?_))
  exact ⟨rfl, fun _ _ _ _ => rfl⟩

theorem withdraw_leavesOthers {w : Nat} {k : Key} (h : withdraw c s w k = .ok s') : LeavesOthers w s s' := by
  simp only [withdraw, bind_ok_iff, pure_ok_iff, okOr_ok_iff] at h
  obtain ⟨v, hv, _, _, _, _, x, _, l, hl, rfl⟩ := h
  have e : LeavesOthers w s (s.withTok l) := ⟨rfl, fun _ _ _ _ => rfl⟩
  refine e.trans ((kill_leavesOthers (t := v.trie) (kd := .contributed) _).trans ?_)
  exact putVault_leavesOthers (v' := { v with contributed := x }) hv rfl

theorem redeem_leavesOthers {w m u : Nat} {k : Key} (h : redeem c s w k m = .ok s') : LeavesOthers u s s' := by
  simp only [redeem, bind_ok_iff, pure_ok_iff, okOr_ok_iff] at h
  obtain ⟨ct, _, v, hv, _, _, _, _, x, _, l, _, l2, _, rfl⟩ := h
  have e : LeavesOthers u s (s.withTok l2) := ⟨rfl, fun _ _ _ _ => rfl⟩
  exact e.trans (putVault_leavesOthers (v' := { v with contributed := x }) hv rfl)

/-- Redeeming changes nobody's contributions; the other calls of users only those of the account they are for. -/
theorem exec_leavesOthers {k : Call} {w : Nat} (h : exec c s k = .ok s') (hk : (∃ p m r, k = .contribute w p m r) ∨
    (∃ v, k = .claim w v) ∨ (∃ v, k = .withdraw w v) ∨ ∃ v m, k = .redeem w v m) : LeavesOthers w s s' := by
  rcases hk with ⟨_, _, _, rfl⟩ | ⟨_, rfl⟩ | ⟨_, rfl⟩ | ⟨_, _, rfl⟩ <;> simp only [exec] at h
  · exact contribute_leavesOthers h
  · exact claim_leavesOthers h
  · exact withdraw_leavesOthers h
  · exact redeem_leavesOthers h

/-- No call of crowdloans changes the terms of the streaming pallet, nor a stream that is running. -/
theorem exec_streams {k : Call} (h : exec c s k = .ok s') (hc : c.streaming.OK) (hr : Streaming.Reach c.streaming s.str)
    (hw : s.tok.WF) (hs : ¬ srcOf c k c.streaming.acct) (hn : c.acct ≠ c.streaming.acct) :
    s'.str.minDep = s.str.minDep ∧
    ∀ id st, s.str.streams id = some st → st.live → s'.str.streams id = some st := by
  obtain ⟨_, _, h3, _, _⟩ := exec_guar h
  rcases h3 with ⟨g, e⟩ | ⟨l, who, m, a, b, g, he⟩
  · rw [e]; exact ⟨rfl, fun _ _ h _ => h⟩
  · refine ⟨?_, fun id st h1 h2 => ?_⟩
    · have := Streaming.traitCreate_terms he
      exact this
    · have hr' : Streaming.Reach c.streaming { s.str with ledger := l } :=
        .step hr (.env ⟨rfl, rfl, rfl, rfl, rfl, le_refl _, g.wf hw, fun a => g.bal a _ hs⟩)
      rcases Streaming.C23_only_parties hc hr' (k := .traitCreate _ _ _ _ _ _ _) hn he (st := st) h1 with e | e | e | e
      · exact e
      · exact absurd h2 e.1
      · obtain ⟨_, ⟨_, e⟩, _⟩ := e; cases e
      · obtain ⟨_, _, e, _⟩ := e; cases e

end Verif.Crowdloans
