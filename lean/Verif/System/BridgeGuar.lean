import Verif.System.Guar
import Verif.Bridge.Spec

/-! # What the bridge guarantees to everybody else -/

namespace Verif.Bridge
open Verif Verif.System

/-- The accounts a call may take tokens from, other than the pallet's own. -/
def Call.payers : Call → List Nat
  | .teleport w _ _ _ _ => [w]
  | _ => []

/-- The assets a call makes mintable by the bridge. -/
def Call.newExternal : Call → List Nat
  | .registerToken a t => if t.external then [a] else []
  | _ => []

/-- `a` is registered as an external token: the bridge mints it on arrival and burns it on departure. -/
def IsExternal (s : State) (a : Nat) : Prop := ∃ t, s.tokens a = some t ∧ t.external = true

variable {c : Cfg} {s s' : State} {src cur : Nat → Prop}

theorem token_external {a : Nat} (h : (s.token a).external = true) : IsExternal s a := by
  unfold State.token at h
  cases e : s.tokens a with
  | none => rw [e] at h; simp [Token.default] at h
  | some t => rw [e] at h; exact ⟨t, e, h⟩

theorem isExternal_upd {a0 : Nat} {t0 : Token} {a : Nat} {tokens : Nat → Option Token}
    (hp : s'.tokens = upd tokens a0 (some t0)) (h : IsExternal s' a) :
    (∃ t, tokens a = some t ∧ t.external = true) ∨ (a = a0 ∧ t0.external = true) := by
  obtain ⟨t, ht, he⟩ := h
  rw [hp] at ht
  by_cases e : a = a0
  · subst e; rw [upd_same, Option.some.injEq] at ht; subst ht; exact .inr ⟨rfl, he⟩
  · rw [upd_of_ne _ _ e] at ht; exact .inl ⟨t, ht, he⟩

theorem mutateToken_guar {tok : Nat} {f : Token → Token} (h : mutateToken s tok f = .ok s')
    (hf : ∀ t, (f t).external = t.external) :
    s'.ledger = s.ledger ∧ ∀ a, IsExternal s' a → IsExternal s a := by
  simp only [mutateToken, bind_ok_iff, pure_ok_iff] at h
  obtain ⟨_, _, rfl⟩ := h
  refine ⟨rfl, fun a ha => ?_⟩
  rcases isExternal_upd (by rfl) ha with h1 | ⟨rfl, h1⟩
  · exact h1
  · rw [hf] at h1; exact token_external h1

theorem updateCap_guar {a m : Nat} {d : Dir} (h : updateCap s a m d = .ok s') :
    s'.ledger = s.ledger ∧ ∀ x, IsExternal s' x → IsExternal s x := by
  simp only [updateCap, bind_ok_iff, pure_ok_iff] at h
  obtain ⟨n, _, rfl⟩ := h
  refine ⟨rfl, fun x hx => ?_⟩
  rcases isExternal_upd (by rfl) hx with h1 | ⟨rfl, h1⟩
  · exact h1
  · cases d <;> exact token_external h1

theorem takeIn_guar {l l' : Ledger} {t : Token} {a w m : Nat} (h : takeIn c l t a w m = .ok l') (hw : src w)
    (hc : t.external = true → cur a) : Guar src cur l l' := by
  unfold takeIn at h
  split_ifs at h with he
  · simp only [bind_ok_iff] at h
    obtain ⟨l1, h1, h2⟩ := h
    exact (Guar.burn h1 hw (hc he)).trans (Guar.mint h2 (hc he))
  · exact Guar.transfer h hw

theorem grantBonus_guar {l l' : Ledger} {w a m : Nat} (h : grantBonus c l w a m = .ok l') (hw : src c.gift) :
    Guar src cur l l' := by
  unfold grantBonus at h
  dsimp only at h
  split_ifs at h
  · simp only [bind_ok_iff] at h
    obtain ⟨_, _, h2⟩ := h
    exact Guar.transfer h2 hw
  · cases h; exact Guar.refl

theorem payOut_guar {l l' : Ledger} {t : Token} {a : Nat} {call : MCall} (h : payOut c l t a call = .ok l')
    (hw : src c.acct) (hc : t.external = true → cur a) : Guar src cur l l' := by
  unfold payOut at h
  split_ifs at h with he
  · exact Guar.mint h (hc he)
  · exact Guar.transfer h hw

theorem updateRegistry_guar {ch n : Nat} (h : updateRegistry s ch n = .ok s') :
    s'.ledger = s.ledger ∧ s'.tokens = s.tokens := by
  unfold updateRegistry at h
  split at h
  · cases h; exact ⟨rfl, rfl⟩
  · simp only [bind_ok_iff, pure_ok_iff] at h
    obtain ⟨_, _, rfl⟩ := h
    exact ⟨rfl, rfl⟩

theorem execute_guar {ch n : Nat} {call : MCall} (h : execute c s ch n call = .ok s')
    (ha : src c.acct) (hg : src c.gift) (hc : ∀ a, IsExternal s a → cur a) :
    Guar src cur s.ledger s'.ledger ∧ ∀ x, IsExternal s' x → IsExternal s x := by
  simp only [execute, bind_ok_iff, pure_ok_iff] at h
  obtain ⟨_, _, _, _, s1, h1, l1, h2, l2, h3, s2, h4, rfl⟩ := h
  obtain ⟨e1, f1⟩ := updateCap_guar h1
  obtain ⟨e2, f2⟩ := updateRegistry_guar h4
  rw [e1] at h2
  constructor
  · show Guar src cur s.ledger s2.ledger
    rw [e2]
    exact (payOut_guar h2 ha (fun he => hc _ (f1 _ (token_external he)))).trans (grantBonus_guar h3 hg)
  · intro x ⟨t, ht, he⟩
    refine f1 x ⟨t, ?_, he⟩
    have ht : s2.tokens x = some t := ht
    rw [f2] at ht
    exact ht

/-- A bridge call takes tokens only from the pallet's accounts and the teleporting account, and mints and burns only
external tokens. -/
theorem exec_guar {k : Call} (h : exec c s k = .ok s') :
    Guar (fun w => w ∈ k.payers ∨ w = c.acct ∨ w = c.gift) (IsExternal s) s.ledger s'.ledger ∧
    (∀ a, IsExternal s' a → IsExternal s a ∨ a ∈ k.newExternal) := by
  cases k with
  | registerChain ch =>
    simp only [exec, registerChain, bind_ok_iff, pure_ok_iff] at h
    obtain ⟨_, _, rfl⟩ := h
    exact ⟨Guar.refl, fun a ha => .inl ha⟩
  | unregisterChain ch =>
    simp only [exec, unregisterChain, bind_ok_iff, pure_ok_iff] at h
    obtain ⟨_, _, rfl⟩ := h
    exact ⟨Guar.refl, fun a ha => .inl ha⟩
  | registerToken a t =>
    simp only [exec, registerToken, bind_ok_iff, pure_ok_iff] at h
    obtain ⟨_, _, rfl⟩ := h
    refine ⟨Guar.refl, fun x hx => ?_⟩
    rcases isExternal_upd (by rfl) hx with h1 | ⟨rfl, h1⟩
    · exact .inl h1
    · exact .inr (by simp [Call.newExternal, h1])
  | unregisterToken t =>
    simp only [exec, unregisterToken, bind_ok_iff, pure_ok_iff] at h
    obtain ⟨_, _, rfl⟩ := h
    refine ⟨Guar.refl, fun x hx => .inl ?_⟩
    obtain ⟨t', ht, he⟩ := hx
    by_cases e : x = s.assetId t
    · subst e; simp at ht
    · have ht : upd s.tokens (s.assetId t) none x = some t' := ht
      rw [upd_of_ne _ _ e] at ht
      exact ⟨t', ht, he⟩
  | setFee t f =>
    simp only [exec, setFee] at h
    obtain ⟨e, f⟩ := mutateToken_guar h (fun _ => rfl)
    rw [e]; exact ⟨Guar.refl, fun a ha => .inl (f a ha)⟩
  | setStatus t b =>
    simp only [exec, setStatus] at h
    obtain ⟨e, f⟩ := mutateToken_guar h (fun _ => rfl)
    rw [e]; exact ⟨Guar.refl, fun a ha => .inl (f a ha)⟩
  | setCap t d x =>
    simp only [exec, setCap] at h
    obtain ⟨e, f⟩ := mutateToken_guar h (fun _ => by cases d <;> rfl)
    rw [e]; exact ⟨Guar.refl, fun a ha => .inl (f a ha)⟩
  | cleanCap t d =>
    simp only [exec, cleanCap] at h
    obtain ⟨e, f⟩ := mutateToken_guar h (fun _ => by cases d <;> rfl)
    rw [e]; exact ⟨Guar.refl, fun a ha => .inl (f a ha)⟩
  | teleport w ch t d m =>
    simp only [exec, teleport, bind_ok_iff, pure_ok_iff] at h
    obtain ⟨_, _, _, _, _, _, _, _, s1, h1, l, hl, _, _, _, _, rfl⟩ := h
    obtain ⟨e1, f1⟩ := updateCap_guar h1
    rw [e1] at hl
    exact ⟨takeIn_guar hl (.inl (by simp [Call.payers])) token_external, fun a ha => .inl (f1 a ha)⟩
  | materialize o ch n call f =>
    simp only [exec, materialize, bind_ok_iff, resolve] at h
    obtain ⟨w, _, _, _, _, _, _, _, p, _, _, _, _, _, _, _, p', _, _, _, _, _, h⟩ := h
    have e0 : (castVote s p ch n w call f).ledger = s.ledger ∧ (castVote s p ch n w call f).tokens = s.tokens := by
      unfold castVote setProp; split_ifs <;> exact ⟨rfl, rfl⟩
    generalize castVote s p ch n w call f = s0 at h e0
    have tok : ∀ x, IsExternal s0 x → IsExternal s x := fun x ⟨t, ht, he⟩ => ⟨t, e0.2 ▸ ht, he⟩
    split at h
    · obtain ⟨g, f⟩ := execute_guar (src := fun w => w ∈ (Call.materialize o ch n call f).payers ∨ w = c.acct ∨ w = c.gift)
        (cur := IsExternal s) h (.inr (.inl rfl)) (.inr (.inr rfl)) (fun a ha => tok a ha)
      refine ⟨?_, fun a ha => .inl (tok a (f a ha))⟩
      rw [← e0.1]; exact g
    · simp only [cancelMat, bind_ok_iff, pure_ok_iff] at h
      obtain ⟨s2, h2, rfl⟩ := h
      obtain ⟨e2, f2⟩ := updateRegistry_guar h2
      refine ⟨?_, fun a ⟨t, ht, he⟩ => .inl (tok a ⟨t, ?_, he⟩)⟩
      · show Guar _ _ s.ledger s2.ledger
        rw [e2, ← e0.1]; exact Guar.refl
      · have ht : s2.tokens a = some t := ht
        rw [f2] at ht; exact ht
    · simp only [pure_ok_iff] at h
      subst h
      refine ⟨?_, fun a ha => .inl (tok a ha)⟩
      show Guar _ _ s.ledger s0.ledger
      rw [e0.1]; exact Guar.refl

theorem newBlock_same : (newBlock s).ledger = s.ledger ∧ (newBlock s).tokens = s.tokens := ⟨rfl, rfl⟩

theorem changeMembers_same (ms : List Nat) :
    (changeMembers c s ms).ledger = s.ledger ∧ (changeMembers c s ms).tokens = s.tokens := by
  unfold changeMembers
  rcases commit_cases { s with members := ms } (changeThreshold c { s with members := ms }) with h | h
  · generalize commit { s with members := ms } (changeThreshold c { s with members := ms }) = s2 at h
    simp only [changeThreshold, bind_ok_iff, pure_ok_iff] at h
    obtain ⟨_, _, h⟩ := h
    rw [← h]; exact ⟨rfl, rfl⟩
  · rw [h.1]; exact ⟨rfl, rfl⟩

end Verif.Bridge
