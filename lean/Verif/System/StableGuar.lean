import Verif.System.Guar
import Verif.Stable.Spec
import Verif.Stable.Lemmas

/-! # What the stableswap guarantees to everybody else -/

namespace Verif.Stable
open Verif Verif.System
open Verif.Amm (Pool)

/-- The accounts a call may take tokens from, other than the pallet's own. -/
def Call.payers : Call → List Nat
  | .add who _ _ _ => [who]
  | .remove who _ _ => [who]
  | .create _ _ rcv _ => [rcv]
  | .swap who _ _ _ => [who]

/-- The LP token a call introduces. -/
def Call.newLp : Call → List Nat
  | .create _ _ _ lp => [lp]
  | _ => []

/-- `a` is the LP token of some pool. -/
def IsLp (s : State) (a : Nat) : Prop := ∃ k p, s.pools k = some p ∧ p.lp = a

variable {c : Cfg} {s s' : State} {src cur : Nat → Prop}

theorem liquidityFor_guar {l l' : Ledger} {p : Pool} {ib iq r : Nat}
    (h : liquidityFor c l p ib iq = .ok (l', r)) (hc : cur p.lp) : Guar src cur l l' := by
  unfold liquidityFor at h
  split_ifs at h
  · simp only [firstLiquidity, bind_ok_iff, pure_ok_iff, Prod.mk.injEq] at h
    obtain ⟨l1, h1, _, _, _, _, rfl, _⟩ := h
    exact Guar.mint h1 hc
  · simp only [bind_ok_iff, pure_ok_iff, Prod.mk.injEq] at h
    obtain ⟨_, _, rfl, _⟩ := h
    exact Guar.refl

theorem ite_lp (b : Prop) [Decidable b] (p q : Pool) (hq : q.lp = p.lp) : (if b then q else p).lp = p.lp := by
  split_ifs <;> simp [hq]

theorem doAdd_guar {who ib iq b q : Nat} {p p' : Pool} (h : doAdd c s who p ib iq b q = .ok (s', p'))
    (hw : src who) (hc : cur p.lp) :
    Guar src cur s.ledger s'.ledger ∧ p'.lp = p.lp ∧ s'.pools = s.pools := by
  simp only [doAdd, bind_ok_iff, pure_ok_iff, Prod.mk.injEq, Prod.exists] at h
  obtain ⟨_, _, l0, liq, h0, _, _, _, _, _, _, _, _, l1, h1, l2, h2, l3, h3, rfl, rfl⟩ := h
  rw [unwrapR_ok_iff] at h0
  refine ⟨(((liquidityFor_guar h0 hc).trans (Guar.mint h1 hc)).trans (Guar.transfer h2 hw)).trans
    (Guar.transfer h3 hw), ?_, rfl⟩
  split_ifs <;> rfl

theorem doRemove_guar {who liq b q : Nat} {p p' : Pool} (h : doRemove c s who p liq b q = .ok (s', p'))
    (hw : src who) (ha : src c.acct) (hc : cur p.lp) :
    Guar src cur s.ledger s'.ledger ∧ p'.lp = p.lp ∧ s'.pools = s.pools := by
  simp only [doRemove, bind_ok_iff, pure_ok_iff, Prod.mk.injEq, Prod.exists] at h
  obtain ⟨_, _, _, _, _, _, _, l1, h1, l2, h2, l3, h3, rfl, rfl⟩ := h
  refine ⟨((Guar.burn h1 hw hc).trans (Guar.transfer h2 ha)).trans (Guar.transfer h3 ha), ?_, rfl⟩
  split_ifs <;> rfl

theorem mintFee_guar {p p' : Pool} (h : mintProtocolFee c s p = .ok (s', p')) (hc : cur p.lp) :
    Guar src cur s.ledger s'.ledger ∧ p'.lp = p.lp ∧ s'.pools = s.pools := by
  unfold mintProtocolFee at h
  split_ifs at h
  · simp only [bind_ok_iff, pure_ok_iff, Prod.mk.injEq] at h
    obtain ⟨_, _, l1, h1, rfl, rfl⟩ := h
    exact ⟨Guar.mint h1 hc, rfl, rfl⟩
  · cases h; exact ⟨Guar.refl, rfl, rfl⟩
  · cases h; exact ⟨Guar.refl, rfl, rfl⟩

theorem isLp_upd {k0 : Nat × Nat} {p0 : Pool} {a : Nat} {pools : Nat × Nat → Option Pool}
    (hp : s'.pools = upd pools k0 (some p0)) (h : IsLp s' a) :
    (∃ k p, pools k = some p ∧ p.lp = a) ∨ p0.lp = a := by
  obtain ⟨k, p, hk, rfl⟩ := h
  rw [hp] at hk
  by_cases e : k = k0
  · subst e; rw [upd_same, Option.some.injEq] at hk; subst hk; exact .inr rfl
  · rw [upd_of_ne _ _ e] at hk; exact .inl ⟨k, p, hk, rfl⟩

theorem updateOracle_lp {p p' : Pool} (h : updateOracle s p = .ok p') : p'.lp = p.lp := by
  unfold updateOracle at h
  split_ifs at h
  · simp only [bind_ok_iff, pure_ok_iff] at h
    obtain ⟨_, _, _, _, _, _, _, _, _, _, _, _, rfl⟩ := h
    rfl
  · simp only [pure_ok_iff] at h; subst h; rfl

/-- A stableswap call takes tokens only from the pallet account and from the account it names, and mints and burns only LP
tokens of its pools. -/
theorem exec_guar {k : Call} (h : exec c s k = .ok s') :
    Guar (fun w => w ∈ k.payers ∨ w = c.acct) (fun a => IsLp s a ∨ a ∈ k.newLp) s.ledger s'.ledger ∧
    (∀ a, IsLp s' a → IsLp s a ∨ a ∈ k.newLp) := by
  cases k with
  | add who pair d m =>
    simp only [exec, addLiquidity, bind_ok_iff, pure_ok_iff, Prod.exists, ensure_ok_iff, okOr_ok_iff,
      exists_const] at h
    obtain ⟨_, b, q, _, p, hp, ib, iq, _, _, _, s1, p1, h1, s2, p2, h2, rfl⟩ := h
    have hlp : IsLp s p.lp := ⟨_, _, hp, rfl⟩
    obtain ⟨g1, e1, f1⟩ := mintFee_guar (src := fun w => w ∈ (Call.add who pair d m).payers ∨ w = c.acct)
      (cur := fun a => IsLp s a ∨ a ∈ (Call.add who pair d m).newLp) h1 (.inl hlp)
    obtain ⟨g2, e2, f2⟩ := doAdd_guar (src := fun w => w ∈ (Call.add who pair d m).payers ∨ w = c.acct)
      (cur := fun a => IsLp s a ∨ a ∈ (Call.add who pair d m).newLp) h2 (.inl (by simp [Call.payers]))
      (by rw [e1]; exact .inl hlp)
    refine ⟨g1.trans g2, fun a ha => .inl ?_⟩
    rcases isLp_upd (by rfl) ha with ⟨k, p', hk, rfl⟩ | rfl
    · rw [f2, f1] at hk; exact ⟨k, p', hk, rfl⟩
    · rw [e2, e1]; exact hlp
  | remove who pair liq =>
    simp only [exec, removeLiquidity, bind_ok_iff, pure_ok_iff, Prod.exists, okOr_ok_iff] at h
    obtain ⟨_, b, q, _, p, hp, s1, p1, h1, s2, p2, h2, rfl⟩ := h
    have hlp : IsLp s p.lp := ⟨_, _, hp, rfl⟩
    obtain ⟨g1, e1, f1⟩ := mintFee_guar (src := fun w => w ∈ (Call.remove who pair liq).payers ∨ w = c.acct)
      (cur := fun a => IsLp s a ∨ a ∈ (Call.remove who pair liq).newLp) h1 (.inl hlp)
    obtain ⟨g2, e2, f2⟩ := doRemove_guar (src := fun w => w ∈ (Call.remove who pair liq).payers ∨ w = c.acct)
      (cur := fun a => IsLp s a ∨ a ∈ (Call.remove who pair liq).newLp) h2 (.inl (by simp [Call.payers]))
      (.inr rfl) (by rw [e1]; exact .inl hlp)
    refine ⟨g1.trans g2, fun a ha => .inl ?_⟩
    rcases isLp_upd (by rfl) ha with ⟨k, p', hk, rfl⟩ | rfl
    · rw [f2, f1] at hk; exact ⟨k, p', hk, rfl⟩
    · rw [e2, e1]; exact hlp
  | create pair am rcv lp =>
    simp only [exec, createPool, bind_ok_iff, pure_ok_iff, Prod.exists, ensure_ok_iff, exists_const] at h
    obtain ⟨_, b, q, _, _, _, s2, p2, h2, rfl⟩ := h
    obtain ⟨g2, e2, f2⟩ := doAdd_guar (src := fun w => w ∈ (Call.create pair am rcv lp).payers ∨ w = c.acct)
      (cur := fun a => IsLp s a ∨ a ∈ (Call.create pair am rcv lp).newLp) h2 (.inl (by simp [Call.payers]))
      (.inr (by simp [Call.newLp, Pool.new]))
    refine ⟨g2, fun a ha => ?_⟩
    rcases isLp_upd (by rfl) ha with ⟨k, p', hk, rfl⟩ | rfl
    · rw [f2] at hk; exact .inl ⟨k, p', hk, rfl⟩
    · rw [e2]; exact .inr (by simp [Call.newLp, Pool.new])
  | swap who a b x =>
    simp only [exec, doSwap, bind_ok_iff, pure_ok_iff, Prod.exists, ensure_ok_iff, okOr_ok_iff, exists_const,
      Prod.mk.injEq] at h
    obtain ⟨_, _, ⟨inv, b', q', _, p, hp, _, _, _, _, _, _, _, _, _, _, p1, h1, l1, t1, l2, t2, rfl, _⟩, rfl⟩ := h
    refine ⟨(Guar.transfer t1 (.inl (by simp [Call.payers]))).trans (Guar.transfer t2 (.inr rfl)), fun a ha => .inl ?_⟩
    rcases isLp_upd (by rfl) ha with ⟨k, p', hk, rfl⟩ | rfl
    · exact ⟨k, p', hk, rfl⟩
    · rw [updateOracle_lp h1]
      exact ⟨_, p, hp, by split_ifs <;> rfl⟩

end Verif.Stable
