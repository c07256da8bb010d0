import Verif.System.Guar
import Verif.Farming.Spec

/-! # What the farming pallet guarantees to everybody else -/

namespace Verif.Farming
open Verif Verif.System

/-- The accounts a call may take tokens from, other than the pallet's own. -/
def Call.payers : Call → List Nat
  | .deposit _ w _ => [w]
  | .dispatch _ w _ _ => [w]
  | _ => []

variable {c : Cfg} {s s' : State} {src cur : Nat → Prop}

theorem updateSome_ledger {k : Key} {w : Nat} (h : updateSome s k w = .ok s') : s'.ledger = s.ledger := by
  simp only [updateSome, bind_ok_iff, pure_ok_iff] at h
  obtain ⟨_, _, _, _, _, _, rfl⟩ := h
  rfl

theorem updateNone_ledger {k : Key} (h : updateNone s k = .ok s') : s'.ledger = s.ledger := by
  simp only [updateNone, bind_ok_iff, pure_ok_iff] at h
  obtain ⟨_, _, _, _, rfl⟩ := h
  rfl

theorem payIf_guar {l l' : Ledger} {a sr d m : Nat} (h : payIf l a sr d m = .ok l') (hs : src sr) :
    Guar src cur l l' := by
  unfold payIf at h
  split_ifs at h
  · exact Guar.transfer h hs
  · cases h; exact Guar.refl

/-- A farming call takes tokens only from the pallet's accounts and the depositor or payer it names; it mints and burns
nothing. -/
theorem exec_guar {k : Call} (h : exec c s k = .ok s') :
    Guar (fun w => w ∈ k.payers ∨ ∃ x, w = c.acct x) (fun _ => False) s.ledger s'.ledger := by
  cases k with
  | create k cool =>
    simp only [exec, create, bind_ok_iff, pure_ok_iff] at h
    obtain ⟨_, _, _, _, _, _, rfl⟩ := h
    exact Guar.refl
  | setStatus k b =>
    simp only [exec, setStatus, bind_ok_iff, pure_ok_iff] at h
    obtain ⟨_, _, _, _, rfl⟩ := h
    exact Guar.refl
  | setCool k cool =>
    simp only [exec, setCool, bind_ok_iff, pure_ok_iff] at h
    obtain ⟨_, _, _, _, _, _, rfl⟩ := h
    exact Guar.refl
  | resetUnlock k =>
    simp only [exec, resetUnlock, bind_ok_iff, pure_ok_iff] at h
    obtain ⟨_, _, _, _, _, _, rfl⟩ := h
    exact Guar.refl
  | deposit k w m =>
    simp only [exec, deposit, bind_ok_iff, pure_ok_iff] at h
    obtain ⟨_, _, _, _, s1, h1, _, _, _, _, l, hl, _, _, _, _, rfl⟩ := h
    rw [updateSome_ledger h1] at hl
    exact Guar.transfer hl (.inl (by simp [Call.payers]))
  | withdraw k w m =>
    simp only [exec, withdraw, bind_ok_iff, pure_ok_iff, Prod.exists] at h
    obtain ⟨_, _, _, _, _, _, s1, h1, p, _, _, _, _, _, _, _, l, u, hl, rfl⟩ := h
    unfold release at hl
    split_ifs at hl
    · simp only [bind_ok_iff, pure_ok_iff, Prod.mk.injEq] at hl
      obtain ⟨l', hl, rfl, _⟩ := hl
      rw [updateSome_ledger h1] at hl
      exact Guar.transfer hl (.inr ⟨_, rfl⟩)
    · simp only [bind_ok_iff, pure_ok_iff, Prod.mk.injEq] at hl
      obtain ⟨_, _, rfl, _⟩ := hl
      show Guar _ _ s.ledger s1.ledger
      rw [updateSome_ledger h1]
      exact Guar.refl
  | redeem k w =>
    simp only [exec, redeem, bind_ok_iff, pure_ok_iff] at h
    obtain ⟨_, _, _, _, l, hl, rfl⟩ := h
    exact payIf_guar hl (.inr ⟨_, rfl⟩)
  | claim k w =>
    simp only [exec, claim, bind_ok_iff, pure_ok_iff, Prod.exists] at h
    obtain ⟨_, _, s1, h1, l, u, hl, rfl⟩ := h
    unfold payReward at hl
    split_ifs at hl
    · simp only [bind_ok_iff, pure_ok_iff, Prod.mk.injEq] at hl
      obtain ⟨l', hl, rfl, _⟩ := hl
      rw [updateSome_ledger h1] at hl
      exact Guar.transfer hl (.inr ⟨_, rfl⟩)
    · simp only [Except.ok.injEq, Prod.mk.injEq] at hl
      obtain ⟨rfl, _⟩ := hl
      show Guar _ _ s.ledger s1.ledger
      rw [updateSome_ledger h1]
      exact Guar.refl
  | dispatch k w m d =>
    simp only [exec, dispatch, bind_ok_iff, pure_ok_iff] at h
    obtain ⟨_, _, _, _, s1, h1, _, _, _, _, _, _, l, hl, rfl⟩ := h
    rw [updateNone_ledger h1] at hl
    exact payIf_guar hl (.inl (by simp [Call.payers]))

end Verif.Farming
