import Verif.System.Guar
import Verif.Streaming.Spec

/-! # What the streaming pallet guarantees to everybody else -/

namespace Verif.Streaming
open Verif Verif.System

/-- The accounts a call may take tokens from, other than the pallet's own. -/
def Call.payers : Call → List Nat
  | .create sd _ _ _ _ _ _ => [sd]
  | .traitCreate sd _ _ _ _ _ _ => [sd]
  | _ => []

variable {c : Cfg} {s s' : State} {src cur : Nat → Prop}

theorem pushLib_ledger {a id : Nat} {k : Kind} (h : pushLib c s a id k = .ok s') : s'.ledger = s.ledger := by
  simp only [pushLib, bind_ok_iff, pure_ok_iff] at h
  obtain ⟨_, _, rfl⟩ := h
  rfl

theorem popFinished_ledger {a : Nat} (h : popFinished c s a = .ok s') : s'.ledger = s.ledger := by
  unfold popFinished at h
  dsimp only at h
  split_ifs at h
  · cases h; rfl
  · split at h
    · cases h; rfl
    · simp only [bind_ok_iff, pure_ok_iff] at h
      obtain ⟨_, _, rfl⟩ := h
      rfl

theorem updateFinished_ledger {a b : Nat} (h : updateFinished c s a b = .ok s') : s'.ledger = s.ledger := by
  simp only [updateFinished, bind_ok_iff] at h
  obtain ⟨s1, h1, h2⟩ := h
  rw [popFinished_ledger h2, popFinished_ledger h1]

theorem fileFinished_ledger {st : Stream} {w id : Nat} (h : fileFinished c s st w id = .ok s') :
    s'.ledger = s.ledger := by
  unfold fileFinished at h
  split_ifs at h
  · simp only [bind_ok_iff] at h
    obtain ⟨s1, h1, s2, h2, h3⟩ := h
    rw [updateFinished_ledger h3, pushLib_ledger h2, pushLib_ledger h1]
  · cases h; rfl

theorem doCreate_guar {sd rc d a st sp : Nat} {cl : Bool} {id : Nat}
    (h : doCreate c s sd rc d a st sp cl = .ok (s', id)) (hs : src sd) : Guar src cur s.ledger s'.ledger := by
  simp only [doCreate, bind_ok_iff, pure_ok_iff, Prod.mk.injEq] at h
  obtain ⟨_, _, _, _, _, _, _, _, l, hl, _, _, s1, h1, rfl, _⟩ := h
  have e := updateFinished_ledger h1
  show Guar src cur s.ledger s1.ledger
  rw [e]
  exact Guar.transfer hl hs

/-- A streaming call takes tokens only from the pallet account and the sender it names; it mints and burns nothing. -/
theorem exec_guar {k : Call} (h : exec c s k = .ok s') :
    Guar (fun w => w ∈ k.payers ∨ w = c.acct) (fun _ => False) s.ledger s'.ledger := by
  cases k with
  | create sd rc d a st sp cl =>
    simp only [exec, create, bind_ok_iff, Prod.exists] at h
    obtain ⟨_, _, _, _, _, _, _, _, s1, id, h1, s2, h2, h3⟩ := h
    rw [pushLib_ledger h3, pushLib_ledger h2]
    exact doCreate_guar h1 (.inl (by simp [Call.payers]))
  | traitCreate sd rc d a st sp cl =>
    simp only [exec, traitCreate, bind_ok_iff, Prod.exists] at h
    obtain ⟨_, _, s1, id, h1, h2⟩ := h
    rw [pushLib_ledger h2]
    exact doCreate_guar h1 (.inl (by simp [Call.payers]))
  | cancel who id =>
    simp only [exec, cancel, bind_ok_iff, pure_ok_iff] at h
    obtain ⟨st, _, _, _, _, _, _, _, sb, _, rb, _, l1, t1, l2, t2, s2, h2, s3, h3, s4, h4, rfl⟩ := h
    have e := (updateFinished_ledger h4).trans ((pushLib_ledger h3).trans (pushLib_ledger h2))
    show Guar _ _ s.ledger s4.ledger
    rw [e]
    exact (Guar.transfer t1 (.inr rfl)).trans (Guar.transfer t2 (.inr rfl))
  | withdraw who id amt =>
    simp only [exec, withdraw, bind_ok_iff, pure_ok_iff] at h
    obtain ⟨st, _, _, _, _, _, _, _, _, _, _, _, _, _, st', _, s1, h1, l, hl, rfl⟩ := h
    have e := fileFinished_ledger h1
    rw [e] at hl
    exact Guar.transfer hl (.inr rfl)
  | setMin a m =>
    simp only [exec, setMin, Except.ok.injEq] at h
    subst h
    exact Guar.refl

end Verif.Streaming
