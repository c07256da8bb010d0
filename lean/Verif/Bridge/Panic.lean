import Verif.Prelude.NoPanic
import Verif.Bridge.Model

set_option linter.unusedSimpArgs false
set_option linter.unusedVariables false

/-! # Bridge: which calls can panic (C226) -/

namespace Verif.Bridge
open Verif

variable {c : Cfg} {s : State}

/-- The bridge's counters are not at the end of their range: nonces of teleports, block numbers, the gift and the
existential deposit together. -/
structure Room (c : Cfg) (s : State) : Prop where
  nonce : ∀ ch n, s.nonces ch = some n → n < maxU64
  now : s.now + c.lifetime ≤ maxU32
  gift : ∀ m a, c.ed + c.giftConv m a ≤ maxU128

@[np_simps] theorem np_underCap {t : Token} {m : Nat} {d : Dir} : NoPanic (underCap t m d) ↔ True := by
  unfold underCap; cases d <;> dsimp only <;> np
@[np_simps] theorem np_updateCap {a m : Nat} {d : Dir} : NoPanic (updateCap s a m d) ↔ True := by
  unfold updateCap; np
@[np_simps] theorem np_takeIn {l : Ledger} {t : Token} {a w m : Nat} : NoPanic (takeIn c l t a w m) ↔ True := by
  unfold takeIn; np
@[np_simps] theorem np_materializeAllowed {t m : Nat} : NoPanic (materializeAllowed s t m) ↔ True := by
  unfold materializeAllowed; dsimp only; np
@[np_simps] theorem np_payOut {l : Ledger} {t : Token} {a : Nat} {k : MCall} : NoPanic (payOut c l t a k) ↔ True := by
  unfold payOut; np
@[np_simps] theorem np_relayMember {o : Option Nat} : NoPanic (relayMember c s o) ↔ True := by
  unfold relayMember; cases o <;> dsimp only <;> np

theorem np_grantBonus (h : ∀ m a, c.ed + c.giftConv m a ≤ maxU128) (l : Ledger) (w a m : Nat) :
    NoPanic (grantBonus c l w a m) := by
  unfold grantBonus
  dsimp only
  np
  exact fun _ => h m a

theorem np_updateRegistry {n : Nat} (h0 : n ≠ 0) (h1 : n < maxU64) (ch : Nat) : NoPanic (updateRegistry s ch n) := by
  unfold updateRegistry addNonce
  cases s.registry ch <;> dsimp only <;> np
  exact fun _ _ _ => ⟨h1, Or.inr h0⟩

theorem updateCap_nonces {a m : Nat} {d : Dir} {s' : State} (h : updateCap s a m d = .ok s') : s'.nonces = s.nonces := by
  simp only [updateCap, bind_ok_iff, pure_ok_iff] at h
  obtain ⟨_, _, rfl⟩ := h
  rfl

theorem teleport_np (h : ∀ ch n, s.nonces ch = some n → n < maxU64) (w ch t d m : Nat) :
    NoPanic (teleport c s w ch t d m) := by
  unfold teleport
  dsimp only
  np
  intro _ h1 _ _ _ _ _ _ s1 hs1 _ _ _ _
  rw [updateCap_nonces hs1]
  rw [ensure_ok_iff] at h1
  obtain ⟨n, hn⟩ := Option.isSome_iff_exists.1 h1
  rw [hn]
  have := h ch n hn
  show n + 1 ≤ maxU64
  omega

theorem np_execute (h : ∀ m a, c.ed + c.giftConv m a ≤ maxU128) {n : Nat} (h0 : n ≠ 0) (h1 : n < maxU64) (ch : Nat) (k : MCall) :
    NoPanic (execute c s ch n k) := by
  unfold execute
  dsimp only
  np
  intros
  exact ⟨np_grantBonus h _ _ _ _, fun _ _ => np_updateRegistry h0 h1 _⟩

theorem np_resolve (h : ∀ m a, c.ed + c.giftConv m a ≤ maxU128) {n : Nat} (h0 : n ≠ 0) (h1 : n < maxU64) (ch : Nat) (k : MCall) :
    NoPanic (resolve c s ch n k) := by
  unfold resolve
  np
  intro p _ _ _ _ _
  cases (p.tryComplete s.threshold s.members.length).2 with
  | approved => exact np_execute h h0 h1 _ _
  | rejected =>
    dsimp only
    unfold cancelMat
    np
    exact np_updateRegistry h0 h1 _
  | initiated => dsimp only; np

/-- A vote of a relayer about a nonce that is neither 0 nor the last one does not panic. -/
theorem materialize_np (h : Room c s) {n : Nat} (h0 : n ≠ 0) (h1 : n < maxU64) (o : Option Nat) (ch : Nat) (k : MCall) (f : Bool) :
    NoPanic (materialize c s o ch n k f) := by
  unfold materialize
  np
  intros
  refine ⟨?_, fun _ _ _ _ _ _ _ _ => np_resolve h.gift h0 h1 _ _⟩
  unfold openProp
  cases s.props ch (n, k) <;> dsimp only <;> np
  exact h.now

/-- Every call of the pallet, with the nonce of a vote not at an end of its range. -/
theorem exec_noPanic (h : Room c s) (k : Call)
    (hn : ∀ o ch n m f, k = .materialize o ch n m f → n ≠ 0 ∧ n < maxU64) : NoPanic (exec c s k) := by
  cases k with
  | registerChain => unfold exec registerChain; np
  | unregisterChain => unfold exec unregisterChain; np
  | registerToken => unfold exec registerToken; np
  | unregisterToken => unfold exec unregisterToken; np
  | setFee => unfold exec setFee mutateToken; dsimp only; np
  | setStatus => unfold exec setStatus mutateToken; dsimp only; np
  | setCap => unfold exec setCap mutateToken; dsimp only; np
  | cleanCap => unfold exec cleanCap mutateToken; dsimp only; np
  | teleport w ch t d m => exact teleport_np h.nonce w ch t d m
  | materialize o ch n m f => exact materialize_np h (hn o ch n m f rfl).1 (hn o ch n m f rfl).2 o ch m f

end Verif.Bridge
