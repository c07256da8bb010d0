import Verif.Streaming.Panic
import Verif.Crowdloans.Model

set_option linter.unusedSimpArgs false

/-! # Crowdloans: no call panics (C226) -/

namespace Verif.Crowdloans
open Verif

variable {c : Cfg} {s : State}

@[np_simps] theorem np_bump {b : Bool} {x m : Nat} : NoPanic (bump b x m) ↔ True := by unfold bump; np
@[np_simps] theorem np_updateContribution {v : Vault} {w m : Nat} {o : Option Nat} {b : Bool} {k : Kind} :
    NoPanic (updateContribution s v w m o b k) ↔ True := by unfold updateContribution; np
@[np_simps] theorem np_migrateContribution {v : Vault} {w m : Nat} {a b : Kind} :
    NoPanic (migrateContribution s v w m a b) ↔ True := by unfold migrateContribution; np
@[np_simps] theorem np_burnFee {f : Fee} : NoPanic (burnFee c s f) ↔ True := by
  unfold burnFee; cases s.tok.burn c.relay c.xcmAcct (s.fee f) <;> dsimp only <;> np
@[np_simps] theorem np_sendXcm {f : Fee} {r : Req} : NoPanic (sendXcm c s f r) ↔ True := by unfold sendXcm; np
@[np_simps] theorem np_doContribute {k : Key} {p : Bool} {w m x : Nat} : NoPanic (doContribute c s k p w m x) ↔ True := by
  unfold doContribute; np
@[np_simps] theorem np_doWithdraw {k : Key} {m : Nat} {t : Phase} : NoPanic (doWithdraw c s k m t) ↔ True := by
  unfold doWithdraw; np
@[np_simps] theorem np_total {v : Vault} : NoPanic v.total ↔ True := by unfold Vault.total; np
@[np_simps] theorem np_prevFinished {p : Nat} : NoPanic (prevFinished s p) ↔ True := by
  unfold prevFinished; cases s.current p <;> dsimp only <;> np
@[np_simps] theorem np_checkUpdate {a b : Option Nat} : NoPanic (checkUpdate s a b) ↔ True := by
  unfold checkUpdate; cases b <;> dsimp only <;> np
@[np_simps] theorem np_movePhase {p : Nat} {a b : Phase} : NoPanic (movePhase s p a b) ↔ True := by unfold movePhase; np
@[np_simps] theorem np_askBack {p : Nat} {a b : Phase} : NoPanic (askBack c s p a b) ↔ True := by unfold askBack; np
@[np_simps] theorem np_book {k : Key} {v : Vault} {w m x : Nat} : NoPanic (book c s k v w m x) ↔ True := by unfold book; np
@[np_simps] theorem np_refundPay {k : Kind} {w m : Nat} : NoPanic (refundPay c s k w m) ↔ True := by unfold refundPay; np
@[np_simps] theorem np_refundOne {v : Vault} {k : Kind} {w m : Nat} : NoPanic (refundOne c s v k w m) ↔ True := by
  unfold refundOne; np
@[np_simps] theorem np_payBonus {l : Nat × Nat} {w m : Nat} : NoPanic (payBonus c s l w m) ↔ True := by unfold payBonus; np
@[np_simps] theorem np_claim {w : Nat} {k : Key} {f : Bool} : NoPanic (claim c s w k f) ↔ True := by unfold claim; np
@[np_simps] theorem np_redeem {w : Nat} {k : Key} {m : Nat} : NoPanic (redeem c s w k m) ↔ True := by unfold redeem; np
@[np_simps] theorem np_contributed {k : Key} {w m : Nat} : NoPanic (contributed c s k w m) ↔ True := by
  unfold contributed; np
@[np_simps] theorem np_bounced {k : Key} {w m : Nat} : NoPanic (bounced c s k w m) ↔ True := by unfold bounced; np
@[np_simps] theorem np_withdrawn {k : Key} {t : Phase} : NoPanic (withdrawn s k t) ↔ True := by unfold withdrawn; np

theorem np_migrateLoop (k : Key) : ∀ (n : Nat) (l : List Entry) (s : State) (v : Vault),
    NoPanic (migrateLoop c k n l s v)
  | _, [], _, _ => by unfold migrateLoop; np
  | 0, _ :: _, _, _ => by unfold migrateLoop; np
  | n + 1, e :: l, s, v => by
    unfold migrateLoop
    np
    exact fun _ _ _ _ _ => np_migrateLoop k n l _ _
theorem np_refundLoop : ∀ (n : Nat) (l : List (Kind × Entry)) (s : State) (v : Vault), NoPanic (refundLoop c n l s v)
  | _, [], _, _ => by unfold refundLoop; np
  | 0, _ :: _, _, _ => by unfold refundLoop; np
  | n + 1, e :: l, s, v => by
    unfold refundLoop
    np
    exact fun _ _ _ => np_refundLoop n l _ _

theorem np_notify (q : Nat) (e : Bool) : NoPanic (notify c s q e) := by
  unfold notify
  cases s.requests q with
  | none => np
  | some r => cases r <;> cases e <;> dsimp only <;> np

/-- No call of the pallet panics, in any state. -/
theorem exec_noPanic (k : Call) : NoPanic (exec c s k) := by
  cases k with
  | createVault => unfold exec createVault; np
  | updateVault => unfold exec updateVault; np
  | «open» => unfold exec; np
  | contribute => unfold exec contribute; np
  | setVrf => unfold exec; np
  | close => unfold exec; np
  | reopen => unfold exec; np
  | auctionSucceeded => unfold exec; np
  | auctionFailed => unfold exec; np
  | claim => unfold exec; np
  | withdraw => unfold exec withdraw; np
  | redeem => unfold exec; np
  | slotExpired => unfold exec; np
  | migratePending => unfold exec migratePending; np; intros; exact np_migrateLoop _ _ _ _ _
  | notify q e => exact np_notify q e
  | refund => unfold exec refund; np; intros; exact np_refundLoop _ _ _ _
  | dissolve => unfold exec dissolve; np
  | refundFor => unfold exec refundFor; np
  | updateProxy => unfold exec; np
  | updateBonus => unfold exec updateBonus; np
  | forceClaim => unfold exec; np
  | redeemAndLend => unfold exec redeemAndLend; np

end Verif.Crowdloans
