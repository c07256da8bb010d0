import Verif.Prelude.NoPanic
import Verif.Farming.Model

set_option linter.unusedSimpArgs false

/-! # Farming: which calls can panic (C226) -/

namespace Verif.Farming
open Verif

variable {c : Cfg} {s : State}

@[np_simps] theorem np_rps {p : Pool} {now : Nat} : NoPanic (p.rewardPerShare now) ↔ True := by
  unfold Pool.rewardPerShare; np
@[np_simps] theorem np_update {p : Pool} {now : Nat} : NoPanic (p.update now) ↔ True := by
  unfold Pool.update; np
@[np_simps] theorem np_settle {p : Pool} {now : Nat} {u : Pos} : NoPanic (p.settle now u) ↔ True := by
  unfold Pool.settle; np
@[np_simps] theorem np_updateNone {k : Key} : NoPanic (updateNone s k) ↔ True := by unfold updateNone; np
@[np_simps] theorem np_updateSome {k : Key} {w : Nat} : NoPanic (updateSome s k w) ↔ True := by unfold updateSome; np
@[np_simps] theorem np_release {k : Key} {p : Pool} {u : Pos} {w m : Nat} : NoPanic (release c s k p u w m) ↔ True := by
  unfold release; np
@[np_simps] theorem np_payIf {l : Ledger} {a x y m : Nat} : NoPanic (payIf l a x y m) ↔ True := by unfold payIf; np
@[np_simps] theorem np_payReward {l : Ledger} {k : Key} {u : Pos} {w : Nat} : NoPanic (payReward c l k u w) ↔ True := by
  unfold payReward; np
@[np_simps] theorem np_newRate {p : Pool} {n m d : Nat} : NoPanic (newRate p n m d) ↔ True := by unfold newRate; np

theorem np_sumMatured (cool now : Nat) : ∀ (l : List (Nat × Nat)) (a : Nat), NoPanic (sumMatured cool now a l)
  | [], _ => by unfold sumMatured; np
  | it :: its, a => by
    unfold sumMatured
    np
    exact ⟨fun _ _ _ => np_sumMatured cool now its _, fun _ => np_sumMatured cool now its _⟩

/-- The only call that can panic is the one governance uses to lock a pool again. -/
theorem exec_noPanic (k : Call) (h : ∀ q, k = .resetUnlock q → s.now + q.lock ≤ maxU32) : NoPanic (exec c s k) := by
  cases k with
  | create => unfold exec create; np
  | setStatus => unfold exec setStatus; np
  | setCool => unfold exec setCool; np
  | resetUnlock q => unfold exec resetUnlock; np; exact fun _ _ _ _ => h q rfl
  | deposit => unfold exec deposit; np
  | withdraw => unfold exec withdraw; np
  | redeem => unfold exec redeem; np; exact fun _ _ => np_sumMatured _ _ _ _
  | claim => unfold exec claim; np
  | dispatch => unfold exec dispatch; np

end Verif.Farming
