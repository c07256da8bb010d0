import Verif.Prelude.NoPanic
import Verif.Streaming.Model

set_option linter.unusedSimpArgs false

/-! # Streaming: no call panics (C226) -/

namespace Verif.Streaming
open Verif

variable {c : Cfg} {s : State}

@[np_simps] theorem np_deltaOf {st : Stream} {n : Nat} : NoPanic (st.deltaOf n) ↔ True := by unfold Stream.deltaOf; np
@[np_simps] theorem np_claimed {st : Stream} : NoPanic st.claimed ↔ True := by unfold Stream.claimed; np
@[np_simps] theorem np_vested {st : Stream} {n : Nat} : NoPanic (st.vestedRest n) ↔ True := by unfold Stream.vestedRest; np
@[np_simps] theorem np_balanceOf {st : Stream} {n w : Nat} : NoPanic (st.balanceOf n w) ↔ True := by
  unfold Stream.balanceOf; np
@[np_simps] theorem np_pushId {r : List Nat} {i : Nat} : NoPanic (pushId c r i) ↔ True := by unfold pushId; np
@[np_simps] theorem np_pushLib {a i : Nat} {k : Kind} : NoPanic (pushLib c s a i k) ↔ True := by unfold pushLib; np
@[np_simps] theorem np_popFinished {a : Nat} : NoPanic (popFinished c s a) ↔ True := by
  unfold popFinished
  dsimp only
  split_ifs
  · np
  · cases (s.lib (a, .finish)).getLast? <;> dsimp only <;> np
@[np_simps] theorem np_updateFinished {a b : Nat} : NoPanic (updateFinished c s a b) ↔ True := by unfold updateFinished; np
@[np_simps] theorem np_doCreate {a b d e f g : Nat} {k : Bool} : NoPanic (doCreate c s a b d e f g k) ↔ True := by
  unfold doCreate; np
@[np_simps] theorem np_traitCreate {a b d e f g : Nat} {k : Bool} : NoPanic (traitCreate c s a b d e f g k) ↔ True := by
  unfold traitCreate; np
@[np_simps] theorem np_deduct {st : Stream} {m : Nat} : NoPanic (st.deduct m) ↔ True := by unfold Stream.deduct; np
@[np_simps] theorem np_file {st : Stream} {w i : Nat} : NoPanic (fileFinished c s st w i) ↔ True := by
  unfold fileFinished; np

/-- No call of the pallet panics, in any state. -/
theorem exec_noPanic (k : Call) : NoPanic (exec c s k) := by
  cases k with
  | create => unfold exec create; np
  | traitCreate => unfold exec; np
  | cancel => unfold exec cancel; np
  | withdraw => unfold exec withdraw; np
  | setMin => unfold exec setMin; np

end Verif.Streaming
