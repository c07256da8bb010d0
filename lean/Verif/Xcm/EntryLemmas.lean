import Verif.Xcm.EntrySpec
import Verif.Xcm.AdapterProps
import Verif.Xcm.TraderProps

/-! # Entry of XCM messages: lemmas -/

set_option linter.unusedSimpArgs false
set_option linter.unusedVariables false

namespace Verif.Xcm
open Verif

variable {e : Env}

/-! ## Induction over executions -/

/-- What holds for the executor with the instructions still to come, through all rounds. -/
theorem process_ind (Q : Vm → List Instr → Prop)
    (h1 : ∀ vm i is vm', Q vm (i :: is) → step e vm i = (vm', .ok ()) → Q vm' is)
    (h2 : ∀ vm i is vm' x, Q vm (i :: is) → step e vm i = (vm', .error x) → x ≠ .panic →
      Q { vm' with surplus := vm'.surplus.plus (weights e.base is) } []) :
    ∀ (is : List Instr) (vm vm' : Vm) (b : Bool), Q vm is → process e vm is = .ok (vm', b) → Q vm' [] := by
  intro is
  induction is with
  | nil =>
    intro vm vm' b hq h
    unfold process at h
    cases h
    exact hq
  | cons i is ih =>
    intro vm vm' b hq h
    unfold process at h
    rcases hs : step e vm i with ⟨v, r⟩
    rw [hs] at h
    cases r with
    | ok u => exact ih _ _ _ (h1 _ _ _ _ hq hs) h
    | error x =>
      by_cases hx : x = .panic
      · subst hx
        cases h
      · have : (Except.ok ({ v with surplus := v.surplus.plus (weights e.base is) }, false) : R (Vm × Bool)) = .ok (vm', b) := by
          cases x <;> first | exact h | exact absurd rfl hx
        cases this
        exact h2 _ _ _ _ _ hq hs hx

theorem drive_ind (Q : Vm → List Instr → Prop)
    (h1 : ∀ vm i is vm', Q vm (i :: is) → step e vm i = (vm', .ok ()) → Q vm' is)
    (h2 : ∀ vm i is vm' x, Q vm (i :: is) → step e vm i = (vm', .error x) → x ≠ .panic →
      Q { vm' with surplus := vm'.surplus.plus (weights e.base is) } [])
    (h3 : ∀ vm, Q vm [] → Q { dropHandler e vm with appendix := [] } vm.appendix)
    (h4 : ∀ vm, vm.handler = [] → Q vm [] → Q { vm with appendix := [] } vm.appendix)
    (h5 : ∀ vm, Q vm [] → Q { vm with handler := [] } vm.handler) :
    ∀ (n : Nat) (vm : Vm) (is : List Instr) (vm' : Vm), Q vm is → drive e n vm is = .ok vm' → ∃ is', Q vm' is' := by
  intro n
  induction n with
  | zero =>
    intro vm is vm' hq h
    unfold drive at h
    cases h
    exact ⟨_, hq⟩
  | succ n ih =>
    intro vm is vm' hq h
    cases is with
    | nil =>
      unfold drive at h
      cases h
      exact ⟨_, hq⟩
    | cons i is =>
      unfold drive at h
      cases hp : process e vm (i :: is) with
      | error x => rw [hp] at h; cases h
      | ok r =>
        obtain ⟨v, b⟩ := r
        rw [hp] at h
        have hv := process_ind Q h1 h2 _ _ _ _ hq hp
        cases b with
        | true => exact ih _ _ _ (h3 _ hv) h
        | false =>
          dsimp only at h
          by_cases hh : v.handler = []
          · rw [if_pos hh] at h
            exact ih _ _ _ (h4 _ hh hv) h
          · rw [if_neg hh] at h
            exact ih _ _ _ (h5 _ hv) h

/-- The same for what does not depend on the weights and the instructions to come. -/
theorem drive_inv (P : Vm → Prop) (hs : ∀ vm i, P vm → P (step e vm i).1)
    (hw : ∀ vm (h a : List Instr) (w : Weight), P vm → P { vm with handler := h, appendix := a, surplus := w }) :
    ∀ (n : Nat) (vm : Vm) (is : List Instr) (vm' : Vm), P vm → drive e n vm is = .ok vm' → P vm' := by
  intro n vm is vm' hp h
  obtain ⟨_, h'⟩ := drive_ind (e := e) (fun v _ => P v) (fun v i is v' hv hst => by have := hs v i hv; rw [hst] at this; exact this)
    (fun v i is v' x hv hst _ => by have := hs v i hv; rw [hst] at this; exact hw v' v'.handler v'.appendix _ this)
    (fun v hv => hw v [] [] _ hv) (fun v _ hv => hw v v.handler [] v.surplus hv) (fun v hv => hw v [] v.appendix v.surplus hv)
    n vm is vm' hp h
  exact h'

/-! ## Frames of the parts -/

theorem withOrigin_elim {P : Vm × R Unit → Prop} (vm : Vm) (f : Loc → Vm × R Unit) (h0 : P (vm, .error .badOrigin))
    (h : ∀ o, vm.origin = some o → P (f o)) : P (withOrigin vm f) := by
  unfold withOrigin
  cases ho : vm.origin with
  | none => exact h0
  | some o => exact h o ho

theorem subsume_frame (vm : Vm) (a : AssetKey × Nat) : ∃ h, (subsume e vm a).1 = { vm with holding := h } := by
  unfold subsume
  split
  · exact ⟨_, rfl⟩
  · exact ⟨vm.holding, rfl⟩

theorem subsumeAll_frame : ∀ (as : Assets) (vm : Vm), ∃ h, (subsumeAll e vm as).1 = { vm with holding := h } := by
  intro as
  induction as with
  | nil => intro vm; exact ⟨vm.holding, rfl⟩
  | cons a as ih =>
    intro vm
    obtain ⟨h, hh⟩ := subsume_frame (e := e) vm a
    unfold subsumeAll
    rcases hs : subsume e vm a with ⟨v, r⟩
    rw [hs] at hh
    cases r with
    | ok u =>
      obtain ⟨h', hh'⟩ := ih v
      dsimp only at hh ⊢
      rw [hh', hh]
      exact ⟨_, rfl⟩
    | error x => exact ⟨h, hh⟩

theorem withdrawAll_frame (o : Loc) : ∀ (as : Assets) (vm : Vm),
    ∃ l h, (withdrawAll e o vm as).1 = { vm with ledger := l, holding := h } := by
  intro as
  induction as with
  | nil => intro vm; exact ⟨vm.ledger, vm.holding, rfl⟩
  | cons a as ih =>
    intro vm
    unfold withdrawAll
    cases hw : withdraw e.cfg vm.ledger (toMulti a) o with
    | error x => exact ⟨vm.ledger, vm.holding, rfl⟩
    | ok l =>
      dsimp only
      obtain ⟨h, hh⟩ := subsume_frame (e := e) { vm with ledger := l } a
      rcases hs : subsume e { vm with ledger := l } a with ⟨v, r⟩
      rw [hs] at hh
      cases r with
      | ok u =>
        obtain ⟨l', h', hh'⟩ := ih v
        dsimp only at hh ⊢
        rw [hh', hh]
        exact ⟨_, _, rfl⟩
      | error x => exact ⟨l, h, hh⟩

theorem receiveAll_frame (o : Loc) : ∀ (as : Assets) (vm : Vm), ∃ h, (receiveAll e o vm as).1 = { vm with holding := h } := by
  intro as
  induction as with
  | nil => intro vm; exact ⟨vm.holding, rfl⟩
  | cons a as ih =>
    intro vm
    unfold receiveAll
    split
    · obtain ⟨h, hh⟩ := subsume_frame (e := e) vm a
      rcases hs : subsume e vm a with ⟨v, r⟩
      rw [hs] at hh
      cases r with
      | ok u =>
        obtain ⟨h', hh'⟩ := ih v
        dsimp only at hh ⊢
        rw [hh', hh]
        exact ⟨_, rfl⟩
      | error x => exact ⟨h, hh⟩
    · exact ⟨vm.holding, rfl⟩

theorem transferAll_frame (o dst : Loc) : ∀ (as : Assets) (vm : Vm),
    ∃ l, (transferAll e o dst vm as).1 = { vm with ledger := l } := by
  intro as
  induction as with
  | nil => intro vm; exact ⟨vm.ledger, rfl⟩
  | cons a as ih =>
    intro vm
    unfold transferAll
    cases hw : transferAsset e.cfg vm.ledger (toMulti a) o dst with
    | error x => exact ⟨vm.ledger, rfl⟩
    | ok l =>
      obtain ⟨l', h'⟩ := ih { vm with ledger := l }
      exact ⟨l', h'⟩

theorem depositAll_frame (dst : Loc) : ∀ (as : Assets) (vm : Vm), ∃ l, (depositAll e dst vm as).1 = { vm with ledger := l } := by
  intro as
  induction as with
  | nil => intro vm; exact ⟨vm.ledger, rfl⟩
  | cons a as ih =>
    intro vm
    unfold depositAll
    rcases hw : deposit e.cfg vm.ledger (toMulti a) dst with ⟨l, r⟩
    cases r with
    | error x => exact ⟨l, rfl⟩
    | ok u =>
      obtain ⟨l', h'⟩ := ih { vm with ledger := l }
      exact ⟨l', h'⟩

theorem thenSend_fst (b : Bool) (r : Vm × R Unit) : (thenSend b r).1 = r.1 := by
  unfold thenSend
  obtain ⟨v, r⟩ := r
  cases r with
  | ok u => dsimp only; split <;> rfl
  | error x => rfl

theorem refundSurplus_frame (vm : Vm) : ∃ tr w h, (refundSurplus e vm).1 = { vm with trader := tr, refunded := w, holding := h } := by
  unfold refundSurplus
  split
  · exact ⟨_, _, _, rfl⟩
  · cases hr : refund vm.trader (vm.surplus.sub vm.refunded) with
    | error x => exact ⟨_, _, _, rfl⟩
    | ok p =>
      obtain ⟨tr, o⟩ := p
      cases o with
      | none => exact ⟨_, _, vm.holding, rfl⟩
      | some q =>
        obtain ⟨t, m⟩ := q
        obtain ⟨h, hh⟩ := subsume_frame (e := e)
          { vm with refunded := vm.refunded.plus (vm.surplus.sub vm.refunded), trader := tr } (.concrete t, m)
        dsimp only
        rw [hh]
        exact ⟨_, _, _, rfl⟩

theorem buyExecution_frame (vm : Vm) (f : AssetKey × Nat) (l : Option Weight) :
    ∃ tr h, (buyExecution e vm f l).1 = { vm with trader := tr, holding := h } := by
  unfold buyExecution
  cases l with
  | none => exact ⟨vm.trader, vm.holding, rfl⟩
  | some w =>
    dsimp only
    cases ht : tryTake f vm.holding with
    | none => exact ⟨vm.trader, vm.holding, rfl⟩
    | some h =>
      dsimp only
      cases hb : buy e.fees vm.trader w [(toKey f.1, f.2)] with
      | none => exact ⟨vm.trader, h, rfl⟩
      | some q =>
        obtain ⟨un, tr⟩ := q
        obtain ⟨h', hh⟩ := subsumeAll_frame (e := e) (un.map (fun a => (ofKey a.1, a.2))) { vm with holding := h, trader := tr }
        dsimp only
        rw [hh]
        exact ⟨_, _, rfl⟩

/-! ## Origins -/

theorem Below.refl (o : Loc) : Below o o := ⟨[], by simp⟩

theorem Below.descend {o l : Loc} (h : Below o l) (js : List Junction) : Below o ⟨l.parents, l.interior ++ js⟩ := by
  obtain ⟨k, rfl⟩ := h
  exact ⟨k ++ js, by simp⟩

/-- Origin, and dispatched calls. -/
def Acts (e : Env) (o : Loc) (log0 : List (LocalOrigin × Nat)) (vm : Vm) : Prop :=
  (∀ o', vm.origin = some o' → Below o o') ∧
  (∀ p ∈ vm.log, p ∈ log0 ∨ ∃ o' k, Below o o' ∧ convertOrigin e o' k = some p.1)

theorem Acts.congr {o : Loc} {log0 : List (LocalOrigin × Nat)} {v v' : Vm} (h : Acts e o log0 v) (h1 : v'.origin = v.origin)
    (h2 : v'.log = v.log) : Acts e o log0 v' := by
  unfold Acts
  rw [h1, h2]
  exact h

theorem step_acts {o : Loc} {log0 : List (LocalOrigin × Nat)} (vm : Vm) (i : Instr) (h : Acts e o log0 vm) :
    Acts e o log0 (step e vm i).1 := by
  cases i with
  | withdraw as =>
    refine withOrigin_elim (P := fun r => Acts e o log0 r.1) vm _ h (fun o' ho => ?_)
    · obtain ⟨l, hd, hh⟩ := withdrawAll_frame (e := e) o' as vm
      rw [hh]
      exact h.congr rfl rfl
  | reserveDeposited as =>
    refine withOrigin_elim (P := fun r => Acts e o log0 r.1) vm _ h (fun o' ho => ?_)
    · obtain ⟨hd, hh⟩ := receiveAll_frame (e := e) o' as vm
      rw [hh]
      exact h.congr rfl rfl
  | teleported as =>
    refine withOrigin_elim (P := fun r => Acts e o log0 r.1) vm _ h (fun o' ho => ?_)
    · split <;> exact h
  | claim as =>
    refine withOrigin_elim (P := fun r => Acts e o log0 r.1) vm _ h (fun o' ho => ?_)
    · split
      · obtain ⟨hd, hh⟩ := subsumeAll_frame (e := e) as { vm with traps := vm.traps.eraseP (sameTrap o' as) }
        rw [hh]
        exact h.congr rfl rfl
      · exact h
  | clearOrigin => exact ⟨fun o' ho => (by cases ho), h.2⟩
  | descend js =>
    refine withOrigin_elim (P := fun r => Acts e o log0 r.1) vm _ h (fun o' ho => ?_)
    · split
      · refine ⟨fun o2 h2 => ?_, h.2⟩
        cases h2
        exact (h.1 _ ho).descend js
      · exact h
  | buy f l =>
    obtain ⟨tr, hd, hh⟩ := buyExecution_frame (e := e) vm f l
    show Acts e o log0 (buyExecution e vm f l).1
    rw [hh]
    exact h.congr rfl rfl
  | refundSurplus =>
    obtain ⟨tr, w, hd, hh⟩ := refundSurplus_frame (e := e) vm
    show Acts e o log0 (refundSurplus e vm).1
    rw [hh]
    exact h.congr rfl rfl
  | depositAsset cap dst s =>
    unfold step
    rw [thenSend_fst]
    obtain ⟨l, hh⟩ := depositAll_frame (e := e) dst (taken cap vm.holding) { vm with holding := remaining cap vm.holding }
    rw [hh]
    exact h.congr rfl rfl
  | transferAsset as dst s =>
    refine withOrigin_elim (P := fun r => Acts e o log0 r.1) vm _ h (fun o' ho => ?_)
    · rw [thenSend_fst]
      obtain ⟨l, hh⟩ := transferAll_frame (e := e) o' dst as vm
      rw [hh]
      exact h.congr rfl rfl
  | leave cap s =>
    unfold step
    rw [thenSend_fst]
    exact h.congr rfl rfl
  | transact k l a call =>
    refine withOrigin_elim (P := fun r => Acts e o log0 r.1) vm _ h (fun o' ho => ?_)
    · cases hc : convertOrigin e o' k with
      | none => exact h
      | some lo =>
        dsimp only
        split
        · refine ⟨h.1, fun p hp => ?_⟩
          rcases List.mem_append.1 hp with hp | hp
          · exact h.2 p hp
          · rw [List.mem_singleton] at hp
            subst hp
            exact Or.inr ⟨o', k, h.1 _ ho, hc⟩
        · exact h
  | queryResponse id q => exact withOrigin_elim (P := fun r => Acts e o log0 r.1) vm _ h (fun o' ho => h)
  | subscribe => exact withOrigin_elim (P := fun r => Acts e o log0 r.1) vm _ h (fun o' ho => h)
  | unsubscribe => exact withOrigin_elim (P := fun r => Acts e o log0 r.1) vm _ h (fun o' ho => h)
  | setHandler is => exact h.congr rfl rfl
  | setAppendix is => exact h.congr rfl rfl
  | other b => cases b <;> exact h

theorem drive_acts {o : Loc} {log0 : List (LocalOrigin × Nat)} {n : Nat} {vm vm' : Vm} {is : List Instr}
    (h : Acts e o log0 vm) (hd : drive e n vm is = .ok vm') : Acts e o log0 vm' :=
  drive_inv (e := e) (Acts e o log0) step_acts (fun v hh aa w hv => hv.congr rfl rfl) n vm is vm' h hd

/-! ## Who loses -/

/-- No account outside `Y` has less. -/
def Keeps (Y : Nat → Nat → Prop) (l l' : Ledger) : Prop := ∀ x y, ¬ Y x y → l.bal x y ≤ l'.bal x y

theorem Keeps.refl (Y : Nat → Nat → Prop) (l : Ledger) : Keeps Y l l := fun _ _ _ => Nat.le_refl _
theorem Keeps.trans {Y : Nat → Nat → Prop} {a b c : Ledger} (h : Keeps Y a b) (h' : Keeps Y b c) : Keeps Y a c :=
  fun x y hy => (h x y hy).trans (h' x y hy)

/-- The accounts a message from `o` may take from. -/
def Takes (e : Env) (o : Loc) (x y : Nat) : Prop :=
  (x = e.native ∧ y = e.gift) ∨ ∃ o', Below o o' ∧ locAcct e o' = some y

theorem withdrawAll_keeps {o o' : Loc} (ho : Below o o') : ∀ (as : Assets) (vm : Vm),
    Keeps (Takes e o) vm.ledger (withdrawAll e o' vm as).1.ledger := by
  intro as
  induction as with
  | nil => intro vm; exact Keeps.refl _ _
  | cons a as ih =>
    intro vm
    unfold withdrawAll
    cases hw : withdraw e.cfg vm.ledger (toMulti a) o' with
    | error x => exact Keeps.refl _ _
    | ok l =>
      have hk : Keeps (Takes e o) vm.ledger l := by
        intro x y hy
        by_contra hlt
        have h1 : (runOp e.cfg vm.ledger (.withdraw (toMulti a) o')).bal x y < vm.ledger.bal x y := by
          show (commit vm.ledger (withdraw e.cfg vm.ledger (toMulti a) o')).bal x y < _
          rw [hw]
          exact Nat.lt_of_not_le hlt
        rcases C150_who_loses _ h1 with ⟨_, _, hc, hy', _⟩ | ⟨_, _, _, hc, _⟩ | ⟨_, _, hc, _⟩
        · cases hc
          exact hy (Or.inr ⟨o', ho, hy'⟩)
        · cases hc
        · cases hc
      dsimp only
      obtain ⟨h, hh⟩ := subsume_frame (e := e) { vm with ledger := l } a
      rcases hs : subsume e { vm with ledger := l } a with ⟨v, r⟩
      rw [hs] at hh
      dsimp only at hh
      cases r with
      | ok u =>
        have := ih v
        rw [hh] at this ⊢
        exact hk.trans this
      | error x =>
        dsimp only
        rw [hh]
        exact hk

theorem transferAll_keeps {o o' dst : Loc} (ho : Below o o') : ∀ (as : Assets) (vm : Vm),
    Keeps (Takes e o) vm.ledger (transferAll e o' dst vm as).1.ledger := by
  intro as
  induction as with
  | nil => intro vm; exact Keeps.refl _ _
  | cons a as ih =>
    intro vm
    unfold transferAll
    cases hw : transferAsset e.cfg vm.ledger (toMulti a) o' dst with
    | error x => exact Keeps.refl _ _
    | ok l =>
      have hk : Keeps (Takes e o) vm.ledger l := by
        intro x y hy
        by_contra hlt
        have h1 : (runOp e.cfg vm.ledger (.move (toMulti a) o' dst)).bal x y < vm.ledger.bal x y := by
          show (commit vm.ledger (transferAsset e.cfg vm.ledger (toMulti a) o' dst)).bal x y < _
          rw [hw]
          exact Nat.lt_of_not_le hlt
        rcases C150_who_loses _ h1 with ⟨_, _, hc, _⟩ | ⟨_, _, _, hc, hy', _⟩ | ⟨_, _, hc, _⟩
        · cases hc
        · cases hc
          exact hy (Or.inr ⟨o', ho, hy'⟩)
        · cases hc
      exact hk.trans (ih { vm with ledger := l })

theorem deposit_keeps {o : Loc} (l : Ledger) (a : MultiAsset) (dst : Loc) :
    Keeps (Takes e o) l (deposit e.cfg l a dst).1 := by
  intro x y hy
  by_contra hlt
  have h1 : (runOp e.cfg l (.deposit a dst)).bal x y < l.bal x y := Nat.lt_of_not_le hlt
  rcases C150_who_loses _ h1 with ⟨_, _, hc, _⟩ | ⟨_, _, _, hc, _⟩ | ⟨_, _, hc, _, hx, hy'⟩
  · cases hc
  · cases hc
  · exact hy (Or.inl ⟨hx, hy'⟩)

theorem depositAll_keeps {o dst : Loc} : ∀ (as : Assets) (vm : Vm),
    Keeps (Takes e o) vm.ledger (depositAll e dst vm as).1.ledger := by
  intro as
  induction as with
  | nil => intro vm; exact Keeps.refl _ _
  | cons a as ih =>
    intro vm
    unfold depositAll
    have hk := deposit_keeps (e := e) (o := o) vm.ledger (toMulti a) dst
    rcases hw : deposit e.cfg vm.ledger (toMulti a) dst with ⟨l, r⟩
    rw [hw] at hk
    cases r with
    | error x => exact hk
    | ok u => exact hk.trans (ih { vm with ledger := l })

theorem step_keeps {o : Loc} {log0 : List (LocalOrigin × Nat)} (vm : Vm) (i : Instr) (h : Acts e o log0 vm) :
    Keeps (Takes e o) vm.ledger (step e vm i).1.ledger := by
  cases i with
  | withdraw as =>
    refine withOrigin_elim (P := fun r => Keeps (Takes e o) vm.ledger r.1.ledger) vm _ (Keeps.refl _ _) (fun o' ho => ?_)
    · exact withdrawAll_keeps (h.1 _ ho) as vm
  | reserveDeposited as =>
    refine withOrigin_elim (P := fun r => Keeps (Takes e o) vm.ledger r.1.ledger) vm _ (Keeps.refl _ _) (fun o' ho => ?_)
    · obtain ⟨hd, hh⟩ := receiveAll_frame (e := e) o' as vm
      rw [hh]
      exact Keeps.refl _ _
  | teleported as =>
    refine withOrigin_elim (P := fun r => Keeps (Takes e o) vm.ledger r.1.ledger) vm _ (Keeps.refl _ _) (fun o' ho => ?_)
    · split <;> exact Keeps.refl _ _
  | claim as =>
    refine withOrigin_elim (P := fun r => Keeps (Takes e o) vm.ledger r.1.ledger) vm _ (Keeps.refl _ _) (fun o' ho => ?_)
    · split
      · obtain ⟨hd, hh⟩ := subsumeAll_frame (e := e) as { vm with traps := vm.traps.eraseP (sameTrap o' as) }
        rw [hh]
        exact Keeps.refl _ _
      · exact Keeps.refl _ _
  | clearOrigin => exact Keeps.refl _ _
  | descend js =>
    refine withOrigin_elim (P := fun r => Keeps (Takes e o) vm.ledger r.1.ledger) vm _ (Keeps.refl _ _) (fun o' ho => ?_)
    · split <;> exact Keeps.refl _ _
  | buy f l =>
    obtain ⟨tr, hd, hh⟩ := buyExecution_frame (e := e) vm f l
    show Keeps _ _ (buyExecution e vm f l).1.ledger
    rw [hh]
    exact Keeps.refl _ _
  | refundSurplus =>
    obtain ⟨tr, w, hd, hh⟩ := refundSurplus_frame (e := e) vm
    show Keeps _ _ (refundSurplus e vm).1.ledger
    rw [hh]
    exact Keeps.refl _ _
  | depositAsset cap dst s =>
    unfold step
    rw [thenSend_fst]
    exact depositAll_keeps (o := o) (dst := dst) (taken cap vm.holding) { vm with holding := remaining cap vm.holding }
  | transferAsset as dst s =>
    refine withOrigin_elim (P := fun r => Keeps (Takes e o) vm.ledger r.1.ledger) vm _ (Keeps.refl _ _) (fun o' ho => ?_)
    · rw [thenSend_fst]
      exact transferAll_keeps (h.1 _ ho) as vm
  | leave cap s =>
    unfold step
    rw [thenSend_fst]
    exact Keeps.refl _ _
  | transact k l a call =>
    refine withOrigin_elim (P := fun r => Keeps (Takes e o) vm.ledger r.1.ledger) vm _ (Keeps.refl _ _) (fun o' ho => ?_)
    · cases hc : convertOrigin e o' k with
      | none => exact Keeps.refl _ _
      | some lo => dsimp only; split <;> exact Keeps.refl _ _
  | queryResponse id q => exact withOrigin_elim (P := fun r => Keeps (Takes e o) vm.ledger r.1.ledger) vm _ (Keeps.refl _ _) (fun o' ho => Keeps.refl _ _)
  | subscribe => exact withOrigin_elim (P := fun r => Keeps (Takes e o) vm.ledger r.1.ledger) vm _ (Keeps.refl _ _) (fun o' ho => Keeps.refl _ _)
  | unsubscribe => exact withOrigin_elim (P := fun r => Keeps (Takes e o) vm.ledger r.1.ledger) vm _ (Keeps.refl _ _) (fun o' ho => Keeps.refl _ _)
  | setHandler is => exact Keeps.refl _ _
  | setAppendix is => exact Keeps.refl _ _
  | other b => cases b <;> exact Keeps.refl _ _

theorem drive_keeps {o : Loc} {log0 : List (LocalOrigin × Nat)} {n : Nat} {vm vm' : Vm} {is : List Instr}
    (h : Acts e o log0 vm) (hd : drive e n vm is = .ok vm') : Keeps (Takes e o) vm.ledger vm'.ledger :=
  (drive_inv (e := e) (fun v => Acts e o log0 v ∧ Keeps (Takes e o) vm.ledger v.ledger)
    (fun v i hv => ⟨step_acts v i hv.1, hv.2.trans (step_keeps v i hv.1)⟩)
    (fun v hh aa w hv => ⟨hv.1.congr rfl rfl, hv.2⟩) n vm is vm' ⟨h, Keeps.refl _ _⟩ hd).2

end Verif.Xcm
