import Verif.Helper.Props

/-!
# C247: the event of the cross-chain helper

`updateFeeE` is `update_xcm_weight_fee` (Helper/Model.lean) that also returns the deposited event, which carries the new
setting but not the kind of request it is for.  The pallet deposits no other event.
-/

namespace Verif.Helper
open Verif

/-- `Event` (`pallets/xcm-helper/src/lib.rs:106-109`): the setting alone. -/
inductive Ann where
  | feeUpdated (v : WeightFee)
deriving DecidableEq

/-- `update_xcm_weight_fee` with its event (`pallets/xcm-helper/src/lib.rs:144-160`, the only extrinsic). -/
def updateFeeE (s : State) (k : XKey) (v : WeightFee) : R (State × List Ann) := do
  let s ← updateFee s k v
  pure (s, [.feeUpdated v])

/-! ## Specification -/

/-- Histories with the events of the pallet, in order: settings, requests, payments of fees, and the rest of the chain. -/
inductive Told (c : Cfg) : State → List Ann → Prop
  | init (s : State) (hs : s.sent = []) (hf : s.fees = fun _ => defaultFee) : Told c s []
  | fee {s s' : State} {es fs : List Ann} (h : Told c s es) (k : XKey) (v : WeightFee)
      (hk : updateFeeE s k v = .ok (s', fs)) : Told c s' (es ++ fs)
  | op {s s' : State} {es : List Ann} (h : Told c s es) (o : Op) (notify now q : Nat)
      (hk : doOp c s o notify now = .ok (s', q)) : Told c s' es
  | add {s s' : State} {es : List Ann} (h : Told c s es) (p n : Nat) (hk : addFees c s p n = .ok s') : Told c s' es
  | env {s s' : State} {es : List Ann} (h : Told c s es) (hk : Env s s') : Told c s' es

/-- The full English claim: the events tell the setting of every kind of request, so that after histories with the same events
the settings are the same. -/
def C247_statement (c : Cfg) : Prop := ∀ (s s' : State) (es : List Ann), Told c s es → Told c s' es → s.fees = s'.fees

/-! ## Proofs -/

/-- **C247** (additional) The event is additional. -/
theorem C247_same (s : State) (k : XKey) (v : WeightFee) : Prod.fst <$> updateFeeE s k v = updateFee s k v := by
  simp only [updateFeeE, map_bind, map_pure, bind_pure]

/-- **C247** (the setting) An accepted call announces exactly the setting that is in force for its kind of request afterwards;
the settings of all other kinds stay. -/
theorem C247_setting {s s' : State} {k : XKey} {v : WeightFee} {es : List Ann} (h : updateFeeE s k v = .ok (s', es)) :
    es = [.feeUpdated (s'.fees k)] ∧ ∀ j, j ≠ k → s'.fees j = s.fees j := by
  simp only [updateFeeE, bind_ok_iff, pure_ok_iff, Prod.mk.injEq] at h
  obtain ⟨t, ht, rfl, rfl⟩ := h
  obtain ⟨-, -, rfl⟩ := (C162_setting _ _ _ _).1 ht
  refine ⟨?_, fun j hj => upd_of_ne _ _ hj⟩
  show _ = [Ann.feeUpdated (upd s.fees k v k)]
  rw [upd_same]

theorem Told.reach {c : Cfg} {s : State} {es : List Ann} (h : Told c s es) : Reach c s := by
  induction h with
  | init s hs hf => exact .init hs hf
  | fee h k v hk ih =>
    simp only [updateFeeE, bind_ok_iff, pure_ok_iff, Prod.mk.injEq] at hk
    obtain ⟨t, ht, rfl, -⟩ := hk
    exact .step ih (.fee ht)
  | op h o n t q hk ih => exact .step ih (.op hk)
  | add h p n hk ih => exact .step ih (.add hk)
  | env h hk ih => exact .env ih hk

/-- **C247** (announced, what does hold of histories) Every setting in force is either the initial one or has been announced; the
last one announced is in force for some kind of request; and an announced setting has neither zero fee nor zero weight.
Missing: for which kind of request (`C247_refuted`). -/
theorem C247_announced_partial {c : Cfg} {s : State} {es : List Ann} (h : Told c s es) :
    (∀ k, s.fees k = defaultFee ∨ .feeUpdated (s.fees k) ∈ es) ∧
    (∀ v, es.getLast? = some (.feeUpdated v) → ∃ k, s.fees k = v) ∧
    ∀ v, .feeUpdated v ∈ es → v.fee ≠ 0 ∧ v.weight ≠ ⟨0, 0⟩ := by
  have frame : ∀ {s s' : State} {es : List Ann}, s'.fees = s.fees →
      ((∀ k, s.fees k = defaultFee ∨ .feeUpdated (s.fees k) ∈ es) ∧
        (∀ v, es.getLast? = some (.feeUpdated v) → ∃ k, s.fees k = v) ∧
        ∀ v, .feeUpdated v ∈ es → v.fee ≠ 0 ∧ v.weight ≠ ⟨0, 0⟩) →
      (∀ k, s'.fees k = defaultFee ∨ .feeUpdated (s'.fees k) ∈ es) ∧
        (∀ v, es.getLast? = some (.feeUpdated v) → ∃ k, s'.fees k = v) ∧
        ∀ v, .feeUpdated v ∈ es → v.fee ≠ 0 ∧ v.weight ≠ ⟨0, 0⟩ := by
    intro s s' es e h
    rw [e]; exact h
  induction h with
  | init s hs hf =>
    refine ⟨fun k => .inl (by rw [hf]), fun v hv => by simp at hv, fun v hv => by simp at hv⟩
  | @fee s s' es fs h k v hk ih =>
    obtain ⟨i1, i2, i3⟩ := ih
    have hr : Reach c s' := (Told.fee h k v hk).reach
    obtain ⟨rfl, h2⟩ := C247_setting hk
    refine ⟨fun j => ?_, fun w hw => ⟨k, ?_⟩, fun w hw => ?_⟩
    · by_cases hj : j = k
      · subst hj; exact .inr (by simp)
      · rw [h2 j hj]
        exact (i1 j).imp_right fun e => List.mem_append_left _ e
    · rw [List.getLast?_concat] at hw
      exact Ann.feeUpdated.inj (Option.some.inj hw)
    · rcases List.mem_append.1 hw with hw | hw
      · exact i3 w hw
      · rw [List.mem_singleton, Ann.feeUpdated.injEq] at hw
        rw [hw]
        exact C162_fees c s' hr k
  | @op s s' es h o notify now q hk ih =>
    refine frame ?_ ih
    obtain ⟨-, -, m, s1, -, rfl, -, -, hf, -⟩ := (C161_request c _ _ o _ _ notify now q (means_calls o)).1 hk
    exact hf
  | add h p n hk ih =>
    refine frame ?_ ih
    unfold addFees at hk
    simp only [bind_ok_iff, pure_ok_iff] at hk
    obtain ⟨l, hl, rfl⟩ := hk
    rfl
  | env h hk ih => exact frame hk.1 ih

/-- Every history has its events. -/
theorem C247_every {c : Cfg} {s : State} (h : Reach c s) : ∃ es, Told c s es := by
  induction h with
  | init h1 h2 => exact ⟨[], .init _ h1 h2⟩
  | step _ hs ih =>
    obtain ⟨es, ih⟩ := ih
    cases hs with
    | op h => exact ⟨es, .op ih _ _ _ _ h⟩
    | @fee k v h =>
      refine ⟨es ++ [.feeUpdated v], .fee ih k v ?_⟩
      simp only [updateFeeE, h, ok_bind]
      rfl
    | add h => exact ⟨es, .add ih _ _ h⟩
  | env _ he ih =>
    obtain ⟨es, ih⟩ := ih
    exact ⟨es, .env ih he⟩

/-- C247 is FALSE of the code: setting the fee of bonding and setting the fee of nominating deposit the same event. -/
theorem C247_refuted : ¬ C247_statement exCfg := by
  intro h
  have i0 : Told exCfg exS [] := .init _ rfl rfl
  obtain ⟨s1, h1⟩ : ∃ s1, updateFeeE exS .bond ⟨⟨1, 0⟩, 9⟩ = .ok (s1, [.feeUpdated ⟨⟨1, 0⟩, 9⟩]) := ⟨_, rfl⟩
  obtain ⟨s2, h2⟩ : ∃ s2, updateFeeE exS .nominate ⟨⟨1, 0⟩, 9⟩ = .ok (s2, [.feeUpdated ⟨⟨1, 0⟩, 9⟩]) := ⟨_, rfl⟩
  have e := h s1 s2 _ (.fee i0 _ _ h1) (.fee i0 _ _ h2)
  have a1 := (C247_setting h1).1
  have a2 := (C247_setting h2).2 .bond (by decide)
  rw [← e] at a2
  rw [a2] at a1
  simp only [List.cons.injEq, Ann.feeUpdated.injEq, and_true] at a1
  have : (9 : Nat) = defaultFee.fee := congrArg WeightFee.fee a1
  exact absurd this (by decide)

end Verif.Helper
