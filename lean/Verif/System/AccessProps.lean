import Verif.System.AccessSpec
import Verif.System.OriginProps

/-!
# Who may make which extrinsic, exactly (C196)
-/

namespace Verif.System
open Verif
variable {c : Cfg} {s : State} {r : Roles} {o : Origin} {t : Tx}

theorem allowed_iff : Allowed r o t ↔
    (∃ w, o = .signed w ∧ (t.user = some w ∨ t.forAll = true ∨ (t.forAgents = true ∧ r.agent w = true) ∨
      (t.forAutomators = true ∧ r.automator w = true))) ∨
    (o = .response ∧ t.reply = true) ∨ (o = .runtime ∧ t.hook = true) ∨ (o = .root ∧ t.rootVote = true) ∨
    (Governance o ∧ (t.governed = true ∨ t.redeems = true)) := by
  constructor
  · intro h
    cases h with
    | user h => exact .inl ⟨_, rfl, .inl h⟩
    | all h => exact .inl ⟨_, rfl, .inr (.inl h)⟩
    | agent h hr => exact .inl ⟨_, rfl, .inr (.inr (.inl ⟨h, hr⟩))⟩
    | automator h hr => exact .inl ⟨_, rfl, .inr (.inr (.inr ⟨h, hr⟩))⟩
    | reply h => exact .inr (.inl ⟨rfl, h⟩)
    | hook h => exact .inr (.inr (.inl ⟨rfl, h⟩))
    | rootVote h => exact .inr (.inr (.inr (.inl ⟨rfl, h⟩)))
    | governance h hg => exact .inr (.inr (.inr (.inr ⟨hg, h⟩)))
  · rintro (⟨w, rfl, h | h | h | h⟩ | ⟨rfl, h⟩ | ⟨rfl, h⟩ | ⟨rfl, h⟩ | ⟨hg, h⟩)
    exacts [.user h, .all h, .agent h.1 h.2, .automator h.1 h.2, .reply h, .hook h, .rootVote h, .governance h hg]

theorem meets_anyone : meets r o .anyone = true ↔ ∃ w, o = .signed w := by cases o <;> simp [meets]
theorem meets_root : meets r o .root = true ↔ o = .root := by cases o <;> simp [meets]
theorem meets_runtime : meets r o .runtime = true ↔ o = .runtime := by cases o <;> simp [meets]
theorem meets_never : meets r o .never = true ↔ False := by cases o <;> simp [meets]
theorem meets_both {w : Nat} : meets r o (.signerOrGovernance w) = true ↔ o = .signed w ∨ Governance o := by
  rw [← governs_iff]; cases o <;> simp [meets]

theorem meets_iff : meets r o t.need = true ↔ Allowed r o t := by
  rw [allowed_iff]
  rcases t with k | _ | _
  · rcases k with k | k | k | k | k | k | k | k | _ | _
    · cases k <;> simp [Tx.need, needAmm, meets_signer, meets_governance, meets_never, Tx.user, Tx.forAll, Tx.forAgents,
        Tx.forAutomators, Tx.reply, Tx.hook, Tx.rootVote, Tx.inner, Tx.redeems, Tx.governed]
    · cases k <;> simp [Tx.need, needStable, meets_signer, meets_governance, meets_never, Tx.user, Tx.forAll, Tx.forAgents,
        Tx.forAutomators, Tx.reply, Tx.hook, Tx.rootVote, Tx.inner, Tx.redeems, Tx.governed]
    · cases k <;> simp [Tx.need, needFarming, meets_signer, meets_governance, Tx.user, Tx.forAll, Tx.forAgents,
        Tx.forAutomators, Tx.reply, Tx.hook, Tx.rootVote, Tx.inner, Tx.redeems, Tx.governed]
    · cases k <;> simp [Tx.need, needLoans, meets_signer, meets_governance, meets_both, Tx.user, Tx.forAll, Tx.forAgents,
        Tx.forAutomators, Tx.reply, Tx.hook, Tx.rootVote, Tx.inner, Tx.redeems, Tx.governed]
    · cases k <;> simp [Tx.need, needStreaming, meets_signer, meets_governance, meets_never, Tx.user, Tx.forAll,
        Tx.forAgents, Tx.forAutomators, Tx.reply, Tx.hook, Tx.rootVote, Tx.inner, Tx.redeems, Tx.governed]
    · cases k <;> simp [Tx.need, needStaking, meets_signer, meets_governance, meets_agent, meets_response, meets_runtime,
        Tx.user, Tx.forAll, Tx.forAgents, Tx.forAutomators, Tx.reply, Tx.hook, Tx.rootVote, Tx.inner, Tx.redeems,
        Tx.governed] <;> exact or_comm
    · cases k <;> simp [Tx.need, needCrowdloans, meets_signer, meets_governance, meets_automator, meets_response,
        meets_anyone, Tx.user, Tx.forAll, Tx.forAgents, Tx.forAutomators, Tx.reply, Tx.hook, Tx.rootVote, Tx.inner,
        Tx.redeems, Tx.governed] <;> exact or_comm
    · cases k with
      | materialize w _ _ _ _ =>
        cases w <;> simp [Tx.need, needBridge, meets_signer, meets_root, Tx.user, Tx.forAll, Tx.forAgents,
          Tx.forAutomators, Tx.reply, Tx.hook, Tx.rootVote, Tx.inner, Tx.redeems, Tx.governed]
      | _ => simp [Tx.need, needBridge, meets_signer, meets_governance, Tx.user, Tx.forAll, Tx.forAgents,
        Tx.forAutomators, Tx.reply, Tx.hook, Tx.rootVote, Tx.inner, Tx.redeems, Tx.governed]
    · simp [Tx.need, meets_runtime, Tx.user, Tx.forAll, Tx.forAgents, Tx.forAutomators, Tx.reply, Tx.hook, Tx.rootVote,
        Tx.inner, Tx.redeems, Tx.governed]
    · simp [Tx.need, meets_governance, Tx.user, Tx.forAll, Tx.forAgents, Tx.forAutomators, Tx.reply, Tx.hook, Tx.rootVote,
        Tx.inner, Tx.redeems, Tx.governed]
  · simp [Tx.need, meets_signer, Tx.user, Tx.forAll, Tx.forAgents, Tx.forAutomators, Tx.reply, Tx.hook, Tx.rootVote,
      Tx.inner, Tx.redeems, Tx.governed]
  · simp [Tx.need, meets_signer, Tx.user, Tx.forAll, Tx.forAgents, Tx.forAutomators, Tx.reply, Tx.hook, Tx.rootVote,
      Tx.inner, Tx.redeems, Tx.governed]

/-- **C196.**  Every extrinsic by everybody who may make it is carried out, and by nobody else: users make their own
operations with their signature and need no role; agents, automators, the relay chain, the runtime and governance make
theirs. -/
theorem C196_access : (Allowed r o t → dispatch r c s o t = t.run r c s) ∧
    (¬ Allowed r o t → dispatch r c s o t = .error .badOrigin) := by
  refine ⟨fun h => ?_, fun h => ?_⟩
  · simp only [dispatch, ensure_of (meets_iff.2 h), ok_bind]
  · rw [← meets_iff] at h
    simp only [dispatch, ensure]
    rw [if_neg h]; rfl

/-- **C196, users.**  What a user does for itself depends on no role, vote or list. -/
theorem C196_users {w : Nat} (h : t.user = some w) : dispatch r c s (.signed w) t = t.run r c s := C196_access.1 (.user h)

/-- **C196, users.**  Nobody else does it for the user, except that governance redeems deposits. -/
theorem C196_nobody_else {w : Nat} (h : t.user = some w) (ho : o ≠ .signed w)
    (hg : Governance o → t.redeems = false) : dispatch r c s o t = .error .badOrigin := by
  refine C196_access.2 (fun ha => ?_)
  rcases t with k | ⟨x, _, _, _⟩ | ⟨x, _, _, _⟩
  all_goals
    rw [← meets_iff] at ha
  · rcases k with k | k | k | k | k | k | k | k | _ | _
    case bridge =>
      cases k with
      | materialize x _ _ _ _ =>
        cases x with
        | none => simp [Tx.user] at h
        | some x => simp only [Tx.user, Option.some.injEq] at h; subst h; exact ho (meets_signer.1 ha)
      | teleport _ _ _ _ _ => simp only [Tx.user, Option.some.injEq] at h; subst h; exact ho (meets_signer.1 ha)
      | _ => simp [Tx.user] at h
    case bridgeBlock => simp [Tx.user] at h
    case bridgeMembers => simp [Tx.user] at h
    all_goals (cases k <;> simp [Tx.user] at h <;> subst h)
    all_goals first
      | exact ho (meets_signer.1 ha)
      | (rcases meets_both.1 ha with e | e
         · exact ho e
         · simp [Tx.redeems] at hg; exact hg e)
  · simp only [Tx.user, Option.some.injEq] at h; subst h; exact ho (meets_signer.1 ha)
  · simp only [Tx.user, Option.some.injEq] at h; subst h; exact ho (meets_signer.1 ha)

/- A trader is served without any role; nobody else, not even root, trades for it; an automator lends what a
contributor redeems, the contributor does not. -/
example : exSwap.user = some 8 ∧ exR.agent 8 = false ∧ exR.automator 8 = false ∧
    (∃ s', dispatch exR exC ex1 (.signed 8) exSwap = .ok s' ∧ s'.ledger.bal 1 8 + 1000 = ex1.ledger.bal 1 8) ∧
    dispatch exR exC ex1 .root exSwap = .error .badOrigin :=
  ⟨rfl, rfl, rfl, by
    rw [C196_users (w := 8) rfl]
    have h : okAnd (exSwap.run exR exC ex1) (fun s => decide (s.ledger.bal 1 8 + 1000 = ex1.ledger.bal 1 8)) = true := by
      decide +kernel
    obtain ⟨s', e, h⟩ := (okAnd_iff ..).1 h
    exact ⟨s', e, of_decide_eq_true h⟩, C196_nobody_else (w := 8) rfl (by simp) (fun _ => rfl)⟩
example : Allowed exR (.signed 21) (.call exLend) ∧ ¬ Allowed exR (.signed 7) (.call exLend) ∧
    Allowed exR (.council 3 4) (.call exLend) ∧ ¬ Allowed exR (.council 2 4) (.call exLend) := by
  refine ⟨.automator rfl rfl, ?_, .governance (.inl rfl) ?_, ?_⟩
  · rw [← meets_iff]; decide
  · rw [← governs_iff]; decide
  · rw [← meets_iff]; decide

end Verif.System
