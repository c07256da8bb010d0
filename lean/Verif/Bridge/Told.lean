import Verif.Bridge.Props2

set_option linter.unusedSimpArgs false

/-!
# C242: the events of the bridge tell what happened

`execE` is `exec` (Bridge/Model.lean) that also returns the deposited events, all sixteen kinds with all their fields;
`C242_same` says that the two agree.  Events of other pallets (`pallet_assets` deposits its own for every transfer) are not modelled.
-/

namespace Verif.Bridge
open Verif

/-- `Event` (`pallets/bridge/src/lib.rs:179-282`), fields in the order of the source. -/
inductive Ann where
  | threshold (n : Nat)
  | chainRegistered (ch : Nat)
  | chainRemoved (ch : Nat)
  | tokenRegistered (asset id : Nat) (external : Bool) (fee : Nat) (enable : Bool) (outCap outAmount inCap inAmount : Nat)
  | tokenRemoved (asset id : Nat)
  | fee (id fee : Nat)
  | status (id : Nat) (enable : Bool)
  | cap (id : Nat) (d : Dir) (cap : Nat)
  | cleaned (id : Nat) (d : Dir)
  | teleported (who ch nonce id dst amount fee : Nat)
  | initialized (who ch nonce id dest amount : Nat)
  | minted (ch nonce id dest amount : Nat)
  | voteFor (ch nonce who id dest amount : Nat)
  | voteAgainst (ch nonce who id dest amount : Nat)
  | approved (ch nonce : Nat)
  | rejected (ch nonce : Nat)
deriving DecidableEq

/-- `teleport` with its event (`pallets/bridge/src/lib.rs:532-565, 904-937`): the amount after deduction of the fee. -/
def teleportE (c : Cfg) (s : State) (who chain tok dst amount : Nat) : R (State × List Ann) := do
  ensure ((s.nonces chain).isSome) .chainIdNotRegistered
  ensure ((s.assetIds tok).isSome) .bridgeTokenNotRegistered
  ensure (0 < amount) .bridgingAmountTooLow
  let asset := s.assetId tok
  let t := s.token asset
  ensure (t.enable = true) .bridgeTokenDisabled
  let s ← updateCap s asset amount .out
  let l ← takeIn c s.ledger t asset who amount
  let actual ← csub .bridgingAmountTooLow amount t.fee
  let nonce := (s.nonces chain).getD 0 + 1
  ensure (nonce ≤ maxU64) .panic
  pure ({ s with
    ledger := l,
    nonces := upd s.nonces chain (some nonce),
    events := .teleported who chain nonce tok dst actual t.fee :: s.events },
    [Ann.teleported who chain nonce tok dst actual t.fee])

/-- `resolve_proposal` with the events of `execute_materialize` and `cancel_materialize`
(`pallets/bridge/src/lib.rs:941-963, 976, 998-1004, 1012`). -/
def resolveE (c : Cfg) (s : State) (chain nonce : Nat) (call : MCall) : R (State × List Ann) := do
  let p ← okOr (s.props chain (nonce, call)) .proposalDoesNotExist
  ensure (p.status = .initiated) .proposalAlreadyComplete
  ensure (s.now < p.expiry) .proposalExpired
  let r := p.tryComplete s.threshold s.members.length
  let s := setProp s chain nonce call r.1
  match r.2 with
  | .approved => do
    let s ← execute c s chain nonce call
    pure (s, [Ann.approved chain nonce, Ann.minted chain nonce call.token call.dest call.amount])
  | .rejected => do
    let s ← cancelMat s chain nonce
    pure (s, [Ann.rejected chain nonce])
  | .initiated => pure (s, [])

/-- The event of a new proposal, lib.rs:603-611. -/
def openAnn (s : State) (w chain nonce : Nat) (call : MCall) : List Ann :=
  match s.props chain (nonce, call) with
  | some _ => []
  | none => [.initialized w chain nonce call.token call.dest call.amount]

/-- The event of a vote, lib.rs:624-644. -/
def voteAnn (chain nonce w : Nat) (call : MCall) (favour : Bool) : Ann :=
  if favour then .voteFor chain nonce w call.token call.dest call.amount
  else .voteAgainst chain nonce w call.token call.dest call.amount

/-- `materialize` with its events (`pallets/bridge/src/lib.rs:581-649`). -/
def materializeE (c : Cfg) (s : State) (origin : Option Nat) (chain nonce : Nat) (call : MCall)
    (favour : Bool) : R (State × List Ann) := do
  let w ← relayMember c s origin
  ensure ((s.nonces chain).isSome) .chainIdNotRegistered
  ensure (hasBridged s chain nonce = false) .proposalAlreadyComplete
  materializeAllowed s call.token call.amount
  let p ← openProp c s chain nonce call
  ensure (p.status = .initiated) .proposalAlreadyComplete
  ensure (s.now < p.expiry) .proposalExpired
  ensure (p.hasVoted w = false) .memberAlreadyVoted
  let (s', es) ← resolveE c (castVote s p chain nonce w call favour) chain nonce call
  pure (s', openAnn s w chain nonce call ++ voteAnn chain nonce w call favour :: es)

/-- Dispatch of a call, with the events it deposits (`pallets/bridge/src/lib.rs:348, 367, 396-406, 425, 443, 462, 485, 511`). -/
def execE (c : Cfg) (s : State) : Call → R (State × List Ann)
  | .registerChain ch => do
    let s ← registerChain c s ch
    pure (s, [Ann.chainRegistered ch])
  | .unregisterChain ch => do
    let s ← unregisterChain s ch
    pure (s, [Ann.chainRemoved ch])
  | .registerToken a t => do
    let s ← registerToken s a t
    pure (s, [Ann.tokenRegistered a t.id t.external t.fee t.enable t.outCap t.outAmount t.inCap t.inAmount])
  | .unregisterToken t => do
    let s' ← unregisterToken s t
    pure (s', [Ann.tokenRemoved (s.assetId t) t])
  | .setFee t f => do
    let s ← setFee s t f
    pure (s, [Ann.fee t f])
  | .setStatus t b => do
    let s ← setStatus s t b
    pure (s, [Ann.status t b])
  | .setCap t d x => do
    let s ← setCap s t d x
    pure (s, [Ann.cap t d x])
  | .cleanCap t d => do
    let s ← cleanCap s t d
    pure (s, [Ann.cleaned t d])
  | .teleport w ch t d m => teleportE c s w ch t d m
  | .materialize o ch n call f => materializeE c s o ch n call f

/-- A membership change with its event: the new threshold, if it is valid (`pallets/bridge/src/lib.rs:796-806`). -/
def changeMembersE (c : Cfg) (s : State) (ms : List Nat) : State × List Ann :=
  match changeThreshold c { s with members := ms } with
  | .ok s' => (s', [.threshold s'.threshold])
  | .error _ => ({ s with members := ms }, [])

/-! ## Specification -/

/-- The observer's notes. -/
structure Notes where
  /-- the counter of each registered chain -/
  nonces : Nat → Option Nat
  /-- asset and settings of each registered bridge token -/
  lines : Nat → Option (Nat × Token)
  threshold : Nat
  /-- the nonces resolved, by chain -/
  done : Nat → Nat → Prop
  /-- votes and status of each proposal -/
  props : Nat → Nat × MCall → List Nat × List Nat × Status
  /-- the proposal last voted on -/
  last : Nat × MCall

/-- Amend the settings of a token. -/
def Notes.amend (n : Notes) (t : Nat) (f : Token → Token) : Notes :=
  { n with lines := upd n.lines t ((n.lines t).map (fun x => (x.1, f x.2))) }

/-- Amend a proposal. -/
def Notes.setProp (n : Notes) (ch : Nat) (k : Nat × MCall) (v : List Nat × List Nat × Status) : Notes :=
  { n with props := upd n.props ch (upd (n.props ch) k v), last := k }

/-- Mark a nonce as resolved, with the outcome of the proposal last voted on. -/
def Notes.close (n : Notes) (ch m : Nat) (st : Status) : Notes :=
  { n.setProp ch n.last ((n.props ch n.last).1, (n.props ch n.last).2.1, st) with
    done := upd n.done ch (fun k => n.done ch k ∨ k = m) }

/-- An observer who sees only the events, and takes them at their word. -/
def Notes.see (n : Notes) : Ann → Notes
  | .threshold t => { n with threshold := t }
  | .chainRegistered ch => { n with nonces := upd n.nonces ch (some 0), done := upd n.done ch (fun _ => False) }
  | .chainRemoved ch => { n with nonces := upd n.nonces ch none }
  | .tokenRegistered a id ex f e oc oa ic ia => { n with lines := upd n.lines id (some (a, ⟨id, ex, f, e, oc, oa, ic, ia⟩)) }
  | .tokenRemoved _ id => { n with lines := upd n.lines id none }
  | .fee id f => n.amend id (fun t => { t with fee := f })
  | .status id b => n.amend id (fun t => { t with enable := b })
  | .cap id .out x => n.amend id (fun t => { t with outCap := x })
  | .cap id .inn x => n.amend id (fun t => { t with inCap := x })
  | .cleaned id .out => n.amend id (fun t => { t with outAmount := 0 })
  | .cleaned id .inn => n.amend id (fun t => { t with inAmount := 0 })
  | .teleported _ ch k id _ m f =>
    { n.amend id (fun t => { t with outAmount := t.outAmount + (m + f) }) with nonces := upd n.nonces ch (some k) }
  | .initialized _ ch k id d m => n.setProp ch (k, ⟨id, d, m⟩) ([], [], .initiated)
  | .voteFor ch k w id d m => n.setProp ch (k, ⟨id, d, m⟩)
      ((n.props ch (k, ⟨id, d, m⟩)).1 ++ [w], (n.props ch (k, ⟨id, d, m⟩)).2.1, .initiated)
  | .voteAgainst ch k w id d m => n.setProp ch (k, ⟨id, d, m⟩)
      ((n.props ch (k, ⟨id, d, m⟩)).1, (n.props ch (k, ⟨id, d, m⟩)).2.1 ++ [w], .initiated)
  | .approved ch k => n.close ch k .approved
  | .rejected ch k => n.close ch k .rejected
  | .minted _ _ id _ m => n.amend id (fun t => { t with inAmount := t.inAmount + m })

/-- The notes at the start. -/
def Notes.blank : Notes := ⟨fun _ => none, fun _ => none, 1, fun _ _ => False, fun _ _ => ([], [], .initiated), (0, ⟨0, 0, 0⟩)⟩

/-- The notes after a list of events. -/
def Notes.after (es : List Ann) : Notes := es.foldl Notes.see Notes.blank

/-- The notes are right in a state. -/
structure Notes.Good (n : Notes) (s : State) : Prop where
  nonces : n.nonces = s.nonces
  lines : ∀ t a tok, n.lines t = some (a, tok) ↔ s.assetIds t = some a ∧ s.tokens a = some tok
  threshold : n.threshold = s.threshold
  done : ∀ ch, (s.nonces ch).isSome → ∀ k, n.done ch k ↔ hasBridged s ch k = true
  props : ∀ ch k p, s.props ch k = some p → n.props ch k = (p.votesFor, p.votesAgainst, p.status)

/-- Histories with the events of all calls and membership changes, in order. -/
inductive Told (c : Cfg) : State → List Ann → Prop
  | init (l : Ledger) (ms : List Nat) (now : Nat) (hw : l.WF) :
      Told c ⟨l, 1, fun _ => none, fun _ => none, fun _ => none, fun _ => none, fun _ _ => none, ms, now, []⟩ []
  | call {s s' : State} {es fs : List Ann} (h : Told c s es) (x : Call) (hx : execE c s x = .ok (s', fs)) : Told c s' (es ++ fs)
  | block {s : State} {es : List Ann} (h : Told c s es) : Told c (newBlock s) es
  | members {s : State} {es : List Ann} (h : Told c s es) (ms : List Nat) :
      Told c (changeMembersE c s ms).1 (es ++ (changeMembersE c s ms).2)
  | env {s s' : State} {es : List Ann} (h : Told c s es) (e : Env s s') : Told c s' es

/-- How much of asset `a` an event says `w` has paid, in a state. -/
def Ann.paid (s : State) (a w : Nat) : Ann → Nat
  | .teleported who _ _ id _ m f => if s.assetIds id = some a ∧ w = who then m + f else 0
  | _ => 0

/-- How much of asset `a` an event says `w` has received, in a state. -/
def Ann.got (s : State) (a w : Nat) : Ann → Nat
  | .minted _ _ id d m => if s.assetIds id = some a ∧ w = d then m else 0
  | _ => 0

/-- What else an event says: `s` is the state before the call, `s'` the one after it. -/
def Ann.holds (s s' : State) : Ann → Prop
  | .tokenRemoved a id => s.assetIds id = some a
  | .initialized _ ch k id d m => s.props ch (k, ⟨id, d, m⟩) = none
  | .voteFor ch k w id d m => ∃ p, s'.props ch (k, ⟨id, d, m⟩) = some p ∧ w ∈ p.votesFor
  | .voteAgainst ch k w id d m => ∃ p, s'.props ch (k, ⟨id, d, m⟩) = some p ∧ w ∈ p.votesAgainst
  | .approved ch k => hasBridged s ch k = false ∧ hasBridged s' ch k = true
  | .rejected ch k => hasBridged s ch k = false ∧ hasBridged s' ch k = true
  | .minted ch k id d m => ∃ p, s'.props ch (k, ⟨id, d, m⟩) = some p ∧ p.status = .approved
  | .teleported _ ch k id _ _ f => s'.nonces ch = some k ∧ ∃ a tok, s.assetIds id = some a ∧ s.tokens a = some tok ∧ tok.fee = f
  | _ => True

/-! ## Proofs -/

variable {c : Cfg} {s s' : State}

theorem fst_pure {α : Type} (x : R α) (es : List Ann) : Prod.fst <$> (do let s ← x; pure (s, es)) = x := by
  cases x <;> rfl

theorem resolveE_same (c : Cfg) (s : State) (ch n : Nat) (call : MCall) :
    Prod.fst <$> resolveE c s ch n call = resolve c s ch n call := by
  simp only [resolveE, resolve, map_bind, map_pure]
  refine bind_congr fun p => bind_congr fun _ => bind_congr fun _ => ?_
  cases (p.tryComplete s.threshold s.members.length).2 with
  | initiated => rfl
  | approved => exact fst_pure _ _
  | rejected => exact fst_pure _ _

/-- **C242** (same) The events are additional: acceptance, errors and the new state are those of `exec`. -/
theorem C242_same (c : Cfg) (s : State) (x : Call) : Prod.fst <$> execE c s x = exec c s x := by
  cases x with
  | teleport w ch t d m => simp only [execE, exec, teleportE, teleport, map_bind, map_pure]
  | materialize o ch n call f =>
    simp only [execE, exec, materializeE, materialize, map_bind, map_pure]
    refine bind_congr fun w => bind_congr fun _ => bind_congr fun _ => bind_congr fun _ => bind_congr fun p =>
      bind_congr fun _ => bind_congr fun _ => bind_congr fun _ => ?_
    rw [← resolveE_same]
    cases resolveE c (castVote s p ch n w call f) ch n call <;> rfl
  | _ => exact fst_pure _ _

theorem changeMembersE_same (c : Cfg) (s : State) (ms : List Nat) : (changeMembersE c s ms).1 = changeMembers c s ms := by
  unfold changeMembersE changeMembers
  cases changeThreshold c { s with members := ms } <;> rfl

theorem Told.reach {es : List Ann} (h : Told c s es) : Reach c s := by
  induction h with
  | init l ms now hw => exact .init l ms now hw
  | call h x hx ih => exact .step ih (.call x (by rw [← C242_same, hx]; rfl))
  | block h ih => exact .step ih .block
  | members h ms ih => rw [changeMembersE_same]; exact .step ih (.members ms)
  | env h e ih => exact .step ih (.env e)

/-- A teleport and its event. -/
theorem teleportE_ok {w ch t d m : Nat} {es : List Ann} (h : teleportE c s w ch t d m = .ok (s', es)) :
    teleport c s w ch t d m = .ok s' ∧ ∃ k, s.nonces ch = some k ∧ (s.token (s.assetId t)).fee ≤ m ∧
      es = [.teleported w ch (k + 1) t d (m - (s.token (s.assetId t)).fee) (s.token (s.assetId t)).fee] := by
  refine ⟨?_, ?_⟩
  · have := C242_same c s (.teleport w ch t d m)
    rw [show execE c s (.teleport w ch t d m) = _ from h] at this
    exact this.symm
  · unfold teleportE at h
    simp only [bind_ok_iff, ensure_ok_iff, pure_ok_iff, exists_const, csub_ok_iff, Prod.mk.injEq] at h
    obtain ⟨h1, h2, h3, h4, s1, hs1, l, hl, x, ⟨h5, rfl⟩, h6, rfl, rfl⟩ := h
    obtain ⟨h7, rfl⟩ := updateCap_out hs1
    obtain ⟨k, hk⟩ := Option.isSome_iff_exists.1 h1
    exact ⟨k, hk, h5, by simp only [hk, Option.getD_some]⟩

/-- A vote and its events. -/
theorem materializeE_ok {o : Option Nat} {ch n : Nat} {call : MCall} {f : Bool} {es : List Ann}
    (h : materializeE c s o ch n call f = .ok (s', es)) :
    ∃ w p, (s.nonces ch).isSome ∧ hasBridged s ch n = false ∧ openProp c s ch n call = .ok p ∧ p.status = .initiated ∧
      ((execute c (afterVote s p ch n w call f .approved) ch n call = .ok s' ∧
          es = openAnn s w ch n call ++ [voteAnn ch n w call f, .approved ch n, .minted ch n call.token call.dest call.amount]) ∨
        (cancelMat (afterVote s p ch n w call f .rejected) ch n = .ok s' ∧
          es = openAnn s w ch n call ++ [voteAnn ch n w call f, .rejected ch n]) ∨
        (s' = afterVote s p ch n w call f .initiated ∧ es = openAnn s w ch n call ++ [voteAnn ch n w call f])) := by
  unfold materializeE at h
  simp only [bind_ok_iff, ensure_ok_iff, exists_const, Prod.exists, pure_ok_iff, Prod.mk.injEq] at h
  obtain ⟨w, hw, h1, h2, u, _, p, hp, h3, h4, h5, s1, fs, h6, rfl, rfl⟩ := h
  refine ⟨w, p, h1, h2, hp, h3, ?_⟩
  rw [castVote_eq] at h6
  unfold resolveE at h6
  simp only [bind_ok_iff, ensure_ok_iff, okOr_ok_iff, exists_const, setProp, upd_same, Option.some.injEq] at h6
  obtain ⟨q, rfl, h6⟩ := h6
  obtain ⟨_, _, _, h7⟩ := h6
  unfold Proposal.tryComplete at h7
  have hst : (voted p w f).status = .initiated := by unfold voted; split_ifs <;> exact h3
  split_ifs at h7 with h8 h9
  · simp only [bind_ok_iff, pure_ok_iff, Prod.mk.injEq] at h7
    obtain ⟨t, ht, rfl, rfl⟩ := h7
    exact .inl ⟨by simpa [afterVote, setProp] using ht, rfl⟩
  · simp only [bind_ok_iff, pure_ok_iff, Prod.mk.injEq] at h7
    obtain ⟨t, ht, rfl, rfl⟩ := h7
    exact .inr (.inl ⟨by simpa [afterVote, setProp] using ht, rfl⟩)
  · simp only [pure_ok_iff, Prod.mk.injEq] at h7
    obtain ⟨rfl, rfl⟩ := h7
    refine .inr (.inr ⟨?_, rfl⟩)
    have : ({ voted p w f with status := Status.initiated } : Proposal) = voted p w f := by rw [← hst]
    simp [afterVote, setProp, this]

/-- Rewriting the settings of one token. -/
theorem lines_amend (hb : ∀ t a, s.assetIds t = some a ↔ ∃ tok, s.tokens a = some tok ∧ tok.id = t) {n : Notes} (h : ∀ t a tok, n.lines t = some (a, tok) ↔ s.assetIds t = some a ∧ s.tokens a = some tok)
    {id : Nat} (hs : (s.assetIds id).isSome) (f : Token → Token) (t a : Nat) (tok : Token) :
    (n.amend id f).lines t = some (a, tok) ↔
      s.assetIds t = some a ∧ upd s.tokens (s.assetId id) (some (f (s.token (s.assetId id)))) a = some tok := by
  obtain ⟨k, h1, h2, h3, h4⟩ : ∃ tok, s.assetIds id = some (s.assetId id) ∧ s.tokens (s.assetId id) = some tok ∧ tok.id = id ∧
      s.token (s.assetId id) = tok := by
    obtain ⟨a, ha⟩ := Option.isSome_iff_exists.1 hs
    have e : s.assetId id = a := by simp [State.assetId, ha]
    obtain ⟨tok, h1, h2⟩ := (hb id a).1 ha
    rw [e]
    exact ⟨tok, ha, h1, h2, by simp [State.token, h1]⟩
  have hl := (h id _ _).2 ⟨h1, h2⟩
  rw [h4]
  show upd n.lines id _ t = _ ↔ _
  by_cases e : t = id
  · subst e
    rw [upd_same, hl, h1]
    simp only [Option.map_some, Option.some.injEq, Prod.mk.injEq]
    constructor
    · rintro ⟨rfl, rfl⟩; exact ⟨rfl, upd_same _ _ _⟩
    · rintro ⟨rfl, q⟩; rw [upd_same] at q; exact ⟨rfl, Option.some.inj q⟩
  · rw [upd_of_ne _ _ e, h]
    refine and_congr_right fun ha => ?_
    have : a ≠ s.assetId id := by
      intro q
      obtain ⟨k', g1, g2⟩ := (hb t a).1 ha
      rw [q, h2] at g1
      cases g1
      exact e (g2.symm.trans h3)
    rw [upd_of_ne _ _ this]

theorem Notes.Good.amend (hb : ∀ t a, s.assetIds t = some a ↔ ∃ tok, s.tokens a = some tok ∧ tok.id = t)
    {n : Notes} (h : n.Good s) {id : Nat} (hs : (s.assetIds id).isSome) {f : Token → Token}
    (h1 : s'.nonces = s.nonces) (h2 : s'.assetIds = s.assetIds) (h3 : s'.threshold = s.threshold) (h4 : s'.registry = s.registry)
    (h5 : s'.props = s.props) (h6 : s'.tokens = upd s.tokens (s.assetId id) (some (f (s.token (s.assetId id))))) :
    (n.amend id f).Good s' := by
  refine ⟨h.nonces.trans h1.symm, ?_, h.threshold.trans h3.symm, ?_, by rw [h5]; exact h.props⟩
  · intro t a tok
    rw [h2, h6]
    exact lines_amend hb h.lines hs f t a tok
  · rw [h1]
    unfold hasBridged
    rw [h4]
    exact h.done

/-- A resolved nonce: exactly it is added to those resolved. -/
theorem hasBridged_add (hi : Inv c s) {ch n : Nat} (hn : (s.nonces ch).isSome) (hb : hasBridged s ch n = false)
    {reg' : Option (List (Nat × Nat))}
    (hr : (s.registry ch = none ∧ reg' = none) ∨ ∃ reg r, s.registry ch = some reg ∧ addNonce reg n = .ok r ∧ reg' = some r)
    (h : s'.registry = upd s.registry ch reg') (i k : Nat) :
    hasBridged s' i k = true ↔ hasBridged s i k = true ∨ (i = ch ∧ k = n) := by
  rcases hr with ⟨h0, _⟩ | ⟨reg, r, h0, ha, rfl⟩
  · rw [(hi.dom ch).2 h0] at hn; cases hn
  · have hnc : ¬ Cov reg n := by
      rw [← hasBridged_iff h0, hb]; simp
    have hsp := (addNonce_spec (hi.reg ch reg h0).1 hnc ha).2
    by_cases e : i = ch
    · subst e
      rw [hasBridged_iff (s := s') (reg := r) (by rw [h, upd_same]), hasBridged_iff h0, hsp]
      simp
    · have : s'.registry i = s.registry i := by rw [h, upd_of_ne _ _ e]
      unfold hasBridged
      rw [this]
      simp [e]

theorem Notes.Good.vote {m : Notes} (h : m.Good s) {p : Proposal} {ch n w : Nat} {call : MCall} {f : Bool}
    (hp : openProp c s ch n call = .ok p) :
    ((openAnn s w ch n call ++ [voteAnn ch n w call f]).foldl Notes.see m).Good (afterVote s p ch n w call f .initiated) ∧
    ((openAnn s w ch n call ++ [voteAnn ch n w call f]).foldl Notes.see m).last = (n, call) := by
  obtain ⟨tk, ds, am⟩ := call
  have hset : ∀ (m : Notes) (v : List Nat × List Nat × Status), m.Good s →
      v = ((voted p w f).votesFor, (voted p w f).votesAgainst, .initiated) →
      (m.setProp ch (n, ⟨tk, ds, am⟩) v).Good (afterVote s p ch n w ⟨tk, ds, am⟩ f .initiated) := by
    intro m v h hv
    refine ⟨h.nonces, h.lines, h.threshold, h.done, ?_⟩
    intro i k q hq
    replace hq : upd s.props ch (upd (s.props ch) (n, ⟨tk, ds, am⟩) (some { voted p w f with status := .initiated })) i k = some q := hq
    show upd m.props ch (upd (m.props ch) (n, ⟨tk, ds, am⟩) v) i k = _
    by_cases e : i = ch
    · subst e
      rw [upd_same] at hq ⊢
      by_cases e2 : k = (n, ⟨tk, ds, am⟩)
      · subst e2
        rw [upd_same] at hq ⊢
        cases hq
        exact hv
      · rw [upd_of_ne _ _ e2] at hq ⊢
        exact h.props _ _ _ hq
    · rw [upd_of_ne _ _ e] at hq ⊢
      exact h.props _ _ _ hq
  have hvote : ∀ m : Notes, m.Good s → m.props ch (n, ⟨tk, ds, am⟩) = (p.votesFor, p.votesAgainst, p.status) →
      (m.see (voteAnn ch n w ⟨tk, ds, am⟩ f)).Good (afterVote s p ch n w ⟨tk, ds, am⟩ f .initiated) ∧
      (m.see (voteAnn ch n w ⟨tk, ds, am⟩ f)).last = (n, ⟨tk, ds, am⟩) := by
    intro m h hm
    cases f
    · refine ⟨hset m _ h ?_, rfl⟩
      show ((m.props ch (n, ⟨tk, ds, am⟩)).1, (m.props ch (n, ⟨tk, ds, am⟩)).2.1 ++ [w], Status.initiated) = _
      rw [hm]; rfl
    · refine ⟨hset m _ h ?_, rfl⟩
      show ((m.props ch (n, ⟨tk, ds, am⟩)).1 ++ [w], (m.props ch (n, ⟨tk, ds, am⟩)).2.1, Status.initiated) = _
      rw [hm]; rfl
  rw [List.foldl_append]
  unfold openAnn
  rcases openProp_ok hp with e | ⟨e, rfl⟩
  · rw [e]
    exact hvote m h (h.props _ _ _ e)
  · rw [e]
    refine hvote (m.setProp ch (n, ⟨tk, ds, am⟩) ([], [], .initiated)) ⟨h.nonces, h.lines, h.threshold, h.done, ?_⟩ ?_
    · intro i k q hq
      show upd m.props ch (upd (m.props ch) (n, ⟨tk, ds, am⟩) ([], [], .initiated)) i k = _
      by_cases e1 : i = ch
      · subst e1
        rw [upd_same]
        by_cases e2 : k = (n, ⟨tk, ds, am⟩)
        · subst e2; rw [e] at hq; cases hq
        · rw [upd_of_ne _ _ e2]; exact h.props _ _ _ hq
      · rw [upd_of_ne _ _ e1]; exact h.props _ _ _ hq
    · show upd m.props ch (upd (m.props ch) (n, ⟨tk, ds, am⟩) ([], [], .initiated)) ch (n, ⟨tk, ds, am⟩) = _
      rw [upd_same, upd_same]

theorem Notes.Good.close {m : Notes} {p : Proposal} {ch n w : Nat} {call : MCall} {f : Bool} {st : Status}
    (h : m.Good (afterVote s p ch n w call f .initiated)) (hl : m.last = (n, call))
    (h1 : s'.nonces = s.nonces) (h2 : s'.assetIds = s.assetIds) (h3 : s'.threshold = s.threshold) (h4 : s'.tokens = s.tokens)
    (h5 : s'.props = (afterVote s p ch n w call f st).props)
    (h6 : ∀ i k, hasBridged s' i k = true ↔ hasBridged s i k = true ∨ (i = ch ∧ k = n)) :
    (m.close ch n st).Good s' := by
  refine ⟨h.nonces.trans h1.symm, ?_, h.threshold.trans h3.symm, ?_, ?_⟩
  · rw [h2, h4]; exact h.lines
  · intro i hi k
    rw [h1] at hi
    rw [h6]
    have := h.done i hi k
    show upd m.done ch _ i k ↔ _
    by_cases e : i = ch
    · subst e
      rw [upd_same]
      exact or_congr this (by simp)
    · rw [upd_of_ne _ _ e]
      simp only [e, false_and, or_false]
      exact this
  · intro i k q hq
    rw [h5] at hq
    have hpg := h.props ch (n, call) { voted p w f with status := .initiated }
      (by show upd s.props ch (upd (s.props ch) (n, call) _) ch (n, call) = _; rw [upd_same, upd_same])
    have hother := h.props i k
    replace hother : ∀ q, upd s.props ch (upd (s.props ch) (n, call) (some { voted p w f with status := .initiated })) i k = some q →
      m.props i k = (q.votesFor, q.votesAgainst, q.status) := hother
    replace hq : upd s.props ch (upd (s.props ch) (n, call) (some { voted p w f with status := st })) i k = some q := hq
    show upd m.props ch (upd (m.props ch) m.last ((m.props ch m.last).1, (m.props ch m.last).2.1, st)) i k = _
    rw [hl, hpg]
    by_cases e : i = ch
    · subst e
      rw [upd_same] at hq hother ⊢
      by_cases e2 : k = (n, call)
      · subst e2
        rw [upd_same] at hq ⊢
        cases hq
        rfl
      · rw [upd_of_ne _ _ e2] at hq hother ⊢
        exact hother q hq
    · rw [upd_of_ne _ _ e] at hq hother ⊢
      exact hother q hq

theorem mutate_eff {t : Nat} {f : Token → Token} (h : mutateToken s t f = .ok s') :
    (s.assetIds t).isSome ∧ s' = { s with tokens := upd s.tokens (s.assetId t) (some (f (s.token (s.assetId t)))) } := by
  unfold mutateToken at h
  simp only [bind_ok_iff, ensure_ok_iff, pure_ok_iff, exists_const] at h
  exact ⟨h.1, h.2.symm⟩

theorem execE_good (hr : Reach c s) {x : Call} {es : List Ann} {n : Notes} (hn : n.Good s)
    (h : execE c s x = .ok (s', es)) : (es.foldl Notes.see n).Good s' := by
  have hi := hr.inv
  cases x with
  | registerChain ch =>
    simp only [execE, registerChain, bind_ok_iff, ensure_ok_iff, pure_ok_iff, exists_const, Prod.mk.injEq] at h
    obtain ⟨t, ⟨⟨_, h0⟩, rfl⟩, rfl, rfl⟩ := h
    refine ⟨?_, hn.lines, hn.threshold, ?_, hn.props⟩
    · show upd n.nonces ch _ = upd s.nonces ch _
      rw [hn.nonces]
    · intro i hs k
      show upd n.done ch _ i k ↔ _
      by_cases e : i = ch
      · subst e
        rw [upd_same]
        refine iff_of_false (fun q => q) ?_
        rw [hasBridged_iff (reg := []) (upd_same _ _ _)]
        rintro ⟨r, hr, _⟩
        cases hr
      · rw [upd_of_ne _ _ e]
        have hs' : (s.nonces i).isSome := by rw [← upd_of_ne s.nonces (some 0) e]; exact hs
        rw [hn.done i hs' k]
        unfold hasBridged
        simp only [upd_of_ne _ _ e]
  | unregisterChain ch =>
    simp only [execE, unregisterChain, bind_ok_iff, ensure_ok_iff, pure_ok_iff, exists_const, Prod.mk.injEq] at h
    obtain ⟨t, ⟨h0, rfl⟩, rfl, rfl⟩ := h
    refine ⟨?_, hn.lines, hn.threshold, ?_, hn.props⟩
    · show upd n.nonces ch _ = upd s.nonces ch _
      rw [hn.nonces]
    · intro i hs k
      by_cases e : i = ch
      · subst e
        replace hs : (upd s.nonces i none i).isSome := hs
        rw [upd_same] at hs
        cases hs
      · have hs' : (s.nonces i).isSome := by rw [← upd_of_ne s.nonces none e]; exact hs
        have := hn.done i hs' k
        unfold hasBridged at this ⊢
        simp only [upd_of_ne _ _ e]
        exact this
  | registerToken a t =>
    simp only [execE, registerToken, bind_ok_iff, ensure_ok_iff, pure_ok_iff, exists_const, Prod.mk.injEq] at h
    obtain ⟨t0, ⟨⟨h1, h2⟩, rfl⟩, rfl, rfl⟩ := h
    refine ⟨hn.nonces, ?_, hn.threshold, hn.done, hn.props⟩
    intro i b tok
    show upd n.lines t.id (some (a, t)) i = _ ↔ upd s.assetIds t.id (some a) i = _ ∧ upd s.tokens a (some t) b = _
    by_cases e : i = t.id
    · subst e
      simp only [upd_same, Option.some.injEq, Prod.mk.injEq]
      constructor
      · rintro ⟨rfl, rfl⟩; exact ⟨rfl, upd_same _ _ _⟩
      · rintro ⟨rfl, q⟩; rw [upd_same] at q; exact ⟨rfl, Option.some.inj q⟩
    · rw [upd_of_ne _ _ e, upd_of_ne _ _ e, hn.lines]
      refine and_congr_right fun hb => ?_
      have : b ≠ a := by
        rintro rfl
        obtain ⟨k, g, _⟩ := (hi.bij i b).1 hb
        rw [h1] at g; cases g
      rw [upd_of_ne _ _ this]
  | unregisterToken t =>
    simp only [execE, unregisterToken, bind_ok_iff, ensure_ok_iff, pure_ok_iff, exists_const, Prod.mk.injEq] at h
    obtain ⟨t0, ⟨h1, rfl⟩, rfl, rfl⟩ := h
    obtain ⟨k0, g1, g2, g3, _⟩ := hi.token_get h1
    refine ⟨hn.nonces, ?_, hn.threshold, hn.done, hn.props⟩
    intro i b tok
    show upd n.lines t none i = _ ↔ upd s.assetIds t none i = _ ∧ upd s.tokens (s.assetId t) none b = _
    by_cases e : i = t
    · subst e
      simp only [upd_same]
      simp
    · rw [upd_of_ne _ _ e, upd_of_ne _ _ e, hn.lines]
      refine and_congr_right fun hb => ?_
      have : b ≠ s.assetId t := by
        intro q
        obtain ⟨k, g, g'⟩ := (hi.bij i b).1 hb
        rw [q, g2] at g
        cases g
        exact e (g'.symm.trans g3)
      rw [upd_of_ne _ _ this]
  | setFee t f =>
    simp only [execE, setFee, bind_ok_iff, pure_ok_iff, Prod.mk.injEq] at h
    obtain ⟨t0, h1, rfl, rfl⟩ := h
    obtain ⟨h2, rfl⟩ := mutate_eff h1
    exact Notes.Good.amend hi.bij hn h2 (f := fun q => { q with fee := f }) rfl rfl rfl rfl rfl rfl
  | setStatus t b =>
    simp only [execE, setStatus, bind_ok_iff, pure_ok_iff, Prod.mk.injEq] at h
    obtain ⟨t0, h1, rfl, rfl⟩ := h
    obtain ⟨h2, rfl⟩ := mutate_eff h1
    exact Notes.Good.amend hi.bij hn h2 (f := fun q => { q with enable := b }) rfl rfl rfl rfl rfl rfl
  | setCap t d v =>
    simp only [execE, setCap, bind_ok_iff, pure_ok_iff, Prod.mk.injEq] at h
    obtain ⟨t0, h1, rfl, rfl⟩ := h
    obtain ⟨h2, rfl⟩ := mutate_eff h1
    cases d
    · exact Notes.Good.amend hi.bij hn h2 (f := fun q => { q with outCap := v }) rfl rfl rfl rfl rfl rfl
    · exact Notes.Good.amend hi.bij hn h2 (f := fun q => { q with inCap := v }) rfl rfl rfl rfl rfl rfl
  | cleanCap t d =>
    simp only [execE, cleanCap, bind_ok_iff, pure_ok_iff, Prod.mk.injEq] at h
    obtain ⟨t0, h1, rfl, rfl⟩ := h
    obtain ⟨h2, rfl⟩ := mutate_eff h1
    cases d
    · exact Notes.Good.amend hi.bij hn h2 (f := fun q => { q with outAmount := 0 }) rfl rfl rfl rfl rfl rfl
    · exact Notes.Good.amend hi.bij hn h2 (f := fun q => { q with inAmount := 0 }) rfl rfl rfl rfl rfl rfl
  | teleport w ch t d m =>
    obtain ⟨hx, k, hk, hfee, rfl⟩ := teleportE_ok h
    obtain ⟨k', l, hk', h2, _, hen, hcap, _, _, hl, rfl⟩ := teleport_ok hx
    rw [hk] at hk'; cases hk'
    have hm : m - (s.token (s.assetId t)).fee + (s.token (s.assetId t)).fee = m := by omega
    have := hn.amend (s' := { s with tokens := upd s.tokens (s.assetId t) (some { s.token (s.assetId t) with
          outAmount := (s.token (s.assetId t)).outAmount + m }) }) hi.bij h2
        (f := fun t => { t with outAmount := t.outAmount + m }) rfl rfl rfl rfl rfl rfl
    show ({ n.amend t (fun q => { q with outAmount := q.outAmount +
        (m - (s.token (s.assetId t)).fee + (s.token (s.assetId t)).fee) }) with nonces := upd n.nonces ch (some (k + 1)) } : Notes).Good _
    rw [hm]
    refine ⟨?_, this.lines, this.threshold, ?_, this.props⟩
    · show upd n.nonces ch _ = upd s.nonces ch _
      rw [hn.nonces]
    · intro i hs j
      refine this.done i ?_ j
      by_cases e : i = ch
      · subst e; show (s.nonces i).isSome; rw [hk]; rfl
      · show (s.nonces i).isSome; rw [← upd_of_ne s.nonces (some (k + 1)) e]; exact hs
  | materialize o ch k call f =>
    obtain ⟨w, p, h1, h2, hp, h3, hcase⟩ := materializeE_ok h
    obtain ⟨hv, hlast⟩ := hn.vote (w := w) (f := f) hp
    rcases hcase with ⟨hx, rfl⟩ | ⟨hx, rfl⟩ | ⟨rfl, rfl⟩
    · obtain ⟨h4, _, l, l', reg', _, _, hreg, rfl⟩ := execute_ok hx
      have hcl := hv.close (s' := { afterVote s p ch k w call f .approved with registry := upd s.registry ch reg' })
        (st := .approved) hlast rfl rfl rfl rfl rfl (hasBridged_add hi h1 h2 hreg rfl)
      rw [show ∀ a b d : Ann, openAnn s w ch k call ++ [a, b, d] = (openAnn s w ch k call ++ [a]) ++ [b, d] from
        fun a b d => by simp, List.foldl_append]
      exact Notes.Good.amend (s := { afterVote s p ch k w call f .approved with registry := upd s.registry ch reg' }) hi.bij hcl h4
        (f := fun q => { q with inAmount := q.inAmount + call.amount }) rfl rfl rfl rfl rfl rfl
    · obtain ⟨reg', hreg, rfl⟩ := cancelMat_ok hx
      rw [show ∀ a b : Ann, openAnn s w ch k call ++ [a, b] = (openAnn s w ch k call ++ [a]) ++ [b] from
        fun a b => by simp, List.foldl_append]
      exact hv.close (st := .rejected) hlast rfl rfl rfl rfl rfl (hasBridged_add hi h1 h2 hreg rfl)
    · exact hv

theorem changeThreshold_thr {t : State} (h : changeThreshold c s = .ok t) : ∃ thr, t = { s with threshold := thr } :=
  ⟨_, (changeThreshold_ok h).2⟩

theorem changeMembersE_cases (c : Cfg) (s : State) (ms : List Nat) :
    (∃ thr, changeMembersE c s ms = ({ s with members := ms, threshold := thr }, [.threshold thr])) ∨
    changeMembersE c s ms = ({ s with members := ms }, []) := by
  unfold changeMembersE
  generalize hr : changeThreshold c { s with members := ms } = r
  cases r with
  | error e => exact .inr rfl
  | ok t =>
    obtain ⟨thr, rfl⟩ := changeThreshold_thr hr
    exact .inl ⟨thr, rfl⟩

theorem members_good {n : Notes} (hn : n.Good s) (ms : List Nat) :
    ((changeMembersE c s ms).2.foldl Notes.see n).Good (changeMembersE c s ms).1 := by
  rcases changeMembersE_cases c s ms with ⟨thr, e⟩ | e
  · rw [e]; exact ⟨hn.nonces, hn.lines, rfl, hn.done, hn.props⟩
  · rw [e]; exact ⟨hn.nonces, hn.lines, hn.threshold, hn.done, hn.props⟩

/-- **C242** (notes) Whoever has read all events since the start knows the registered chains and their counters, the
registered tokens with their assets and all settings and accumulated amounts, the vote threshold, which nonces of registered chains
are resolved, and of every stored proposal the votes and the status. -/
theorem C242_notes {es : List Ann} (h : Told c s es) : (Notes.after es).Good s := by
  induction h with
  | init l ms now hw =>
    refine ⟨rfl, fun t a tok => ?_, rfl, fun ch h => (by cases h), fun _ _ _ h => (by cases h)⟩
    exact iff_of_false (fun h => by cases h) (fun h => by cases h.1)
  | call h x hx ih =>
    unfold Notes.after
    rw [List.foldl_append]
    exact execE_good h.reach ih hx
  | block h ih =>
    refine ⟨ih.nonces, ih.lines, ih.threshold, ih.done, ?_⟩
    intro ch k p hp
    simp only [newBlock] at hp
    split at hp
    · rename_i q hq
      split_ifs at hp
      cases hp
      exact ih.props _ _ _ hq
    · cases hp
  | members h ms ih =>
    unfold Notes.after
    rw [List.foldl_append]
    exact members_good ih ms
  | env h e ih =>
    rw [e.eq]
    exact ⟨ih.nonces, ih.lines, ih.threshold, ih.done, ih.props⟩

theorem got_openAnn (s : State) (w' ch k : Nat) (call : MCall) (a w : Nat) :
    ((openAnn s w' ch k call).map (Ann.got s a w)).sum = 0 ∧ ((openAnn s w' ch k call).map (Ann.paid s a w)).sum = 0 := by
  unfold openAnn
  cases s.props ch (k, call) <;> exact ⟨rfl, rfl⟩

theorem got_voteAnn (s : State) (w' ch k : Nat) (call : MCall) (f : Bool) (a w : Nat) :
    (voteAnn ch k w' call f).got s a w = 0 ∧ (voteAnn ch k w' call f).paid s a w = 0 := by
  cases f <;> exact ⟨rfl, rfl⟩

/-- **C242** (amounts) The events of a call say exactly what everybody but the bridge and the gift account has paid and received in
every asset, except for gifts of the native asset to the recipient of an announced payout. -/
theorem C242_amounts (hr : Reach c s) {x : Call} {es : List Ann} (h : execE c s x = .ok (s', es)) (a w : Nat)
    (hw : w ≠ c.acct) (hg : w ≠ c.gift) :
    ∃ g, s'.ledger.bal a w + (es.map (Ann.paid s a w)).sum = s.ledger.bal a w + (es.map (Ann.got s a w)).sum + g ∧
      (g ≠ 0 → a = c.native ∧ ∃ ch k id m, Ann.minted ch k id w m ∈ es) := by
  have hi := hr.inv
  cases x with
  | registerChain ch =>
    simp only [execE, registerChain, bind_ok_iff, ensure_ok_iff, pure_ok_iff, exists_const, Prod.mk.injEq] at h
    obtain ⟨t, ⟨_, rfl⟩, rfl, rfl⟩ := h
    exact ⟨0, rfl, fun q => absurd rfl q⟩
  | unregisterChain ch =>
    simp only [execE, unregisterChain, bind_ok_iff, ensure_ok_iff, pure_ok_iff, exists_const, Prod.mk.injEq] at h
    obtain ⟨t, ⟨_, rfl⟩, rfl, rfl⟩ := h
    exact ⟨0, rfl, fun q => absurd rfl q⟩
  | registerToken b t =>
    simp only [execE, registerToken, bind_ok_iff, ensure_ok_iff, pure_ok_iff, exists_const, Prod.mk.injEq] at h
    obtain ⟨t0, ⟨_, rfl⟩, rfl, rfl⟩ := h
    exact ⟨0, rfl, fun q => absurd rfl q⟩
  | unregisterToken t =>
    simp only [execE, unregisterToken, bind_ok_iff, ensure_ok_iff, pure_ok_iff, exists_const, Prod.mk.injEq] at h
    obtain ⟨t0, ⟨_, rfl⟩, rfl, rfl⟩ := h
    exact ⟨0, rfl, fun q => absurd rfl q⟩
  | setFee t f =>
    simp only [execE, setFee, bind_ok_iff, pure_ok_iff, Prod.mk.injEq] at h
    obtain ⟨t0, h1, rfl, rfl⟩ := h
    obtain ⟨_, rfl⟩ := mutate_eff h1
    exact ⟨0, rfl, fun q => absurd rfl q⟩
  | setStatus t b =>
    simp only [execE, setStatus, bind_ok_iff, pure_ok_iff, Prod.mk.injEq] at h
    obtain ⟨t0, h1, rfl, rfl⟩ := h
    obtain ⟨_, rfl⟩ := mutate_eff h1
    exact ⟨0, rfl, fun q => absurd rfl q⟩
  | setCap t d v =>
    simp only [execE, setCap, bind_ok_iff, pure_ok_iff, Prod.mk.injEq] at h
    obtain ⟨t0, h1, rfl, rfl⟩ := h
    obtain ⟨_, rfl⟩ := mutate_eff h1
    exact ⟨0, rfl, fun q => absurd rfl q⟩
  | cleanCap t d =>
    simp only [execE, cleanCap, bind_ok_iff, pure_ok_iff, Prod.mk.injEq] at h
    obtain ⟨t0, h1, rfl, rfl⟩ := h
    obtain ⟨_, rfl⟩ := mutate_eff h1
    exact ⟨0, rfl, fun q => absurd rfl q⟩
  | teleport who ch t d m =>
    obtain ⟨hx, k, hk, hfee, rfl⟩ := teleportE_ok h
    obtain ⟨k', l, _, h2, _, _, _, _, _, hl, rfl⟩ := teleport_ok hx
    obtain ⟨tok, h3, _, _, h5⟩ := hi.token_get h2
    refine ⟨0, ?_, fun q => absurd rfl q⟩
    simp only [List.map_cons, List.map_nil, List.sum_cons, List.sum_nil, Nat.add_zero, Ann.paid, Ann.got, h3, Option.some.injEq]
    have hm : m - (s.token (s.assetId t)).fee + (s.token (s.assetId t)).fee = m := by omega
    rw [hm]
    unfold takeIn at hl
    split_ifs at hl with hx
    · simp only [bind_ok_iff] at hl
      obtain ⟨l1, hb, hmt⟩ := hl
      have b1 := Ledger.burn_bal hb a w
      have b2 := Ledger.mint_bal hmt a w
      rw [if_neg (fun q => hw q.2)] at b2
      simp only [eq_comm (a := s.assetId t)] at b1 ⊢
      show l.bal a w + _ = _
      omega
    · have b := Ledger.transfer_bal hl a w
      rw [if_neg (show ¬ (a = s.assetId t ∧ w = c.acct) from fun q => hw q.2)] at b
      simp only [eq_comm (a := s.assetId t)]
      exact b
  | materialize o ch k call f =>
    obtain ⟨w', p, _, _, _, _, hcase⟩ := materializeE_ok h
    have ho := got_openAnn s w' ch k call a w
    have hv := got_voteAnn s w' ch k call f a w
    rcases hcase with ⟨hx, rfl⟩ | ⟨hx, rfl⟩ | ⟨rfl, rfl⟩
    · obtain ⟨h4, _, l, l', reg', hl, hb, _, rfl⟩ := execute_ok hx
      obtain ⟨tok, h3, _, _, h5⟩ := hi.token_get h4
      simp only [List.map_append, List.sum_append, List.map_cons, List.map_nil, List.sum_cons, List.sum_nil, ho.1, ho.2, hv.1, hv.2,
        Nat.add_zero, Nat.zero_add]
      simp only [Ann.paid, Ann.got, h3, Option.some.injEq, Nat.add_zero, Nat.zero_add, eq_comm (a := s.assetId call.token)]
      have e1 : l.bal a w = s.ledger.bal a w + if a = s.assetId call.token ∧ w = call.dest then call.amount else 0 := by
        unfold payOut at hl
        split_ifs at hl
        · exact Ledger.mint_bal hl a w
        · have := Ledger.transfer_bal hl a w
          rw [if_neg (fun q => hw q.2)] at this
          exact this
      rcases grantBonus_ok hb with rfl | ⟨g, hgt⟩
      · exact ⟨0, by simpa using e1, fun q => absurd rfl q⟩
      · have := Ledger.transfer_bal hgt a w
        rw [if_neg (fun q => hg q.2)] at this
        refine ⟨if a = c.native ∧ w = call.dest then g else 0, ?_, ?_⟩
        · rw [← e1]; exact this
        · intro q
          split_ifs at q with q2
          · exact ⟨q2.1, ch, k, call.token, call.amount, by rw [q2.2]; simp⟩
          · exact absurd rfl q
    · obtain ⟨reg', hreg, rfl⟩ := cancelMat_ok hx
      refine ⟨0, ?_, fun q => absurd rfl q⟩
      simp only [List.map_append, List.sum_append, List.map_cons, List.map_nil, List.sum_cons, List.sum_nil, ho.1, ho.2, hv.1, hv.2]
      rfl
    · refine ⟨0, ?_, fun q => absurd rfl q⟩
      simp only [List.map_append, List.sum_append, List.map_cons, List.map_nil, List.sum_cons, List.sum_nil, ho.1, ho.2, hv.1, hv.2]
      rfl

theorem holds_openAnn (s s' : State) (w ch k : Nat) (call : MCall) : ∀ e ∈ openAnn s w ch k call, e.holds s s' := by
  intro e he
  unfold openAnn at he
  cases hp : s.props ch (k, call) with
  | some p => rw [hp] at he; cases he
  | none =>
    rw [hp] at he
    simp only [List.mem_singleton] at he
    subst he
    exact hp

theorem holds_voteAnn {p : Proposal} {ch k w : Nat} {call : MCall} {f : Bool} {st : Status}
    (h : s'.props = (afterVote s p ch k w call f st).props) : (voteAnn ch k w call f).holds s s' := by
  have hp : s'.props ch (k, call) = some { voted p w f with status := st } := by
    rw [h]
    show upd s.props ch (upd (s.props ch) (k, call) _) ch (k, call) = _
    rw [upd_same, upd_same]
  cases f
  · exact ⟨_, hp, List.mem_append_right _ (List.mem_singleton.2 rfl)⟩
  · exact ⟨_, hp, List.mem_append_right _ (List.mem_singleton.2 rfl)⟩

/-- **C242** (facts) A call that goes through deposits an event, and what its events say is true. -/
theorem C242_facts (hr : Reach c s) {x : Call} {es : List Ann} (h : execE c s x = .ok (s', es)) :
    es ≠ [] ∧ ∀ e ∈ es, e.holds s s' := by
  have hi := hr.inv
  have single : ∀ {e : Ann}, e.holds s s' → [e] ≠ [] ∧ ∀ e' ∈ [e], e'.holds s s' := by
    intro e he
    refine ⟨List.cons_ne_nil _ _, fun e' h' => ?_⟩
    rw [List.mem_singleton.1 h']
    exact he
  cases x with
  | unregisterToken t =>
    simp only [execE, unregisterToken, bind_ok_iff, ensure_ok_iff, pure_ok_iff, exists_const, Prod.mk.injEq] at h
    obtain ⟨t0, ⟨h1, rfl⟩, rfl, rfl⟩ := h
    obtain ⟨_, h3, _⟩ := hi.token_get h1
    exact single h3
  | teleport who ch t d m =>
    obtain ⟨hx, k, hk, hfee, rfl⟩ := teleportE_ok h
    obtain ⟨k', l, hk', h2, _, _, _, _, _, hl, rfl⟩ := teleport_ok hx
    rw [hk] at hk'; cases hk'
    obtain ⟨tok, h3, h4, _, h5⟩ := hi.token_get h2
    exact single ⟨upd_same _ _ _, _, tok, h3, h4, by rw [h5]⟩
  | materialize o ch k call f =>
    obtain ⟨w, p, h1, h2, hp, _, hcase⟩ := materializeE_ok h
    rcases hcase with ⟨hx, rfl⟩ | ⟨hx, rfl⟩ | ⟨rfl, rfl⟩
    · obtain ⟨h4, _, l, l', reg', hl, hb, hreg, rfl⟩ := execute_ok hx
      refine ⟨by simp, fun e he => ?_⟩
      simp only [List.mem_append, List.mem_cons, List.not_mem_nil, or_false] at he
      rcases he with he | rfl | rfl | rfl
      · exact holds_openAnn _ _ _ _ _ _ e he
      · exact holds_voteAnn (st := .approved) rfl
      · exact ⟨h2, (hasBridged_add hi h1 h2 hreg rfl ch k).2 (.inr ⟨rfl, rfl⟩)⟩
      · refine ⟨{ voted p w f with status := .approved }, ?_, rfl⟩
        show upd s.props ch (upd (s.props ch) (k, call) _) ch (k, call) = _
        rw [upd_same, upd_same]
    · obtain ⟨reg', hreg, rfl⟩ := cancelMat_ok hx
      refine ⟨by simp, fun e he => ?_⟩
      simp only [List.mem_append, List.mem_cons, List.not_mem_nil, or_false] at he
      rcases he with he | rfl | rfl
      · exact holds_openAnn _ _ _ _ _ _ e he
      · exact holds_voteAnn (st := .rejected) rfl
      · exact ⟨h2, (hasBridged_add hi h1 h2 hreg rfl ch k).2 (.inr ⟨rfl, rfl⟩)⟩
    · refine ⟨by simp, fun e he => ?_⟩
      simp only [List.mem_append, List.mem_cons, List.not_mem_nil, or_false] at he
      rcases he with he | rfl
      · exact holds_openAnn _ _ _ _ _ _ e he
      · exact holds_voteAnn (st := .initiated) rfl
  | _ =>
    simp only [execE, bind_ok_iff, pure_ok_iff, Prod.mk.injEq] at h
    obtain ⟨t0, _, rfl, rfl⟩ := h
    exact single trivial

/-- **C242** (every) Every history has its events. -/
theorem C242_every (h : Reach c s) : ∃ es, Told c s es := by
  induction h with
  | init l ms now hw => exact ⟨[], .init l ms now hw⟩
  | step h hst ih =>
    obtain ⟨es, ht⟩ := ih
    cases hst with
    | call x hx =>
      rw [← C242_same] at hx
      cases he : execE c _ x with
      | error e => rw [he] at hx; cases hx
      | ok r =>
        obtain ⟨s1, fs⟩ := r
        rw [he] at hx
        cases hx
        exact ⟨_, .call ht x he⟩
    | block => exact ⟨es, .block ht⟩
    | members ms => exact ⟨_, by rw [← changeMembersE_same]; exact .members ht ms⟩
    | env e => exact ⟨es, .env ht e⟩

/-- **C242** (expiry is silent) An open proposal disappears from storage at its expiry, and no event says so. -/
theorem C242_expiry_untold {es : List Ann} (h : Told c s es) {ch : Nat} {k : Nat × MCall} {p : Proposal}
    (hp : s.props ch k = some p) (he : p.expiry ≤ s.now + 1) :
    Told c (newBlock s) es ∧ (newBlock s).props ch k = none := by
  refine ⟨.block h, ?_⟩
  simp only [newBlock, hp, he, if_true]

theorem okE {r : R (State × List Ann)} {es : List Ann} (h : okAnd r (fun q => q.2 = es) = true) :
    ∃ s', r = .ok (s', es) := by
  obtain ⟨q, hq, hd⟩ := okAnd_iff.1 h
  have := of_decide_eq_true hd
  obtain ⟨s', fs⟩ := q
  dsimp only at this
  subst this
  exact ⟨s', hq⟩

/-- The second vote pays nonce 4 out; the first vote about nonce 5 opens its proposal. -/
example : ∃ es s1 s2, Told exCfg ex2 es ∧
    execE exCfg ex2 (.materialize (some 12) 9 4 exPay true) = .ok (s1, [.voteFor 9 4 12 100 8 50, .approved 9 4, .minted 9 4 100 8 50]) ∧
    execE exCfg ex2 (.materialize (some 12) 9 5 exPay false) = .ok (s2, [.initialized 12 9 5 100 8 50, .voteAgainst 9 5 12 100 8 50]) := by
  obtain ⟨es, h⟩ := C242_every ex2_reach
  obtain ⟨s1, h1⟩ := okE (r := execE exCfg ex2 (.materialize (some 12) 9 4 exPay true))
    (es := [.voteFor 9 4 12 100 8 50, .approved 9 4, .minted 9 4 100 8 50]) (by decide +kernel)
  obtain ⟨s2, h2⟩ := okE (r := execE exCfg ex2 (.materialize (some 12) 9 5 exPay false))
    (es := [.initialized 12 9 5 100 8 50, .voteAgainst 9 5 12 100 8 50]) (by decide +kernel)
  exact ⟨es, s1, s2, h, h1, h2⟩

example : okAnd (execE exCfg ex1 (.teleport 7 9 100 5 40)) (fun r => decide (r.2 = [.teleported 7 9 1 100 5 37 3])) = true ∧
    okAnd (execE exCfg ex2 (.unregisterToken 100)) (fun r => decide (r.2 = [.tokenRemoved 1 100])) = true ∧
    (changeMembersE exCfg ex1 [11, 12, 13, 14, 15]).2 = [.threshold 3] := by decide +kernel

end Verif.Bridge
