import Verif.Bridge.Props2

/-!
# C234: bridged tokens are backed across chains

Several chains that run the bridge pallet, and relayers that carry the announced transfers from one to the other.
On its home chain a token is locked in the bridge account, on all other chains it is minted and burned.
-/

namespace Verif.Bridge
open Verif

/-! ## Specification -/

/-- A network of chains that bridge one token. -/
structure Net where
  /-- the chains, by the ids under which they know each other -/
  ids : List Nat
  cfg : Nat → Cfg
  /-- the bridge token id, the same on all chains (`BridgeToken::id`, `pallets/bridge/src/types.rs:7-17`) -/
  token : Nat
  /-- the asset that the token is on each chain -/
  asset : Nat → Nat
  /-- the chain where the token is at home -/
  home : Nat
  /-- the dishonest relayers of each chain -/
  bad : Nat → List Nat

/-- What a network has to get right when it is set up. -/
structure Net.OK (N : Net) : Prop where
  nodup : N.ids.Nodup
  home : N.home ∈ N.ids
  gift : (N.cfg N.home).gift ≠ (N.cfg N.home).acct

/-- Chain `j` has announced the transfer `call` to chain `i` under the nonce `n`. -/
def Net.Announced (N : Net) (st : Nat → State) (j i n : Nat) (call : MCall) : Prop :=
  j ∈ N.ids ∧ ∃ who fee, Event.teleported who i n call.token call.dest call.amount fee ∈ (st j).events

/-- What is expected of the calls on chain `i`: governance takes no chain off and registers the token as what it is, the
bridge account signs nothing, fewer relayers than the threshold are dishonest, and honest relayers vote only for what was
announced.  Votes of dishonest relayers, and votes against, are arbitrary. -/
def Net.Fair (N : Net) (st : Nat → State) (i : Nat) : Call → Prop
  | .unregisterChain _ => False
  | .registerToken a tok => (tok.id = N.token ∨ a = N.asset i) →
      tok.id = N.token ∧ a = N.asset i ∧ (tok.external = true ↔ i ≠ N.home)
  | .teleport w _ _ _ _ => w ≠ (N.cfg i).acct
  | .materialize o ch n call f => (N.bad i).length < (st i).threshold ∧
      (f = true → o.getD (N.cfg i).rootOp ∉ N.bad i → N.Announced st ch i n call)
  | _ => True

/-- What the rest of chain `i` may do: anything but mint the token abroad, or take from the bridge account at home. -/
structure Net.Quiet (N : Net) (i : Nat) (s s' : State) : Prop where
  env : Env s s'
  home : i = N.home → s.ledger.bal (N.asset i) (N.cfg i).acct ≤ s'.ledger.bal (N.asset i) (N.cfg i).acct
  away : i ≠ N.home → s'.ledger.iss (N.asset i) ≤ s.ledger.iss (N.asset i)

/-- A chain before the bridge is used. -/
def Fresh (s : State) : Prop := ∃ l ms now, l.WF ∧
  s = ⟨l, 1, fun _ => none, fun _ => none, fun _ => none, fun _ => none, fun _ _ => none, ms, now, []⟩

/-- All histories of the network: the chains take their steps in any order. -/
inductive Net.Run (N : Net) : (Nat → State) → Prop
  | init (st : Nat → State) (h : ∀ i ∈ N.ids, Fresh (st i))
      (h0 : ∀ i ∈ N.ids, i ≠ N.home → (st i).ledger.iss (N.asset i) = 0) : N.Run st
  | call {st : Nat → State} (h : N.Run st) {i : Nat} (hi : i ∈ N.ids) (k : Call) (hf : N.Fair st i k) {s' : State}
      (hk : exec (N.cfg i) (st i) k = .ok s') : N.Run (upd st i s')
  | block {st : Nat → State} (h : N.Run st) {i : Nat} (hi : i ∈ N.ids) : N.Run (upd st i (newBlock (st i)))
  | members {st : Nat → State} (h : N.Run st) {i : Nat} (hi : i ∈ N.ids) (ms : List Nat) :
      N.Run (upd st i (changeMembers (N.cfg i) (st i) ms))
  | env {st : Nat → State} (h : N.Run st) {i : Nat} (hi : i ∈ N.ids) {s' : State} (hq : N.Quiet i (st i) s') :
      N.Run (upd st i s')

/-- What an event announces to be on its way to another chain, of token `t`. -/
def Event.sentAmt (t : Nat) : Event → Nat
  | .teleported _ _ _ tok _ m _ => if tok = t then m else 0
  | _ => 0

/-- What an event pays out, of token `t`. -/
def Event.paidAmt (t : Nat) : Event → Nat
  | .minted _ _ call => if call.token = t then call.amount else 0
  | _ => 0

/-- Everything sent from chain `i`. -/
def Net.sent (N : Net) (st : Nat → State) (i : Nat) : Nat := ((st i).events.map (Event.sentAmt N.token)).sum
/-- Everything paid out on chain `i`. -/
def Net.paid (N : Net) (st : Nat → State) (i : Nat) : Nat := ((st i).events.map (Event.paidAmt N.token)).sum
/-- Sent from any chain and not yet paid out on any. -/
def Net.inFlight (N : Net) (st : Nat → State) : Nat := (N.ids.map (N.sent st)).sum - (N.ids.map (N.paid st)).sum
/-- What the bridge account holds at home. -/
def Net.locked (N : Net) (st : Nat → State) : Nat := (st N.home).ledger.bal (N.asset N.home) (N.cfg N.home).acct
/-- All units of the token that exist away from home. -/
def Net.abroad (N : Net) (st : Nat → State) : Nat :=
  ((N.ids.filter (· ≠ N.home)).map (fun i => (st i).ledger.iss (N.asset i))).sum

/-! ## One step of one chain -/

variable {N : Net} {st : Nat → State} {c : Cfg} {s s' : State}

/-- The token is registered as what it is, if at all. -/
def TokOK (t a : Nat) (ext : Prop) (s : State) : Prop := ∀ b tok, s.tokens b = some tok → (tok.id = t ∨ b = a) →
  tok.id = t ∧ b = a ∧ (tok.external = true ↔ ext)

/-- What a step does to the books of the token: `locked` for its home, `issued` elsewhere. -/
structure Booked (c : Cfg) (t a : Nat) (ext : Prop) (s s' : State) (new : List Event) : Prop where
  ev : s'.events = new ++ s.events
  home : ¬ ext → c.gift ≠ c.acct → s.ledger.bal a c.acct + (new.map (Event.sentAmt t)).sum ≤
    s'.ledger.bal a c.acct + (new.map (Event.paidAmt t)).sum
  away : ext → s'.ledger.iss a + (new.map (Event.sentAmt t)).sum ≤ s.ledger.iss a + (new.map (Event.paidAmt t)).sum

theorem Booked.same {t a : Nat} {ext : Prop} {new : List Event} (he : s'.events = new ++ s.events)
    (hl : s'.ledger = s.ledger) (hn : ∀ e ∈ new, e.sentAmt t = 0 ∧ e.paidAmt t = 0) : Booked c t a ext s s' new := by
  have h1 : (new.map (Event.sentAmt t)).sum = 0 := by
    rw [List.sum_eq_zero_iff]; intro x hx
    obtain ⟨e, he, rfl⟩ := List.mem_map.1 hx
    exact (hn e he).1
  have h2 : (new.map (Event.paidAmt t)).sum = 0 := by
    rw [List.sum_eq_zero_iff]; intro x hx
    obtain ⟨e, he, rfl⟩ := List.mem_map.1 hx
    exact (hn e he).2
  exact ⟨he, fun _ _ => by rw [hl, h1, h2], fun _ => by rw [hl, h1, h2]⟩

theorem TokOK.set {t a : Nat} {ext : Prop} (h : TokOK t a ext s) {b : Nat} {tok tok' : Token}
    (hb : s.tokens b = some tok) (hid : tok'.id = tok.id) (hx : tok'.external = tok.external) :
    TokOK t a ext { s with tokens := upd s.tokens b (some tok') } := by
  intro b' tk hb' hor
  by_cases e : b' = b
  · subst e
    simp only [upd_same, Option.some.injEq] at hb'
    subst hb'
    rw [hid, hx]
    rw [hid] at hor
    exact h b' tok hb hor
  · simp only [upd_of_ne _ _ e] at hb'
    exact h b' tk hb' hor

theorem TokOK.mutate {t a : Nat} {ext : Prop} (hr : Reach c s) (h : TokOK t a ext s) {x : Nat} {g : Token → Token}
    (hk : mutateToken s x g = .ok s') (h1 : ∀ y, (g y).id = y.id) (h2 : ∀ y, (g y).external = y.external) :
    TokOK t a ext s' ∧ s'.ledger = s.ledger ∧ s'.events = s.events := by
  unfold mutateToken at hk
  simp only [bind_ok_iff, ensure_ok_iff, pure_ok_iff, exists_const] at hk
  obtain ⟨h3, rfl⟩ := hk
  obtain ⟨tok, _, h5, _, h6⟩ := hr.inv.token_get h3
  exact ⟨h.set h5 (by rw [h1, h6]) (by rw [h2, h6]), rfl, rfl⟩

theorem mutate_nonces {t : Nat} {g : Token → Token} (h : mutateToken s t g = .ok s') : s'.nonces = s.nonces := by
  unfold mutateToken at h
  simp only [bind_ok_iff, ensure_ok_iff, pure_ok_iff, exists_const] at h
  obtain ⟨_, rfl⟩ := h; rfl

theorem teleport_booked {t a : Nat} {ext : Prop} (hr : Reach c s) (h : TokOK t a ext s) {w ch x d m : Nat}
    (hw : w ≠ c.acct) (hk : teleport c s w ch x d m = .ok s') :
    TokOK t a ext s' ∧ (∀ ch, (s.nonces ch).isSome → (s'.nonces ch).isSome) ∧ ∃ e, Booked c t a ext s s' [e] ∧
      ∀ v ch n call b, e ≠ .voteFor ch n v call b ∧ e ≠ .minted ch n call ∧ e ≠ .registered ch := by
  obtain ⟨b, tok, k, hb, htok, hn, _, hfee, hbw, hba, hbo, hiss, hisso, _, _, hev⟩ := C34_teleport hr hw hk
  obtain ⟨k', l, _, hsome, _, _, _, _, _, _, hs'⟩ := teleport_ok hk
  obtain ⟨tok2, e1, e2, hid, e4⟩ := hr.inv.token_get hsome
  obtain rfl : s.assetId x = b := Option.some.inj (e1.symm.trans hb)
  obtain rfl : tok2 = tok := Option.some.inj (e2.symm.trans htok)
  have hT : TokOK t a ext s' := by
    have := h.set (tok' := { s.token (s.assetId x) with outAmount := (s.token (s.assetId x)).outAmount + m }) htok
      (by rw [e4]) (by rw [e4])
    rw [hs']; exact this
  have hN : ∀ ch, (s.nonces ch).isSome → (s'.nonces ch).isSome := by
    intro ch' h'
    rw [hs']
    by_cases e : ch' = ch
    · simp [e]
    · simpa [upd_of_ne _ _ e] using h'
  refine ⟨hT, hN, _, ⟨hev, ?_, ?_⟩, ?_⟩
  · intro hx hg
    simp only [List.map_cons, List.map_nil, List.sum_cons, List.sum_nil, Event.sentAmt, Event.paidAmt]
    by_cases e : x = t
    · obtain ⟨-, ea, ee⟩ := h _ _ htok (.inl (hid.trans e))
      rw [if_pos e, ← ea, hba, if_neg (fun h' => hx (ee.1 h'))]
      omega
    · rw [if_neg e]
      have hne : a ≠ s.assetId x := fun e' => e (hid.symm.trans (h _ _ htok (.inr e'.symm)).1)
      rw [hbo a c.acct (.inl hne)]
  · intro hx
    simp only [List.map_cons, List.map_nil, List.sum_cons, List.sum_nil, Event.sentAmt, Event.paidAmt]
    by_cases e : x = t
    · obtain ⟨-, ea, ee⟩ := h _ _ htok (.inl (hid.trans e))
      rw [if_pos e, ← ea]
      rw [if_pos (ee.2 hx)] at hiss
      omega
    · rw [if_neg e]
      have hne : a ≠ s.assetId x := fun e' => e (hid.symm.trans (h _ _ htok (.inr e'.symm)).1)
      rw [hisso a hne]
  · intro v ch' n' call' b'
    simp

theorem grantBonus_keeps {l l' : Ledger} {w b m : Nat} (h : grantBonus c l w b m = .ok l') :
    (∀ x, l'.iss x = l.iss x) ∧ (c.gift ≠ c.acct → ∀ x, l.bal x c.acct ≤ l'.bal x c.acct) := by
  rcases grantBonus_ok h with rfl | ⟨g, hg⟩
  · exact ⟨fun _ => rfl, fun _ _ => Nat.le_refl _⟩
  · refine ⟨fun x => by rw [Ledger.transfer_iss hg], fun hne x => ?_⟩
    have := Ledger.transfer_bal hg x c.acct
    have h2 : ¬ (x = c.native ∧ c.acct = c.gift) := fun h => hne h.2.symm
    rw [if_neg h2] at this
    split_ifs at this <;> omega

theorem payOut_booked {t a : Nat} {ext : Prop} {tok : Token} {b : Nat} {call : MCall} {l l' : Ledger}
    (hx : tok.id = t ∨ b = a → tok.id = t ∧ b = a ∧ (tok.external = true ↔ ext)) (hid : tok.id = call.token)
    (h : payOut c l tok b call = .ok l') :
    (¬ ext → l.bal a c.acct ≤ l'.bal a c.acct + (if call.token = t then call.amount else 0)) ∧
    (ext → l'.iss a ≤ l.iss a + (if call.token = t then call.amount else 0)) := by
  unfold payOut at h
  by_cases hb : b = a
  · obtain ⟨e1, -, e2⟩ := hx (.inr hb)
    rw [if_pos (hid.symm.trans e1)]
    subst hb
    split_ifs at h with hext
    · have i := Ledger.mint_iss h b
      refine ⟨fun hn => absurd (e2.1 hext) hn, fun _ => ?_⟩
      rw [if_pos rfl] at i
      omega
    · have bl := Ledger.transfer_bal h b c.acct
      have i := Ledger.transfer_iss h
      refine ⟨fun _ => ?_, fun he => absurd (e2.2 he) hext⟩
      split_ifs at bl <;> omega
  · have hne : ¬ a = b := fun e => hb e.symm
    have hc : call.token ≠ t := fun e => hb (hx (.inl (hid.trans e))).2.1
    rw [if_neg hc]
    split_ifs at h with hext
    · have i := Ledger.mint_iss h a
      have bl := Ledger.mint_bal h a c.acct
      refine ⟨fun _ => ?_, fun _ => ?_⟩
      · rw [bl]; simp [hne]
      · rw [i]; simp [hne]
    · have bl := Ledger.transfer_bal h a c.acct
      have i := Ledger.transfer_iss h
      refine ⟨fun _ => ?_, fun _ => by rw [i]; simp⟩
      simp only [hne, false_and, if_false] at bl
      omega

/-- No two of these events pay out the same nonce. -/
def Apart (evs : List Event) : Prop :=
  evs.Pairwise (fun e e' => ∀ ch n call call', ¬ (e = .minted ch n call ∧ e' = .minted ch n call'))

theorem materialize_booked {t a : Nat} {ext : Prop} (hr : Reach c s) (h : TokOK t a ext s) {o : Option Nat} {ch n : Nat}
    {call : MCall} {f : Bool} (hk : materialize c s o ch n call f = .ok s') :
    TokOK t a ext s' ∧ (s.nonces ch).isSome ∧ hasBridged s ch n = false ∧ s'.nonces = s.nonces ∧
    ∃ new, Booked c t a ext s s' new ∧ Apart new ∧ ∀ e ∈ new, e = voteEvent s ch n (o.getD c.rootOp) call f ∨
      e = .minted ch n call ∨ e = .rejected ch n := by
  obtain ⟨w, p, hw, hns, hbr, _, _, _, _, h2⟩ := materialize_ok hk
  have ew : o.getD c.rootOp = w := by
    rcases relayMember_ok hw with ⟨rfl, rfl⟩ | ⟨rfl, _⟩ <;> rfl
  rw [ew]
  have hv : (voteEvent s ch n w call f).sentAmt t = 0 ∧ (voteEvent s ch n w call f).paidAmt t = 0 := by
    cases f <;> exact ⟨rfl, rfl⟩
  have hv2 : ∀ ch' n' call', voteEvent s ch n w call f ≠ .minted ch' n' call' := by
    cases f <;> intros <;> simp [voteEvent]
  rcases h2 with ⟨_, h2⟩ | ⟨_, _, _, h2⟩ | ⟨_, rfl⟩
  · obtain ⟨hsome, _, l, l', reg', hl, hl', _, hs'⟩ := execute_ok h2
    obtain ⟨tok, e1, e2, hid, e4⟩ := hr.inv.token_get (s := s) hsome
    have hl2 : payOut c s.ledger tok (s.assetId call.token) call = .ok l := by rw [← e4]; exact hl
    obtain ⟨p1, p2⟩ := payOut_booked (h _ _ e2) hid hl2
    obtain ⟨g1, g2⟩ := grantBonus_keeps hl'
    refine ⟨?_, hns, hbr, by rw [hs']; rfl, [.minted ch n call, voteEvent s ch n w call f], ⟨?_, ?_, ?_⟩, ?_, ?_⟩
    · have := h.set (tok' := { s.token (s.assetId call.token) with
        inAmount := (s.token (s.assetId call.token)).inAmount + call.amount }) e2 (by rw [e4]) (by rw [e4])
      rw [hs']; exact this
    · rw [hs']; rfl
    · intro hx hg
      rw [hs']
      simp only [List.map_cons, List.map_nil, List.sum_cons, List.sum_nil, hv.1, hv.2]
      simp only [Event.sentAmt, Event.paidAmt]
      have := p1 hx
      have := g2 hg a
      omega
    · intro hx
      rw [hs']
      simp only [List.map_cons, List.map_nil, List.sum_cons, List.sum_nil, hv.1, hv.2]
      simp only [Event.sentAmt, Event.paidAmt]
      have := p2 hx
      rw [g1 a]
      omega
    · simp only [Apart, List.pairwise_cons, List.mem_singleton, List.not_mem_nil, List.Pairwise.nil, and_true]
      refine ⟨fun e he ch' n' c1 c2 h' => ?_, fun _ h => h.elim⟩
      rw [he] at h'
      exact hv2 _ _ _ h'.2
    · intro e he
      simp only [List.mem_cons, List.not_mem_nil, or_false] at he
      rcases he with rfl | rfl
      · exact .inr (.inl rfl)
      · exact .inl rfl
  · obtain ⟨reg', _, rfl⟩ := cancelMat_ok h2
    refine ⟨h, hns, hbr, rfl, [.rejected ch n, voteEvent s ch n w call f], .same rfl rfl ?_, ?_, ?_⟩
    · intro e he
      simp only [List.mem_cons, List.not_mem_nil, or_false] at he
      rcases he with rfl | rfl
      · exact ⟨rfl, rfl⟩
      · exact hv
    · simp [Apart]
    · intro e he
      simp only [List.mem_cons, List.not_mem_nil, or_false] at he
      rcases he with rfl | rfl
      · exact .inr (.inr rfl)
      · exact .inl rfl
  · refine ⟨h, hns, hbr, rfl, [voteEvent s ch n w call f], .same rfl rfl ?_, by simp [Apart], ?_⟩
    · intro e he
      rw [List.mem_singleton.1 he]
      exact hv
    · intro e he
      rw [List.mem_singleton.1 he]
      exact .inl rfl

/-! ## The network -/

/-- What holds on each chain at all times. -/
structure Good (N : Net) (st : Nat → State) (i : Nat) : Prop where
  reach : Reach (N.cfg i) (st i)
  tok : TokOK N.token (N.asset i) (i ≠ N.home) (st i)
  home : i = N.home → (N.cfg i).gift ≠ (N.cfg i).acct →
    N.sent st i ≤ (st i).ledger.bal (N.asset i) (N.cfg i).acct + N.paid st i
  away : i ≠ N.home → (st i).ledger.iss (N.asset i) + N.sent st i ≤ N.paid st i
  votes : ∀ ch n v call b, Event.voteFor ch n v call b ∈ (st i).events → v ∉ N.bad i → N.Announced st ch i n call
  paid : ∀ ch n call, Event.minted ch n call ∈ (st i).events → N.Announced st ch i n call
  seen : ∀ ch n call, Event.minted ch n call ∈ (st i).events → ((st i).nonces ch).isSome ∧ hasBridged (st i) ch n = true
  once : Apart (st i).events

/-- What a step of chain `i` adds to its log. -/
structure Adds (N : Net) (st : Nat → State) (i : Nat) (s' : State) (new : List Event) : Prop where
  booked : Booked (N.cfg i) N.token (N.asset i) (i ≠ N.home) (st i) s' new
  nonces : ∀ ch, ((st i).nonces ch).isSome → (s'.nonces ch).isSome ∧ Event.registered ch ∉ new
  apart : Apart new
  fresh : ∀ ch n call, Event.minted ch n call ∈ new → ((st i).nonces ch).isSome ∧ hasBridged (st i) ch n = false ∧
    (N.bad i).length < (st i).threshold
  votes : ∀ ch n v call b, Event.voteFor ch n v call b ∈ new → v ∉ N.bad i → N.Announced st ch i n call

theorem Announced.mono {i j k n : Nat} {call : MCall} {s' : State} (h : N.Announced st k j n call)
    (hg : ∀ e ∈ (st i).events, e ∈ s'.events) : N.Announced (upd st i s') k j n call := by
  obtain ⟨h1, w, f, h2⟩ := h
  refine ⟨h1, w, f, ?_⟩
  by_cases e : k = i
  · subst e; rw [upd_same]; exact hg _ h2
  · rw [upd_of_ne _ _ e]; exact h2

theorem since_append {ch : Nat} {new evs : List Event} (h : Event.registered ch ∉ new) :
    since ch (new ++ evs) = new ++ since ch evs := by
  induction new with
  | nil => rfl
  | cons e es ih =>
    simp only [List.mem_cons, not_or] at h
    rw [List.cons_append, since_cons, if_neg (fun h' => h.1 h'.symm), ih h.2, List.cons_append]

/-- More than the dishonest relayers voted: one of them is honest. -/
theorem exists_honest {bad voters : List Nat} (hn : voters.Nodup) (hl : bad.length < voters.length) :
    ∃ v ∈ voters, v ∉ bad := by
  by_contra hc
  push Not at hc
  have := (List.subperm_of_subset hn (fun v hv => hc v hv)).length_le
  omega

theorem Good.step {i : Nat} (hg : ∀ j ∈ N.ids, Good N st j) (hi : i ∈ N.ids) {s' : State}
    (hs : Step (N.cfg i) (st i) s') (ht : TokOK N.token (N.asset i) (i ≠ N.home) s') {new : List Event}
    (ha : Adds N st i s' new) : ∀ j ∈ N.ids, Good N (upd st i s') j := by
  have hgrow : ∀ e ∈ (st i).events, e ∈ s'.events := fun e he => by
    rw [ha.booked.ev]; exact List.mem_append_right _ he
  intro j hj
  by_cases e : j = i
  · subst e
    have hG := hg j hj
    have hR : Reach (N.cfg j) s' := .step hG.reach hs
    have e1 : N.sent (upd st j s') j = (new.map (Event.sentAmt N.token)).sum + N.sent st j := by
      simp only [Net.sent, upd_same, ha.booked.ev, List.map_append, List.sum_append]
    have e2 : N.paid (upd st j s') j = (new.map (Event.paidAmt N.token)).sum + N.paid st j := by
      simp only [Net.paid, upd_same, ha.booked.ev, List.map_append, List.sum_append]
    have hvotes : ∀ ch n v call b, Event.voteFor ch n v call b ∈ s'.events → v ∉ N.bad j →
        N.Announced st ch j n call := by
      intro ch n v call b he hv
      rw [ha.booked.ev, List.mem_append] at he
      rcases he with he | he
      · exact ha.votes ch n v call b he hv
      · exact hG.votes ch n v call b he hv
    obtain ⟨_, new', hn', _, hback⟩ := C32_payout_backed hG.reach hs
    obtain rfl : new' = new := List.append_cancel_right (hn'.symm.trans ha.booked.ev)
    have hpaid : ∀ ch n call, Event.minted ch n call ∈ new' → N.Announced st ch j n call := by
      intro ch n call he
      obtain ⟨voters, v1, v2, v3⟩ := hback ch n call he
      obtain ⟨v, hv, hv'⟩ := exists_honest (bad := N.bad j) v1 (by have := (ha.fresh ch n call he).2.2; omega)
      obtain ⟨b, hb, _⟩ := v3 v hv
      exact hvotes ch n v call b hb hv'
    refine ⟨by rw [upd_same]; exact hR, by rw [upd_same]; exact ht, ?_, ?_, ?_, ?_, ?_, ?_⟩
    · intro h1 h2
      have a1 := ha.booked.home (fun h => h h1) h2
      have a2 := hG.home h1 h2
      rw [e1, e2, upd_same]
      omega
    · intro h1
      have a1 := ha.booked.away h1
      have a2 := hG.away h1
      rw [e1, e2, upd_same]
      omega
    · intro ch n v call b he hv
      rw [upd_same] at he
      exact Announced.mono (hvotes ch n v call b he hv) hgrow
    · intro ch n call he
      rw [upd_same, ha.booked.ev, List.mem_append] at he
      rcases he with he | he
      · exact Announced.mono (hpaid ch n call he) hgrow
      · exact Announced.mono (hG.paid ch n call he) hgrow
    · intro ch n call he
      rw [upd_same] at he ⊢
      have hold : ((st j).nonces ch).isSome := by
        rw [ha.booked.ev, List.mem_append] at he
        rcases he with he | he
        · exact (ha.fresh ch n call he).1
        · exact (hG.seen ch n call he).1
      obtain ⟨hnew, hreg⟩ := ha.nonces ch hold
      refine ⟨hnew, (C30_bridged_iff_resolved hR hnew n).2 ?_⟩
      rw [ha.booked.ev, since_append hreg]
      rw [ha.booked.ev, List.mem_append] at he
      rcases he with he | he
      · exact ⟨_, List.mem_append_left _ he, by simp [Event.resolves]⟩
      · obtain ⟨ev, h1, h2⟩ := (C30_bridged_iff_resolved hG.reach hold n).1 (hG.seen ch n call he).2
        exact ⟨ev, List.mem_append_right _ h1, h2⟩
    · rw [upd_same, ha.booked.ev]
      refine List.pairwise_append.2 ⟨ha.apart, hG.once, ?_⟩
      rintro x hx y hy ch n c1 c2 ⟨rfl, rfl⟩
      have h1 := (ha.fresh ch n c1 hx).2.1
      rw [(hG.seen ch n c2 hy).2] at h1
      cases h1
  · have hG := hg j hj
    have es : N.sent (upd st i s') j = N.sent st j := by simp only [Net.sent, upd_of_ne _ _ e]
    have ep : N.paid (upd st i s') j = N.paid st j := by simp only [Net.paid, upd_of_ne _ _ e]
    refine ⟨?_, ?_, ?_, ?_, ?_, ?_, ?_, ?_⟩
    · rw [upd_of_ne _ _ e]; exact hG.reach
    · rw [upd_of_ne _ _ e]; exact hG.tok
    · rw [es, ep, upd_of_ne _ _ e]; exact hG.home
    · rw [es, ep, upd_of_ne _ _ e]; exact hG.away
    · intro ch n v call b he hv
      rw [upd_of_ne _ _ e] at he
      exact Announced.mono (hG.votes ch n v call b he hv) hgrow
    · intro ch n call he
      rw [upd_of_ne _ _ e] at he
      exact Announced.mono (hG.paid ch n call he) hgrow
    · rw [upd_of_ne _ _ e]; exact hG.seen
    · rw [upd_of_ne _ _ e]; exact hG.once

/-- Nothing of interest is logged. -/
theorem Adds.nothing {i : Nat} {s' : State} {new : List Event} (he : s'.events = new ++ (st i).events)
    (hl : s'.ledger = (st i).ledger)
    (hno : ∀ ch, ((st i).nonces ch).isSome → (s'.nonces ch).isSome ∧ Event.registered ch ∉ new)
    (hn : ∀ e ∈ new, ∃ ch, e = .registered ch) : Adds N st i s' new := by
  refine ⟨.same he hl ?_, hno, ?_, ?_, ?_⟩
  · intro e h
    obtain ⟨ch, rfl⟩ := hn e h
    exact ⟨rfl, rfl⟩
  · refine List.Pairwise.imp_of_mem ?_ (List.pairwise_of_forall (l := new) (R := fun _ _ => True) (fun _ _ => trivial))
    rintro x y hx hy - ch n c1 c2 ⟨rfl, -⟩
    obtain ⟨ch', h⟩ := hn _ hx
    cases h
  · intro ch n call h
    obtain ⟨ch', h⟩ := hn _ h
    cases h
  · intro ch n v call b h
    obtain ⟨ch', h⟩ := hn _ h
    cases h

/-- Calls that touch neither the ledger nor the log nor the nonces. -/
theorem Good.plain {i : Nat} (hg : ∀ j ∈ N.ids, Good N st j) (hi : i ∈ N.ids) {s' : State}
    (hs : Step (N.cfg i) (st i) s') (h : TokOK N.token (N.asset i) (i ≠ N.home) s' ∧ s'.ledger = (st i).ledger ∧
      s'.events = (st i).events) (h4 : s'.nonces = (st i).nonces) : ∀ j ∈ N.ids, Good N (upd st i s') j := by
  obtain ⟨h1, h2, h3⟩ := h
  refine Good.step hg hi hs h1 (new := []) (.nothing h3 h2 (fun ch hc => ⟨by rw [h4]; exact hc, ?_⟩) ?_)
  · exact List.not_mem_nil
  · intro e he; cases he

theorem Good.registerChain {i ch : Nat} (hg : ∀ j ∈ N.ids, Good N st j) (hi : i ∈ N.ids) {s' : State}
    (hs : Step (N.cfg i) (st i) s') (hk : registerChain (N.cfg i) (st i) ch = .ok s') :
    ∀ j ∈ N.ids, Good N (upd st i s') j := by
  have ht := (hg i hi).tok
  unfold Bridge.registerChain at hk
  simp only [bind_ok_iff, ensure_ok_iff, pure_ok_iff, exists_const] at hk
  obtain ⟨⟨_, hnone⟩, rfl⟩ := hk
  refine Good.step hg hi hs ht (new := [.registered ch]) (.nothing rfl rfl ?_ ?_)
  · intro ch' hc
    have hne : ch' ≠ ch := by rintro rfl; rw [hnone] at hc; cases hc
    refine ⟨by simp only [upd_of_ne _ _ hne]; exact hc, ?_⟩
    simp [hne]
  · intro e he; exact ⟨ch, List.mem_singleton.1 he⟩

theorem TokOK.registerToken {t a : Nat} {ext : Prop} (h : TokOK t a ext s) {b : Nat} {tok : Token}
    (hf : (tok.id = t ∨ b = a) → tok.id = t ∧ b = a ∧ (tok.external = true ↔ ext))
    (hk : registerToken s b tok = .ok s') :
    (TokOK t a ext s' ∧ s'.ledger = s.ledger ∧ s'.events = s.events) ∧ s'.nonces = s.nonces := by
  unfold Bridge.registerToken at hk
  simp only [bind_ok_iff, ensure_ok_iff, pure_ok_iff, exists_const] at hk
  obtain ⟨_, rfl⟩ := hk
  refine ⟨⟨?_, rfl, rfl⟩, rfl⟩
  intro b' tk hb hor
  by_cases e : b' = b
  · subst e
    simp only [upd_same, Option.some.injEq] at hb
    subst hb
    exact hf hor
  · simp only [upd_of_ne _ _ e] at hb
    exact h b' tk hb hor

theorem TokOK.unregisterToken {t a : Nat} {ext : Prop} (h : TokOK t a ext s) {x : Nat}
    (hk : unregisterToken s x = .ok s') :
    (TokOK t a ext s' ∧ s'.ledger = s.ledger ∧ s'.events = s.events) ∧ s'.nonces = s.nonces := by
  unfold Bridge.unregisterToken at hk
  simp only [bind_ok_iff, ensure_ok_iff, pure_ok_iff, exists_const] at hk
  obtain ⟨_, rfl⟩ := hk
  refine ⟨⟨?_, rfl, rfl⟩, rfl⟩
  intro b tk hb hor
  by_cases e : b = s.assetId x
  · subst e
    simp only [upd_same, reduceCtorEq] at hb
  · simp only [upd_of_ne _ _ e] at hb
    exact h b tk hb hor

theorem Good.teleport {i w ch x d m : Nat} (hg : ∀ j ∈ N.ids, Good N st j) (hi : i ∈ N.ids) {s' : State}
    (hs : Step (N.cfg i) (st i) s') (hw : w ≠ (N.cfg i).acct) (hk : teleport (N.cfg i) (st i) w ch x d m = .ok s') :
    ∀ j ∈ N.ids, Good N (upd st i s') j := by
  obtain ⟨h1, h2, e, h3, h4⟩ := teleport_booked (hg i hi).reach (hg i hi).tok hw hk
  refine Good.step hg hi hs h1 (new := [e]) ⟨h3, fun ch' hc => ⟨h2 ch' hc, ?_⟩, by simp [Apart], ?_, ?_⟩
  · intro he
    exact (h4 0 ch' 0 ⟨0, 0, 0⟩ 0).2.2 (List.mem_singleton.1 he).symm
  · intro ch' n call he
    exact absurd (List.mem_singleton.1 he).symm (h4 0 ch' n call 0).2.1
  · intro ch' n v call b he
    exact absurd (List.mem_singleton.1 he).symm (h4 v ch' n call b).1

theorem Good.materialize {i : Nat} {o : Option Nat} {ch n : Nat} {call : MCall} {f : Bool}
    (hg : ∀ j ∈ N.ids, Good N st j) (hi : i ∈ N.ids) {s' : State}
    (hs : Step (N.cfg i) (st i) s') (f1 : (N.bad i).length < (st i).threshold)
    (f2 : f = true → o.getD (N.cfg i).rootOp ∉ N.bad i → N.Announced st ch i n call)
    (hk : materialize (N.cfg i) (st i) o ch n call f = .ok s') :
    ∀ j ∈ N.ids, Good N (upd st i s') j := by
  obtain ⟨h1, h2, h3, h4, new, h5, h6, h7⟩ := materialize_booked (hg i hi).reach (hg i hi).tok hk
  refine Good.step hg hi hs h1 (new := new) ⟨h5, fun ch' hc => ⟨by rw [h4]; exact hc, ?_⟩, h6, ?_, ?_⟩
  · intro he
    rcases h7 _ he with h | h | h
    · cases f <;> simp [voteEvent] at h
    · cases h
    · cases h
  · intro ch' n' call' he
    rcases h7 _ he with h | h | h
    · cases f <;> simp [voteEvent] at h
    · cases h; exact ⟨h2, h3, f1⟩
    · cases h
  · intro ch' n' v call' b he hv
    rcases h7 _ he with h | h | h
    · cases f with
      | false => simp [voteEvent] at h
      | true =>
        simp only [voteEvent, if_true, Event.voteFor.injEq] at h
        obtain ⟨rfl, rfl, rfl, rfl, rfl⟩ := h
        exact f2 rfl hv
    · cases h
    · cases h

theorem Good.call {i : Nat} (hg : ∀ j ∈ N.ids, Good N st j) (hi : i ∈ N.ids) {s' : State} (k : Call)
    (hf : N.Fair st i k) (hk : exec (N.cfg i) (st i) k = .ok s') : ∀ j ∈ N.ids, Good N (upd st i s') j := by
  have hG := hg i hi
  have hs : Step (N.cfg i) (st i) s' := .call k hk
  cases k with
  | registerChain ch => exact Good.registerChain hg hi hs hk
  | unregisterChain ch => exact hf.elim
  | registerToken a tok =>
    obtain ⟨h1, h2⟩ := TokOK.registerToken hG.tok hf hk
    exact Good.plain hg hi hs h1 h2
  | unregisterToken x =>
    obtain ⟨h1, h2⟩ := TokOK.unregisterToken hG.tok hk
    exact Good.plain hg hi hs h1 h2
  | setFee x v =>
    simp only [exec, setFee] at hk
    exact Good.plain hg hi hs (TokOK.mutate hG.reach hG.tok hk (fun _ => rfl) (fun _ => rfl)) (mutate_nonces hk)
  | setStatus x v =>
    simp only [exec, setStatus] at hk
    exact Good.plain hg hi hs (TokOK.mutate hG.reach hG.tok hk (fun _ => rfl) (fun _ => rfl)) (mutate_nonces hk)
  | setCap x d v =>
    simp only [exec, setCap] at hk
    exact Good.plain hg hi hs (TokOK.mutate hG.reach hG.tok hk (fun y => by cases d <;> rfl) (fun y => by cases d <;> rfl))
      (mutate_nonces hk)
  | cleanCap x d =>
    simp only [exec, cleanCap] at hk
    exact Good.plain hg hi hs (TokOK.mutate hG.reach hG.tok hk (fun y => by cases d <;> rfl) (fun y => by cases d <;> rfl))
      (mutate_nonces hk)
  | teleport w ch x d m => exact Good.teleport hg hi hs hf hk
  | materialize o ch n call f => exact Good.materialize hg hi hs hf.1 hf.2 hk

theorem changeMembers_keeps (c : Cfg) (s : State) (ms : List Nat) : (changeMembers c s ms).ledger = s.ledger ∧
    (changeMembers c s ms).events = s.events ∧ (changeMembers c s ms).nonces = s.nonces ∧
    (changeMembers c s ms).tokens = s.tokens := by
  unfold changeMembers
  rcases commit_cases { s with members := ms } (changeThreshold c { s with members := ms }) with he | ⟨he, _⟩
  · obtain ⟨_, h⟩ := changeThreshold_ok he
    rw [h]
    exact ⟨rfl, rfl, rfl, rfl⟩
  · rw [he]
    exact ⟨rfl, rfl, rfl, rfl⟩

theorem Good.members {i : Nat} (hg : ∀ j ∈ N.ids, Good N st j) (hi : i ∈ N.ids) (ms : List Nat) :
    ∀ j ∈ N.ids, Good N (upd st i (changeMembers (N.cfg i) (st i) ms)) j := by
  have hs : Step (N.cfg i) (st i) (changeMembers (N.cfg i) (st i) ms) := .members ms
  obtain ⟨k1, k2, k3, k4⟩ := changeMembers_keeps (N.cfg i) (st i) ms
  generalize changeMembers (N.cfg i) (st i) ms = s' at *
  refine Good.plain hg hi hs ⟨?_, k1, k2⟩ k3
  have := (hg i hi).tok
  unfold TokOK at this ⊢
  rw [k4]; exact this

theorem Good.block {i : Nat} (hg : ∀ j ∈ N.ids, Good N st j) (hi : i ∈ N.ids) :
    ∀ j ∈ N.ids, Good N (upd st i (newBlock (st i))) j :=
  Good.plain hg hi .block ⟨(hg i hi).tok, rfl, rfl⟩ rfl

theorem Good.env {i : Nat} (hg : ∀ j ∈ N.ids, Good N st j) (hi : i ∈ N.ids) {s' : State} (hq : N.Quiet i (st i) s') :
    ∀ j ∈ N.ids, Good N (upd st i s') j := by
  have hev : s'.events = (st i).events := by rw [hq.env.eq]
  have hno : s'.nonces = (st i).nonces := by rw [hq.env.eq]
  have htk : s'.tokens = (st i).tokens := by rw [hq.env.eq]
  refine Good.step hg hi (.env hq.env) ?_ (new := []) ⟨⟨hev, ?_, ?_⟩, fun ch hc => ⟨by rw [hno]; exact hc, List.not_mem_nil⟩,
    .nil, ?_, ?_⟩
  · have := (hg i hi).tok
    unfold TokOK at this ⊢
    rw [htk]; exact this
  · intro h1 _
    have := hq.home (not_not.1 h1)
    simpa using this
  · intro h1
    have := hq.away h1
    simpa using this
  · intro ch n call he; cases he
  · intro ch n v call b he; cases he

theorem Good.init {i : Nat} (h : Fresh (st i)) (h0 : i ≠ N.home → (st i).ledger.iss (N.asset i) = 0) : Good N st i := by
  obtain ⟨l, ms, now, hw, hs⟩ := h
  have hr : Reach (N.cfg i) (st i) := hs ▸ .init l ms now hw
  have ev : (st i).events = [] := by rw [hs]
  have tk : (st i).tokens = fun _ => none := by rw [hs]
  have hsent : N.sent st i = 0 := by simp [Net.sent, ev]
  have hpaid : N.paid st i = 0 := by simp [Net.paid, ev]
  refine ⟨hr, ?_, ?_, ?_, ?_, ?_, ?_, ?_⟩
  · intro b tok hb
    rw [tk] at hb
    cases hb
  · intro _ _; omega
  · intro hh; have := h0 hh; omega
  · intro ch n v call b he; rw [ev] at he; cases he
  · intro ch n call he; rw [ev] at he; cases he
  · intro ch n call he; rw [ev] at he; cases he
  · rw [ev]; exact .nil

theorem Net.Run.good (h : N.Run st) : ∀ i ∈ N.ids, Good N st i := by
  induction h with
  | init st h h0 => exact fun i hi => Good.init (h i hi) (h0 i hi)
  | call h hi k hf hk ih => exact Good.call ih hi k hf hk
  | block h hi ih => exact Good.block ih hi
  | members h hi ms ih => exact Good.members ih hi ms
  | env h hi hq ih => exact Good.env ih hi hq

/-! ## Totals over the network -/

/-- A payout on chain `i`: where it was paid, where it came from, its nonce and the amount. -/
def Net.payLine (N : Net) (i : Nat) : Event → Option (Nat × Nat × Nat × Nat)
  | .minted ch n call => if call.token = N.token then some (i, ch, n, call.amount) else none
  | _ => none

/-- A transfer announced on chain `j`, in the same form. -/
def Net.sentLine (N : Net) (j : Nat) : Event → Option (Nat × Nat × Nat × Nat)
  | .teleported _ i n tok _ m _ => if tok = N.token then some (i, j, n, m) else none
  | _ => none

def Net.payLines (N : Net) (st : Nat → State) : List (Nat × Nat × Nat × Nat) :=
  N.ids.flatMap (fun i => (st i).events.filterMap (N.payLine i))
def Net.sentLines (N : Net) (st : Nat → State) : List (Nat × Nat × Nat × Nat) :=
  N.ids.flatMap (fun i => (st i).events.filterMap (N.sentLine i))

theorem sum_flatMap' {α β : Type} (f : β → Nat) (g : α → List β) (l : List α) :
    ((l.flatMap g).map f).sum = (l.map (fun a => ((g a).map f).sum)).sum := by
  induction l with
  | nil => rfl
  | cons x xs ih => simp only [List.flatMap_cons, List.map_append, List.sum_append, List.map_cons, List.sum_cons, ih]

theorem payLines_sum : ((N.payLines st).map (fun x => x.2.2.2)).sum = (N.ids.map (N.paid st)).sum := by
  unfold Net.payLines
  rw [sum_flatMap']
  congr 1
  refine List.map_congr_left fun i _ => ?_
  unfold Net.paid
  induction (st i).events with
  | nil => rfl
  | cons e es ih =>
    cases e with
    | minted ch n call =>
      by_cases h : call.token = N.token
      · simp [Net.payLine, Event.paidAmt, h, ih]
      · simp [Net.payLine, Event.paidAmt, h, ih]
    | _ => rw [List.filterMap_cons_none rfl]; simp [Event.paidAmt, ih]

theorem sentLines_sum : ((N.sentLines st).map (fun x => x.2.2.2)).sum = (N.ids.map (N.sent st)).sum := by
  unfold Net.sentLines
  rw [sum_flatMap']
  congr 1
  refine List.map_congr_left fun i _ => ?_
  unfold Net.sent
  induction (st i).events with
  | nil => rfl
  | cons e es ih =>
    cases e with
    | teleported w ch n tok d m f =>
      by_cases h : tok = N.token
      · simp [Net.sentLine, Event.sentAmt, h, ih]
      · simp [Net.sentLine, Event.sentAmt, h, ih]
    | _ => rw [List.filterMap_cons_none rfl]; simp [Event.sentAmt, ih]

theorem mem_payLines {x : Nat × Nat × Nat × Nat} (h : x ∈ N.payLines st) :
    x.1 ∈ N.ids ∧ ∃ call, Event.minted x.2.1 x.2.2.1 call ∈ (st x.1).events ∧ call.token = N.token ∧ call.amount = x.2.2.2 := by
  unfold Net.payLines at h
  obtain ⟨i, hi, h⟩ := List.mem_flatMap.1 h
  obtain ⟨e, he, h⟩ := List.mem_filterMap.1 h
  cases e with
  | minted ch n call =>
    simp only [Net.payLine] at h
    split_ifs at h with ht
    cases h
    exact ⟨hi, call, he, ht, rfl⟩
  | _ => cases h

theorem mem_sentLines {i j n m : Nat} {call : MCall} (h : N.Announced st j i n call) (ht : call.token = N.token)
    (hm : call.amount = m) : (i, j, n, m) ∈ N.sentLines st := by
  obtain ⟨hj, w, f, he⟩ := h
  refine List.mem_flatMap.2 ⟨j, hj, List.mem_filterMap.2 ⟨_, he, ?_⟩⟩
  simp [Net.sentLine, ht, hm]

theorem payLines_nodup (hok : N.OK) (h : N.Run st) : (N.payLines st).Nodup := by
  unfold Net.payLines
  rw [List.nodup_flatMap]
  refine ⟨fun i hi => ?_, ?_⟩
  · have ho := (h.good i hi).once
    unfold Apart at ho
    unfold List.Nodup
    rw [List.pairwise_filterMap]
    refine ho.imp ?_
    intro e e' hee x hx y hy hxy
    subst hxy
    cases e with
    | minted ch n call =>
      cases e' with
      | minted ch' n' call' =>
        simp only [Net.payLine] at hx hy
        split_ifs at hx hy
        have hxy := Option.some.inj (hx.trans hy.symm)
        simp only [Prod.mk.injEq, true_and] at hxy
        obtain ⟨rfl, rfl, -⟩ := hxy
        exact hee ch n call call' ⟨rfl, rfl⟩
      | _ => cases hy
    | _ => cases hx
  · refine hok.nodup.imp ?_
    intro i j hij x hx hy
    obtain ⟨e, _, h1⟩ := List.mem_filterMap.1 hx
    obtain ⟨e', _, h2⟩ := List.mem_filterMap.1 hy
    cases e with
    | minted ch n call =>
      cases e' with
      | minted ch' n' call' =>
        simp only [Net.payLine] at h1 h2
        split_ifs at h1 h2
        have hxy := Option.some.inj (h1.trans h2.symm)
        simp only [Prod.mk.injEq] at hxy
        exact hij hxy.1
      | _ => cases h2
    | _ => cases h1

theorem payLines_sub (h : N.Run st) : ∀ x ∈ N.payLines st, x ∈ N.sentLines st := by
  intro x hx
  obtain ⟨hi, call, he, ht, hm⟩ := mem_payLines hx
  exact mem_sentLines ((h.good _ hi).paid _ _ _ he) ht hm

theorem sum_le_of_sub {l1 l2 : List (Nat × Nat × Nat × Nat)} (hn : l1.Nodup) (hs : ∀ x ∈ l1, x ∈ l2) :
    (l1.map (fun x => x.2.2.2)).sum ≤ (l2.map (fun x => x.2.2.2)).sum := by
  obtain ⟨l, hp, hl⟩ := List.subperm_of_subset hn hs
  rw [← (hp.map (fun x => x.2.2.2)).sum_eq]
  exact (hl.map (fun x => x.2.2.2)).sum_le_sum (fun _ _ => Nat.zero_le _)

/-- C234: over the whole network no more was ever paid out than was announced. -/
theorem C234_paid_le_sent (hok : N.OK) (h : N.Run st) : (N.ids.map (N.paid st)).sum ≤ (N.ids.map (N.sent st)).sum := by
  rw [← payLines_sum, ← sentLines_sum]
  exact sum_le_of_sub (payLines_nodup hok h) (payLines_sub h)

theorem sum_split (l : List Nat) (hn : l.Nodup) {a : Nat} (ha : a ∈ l) (f : Nat → Nat) :
    (l.map f).sum = f a + ((l.filter (· ≠ a)).map f).sum := by
  induction l with
  | nil => cases ha
  | cons x xs ih =>
    rw [List.nodup_cons] at hn
    by_cases e : x = a
    · subst e
      have hx : xs.filter (· ≠ x) = xs := List.filter_eq_self.2 (fun y hy => by
        simp only [ne_eq, decide_eq_true_eq]
        rintro rfl; exact hn.1 hy)
      have h2 : (x :: xs).filter (· ≠ x) = xs.filter (· ≠ x) := by simp
      rw [h2, hx]
      simp
    · have ha' : a ∈ xs := by
        rcases List.mem_cons.1 ha with h | h
        · exact absurd h.symm e
        · exact h
      have h2 : (x :: xs).filter (· ≠ a) = x :: xs.filter (· ≠ a) := by simp [e]
      rw [h2]
      simp only [List.map_cons, List.sum_cons, ih hn.2 ha']
      omega

theorem abroad_le (h : N.Run st) : ∀ l : List Nat, (∀ i ∈ l, i ∈ N.ids ∧ i ≠ N.home) →
    (l.map (fun i => (st i).ledger.iss (N.asset i))).sum + (l.map (N.sent st)).sum ≤ (l.map (N.paid st)).sum
  | [], _ => Nat.le_refl _
  | i :: l, hl => by
    have h1 := (h.good i (hl i List.mem_cons_self).1).away (hl i List.mem_cons_self).2
    have h2 := abroad_le h l (fun j hj => hl j (List.mem_cons_of_mem _ hj))
    simp only [List.map_cons, List.sum_cons]
    omega

/-- C234: in every history of the network, all units of the token that exist away from its home, together with everything that
is on its way, are covered by what the bridge account holds at home. -/
theorem C234_backed (hok : N.OK) (h : N.Run st) : N.abroad st + N.inFlight st ≤ N.locked st := by
  have h1 := C234_paid_le_sent hok h
  have h2 := (h.good _ hok.home).home rfl hok.gift
  have h3 := abroad_le h (N.ids.filter (· ≠ N.home)) (fun i hi => by
    rw [List.mem_filter] at hi
    exact ⟨hi.1, by simpa using hi.2⟩)
  unfold Net.inFlight Net.abroad Net.locked
  rw [sum_split N.ids hok.nodup hok.home (N.paid st), sum_split N.ids hok.nodup hok.home (N.sent st)] at h1 ⊢
  omega

/-- C234: every announced transfer that its destination has not paid out yet is part of what is on its way; if it goes home,
the bridge account there holds enough to pay it. -/
theorem C234_payable (hok : N.OK) (h : N.Run st) {j i n : Nat} {call : MCall} (ha : N.Announced st j i n call)
    (ht : call.token = N.token) (hn : ∀ call', Event.minted j n call' ∉ (st i).events) :
    call.amount ≤ N.inFlight st ∧ call.amount ≤ N.locked st := by
  have hx : (i, j, n, call.amount) ∉ N.payLines st := by
    intro hx
    obtain ⟨_, call', he, _⟩ := mem_payLines hx
    exact hn call' he
  have := sum_le_of_sub (l1 := (i, j, n, call.amount) :: N.payLines st) (l2 := N.sentLines st)
    (List.nodup_cons.2 ⟨hx, payLines_nodup hok h⟩) (by
      intro x hx
      rcases List.mem_cons.1 hx with rfl | hx
      · exact mem_sentLines ha ht rfl
      · exact payLines_sub h x hx)
  rw [List.map_cons, List.sum_cons, payLines_sum, sentLines_sum] at this
  have h1 : call.amount ≤ N.inFlight st := by
    unfold Net.inFlight
    exact Nat.le_sub_of_add_le this
  have h2 := C234_backed hok h
  exact ⟨h1, by omega⟩

/-- C234: every payout on any chain of the network was announced on the chain it names, with the same recipient and amount, and
is made once. -/
theorem C234_payouts (h : N.Run st) {i : Nat} (hi : i ∈ N.ids) :
    (∀ ch n call, Event.minted ch n call ∈ (st i).events → N.Announced st ch i n call) ∧
    ∀ ch n, (st i).events.countP (Event.pays ch n) ≤ 1 := by
  refine ⟨(h.good i hi).paid, fun ch n => ?_⟩
  have ho := (h.good i hi).once
  unfold Apart at ho
  revert ho
  generalize (st i).events = evs
  intro ho
  induction evs with
  | nil => exact Nat.zero_le _
  | cons e es ih =>
    rw [List.pairwise_cons] at ho
    rw [List.countP_cons]
    by_cases hp : e.pays ch n = true
    · rw [if_pos hp]
      have : es.countP (Event.pays ch n) = 0 := by
        rw [List.countP_eq_zero]
        intro e' he' hp'
        cases e with
        | minted a b call =>
          cases e' with
          | minted a' b' call' =>
            simp only [Event.pays, decide_eq_true_eq] at hp hp'
            obtain ⟨rfl, rfl⟩ := hp
            obtain ⟨rfl, rfl⟩ := hp'
            exact ho.1 _ he' _ _ call call' ⟨rfl, rfl⟩
          | _ => cases hp'
        | _ => cases hp
      omega
    · rw [if_neg hp]
      exact ih ho.2

/-! ## A concrete network

Chains 1 (the home, where the token is asset 1) and 2 (where it is asset 5); relayers 11, 12 and 13, of which 13 is dishonest. -/

/-- A check that implies `Net.Fair`. -/
def Net.fairB (N : Net) (st : Nat → State) (i : Nat) : Call → Bool
  | .unregisterChain _ => false
  | .registerToken a tok => decide (tok.id = N.token ∧ a = N.asset i) && (tok.external == decide (i ≠ N.home))
  | .teleport w _ _ _ _ => decide (w ≠ (N.cfg i).acct)
  | .materialize o ch n call f => decide ((N.bad i).length < (st i).threshold) &&
      (!f || decide (o.getD (N.cfg i).rootOp ∈ N.bad i) || (decide (ch ∈ N.ids) &&
        (st ch).events.any (fun e => match e with
          | .teleported _ i' n' t d m _ => decide (i' = i ∧ n' = n ∧ t = call.token ∧ d = call.dest ∧ m = call.amount)
          | _ => false)))
  | _ => true

theorem fairB_fair {i : Nat} {k : Call} (h : N.fairB st i k = true) : N.Fair st i k := by
  cases k with
  | unregisterChain _ => simp [Net.fairB] at h
  | registerToken a tok =>
    simp only [Net.fairB, Bool.and_eq_true, decide_eq_true_eq, beq_iff_eq] at h
    intro _
    refine ⟨h.1.1, h.1.2, ?_⟩
    rw [h.2]; simp
  | teleport w _ _ _ _ => simpa [Net.fairB, Net.Fair] using h
  | materialize o ch n call f =>
    simp only [Net.fairB, Bool.and_eq_true, decide_eq_true_eq, Bool.or_eq_true, Bool.not_eq_true', List.any_eq_true] at h
    obtain ⟨h1, h2⟩ := h
    refine ⟨h1, fun hf hv => ?_⟩
    rcases h2 with (h2 | h2) | ⟨h2, e, he, h3⟩
    · rw [hf] at h2; cases h2
    · exact absurd h2 hv
    · cases e with
      | teleported w i' n' t d m f' =>
        simp only [decide_eq_true_eq] at h3
        obtain ⟨rfl, rfl, rfl, rfl, rfl⟩ := h3
        exact ⟨h2, w, f', he⟩
      | _ => cases h3
  | _ => trivial

/-- The calls of a list that are fair, in order. -/
def Net.play (N : Net) (st : Nat → State) : List (Nat × Call) → (Nat → State)
  | [] => st
  | (i, k) :: ks => N.play (if i ∈ N.ids ∧ N.fairB st i k = true then upd st i (commit (st i) (exec (N.cfg i) (st i) k)) else st) ks

theorem Net.Run.play (ks : List (Nat × Call)) : ∀ {st : Nat → State}, N.Run st → N.Run (N.play st ks) := by
  induction ks with
  | nil => exact fun h => h
  | cons x ks ih =>
    intro st h
    obtain ⟨i, k⟩ := x
    unfold Net.play
    refine ih ?_
    split_ifs with hc
    · rcases commit_cases (st i) (exec (N.cfg i) (st i) k) with he | ⟨he, _⟩
      · exact .call h hc.1 k (fairB_fair hc.2) he
      · rw [he, upd_eq_self]; exact h
    · exact h

def exNet : Net where
  ids := [1, 2]
  cfg := fun i => ⟨1000, 999, 998, fun _ _ => 0, 0, 1, i, 100, 50⟩
  token := 100
  asset := fun i => if i = 1 then 1 else 5
  home := 1
  bad := fun _ => [13]

def exNet0 : Nat → State := fun i =>
  ⟨if i = 1 then exL else Ledger.ofList [(0, 8, 10)], 1, fun _ => none, fun _ => none, fun _ => none, fun _ => none,
    fun _ _ => none, [], 5, []⟩

theorem exNet_ok : exNet.OK := ⟨by decide, by decide, by decide⟩

theorem exNet0_run : exNet.Run exNet0 := by
  refine .init _ ?_ ?_
  · intro i _
    refine ⟨_, _, _, ?_, rfl⟩
    split_ifs
    · exact exL_wf
    · exact Ledger.ofList_wf _
  · intro i hi hne
    have hi' : i = 1 ∨ i = 2 := by simpa [exNet] using hi
    rcases hi' with rfl | rfl
    · exact absurd rfl hne
    · decide +kernel

def exNet1 : Nat → State :=
  upd (upd exNet0 1 (changeMembers (exNet.cfg 1) (exNet0 1) [11, 12, 13])) 2
    (changeMembers (exNet.cfg 2) (upd exNet0 1 (changeMembers (exNet.cfg 1) (exNet0 1) [11, 12, 13]) 2) [11, 12, 13])

theorem exNet1_run : exNet.Run exNet1 :=
  .members (.members exNet0_run (by decide) _) (by decide) _

/-- User 7 sends 50 from home, relayers 11 and 12 carry the 47 announced over, relayer 13 votes for something that never
happened, and account 8 sends 20 of it back. -/
def exNet2 : Nat → State := exNet.play exNet1
  [(1, .registerChain 2), (1, .registerToken 1 exTok), (2, .registerChain 1), (2, .registerToken 5 { exTok with external := true }),
   (1, .teleport 7 2 100 8 50), (2, .materialize (some 11) 1 1 ⟨100, 8, 47⟩ true),
   (2, .materialize (some 12) 1 1 ⟨100, 8, 47⟩ true), (2, .materialize (some 13) 1 2 ⟨100, 66, 300⟩ true),
   (2, .teleport 8 1 100 9 20)]

theorem exNet2_run : exNet.Run exNet2 := Net.Run.play _ exNet1_run

/-- In the fixture the bridge account held 500 of the asset before; 30 units exist abroad and 17 are on their way back. -/
example : exNet.abroad exNet2 = 30 ∧ exNet.inFlight exNet2 = 17 ∧ exNet.locked exNet2 = 550 ∧
    (exNet2 2).ledger.bal 5 8 = 27 ∧ (exNet2 2).events.length = 6 := by decide +kernel

example : exNet.Announced exNet2 2 1 1 ⟨100, 9, 17⟩ ∧ (∀ call', Event.minted 2 1 call' ∉ (exNet2 1).events) := by
  refine ⟨⟨by decide, 8, 3, by decide +kernel⟩, fun call' h => ?_⟩
  have : (exNet2 1).events.all (fun e => match e with | .minted _ _ _ => false | _ => true) = true := by decide +kernel
  have := List.all_eq_true.1 this _ h
  cases this

end Verif.Bridge
