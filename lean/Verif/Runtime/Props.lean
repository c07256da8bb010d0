import Verif.Runtime.Inv

/-!
# C152–C155: the emergency switch, call filters and proxies
-/

namespace Verif.Runtime
open Verif

/-! ### Extrinsics -/

/-- State after the fee and the nonce of a signed transaction. -/
def afterFee (s : State) (w fee : Nat) : State :=
  { s with nonce := upd s.nonce w (s.nonce w + 1), bal := upd s.bal w (s.bal w - fee) }

theorem applyExt_signed (c : Cfg) (s : State) (w fee : Nat) (k : Call) :
    applyExt c s (.signed w fee k) = (if fee + c.ed ≤ s.bal w ∧ s.nonce w < maxU32 then
      commit (afterFee s w fee) (dispatch c (afterFee s w fee) ⟨.signed w, []⟩ k) else s) := rfl

theorem dispatch_ok {c : Cfg} {s s' : State} {o : Origin} {k : Call} (h : dispatch c s o k = .ok s') :
    allowed c s o k.kind = true ∧ Exec c o s k s' := by
  unfold dispatch at h
  split at h
  · rename_i ha
    exact ⟨ha, exec_of_bypass c k s o s' h⟩
  · cases h

/-- A signed transaction does nothing, or takes its fee, or takes its fee and runs its call. -/
theorem signed_cases (c : Cfg) (s : State) (w fee : Nat) (k : Call) :
    applyExt c s (.signed w fee k) = s ∨
    (s.nonce w < maxU32 ∧ (applyExt c s (.signed w fee k) = afterFee s w fee ∨
      (allowed c (afterFee s w fee) ⟨.signed w, []⟩ k.kind = true ∧
        Exec c ⟨.signed w, []⟩ (afterFee s w fee) k (applyExt c s (.signed w fee k))))) := by
  rw [applyExt_signed]
  split
  · rename_i hc
    refine Or.inr ⟨hc.2, ?_⟩
    rcases commit_cases (afterFee s w fee) (dispatch c (afterFee s w fee) ⟨.signed w, []⟩ k) with h | h
    · exact Or.inr (dispatch_ok h)
    · exact Or.inl h.1
  · exact Or.inl rfl

theorem unsigned_cases (c : Cfg) (s : State) (k : Call) :
    applyExt c s (.unsigned k) = s ∨ (allowed c s ⟨.none, []⟩ k.kind = true ∧
      Exec c ⟨.none, []⟩ s k (applyExt c s (.unsigned k))) := by
  show commit s (dispatch c s ⟨.none, []⟩ k) = s ∨ _
  rcases commit_cases s (dispatch c s ⟨.none, []⟩ k) with h | h
  · exact Or.inr (dispatch_ok h)
  · exact Or.inl h.1

theorem governed_cases (c : Cfg) (s : State) (o : Caller) (k : Call) :
    applyExt c s (.governed o k) = s ∨ Exec c ⟨o, []⟩ s k (applyExt c s (.governed o k)) := by
  by_cases ho : o = .root ∨ o = .council
  · have e : applyExt c s (.governed o k) = commit s (dispatch c s ⟨o, []⟩ k) := if_pos ho
    rcases commit_cases s (dispatch c s ⟨o, []⟩ k) with h | h
    · rw [e]
      exact Or.inr (dispatch_ok h).2
    · rw [e]
      exact Or.inl h.1
  · exact Or.inl (if_neg ho)

theorem ext_parity (c : Cfg) (s : State) (x : Ext) : Parity s (applyExt c s x) := by
  cases x with
  | signed w fee k =>
    have f : Parity s (afterFee s w fee) := .rfl ⟨rfl, rfl, rfl, rfl⟩
    rcases signed_cases c s w fee k with h | ⟨-, h | h⟩
    · rw [h]
      exact .rfl .rfl
    · rw [h]
      exact f
    · exact f.trans h.2.parity
  | unsigned k =>
    rcases unsigned_cases c s k with h | h
    · rw [h]
      exact .rfl .rfl
    · exact h.2.parity
  | governed o k =>
    rcases governed_cases c s o k with h | h
    · rw [h]
      exact .rfl .rfl
    · exact h.parity

/-- A configuration for examples: signatures are `[signer, …]` of length 65, money needs to be at least 10. -/
def exCfg (verify : Bool) : Cfg where
  chain := .parallel
  callIdx := fun _ => 0
  leafOk := fun _ _ _ _ => true
  derive := fun a i => 1000 * (a + 1) + i
  ed := 10
  treasury := 99
  callFee := 5
  magic := 2012
  verify := verify
  enc := fun _ => []
  keccak := fun l => l
  recover := fun sig _ => sig.head?.map fun h => [h]
  acctOf := fun l => l.headD 0

/-- Two funded accounts; account 3 has made 1 its proxy for loans, account 4 its proxy for everything. -/
def exState : State where
  disP := fun _ => false
  disC := fun _ _ => false
  nonce := fun _ => 0
  bal := fun a => if a = 1 ∨ a = 2 ∨ a = 3 ∨ a = 4 then 100 else 0
  proxies := fun a => if a = 3 then [⟨1, .loans, 0⟩] else if a = 4 then [⟨1, .any, 0⟩] else []
  killed := fun _ => 0
  log := []

def loanMint : Call := .leaf ⟨.loans, .mint⟩ 7

/-! ### C152 -/

/-- **C152.** What the emergency switch does to users' transactions: a call that is on neither list or is
switched off only costs its fee and nonce. -/
theorem C152_blocked (c : Cfg) (s : State) (w fee : Nat) (k : Call) (hk : ¬ UserMay c s k.kind)
    (hf : fee + c.ed ≤ s.bal w) (hn : s.nonce w < maxU32) :
    applyExt c s (.signed w fee k) =
      { s with nonce := upd s.nonce w (s.nonce w + 1), bal := upd s.bal w (s.bal w - fee) } := by
  rcases signed_cases c s w fee k with h | ⟨-, h | h⟩
  · exfalso
    rw [applyExt_signed, if_pos ⟨hf, hn⟩] at h
    have e : commit (afterFee s w fee) (dispatch c (afterFee s w fee) ⟨.signed w, []⟩ k) = afterFee s w fee := by
      unfold dispatch
      rw [if_neg]
      · rfl
      · rw [allowed_signed rfl]
        exact fun a => hk ((userMay_congr (s := s) (s' := afterFee s w fee) rfl rfl _).1 a.1)
    rw [e] at h
    have := congrFun (congrArg State.nonce h) w
    rw [show (afterFee s w fee).nonce w = s.nonce w + 1 from upd_same _ _ _] at this
    omega
  · exact h
  · exact absurd ((userMay_congr (s := s) (s' := afterFee s w fee) rfl rfl _).1 ((allowed_signed rfl).1 h.1).1) hk

/-- **C152.** And a call that users may make reaches its pallet: it is carried out if the pallet accepts it. -/
theorem C152_offered (c : Cfg) (s : State) (w fee : Nat) (k : Kind) (arg : Nat) (hk : UserMay c s k)
    (hm : k.fn.modelled = false) (hf : fee + c.ed ≤ s.bal w) (hn : s.nonce w < maxU32)
    (hl : c.leafOk (afterFee s w fee) (.signed w) k arg = true) :
    Did s (applyExt c s (.signed w fee (.leaf k arg))) [⟨.signed w, k, arg, 0⟩] := by
  have ha : allowed c (afterFee s w fee) ⟨.signed w, []⟩ (Call.leaf k arg).kind = true := by
    rw [allowed_signed rfl]
    exact ⟨(userMay_congr (s := s) (s' := afterFee s w fee) rfl rfl _).2 hk, by simp⟩
  rw [applyExt_signed, if_pos ⟨hf, hn⟩]
  unfold dispatch
  rw [if_pos ha]
  simp only [bypass, hm, hl, Bool.false_eq_true, if_false, if_true, commit]
  rfl

/-- **C152.** Over any history of transactions of any kind the switches are exactly what the toggle events
say, and every toggle event was made by root or the council. -/
theorem C152_events (c : Cfg) (xs : List Ext) : ∀ s : State, ∃ es, Did s (runExts c s xs) es ∧
    (∀ p, (runExts c s xs).disP p = (s.disP p ^^ decide (palletToggles p es % 2 = 1))) ∧
    (∀ p i, (runExts c s xs).disC p i = (s.disC p i ^^ decide (callToggles p i es % 2 = 1))) ∧
    ∀ e ∈ es, e.kind = ⟨.emergencyShutdown, .togglePallet⟩ ∨ e.kind = ⟨.emergencyShutdown, .toggleCall⟩ →
      e.who = .root ∨ e.who = .council := by
  suffices h : ∀ s, Parity s (runExts c s xs) by
    intro s
    obtain ⟨es, h1, h2, h3, h4⟩ := h s
    refine ⟨es, h1, h2, h3, fun e he hk => ?_⟩
    rcases hk with hk | hk <;> exact h4 e he (by rw [hk]) (by rw [hk]; rfl)
  induction xs with
  | nil => exact fun s => .rfl .rfl
  | cons x xs ih => exact fun s => (ext_parity c s x).trans (ih _)

/-- **C152.** No transaction of a user, signed or unsigned, changes a switch. -/
theorem C152_users_cannot (c : Cfg) (s : State) (x : Ext) (hx : ∀ o k, x ≠ .governed o k) :
    (applyExt c s x).disP = s.disP ∧ (applyExt c s x).disC = s.disC := by
  cases x with
  | signed w fee k =>
    rcases signed_cases c s w fee k with h | ⟨-, h | h⟩
    · rw [h]
      exact ⟨rfl, rfl⟩
    · rw [h]
      exact ⟨rfl, rfl⟩
    · exact h.2.flags_signed rfl
  | unsigned k =>
    rcases unsigned_cases c s k with h | h
    · rw [h]
      exact ⟨rfl, rfl⟩
    · exact h.2.flags (by simp) (by simp)
  | governed o k => exact absurd rfl (hx o k)

/-- **C152.** In every state, whatever has been switched off, root and the council can flip any switch, and
that is all it does: there is no way to lock governance out. -/
theorem C152_no_lockout (c : Cfg) (s : State) (o : Caller) (ho : o = .root ∨ o = .council) (p i : Nat) :
    (∃ e, applyExt c s (.governed o (.togglePallet p)) =
      { s with disP := upd s.disP p (!s.disP p), log := e :: s.log }) ∧
    (∃ e, applyExt c s (.governed o (.toggleCall p i)) =
      { s with disC := upd s.disC p (upd (s.disC p) i (!s.disC p i)), log := e :: s.log }) := by
  have ha : ∀ k : Call, whitelisted c.chain k.kind = true → allowed c s ⟨o, []⟩ k.kind = true := by
    intro k hk
    have hb := (baseFilter_iff c s k.kind).2 (userMay_of_whitelisted hk)
    simp [allowed, hb]
  constructor
  · refine ⟨⟨o, ⟨.emergencyShutdown, .togglePallet⟩, p, 0⟩, ?_⟩
    show (if o = .root ∨ o = .council then commit s (dispatch c s ⟨o, []⟩ (.togglePallet p)) else s) = _
    rw [if_pos ho]
    unfold dispatch
    rw [if_pos (ha _ rfl)]
    simp only [bypass, togglePallet, ensure_of ho, ok_bind]
    rfl
  · refine ⟨⟨o, ⟨.emergencyShutdown, .toggleCall⟩, p, i⟩, ?_⟩
    show (if o = .root ∨ o = .council then commit s (dispatch c s ⟨o, []⟩ (.toggleCall p i)) else s) = _
    rw [if_pos ho]
    unfold dispatch
    rw [if_pos (ha _ rfl)]
    simp only [bypass, toggleCall, ensure_of ho, ok_bind]
    rfl

theorem Pallet.index_inj {p q : Pallet} (h : p.index = q.index) : p = q := by
  revert h
  cases p <;> cases q <;> decide

/-- **C152.** The switch of a pallet concerns the calls of that pallet and no others. -/
theorem C152_one_pallet (c : Cfg) (s : State) (o : Caller) (ho : o = .root ∨ o = .council) (p : Pallet) (k : Kind) :
    (k.pallet ≠ p → (UserMay c (applyExt c s (.governed o (.togglePallet p.index))) k ↔ UserMay c s k)) ∧
    (k.pallet = p → s.disP p.index = false → whitelisted c.chain k = false →
      ¬ UserMay c (applyExt c s (.governed o (.togglePallet p.index))) k) ∧
    (k.pallet = p → s.disP p.index = true → s.disC p.index (c.callIdx k) = false → listed k = true →
      UserMay c (applyExt c s (.governed o (.togglePallet p.index))) k) := by
  obtain ⟨⟨e, h⟩, -⟩ := C152_no_lockout c s o ho p.index 0
  rw [h]
  refine ⟨fun hk => ?_, fun hk hd hw hu => ?_, fun hk hd hc hl => ?_⟩
  · have hne : k.pallet.index ≠ p.index := fun e => hk (Pallet.index_inj e)
    unfold UserMay SwitchedOff
    dsimp only
    rw [upd_of_ne _ _ hne]
  · refine hu.2 ⟨hw, Or.inl ?_⟩
    dsimp only
    rw [hk, upd_same, hd]
    rfl
  · refine ⟨Or.inr hl, fun ho => ?_⟩
    obtain ⟨-, hs⟩ := ho
    dsimp only at hs
    rw [hk, upd_same, hd, hc] at hs
    simp at hs

example : UserMay (exCfg true) exState loanMint.kind ∧
    ¬ UserMay (exCfg true) (applyExt (exCfg true) exState (.governed .council (.togglePallet 50))) loanMint.kind := by
  rw [← baseFilter_iff, ← baseFilter_iff]
  decide +kernel

example : (applyExt (exCfg true) exState (.signed 1 2 loanMint)).log = [⟨.signed 1, ⟨.loans, .mint⟩, 7, 0⟩] := by
  decide +kernel

/-! ### C153 -/

/-- **C153.** Everything that a signed transaction causes to be carried out, at any depth of batches,
derivative accounts and proxies, is a call that users may make; and the switches stay as they are. -/
theorem C153_user_calls_filtered (c : Cfg) (s : State) (w fee : Nat) (k : Call) :
    ∃ es, Did s (applyExt c s (.signed w fee k)) es ∧ ∀ e ∈ es, UserMay c s e.kind := by
  rcases signed_cases c s w fee k with h | ⟨-, h | h⟩
  · rw [h]
    exact ⟨[], rfl, by simp⟩
  · rw [h]
    exact ⟨[], rfl, by simp⟩
  · exact (h.2.filtered w rfl h.1).from rfl |>.mono fun e he =>
      (userMay_congr (s := s) (s' := afterFee s w fee) rfl rfl _).1 he.1

/-- The deep door: a batch with a proxy call with a derivative call. -/
def exDeep : Call := .batch (.cons (.proxy 4 none (.asDerivative 5 loanMint)) .nil)

example : (applyExt (exCfg true) exState (.signed 1 2 exDeep)).log = [⟨.signed 5005, ⟨.loans, .mint⟩, 7, 0⟩] ∧
    (applyExt (exCfg true) { exState with disP := fun p => p == 50 } (.signed 1 2 exDeep)).log = [] := by
  decide +kernel

/-! ### C154 -/

/-- **C154.** No transaction of a user, of whatever form, ever carries out a call that is switched off or on
neither list. -/
def C154_statement : Prop :=
  ∀ (c : Cfg) (s : State) (x : Ext) (es : List Entry), c.verify = true → (∀ o k, x ≠ .governed o k) →
    Did s (applyExt c s x) es → ∀ e ∈ es, UserMay c s e.kind

/-- A signature by account `w`. -/
def exSig (w : Nat) : List Nat := w :: List.replicate 64 0

/-- **C154.** Refuted: `EVMSignatureCall::call` dispatches the signed call without the filter. With loans
switched off, a deposit is carried out all the same. -/
theorem C154_refuted : ¬ C154_statement := by
  intro h
  have h1 := h (exCfg true) { exState with disP := fun p => p == 50 } (.unsigned (.evmCall loanMint 1 (exSig 1) 0))
    [⟨.signed 1, ⟨.loans, .mint⟩, 7, 0⟩] rfl (by simp) (by unfold Did; decide +kernel) ⟨.signed 1, ⟨.loans, .mint⟩, 7, 0⟩
    (by simp)
  rw [← baseFilter_iff] at h1
  revert h1
  decide +kernel

/-- **C154.** What holds: signed transactions are filtered (C153); of an unsigned transaction everything is
filtered except the outermost call inside a signature call. -/
theorem C154_partial (c : Cfg) (s : State) (k : Call) :
    ∃ es, Did s (applyExt c s (.unsigned k)) es ∧ ∀ e ∈ es, UserMay c s e.kind ∨
      ∃ inner w sig n, k = .evmCall inner w sig n ∧ e.kind = inner.kind ∧ e.who = .signed w := by
  rcases unsigned_cases c s k with h | ⟨ha, h⟩
  · rw [h]
    exact ⟨[], rfl, by simp⟩
  · have hu : UserMay c s k.kind := by
      rw [← baseFilter_iff]
      simpa [allowed] using ha
    generalize applyExt c s (.unsigned k) = s' at h ⊢
    show AllDone _ s s'
    cases h with
    | leaf => exact .one rfl (Or.inl hu)
    | transfer ho => cases ho
    | batchNil => exact .rfl rfl
    | batchCons ho => simp [signedOf] at ho
    | allNil => exact .rfl rfl
    | allCons ho => simp [signedOf] at ho
    | deriv ho => cases ho
    | proxyNil => exact .rfl rfl
    | proxy ho => cases ho
    | addProxy ho => cases ho
    | removeProxy ho => cases ho
    | togP ho => simp at ho
    | togC ho => simp at ho
    | evmNil _ _ _ _ h1 h2 => exact .rfl ((incNonce_rest h1).trans (payFee_rest h2)).log
    | evm _ _ _ _ h1 h2 hx =>
      have hr := (incNonce_rest h1).trans (payFee_rest h2)
      refine ((hx.bypassed rfl rfl).from hr.log).mono fun e he => ?_
      rcases he with he | he
      · exact Or.inl ((userMay_congr hr.disP hr.disC _).1 he)
      · exact Or.inr ⟨_, _, _, _, rfl, he.1, he.2⟩

/-- **C154.** While the signature pallet itself is switched off nothing gets around the filter. -/
theorem C154_closed (c : Cfg) (s : State) (x : Ext) (hx : ∀ o k, x ≠ .governed o k)
    (hoff : s.disP Pallet.evmSignatureCall.index = true) :
    ∃ es, Did s (applyExt c s x) es ∧ ∀ e ∈ es, UserMay c s e.kind := by
  cases x with
  | signed w fee k => exact C153_user_calls_filtered c s w fee k
  | governed o k => exact absurd rfl (hx o k)
  | unsigned k =>
    obtain ⟨es, h1, h2⟩ := C154_partial c s k
    rcases unsigned_cases c s k with h | ⟨ha, -⟩
    · rw [h]
      exact ⟨[], rfl, by simp⟩
    · refine ⟨es, h1, fun e he => ?_⟩
      rcases h2 e he with h | ⟨inner, w, sig, n, rfl, -⟩
      · exact h
      · have hu : UserMay c s ⟨.evmSignatureCall, .evmCall⟩ := by
          rw [← baseFilter_iff]
          simpa [allowed, Call.kind] using ha
        exact absurd ⟨rfl, Or.inl hoff⟩ hu.2

example : (applyExt (exCfg true) { exState with disP := fun p => p == 113 }
    (.unsigned (.evmCall loanMint 1 (exSig 1) 0))).log = [] := by decide +kernel

/-! ### C155 -/

/-- **C155.** A signed transaction acts only for accounts that its signer controls, and within the limits of
limited proxies: everything it carries out is what the signer may do, all accounts that the signer does not
control fully keep their native balance, nonce and proxies, and no new power comes out of it. -/
theorem C155_control (c : Cfg) (s : State) (w fee : Nat) (k : Call) :
    (∃ es, Did s (applyExt c s (.signed w fee k)) es ∧ ∀ e ∈ es, MayDo c s w e) ∧
    (∀ x, ¬ Full c s w x → s.bal x ≤ (applyExt c s (.signed w fee k)).bal x ∧
      (applyExt c s (.signed w fee k)).nonce x = s.nonce x ∧
      (applyExt c s (.signed w fee k)).proxies x = s.proxies x) ∧
    ∀ x, Full c (applyExt c s (.signed w fee k)) w x → Full c s w x := by
  have hc : ∀ s', Closed c (Full c s w) s' → ∀ x, Full c s' w x → Full c s w x := by
    intro s' hcl x hx
    induction hx with
    | self => exact .self
    | derived i _ ih => exact .derived i ih
    | proxied _ hm ih => exact (hcl _ ih).2 _ hm
  have f0 : ∀ x, ¬ Full c s w x → x ≠ w := fun x hx e => hx (e ▸ .self)
  rcases signed_cases c s w fee k with h | ⟨-, h | h⟩
  · rw [h]
    exact ⟨⟨[], rfl, by simp⟩, fun x _ => ⟨Nat.le_refl _, rfl, rfl⟩, fun x hx => hx⟩
  · rw [h]
    refine ⟨⟨[], rfl, by simp⟩, fun x hx => ⟨?_, upd_of_ne _ _ (f0 x hx), rfl⟩, hc _ (full_closed c s w)⟩
    exact Nat.le_of_eq (upd_of_ne _ _ (f0 x hx)).symm
  · have sc := h.2.scope (F := Full c s w) (s0 := s) w rfl .self (closed_of_rest (full_closed c s w) rfl) fun _ _ => rfl
    refine ⟨sc.done.from rfl, fun x hx => ?_, hc _ sc.closed⟩
    obtain ⟨a1, a2, -, a4⟩ := sc.other x hx
    refine ⟨Nat.le_trans (Nat.le_of_eq (upd_of_ne _ _ (f0 x hx)).symm) a1, a2.trans (upd_of_ne _ _ (f0 x hx)), a4⟩

/-- Account 1 uses its loans proxy for account 3: a deposit is done, a transfer is not. -/
example : (applyExt (exCfg true) exState (.signed 1 2 (.proxy 3 none loanMint))).log =
      [⟨.signed 3, ⟨.loans, .mint⟩, 7, 0⟩] ∧
    (applyExt (exCfg true) exState (.signed 1 2 (.proxy 3 none (.transfer 1 50)))).bal 3 = 100 ∧
    (applyExt (exCfg true) exState (.signed 1 2 (.proxy 4 none (.transfer 1 50)))).bal 4 = 50 := by decide +kernel

/-- **C155.** Through `proxy` a delegate does only what a proxy type that it was given lists, and only for
the account that gave it and accounts derived from that. -/
theorem C155_proxy_scope (c : Cfg) (s : State) (w fee r : Nat) (f : Option ProxyType) (k : Call)
    (hn : ∀ y, ⟨w, .any, y⟩ ∉ s.proxies r) :
    ∃ es, Did s (applyExt c s (.signed w fee (.proxy r f k))) es ∧ ∀ e ∈ es, ∃ t, ⟨w, t, 0⟩ ∈ s.proxies r ∧
      (f = none ∨ f = some t) ∧ t.filter c.chain e.kind = true ∧ ∃ a, e.who = .signed a ∧ DerivedFrom c r a := by
  rcases signed_cases c s w fee (.proxy r f k) with h | ⟨-, h | h⟩
  · rw [h]
    exact ⟨[], rfl, by simp⟩
  · rw [h]
    exact ⟨[], rfl, by simp⟩
  · have hx := h.2
    generalize applyExt c s (.signed w fee (.proxy r f k)) = s' at hx ⊢
    cases hx with
    | proxyNil => exact ⟨[], rfl, by simp⟩
    | @proxy o s1 r1 f1 k1 w' t s'' ho hm hf ha hx =>
      cases ho
      have ht : t ≠ .any := fun e => hn 0 (e ▸ hm)
      have hl := hx.limited (r := r) ht r rfl .self (by simp) ha
      exact (hl.done.from rfl).mono fun e ⟨a, e1, e2, e3⟩ => ⟨t, hm, hf, e3, a, e1, e2⟩

end Verif.Runtime
