import Verif.Runtime.Props

/-!
# C156–C160: calls and withdrawals with Ethereum signatures
-/

namespace Verif.Runtime
open Verif

/-! ### C156 -/

theorem validSig_signedBy {c : Cfg} (hv : c.verify = true) {n : Nat} {k : Call} {sig : List Nat} {w : Nat}
    (hl : sig.length = 65) (h : validSig c n k sig w = true) : SignedBy c w n k sig := by
  unfold validSig at h
  rw [if_pos hv] at h
  unfold verifySig at h
  split at h
  · rename_i pub hp
    refine ⟨hl, pub, ?_, hp⟩
    exact (beq_iff_eq.1 h).symm
  · cases h

theorem signedBy_validSig {c : Cfg} {n : Nat} {k : Call} {sig : List Nat} {w : Nat}
    (h : SignedBy c w n k sig) : validSig c n k sig w = true := by
  obtain ⟨-, pub, ha, hr⟩ := h
  unfold validSig verifySig digest payload
  rw [hr]
  simp [ha]

/-- **C156.** An unsigned transaction does something for an account only with a signature of its key: if one
is carried out as account `a`, or takes native money from `a`, or moves the nonce of `a`, then it is a
signature call whose signer signed exactly that call with its current nonce, and the signer controls `a`. -/
def C156_statement (ch : Chain) : Prop :=
  ∀ (c : Cfg) (s : State) (k : Call) (a : Nat) (es : List Entry), c.chain = ch → c.verify = ch.verify →
    c.magic = ch.magic →
    Did s (applyExt c s (.unsigned k)) es →
    ((∃ e ∈ es, e.who = .signed a) ∨ (applyExt c s (.unsigned k)).bal a < s.bal a ∨
      (applyExt c s (.unsigned k)).nonce a ≠ s.nonce a) →
    ∃ inner w sig, k = .evmCall inner w sig (s.nonce w) ∧ SignedBy c w (s.nonce w) inner sig ∧
      (Full c s w a ∨ ∃ e ∈ es, e.who = .signed a ∧ MayDo c s w e)

theorem C156_verified (c : Cfg) (hv : c.verify = true) (s : State) (k : Call) (a : Nat) (es : List Entry)
    (hd : Did s (applyExt c s (.unsigned k)) es)
    (h : (∃ e ∈ es, e.who = .signed a) ∨ (applyExt c s (.unsigned k)).bal a < s.bal a ∨
      (applyExt c s (.unsigned k)).nonce a ≠ s.nonce a) :
    ∃ inner w sig, k = .evmCall inner w sig (s.nonce w) ∧ SignedBy c w (s.nonce w) inner sig ∧
      (Full c s w a ∨ ∃ e ∈ es, e.who = .signed a ∧ MayDo c s w e) := by
  have key : ∀ s', s' = s → Did s s' es → ((∃ e ∈ es, e.who = .signed a) ∨ s'.bal a < s.bal a ∨
      s'.nonce a ≠ s.nonce a) → False := by
    rintro s' rfl hd h
    have : es = [] := by
      unfold Did at hd
      simpa using hd
    subst this
    rcases h with ⟨e, he, -⟩ | h | h
    · simp at he
    · omega
    · exact h rfl
  rcases unsigned_cases c s k with hx | ⟨-, hx⟩
  · exact (key _ hx hd h).elim
  · generalize applyExt c s (.unsigned k) = s' at hd h hx
    have one : ∀ (e : Entry) (s1 : State), s' = logged s1 e → s1.log = s.log → e.who = .none → s1.bal = s.bal →
        s1.nonce = s.nonce → False := by
      rintro e s1 rfl hl hw hb hn
      have : es = [e] := by
        unfold Did logged at hd
        rw [hl] at hd
        exact (List.append_cancel_right (as := [e]) (bs := s.log) (cs := es) hd).symm
      subst this
      rcases h with ⟨e', he, hw'⟩ | h | h
      · rw [List.mem_singleton.1 he, hw] at hw'
        cases hw'
      · have : s1.bal a < s.bal a := h
        rw [hb] at this
        omega
      · have : s1.nonce a ≠ s.nonce a := h
        rw [hn] at this
        exact this rfl
    cases hx with
    | leaf => exact (one _ s rfl rfl rfl rfl rfl).elim
    | transfer ho => cases ho
    | batchNil => exact (key _ rfl hd h).elim
    | batchCons ho => simp [signedOf] at ho
    | allNil => exact (key _ rfl hd h).elim
    | allCons ho => simp [signedOf] at ho
    | deriv ho => cases ho
    | proxyNil => exact (key _ rfl hd h).elim
    | proxy ho => cases ho
    | addProxy ho => cases ho
    | removeProxy ho => cases ho
    | togP ho => simp at ho
    | togC ho => simp at ho
    | @evmNil _ _ k w sig n s1 _ _ hn hl hs h1 h2 =>
      subst hn
      refine ⟨k, w, sig, rfl, validSig_signedBy hv hl hs, Or.inl ?_⟩
      have hr := (incNonce_rest h1).trans (payFee_rest h2)
      have : es = [] := by
        unfold Did at hd
        rw [hr.log] at hd
        simpa using hd
      subst this
      by_cases ha : a = w
      · exact ha ▸ .self
      · obtain ⟨b1, b2, -⟩ := charge_other h1 h2 ha
        rcases h with ⟨e, he, -⟩ | h | h
        · simp at he
        · omega
        · exact absurd b2 h
    | @evm _ _ k w sig n s1 s2 _ _ hn hl hs h1 h2 hx =>
      subst hn
      refine ⟨k, w, sig, rfl, validSig_signedBy hv hl hs, ?_⟩
      have hr := (incNonce_rest h1).trans (payFee_rest h2)
      have sc := hx.scope (F := Full c s w) (s0 := s) w rfl .self (closed_of_rest (full_closed c s w) hr.proxies)
        fun x _ => congrFun hr.proxies x
      by_cases ha : Full c s w a
      · exact Or.inl ha
      · have hne : a ≠ w := fun e => ha (e ▸ .self)
        obtain ⟨b1, b2, -⟩ := charge_other h1 h2 hne
        obtain ⟨c1, c2, -⟩ := sc.other a ha
        rcases h with ⟨e, he, hw⟩ | h | h
        · obtain ⟨es', d1, d2⟩ := sc.done.from hr.log
          have : es = es' := by
            unfold Did at hd d1
            exact List.append_cancel_right (hd.symm.trans d1)
          subst this
          exact Or.inr ⟨e, he, hw, d2 e he⟩
        · omega
        · exact absurd (c2.trans b2) h

/-- **C156.** Refuted for Heiko and Vanilla: there signatures are not verified (`VerifySignature = false`), and
anybody can make any account transfer its money. -/
theorem C156_refuted_unverified (ch : Chain) (hv : ch.verify = false) : ¬ C156_statement ch := by
  intro h
  have hm : ch.magic = 2085 := by cases ch <;> first | rfl | cases hv
  obtain ⟨inner, w, sig, e1, e2, -⟩ := h
    { exCfg false with chain := ch, recover := fun _ _ => none, magic := 2085 } exState
    (.evmCall (.transfer 2 80) 1 (exSig 9) 0) 1 [⟨.signed 1, ⟨.balances, .transfer⟩, 2, 80⟩] rfl hv.symm hm.symm
    (by unfold Did; clear h hm hv; cases ch <;> decide +kernel)
    (Or.inr (Or.inl (by clear h hm hv; cases ch <;> decide +kernel)))
  obtain ⟨-, pub, -, hr⟩ := e2
  cases hr

theorem C156_refuted : ¬ (∀ ch, C156_statement ch) := fun h => C156_refuted_unverified .heiko rfl (h .heiko)

/-- **C156.** What holds: the statement, for the two runtimes that verify signatures. -/
theorem C156_partial : C156_statement .parallel ∧ C156_statement .kerria :=
  ⟨fun c s k a es _ hv _ hd h => C156_verified c hv s k a es hd h,
   fun c s k a es _ hv _ hd h => C156_verified c hv s k a es hd h⟩

example : (applyExt (exCfg true) exState (.unsigned (.evmCall (.transfer 2 50) 1 (exSig 1) 0))).bal 2 = 150 ∧
    (applyExt (exCfg true) exState (.unsigned (.evmCall (.transfer 2 50) 1 (exSig 3) 0))).bal 2 = 100 := by
  decide +kernel

/-- Only the signer's fee and nonce have been taken. -/
structure Charged (c : Cfg) (s s' : State) (w : Nat) : Prop where
  nonce : ∀ x, s'.nonce x = if x = w then s.nonce w + 1 else s.nonce x
  signer : s'.bal w + c.callFee = s.bal w
  treasury : s'.bal c.treasury = s.bal c.treasury + c.callFee
  others : ∀ x, x ≠ w → x ≠ c.treasury → s'.bal x = s.bal x
  rest : s'.disP = s.disP ∧ s'.disC = s.disC ∧ s'.proxies = s.proxies ∧ s'.killed = s.killed ∧ s'.log = s.log

/-- **C156.** And with such a signature the call goes through: the fee moves to the treasury, the nonce moves
on by one, and then the signed call is carried out as if the signer had made it; if it fails only the fee
and the nonce are gone. -/
theorem C156_works (c : Cfg) (s : State) (k : Call) (w : Nat) (sig : List Nat)
    (hs : SignedBy c w (s.nonce w) k sig) (hoff : UserMay c s ⟨.evmSignatureCall, .evmCall⟩)
    (hn : s.nonce w < maxU32) (hf : c.callFee + c.ed ≤ s.bal w) (ht : w ≠ c.treasury) :
    ∃ s1, Charged c s s1 w ∧
      ((∃ s', bypass c s1 ⟨.signed w, []⟩ k = .ok s' ∧
          applyExt c s (.unsigned (.evmCall k w sig (s.nonce w))) = s') ∨
       ((∃ e, bypass c s1 ⟨.signed w, []⟩ k = .error e) ∧
          applyExt c s (.unsigned (.evmCall k w sig (s.nonce w))) = s1)) := by
  let s0 : State := { s with nonce := upd s.nonce w (s.nonce w + 1) }
  have h0 : incNonce s w = .ok s0 := by
    unfold incNonce
    rw [if_pos hn]
  have hp : ∃ s1, payFee c s0 w = .ok s1 := by
    unfold payFee
    simp only [bind_ok_iff, ensure_ok_iff, pure_ok_iff, exists_const]
    exact ⟨_, Nat.le_trans (Nat.le_add_right _ _) hf, rfl⟩
  obtain ⟨s1, h1⟩ := hp
  have hch : Charged c s s1 w := by
    obtain ⟨-, e⟩ := payFee_eq h1
    have hb : (s0.bal w - c.callFee < c.ed) = False := by
      have : s0.bal w = s.bal w := rfl
      rw [this, eq_iff_iff, iff_false]
      omega
    have e2 : setBal c s0 w (s0.bal w - c.callFee) = { s0 with bal := upd s0.bal w (s0.bal w - c.callFee) } := by
      unfold setBal
      simp only [hb, if_false]
    rw [e2] at e
    subst e
    refine ⟨fun x => ?_, ?_, ?_, fun x hx1 hx2 => ?_, ⟨rfl, rfl, rfl, rfl, rfl⟩⟩
    · show upd s.nonce w (s.nonce w + 1) x = _
      by_cases hx : x = w
      · subst hx
        rw [upd_same, if_pos rfl]
      · rw [upd_of_ne _ _ hx, if_neg hx]
    · show upd (upd s.bal w (s.bal w - c.callFee)) c.treasury _ w + c.callFee = s.bal w
      rw [upd_of_ne _ _ ht, upd_same]
      omega
    · show upd (upd s.bal w (s.bal w - c.callFee)) c.treasury (upd s.bal w (s.bal w - c.callFee) c.treasury + c.callFee)
        c.treasury = _
      rw [upd_same, upd_of_ne _ _ (Ne.symm ht)]
    · show upd (upd s.bal w (s.bal w - c.callFee)) c.treasury _ x = s.bal x
      rw [upd_of_ne _ _ hx2, upd_of_ne _ _ hx1]
  refine ⟨s1, hch, ?_⟩
  have ha : allowed c s ⟨.none, []⟩ (Call.evmCall k w sig (s.nonce w)).kind = true := by
    rw [← baseFilter_iff] at hoff
    simpa [allowed, Call.kind] using hoff
  have e : applyExt c s (.unsigned (.evmCall k w sig (s.nonce w))) = commit s1 (bypass c s1 ⟨.signed w, []⟩ k) := by
    show commit s (dispatch c s ⟨.none, []⟩ _) = _
    unfold dispatch
    rw [if_pos ha, bypass, ensure_of rfl, ok_bind, ensure_of rfl, ok_bind, ensure_of hs.1, ok_bind,
      ensure_of (signedBy_validSig hs), ok_bind, h0, ok_bind, h1, ok_bind]
    rfl
  rw [e]
  cases hb : bypass c s1 ⟨.signed w, []⟩ k with
  | ok s' => exact Or.inl ⟨s', rfl, rfl⟩
  | error er => exact Or.inr ⟨⟨er, rfl⟩, rfl⟩

/-! ### C157 -/

/-- **C157.** A signature call runs at most once: after it has had an effect, sending it again, after
whatever else has happened, does nothing. -/
def C157_statement : Prop :=
  ∀ (c : Cfg) (s : State) (k : Call) (w : Nat) (sig : List Nat) (n : Nat) (xs : List Ext),
    c.verify = true → applyExt c s (.unsigned (.evmCall k w sig n)) ≠ s →
    applyExt c (runExts c s (.unsigned (.evmCall k w sig n) :: xs)) (.unsigned (.evmCall k w sig n)) =
      runExts c s (.unsigned (.evmCall k w sig n) :: xs)

/-- **C157.** Refuted: the nonce of an account is forgotten when the account is removed. Account 1 signs a
transfer that leaves it below the existential deposit; when somebody sends money to it later, anybody can
send the same signed call again and take that as well. -/
theorem C157_refuted : ¬ C157_statement := by
  intro h
  have h1 := h (exCfg true) exState (.transfer 2 90) 1 (exSig 1) 0 [.signed 3 0 (.transfer 1 90)] rfl
    (fun e => by
      have := congrArg (fun s : State => s.bal 1) e
      revert this
      decide +kernel)
  have := congrArg (fun s : State => s.bal 1) h1
  revert this
  decide +kernel

theorem ext_nonceUp (c : Cfg) (s : State) (x : Ext) (a : Nat) : NonceUp s (applyExt c s x) a := by
  cases x with
  | signed w fee k =>
    have f : NonceUp s (afterFee s w fee) a := by
      refine ⟨Nat.le_refl _, fun _ => ?_⟩
      show s.nonce a ≤ upd s.nonce w (s.nonce w + 1) a
      by_cases ha : a = w
      · subst ha
        rw [upd_same]
        omega
      · rw [upd_of_ne _ _ ha]
    rcases signed_cases c s w fee k with h | ⟨-, h | h⟩
    · rw [h]
      exact .rfl
    · rw [h]
      exact f
    · exact f.trans (h.2.nonceUp a)
  | unsigned k =>
    rcases unsigned_cases c s k with h | h
    · rw [h]
      exact .rfl
    · exact h.2.nonceUp a
  | governed o k =>
    rcases governed_cases c s o k with h | h
    · rw [h]
      exact .rfl
    · exact h.nonceUp a

theorem run_nonceUp (c : Cfg) (xs : List Ext) (a : Nat) : ∀ s, NonceUp s (runExts c s xs) a := by
  induction xs with
  | nil => exact fun s => .rfl
  | cons x xs ih => exact fun s => (ext_nonceUp c s x a).trans (ih _)

/-- An unsigned signature call with an effect: the nonce was right, and afterwards it is higher unless the
account has been removed. -/
theorem evm_effect {c : Cfg} {s : State} {k : Call} {w : Nat} {sig : List Nat} {n : Nat}
    (h : applyExt c s (.unsigned (.evmCall k w sig n)) ≠ s) :
    n = s.nonce w ∧ s.killed w ≤ (applyExt c s (.unsigned (.evmCall k w sig n))).killed w ∧
      ((applyExt c s (.unsigned (.evmCall k w sig n))).killed w = s.killed w →
        n < (applyExt c s (.unsigned (.evmCall k w sig n))).nonce w) := by
  rcases unsigned_cases c s (.evmCall k w sig n) with hx | ⟨-, hx⟩
  · exact absurd hx h
  · generalize applyExt c s (.unsigned (.evmCall k w sig n)) = s' at hx ⊢
    cases hx with
    | evmNil _ hn _ _ h1 h2 =>
      obtain ⟨a, b⟩ := charge_nonce h1 h2
      exact ⟨hn, a, fun e => by rw [b e]; omega⟩
    | evm _ hn _ _ h1 h2 hx =>
      obtain ⟨a, b⟩ := charge_nonce h1 h2
      obtain ⟨a', b'⟩ := hx.nonceUp w
      exact ⟨hn, by omega, fun e => by have := b (by omega); have := b' (by omega); omega⟩

/-- **C157.** What holds: as long as the account has not been removed in between, the same signed call has no
effect a second time, and neither has any other one with that nonce. -/
theorem C157_partial (c : Cfg) (s : State) (k k' : Call) (w : Nat) (sig sig' : List Nat) (n : Nat) (xs : List Ext)
    (h : applyExt c s (.unsigned (.evmCall k w sig n)) ≠ s)
    (hk : (runExts c s (.unsigned (.evmCall k w sig n) :: xs)).killed w = s.killed w) :
    applyExt c (runExts c s (.unsigned (.evmCall k w sig n) :: xs)) (.unsigned (.evmCall k' w sig' n)) =
      runExts c s (.unsigned (.evmCall k w sig n) :: xs) := by
  obtain ⟨-, e2, e3⟩ := evm_effect h
  have hr := run_nonceUp c xs w (applyExt c s (.unsigned (.evmCall k w sig n)))
  change (runExts c (applyExt c s (.unsigned (.evmCall k w sig n))) xs).killed w = s.killed w at hk
  have hlt : n < (runExts c (applyExt c s (.unsigned (.evmCall k w sig n))) xs).nonce w :=
    Nat.lt_of_lt_of_le (e3 (by have := hr.1; omega)) (hr.2 (by have := hr.1; omega))
  by_contra hne
  have := (evm_effect hne).1
  change n = (runExts c (applyExt c s (.unsigned (.evmCall k w sig n))) xs).nonce w at this
  omega

example : (applyExt (exCfg true) exState (.unsigned (.evmCall (.transfer 2 50) 1 (exSig 1) 0))).killed 1 = 0 ∧
    (runExts (exCfg true) exState [.unsigned (.evmCall (.transfer 2 50) 1 (exSig 1) 0),
      .unsigned (.evmCall (.transfer 2 50) 1 (exSig 1) 0)]).bal 2 = 150 := by decide +kernel

/-! ### C158 -/

/-- **C158.** A signature call that the transaction pool accepts, when included in a block, costs its signer
the call fee or at least its nonce. -/
def C158_statement : Prop :=
  ∀ (c : Cfg) (s : State) (k : Call) (w : Nat) (sig : List Nat) (n : Nat), c.verify = true → 0 < c.callFee →
    UserMay c s ⟨.evmSignatureCall, .evmCall⟩ → s.nonce w < maxU32 →
    validateUnsigned c s (.evmCall k w sig n) = true →
    applyExt c s (.unsigned (.evmCall k w sig n)) ≠ s

/-- **C158.** Refuted: the pool does not look at the balance. A signer without money for the fee can fill
blocks with such calls; they fail with all effects undone and stay valid. -/
theorem C158_refuted : ¬ C158_statement := by
  intro h
  refine h (exCfg true) exState loanMint 7 (exSig 7) 0 rfl (by decide) ?_ (by decide) (by decide +kernel) ?_
  · rw [← baseFilter_iff]
    decide +kernel
  · have : dispatch (exCfg true) exState ⟨.none, []⟩ (.evmCall loanMint 7 (exSig 7) 0) = .error .noFunds := rfl
    show commit exState (dispatch (exCfg true) exState ⟨.none, []⟩ (.evmCall loanMint 7 (exSig 7) 0)) = exState
    rw [this]
    rfl

/-- **C158.** What holds: with enough money for the fee, being accepted by the pool means being charged: the
nonce was right and the signature good, so the fee goes to the treasury and the nonce moves on. -/
theorem C158_partial (c : Cfg) (s : State) (k : Call) (w : Nat) (sig : List Nat) (n : Nat) (hv : c.verify = true)
    (hoff : UserMay c s ⟨.evmSignatureCall, .evmCall⟩) (hn : s.nonce w < maxU32)
    (hf : c.callFee + c.ed ≤ s.bal w) (ht : w ≠ c.treasury)
    (hp : validateUnsigned c s (.evmCall k w sig n) = true) :
    ∃ s1, Charged c s s1 w ∧
      (applyExt c s (.unsigned (.evmCall k w sig n)) = s1 ∨
        bypass c s1 ⟨.signed w, []⟩ k = .ok (applyExt c s (.unsigned (.evmCall k w sig n)))) := by
  simp only [validateUnsigned, Bool.and_eq_true, decide_eq_true_eq] at hp
  obtain ⟨rfl, hl, hs⟩ := hp
  obtain ⟨s1, h1, h2⟩ := C156_works c s k w sig (validSig_signedBy hv hl hs) hoff hn hf ht
  refine ⟨s1, h1, ?_⟩
  rcases h2 with ⟨s', e1, e2⟩ | ⟨-, e2⟩
  · rw [e2]
    exact Or.inr e1
  · exact Or.inl e2

/-- **C158.** The pool accepts exactly the calls with the current nonce and a good signature. -/
theorem C158_pool (c : Cfg) (hv : c.verify = true) (s : State) (k : Call) :
    validateUnsigned c s k = true ↔ ∃ inner w sig, k = .evmCall inner w sig (s.nonce w) ∧
      SignedBy c w (s.nonce w) inner sig := by
  cases k with
  | evmCall inner w sig n =>
    simp only [validateUnsigned, Bool.and_eq_true, decide_eq_true_eq]
    constructor
    · rintro ⟨rfl, hl, hs⟩
      exact ⟨inner, w, sig, rfl, validSig_signedBy hv hl hs⟩
    · rintro ⟨inner', w', sig', e, hs⟩
      cases e
      exact ⟨rfl, hs.1, signedBy_validSig hs⟩
  | _ => simp [validateUnsigned]

/-! ### C159 -/

theorem leBytes_length (n v : Nat) : (leBytes n v).length = n := by
  induction n generalizing v with
  | zero => rfl
  | succ n ih => simp [leBytes, ih]

theorem leBytes_inj {n v v' : Nat} (h : v < 256 ^ n) (h' : v' < 256 ^ n) (e : leBytes n v = leBytes n v') : v = v' := by
  induction n generalizing v v' with
  | zero =>
    rw [Nat.pow_zero] at h h'
    omega
  | succ n ih =>
    simp only [leBytes, List.cons.injEq] at e
    have := ih (v := v / 256) (v' := v' / 256) (by rw [Nat.pow_succ] at h; omega) (by rw [Nat.pow_succ] at h'; omega) e.2
    omega

/-- The bytes that are signed for a chain, a nonce and a call. -/
def signedBytes (c : Cfg) (magic nonce : Nat) (k : Call) : List Nat := leBytes 2 magic ++ leBytes 4 nonce ++ c.enc k

/-- **C159.** The signed bytes determine the magic number, the nonce and the call. -/
theorem C159_signed_bytes (c : Cfg) (henc : ∀ k k', c.enc k = c.enc k' → k = k') (m m' n n' : Nat) (k k' : Call)
    (hm : m ≤ 65535) (hm' : m' ≤ 65535) (hn : n ≤ maxU32) (hn' : n' ≤ maxU32)
    (e : signedBytes c m n k = signedBytes c m' n' k') : m = m' ∧ n = n' ∧ k = k' := by
  unfold signedBytes at e
  rw [List.append_assoc, List.append_assoc] at e
  obtain ⟨e1, e2⟩ := List.append_inj e (by rw [leBytes_length, leBytes_length])
  obtain ⟨e3, e4⟩ := List.append_inj e2 (by rw [leBytes_length, leBytes_length])
  refine ⟨leBytes_inj (by omega) (by omega) e1, leBytes_inj ?_ ?_ e3, henc _ _ e4⟩
  · unfold maxU32 at hn
    omega
  · unfold maxU32 at hn'
    omega

/-- **C159.** A signature made for one chain never carries over to another: the signed bytes differ. -/
def C159_statement : Prop :=
  ∀ (c : Cfg) (ch ch' : Chain) (n n' : Nat) (k k' : Call), ch ≠ ch' →
    signedBytes c ch.magic n k ≠ signedBytes c ch'.magic n' k'

/-- **C159.** Refuted: Kerria has Parallel's number 2012, Vanilla has Heiko's 2085. -/
theorem C159_refuted : ¬ C159_statement := by
  intro h
  exact h (exCfg true) .parallel .kerria 0 0 loanMint loanMint (by decide) rfl

/-- **C159.** What holds: between the Parallel and the Heiko family the signed bytes always differ. -/
theorem C159_partial (c : Cfg) (ch ch' : Chain) (n n' : Nat) (k k' : Call)
    (hf : (ch = .parallel ∨ ch = .kerria) ∧ (ch' = .heiko ∨ ch' = .vanilla)) :
    signedBytes c ch.magic n k ≠ signedBytes c ch'.magic n' k' := by
  intro e
  unfold signedBytes at e
  rw [List.append_assoc, List.append_assoc] at e
  obtain ⟨e1, -⟩ := List.append_inj e (by rw [leBytes_length, leBytes_length])
  rcases hf with ⟨rfl | rfl, rfl | rfl⟩ <;> revert e1 <;> decide

/-- **C159.** The signature check is over these bytes, for every chain with signatures on. -/
theorem C159_checked (c : Cfg) (hv : c.verify = true) (n : Nat) (k : Call) (sig : List Nat) (w : Nat)
    (hl : sig.length = 65) :
    validSig c n k sig w = true ↔ ∃ pub, c.acctOf pub = w ∧
      c.recover sig (c.keccak (ethPrefix ++ c.keccak (signedBytes c c.magic n k))) = some pub :=
  ⟨fun h => (validSig_signedBy hv hl h).2, fun h => signedBy_validSig ⟨hl, h⟩⟩

/-! ### C160 -/

/-- **C160.** `withdraw` takes money only out of the account of an Ethereum address and only for the native
account whose first 20 bytes are that address: exactly `value`, to the caller. -/
theorem C160_withdraw (addrOf evmAcct : Nat → Nat) (l l' : Ledger) (o : Caller) (asset address value : Nat)
    (h : withdraw addrOf evmAcct l o asset address value = .ok l') :
    ∃ who, o = .signed who ∧ addrOf who = address ∧
      (∀ x y, l'.bal x y + (if x = asset ∧ y = evmAcct address then value else 0) =
        l.bal x y + (if x = asset ∧ y = who then value else 0)) ∧
      ∀ x, l'.iss x = l.iss x := by
  unfold withdraw at h
  cases o with
  | signed who =>
    simp only [bind_ok_iff, ensure_ok_iff, exists_const] at h
    exact ⟨who, rfl, h.1, fun x y => Ledger.transfer_bal h.2 x y, fun x => by rw [Ledger.transfer_iss h.2]⟩
  | _ => cases h

/-- **C160.** And the owner of the address always gets its money out, all of it if it likes. -/
theorem C160_withdraw_works (addrOf evmAcct : Nat → Nat) (l : Ledger) (who asset value : Nat)
    (hb : value ≤ l.bal asset (evmAcct (addrOf who))) :
    ∃ l', withdraw addrOf evmAcct l (.signed who) asset (addrOf who) value = .ok l' := by
  simp only [withdraw, bind_ok_iff, ensure_ok_iff, exists_const, true_and]
  exact Ledger.transfer_succeeds hb (by simp)

example : okAnd (withdraw (fun a => a / 100) (fun a => a + 7) (Ledger.ofList [(1, 12, 50)]) (.signed 503) 1 5 20)
    (fun l => l.bal 1 12 == 30 && l.bal 1 503 == 20) ∧
    errIs (withdraw (fun a => a / 100) (fun a => a + 7) (Ledger.ofList [(1, 12, 50)]) (.signed 603) 1 5 20)
      .badOrigin := by decide +kernel

end Verif.Runtime
