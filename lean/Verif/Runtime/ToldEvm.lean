import Verif.Runtime.Props2

/-!
# C248: the event of a call with an Ethereum signature

`evmCallE` is the extrinsic `call` of `pallets/evm-signatures` (`bypass` of `.evmCall` in Runtime/Model.lean) that also returns
the deposited event, `Executed(signer, result)`.
-/

namespace Verif.Runtime
open Verif

/-- `Event::Executed` (`pallets/evm-signatures/src/lib.rs:134-139`). -/
structure Executed where
  signer : Nat
  result : R Unit

/-- `call` with its event (`pallets/evm-signatures/src/lib.rs:152-190`), for an unsigned transaction. The signed call runs in a
storage layer of its own. -/
def evmCallE (c : Cfg) (s : State) (k : Call) (signer : Nat) (sig : List Nat) (nonce : Nat) : R (State × List Executed) := do
  ensure (nonce = s.nonce signer) .badNonce
  ensure (sig.length = 65) .decodeFailure
  ensure (validSig c nonce k sig signer = true) .invalidSignature
  let s1 ← incNonce s signer
  let s2 ← payFee c s1 signer
  match bypass c s2 ⟨.signed signer, []⟩ k with
  | .ok s3 => pure (s3, [⟨signer, .ok ()⟩])
  | .error e => pure (s2, [⟨signer, .error e⟩])

/-! ## Specification -/

/-- A call is an item of a batch. -/
inductive Item (k : Call) : Calls → Prop
  | here (ks : Calls) : Item k (.cons k ks)
  | there (j : Call) {ks : Calls} (h : Item k ks) : Item k (.cons j ks)

/-- Carrying out the call in full includes a transfer of `m` to `dst` by the signer. -/
inductive Asks (dst m : Nat) : Call → Prop
  | transfer : Asks dst m (.transfer dst m)
  | batch {k : Call} {ks : Calls} (hi : Item k ks) (h : Asks dst m k) : Asks dst m (.batch ks)
  | batchAll {k : Call} {ks : Calls} (hi : Item k ks) (h : Asks dst m k) : Asks dst m (.batchAll ks)

/-- The same without `batch`: only `batch_all`. -/
inductive AsksAll (dst m : Nat) : Call → Prop
  | transfer : AsksAll dst m (.transfer dst m)
  | batchAll {k : Call} {ks : Calls} (hi : Item k ks) (h : AsksAll dst m k) : AsksAll dst m (.batchAll ks)

/-- The full English claim: if the event says that the signed call succeeded, every transfer it asks for has been made. -/
def C248_statement : Prop := ∀ (c : Cfg) (s s' : State) (k : Call) (w : Nat) (sig : List Nat) (n dst m : Nat),
  evmCallE c s k w sig n = .ok (s', [⟨w, .ok ()⟩]) → Asks dst m k →
  ∃ es, Did s s' es ∧ ⟨.signed w, ⟨.balances, .transfer⟩, dst, m⟩ ∈ es

/-! ## Proofs -/

/-- **C248** (additional) The event is additional. -/
theorem C248_same (c : Cfg) (s : State) (k : Call) (w : Nat) (sig : List Nat) (n : Nat) :
    Prod.fst <$> evmCallE c s k w sig n = bypass c s ⟨.none, []⟩ (.evmCall k w sig n) := by
  unfold evmCallE
  rw [bypass, ensure_of rfl, ok_bind]
  simp only [map_bind]
  refine bind_congr fun _ => bind_congr fun _ => bind_congr fun _ => bind_congr fun _ => bind_congr fun s2 => ?_
  cases bypass c s2 ⟨.signed w, []⟩ k <;> rfl

theorem charge_rest {c : Cfg} {s s1 s2 : State} {w : Nat} (h1 : incNonce s w = .ok s1) (h2 : payFee c s1 w = .ok s2) :
    SameRest s s2 := by
  obtain ⟨-, rfl⟩ := payFee_eq h2
  have h := (incNonce_rest h1).trans (setBal_rest c s1 w (s1.bal w - c.callFee))
  exact ⟨h.disP, h.disC, h.proxies, h.log⟩

/-- Calls only add to the log. -/
theorem exec_log {c : Cfg} {o : Origin} {s s' : State} {k : Call} (h : Exec c o s k s') : s.log <:+ s'.log := by
  induction h with
  | leaf _ _ => exact List.suffix_cons _ _
  | transfer _ h1 => exact ((doTransfer_rest h1).log ▸ List.suffix_cons _ _)
  | batchNil => exact List.suffix_refl _
  | batchCons _ _ _ _ i1 i2 => exact i1.trans i2
  | allNil => exact List.suffix_refl _
  | allCons _ _ _ _ i1 i2 => exact i1.trans i2
  | deriv _ _ _ i1 => exact i1
  | proxyNil => exact List.suffix_refl _
  | proxy _ _ _ _ _ i1 => exact i1
  | addProxy _ => exact List.suffix_cons _ _
  | removeProxy _ => exact List.suffix_cons _ _
  | togP _ => exact List.suffix_cons _ _
  | togC _ => exact List.suffix_cons _ _
  | evmNil _ _ _ _ h1 h2 => rw [(charge_rest h1 h2).log]
  | evm _ _ _ _ h1 h2 _ i1 => rw [← (charge_rest h1 h2).log]; exact i1

/-- A call that goes through has made the transfers it asks for, but for those inside `batch`. -/
theorem asks_done (c : Cfg) (o : Origin) {dst m : Nat} {k : Call} (ha : AsksAll dst m k) :
    ∀ s s', bypass c s o k = .ok s' →
      ∃ es, Did s s' es ∧ ⟨o.caller, ⟨.balances, .transfer⟩, dst, m⟩ ∈ es := by
  induction ha with
  | transfer =>
    intro s s' h
    simp only [bypass, bind_ok_iff, okOr_ok_iff, pure_ok_iff] at h
    obtain ⟨w, -, s1, h1, rfl⟩ := h
    refine ⟨[_], ?_, List.mem_singleton.2 rfl⟩
    show _ :: s1.log = _ :: s.log
    rw [(doTransfer_rest h1).log]
  | @batchAll k ks hi _ ih =>
    intro s s' h
    simp only [bypass, bind_ok_iff, ensure_ok_iff, exists_const] at h
    obtain ⟨hr, h⟩ := h
    induction hi generalizing s with
    | here ks =>
      simp only [runAll] at h
      split at h
      · rename_i s1 h1
        split at h1
        · obtain ⟨es, d1, d2⟩ := ih s s1 h1
          obtain ⟨fs, d3⟩ := exec_log (exec_of_runAll c ks s1 o s' hr h)
          refine ⟨fs ++ es, ?_, List.mem_append_right _ d2⟩
          unfold Did at d1 ⊢
          rw [← d3, d1, List.append_assoc]
        · cases h1
      · cases h
    | there j _ ih2 =>
      simp only [runAll] at h
      split at h
      · rename_i s1 h1
        split at h1
        · obtain ⟨fs, d3⟩ := exec_log (exec_of_bypass c j s o s1 h1)
          obtain ⟨es, d1, d2⟩ := ih2 s1 h
          refine ⟨es ++ fs, ?_, List.mem_append_left _ d2⟩
          unfold Did at d1 ⊢
          rw [d1, ← d3, List.append_assoc]
        · cases h1
      · cases h

theorem evmCallE_ok {c : Cfg} {s s' : State} {k : Call} {w : Nat} {sig : List Nat} {n : Nat} {es : List Executed}
    (h : evmCallE c s k w sig n = .ok (s', es)) :
    n = s.nonce w ∧ sig.length = 65 ∧ validSig c n k sig w = true ∧ ∃ s1 s2, incNonce s w = .ok s1 ∧ payFee c s1 w = .ok s2 ∧
      ((bypass c s2 ⟨.signed w, []⟩ k = .ok s' ∧ es = [⟨w, .ok ()⟩]) ∨
       (∃ e, bypass c s2 ⟨.signed w, []⟩ k = .error e ∧ s' = s2 ∧ es = [⟨w, .error e⟩])) := by
  simp only [evmCallE, bind_ok_iff, ensure_ok_iff, exists_const] at h
  obtain ⟨h1, h2, h3, s1, h4, s2, h5, h6⟩ := h
  refine ⟨h1, h2, h3, s1, s2, h4, h5, ?_⟩
  split at h6
  · rename_i s3 hb
    cases h6
    exact .inl ⟨hb, rfl⟩
  · rename_i e hb
    cases h6
    exact .inr ⟨e, hb, rfl, rfl⟩

/-- **C248** (one event) Every accepted call is announced once, and the event names the account whose current nonce was used and
which, where signatures are verified, signed exactly that call. -/
theorem C248_signer (c : Cfg) (s s' : State) (k : Call) (w : Nat) (sig : List Nat) (n : Nat) (es : List Executed)
    (h : evmCallE c s k w sig n = .ok (s', es)) :
    (∃ r, es = [⟨w, r⟩]) ∧ n = s.nonce w ∧ (c.verify = true → SignedBy c w (s.nonce w) k sig) := by
  obtain ⟨hn, hl, hv, s1, s2, -, -, h⟩ := evmCallE_ok h
  refine ⟨?_, hn, fun hc => hn ▸ validSig_signedBy hc hl hv⟩
  rcases h with ⟨-, rfl⟩ | ⟨e, -, -, rfl⟩ <;> exact ⟨_, rfl⟩

/-- **C248** (failure) If the event says that the signed call failed, nothing was done but to take the fee and the nonce: no call has
been carried out, no switch and no proxy has changed, the fee has gone to the treasury, and nobody but the signer has less
money. -/
theorem C248_failed (c : Cfg) (s s' : State) (k : Call) (w v : Nat) (sig : List Nat) (n : Nat) (e : Err)
    (h : evmCallE c s k w sig n = .ok (s', [⟨v, .error e⟩])) :
    v = w ∧ s'.log = s.log ∧ s'.disP = s.disP ∧ s'.disC = s.disC ∧ s'.proxies = s.proxies ∧
    (w ≠ c.treasury → s'.bal c.treasury = s.bal c.treasury + c.callFee ∧ s'.bal w + c.callFee ≤ s.bal w) ∧
    (∀ x, x ≠ w → s.bal x ≤ s'.bal x ∧ s'.nonce x = s.nonce x) := by
  obtain ⟨hn, hl, hv, s1, s2, h1, h2, h⟩ := evmCallE_ok h
  rcases h with ⟨-, h⟩ | ⟨e', hb, rfl, h⟩
  · cases h
  · have hr := charge_rest h1 h2
    injection h with h h0
    injection h with hw _
    refine ⟨hw, hr.log, hr.disP, hr.disC, hr.proxies, ?_, fun x hx => ?_⟩
    · intro ht
      obtain ⟨-, e1⟩ := incNonce_eq h1
      obtain ⟨hf, e2⟩ := payFee_eq h2
      subst e1 e2
      dsimp only at hf ⊢
      rw [upd_same, upd_of_ne _ _ ht, setBal_bal, setBal_bal, if_neg (Ne.symm ht), if_pos rfl]
      dsimp only
      refine ⟨rfl, ?_⟩
      split <;> omega
    · have := charge_other h1 h2 hx
      exact ⟨this.1, this.2.1⟩

/-- **C248** (success) If the event says that the signed call succeeded, the state is the one the call leads to, carried out as the
signer after the fee and the nonce were taken. -/
theorem C248_succeeded (c : Cfg) (s s' : State) (k : Call) (w v : Nat) (sig : List Nat) (n : Nat)
    (h : evmCallE c s k w sig n = .ok (s', [⟨v, .ok ()⟩])) :
    v = w ∧ ∃ s1 s2, incNonce s w = .ok s1 ∧ payFee c s1 w = .ok s2 ∧ bypass c s2 ⟨.signed w, []⟩ k = .ok s' := by
  obtain ⟨hn, hl, hv, s1, s2, h1, h2, h⟩ := evmCallE_ok h
  rcases h with ⟨hb, h⟩ | ⟨e', hb, rfl, h⟩
  · injection h with h h0
    injection h with hw _
    exact ⟨hw, s1, s2, h1, h2, hb⟩
  · cases h

/-- **C248** What holds of the full claim: it is true of calls that use only `batch_all`. Missing: the items of `batch`, which
reports success when an item fails (`C248_refuted`). -/
theorem C248_transfers_partial (c : Cfg) (s s' : State) (k : Call) (w : Nat) (sig : List Nat) (n dst m : Nat)
    (h : evmCallE c s k w sig n = .ok (s', [⟨w, .ok ()⟩])) (ha : AsksAll dst m k) :
    ∃ es, Did s s' es ∧ ⟨.signed w, ⟨.balances, .transfer⟩, dst, m⟩ ∈ es := by
  obtain ⟨-, s1, s2, h1, h2, hb⟩ := C248_succeeded c s s' k w w sig n h
  obtain ⟨es, d1, d2⟩ := asks_done c _ ha s2 s' hb
  refine ⟨es, ?_, d2⟩
  unfold Did at d1 ⊢
  rw [d1, (charge_rest h1 h2).log]

/-- A batch whose only item is a transfer of more than the signer has. -/
def exPoor : Call := .batch (.cons (.transfer 2 5000) .nil)

/-- What `exPoor` does, signed by account 1. -/
def exTold (k : Call) : R (State × List Executed) := evmCallE (exCfg true) exState k 1 (exSig 1) 0

/-- The log and the announced results. -/
def seen : R (State × List Executed) → List Entry × List (Nat × Bool)
  | .ok (s, es) => (s.log, es.map fun e => (e.signer, match e.result with | .ok _ => true | .error _ => false))
  | .error _ => ([], [])

example : seen (exTold (.batchAll (.cons (.transfer 2 50) .nil))) = ([⟨.signed 1, ⟨.balances, .transfer⟩, 2, 50⟩], [(1, true)]) ∧
    seen (exTold (.batchAll (.cons (.transfer 2 5000) .nil))) = ([], [(1, false)]) ∧
    seen (exTold exPoor) = ([], [(1, true)]) := by decide +kernel

example : AsksAll 2 50 (.batchAll (.cons (.transfer 2 50) .nil)) := .batchAll (.here _) .transfer

/-- **C248** (finding) The full claim is false: `batch` stops at the first item that fails and still reports success, so the event
says `Ok` though no transfer was made. -/
theorem C248_refuted : ¬ C248_statement := by
  intro h
  have hs : seen (exTold exPoor) = ([], [(1, true)]) := by decide +kernel
  cases hx : exTold exPoor with
  | error e => rw [hx] at hs; cases hs
  | ok p =>
    obtain ⟨s', es⟩ := p
    obtain ⟨⟨r, rfl⟩, -, -⟩ := C248_signer _ _ _ _ _ _ _ _ hx
    rw [hx] at hs
    injection hs with hl hr
    cases r with
    | error e => cases hr
    | ok u =>
      obtain ⟨es, d1, d2⟩ := h _ _ _ _ _ _ _ 2 5000 hx (.batch (.here _) .transfer)
      unfold Did at d1
      rw [show s'.log = [] from hl] at d1
      have : es = [] := (List.append_eq_nil_iff.1 d1.symm).1
      subst this
      cases d2

end Verif.Runtime
