import Verif.Evm.BalancesProps2
import Verif.Evm.PermitProps

/-!
# Permits, deposits and call contexts of the native ERC-20 interface (C128, C129, C131)
-/

namespace Verif.Evm.Bal

section
variable (rt : Rt) (m : Meta) (cx : Ctx) (s : State)

/-- The token contract of the call. -/
def domainOf (rt : Rt) (m : Meta) (cx : Ctx) : Domain := ⟨rt, m.name, cx.address⟩

theorem permit_eval (owner spender value deadline v r sg : Nat) (tail : List Byte)
    (h : PermitArgs owner spender value deadline v r sg tail) :
    execute rt m cx (permitCall owner spender value deadline v r sg ++ tail) s =
      permitBody rt m cx s owner spender value deadline v r sg := by
  have ha := argsOk_cons (by decide) h.hOwner (argsOk_cons (by decide) h.hSpender (argsOk_cons (by decide) h.hValue
    (argsOk_cons (by decide) h.hDeadline (argsOk_cons (by decide) h.hV (argsOk_cons (by decide) h.hR
      (argsOk1 (by decide) h.hSg))))))
  have hz := sized_args h.hSize
  unfold execute permitCall
  rw [action_call _ _ _ (by decide)]
  show permit rt m cx s _ = _
  unfold permit
  rw [skip_call, ok_bind, readUint_arg _ tail ha 0 20 owner rfl hz, ok_bind]
  dsimp only
  rw [readUint_arg _ tail ha 1 20 spender rfl hz, ok_bind]
  dsimp only
  rw [readUint_arg _ tail ha 2 32 value rfl hz, ok_bind]
  dsimp only
  rw [readUint_arg _ tail ha 3 32 deadline rfl hz, ok_bind]
  dsimp only
  rw [readUint_arg _ tail ha 4 1 v rfl hz, ok_bind]
  dsimp only
  rw [readUint_arg _ tail ha 5 32 r rfl hz, ok_bind]
  dsimp only
  rw [readUint_arg _ tail ha 6 32 sg rfl hz, ok_bind]

/-- **C128 (when).** A permit is accepted exactly when it has not expired and the signature over its fields, the owner's
current nonce and this token contract was made by the owner. -/
theorem C128_permit_when (owner spender value deadline v r sg : Nat) (tail : List Byte)
    (h : PermitArgs owner spender value deadline v r sg tail) (hn : s.nonces owner + 1 < 256 ^ 32) :
    (∃ o, execute rt m cx (permitCall owner spender value deadline v r sg ++ tail) s = .ok o) ↔
      cx.now / 1000 ≤ deadline ∧ owner ≠ 0 ∧
      signerOf rt.crypto r sg v
        ((domainOf rt m cx).digest ⟨owner, spender, value, s.nonces owner, deadline⟩) = some owner := by
  rw [permit_eval rt m cx s owner spender value deadline v r sg tail h]
  unfold permitBody
  simp only [bind_ok_iff, ensure_ok_iff, exists_const, okOr_ok_iff, pure_ok_iff]
  constructor
  · rintro ⟨o, h1, signer, h2, ⟨h3, rfl⟩, -, -⟩
    exact ⟨h1, h3, h2⟩
  · rintro ⟨h1, h2, h3⟩
    exact ⟨_, h1, owner, h3, ⟨h2, rfl⟩, hn, rfl⟩

/-- **C128 (what).** An accepted permit uses up the owner's nonce, sets the spender's allowance (at most `2^128 - 1`),
logs the approval and changes nothing else. -/
theorem C128_permit_what (owner spender value deadline v r sg : Nat) (tail : List Byte)
    (h : PermitArgs owner spender value deadline v r sg tail) (o : Out State)
    (ho : execute rt m cx (permitCall owner spender value deadline v r sg ++ tail) s = .ok o) :
    o.st = ⟨s.cur, upd2 s.approves (rt.acct owner) (rt.acct spender) (some (min value maxU128)),
      upd s.nonces owner (s.nonces owner + 1)⟩ ∧ o.ret = [] ∧
    o.logs = [⟨cx.address, .approval, [owner, spender], Abi.encUint 32 value⟩] := by
  rw [permit_eval rt m cx s owner spender value deadline v r sg tail h] at ho
  unfold permitBody at ho
  simp only [bind_ok_iff, ensure_ok_iff, exists_const, okOr_ok_iff, pure_ok_iff] at ho
  obtain ⟨_, _, _, _, _, rfl⟩ := ho
  have hs : saturate value = min value maxU128 := by
    unfold saturate
    split <;> omega
  refine ⟨?_, rfl, ?_⟩
  · rw [hs]
  · rw [outWord_eq]

end

/-- Any history of the token: calls with arbitrary calldata in arbitrary contexts, and arbitrary changes of the native
balances by the rest of the chain. -/
inductive Run (rt : Rt) (m : Meta) : State → State → Prop
  | refl (s : State) : Run rt m s s
  | call {s s1 : State} (h : Run rt m s s1) (cx : Ctx) (input : List Byte) (o : Out State)
      (ho : execute rt m cx input s1 = .ok o) : Run rt m s o.st
  | env {s s1 : State} (h : Run rt m s s1) (cur : Native) : Run rt m s { s1 with cur := cur }

/-- **C128 (nonces).** Nonces never go down. -/
theorem C128_nonce_monotone (rt : Rt) (m : Meta) (s t : State) (h : Run rt m s t) (owner : Nat) :
    s.nonces owner ≤ t.nonces owner := by
  induction h with
  | refl => exact le_refl _
  | env _ cur ih => exact ih
  | call _ cx input o ho ih =>
    refine le_trans ih ?_
    have he := execute_effect ho
    generalize o.st = s' at he
    cases he with
    | view => exact le_refl _
    | approve sp am => exact le_refl _
    | transfer d x cur ht => exact le_refl _
    | transferFrom ow d x s1 cur hs ht =>
      show _ ≤ s1.nonces owner
      rw [(spend_cur hs).2]
    | deposit cur h0 ht => exact le_refl _
    | permit ow sp va de r sg v hd hsig h0 =>
      show _ ≤ upd _ _ _ owner
      by_cases hw : owner = ow
      · rw [hw, upd_same]; omega
      · rw [upd_of_ne _ _ hw]

/-- **C128 (no replay).** No two accepted permits of an owner, at any two points of a history, are for the same signed
message (unless the hash collides on the strings hashed for them): a signature authorises at most one change of an
allowance. -/
theorem C128_no_replay (rt : Rt) (m : Meta) (cx cx' : Ctx) (s t : State) (o o' : Out State)
    (owner sp va de v r sg sp' va' de' v' r' sg' : Nat) (tail tail' : List Byte)
    (ha : PermitArgs owner sp va de v r sg tail) (ha' : PermitArgs owner sp' va' de' v' r' sg' tail')
    (h1 : execute rt m cx (permitCall owner sp va de v r sg ++ tail) s = .ok o)
    (hr : Run rt m o.st t)
    (h2 : execute rt m cx' (permitCall owner sp' va' de' v' r' sg' ++ tail') t = .ok o')
    (hd : (domainOf rt m cx).Fits) (hd' : (domainOf rt m cx').Fits)
    (hc : NoCollision rt.crypto ((domainOf rt m cx).hashed ⟨owner, sp, va, s.nonces owner, de⟩ ++
      (domainOf rt m cx').hashed ⟨owner, sp', va', t.nonces owner, de'⟩)) :
    (domainOf rt m cx).digest ⟨owner, sp, va, s.nonces owner, de⟩ ≠
      (domainOf rt m cx').digest ⟨owner, sp', va', t.nonces owner, de'⟩ := by
  intro he
  have hn : t.nonces owner < 256 ^ 32 := by
    rw [permit_eval rt m cx' t owner sp' va' de' v' r' sg' tail' ha'] at h2
    unfold permitBody at h2
    simp only [bind_ok_iff, ensure_ok_iff, exists_const, okOr_ok_iff, pure_ok_iff] at h2
    obtain ⟨_, _, _, _, h, _⟩ := h2
    omega
  have hlt : s.nonces owner < t.nonces owner := by
    have e := (C128_permit_what rt m cx s owner sp va de v r sg tail ha o h1).1
    have h3 := C128_nonce_monotone rt m o.st t hr owner
    rw [e] at h3
    dsimp only at h3
    rw [upd_same] at h3
    omega
  obtain ⟨hp, -⟩ := C128_digest_binds (domainOf rt m cx) (domainOf rt m cx') ⟨owner, sp, va, s.nonces owner, de⟩
    ⟨owner, sp', va', t.nonces owner, de'⟩ rfl hd hd' ⟨ha.hOwner, ha.hSpender, ha.hValue, (by show s.nonces owner < 256 ^ 32; omega), ha.hDeadline⟩
    ⟨ha'.hOwner, ha'.hSpender, ha'.hValue, hn, ha'.hDeadline⟩ hc he
  injection hp with _ _ _ hp _
  omega

/-- Non-vacuity: a permit is accepted, whoever sends it; after its deadline it is not. -/
example : (∃ o, execute exRt exMeta (exCx 77) (permitCall 2 5 1000 9 27 7 8 ++ []) exSt = .ok o) ∧
    ¬ (∃ o, execute exRt exMeta { exCx 77 with now := 10000 } (permitCall 2 5 1000 9 27 7 8 ++ []) exSt = .ok o) := by
  have hs : ∀ d, signerOf exRt.crypto 7 8 27 d = some 2 := fun d => by
    unfold signerOf
    have e : exRt.crypto.recover 7 8 27 d = some [1] := by
      show (if (7 : Nat) = 7 ∧ (8 : Nat) = 8 ∧ (27 : Nat) = 27 then some [(1 : Byte)] else none) = _
      exact if_pos ⟨rfl, rfl, rfl⟩
    rw [e]
    decide +kernel
  refine ⟨(C128_permit_when exRt exMeta (exCx 77) exSt 2 5 1000 9 27 7 8 [] exPermitArgs (by decide)).2
    ⟨by decide, by decide, hs _⟩, fun h => ?_⟩
  have := ((C128_permit_when exRt exMeta { exCx 77 with now := 10000 } exSt 2 5 1000 9 27 7 8 [] exPermitArgs (by decide)).1 h).1
  revert this
  decide

/-! ## Deposits and withdrawals -/

/-- An EVM call with a value: the value moves from the caller to the called contract, which then runs; if it fails,
everything is rolled back (`pallet_evm` `runner::stack`, `transfer` with `AllowDeath`). -/
def evmCall (rt : Rt) (m : Meta) (cx : Ctx) (input : List Byte) (s : State) : R (Out State) := do
  let cur ← orRevert (s.cur.transfer rt (rt.acct cx.caller) (rt.acct cx.address) cx.value)
  execute rt m cx input { s with cur := cur }

/-- **C129 (fallback).** Calldata without a known selector, also empty calldata (a plain transfer of value to the token
contract), is a deposit. -/
theorem C129_fallback (rt : Rt) (m : Meta) (cx : Ctx) (input : List Byte) (s : State)
    (h : input.length < 4 ∨ ∃ n, readSelector input = .ok n ∧ Action.ofSelector n = none) :
    execute rt m cx input s = deposit rt m cx s := by
  have : actionOf input = .deposit := by
    unfold actionOf
    rcases h with h | ⟨n, h1, h2⟩
    · have : readSelector input = .error .revert := if_pos h
      rw [this]
    · rw [h1]
      show (Action.ofSelector n).getD .deposit = _
      rw [h2]; rfl
  unfold execute
  rw [this]

theorem deposit_call (rt : Rt) (m : Meta) (cx : Ctx) (tail : List Byte) (s : State) :
    execute rt m cx (callOf 0xd0e30db0 [] ++ tail) s = deposit rt m cx s := by
  unfold execute
  rw [action_call _ _ _ (by decide)]
  rfl

theorem total_ge_usable {n : Native} {a x : Nat} (h : x ≤ n.usable a) : x ≤ n.free a := by
  unfold Native.usable at h; omega

/-- **C129 (deposit).** A deposit gives back the whole value that was sent with it: when neither the caller nor the
contract's account falls below the existential deposit on the way, every balance is as before; only the `Deposit` event
remains. -/
theorem C129_deposit_returns (rt : Rt) (m : Meta) (cx : Ctx) (tail : List Byte) (s : State) (o : Out State)
    (h : evmCall rt m cx (callOf 0xd0e30db0 [] ++ tail) s = .ok o)
    (hne : rt.acct cx.caller ≠ rt.acct cx.address)
    (hd : dustOf rt s.cur (rt.acct cx.caller) cx.value = 0)
    (hd2 : total s.cur (rt.acct cx.address) = 0 ∨ rt.ed ≤ total s.cur (rt.acct cx.address)) :
    (∀ a, total o.st.cur a = total s.cur a) ∧ o.st.approves = s.approves ∧ o.st.nonces = s.nonces ∧
      o.ret = [] ∧ o.logs = [⟨cx.address, .deposit, [cx.caller], Abi.encUint 32 cx.value⟩] ∧ cx.value ≠ 0 := by
  unfold evmCall at h
  rw [bind_ok_iff] at h
  obtain ⟨cur, h1, h2⟩ := h
  rw [orRevert_ok_iff] at h1
  rw [deposit_call] at h2
  unfold deposit at h2
  simp only [bind_ok_iff, pure_ok_iff, ensure_ok_iff, exists_const, u256ToAmount_ok_iff, dispatch_ok_iff] at h2
  obtain ⟨_, a, ⟨_, rfl⟩, h0, cur2, ⟨-, h3⟩, rfl⟩ := h2
  have m1 := transfer_moved h1
  have m2 := transfer_moved h3
  have hcan := (transfer_succeeds_iff rt s.cur _ _ _).1 ⟨_, h1⟩
  have hle : cx.value ≤ s.cur.free (rt.acct cx.caller) := by
    rcases hcan with h | h | ⟨h, -⟩
    · exact (h0 h).elim
    · exact (hne h).elim
    · exact total_ge_usable h
  have hcan2 := (transfer_succeeds_iff rt cur _ _ _).1 ⟨_, h3⟩
  have hle2 : cx.value ≤ cur.free (rt.acct cx.address) := by
    rcases hcan2 with h | h | ⟨h, -⟩
    · exact (h0 h).elim
    · exact (hne h.symm).elim
    · exact total_ge_usable h
  have tp := m1.total h0 hne (rt.acct cx.address)
  rw [if_neg fun e => hne e.symm, if_pos rfl, hd] at tp
  have hrem : remainder cur (rt.acct cx.address) cx.value = total s.cur (rt.acct cx.address) := by
    unfold remainder total
    have : (if rt.acct cx.address = rt.treasury then (0 : Nat) else 0) = 0 := by split <;> rfl
    omega
  have hdust2 : dustOf rt cur (rt.acct cx.address) cx.value = 0 := by
    unfold dustOf
    rw [hrem]
    split
    · rcases hd2 with h | h
      · exact h
      · omega
    · rfl
  refine ⟨fun a => ?_, rfl, rfl, rfl, ?_, h0⟩
  · have t1 := m1.total h0 hne a
    have t2 := m2.total h0 (fun e => hne e.symm) a
    rw [hd] at t1
    rw [hdust2] at t2
    have z : (if a = rt.treasury then (0 : Nat) else 0) = 0 := by split <;> rfl
    show cur2.free a + cur2.resv a = s.cur.free a + s.cur.resv a
    rw [z] at t1 t2
    by_cases e1 : a = rt.acct cx.caller
    · have e2 : ¬ a = rt.acct cx.address := fun e => hne (e1.symm.trans e)
      rw [if_pos e1, if_neg e2] at t1
      rw [if_neg e2, if_pos e1] at t2
      omega
    · rw [if_neg e1] at t1 t2
      by_cases e2 : a = rt.acct cx.address
      · rw [if_pos e2] at t1 t2
        omega
      · rw [if_neg e2] at t1 t2
        omega
  · show [(⟨cx.address, .deposit, [cx.caller], outWord cx.value⟩ : Log)] = _
    rw [outWord_eq]

/-- **C129 (withdraw).** A withdrawal of at most what the caller can spend succeeds, of more fails; it changes nothing
(the native currency needs no unwrapping) and logs the event. -/
theorem C129_withdraw (rt : Rt) (m : Meta) (cx : Ctx) (tail : List Byte) (s : State) (amount : Nat) (hm : amount < 256 ^ 32)
    (hl : Sized (callOf 0x2e1a7d4d [(32, amount)] ++ tail)) (hnat : m.native = true) :
    execute rt m cx (callOf 0x2e1a7d4d [(32, amount)] ++ tail) s =
      if amount ≤ s.cur.usable (rt.acct cx.caller) then
        .ok ⟨s, [], [⟨cx.address, .withdrawal, [cx.caller], Abi.encUint 32 amount⟩]⟩
      else .error .revert := by
  have ha := argsOk1 (by decide) hm
  unfold execute
  rw [action_call _ _ _ (by decide)]
  show withdraw rt m cx s _ = _
  unfold withdraw
  rw [ensure_of hnat, ok_bind, skip_call, ok_bind, readUint_arg _ tail ha 0 32 amount rfl (sized_args hl), ok_bind]
  dsimp only
  split
  · rename_i h
    rw [ensure_of (by omega), ok_bind, outWord_eq]
    rfl
  · rename_i h
    have : ensure (¬ amount > s.cur.usable (rt.acct cx.caller)) Err.revert = .error .revert := if_neg (by omega)
    rw [this, error_bind]

/-! ## The context of the call -/

/-- What a Solidity programmer expects: a call in a static context changes nothing. -/
def C131_static_statement : Prop :=
  ∀ (rt : Rt) (m : Meta) (cx : Ctx) (input : List Byte) (s : State) (o : Out State),
    cx.isStatic = true → execute rt m cx input s = .ok o → o.st = s

/-- What a Solidity programmer expects: value sent to a function that does not accept any makes the call fail. -/
def C131_payable_statement : Prop :=
  ∀ (rt : Rt) (m : Meta) (cx : Ctx) (dest amount : Nat) (tail : List Byte) (s : State),
    cx.value > 0 → ¬ ∃ o, evmCall rt m cx (callOf 0xa9059cbb [(20, dest), (32, amount)] ++ tail) s = .ok o

/-- **C131 (refuted).** The check of the context is made but its result is dropped: a static call can approve. -/
theorem C131_static_refuted : ¬ C131_static_statement := by
  intro h
  have hl : Sized (callOf 0x095ea7b3 [(20, 7), (32, 9)] ++ []) := by
    unfold Sized callOf
    rw [List.append_nil, List.length_append, beBytes_length]
    simp only [List.flatMap_cons, List.flatMap_nil, List.length_append, List.length_nil, Abi.encUint,
      List.length_replicate, beBytes_length]
    decide
  have e := C125_approve exRt exMeta { exCx 1 with isStatic := true } exSt [] 7 9 (by decide) (by decide) hl
  have := h exRt exMeta _ _ exSt _ rfl e
  have h2 := congrArg (fun s => s.approves 1 7) this
  dsimp only at h2
  have h3 : exSt.approves 1 7 = none := by decide
  rw [h3] at h2
  revert h2
  show upd2 exSt.approves 1 7 (some (min 9 maxU128)) 1 7 = none → False
  rw [upd2_same]
  intro h2
  cases h2

/-- A call of account 1 that sends 20 along. -/
def exCxV : Ctx := { caller := 1, address := 2050, codeAddress := 2050, value := 20, isStatic := false, now := 5000 }

/-- **C131 (refuted).** Value sent along with `transfer` is accepted and stays on the contract's account. -/
theorem C131_payable_refuted : ¬ C131_payable_statement := by
  intro h
  have hl : Sized (callOf 0xa9059cbb [(20, 3), (32, 30)] ++ []) := by
    unfold Sized callOf
    rw [List.append_nil, List.length_append, beBytes_length]
    simp only [List.flatMap_cons, List.flatMap_nil, List.length_append, List.length_nil, Abi.encUint,
      List.length_replicate, beBytes_length]
    decide
  refine h exRt exMeta exCxV 3 30 [] exSt (by decide) ?_
  obtain ⟨n, hn⟩ := (transfer_succeeds_iff exRt exSt.cur 1 2050 20).2
    (.inr (.inr ⟨by decide, by decide, by decide, fun h => by cases h⟩))
  have hmv := transfer_moved hn
  have hfree : n.free 1 = 80 ∧ n.frozen 1 = 20 ∧ n.free 3 = 0 ∧ n.resv 3 = 0 ∧ n.pinned 1 = false := by
    have hr1 : n.resv 1 = 0 := by
      have := hmv.source (by decide) (by decide)
      rw [this]; decide
    have hr3 : n.resv 3 = 0 := by
      have := hmv.reserved 3 (by decide)
      rw [this]; decide
    have t1 := hmv.total (by decide) (by decide) 1
    have t3 := hmv.total (by decide) (by decide) 3
    have hd : dustOf exRt exSt.cur 1 20 = 0 := by decide
    rw [hd, if_pos rfl, if_neg (by decide), if_neg (by decide), hr1] at t1
    rw [if_neg (by decide), if_neg (by decide), if_neg (by decide), hr3] at t3
    have v1 : exSt.cur.free 1 + exSt.cur.resv 1 = 100 := by decide
    have v3 : exSt.cur.free 3 + exSt.cur.resv 3 = 0 := by decide
    refine ⟨by omega, by rw [hmv.locks]; decide, by omega, hr3, by rw [hmv.pins]; rfl⟩
  obtain ⟨f1, f2, f3, f4, f5⟩ := hfree
  obtain ⟨o, ho⟩ := (C125_transfer_when exRt exMeta exCxV { exSt with cur := n } [] 3 30
    (by decide) (by decide) hl).2 ⟨rfl, by decide, .inr (.inr ⟨by
      show 30 ≤ n.free 1 - n.frozen 1
      rw [f1, f2]; decide, by
      show n.free 3 + 30 ≤ maxU128
      rw [f3]; decide, by
      show 10 ≤ n.free 3 + 30 + n.resv 3
      rw [f3, f4]; decide, fun hp => by
      have hp' : n.pinned 1 = true := hp
      rw [f5] at hp'; cases hp'⟩)⟩
  refine ⟨o, ?_⟩
  unfold evmCall
  rw [show orRevert (exSt.cur.transfer exRt (exRt.acct exCxV.caller) (exRt.acct exCxV.address) exCxV.value) = .ok n from orRevert_ok_iff.2 hn, ok_bind]
  exact ho

/-- **C131 (partial).** Only these functions change anything: a call whose selector is none of `approve`, `transfer`,
`transferFrom`, `permit` and `deposit` (or an unknown one) leaves the state as it is, in any context.  Missing: the
rejection of the others in a static context (`C131_static_refuted`). -/
theorem C131_views_partial (rt : Rt) (m : Meta) (cx : Ctx) (input : List Byte) (s : State) (o : Out State)
    (h : execute rt m cx input s = .ok o)
    (ha : actionOf input ∉ [Action.approve, .transfer, .transferFrom, .permit, .deposit]) : o.st = s := by
  unfold execute at h
  split at h
  · unfold totalSupply at h
    simp only [bind_ok_iff, pure_ok_iff] at h
    obtain ⟨_, _, _, _, rfl⟩ := h
    rfl
  · unfold balanceOf at h
    simp only [bind_ok_iff, pure_ok_iff, Prod.exists] at h
    obtain ⟨_, _, _, _, _, _, _, rfl⟩ := h
    rfl
  · unfold allowance at h
    simp only [bind_ok_iff, pure_ok_iff, Prod.exists] at h
    obtain ⟨_, _, _, _, _, _, _, _, _, _, rfl⟩ := h
    rfl
  · rename_i e; exact (ha (by rw [e]; decide)).elim
  · rename_i e; exact (ha (by rw [e]; decide)).elim
  · rename_i e; exact (ha (by rw [e]; decide)).elim
  · rw [pure_ok_iff] at h; subst h; rfl
  · rw [pure_ok_iff] at h; subst h; rfl
  · rw [pure_ok_iff] at h; subst h; rfl
  · rename_i e; exact (ha (by rw [e]; decide)).elim
  · unfold withdraw at h
    simp only [bind_ok_iff, pure_ok_iff, ensure_ok_iff, exists_const, Prod.exists] at h
    obtain ⟨_, _, _, _, _, _, _, rfl⟩ := h
    rfl
  · rename_i e; exact (ha (by rw [e]; decide)).elim
  · unfold noncesOf at h
    simp only [bind_ok_iff, pure_ok_iff, Prod.exists] at h
    obtain ⟨_, _, _, _, _, rfl⟩ := h
    rfl
  · rw [pure_ok_iff] at h; subst h; rfl

/-- Non-vacuity: a balance query in a static context. -/
example : ∃ o, execute exRt exMeta { exCx 1 with isStatic := true } (callOf 0x18160ddd [] ++ []) exSt = .ok o :=
  ⟨_, (C125_metadata exRt exMeta { exCx 1 with isStatic := true } exSt []).1⟩

end Verif.Evm.Bal
