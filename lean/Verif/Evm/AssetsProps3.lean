import Verif.Evm.AssetsProps2
import Mathlib.Algebra.BigOperators.Group.Finset.Basic

/-!
# Permits, routing, call contexts and bounded losses of asset contracts (C136, C137, C139, C140)
-/

namespace Verif.Evm.Ast

section
variable (rt : Rt) (cx : Ctx) (s : State) (id : Nat) (a : Asset)

/-- The token contract of the call. -/
def domainOf (rt : Rt) (cx : Ctx) (id : Nat) (a : Asset) : Domain := ⟨rt, permitName a id, cx.codeAddress⟩

theorem permit_read (owner spender value deadline v r sg : Nat) (tail : List Byte)
    (h : PermitArgs owner spender value deadline v r sg tail) :
    permit rt cx s id a (callOf 0xd505accf
      [(20, owner), (20, spender), (32, value), (32, deadline), (1, v), (32, r), (32, sg)] ++ tail) =
      permitBody rt cx s id a owner spender value deadline v r sg := by
  have ha := argsOk_cons (by decide) h.hOwner (argsOk_cons (by decide) h.hSpender (argsOk_cons (by decide) h.hValue
    (argsOk_cons (by decide) h.hDeadline (argsOk_cons (by decide) h.hV (argsOk_cons (by decide) h.hR
      (argsOk1 (by decide) h.hSg))))))
  have hz := sized_args h.hSize
  unfold permit
  rw [skip_call, ok_bind, readUint_arg _ tail ha 0 20 owner rfl hz, ok_bind]
  dsimp only
  rw [readUint_arg _ tail ha 1 20 spender rfl hz, ok_bind]
  dsimp only
  rw [readUint_arg _ tail ha 2 32 value rfl hz, ok_bind]
  dsimp only
  rw [readUint_arg _ tail ha 3 32 deadline rfl hz, ok_bind]
  dsimp only
  rw [readUint_arg _ tail ha 4 1 v rfl hz, ok_bind]
  dsimp only
  rw [readUint_arg _ tail ha 5 32 r rfl hz, ok_bind]
  dsimp only
  rw [readUint_arg _ tail ha 6 32 sg rfl hz, ok_bind]

theorem permit_eval (hto : To cx s id a) (owner spender value deadline v r sg : Nat) (tail : List Byte)
    (h : PermitArgs owner spender value deadline v r sg tail) :
    execute rt cx (permitCall owner spender value deadline v r sg ++ tail) s =
      some (checkModifier cx .view >>= fun _ => permitBody rt cx s id a owner spender value deadline v r sg) := by
  rw [execute_to hto, ← permit_read rt cx s id a owner spender value deadline v r sg tail h]
  unfold permitCall
  rw [call_eval _ _ _ .permit (by decide) (by decide)]
  rfl

/-- The state after the nonce of an owner has been used. -/
def used (s : State) (address owner : Nat) : State :=
  { s with nonces := upd2 s.nonces address owner (s.nonces address owner + 1) }

/-- **C136 (when).** A permit is accepted exactly when no value is sent, it has not expired, the signature over its
fields, the owner's current nonce at this address and this token contract was made by the owner, the asset is live, the
owner can pay the deposit, and the runtime lets the calls of an approval through. -/
theorem C136_permit_when (hto : To cx s id a) (owner spender value deadline v r sg : Nat) (tail : List Byte)
    (h : PermitArgs owner spender value deadline v r sg tail)
    (hn : s.nonces cx.codeAddress owner + 1 < 256 ^ 32) :
    (∃ o, execute rt cx (permitCall owner spender value deadline v r sg ++ tail) s = some (.ok o)) ↔
      cx.value = 0 ∧ cx.now / 1000 ≤ deadline ∧ owner ≠ 0 ∧
      signerOf rt.crypto r sg v ((domainOf rt cx id a).digest
        ⟨owner, spender, value, s.nonces cx.codeAddress owner, deadline⟩) = some owner ∧
      a.status = .live ∧ CanDeposit rt s id (rt.acct owner) (rt.acct spender) ∧
      MayApprove rt s id (rt.acct owner) (rt.acct spender) := by
  rw [permit_eval rt cx s id a hto owner spender value deadline v r sg tail h]
  unfold permitBody
  simp only [Option.some.injEq, bind_ok_iff, ensure_ok_iff, exists_const, okOr_ok_iff, pure_ok_iff, check_view_iff]
  have key := approveInner_iff (rt := rt) (s := used s cx.codeAddress owner) (id := id) (o := rt.acct owner)
    (d := rt.acct spender) (v := value) (a := a) hto.exists_
  constructor
  · rintro ⟨o, h0, h1, signer, h2, ⟨h3, rfl⟩, -, s', h4, -⟩
    obtain ⟨h5, h6⟩ := key.1 ⟨s', h4⟩
    exact ⟨h0, h1, h3, h2, h5, h6⟩
  · rintro ⟨h0, h1, h2, h3, h4, h5⟩
    obtain ⟨s', h6⟩ := key.2 ⟨h4, h5⟩
    exact ⟨_, h0, h1, owner, h3, ⟨h2, rfl⟩, hn, s', h6, rfl⟩

/-- **C136 (what).** An accepted permit uses up the owner's nonce at this address and has exactly the effect of an
`approve` by the owner; it logs the approval. -/
theorem C136_permit_what (hto : To cx s id a) (owner spender value deadline v r sg : Nat) (tail : List Byte)
    (h : PermitArgs owner spender value deadline v r sg tail) (o : Out State)
    (ho : execute rt cx (permitCall owner spender value deadline v r sg ++ tail) s = some (.ok o)) :
    Approved rt (used s cx.codeAddress owner) o.st id (rt.acct owner) (rt.acct spender) value ∧ o.ret = [] ∧
    o.logs = [⟨cx.address, .approval, [owner, spender], Abi.encUint 32 value⟩] ∧
    s.nonces cx.codeAddress owner + 1 < 256 ^ 32 := by
  rw [permit_eval rt cx s id a hto owner spender value deadline v r sg tail h] at ho
  unfold permitBody at ho
  simp only [Option.some.injEq, bind_ok_iff, ensure_ok_iff, exists_const, okOr_ok_iff, pure_ok_iff,
    check_view_iff] at ho
  obtain ⟨_, _, _, _, _, hn, s', hs, rfl⟩ := ho
  refine ⟨approveInner_what (s := used s cx.codeAddress owner) hto.exists_ hs, rfl, ?_, hn⟩
  rw [outWord_eq]

end

/-- Any history of all asset contracts: calls with arbitrary calldata in arbitrary contexts, and arbitrary changes of
native balances, assets and approvals (but not of permit nonces) by the rest of the chain. -/
inductive Run (rt : Rt) : State → State → Prop
  | refl (s : State) : Run rt s s
  | call {s s1 : State} (h : Run rt s s1) (cx : Ctx) (input : List Byte) (o : Out State)
      (ho : execute rt cx input s1 = some (.ok o)) : Run rt s o.st
  | env {s s1 : State} (h : Run rt s s1) (t : State) (ht : t.nonces = s1.nonces) : Run rt s t

/-- **C136 (nonces).** Nonces never go down. -/
theorem C136_nonce_monotone (rt : Rt) (s t : State) (h : Run rt s t) (address owner : Nat) :
    s.nonces address owner ≤ t.nonces address owner := by
  induction h with
  | refl => exact le_refl _
  | env _ t ht ih => rw [ht]; exact ih
  | @call s1 _ cx input o ho ih =>
    refine le_trans ih ?_
    obtain ⟨id, a, hto, he⟩ := execute_effect ho
    have ha := hto.exists_
    generalize o.st = s' at he
    cases he with
    | view => exact le_refl _
    | approve sp am _ _ hap => rw [(approveInner_what ha hap).nonces]
    | transfer d x a' hst ht => exact le_refl _
    | mint d x a' hst ht => exact le_refl _
    | burn d x a' hst ht => exact le_refl _
    | spend ow d x p a' hst hne hp hx ht =>
      rw [(settle_assets _ _ _ _ _ _).2]
      exact le_refl _
    | permit ow sp va de r sg v _ hd hsig h0 hap =>
      rw [(approveInner_what (s := used s1 cx.codeAddress ow) ha hap).nonces]
      show _ ≤ upd2 s1.nonces _ _ _ address owner
      by_cases hw : address = cx.codeAddress ∧ owner = ow
      · rw [hw.1, hw.2, upd2_same]; omega
      · rw [upd2_of_ne _ _ (not_and_or.1 hw)]

/-- **C136 (no replay).** No two accepted permits of an owner, at any two points of a history, for any two asset contracts
(or two addresses of one asset), are for the same signed message, unless the hash collides on the strings hashed for them:
a signature authorises at most one change of an allowance. -/
theorem C136_no_replay (rt : Rt) (cx cx' : Ctx) (s t : State) (id id' : Nat) (a a' : Asset) (o o' : Out State)
    (hto : To cx s id a) (hto' : To cx' t id' a')
    (owner sp va de v r sg sp' va' de' v' r' sg' : Nat) (tail tail' : List Byte)
    (ha : PermitArgs owner sp va de v r sg tail) (ha' : PermitArgs owner sp' va' de' v' r' sg' tail')
    (h1 : execute rt cx (permitCall owner sp va de v r sg ++ tail) s = some (.ok o))
    (hr : Run rt o.st t)
    (h2 : execute rt cx' (permitCall owner sp' va' de' v' r' sg' ++ tail') t = some (.ok o'))
    (hd : (domainOf rt cx id a).Fits) (hd' : (domainOf rt cx' id' a').Fits)
    (hc : NoCollision rt.crypto
      ((domainOf rt cx id a).hashed ⟨owner, sp, va, s.nonces cx.codeAddress owner, de⟩ ++
        (domainOf rt cx' id' a').hashed ⟨owner, sp', va', t.nonces cx'.codeAddress owner, de'⟩)) :
    (domainOf rt cx id a).digest ⟨owner, sp, va, s.nonces cx.codeAddress owner, de⟩ ≠
      (domainOf rt cx' id' a').digest ⟨owner, sp', va', t.nonces cx'.codeAddress owner, de'⟩ := by
  intro he
  obtain ⟨w, -, -, hn⟩ := C136_permit_what rt cx s id a hto owner sp va de v r sg tail ha o h1
  obtain ⟨-, -, -, hn'⟩ := C136_permit_what rt cx' t id' a' hto' owner sp' va' de' v' r' sg' tail' ha' o' h2
  obtain ⟨hp, -, hadr, -⟩ := C128_digest_binds (domainOf rt cx id a) (domainOf rt cx' id' a')
    ⟨owner, sp, va, s.nonces cx.codeAddress owner, de⟩ ⟨owner, sp', va', t.nonces cx'.codeAddress owner, de'⟩ rfl hd hd'
    ⟨ha.hOwner, ha.hSpender, ha.hValue, (by show s.nonces cx.codeAddress owner < 256 ^ 32; omega), ha.hDeadline⟩
    ⟨ha'.hOwner, ha'.hSpender, ha'.hValue, (by show t.nonces cx'.codeAddress owner < 256 ^ 32; omega), ha'.hDeadline⟩ hc he
  injection hp with _ _ _ hp _
  have hadr' : cx.codeAddress = cx'.codeAddress := hadr
  have h3 := C136_nonce_monotone rt o.st t hr cx.codeAddress owner
  have e : o.st.nonces cx.codeAddress owner = s.nonces cx.codeAddress owner + 1 := by
    rw [w.nonces]
    exact upd2_same _ _ _ _
  rw [← hadr'] at hp
  omega

theorem exSigner (d : Nat) : signerOf exRt.crypto 7 8 27 d = some 2 := by
  unfold signerOf
  have e : exRt.crypto.recover 7 8 27 d = some [1] := by
    show (if (7 : Nat) = 7 ∧ (8 : Nat) = 8 ∧ (27 : Nat) = 27 then some [(1 : Byte)] else none) = _
    exact if_pos ⟨rfl, rfl, rfl⟩
  rw [e]
  decide +kernel

/-- Non-vacuity: a permit is accepted, whoever sends it. -/
theorem exPermit : ∃ o, execute exRt (exCx 77) (permitCall 2 5 1000 9 27 7 8 ++ []) exSt = some (.ok o) :=
  (C136_permit_when exRt (exCx 77) exSt 7 exAsset (exTo 77) 2 5 1000 9 27 7 8 [] exPermitArgs (by decide)).2
    ⟨rfl, by decide, by decide, exSigner _, rfl, .inr ⟨by decide, by decide⟩, rfl, fun _ => rfl⟩

/-! ## Routing -/

/-- **C137 (delegatecall).** A token contract (native or asset) never runs in the context of another address: such a call
(`DELEGATECALL`, `CALLCODE`) is rejected. -/
theorem C137_no_delegatecall (s : State) (cx : Ctx) (h : cx.address ≠ cx.codeAddress) :
    route s cx ≠ .native ∧ route s cx ≠ .asset := by
  constructor
  · intro hr
    have hc : cx.codeAddress = 2050 := by
      unfold route at hr
      split at hr
      · cases hr
      · split at hr
        · cases hr
        · split at hr
          · assumption
          · split at hr
            · split at hr <;> cases hr
            · cases hr
    have : route s cx = .reverted := by
      unfold route
      refine if_pos ⟨?_, by rw [hc]; decide, h⟩
      unfold isPrecompile
      rw [hc]
      rfl
    rw [this] at hr
    cases hr
  · intro hr
    have hc : isAsset s cx.codeAddress = true ∧ cx.codeAddress / 256 ^ 16 = 0xffffffff := by
      unfold route at hr
      split at hr
      · cases hr
      · split at hr
        · cases hr
        · split at hr
          · cases hr
          · split at hr
            · rename_i h1
              split at hr
              · rename_i h2
                exact ⟨h2, h1⟩
              · cases hr
            · cases hr
    have : route s cx = .reverted := by
      unfold route
      refine if_pos ⟨?_, ?_, h⟩
      · unfold isPrecompile
        rw [hc.1, Bool.or_true]
      · have := hc.2
        omega
    rw [this] at hr
    cases hr

/-- **C137 (native).** The native token is at address 2050 and nowhere else. -/
theorem C137_native (s : State) (cx : Ctx) :
    route s cx = .native ↔ cx.codeAddress = 2050 ∧ cx.address = 2050 := by
  constructor
  · intro hr
    have h1 : cx.address = cx.codeAddress := by
      by_contra h
      exact (C137_no_delegatecall s cx h).1 hr
    rw [h1, and_self]
    unfold route at hr
    split at hr
    · cases hr
    · split at hr
      · cases hr
      · split at hr
        · assumption
        · split at hr
          · split at hr <;> cases hr
          · cases hr
  · rintro ⟨h1, h2⟩
    unfold route
    rw [if_neg fun h => h.2.2 (h2.trans h1.symm), if_neg (by rw [h1]; decide), if_pos h1]

/-- **C137 (assets).** An address is an asset contract exactly when its first four bytes are `ff` and the number in its
last four bytes is an existing asset; the asset's functions then run (`execute` gives an answer). -/
theorem C137_asset (rt : Rt) (s : State) (cx : Ctx) (input : List Byte) :
    (route s cx = .asset ↔ cx.address = cx.codeAddress ∧ cx.codeAddress / 256 ^ 16 = 0xffffffff ∧
      (s.assets (cx.codeAddress % 256 ^ 4)).isSome) ∧
    (route s cx = .asset → execute rt cx input s ≠ none) := by
  have hp : ∀ h : cx.codeAddress / 256 ^ 16 = 0xffffffff,
      isAsset s cx.codeAddress = (s.assets (cx.codeAddress % 256 ^ 4)).isSome := fun h => by
    unfold isAsset addressToAssetId
    rw [if_pos h]
  have key : route s cx = .asset ↔ cx.address = cx.codeAddress ∧ cx.codeAddress / 256 ^ 16 = 0xffffffff ∧
      (s.assets (cx.codeAddress % 256 ^ 4)).isSome := by
    constructor
    · intro hr
      have h1 : cx.address = cx.codeAddress := by
        by_contra h
        exact (C137_no_delegatecall s cx h).2 hr
      refine ⟨h1, ?_⟩
      unfold route at hr
      split at hr
      · cases hr
      · split at hr
        · cases hr
        · split at hr
          · cases hr
          · split at hr
            · rename_i h2
              split at hr
              · rename_i h3
                exact ⟨h2, by rw [← hp h2]; exact h3⟩
              · cases hr
            · cases hr
    · rintro ⟨h1, h2, h3⟩
      have hbig : cx.codeAddress > 5000 := by omega
      have hn : cx.codeAddress ∉ [1, 2, 3, 4, 5, 6, 7, 8, 9, 1024, 1025, 1026, 1027] := fun hm => by
        have : ∀ x ∈ [1, 2, 3, 4, 5, 6, 7, 8, 9, 1024, 1025, 1026, 1027], x < 2000 := by decide
        have := this _ hm
        omega
      unfold route
      rw [if_neg fun h => h.2.2 h1, if_neg hn, if_neg (by omega), if_pos h2, if_pos (by rw [hp h2]; exact h3)]
  refine ⟨key, fun hr => ?_⟩
  obtain ⟨-, h2, h3⟩ := key.1 hr
  unfold execute addressToAssetId
  rw [if_pos h2]
  dsimp only
  obtain ⟨a, ha⟩ := Option.isSome_iff_exists.1 h3
  rw [ha]
  intro h
  cases h

/-- **C137 (addresses).** The canonical address of an asset leads to that asset, is a 20-byte address, and different
assets have different addresses. -/
theorem C137_roundtrip (id : Nat) (h : id < 2 ^ 32) :
    addressToAssetId (assetIdToAddress id) = some id ∧ assetIdToAddress id < 256 ^ 20 ∧
      ∀ id', assetIdToAddress id' = assetIdToAddress id → id' = id := by
  refine ⟨?_, ?_, fun id' he => ?_⟩
  · unfold addressToAssetId assetIdToAddress
    rw [if_pos (by omega)]
    congr 1
    omega
  · unfold assetIdToAddress
    omega
  · unfold assetIdToAddress at he
    omega

/-- **C137 (aliases).** The middle twelve bytes of the address are ignored: `2^96` addresses lead to every asset. -/
theorem C137_aliases (id m : Nat) (h : id < 2 ^ 32) (hm : m < 256 ^ 12) :
    addressToAssetId (0xffffffff * 256 ^ 16 + m * 256 ^ 4 + id) = some id := by
  unfold addressToAssetId
  rw [if_pos (by omega)]
  congr 1
  omega

/-- Non-vacuity: the canonical address of asset 7 and an alias of it reach it; a delegatecall does not. -/
example : route exSt (exCx 1) = .asset ∧
    route exSt ⟨1, 0xffffffff * 256 ^ 16 + 5 * 256 ^ 4 + 7, 0xffffffff * 256 ^ 16 + 5 * 256 ^ 4 + 7, 0, false, 0⟩ = .asset ∧
    route exSt ⟨1, 12345, assetIdToAddress 7, 0, false, 0⟩ = .reverted ∧
    route exSt ⟨1, 2050, 2050, 0, false, 0⟩ = .native := by
  decide +kernel

/-! ## Call contexts -/

/-- What a Solidity programmer expects: a call in a static context changes nothing. -/
def C139_static_statement : Prop :=
  ∀ (rt : Rt) (cx : Ctx) (input : List Byte) (s : State) (o : Out State),
    cx.isStatic = true → execute rt cx input s = some (.ok o) → o.st = s

/-- A static call of account 77 to the contract of asset 7. -/
def exCxS : Ctx :=
  { caller := 77, address := assetIdToAddress 7, codeAddress := assetIdToAddress 7, value := 0, isStatic := true, now := 5000 }

/-- **C139 (refuted).** `permit` is taken for a function that only reads: it is accepted in a static call, and sets an
allowance. -/
theorem C139_static_refuted : ¬ C139_static_statement := by
  intro h
  have hto : To exCxS exSt 7 exAsset := ⟨(exTo 77).address, rfl⟩
  obtain ⟨o, ho⟩ := (C136_permit_when exRt exCxS exSt 7 exAsset hto 2 5 1000 9 27 7 8 [] exPermitArgs (by decide)).2
    ⟨rfl, by decide, by decide, exSigner _, rfl, .inr ⟨by decide, by decide⟩, rfl, fun _ => rfl⟩
  have he := h exRt exCxS _ exSt o rfl ho
  have w := (C136_permit_what exRt exCxS exSt 7 exAsset hto 2 5 1000 9 27 7 8 [] exPermitArgs o ho).1.allowance
  rw [he] at w
  revert w
  decide

theorem ite_other {p : Prop} [Decidable p] {x y : Action} {r : Option Action} (hx : x ≠ y)
    (h : (if p then some x else r) = some y) : r = some y := by
  by_cases hp : p
  · rw [if_pos hp] at h
    injection h with h
    exact (hx h).elim
  · rwa [if_neg hp] at h

theorem ofSelector_permit {n : Nat} (h : Action.ofSelector n = some .permit) : n = 0xd505accf := by
  by_contra hn
  unfold Action.ofSelector at h
  rw [if_neg hn] at h
  replace h := ite_other (by decide) h
  replace h := ite_other (by decide) h
  replace h := ite_other (by decide) h
  replace h := ite_other (by decide) h
  replace h := ite_other (by decide) h
  replace h := ite_other (by decide) h
  replace h := ite_other (by decide) h
  replace h := ite_other (by decide) h
  replace h := ite_other (by decide) h
  replace h := ite_other (by decide) h
  replace h := ite_other (by decide) h
  replace h := ite_other (by decide) h
  replace h := ite_other (by decide) h
  replace h := ite_other (by decide) h
  cases h

/-- **C139 (partial).** A static call changes nothing, unless it is a `permit`: then its whole effect is that of an
approval by the signer.  Missing: `permit` should be rejected too (`C139_static_refuted`). -/
theorem C139_static_partial (rt : Rt) (cx : Ctx) (input : List Byte) (s : State) (o : Out State)
    (hs : cx.isStatic = true) (h : execute rt cx input s = some (.ok o)) :
    o.st = s ∨ (readSelector input = .ok 0xd505accf ∧ ∃ id a owner spender value, To cx s id a ∧ owner ≠ 0 ∧
      Approved rt (used s cx.codeAddress owner) o.st id (rt.acct owner) (rt.acct spender) value) := by
  by_cases hsel : readSelector input = .ok 0xd505accf
  · obtain ⟨id, a, hto, he⟩ := execute_effect h
    have ha := hto.exists_
    generalize o.st = s' at he
    cases he with
    | view => exact .inl rfl
    | approve sp am _ hst => rw [hs] at hst; cases hst
    | transfer d x a' hst => rw [hs] at hst; cases hst
    | mint d x a' hst => rw [hs] at hst; cases hst
    | burn d x a' hst => rw [hs] at hst; cases hst
    | spend ow d x p a' hst => rw [hs] at hst; cases hst
    | permit ow sp va de r sg v _ hd hsig h0 hap =>
      exact .inr ⟨hsel, id, a, ow, sp, va, hto, h0, approveInner_what (s := used s cx.codeAddress ow) ha hap⟩
  · left
    obtain ⟨id, a, hto, -⟩ := execute_effect h
    rw [execute_to hto] at h
    injection h with h
    unfold call at h
    simp only [bind_ok_iff, okOr_ok_iff] at h
    obtain ⟨n, hn, f, hf, u, hm, hact⟩ := h
    have hnp : n ≠ 0xd505accf := fun e => hsel (by rw [hn, e])
    cases f with
    | permit =>
      exfalso
      exact hnp (ofSelector_permit hf)
    | approve => have := (check_nonPayable_iff.1 hm).1; rw [hs] at this; cases this
    | transfer => have := (check_nonPayable_iff.1 hm).1; rw [hs] at this; cases this
    | transferFrom => have := (check_nonPayable_iff.1 hm).1; rw [hs] at this; cases this
    | mint => have := (check_nonPayable_iff.1 hm).1; rw [hs] at this; cases this
    | burn => have := (check_nonPayable_iff.1 hm).1; rw [hs] at this; cases this
    | totalSupply => change pure _ = _ at hact; rw [pure_ok_iff] at hact; subst hact; rfl
    | name => change pure _ = _ at hact; rw [pure_ok_iff] at hact; subst hact; rfl
    | symbol => change pure _ = _ at hact; rw [pure_ok_iff] at hact; subst hact; rfl
    | decimals => change pure _ = _ at hact; rw [pure_ok_iff] at hact; subst hact; rfl
    | minimumBalance => change pure _ = _ at hact; rw [pure_ok_iff] at hact; subst hact; rfl
    | domainSeparator => change pure _ = _ at hact; rw [pure_ok_iff] at hact; subst hact; rfl
    | balanceOf =>
      change balanceOf _ _ _ _ = _ at hact
      unfold balanceOf at hact
      simp only [bind_ok_iff, pure_ok_iff, Prod.exists] at hact
      obtain ⟨_, _, _, _, _, _, _, rfl⟩ := hact
      rfl
    | allowance =>
      change allowance _ _ _ _ = _ at hact
      unfold allowance at hact
      simp only [bind_ok_iff, pure_ok_iff, Prod.exists] at hact
      obtain ⟨_, _, _, _, _, _, _, _, _, _, rfl⟩ := hact
      rfl
    | nonces =>
      change noncesOf _ _ _ = _ at hact
      unfold noncesOf at hact
      simp only [bind_ok_iff, pure_ok_iff, Prod.exists] at hact
      obtain ⟨_, _, _, _, _, rfl⟩ := hact
      rfl

/-- **C139 (value).** Native tokens sent along with any call to an asset contract make it fail. -/
theorem C139_no_value (rt : Rt) (cx : Ctx) (input : List Byte) (s : State) (hv : cx.value ≠ 0) :
    ¬ ∃ o, execute rt cx input s = some (.ok o) := by
  rintro ⟨o, h⟩
  obtain ⟨id, a, hto, -⟩ := execute_effect h
  rw [execute_to hto] at h
  injection h with h
  unfold call at h
  simp only [bind_ok_iff, okOr_ok_iff] at h
  obtain ⟨n, hn, f, hf, u, hm, hact⟩ := h
  cases f <;> first | exact hv (check_view_iff.1 hm) | exact hv (check_nonPayable_iff.1 hm).2

/-! ## Bounded losses -/

/-- A history in which account `x` is passive for asset `id`: `n` calls by others than the asset's admin, whose accounts
are in `ps`, none of which uses a permit of `x`; in between the rest of the chain may do anything that keeps the balance
and the approvals of `x` and the asset's admin and minimum balance. -/
inductive Passive (rt : Rt) (id x admin minBal : Nat) : State → Finset Nat → Nat → State → Prop
  | start (s : State) (ps : Finset Nat) (a : Asset) (ha : s.assets id = some a) (h1 : a.admin = admin)
      (h2 : a.minBal = minBal) : Passive rt id x admin minBal s ps 0 s
  | call {s s1 : State} {ps : Finset Nat} {n : Nat} (hr : Passive rt id x admin minBal s ps n s1) (cx : Ctx)
      (input : List Byte) (o : Out State) (h : execute rt cx input s1 = some (.ok o)) (hps : rt.acct cx.caller ∈ ps)
      (hc : x ≠ rt.acct cx.caller) (hadm : rt.acct cx.caller ≠ admin)
      (hn : ∀ address owner, rt.acct owner = x → o.st.nonces address owner = s1.nonces address owner) :
      Passive rt id x admin minBal s ps (n + 1) o.st
  | env {s s1 : State} {ps : Finset Nat} {n : Nat} (hr : Passive rt id x admin minBal s ps n s1) (t : State)
      (h : balOf s1 id x ≤ balOf t id x) (ha : ∀ d, t.approvals id x d = s1.approvals id x d)
      (b : Asset) (hb : t.assets id = some b) (h1 : b.admin = admin) (h2 : b.minBal = minBal) :
      Passive rt id x admin minBal s ps n t

/-- **C140.** Over any history a passive account loses at most what its spenders' allowances have gone down by, plus less
than one minimum balance per call (the remainder that goes along when it would be too small). -/
theorem C140_bounded_loss (rt : Rt) (id x admin minBal : Nat) (s s' : State) (ps : Finset Nat) (n : Nat)
    (h : Passive rt id x admin minBal s ps n s') :
    balOf s id x + (∑ p ∈ ps, allowanceOf s' id x p) ≤
      balOf s' id x + (∑ p ∈ ps, allowanceOf s id x p) + (minBal - 1) * n := by
  have inv : ∃ a, s'.assets id = some a ∧ a.admin = admin ∧ a.minBal = minBal ∧
      balOf s id x + (∑ p ∈ ps, allowanceOf s' id x p) ≤
      balOf s' id x + (∑ p ∈ ps, allowanceOf s id x p) + (minBal - 1) * n := by
    induction h with
    | start ps a ha h1 h2 => exact ⟨a, ha, h1, h2, by omega⟩
    | @env s1 ps n hr t ht ha b hb h1 h2 ih =>
      obtain ⟨_, _, _, _, ih⟩ := ih
      refine ⟨b, hb, h1, h2, ?_⟩
      have : (∑ p ∈ ps, allowanceOf t id x p) = ∑ p ∈ ps, allowanceOf s1 id x p :=
        Finset.sum_congr rfl fun p _ => by unfold allowanceOf; rw [ha p]
      omega
    | @call s1 ps n hr cx input o h hps hc hadm hn ih =>
      obtain ⟨b, hb, h1, h2, ih⟩ := ih
      obtain ⟨b', hb', -, -, -, -, e1, e2, -⟩ := C138_supply rt cx input s1 o h id b hb
      refine ⟨b', hb', e1.trans h1, e2.trans h2, ?_⟩
      have key : balOf s1 id x + (∑ p ∈ ps, allowanceOf o.st id x p) ≤
          balOf o.st id x + (∑ p ∈ ps, allowanceOf s1 id x p) + (minBal - 1) := by
        obtain ⟨j, a, hto, hoff, -, hcons⟩ := C133_consent rt cx input s1 o h
        by_cases hj : id = j
        · subst hj
          have hab : a = b := by
            have := hto.exists_
            rw [hb] at this
            injection this with this
            exact this.symm
          subst hab
          cases hcons x hc with
          | untouched g1 g2 g3 =>
            have : (∑ p ∈ ps, allowanceOf o.st id x p) = ∑ p ∈ ps, allowanceOf s1 id x p :=
              Finset.sum_congr rfl fun p _ => by unfold allowanceOf; rw [g2 p]
            omega
          | spent v hv hv' g1 g2 =>
            rw [h2] at g2
            have e3 : (∑ p ∈ ps, allowanceOf o.st id x p) + v = ∑ p ∈ ps, allowanceOf s1 id x p := by
              rw [← Finset.add_sum_erase ps _ hps, ← Finset.add_sum_erase ps (allowanceOf s1 id x) hps]
              have e4 : (∑ p ∈ ps.erase (rt.acct cx.caller), allowanceOf o.st id x p) =
                  ∑ p ∈ ps.erase (rt.acct cx.caller), allowanceOf s1 id x p :=
                Finset.sum_congr rfl fun p hp => by unfold allowanceOf; rw [g1 p (Finset.ne_of_mem_erase hp)]
              omega
            omega
          | burnt g1 => exact (hadm (g1.trans h1)).elim
          | permitted ow sp va de r sg v ho h0 hd hsig g1 =>
            have := hn cx.codeAddress ow ho
            omega
        · obtain ⟨g1, g2⟩ := hoff id hj
          have e5 : balOf o.st id x = balOf s1 id x := by unfold balOf; rw [g1]
          have : (∑ p ∈ ps, allowanceOf o.st id x p) = ∑ p ∈ ps, allowanceOf s1 id x p :=
            Finset.sum_congr rfl fun p _ => by unfold allowanceOf; rw [g2]
          omega
      have : (minBal - 1) * (n + 1) = (minBal - 1) * n + (minBal - 1) := by ring
      omega
  exact inv.choose_spec.2.2.2

/-- Non-vacuity: account 2 uses 98 of its allowance, and takes the 100 of the passive account 1 (the remainder of 2 is
below the minimum balance). -/
example : ∃ s', Passive exRt 7 1 4 exAsset.minBal exSt {2} 1 s' ∧ balOf s' 7 1 < balOf exSt 7 1 := by
  have hl := sized3 0x23b872dd 20 1 20 6 32 98 (by decide) (by decide) (by decide)
  obtain ⟨o, ho⟩ := (C132_transfer_from_when exRt (exCx 2) exSt 7 exAsset [] (exTo 2) 1 6 98 (by decide) (by decide)
    (by decide) hl).2
      ⟨rfl, rfl, by decide, .inr ⟨rfl, rfl, by decide, by decide, by decide⟩, .inr ⟨by decide, rfl, rfl, ⟨98, 10⟩, rfl, le_refl _⟩⟩
  have hw := C132_transfer_from_what exRt (exCx 2) exSt 7 exAsset [] (exTo 2) 1 6 98 (by decide) (by decide)
    (by decide) hl o ho
  refine ⟨o.st, .call (.start exSt {2} exAsset rfl rfl rfl) (exCx 2) _ o ho (Finset.mem_singleton.2 rfl) (by decide)
    (by decide) ?_, ?_⟩
  · intro ad ow _
    rw [hw.2.2.1]
  · obtain ⟨a', h1, h2⟩ := hw.1
    rw [balOf_some h1]
    have := h2.moved (by decide) (by decide) 1
    rw [if_pos (show (1 : Nat) = exRt.acct 1 from rfl), if_neg (show ¬ (1 : Nat) = exRt.acct 6 by decide)] at this
    have e1 : leaves exAsset (exRt.acct 1) 98 = 100 := by decide
    have e2 : exAsset.bal 1 = 100 := by decide
    have e3 : balOf exSt 7 1 = 100 := by decide
    omega

end Verif.Evm.Ast
