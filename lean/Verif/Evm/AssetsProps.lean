import Verif.Evm.AssetsLemmas

/-!
# Properties of the ERC-20 interface of assets (C132, C135)
-/

namespace Verif.Evm.Ast

/-- The call goes to the contract of the existing asset `a` with number `id`. -/
structure To (cx : Ctx) (s : State) (id : Nat) (a : Asset) : Prop where
  address : addressToAssetId cx.codeAddress = some id
  exists_ : s.assets id = some a

theorem execute_to {rt : Rt} {cx : Ctx} {s : State} {id : Nat} {a : Asset} (h : To cx s id a) (input : List Byte) :
    execute rt cx input s = some (call rt cx s id a input) := by
  unfold execute
  rw [h.address]
  dsimp only
  rw [h.exists_]

theorem call_eval {rt : Rt} {cx : Ctx} {s : State} {id : Nat} {a : Asset} (sel : Nat) (args : List (Nat × Nat))
    (tail : List Byte) (f : Action) (hs : sel < 2 ^ 32) (hf : Action.ofSelector sel = some f) :
    call rt cx s id a (callOf sel args ++ tail) =
      (checkModifier cx f.modifier >>= fun _ => act rt cx s id a (callOf sel args ++ tail) f) := by
  unfold call
  rw [selector_call sel args tail hs, ok_bind, hf]
  rfl

theorem check_view_iff {cx : Ctx} {u : Unit} : checkModifier cx .view = .ok u ↔ cx.value = 0 := by
  unfold checkModifier
  simp only [bind_ok_iff, ensure_ok_iff, exists_const]
  constructor
  · rintro ⟨-, h⟩
    by_contra hv
    exact h ⟨by decide, by omega⟩
  · intro h
    exact ⟨fun e => e.2 rfl, fun e => by omega⟩

theorem check_nonPayable_iff {cx : Ctx} {u : Unit} :
    checkModifier cx .nonPayable = .ok u ↔ cx.isStatic = false ∧ cx.value = 0 := by
  unfold checkModifier
  simp only [bind_ok_iff, ensure_ok_iff, exists_const]
  constructor
  · rintro ⟨h1, h⟩
    refine ⟨?_, ?_⟩
    · cases hb : cx.isStatic with
      | false => rfl
      | true => exact (h1 ⟨hb, by decide⟩).elim
    · by_contra hv
      exact h ⟨by decide, by omega⟩
  · rintro ⟨h1, h⟩
    exact ⟨fun e => by rw [h1] at e; exact Bool.noConfusion e.1, fun e => by omega⟩

theorem check_view {cx : Ctx} (h : cx.value = 0) : checkModifier cx .view = .ok () := check_view_iff.2 h

section
variable (rt : Rt) (cx : Ctx) (s : State) (id : Nat) (a : Asset) (tail : List Byte) (hto : To cx s id a)
include hto

/-- **C132 (views).** `totalSupply`, `name`, `symbol`, `decimals`, `minimumBalance` return the asset's data, ABI encoded. -/
theorem C132_metadata (hv : cx.value = 0) :
    execute rt cx (callOf 0x18160ddd [] ++ tail) s = some (.ok ⟨s, Abi.encUint 32 a.supply, []⟩) ∧
    execute rt cx (callOf 0x06fdde03 [] ++ tail) s = some (.ok ⟨s, Abi.seq [⟨false, Abi.encBytes a.name⟩], []⟩) ∧
    execute rt cx (callOf 0x95d89b41 [] ++ tail) s = some (.ok ⟨s, Abi.seq [⟨false, Abi.encBytes a.symbol⟩], []⟩) ∧
    execute rt cx (callOf 0x313ce567 [] ++ tail) s = some (.ok ⟨s, Abi.encUint 1 a.decimals, []⟩) ∧
    execute rt cx (callOf 0xb9d1d49b [] ++ tail) s = some (.ok ⟨s, Abi.encUint 32 a.minBal, []⟩) := by
  have hc := check_view hv
  refine ⟨?_, ?_, ?_, ?_, ?_⟩
  · rw [execute_to hto, call_eval _ _ _ .totalSupply (by decide) (by decide),
      show Action.modifier .totalSupply = .view from rfl, hc, ok_bind, ← outWord_eq]
    rfl
  · rw [execute_to hto, call_eval _ _ _ .name (by decide) (by decide),
      show Action.modifier .name = .view from rfl, hc, ok_bind, ← outBytes_eq]
    rfl
  · rw [execute_to hto, call_eval _ _ _ .symbol (by decide) (by decide),
      show Action.modifier .symbol = .view from rfl, hc, ok_bind, ← outBytes_eq]
    rfl
  · rw [execute_to hto, call_eval _ _ _ .decimals (by decide) (by decide),
      show Action.modifier .decimals = .view from rfl, hc, ok_bind, ← outU8_eq]
    rfl
  · rw [execute_to hto, call_eval _ _ _ .minimumBalance (by decide) (by decide),
      show Action.modifier .minimumBalance = .view from rfl, hc, ok_bind, ← outWord_eq]
    rfl

/-- **C132 (views).** `balanceOf` returns the balance. -/
theorem C132_balance_of (hv : cx.value = 0) (owner : Nat) (ho : owner < 256 ^ 20)
    (hl : Sized (callOf 0x70a08231 [(20, owner)] ++ tail)) :
    execute rt cx (callOf 0x70a08231 [(20, owner)] ++ tail) s =
      some (.ok ⟨s, Abi.encUint 32 (a.bal (rt.acct owner)), []⟩) := by
  have ha := argsOk1 (by decide) ho
  rw [execute_to hto, call_eval _ _ _ .balanceOf (by decide) (by decide),
    show Action.modifier .balanceOf = .view from rfl, check_view hv, ok_bind]
  show some (balanceOf rt s a _) = _
  unfold balanceOf
  rw [skip_call, ok_bind, expect_call 1 _ _ ha (le_refl _), ok_bind,
    readUint_arg _ tail ha 0 20 owner rfl (sized_args hl), ok_bind]
  dsimp only
  rw [outWord_eq]
  rfl

/-- **C132 (views).** `allowance` returns what is left of the approval, or 0. -/
theorem C132_allowance (hv : cx.value = 0) (owner spender : Nat) (ho : owner < 256 ^ 20) (hp : spender < 256 ^ 20)
    (hl : Sized (callOf 0xdd62ed3e [(20, owner), (20, spender)] ++ tail)) :
    execute rt cx (callOf 0xdd62ed3e [(20, owner), (20, spender)] ++ tail) s =
      some (.ok ⟨s, Abi.encUint 32 (((s.approvals id (rt.acct owner) (rt.acct spender)).map Approval.amount).getD 0), []⟩) := by
  have ha := argsOk_cons (by decide) ho (argsOk1 (by decide) hp)
  have hz := sized_args hl
  rw [execute_to hto, call_eval _ _ _ .allowance (by decide) (by decide),
    show Action.modifier .allowance = .view from rfl, check_view hv, ok_bind]
  show some (allowance rt s id _) = _
  unfold allowance
  rw [skip_call, ok_bind, expect_call 2 _ _ ha (le_refl _), ok_bind,
    readUint_arg _ tail ha 0 20 owner rfl hz, ok_bind]
  dsimp only
  rw [readUint_arg _ tail ha 1 20 spender rfl hz, ok_bind]
  dsimp only
  rw [outWord_eq]
  rfl

/-- **C132 (views).** `nonces` returns the number of permits used at this address. -/
theorem C132_nonces (hv : cx.value = 0) (owner : Nat) (ho : owner < 256 ^ 20)
    (hl : Sized (callOf 0x7ecebe00 [(20, owner)] ++ tail)) :
    execute rt cx (callOf 0x7ecebe00 [(20, owner)] ++ tail) s =
      some (.ok ⟨s, Abi.encUint 32 (s.nonces cx.codeAddress owner), []⟩) := by
  have ha := argsOk1 (by decide) ho
  rw [execute_to hto, call_eval _ _ _ .nonces (by decide) (by decide),
    show Action.modifier .nonces = .view from rfl, check_view hv, ok_bind]
  show some (noncesOf cx s _) = _
  unfold noncesOf
  rw [skip_call, ok_bind, readUint_arg _ tail ha 0 20 owner rfl (sized_args hl), ok_bind]
  dsimp only
  rw [outWord_eq]
  rfl

theorem approve_eval (spender amount : Nat) (hp : spender < 256 ^ 20) (hm : amount < 256 ^ 32)
    (hl : Sized (callOf 0x095ea7b3 [(20, spender), (32, amount)] ++ tail)) :
    execute rt cx (callOf 0x095ea7b3 [(20, spender), (32, amount)] ++ tail) s = some (do
      checkModifier cx .nonPayable
      let s' ← approveInner rt s id (rt.acct cx.caller) (rt.acct spender) amount
      pure ⟨s', Abi.encBool true, [⟨cx.address, .approval, [cx.caller, spender], Abi.encUint 32 amount⟩]⟩) := by
  have ha := argsOk_cons (by decide) hp (argsOk1 (by decide) hm)
  have hz := sized_args hl
  rw [execute_to hto, call_eval _ _ _ .approve (by decide) (by decide)]
  have : act rt cx s id a (callOf 0x095ea7b3 [(20, spender), (32, amount)] ++ tail) .approve = (do
      let s' ← approveInner rt s id (rt.acct cx.caller) (rt.acct spender) amount
      pure ⟨s', Abi.encBool true, [⟨cx.address, .approval, [cx.caller, spender], Abi.encUint 32 amount⟩]⟩) := by
    show approve rt cx s id _ = _
    unfold approve
    rw [skip_call, ok_bind, expect_call 2 _ _ ha (le_refl _), ok_bind,
      readUint_arg _ tail ha 0 20 spender rfl hz, ok_bind]
    dsimp only
    rw [readUint_arg _ tail ha 1 32 amount rfl hz, ok_bind]
    dsimp only
    rw [outWord_eq, outBool_eq]
  rw [this]
  rfl

/-- **C132 (approve, when).** `approve` succeeds exactly when it is not made in a static context or with value, the asset
is live, the caller can pay the deposit and the runtime lets the calls through. -/
theorem C132_approve_when (spender amount : Nat) (hp : spender < 256 ^ 20) (hm : amount < 256 ^ 32)
    (hl : Sized (callOf 0x095ea7b3 [(20, spender), (32, amount)] ++ tail)) :
    (∃ o, execute rt cx (callOf 0x095ea7b3 [(20, spender), (32, amount)] ++ tail) s = some (.ok o)) ↔
      cx.isStatic = false ∧ cx.value = 0 ∧ a.status = .live ∧ CanDeposit rt s id (rt.acct cx.caller) (rt.acct spender) ∧
        MayApprove rt s id (rt.acct cx.caller) (rt.acct spender) := by
  rw [approve_eval rt cx s id a tail hto spender amount hp hm hl,
    ← approveInner_iff (v := amount) hto.exists_]
  simp only [Option.some.injEq, bind_ok_iff, check_nonPayable_iff, exists_const, pure_ok_iff]
  constructor
  · rintro ⟨o, ⟨h1, h2⟩, s', h3, -⟩
    exact ⟨h1, h2, s', h3⟩
  · rintro ⟨h1, h2, s', h3⟩
    exact ⟨_, ⟨h1, h2⟩, s', h3, rfl⟩

/-- **C132 (approve, what).** It then replaces the allowance, moves the deposit, changes nothing else, returns `true` and
logs the approval. -/
theorem C132_approve_what (spender amount : Nat) (hp : spender < 256 ^ 20) (hm : amount < 256 ^ 32)
    (hl : Sized (callOf 0x095ea7b3 [(20, spender), (32, amount)] ++ tail)) (o : Out State)
    (h : execute rt cx (callOf 0x095ea7b3 [(20, spender), (32, amount)] ++ tail) s = some (.ok o)) :
    Approved rt s o.st id (rt.acct cx.caller) (rt.acct spender) amount ∧ o.ret = Abi.encBool true ∧
      o.logs = [⟨cx.address, .approval, [cx.caller, spender], Abi.encUint 32 amount⟩] := by
  rw [approve_eval rt cx s id a tail hto spender amount hp hm hl] at h
  simp only [Option.some.injEq, bind_ok_iff, check_nonPayable_iff, exists_const, pure_ok_iff] at h
  obtain ⟨-, s', h3, rfl⟩ := h
  exact ⟨approveInner_what hto.exists_ h3, rfl, rfl⟩

theorem transfer_eval (dest amount : Nat) (hp : dest < 256 ^ 20) (hm : amount < 256 ^ 32)
    (hl : Sized (callOf 0xa9059cbb [(20, dest), (32, amount)] ++ tail)) :
    execute rt cx (callOf 0xa9059cbb [(20, dest), (32, amount)] ++ tail) s = some (do
      checkModifier cx .nonPayable
      let x ← u256ToAmount amount
      let s' ← dispatch rt .transfer (transferAsset s id (rt.acct cx.caller) (rt.acct dest) x)
      pure ⟨s', Abi.encBool true, [⟨cx.address, .transfer, [cx.caller, dest], Abi.encUint 32 amount⟩]⟩) := by
  have ha := argsOk_cons (by decide) hp (argsOk1 (by decide) hm)
  have hz := sized_args hl
  rw [execute_to hto, call_eval _ _ _ .transfer (by decide) (by decide)]
  have : act rt cx s id a (callOf 0xa9059cbb [(20, dest), (32, amount)] ++ tail) .transfer = (do
      let x ← u256ToAmount amount
      let s' ← dispatch rt .transfer (transferAsset s id (rt.acct cx.caller) (rt.acct dest) x)
      pure ⟨s', Abi.encBool true, [⟨cx.address, .transfer, [cx.caller, dest], Abi.encUint 32 amount⟩]⟩) := by
    show transfer rt cx s id _ = _
    unfold transfer
    rw [skip_call, ok_bind, expect_call 2 _ _ ha (le_refl _), ok_bind,
      readUint_arg _ tail ha 0 20 dest rfl hz, ok_bind]
    dsimp only
    rw [readUint_arg _ tail ha 1 32 amount rfl hz, ok_bind]
    dsimp only
    rw [outWord_eq, outBool_eq]
  rw [this]
  rfl

/-- **C132 (transfer, when).** -/
theorem C132_transfer_when (dest amount : Nat) (hp : dest < 256 ^ 20) (hm : amount < 256 ^ 32)
    (hl : Sized (callOf 0xa9059cbb [(20, dest), (32, amount)] ++ tail)) :
    (∃ o, execute rt cx (callOf 0xa9059cbb [(20, dest), (32, amount)] ++ tail) s = some (.ok o)) ↔
      cx.isStatic = false ∧ cx.value = 0 ∧ rt.filter .transfer = true ∧ amount ≤ maxU128 ∧
        CanSend a (rt.acct cx.caller) (rt.acct dest) amount := by
  rw [transfer_eval rt cx s id a tail hto dest amount hp hm hl, ← asset_transfer_iff]
  simp only [Option.some.injEq, bind_ok_iff, check_nonPayable_iff, exists_const, pure_ok_iff, u256ToAmount_ok_iff,
    dispatch_ok_iff, transferAsset_ok_iff hto.exists_]
  constructor
  · rintro ⟨o, ⟨h1, h2⟩, x, ⟨h3, rfl⟩, s', ⟨hf, a', h4, -⟩, -⟩
    exact ⟨h1, h2, hf, h3, a', h4⟩
  · rintro ⟨h1, h2, hf, h3, a', h4⟩
    exact ⟨_, ⟨h1, h2⟩, amount, ⟨h3, rfl⟩, _, ⟨hf, a', h4, rfl⟩, rfl⟩

/-- **C132 (transfer, what).** -/
theorem C132_transfer_what (dest amount : Nat) (hp : dest < 256 ^ 20) (hm : amount < 256 ^ 32)
    (hl : Sized (callOf 0xa9059cbb [(20, dest), (32, amount)] ++ tail)) (o : Out State)
    (h : execute rt cx (callOf 0xa9059cbb [(20, dest), (32, amount)] ++ tail) s = some (.ok o)) :
    (∃ a', OnlyAsset s o.st id a' ∧ Sent a a' (rt.acct cx.caller) (rt.acct dest) amount) ∧ o.ret = Abi.encBool true ∧
      o.logs = [⟨cx.address, .transfer, [cx.caller, dest], Abi.encUint 32 amount⟩] := by
  rw [transfer_eval rt cx s id a tail hto dest amount hp hm hl] at h
  simp only [Option.some.injEq, bind_ok_iff, check_nonPayable_iff, exists_const, pure_ok_iff, u256ToAmount_ok_iff,
    dispatch_ok_iff, transferAsset_ok_iff hto.exists_] at h
  obtain ⟨-, x, ⟨h3, rfl⟩, s', ⟨-, a', h4, rfl⟩, rfl⟩ := h
  exact ⟨⟨a', setAsset_only _ _ _, (asset_transfer_sent h4).1⟩, rfl, rfl⟩

theorem transferFrom_eval (owner dest amount : Nat) (ho : owner < 256 ^ 20) (hp : dest < 256 ^ 20)
    (hm : amount < 256 ^ 32) (hl : Sized (callOf 0x23b872dd [(20, owner), (20, dest), (32, amount)] ++ tail)) :
    execute rt cx (callOf 0x23b872dd [(20, owner), (20, dest), (32, amount)] ++ tail) s = some (do
      checkModifier cx .nonPayable
      let x ← u256ToAmount amount
      let s' ← moveFrom rt s id (rt.acct cx.caller) (rt.acct owner) (rt.acct dest) x
      pure ⟨s', Abi.encBool true, [⟨cx.address, .transfer, [owner, dest], Abi.encUint 32 amount⟩]⟩) := by
  have ha := argsOk_cons (by decide) ho (argsOk_cons (by decide) hp (argsOk1 (by decide) hm))
  have hz := sized_args hl
  rw [execute_to hto, call_eval _ _ _ .transferFrom (by decide) (by decide)]
  have : act rt cx s id a (callOf 0x23b872dd [(20, owner), (20, dest), (32, amount)] ++ tail) .transferFrom = (do
      let x ← u256ToAmount amount
      let s' ← moveFrom rt s id (rt.acct cx.caller) (rt.acct owner) (rt.acct dest) x
      pure ⟨s', Abi.encBool true, [⟨cx.address, .transfer, [owner, dest], Abi.encUint 32 amount⟩]⟩) := by
    show transferFrom rt cx s id _ = _
    unfold transferFrom
    rw [skip_call, ok_bind, expect_call 3 _ _ ha (le_refl _), ok_bind,
      readUint_arg _ tail ha 0 20 owner rfl hz, ok_bind]
    dsimp only
    rw [readUint_arg _ tail ha 1 20 dest rfl hz, ok_bind]
    dsimp only
    rw [readUint_arg _ tail ha 2 32 amount rfl hz, ok_bind]
    dsimp only
    rw [outWord_eq, outBool_eq]
  rw [this]
  rfl

omit hto in
theorem transferApproved_ok_iff {s s' : State} {id o d dst amt : Nat} {a : Asset} (ha : s.assets id = some a) :
    transferApproved s id o d dst amt = .ok s' ↔ a.status = .live ∧ ∃ p, s.approvals id o d = some p ∧ amt ≤ p.amount ∧
      ∃ a', a.transfer o dst amt = .ok a' ∧ s' = settle (s.setAsset id a') id o d p amt := by
  unfold transferApproved
  simp only [bind_ok_iff, getLive_ok_iff, okOr_ok_iff, ensure_ok_iff, exists_const, pure_ok_iff,
    transferAsset_ok_iff ha, ha]
  constructor
  · rintro ⟨x, ⟨h1, h2⟩, p, h3, h4, s1, ⟨a', h5, rfl⟩, rfl⟩
    injection h1 with h1
    exact ⟨by rw [h1]; exact h2, p, h3, h4, a', h5, rfl⟩
  · rintro ⟨h1, p, h3, h4, a', h5, rfl⟩
    exact ⟨a, ⟨rfl, h1⟩, p, h3, h4, _, ⟨a', h5, rfl⟩, rfl⟩

/-- **C132 (transferFrom, when).** `transferFrom` succeeds exactly when the amount can go from the owner to the recipient
and, unless the caller is the owner, the caller has an approval that covers it (of a live asset); and the runtime lets the
call through. -/
theorem C132_transfer_from_when (owner dest amount : Nat) (ho : owner < 256 ^ 20) (hp : dest < 256 ^ 20)
    (hm : amount < 256 ^ 32) (hl : Sized (callOf 0x23b872dd [(20, owner), (20, dest), (32, amount)] ++ tail)) :
    (∃ o, execute rt cx (callOf 0x23b872dd [(20, owner), (20, dest), (32, amount)] ++ tail) s = some (.ok o)) ↔
      cx.isStatic = false ∧ cx.value = 0 ∧ amount ≤ maxU128 ∧ CanSend a (rt.acct owner) (rt.acct dest) amount ∧
      ((rt.acct cx.caller = rt.acct owner ∧ rt.filter .transfer = true) ∨
        (rt.acct cx.caller ≠ rt.acct owner ∧ rt.filter .transferApproved = true ∧ a.status = .live ∧
        ∃ p, s.approvals id (rt.acct owner) (rt.acct cx.caller) = some p ∧ amount ≤ p.amount)) := by
  rw [transferFrom_eval rt cx s id a tail hto owner dest amount ho hp hm hl, ← asset_transfer_iff]
  simp only [Option.some.injEq, bind_ok_iff, check_nonPayable_iff, exists_const, pure_ok_iff, u256ToAmount_ok_iff,
    dispatch_ok_iff]
  unfold moveFrom
  by_cases hc : rt.acct cx.caller = rt.acct owner
  · constructor
    · rintro ⟨o, ⟨h1, h2⟩, x, ⟨h3, rfl⟩, s', h4, -⟩
      rw [if_neg (not_not.2 hc), dispatch_ok_iff] at h4
      obtain ⟨a', h5, -⟩ := (transferAsset_ok_iff hto.exists_).1 h4.2
      exact ⟨h1, h2, h3, ⟨a', h5⟩, .inl ⟨hc, h4.1⟩⟩
    · rintro ⟨h1, h2, h3, ⟨a', h5⟩, ⟨-, hf⟩ | ⟨h, -⟩⟩
      · refine ⟨_, ⟨h1, h2⟩, amount, ⟨h3, rfl⟩, s.setAsset id a', ?_, rfl⟩
        rw [if_neg (not_not.2 hc), dispatch_ok_iff]
        exact ⟨hf, (transferAsset_ok_iff hto.exists_).2 ⟨a', h5, rfl⟩⟩
      · exact (h hc).elim
  · constructor
    · rintro ⟨o, ⟨h1, h2⟩, x, ⟨h3, rfl⟩, s', h4, -⟩
      rw [if_pos hc, dispatch_ok_iff] at h4
      obtain ⟨hl, p, h5, h6, a', h7, -⟩ := (transferApproved_ok_iff hto.exists_).1 h4.2
      exact ⟨h1, h2, h3, ⟨a', h7⟩, .inr ⟨hc, h4.1, hl, p, h5, h6⟩⟩
    · rintro ⟨h1, h2, h3, ⟨a', h5⟩, ⟨h, -⟩ | ⟨-, hf, hl, p, h6, h7⟩⟩
      · exact (hc h).elim
      · refine ⟨_, ⟨h1, h2⟩, amount, ⟨h3, rfl⟩,
          settle (s.setAsset id a') id (rt.acct owner) (rt.acct cx.caller) p amount, ?_, rfl⟩
        rw [if_pos hc, dispatch_ok_iff]
        exact ⟨hf, (transferApproved_ok_iff hto.exists_).2 ⟨hl, p, h6, h7, a', h5, rfl⟩⟩

omit hto in
theorem settle_assets (s : State) (id o d : Nat) (p : Approval) (amt : Nat) :
    (settle s id o d p amt).assets = s.assets ∧ (settle s id o d p amt).nonces = s.nonces := by
  unfold settle
  split <;> exact ⟨rfl, rfl⟩

omit hto in
theorem settle_allowance (s : State) (id o d : Nat) (p : Approval) (amt : Nat) :
    allowanceOf (settle s id o d p amt) id o d = p.amount - amt := by
  unfold settle
  split
  · rename_i h
    rw [allowanceOf_none (setApproval_same _ _ _ _ _), h]
  · rw [allowanceOf_some (setApproval_same _ _ _ _ _)]

omit hto in
theorem settle_others (s : State) (id o d : Nat) (p : Approval) (amt : Nat) {j x y : Nat}
    (h : ¬ (j = id ∧ x = o ∧ y = d)) : (settle s id o d p amt).approvals j x y = s.approvals j x y := by
  unfold settle
  split
  · exact setApproval_of_ne _ _ _ _ _ h
  · exact setApproval_of_ne _ _ _ _ _ h

/-- The balances after spending: the deposit of a used up approval is given back. -/
def givenBack (n : Native) (p : Approval) (owner amt : Nat) : Nat :=
  if p.amount = amt then min (n.resv owner) p.deposit else 0

omit hto in
theorem settle_cur (s : State) (id o d : Nat) (p : Approval) (amt : Nat) (ha : amt ≤ p.amount) :
    (∀ x, (settle s id o d p amt).cur.free x = s.cur.free x + (if x = o then givenBack s.cur p o amt else 0)) ∧
    (∀ x, (settle s id o d p amt).cur.resv x + (if x = o then givenBack s.cur p o amt else 0) = s.cur.resv x) ∧
    (settle s id o d p amt).cur.iss = s.cur.iss ∧ (settle s id o d p amt).cur.frozen = s.cur.frozen ∧
    (settle s id o d p amt).cur.pinned = s.cur.pinned := by
  unfold settle givenBack
  by_cases h : p.amount - amt = 0
  · rw [if_pos h, if_pos (by omega)]
    obtain ⟨u1, u2, u3, u4, u5⟩ := unreserve_what s.cur o p.deposit
    exact ⟨u1, u2, u3, u4, u5⟩
  · rw [if_neg h, if_neg (by omega)]
    refine ⟨fun x => ?_, fun x => ?_, rfl, rfl, rfl⟩
    · show s.cur.free x = _
      split <;> rfl
    · show s.cur.resv x + _ = _
      split <;> rfl

/-- **C132 (transferFrom, what).** `transferFrom` moves the amount from the owner to the recipient and takes it off the
caller's allowance; a used up approval gives its deposit back to the owner; nothing else changes. -/
theorem C132_transfer_from_what (owner dest amount : Nat) (ho : owner < 256 ^ 20) (hp : dest < 256 ^ 20)
    (hm : amount < 256 ^ 32) (hl : Sized (callOf 0x23b872dd [(20, owner), (20, dest), (32, amount)] ++ tail))
    (o : Out State)
    (h : execute rt cx (callOf 0x23b872dd [(20, owner), (20, dest), (32, amount)] ++ tail) s = some (.ok o)) :
    (∃ a', o.st.assets id = some a' ∧ Sent a a' (rt.acct owner) (rt.acct dest) amount) ∧
      (∀ j, j ≠ id → o.st.assets j = s.assets j) ∧ o.st.nonces = s.nonces ∧
      (rt.acct cx.caller = rt.acct owner → o.st.approvals = s.approvals ∧ o.st.cur = s.cur) ∧
      (rt.acct cx.caller ≠ rt.acct owner →
        allowanceOf o.st id (rt.acct owner) (rt.acct cx.caller) + amount =
          allowanceOf s id (rt.acct owner) (rt.acct cx.caller) ∧
        (∀ j x y, ¬ (j = id ∧ x = rt.acct owner ∧ y = rt.acct cx.caller) → o.st.approvals j x y = s.approvals j x y) ∧
        (∀ x, o.st.cur.free x + o.st.cur.resv x = s.cur.free x + s.cur.resv x) ∧
        (∀ x, o.st.cur.resv x + (if x = rt.acct owner ∧ allowanceOf s id x (rt.acct cx.caller) = amount then
          min (s.cur.resv x) (depositOf s id x (rt.acct cx.caller)) else 0) = s.cur.resv x)) ∧
      o.ret = Abi.encBool true ∧ o.logs = [⟨cx.address, .transfer, [owner, dest], Abi.encUint 32 amount⟩] := by
  rw [transferFrom_eval rt cx s id a tail hto owner dest amount ho hp hm hl] at h
  simp only [Option.some.injEq, bind_ok_iff, check_nonPayable_iff, exists_const, pure_ok_iff, u256ToAmount_ok_iff,
    dispatch_ok_iff] at h
  obtain ⟨-, x, ⟨h3, rfl⟩, s', h4, rfl⟩ := h
  unfold moveFrom at h4
  by_cases hc : rt.acct cx.caller = rt.acct owner
  · rw [if_neg (not_not.2 hc), dispatch_ok_iff] at h4
    obtain ⟨a', h5, rfl⟩ := (transferAsset_ok_iff hto.exists_).1 h4.2
    exact ⟨⟨a', upd_same _ _ _, (asset_transfer_sent h5).1⟩, fun j hj => upd_of_ne _ _ hj, rfl, fun _ => ⟨rfl, rfl⟩,
      fun h => (h hc).elim, rfl, rfl⟩
  · rw [if_pos hc, dispatch_ok_iff] at h4
    obtain ⟨-, p, h5, h6, a', h7, rfl⟩ := (transferApproved_ok_iff hto.exists_).1 h4.2
    obtain ⟨e1, e2⟩ := settle_assets (s.setAsset id a') id (rt.acct owner) (rt.acct cx.caller) p x
    obtain ⟨c1, c2, -, -, -⟩ := settle_cur (s.setAsset id a') id (rt.acct owner) (rt.acct cx.caller) p x h6
    refine ⟨⟨a', ?_, (asset_transfer_sent h7).1⟩, fun j hj => ?_, e2, fun h => (hc h).elim, fun _ =>
      ⟨?_, fun j x y hne => settle_others _ _ _ _ _ _ hne, fun x => ?_, fun y => ?_⟩, rfl, rfl⟩
    · show (settle _ _ _ _ _ _).assets id = _
      rw [e1]; exact upd_same _ _ _
    · show (settle _ _ _ _ _ _).assets j = _
      rw [e1]; exact upd_of_ne _ _ hj
    · show allowanceOf (settle _ _ _ _ _ _) _ _ _ + _ = _
      rw [settle_allowance, allowanceOf_some h5]; omega
    · have h1 := c1 x
      have h2 := c2 x
      show (settle _ _ _ _ _ _).cur.free x + (settle _ _ _ _ _ _).cur.resv x = _
      change _ = s.cur.free x + _ at h1
      change _ = s.cur.resv x at h2
      omega
    · have h2 := c2 y
      change _ = s.cur.resv y at h2
      refine Eq.trans (congrArg _ ?_) h2
      by_cases hy : y = rt.acct owner
      · subst hy
        rw [if_pos rfl, allowanceOf_some h5, depositOf_some h5]
        unfold givenBack
        by_cases hq : p.amount = x
        · rw [if_pos ⟨rfl, hq⟩, if_pos hq]; rfl
        · rw [if_neg fun e => hq e.2, if_neg hq]
      · rw [if_neg fun e => hy e.1, if_neg hy]

theorem mint_eval (who amount : Nat) (hp : who < 256 ^ 20) (hm : amount < 256 ^ 32)
    (hl : Sized (callOf 0x40c10f19 [(20, who), (32, amount)] ++ tail)) :
    execute rt cx (callOf 0x40c10f19 [(20, who), (32, amount)] ++ tail) s = some (do
      checkModifier cx .nonPayable
      let x ← u256ToAmount amount
      let a' ← dispatch rt .mint (a.mint (rt.acct cx.caller) (rt.acct who) x)
      pure ⟨s.setAsset id a', Abi.encBool true, []⟩) := by
  have ha := argsOk_cons (by decide) hp (argsOk1 (by decide) hm)
  have hz := sized_args hl
  rw [execute_to hto, call_eval _ _ _ .mint (by decide) (by decide)]
  have : act rt cx s id a (callOf 0x40c10f19 [(20, who), (32, amount)] ++ tail) .mint = (do
      let x ← u256ToAmount amount
      let a' ← dispatch rt .mint (a.mint (rt.acct cx.caller) (rt.acct who) x)
      pure ⟨s.setAsset id a', Abi.encBool true, []⟩) := by
    show mint rt cx s id a _ = _
    unfold mint
    rw [skip_call, ok_bind, expect_call 2 _ _ ha (le_refl _), ok_bind,
      readUint_arg _ tail ha 0 20 who rfl hz, ok_bind]
    dsimp only
    rw [readUint_arg _ tail ha 1 32 amount rfl hz, ok_bind]
    dsimp only
    rw [outBool_eq]
  rw [this]
  rfl

theorem burn_eval (who amount : Nat) (hp : who < 256 ^ 20) (hm : amount < 256 ^ 32)
    (hl : Sized (callOf 0x9dc29fac [(20, who), (32, amount)] ++ tail)) :
    execute rt cx (callOf 0x9dc29fac [(20, who), (32, amount)] ++ tail) s = some (do
      checkModifier cx .nonPayable
      let x ← u256ToAmount amount
      let a' ← dispatch rt .burn (a.burn (rt.acct cx.caller) (rt.acct who) x)
      pure ⟨s.setAsset id a', Abi.encBool true, []⟩) := by
  have ha := argsOk_cons (by decide) hp (argsOk1 (by decide) hm)
  have hz := sized_args hl
  rw [execute_to hto, call_eval _ _ _ .burn (by decide) (by decide)]
  have : act rt cx s id a (callOf 0x9dc29fac [(20, who), (32, amount)] ++ tail) .burn = (do
      let x ← u256ToAmount amount
      let a' ← dispatch rt .burn (a.burn (rt.acct cx.caller) (rt.acct who) x)
      pure ⟨s.setAsset id a', Abi.encBool true, []⟩) := by
    show burn rt cx s id a _ = _
    unfold burn
    rw [skip_call, ok_bind, expect_call 2 _ _ ha (le_refl _), ok_bind,
      readUint_arg _ tail ha 0 20 who rfl hz, ok_bind]
    dsimp only
    rw [readUint_arg _ tail ha 1 32 amount rfl hz, ok_bind]
    dsimp only
    rw [outBool_eq]
  rw [this]
  rfl

omit hto in
theorem asset_mint_ok_iff {a a' : Asset} {org who amt : Nat} : a.mint org who amt = .ok a' ↔
    (amt = 0 ∧ a' = a) ∨ (amt ≠ 0 ∧ org = a.issuer ∧ a.status = .live ∧ a.supply + amt ≤ maxU128 ∧
      a.bal who + amt ≤ maxU128 ∧ (a.bal who ≠ 0 ∨ a.minBal ≤ amt) ∧
      a' = { a with bal := upd a.bal who (a.bal who + amt), supply := a.supply + amt }) := by
  unfold Asset.mint
  by_cases h0 : amt = 0
  · rw [if_pos h0]
    constructor
    · intro h; injection h with h; exact .inl ⟨h0, h.symm⟩
    · rintro (⟨-, rfl⟩ | ⟨h, -⟩)
      · rfl
      · exact (h h0).elim
  · rw [if_neg h0]
    simp only [bind_ok_iff, ensure_ok_iff, exists_const, pure_ok_iff, canIncrease_ok_iff]
    constructor
    · rintro ⟨h1, ⟨h2, h3⟩, h4, h5, rfl⟩
      exact .inr ⟨h0, h5, h4, h1, h2, h3, rfl⟩
    · rintro (⟨h, -⟩ | ⟨-, h5, h4, h1, h2, h3, rfl⟩)
      · exact (h0 h).elim
      · exact ⟨h1, ⟨h2, h3⟩, h4, h5, rfl⟩

omit hto in
theorem asset_burn_ok_iff {a a' : Asset} {org who amt : Nat} : a.burn org who amt = .ok a' ↔
    (amt = 0 ∧ a.status ≠ .destroying ∧ a' = a) ∨ (amt ≠ 0 ∧ org = a.admin ∧ a.status = .live ∧ a.frozen who = false ∧
      a.bal who ≠ 0 ∧
      a' = { a with bal := upd a.bal who (a.bal who - leaves a who (min (a.bal who) amt))
                    supply := a.supply - leaves a who (min (a.bal who) amt) }) := by
  unfold Asset.burn
  rw [bind_ok_iff]
  by_cases h0 : amt = 0
  · simp only [if_pos h0, ensure_ok_iff, exists_const, pure_ok_iff]
    constructor
    · rintro ⟨h1, rfl⟩; exact .inl ⟨h0, h1, rfl⟩
    · rintro (⟨-, h1, rfl⟩ | ⟨h, -⟩)
      · exact ⟨h1, rfl⟩
      · exact (h h0).elim
  · simp only [if_neg h0, ensure_ok_iff, exists_const, pure_ok_iff, bind_ok_iff, prepDebit_best_iff h0]
    constructor
    · rintro ⟨h1, d, ⟨h2, h3, h4, rfl⟩, h5, rfl⟩
      exact .inr ⟨h0, h5, h2, h3, h4, rfl⟩
    · rintro (⟨h, -⟩ | ⟨-, h5, h2, h3, h4, rfl⟩)
      · exact (h0 h).elim
      · exact ⟨by rw [h2]; decide, _, ⟨h2, h3, h4, rfl⟩, h5, rfl⟩

/-- **C135 (mint).** New tokens can be made by the asset's issuer only: a call to mint an amount above 0 succeeds exactly
for the issuer of a live asset when nothing overflows and the recipient's balance reaches the minimum; it then adds exactly
the amount to the recipient's balance and to the supply. -/
theorem C135_mint (who amount : Nat) (hp : who < 256 ^ 20) (hm : amount < 256 ^ 32) (h0 : amount ≠ 0)
    (hl : Sized (callOf 0x40c10f19 [(20, who), (32, amount)] ++ tail)) (o : Out State) :
    execute rt cx (callOf 0x40c10f19 [(20, who), (32, amount)] ++ tail) s = some (.ok o) ↔
      cx.isStatic = false ∧ cx.value = 0 ∧ rt.filter .mint = true ∧ rt.acct cx.caller = a.issuer ∧ a.status = .live ∧
      a.supply + amount ≤ maxU128 ∧ a.bal (rt.acct who) + amount ≤ maxU128 ∧
      (a.bal (rt.acct who) ≠ 0 ∨ a.minBal ≤ amount) ∧
      o = ⟨s.setAsset id { a with
            bal := upd a.bal (rt.acct who) (a.bal (rt.acct who) + amount), supply := a.supply + amount },
          Abi.encBool true, []⟩ := by
  rw [mint_eval rt cx s id a tail hto who amount hp hm hl]
  simp only [Option.some.injEq, bind_ok_iff, check_nonPayable_iff, exists_const, pure_ok_iff, u256ToAmount_ok_iff,
    dispatch_ok_iff, asset_mint_ok_iff]
  constructor
  · rintro ⟨⟨h1, h2⟩, x, ⟨h3, rfl⟩, a', ⟨hf, ⟨h, -⟩ | ⟨-, h4, h5, h6, h7, h8, rfl⟩⟩, rfl⟩
    · exact (h0 h).elim
    · exact ⟨h1, h2, hf, h4, h5, h6, h7, h8, rfl⟩
  · rintro ⟨h1, h2, hf, h4, h5, h6, h7, h8, rfl⟩
    exact ⟨⟨h1, h2⟩, amount, ⟨by omega, rfl⟩, _, ⟨hf, .inr ⟨h0, h4, h5, h6, h7, h8, rfl⟩⟩, rfl⟩

/-- **C135 (burn).** Tokens of somebody's account can be destroyed by the asset's admin only: a call to burn an amount above
0 succeeds exactly for the admin of a live asset when the account exists and is not frozen.  It destroys the amount, or
all there is: the call reports success also when the account held less. -/
theorem C135_burn (who amount : Nat) (hp : who < 256 ^ 20) (hm : amount < 256 ^ 32) (h0 : amount ≠ 0)
    (hl : Sized (callOf 0x9dc29fac [(20, who), (32, amount)] ++ tail)) (o : Out State) :
    execute rt cx (callOf 0x9dc29fac [(20, who), (32, amount)] ++ tail) s = some (.ok o) ↔
      cx.isStatic = false ∧ cx.value = 0 ∧ rt.filter .burn = true ∧ amount ≤ maxU128 ∧ rt.acct cx.caller = a.admin ∧ a.status = .live ∧
      a.frozen (rt.acct who) = false ∧ a.bal (rt.acct who) ≠ 0 ∧
      o = ⟨s.setAsset id { a with
            bal := upd a.bal (rt.acct who)
              (a.bal (rt.acct who) - leaves a (rt.acct who) (min (a.bal (rt.acct who)) amount))
            supply := a.supply - leaves a (rt.acct who) (min (a.bal (rt.acct who)) amount) },
          Abi.encBool true, []⟩ := by
  rw [burn_eval rt cx s id a tail hto who amount hp hm hl]
  simp only [Option.some.injEq, bind_ok_iff, check_nonPayable_iff, exists_const, pure_ok_iff, u256ToAmount_ok_iff,
    dispatch_ok_iff, asset_burn_ok_iff]
  constructor
  · rintro ⟨⟨h1, h2⟩, x, ⟨h3, rfl⟩, a', ⟨hf, ⟨h, -⟩ | ⟨-, h4, h5, h6, h7, rfl⟩⟩, rfl⟩
    · exact (h0 h).elim
    · exact ⟨h1, h2, hf, h3, h4, h5, h6, h7, rfl⟩
  · rintro ⟨h1, h2, hf, h3, h4, h5, h6, h7, rfl⟩
    exact ⟨⟨h1, h2⟩, amount, ⟨h3, rfl⟩, _, ⟨hf, .inr ⟨h0, h4, h5, h6, h7, rfl⟩⟩, rfl⟩

/-- **C135 (nothing).** Minting 0 is accepted from anybody and changes nothing. -/
theorem C135_mint_zero (who : Nat) (hp : who < 256 ^ 20) (hf : rt.filter .mint = true) (hs : cx.isStatic = false) (hv : cx.value = 0)
    (hl : Sized (callOf 0x40c10f19 [(20, who), (32, 0)] ++ tail)) :
    execute rt cx (callOf 0x40c10f19 [(20, who), (32, 0)] ++ tail) s = some (.ok ⟨s, Abi.encBool true, []⟩) := by
  rw [mint_eval rt cx s id a tail hto who 0 hp (by decide) hl]
  have : s.setAsset id a = s := setAsset_self hto.exists_
  simp only [Option.some.injEq, bind_ok_iff, check_nonPayable_iff, exists_const, pure_ok_iff, u256ToAmount_ok_iff,
    dispatch_ok_iff, asset_mint_ok_iff]
  exact ⟨⟨hs, hv⟩, 0, ⟨by decide, rfl⟩, a, ⟨hf, .inl ⟨rfl, rfl⟩⟩, by rw [this]⟩

end

/-! ## Non-vacuity -/

/-- Some hash and a recovery that finds the key `[1]` for the signature `(7, 8, 27)`. -/
def exCrypto : Crypto where
  keccak x := (ofBe x + x.length) % 256 ^ 32
  keccak_lt _ := Nat.mod_lt _ (by decide)
  recover r s v _ := if r = 7 ∧ s = 8 ∧ v = 27 then some [1] else none

/-- A runtime in which address `a` is the account `a`. -/
def exRt : Rt := { acct := id, chainId := 592, ed := 10, treasury := 99, crypto := exCrypto, filter := fun _ => true }

/-- An asset with minimum balance 5: account 1 has 100, account 2 has 50; issuer 3, admin 4. -/
def exAsset : Asset where
  status := .live
  frozen := fun _ => false
  bal := fun x => if x = 1 then 100 else if x = 2 then 50 else 0
  supply := 150
  issuer := 3
  admin := 4
  minBal := 5
  name := ascii "USD"
  symbol := ascii "USD"
  decimals := 6

/-- Asset 7; account 1 allows account 2 to spend 98 of it, with a deposit of 10. -/
def exSt : State where
  cur := { free := fun x => if x = 1 ∨ x = 2 then 30 else 0, resv := fun x => if x = 1 then 10 else 0
           frozen := fun _ => 0, pinned := fun _ => false, iss := 70 }
  assets := fun i => if i = 7 then some exAsset else none
  approvals := fun i o d => if i = 7 ∧ o = 1 ∧ d = 2 then some ⟨98, 10⟩ else none
  nonces := fun _ _ => 0

/-- A call of account `c` to the contract of asset 7. -/
def exCx (c : Nat) : Ctx :=
  { caller := c, address := assetIdToAddress 7, codeAddress := assetIdToAddress 7, value := 0, isStatic := false, now := 5000 }

theorem exTo (c : Nat) : To (exCx c) exSt 7 exAsset :=
  ⟨(by decide +kernel : addressToAssetId (assetIdToAddress 7) = some 7), rfl⟩

theorem sized2 (sel k1 n1 k2 n2 : Nat) (h1 : k1 ≤ 32) (h2 : k2 ≤ 32) : Sized (callOf sel [(k1, n1), (k2, n2)] ++ []) := by
  unfold Sized callOf
  rw [List.append_nil, List.length_append, beBytes_length]
  simp only [List.flatMap_cons, List.flatMap_nil, List.length_append, List.length_nil, encUint_length h1, encUint_length h2]
  decide

theorem sized3 (sel k1 n1 k2 n2 k3 n3 : Nat) (h1 : k1 ≤ 32) (h2 : k2 ≤ 32) (h3 : k3 ≤ 32) :
    Sized (callOf sel [(k1, n1), (k2, n2), (k3, n3)] ++ []) := by
  unfold Sized callOf
  rw [List.append_nil, List.length_append, beBytes_length]
  simp only [List.flatMap_cons, List.flatMap_nil, List.length_append, List.length_nil, encUint_length h1, encUint_length h2,
    encUint_length h3]
  decide

/-- Non-vacuity: account 2 can spend 98 of account 1's tokens but not 99; account 1 can approve account 5; the issuer can
mint, nobody else; burning 200 from account 2 by the admin succeeds. -/
example : (∃ o, execute exRt (exCx 2) (callOf 0x23b872dd [(20, 1), (20, 6), (32, 98)] ++ []) exSt = some (.ok o)) ∧
    ¬ (∃ o, execute exRt (exCx 2) (callOf 0x23b872dd [(20, 1), (20, 6), (32, 99)] ++ []) exSt = some (.ok o)) ∧
    (∃ o, execute exRt (exCx 1) (callOf 0x095ea7b3 [(20, 5), (32, 40)] ++ []) exSt = some (.ok o)) ∧
    (∃ o, execute exRt (exCx 3) (callOf 0x40c10f19 [(20, 5), (32, 40)] ++ []) exSt = some (.ok o)) ∧
    ¬ (∃ o, execute exRt (exCx 4) (callOf 0x40c10f19 [(20, 5), (32, 40)] ++ []) exSt = some (.ok o)) ∧
    (∃ o, execute exRt (exCx 4) (callOf 0x9dc29fac [(20, 2), (32, 200)] ++ []) exSt = some (.ok o)) := by
  refine ⟨?_, ?_, ?_, ?_, ?_, ?_⟩
  · exact (C132_transfer_from_when exRt (exCx 2) exSt 7 exAsset [] (exTo 2) 1 6 98 (by decide) (by decide) (by decide)
      (sized3 _ _ _ _ _ _ _ (by decide) (by decide) (by decide))).2
      ⟨rfl, rfl, by decide, .inr ⟨rfl, rfl, by decide, by decide, by decide⟩, .inr ⟨by decide, rfl, rfl, ⟨98, 10⟩, rfl, le_refl _⟩⟩
  · intro h
    obtain ⟨-, -, -, -, ⟨h, -⟩ | ⟨-, -, -, p, h, h2⟩⟩ := (C132_transfer_from_when exRt (exCx 2) exSt 7 exAsset [] (exTo 2) 1 6 99
      (by decide) (by decide) (by decide) (sized3 _ _ _ _ _ _ _ (by decide) (by decide) (by decide))).1 h
    · revert h; decide
    · have : p = ⟨98, 10⟩ := by injection h with h; exact h.symm
      rw [this] at h2
      revert h2
      decide
  · exact (C132_approve_when exRt (exCx 1) exSt 7 exAsset [] (exTo 1) 5 40 (by decide) (by decide)
      (sized2 _ _ _ _ _ (by decide) (by decide))).2 ⟨rfl, rfl, rfl, .inr ⟨by decide, by decide⟩, rfl, fun _ => rfl⟩
  · exact ⟨_, (C135_mint exRt (exCx 3) exSt 7 exAsset [] (exTo 3) 5 40 (by decide) (by decide) (by decide)
      (sized2 _ _ _ _ _ (by decide) (by decide)) _).2
      ⟨rfl, rfl, rfl, rfl, rfl, by decide, by decide, .inr (by decide), rfl⟩⟩
  · rintro ⟨o, h⟩
    have := ((C135_mint exRt (exCx 4) exSt 7 exAsset [] (exTo 4) 5 40 (by decide) (by decide) (by decide)
      (sized2 _ _ _ _ _ (by decide) (by decide)) o).1 h).2.2.2.1
    cases this
  · exact ⟨_, (C135_burn exRt (exCx 4) exSt 7 exAsset [] (exTo 4) 2 200 (by decide) (by decide) (by decide)
      (sized2 _ _ _ _ _ (by decide) (by decide)) _).2
      ⟨rfl, rfl, rfl, by decide, rfl, rfl, rfl, by decide, rfl⟩⟩

end Verif.Evm.Ast
