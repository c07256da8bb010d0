import Verif.Evm.AssetsProps3
import Verif.Evm.BalancesProps3
import Verif.Runtime.Props3

/-!
# The token contracts under the call filters of the four runtimes (C200)

The precompiles dispatch ordinary calls with a signed origin, so `BaseCallFilter` decides about them.
-/

namespace Verif.Evm
open Verif
open Verif.Runtime (Chain Kind UserMay SwitchedOff baseFilter)

/-- The runtime call behind a dispatch (`balances-erc20/src/lib.rs:402-410, 459-467`, `assets-erc20/src/lib.rs:304-321,
350-357, 397-421, 510-517, 534-541`). -/
def Disp.kind : Disp → Kind
  | .native => ⟨.balances, .transfer⟩
  | .transfer => ⟨.assets, .transferAsset⟩
  | .transferApproved => ⟨.assets, .transferApproved⟩
  | .approveTransfer => ⟨.assets, .approveTransfer⟩
  | .cancelApproval => ⟨.assets, .cancelApproval⟩
  | .mint => ⟨.assets, .mintAsset⟩
  | .burn => ⟨.assets, .burn⟩

/-- What the precompiles see on a deployed runtime: its call filter (`runtime/parallel/src/lib.rs:306-354` and the other
three), in the current state of the emergency switch. -/
def onRuntime (c : Runtime.Cfg) (st : Runtime.State) (rt : Rt) : Rt :=
  { rt with filter := fun d => baseFilter c st d.kind }

theorem onRuntime_filter (c : Runtime.Cfg) (st : Runtime.State) (rt : Rt) (d : Disp) :
    (onRuntime c st rt).filter d = baseFilter c st d.kind := rfl

/-- None of the three calls of an approval passes the filter of any runtime. -/
theorem approvals_filtered (c : Runtime.Cfg) (st : Runtime.State) (rt : Rt) {d : Disp}
    (h : d = .approveTransfer ∨ d = .transferApproved ∨ d = .cancelApproval) : (onRuntime c st rt).filter d = false := by
  rcases h with rfl | rfl | rfl <;> rfl

/-- All others pass it unless the pallet or the call has been switched off. -/
theorem others_open (c : Runtime.Cfg) (st : Runtime.State) (rt : Rt) {d : Disp}
    (h : d = .native ∨ d = .transfer ∨ d = .mint ∨ d = .burn) :
    (onRuntime c st rt).filter d = true ↔
      st.disP d.kind.pallet.index = false ∧ st.disC d.kind.pallet.index (c.callIdx d.kind) = false := by
  have e : (onRuntime c st rt).filter d =
      (!st.disP d.kind.pallet.index && !st.disC d.kind.pallet.index (c.callIdx d.kind)) := by
    rcases h with rfl | rfl | rfl | rfl <;> rfl
  rw [e, Bool.and_eq_true, Bool.not_eq_true', Bool.not_eq_true']

/-- **C200 (statement).** On the runtime `c.chain`, with nothing switched off, the holder of a live asset who can pay the
deposit can allow a spender to spend tokens of that asset through the asset's contract. -/
def C200_statement (ch : Chain) : Prop :=
  ∀ (c : Runtime.Cfg) (st : Runtime.State) (rt : Rt) (cx : Ctx) (s : Ast.State) (id : Nat) (a : Ast.Asset)
    (spender amount : Nat), c.chain = ch → (∀ p, st.disP p = false) → (∀ p i, st.disC p i = false) →
    Ast.To cx s id a → spender < 256 ^ 20 → amount < 256 ^ 32 → cx.isStatic = false → cx.value = 0 → a.status = .live →
    Ast.CanDeposit rt s id (rt.acct cx.caller) (rt.acct spender) →
    ∃ o, Ast.execute (onRuntime c st rt) cx (callOf 0x095ea7b3 [(20, spender), (32, amount)]) s = some (.ok o)

/-- **C200 (refuted, why).** On every runtime and in every state, with any calldata: a call to an asset's contract that
succeeds leaves every allowance, every permit nonce and every deposit as it is. -/
theorem C200_no_allowances_partial (c : Runtime.Cfg) (st : Runtime.State) (rt : Rt) (cx : Ctx) (input : List Byte)
    (s : Ast.State) (o : Out Ast.State) (h : Ast.execute (onRuntime c st rt) cx input s = some (.ok o)) :
    o.st.approvals = s.approvals ∧ o.st.nonces = s.nonces ∧ o.st.cur = s.cur := by
  obtain ⟨id, a, hto, he⟩ := Ast.execute_effect h
  have no : ∀ {s1 s' : Ast.State} {o d v : Nat}, s1.assets id = some a →
      Ast.approveInner (onRuntime c st rt) s1 id o d v = .ok s' → False := by
    intro s1 s' o d v h1 h2
    have := ((Ast.approveInner_iff h1).1 ⟨s', h2⟩).2.2.1
    rw [approvals_filtered c st rt (.inl rfl)] at this
    cases this
  generalize o.st = s' at he ⊢
  cases he with
  | view => exact ⟨rfl, rfl, rfl⟩
  | approve sp am s' hst hs => exact (no hto.exists_ hs).elim
  | transfer d x a' hst ht => exact ⟨rfl, rfl, rfl⟩
  | spend ow d x p a' hst hne hp hx ht hf =>
    rw [approvals_filtered c st rt (.inr (.inl rfl))] at hf
    cases hf
  | mint w x a' hst ht => exact ⟨rfl, rfl, rfl⟩
  | burn w x a' hst ht => exact ⟨rfl, rfl, rfl⟩
  | permit ow sp va de r sg v s' hd hsig h0 hs =>
    exact (no (s1 := { s with nonces := upd2 s.nonces cx.codeAddress ow (s.nonces cx.codeAddress ow + 1) })
      hto.exists_ hs).elim

/-- **C200 (refuted, approve and permit).** On every runtime and in every state `approve` and `permit` of an asset's
contract fail, whatever their arguments. -/
theorem C200_approve_fails_partial (c : Runtime.Cfg) (st : Runtime.State) (rt : Rt) (cx : Ctx) (s : Ast.State) (id : Nat)
    (a : Ast.Asset) (hto : Ast.To cx s id a) (tail : List Byte) :
    (∀ spender amount, spender < 256 ^ 20 → amount < 256 ^ 32 →
      Sized (callOf 0x095ea7b3 [(20, spender), (32, amount)] ++ tail) →
      ¬ ∃ o, Ast.execute (onRuntime c st rt) cx (callOf 0x095ea7b3 [(20, spender), (32, amount)] ++ tail) s =
        some (.ok o)) ∧
    (∀ owner spender value deadline v r sg, PermitArgs owner spender value deadline v r sg tail →
      s.nonces cx.codeAddress owner + 1 < 256 ^ 32 →
      ¬ ∃ o, Ast.execute (onRuntime c st rt) cx (permitCall owner spender value deadline v r sg ++ tail) s =
        some (.ok o)) := by
  constructor
  · intro spender amount hp hm hl h
    have := ((Ast.C132_approve_when (onRuntime c st rt) cx s id a tail hto spender amount hp hm hl).1 h).2.2.2.2.1
    rw [approvals_filtered c st rt (.inl rfl)] at this
    cases this
  · intro owner spender value deadline v r sg hp hn h
    have := ((Ast.C136_permit_when (onRuntime c st rt) cx s id a hto owner spender value deadline v r sg tail hp hn).1
      h).2.2.2.2.2.2.1
    rw [approvals_filtered c st rt (.inl rfl)] at this
    cases this

theorem C200_refuted (ch : Chain) : ¬ C200_statement ch := by
  intro h
  have hsz : Sized (callOf 0x095ea7b3 [(20, 5), (32, 40)] ++ []) := Ast.sized2 _ _ _ _ _ (by decide) (by decide)
  obtain ⟨o, ho⟩ := h { Runtime.exCfg true with chain := ch } Runtime.exState Ast.exRt (Ast.exCx 1) Ast.exSt 7 Ast.exAsset 5 40
    rfl (fun _ => rfl) (fun _ _ => rfl) (Ast.exTo 1) (by decide) (by decide) rfl rfl rfl (.inr ⟨by decide, by decide⟩)
  exact (C200_approve_fails_partial { Runtime.exCfg true with chain := ch } Runtime.exState Ast.exRt (Ast.exCx 1) Ast.exSt 7
    Ast.exAsset (Ast.exTo 1) []).1 5 40 (by decide) (by decide) hsz ⟨o, by rw [List.append_nil]; exact ho⟩

/-- **C200 (transferFrom).** On every runtime `transferFrom` of an asset's contract succeeds exactly when the caller itself
is the owner and could have used `transfer`: an allowance, however it was set, is of no use here. -/
theorem C200_transfer_from_partial (c : Runtime.Cfg) (st : Runtime.State) (rt : Rt) (cx : Ctx) (s : Ast.State) (id : Nat)
    (a : Ast.Asset) (hto : Ast.To cx s id a) (tail : List Byte) (owner dest amount : Nat) (ho : owner < 256 ^ 20)
    (hp : dest < 256 ^ 20) (hm : amount < 256 ^ 32)
    (hl : Sized (callOf 0x23b872dd [(20, owner), (20, dest), (32, amount)] ++ tail)) :
    (∃ o, Ast.execute (onRuntime c st rt) cx (callOf 0x23b872dd [(20, owner), (20, dest), (32, amount)] ++ tail) s =
        some (.ok o)) ↔
      cx.isStatic = false ∧ cx.value = 0 ∧ amount ≤ maxU128 ∧ Ast.CanSend a (rt.acct owner) (rt.acct dest) amount ∧
      rt.acct cx.caller = rt.acct owner ∧ ¬ SwitchedOff c st ⟨.assets, .transferAsset⟩ := by
  rw [Ast.C132_transfer_from_when (onRuntime c st rt) cx s id a tail hto owner dest amount ho hp hm hl]
  have e : (onRuntime c st rt).filter .transfer = true ↔ ¬ SwitchedOff c st ⟨.assets, .transferAsset⟩ := by
    rw [others_open c st rt (.inr (.inl rfl))]
    unfold SwitchedOff
    have : Runtime.whitelisted c.chain ⟨.assets, .transferAsset⟩ = false := rfl
    simp only [this, true_and, not_or, Bool.not_eq_true]
    rfl
  have e2 : (onRuntime c st rt).filter .transferApproved = true ↔ False := by
    rw [approvals_filtered c st rt (.inr (.inl rfl))]; simp
  rw [e, e2]
  constructor
  · rintro ⟨h1, h2, h3, h4, ⟨h5, h6⟩ | ⟨-, h, -⟩⟩
    · exact ⟨h1, h2, h3, h4, h5, h6⟩
    · exact h.elim
  · rintro ⟨h1, h2, h3, h4, h5, h6⟩
    exact ⟨h1, h2, h3, h4, .inl ⟨h5, h6⟩⟩

/-- **C200 (emergency switch).** Once the pallet of a token is switched off (`Assets` for the asset contracts, `Balances`
for the native one), no call to its contract moves, mints or burns anything. -/
theorem C200_switched_off (c : Runtime.Cfg) (st : Runtime.State) (rt : Rt) (cx : Ctx) (input : List Byte) :
    (st.disP Runtime.Pallet.assets.index = true → ∀ (s : Ast.State) (o : Out Ast.State),
      Ast.execute (onRuntime c st rt) cx input s = some (.ok o) → o.st = s) ∧
    (st.disP Runtime.Pallet.balances.index = true → ∀ (m : Bal.Meta) (s : Bal.State) (o : Out Bal.State),
      Bal.execute (onRuntime c st rt) m cx input s = .ok o → o.st.cur = s.cur) := by
  constructor
  · intro hd s o h
    have off : ∀ {d : Disp}, d = .transfer ∨ d = .mint ∨ d = .burn → (onRuntime c st rt).filter d = true → False := by
      intro d hk hf
      have := ((others_open c st rt (.inr hk)).1 hf).1
      have e : d.kind.pallet = .assets := by rcases hk with rfl | rfl | rfl <;> rfl
      rw [e, hd] at this
      cases this
    obtain ⟨id, a, hto, he⟩ := Ast.execute_effect h
    have no : ∀ {s1 s' : Ast.State} {o d v : Nat}, s1.assets id = some a →
        Ast.approveInner (onRuntime c st rt) s1 id o d v = .ok s' → False := by
      intro s1 s' o d v h1 h2
      have := ((Ast.approveInner_iff h1).1 ⟨s', h2⟩).2.2.1
      rw [approvals_filtered c st rt (.inl rfl)] at this
      cases this
    generalize o.st = s' at he
    cases he with
    | view => rfl
    | approve sp am s' hst hs => exact (no hto.exists_ hs).elim
    | transfer d x a' hst ht hf => exact (off (.inl rfl) hf).elim
    | spend ow d x p a' hst hne hp hx ht hf =>
      rw [approvals_filtered c st rt (.inr (.inl rfl))] at hf
      cases hf
    | mint w x a' hst ht hf => exact (off (.inr (.inl rfl)) hf).elim
    | burn w x a' hst ht hf => exact (off (.inr (.inr rfl)) hf).elim
    | permit ow sp va de r sg v s' hd hsig h0 hs =>
      exact (no (s1 := { s with nonces := upd2 s.nonces cx.codeAddress ow (s.nonces cx.codeAddress ow + 1) })
        hto.exists_ hs).elim
  · intro hd m s o h
    have off : (onRuntime c st rt).filter .native = true → False := by
      intro hf
      have := ((others_open c st rt (.inl rfl)).1 hf).1
      have e : Disp.native.kind.pallet = .balances := rfl
      rw [e, hd] at this
      cases this
    have he := Bal.execute_effect h
    generalize o.st = s' at he
    cases he with
    | view => rfl
    | approve sp am => rfl
    | transfer d x cur h1 hf => exact (off hf).elim
    | transferFrom ow d x s1 cur h1 h2 hf => exact (off hf).elim
    | deposit cur h1 h2 hf => exact (off hf).elim
    | permit ow sp va de r sg v hd hsig h0 => rfl

/-- Non-vacuity: on every runtime, with nothing switched off, account 1 of the examples can transfer 40 units of asset 7
through the contract, with `transfer` and as the owner with `transferFrom`. -/
example (ch : Chain) : (∃ o, Ast.execute (onRuntime { Runtime.exCfg true with chain := ch } Runtime.exState Ast.exRt)
      (Ast.exCx 1) (callOf 0x23b872dd [(20, 1), (20, 6), (32, 40)] ++ []) Ast.exSt = some (.ok o)) :=
  (C200_transfer_from_partial { Runtime.exCfg true with chain := ch } Runtime.exState Ast.exRt (Ast.exCx 1) Ast.exSt 7
    Ast.exAsset (Ast.exTo 1) [] 1 6 40 (by decide) (by decide) (by decide)
    (Ast.sized3 _ _ _ _ _ _ _ (by decide) (by decide) (by decide))).2
    ⟨rfl, rfl, by decide, .inr ⟨rfl, rfl, by decide, by decide, by decide⟩, rfl, by
      rintro ⟨-, h | h⟩ <;> cases h⟩

/-- And transfers of the native token work as the general theorems say: the filter is open. -/
example (ch : Chain) : (onRuntime { Runtime.exCfg true with chain := ch } Runtime.exState Ast.exRt).filter .native = true :=
  (others_open _ _ _ (.inl rfl)).2 ⟨rfl, rfl⟩

end Verif.Evm
