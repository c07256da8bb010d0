import Verif.Evm.BalancesErc20
import Verif.Evm.Erc20Lemmas

/-!
# Properties of the ERC-20 interface of the native currency (C125)
-/

namespace Verif.Evm.Bal

theorem action_call (sel : Nat) (args : List (Nat × Nat)) (tail : List Byte) (hs : sel < 2 ^ 32) :
    actionOf (callOf sel args ++ tail) = (Action.ofSelector sel).getD .deposit := by
  unfold actionOf
  rw [selector_call sel args tail hs]

section
variable (rt : Rt) (m : Meta) (cx : Ctx) (s : State) (tail : List Byte)

/-- **C125 (views).** `totalSupply`, `name`, `symbol`, `decimals` return the issuance and the metadata, ABI encoded, and
change nothing. -/
theorem C125_metadata :
    execute rt m cx (callOf 0x18160ddd [] ++ tail) s = .ok ⟨s, Abi.encUint 32 s.cur.iss, []⟩ ∧
    execute rt m cx (callOf 0x06fdde03 [] ++ tail) s = .ok ⟨s, Abi.seq [⟨false, Abi.encBytes m.name⟩], []⟩ ∧
    execute rt m cx (callOf 0x95d89b41 [] ++ tail) s = .ok ⟨s, Abi.seq [⟨false, Abi.encBytes m.symbol⟩], []⟩ ∧
    execute rt m cx (callOf 0x313ce567 [] ++ tail) s = .ok ⟨s, Abi.encUint 1 m.decimals, []⟩ := by
  refine ⟨?_, ?_, ?_, ?_⟩
  · unfold execute
    rw [action_call _ _ _ (by decide)]
    show totalSupply s _ = _
    unfold totalSupply
    rw [skip_call, ok_bind, expect_call 0 _ _ argsOk_nil (Nat.zero_le _), ok_bind,
      outWord_eq]
    rfl
  · unfold execute
    rw [action_call _ _ _ (by decide)]
    show (.ok ⟨s, outBytes m.name, []⟩ : R (Out State)) = _
    rw [outBytes_eq]
  · unfold execute
    rw [action_call _ _ _ (by decide)]
    show (.ok ⟨s, outBytes m.symbol, []⟩ : R (Out State)) = _
    rw [outBytes_eq]
  · unfold execute
    rw [action_call _ _ _ (by decide)]
    show (.ok ⟨s, outU8 m.decimals, []⟩ : R (Out State)) = _
    rw [outU8_eq]

/-- **C125 (views).** `balanceOf` returns what the account can spend. -/
theorem C125_balance_of (owner : Nat) (ho : owner < 256 ^ 20) (hl : Sized (callOf 0x70a08231 [(20, owner)] ++ tail)) :
    execute rt m cx (callOf 0x70a08231 [(20, owner)] ++ tail) s =
      .ok ⟨s, Abi.encUint 32 (s.cur.free (rt.acct owner) - s.cur.frozen (rt.acct owner)), []⟩ := by
  have ha := argsOk1 (by decide) ho
  unfold execute
  rw [action_call _ _ _ (by decide)]
  show balanceOf rt s _ = _
  unfold balanceOf
  rw [skip_call, ok_bind, expect_call 1 _ _ ha (le_refl _), ok_bind,
    readUint_arg _ tail ha 0 20 owner rfl (sized_args hl), ok_bind]
  dsimp only
  rw [outWord_eq]
  rfl

/-- **C125 (views).** `allowance` returns what is left of the approval, or 0. -/
theorem C125_allowance (owner spender : Nat) (ho : owner < 256 ^ 20) (hp : spender < 256 ^ 20)
    (hl : Sized (callOf 0xdd62ed3e [(20, owner), (20, spender)] ++ tail)) :
    execute rt m cx (callOf 0xdd62ed3e [(20, owner), (20, spender)] ++ tail) s =
      .ok ⟨s, Abi.encUint 32 ((s.approves (rt.acct owner) (rt.acct spender)).getD 0), []⟩ := by
  have ha := argsOk_cons (by decide) ho (argsOk1 (by decide) hp)
  have hz := sized_args hl
  unfold execute
  rw [action_call _ _ _ (by decide)]
  show allowance rt s _ = _
  unfold allowance
  rw [skip_call, ok_bind, expect_call 2 _ _ ha (le_refl _), ok_bind,
    readUint_arg _ tail ha 0 20 owner rfl hz, ok_bind]
  dsimp only
  rw [readUint_arg _ tail ha 1 20 spender rfl hz, ok_bind]
  dsimp only
  rw [outWord_eq]
  rfl

/-- **C125 (views).** `nonces` returns the number of permits used. -/
theorem C125_nonces (owner : Nat) (ho : owner < 256 ^ 20) (hl : Sized (callOf 0x7ecebe00 [(20, owner)] ++ tail)) :
    execute rt m cx (callOf 0x7ecebe00 [(20, owner)] ++ tail) s = .ok ⟨s, Abi.encUint 32 (s.nonces owner), []⟩ := by
  have ha := argsOk1 (by decide) ho
  unfold execute
  rw [action_call _ _ _ (by decide)]
  show noncesOf s _ = _
  unfold noncesOf
  rw [skip_call, ok_bind, readUint_arg _ tail ha 0 20 owner rfl (sized_args hl), ok_bind]
  dsimp only
  rw [outWord_eq]
  rfl

/-- **C125 (approve).** `approve` always succeeds, replaces the allowance by the amount (at most `2^128 - 1`), changes
nothing else, returns `true` and logs the approval. -/
theorem C125_approve (spender amount : Nat) (hp : spender < 256 ^ 20) (hm : amount < 256 ^ 32)
    (hl : Sized (callOf 0x095ea7b3 [(20, spender), (32, amount)] ++ tail)) :
    execute rt m cx (callOf 0x095ea7b3 [(20, spender), (32, amount)] ++ tail) s =
      .ok ⟨⟨s.cur, upd2 s.approves (rt.acct cx.caller) (rt.acct spender) (some (min amount maxU128)), s.nonces⟩,
        Abi.encBool true, [⟨cx.address, .approval, [cx.caller, spender], Abi.encUint 32 amount⟩]⟩ := by
  have ha := argsOk_cons (by decide) hp (argsOk1 (by decide) hm)
  have hz := sized_args hl
  have hs : saturate amount = min amount maxU128 := by
    unfold saturate
    split
    · omega
    · omega
  unfold execute
  rw [action_call _ _ _ (by decide)]
  show approve rt cx s _ = _
  unfold approve
  rw [skip_call, ok_bind, expect_call 2 _ _ ha (le_refl _), ok_bind,
    readUint_arg _ tail ha 0 20 spender rfl hz, ok_bind]
  dsimp only
  rw [readUint_arg _ tail ha 1 32 amount rfl hz, ok_bind]
  dsimp only
  rw [outWord_eq, outBool_eq, hs]
  rfl

theorem transfer_eval (dest amount : Nat) (hp : dest < 256 ^ 20) (hm : amount < 256 ^ 32)
    (hl : Sized (callOf 0xa9059cbb [(20, dest), (32, amount)] ++ tail)) :
    execute rt m cx (callOf 0xa9059cbb [(20, dest), (32, amount)] ++ tail) s = (do
      let a ← u256ToAmount amount
      let cur ← dispatch rt .native (s.cur.transfer rt (rt.acct cx.caller) (rt.acct dest) a)
      pure ⟨{ s with cur := cur }, Abi.encBool true,
        [⟨cx.address, .transfer, [cx.caller, dest], Abi.encUint 32 amount⟩]⟩) := by
  have ha := argsOk_cons (by decide) hp (argsOk1 (by decide) hm)
  have hz := sized_args hl
  unfold execute
  rw [action_call _ _ _ (by decide)]
  show transfer rt cx s _ = _
  unfold transfer
  rw [skip_call, ok_bind, expect_call 2 _ _ ha (le_refl _), ok_bind,
    readUint_arg _ tail ha 0 20 dest rfl hz, ok_bind]
  dsimp only
  rw [readUint_arg _ tail ha 1 32 amount rfl hz, ok_bind]
  dsimp only
  rw [outWord_eq, outBool_eq]

/-- **C125 (transfer, when).** `transfer` succeeds exactly when the amount can go from the caller to the recipient and the
runtime lets transfers of the native token through. -/
theorem C125_transfer_when (dest amount : Nat) (hp : dest < 256 ^ 20) (hm : amount < 256 ^ 32)
    (hl : Sized (callOf 0xa9059cbb [(20, dest), (32, amount)] ++ tail)) :
    (∃ o, execute rt m cx (callOf 0xa9059cbb [(20, dest), (32, amount)] ++ tail) s = .ok o) ↔
      rt.filter .native = true ∧ amount ≤ maxU128 ∧ CanMove rt s.cur (rt.acct cx.caller) (rt.acct dest) amount := by
  rw [transfer_eval rt m cx s tail dest amount hp hm hl, ← transfer_succeeds_iff]
  simp only [bind_ok_iff, u256ToAmount_ok_iff, dispatch_ok_iff, pure_ok_iff]
  constructor
  · rintro ⟨o, a, ⟨h1, rfl⟩, n, ⟨hf, h2⟩, -⟩
    exact ⟨hf, h1, n, h2⟩
  · rintro ⟨hf, h1, n, h2⟩
    exact ⟨_, amount, ⟨h1, rfl⟩, n, ⟨hf, h2⟩, rfl⟩

/-- **C125 (transfer, what).** `transfer` moves exactly the amount from the caller to the recipient, changes no allowance
and no nonce, returns `true` and logs the transfer. -/
theorem C125_transfer_what (dest amount : Nat) (hp : dest < 256 ^ 20) (hm : amount < 256 ^ 32)
    (hl : Sized (callOf 0xa9059cbb [(20, dest), (32, amount)] ++ tail)) (o : Out State)
    (h : execute rt m cx (callOf 0xa9059cbb [(20, dest), (32, amount)] ++ tail) s = .ok o) :
    Moved rt s.cur o.st.cur (rt.acct cx.caller) (rt.acct dest) amount ∧ o.st.approves = s.approves ∧
      o.st.nonces = s.nonces ∧ o.ret = Abi.encBool true ∧
      o.logs = [⟨cx.address, .transfer, [cx.caller, dest], Abi.encUint 32 amount⟩] := by
  rw [transfer_eval rt m cx s tail dest amount hp hm hl] at h
  simp only [bind_ok_iff, u256ToAmount_ok_iff, dispatch_ok_iff, pure_ok_iff] at h
  obtain ⟨a, ⟨h1, rfl⟩, n, ⟨-, h2⟩, rfl⟩ := h
  exact ⟨transfer_moved h2, rfl, rfl, rfl, rfl⟩

theorem transferFrom_eval (owner dest amount : Nat) (ho : owner < 256 ^ 20) (hp : dest < 256 ^ 20)
    (hm : amount < 256 ^ 32) (hl : Sized (callOf 0x23b872dd [(20, owner), (20, dest), (32, amount)] ++ tail)) :
    execute rt m cx (callOf 0x23b872dd [(20, owner), (20, dest), (32, amount)] ++ tail) s = (do
      let a ← u256ToAmount amount
      let s1 ← spend s (rt.acct cx.caller) (rt.acct owner) a
      let cur ← dispatch rt .native (s1.cur.transfer rt (rt.acct owner) (rt.acct dest) a)
      pure ⟨{ s1 with cur := cur }, Abi.encBool true,
        [⟨cx.address, .transfer, [owner, dest], Abi.encUint 32 amount⟩]⟩) := by
  have ha := argsOk_cons (by decide) ho (argsOk_cons (by decide) hp (argsOk1 (by decide) hm))
  have hz := sized_args hl
  unfold execute
  rw [action_call _ _ _ (by decide)]
  show transferFrom rt cx s _ = _
  unfold transferFrom
  rw [skip_call, ok_bind, expect_call 3 _ _ ha (le_refl _),
    ok_bind, readUint_arg _ tail ha 0 20 owner rfl hz, ok_bind]
  dsimp only
  rw [readUint_arg _ tail ha 1 20 dest rfl hz, ok_bind]
  dsimp only
  rw [readUint_arg _ tail ha 2 32 amount rfl hz, ok_bind]
  dsimp only
  rw [outWord_eq, outBool_eq]

theorem spend_ok_iff {s s1 : State} {caller owner a : Nat} : spend s caller owner a = .ok s1 ↔
    (caller = owner ∧ s1 = s) ∨ (caller ≠ owner ∧ ∃ v, s.approves owner caller = some v ∧ a ≤ v ∧
      s1 = { s with approves := upd2 s.approves owner caller (some (v - a)) }) := by
  unfold spend
  split
  · rename_i h
    simp only [bind_ok_iff, okOr_ok_iff, csub_ok_iff, pure_ok_iff]
    constructor
    · rintro ⟨v, h1, v', ⟨h2, rfl⟩, rfl⟩
      exact .inr ⟨h, v, h1, h2, rfl⟩
    · rintro (⟨h1, -⟩ | ⟨-, v, h1, h2, rfl⟩)
      · exact (h h1).elim
      · exact ⟨v, h1, _, ⟨h2, rfl⟩, rfl⟩
  · rename_i h
    rw [not_not] at h
    constructor
    · intro e; injection e with e; exact .inl ⟨h, e.symm⟩
    · rintro (⟨-, rfl⟩ | ⟨h1, -⟩)
      · rfl
      · exact (h1 h).elim

theorem spend_cur {s s1 : State} {caller owner a : Nat} (h : spend s caller owner a = .ok s1) :
    s1.cur = s.cur ∧ s1.nonces = s.nonces := by
  rcases spend_ok_iff.1 h with ⟨-, rfl⟩ | ⟨-, v, -, -, rfl⟩
  · exact ⟨rfl, rfl⟩
  · exact ⟨rfl, rfl⟩

/-- **C125 (transferFrom, when).** `transferFrom` succeeds exactly when the amount can go from the owner to the recipient,
the runtime lets transfers of the native token through and, unless the caller is the owner, the caller's allowance covers it. -/
theorem C125_transfer_from_when (owner dest amount : Nat) (ho : owner < 256 ^ 20) (hp : dest < 256 ^ 20)
    (hm : amount < 256 ^ 32) (hl : Sized (callOf 0x23b872dd [(20, owner), (20, dest), (32, amount)] ++ tail)) :
    (∃ o, execute rt m cx (callOf 0x23b872dd [(20, owner), (20, dest), (32, amount)] ++ tail) s = .ok o) ↔
      rt.filter .native = true ∧ amount ≤ maxU128 ∧ CanMove rt s.cur (rt.acct owner) (rt.acct dest) amount ∧
      (rt.acct cx.caller = rt.acct owner ∨ ∃ v, s.approves (rt.acct owner) (rt.acct cx.caller) = some v ∧ amount ≤ v) := by
  rw [transferFrom_eval rt m cx s tail owner dest amount ho hp hm hl, ← transfer_succeeds_iff]
  simp only [bind_ok_iff, u256ToAmount_ok_iff, dispatch_ok_iff, pure_ok_iff]
  constructor
  · rintro ⟨o, a, ⟨h1, rfl⟩, s1, hs, n, ⟨hf, h2⟩, -⟩
    rw [(spend_cur hs).1] at h2
    refine ⟨hf, h1, ⟨n, h2⟩, ?_⟩
    rcases spend_ok_iff.1 hs with ⟨h, -⟩ | ⟨-, v, h3, h4, -⟩
    · exact .inl h
    · exact .inr ⟨v, h3, h4⟩
  · rintro ⟨hf, h1, ⟨n, h2⟩, h3⟩
    have : ∃ s1, spend s (rt.acct cx.caller) (rt.acct owner) amount = .ok s1 := by
      by_cases hc : rt.acct cx.caller = rt.acct owner
      · exact ⟨s, spend_ok_iff.2 (.inl ⟨hc, rfl⟩)⟩
      · rcases h3 with h3 | ⟨v, h3, h4⟩
        · exact (hc h3).elim
        · exact ⟨_, spend_ok_iff.2 (.inr ⟨hc, v, h3, h4, rfl⟩)⟩
    obtain ⟨s1, hs⟩ := this
    refine ⟨_, amount, ⟨h1, rfl⟩, s1, hs, n, ⟨hf, ?_⟩, rfl⟩
    rw [(spend_cur hs).1]
    exact h2

/-- **C125 (transferFrom, what).** `transferFrom` moves exactly the amount from the owner to the recipient and takes it off
the caller's allowance (the owner itself needs none); no other allowance changes. -/
theorem C125_transfer_from_what (owner dest amount : Nat) (ho : owner < 256 ^ 20) (hp : dest < 256 ^ 20)
    (hm : amount < 256 ^ 32) (hl : Sized (callOf 0x23b872dd [(20, owner), (20, dest), (32, amount)] ++ tail))
    (o : Out State)
    (h : execute rt m cx (callOf 0x23b872dd [(20, owner), (20, dest), (32, amount)] ++ tail) s = .ok o) :
    Moved rt s.cur o.st.cur (rt.acct owner) (rt.acct dest) amount ∧ o.st.nonces = s.nonces ∧
      (∀ x y, o.st.approves x y =
        if x = rt.acct owner ∧ y = rt.acct cx.caller ∧ x ≠ y then
          some ((s.approves x y).getD 0 - amount) else s.approves x y) ∧
      o.ret = Abi.encBool true ∧ o.logs = [⟨cx.address, .transfer, [owner, dest], Abi.encUint 32 amount⟩] := by
  rw [transferFrom_eval rt m cx s tail owner dest amount ho hp hm hl] at h
  simp only [bind_ok_iff, u256ToAmount_ok_iff, dispatch_ok_iff, pure_ok_iff] at h
  obtain ⟨a, ⟨h1, rfl⟩, s1, hs, n, ⟨-, h2⟩, rfl⟩ := h
  rw [(spend_cur hs).1] at h2
  refine ⟨transfer_moved h2, (spend_cur hs).2, fun x y => ?_, rfl, rfl⟩
  show s1.approves x y = _
  rcases spend_ok_iff.1 hs with ⟨he, rfl⟩ | ⟨hne, v, h3, h4, rfl⟩
  · rw [if_neg]
    rintro ⟨rfl, rfl, h⟩
    exact h he.symm
  · dsimp only
    rw [upd2_apply]
    by_cases hx : x = rt.acct owner ∧ y = rt.acct cx.caller
    · rw [if_pos hx, if_pos ⟨hx.1, hx.2, by rw [hx.1, hx.2]; exact fun e => hne e.symm⟩, hx.1, hx.2, h3]
      rfl
    · rw [if_neg hx, if_neg fun e => hx ⟨e.1, e.2.1⟩]

end

/-! ## Non-vacuity -/

/-- Some hash and a recovery that finds the key `[1]` for the signature `(7, 8, 27)`. -/
def exCrypto : Crypto where
  keccak x := (ofBe x + x.length) % 256 ^ 32
  keccak_lt _ := Nat.mod_lt _ (by decide)
  recover r s v _ := if r = 7 ∧ s = 8 ∧ v = 27 then some [1] else none

/-- A runtime in which address `a` is the account `a`. -/
def exRt : Rt := { acct := id, chainId := 592, ed := 10, treasury := 99, crypto := exCrypto, filter := fun _ => true }

/-- A token. -/
def exMeta : Meta := { name := ascii "PARA token", symbol := ascii "PARA", decimals := 12, native := true }

/-- Account 1 has 100, of which 20 are locked; it allows account 2 to spend 50. -/
def exSt : State where
  cur := { free := fun a => if a = 1 then 100 else if a = 99 then 1000 else 0, resv := fun _ => 0
           frozen := fun a => if a = 1 then 20 else 0, pinned := fun _ => false, iss := 1100 }
  approves := fun o p => if o = 1 ∧ p = 2 then some 50 else none
  nonces := fun _ => 0

/-- A call of account `c` to the token at address 2050. -/
def exCx (c : Nat) : Ctx := { caller := c, address := 2050, codeAddress := 2050, value := 0, isStatic := false, now := 5000 }

/-- Non-vacuity: account 1 can transfer 80 but not 81, account 2 can take 50 but not 51 of it. -/
example : CanMove exRt exSt.cur 1 3 80 ∧ ¬ CanMove exRt exSt.cur 1 3 81 ∧
    (∃ o, execute exRt exMeta (exCx 2) (callOf 0x23b872dd [(20, 1), (20, 3), (32, 50)] ++ []) exSt = .ok o) ∧
    ¬ (∃ o, execute exRt exMeta (exCx 2) (callOf 0x23b872dd [(20, 1), (20, 3), (32, 51)] ++ []) exSt = .ok o) := by
  have e : ∀ x, Sized (callOf 0x23b872dd [(20, 1), (20, 3), (32, x)] ++ []) ↔ True := by
    intro x
    refine iff_of_true ?_ trivial
    unfold Sized callOf
    rw [List.append_nil, List.length_append, beBytes_length]
    simp only [List.flatMap_cons, List.flatMap_nil, List.length_append, List.length_nil, Abi.encUint,
      List.length_replicate, beBytes_length]
    decide
  refine ⟨?_, ?_, ?_, ?_⟩
  · refine .inr (.inr ⟨by decide, by decide, by decide, fun h => by cases h⟩)
  · rintro (h | h | ⟨h, -⟩)
    · cases h
    · cases h
    · revert h; decide
  · refine (C125_transfer_from_when exRt exMeta (exCx 2) exSt [] 1 3 50 (by decide) (by decide) (by decide)
      ((e 50).2 trivial)).2 ⟨rfl, by decide, .inr (.inr ⟨by decide, by decide, by decide, fun h => by cases h⟩),
        .inr ⟨50, rfl, by decide⟩⟩
  · intro h
    obtain ⟨-, -, -, h | ⟨v, h, h2⟩⟩ := (C125_transfer_from_when exRt exMeta (exCx 2) exSt [] 1 3 51 (by decide) (by decide)
      (by decide) ((e 51).2 trivial)).1 h
    · cases h
    · have : v = 50 := by injection h with h; exact h.symm
      omega

end Verif.Evm.Bal
