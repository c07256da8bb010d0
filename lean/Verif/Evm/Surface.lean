import Verif.Evm.Keccak
import Verif.Evm.Deployed
import Verif.Evm.XcmProps

/-!
# C201: which function runs for which calldata
-/

namespace Verif.Evm
open Keccak

/-- The selector of a function: the first four bytes of the hash of its signature. -/
def selectorOf (signature : String) : Nat := keccak256 (ascii signature) / 256 ^ 28

/-- The functions of the native token's contract, as in its Solidity interface. -/
def Bal.Action.signature : Bal.Action → String
  | .totalSupply => "totalSupply()"
  | .balanceOf => "balanceOf(address)"
  | .allowance => "allowance(address,address)"
  | .transfer => "transfer(address,uint256)"
  | .approve => "approve(address,uint256)"
  | .transferFrom => "transferFrom(address,address,uint256)"
  | .name => "name()"
  | .symbol => "symbol()"
  | .decimals => "decimals()"
  | .deposit => "deposit()"
  | .withdraw => "withdraw(uint256)"
  | .permit => "permit(address,address,uint256,uint256,uint8,bytes32,bytes32)"
  | .nonces => "nonces(address)"
  | .domainSeparator => "DOMAIN_SEPARATOR()"

/-- The functions of an asset's contract. -/
def Ast.Action.signature : Ast.Action → String
  | .totalSupply => "totalSupply()"
  | .balanceOf => "balanceOf(address)"
  | .allowance => "allowance(address,address)"
  | .transfer => "transfer(address,uint256)"
  | .approve => "approve(address,uint256)"
  | .transferFrom => "transferFrom(address,address,uint256)"
  | .name => "name()"
  | .symbol => "symbol()"
  | .decimals => "decimals()"
  | .minimumBalance => "minimumBalance()"
  | .mint => "mint(address,uint256)"
  | .burn => "burn(address,uint256)"
  | .permit => "permit(address,address,uint256,uint256,uint8,bytes32,bytes32)"
  | .nonces => "nonces(address)"
  | .domainSeparator => "DOMAIN_SEPARATOR()"

theorem sel_totalSupply : selectorOf "totalSupply()" = 0x18160ddd := by decide +kernel
theorem sel_balanceOf : selectorOf "balanceOf(address)" = 0x70a08231 := by decide +kernel
theorem sel_allowance : selectorOf "allowance(address,address)" = 0xdd62ed3e := by decide +kernel
theorem sel_transfer : selectorOf "transfer(address,uint256)" = 0xa9059cbb := by decide +kernel
theorem sel_approve : selectorOf "approve(address,uint256)" = 0x095ea7b3 := by decide +kernel
theorem sel_transferFrom : selectorOf "transferFrom(address,address,uint256)" = 0x23b872dd := by decide +kernel
theorem sel_name : selectorOf "name()" = 0x06fdde03 := by decide +kernel
theorem sel_symbol : selectorOf "symbol()" = 0x95d89b41 := by decide +kernel
theorem sel_decimals : selectorOf "decimals()" = 0x313ce567 := by decide +kernel
theorem sel_deposit : selectorOf "deposit()" = 0xd0e30db0 := by decide +kernel
theorem sel_withdraw : selectorOf "withdraw(uint256)" = 0x2e1a7d4d := by decide +kernel
theorem sel_minimumBalance : selectorOf "minimumBalance()" = 0xb9d1d49b := by decide +kernel
theorem sel_mint : selectorOf "mint(address,uint256)" = 0x40c10f19 := by decide +kernel
theorem sel_burn : selectorOf "burn(address,uint256)" = 0x9dc29fac := by decide +kernel
theorem sel_permit : selectorOf "permit(address,address,uint256,uint256,uint8,bytes32,bytes32)" = 0xd505accf := by
  decide +kernel
theorem sel_nonces : selectorOf "nonces(address)" = 0x7ecebe00 := by decide +kernel
theorem sel_domain : selectorOf "DOMAIN_SEPARATOR()" = 0x3644e515 := by decide +kernel

theorem Bal.signature_selector (f : Bal.Action) : Bal.Action.ofSelector (selectorOf f.signature) = some f := by
  cases f <;> simp only [Bal.Action.signature, sel_totalSupply, sel_balanceOf, sel_allowance, sel_transfer, sel_approve,
    sel_transferFrom, sel_name, sel_symbol, sel_decimals, sel_deposit, sel_withdraw, sel_permit, sel_nonces, sel_domain] <;>
    decide

theorem Ast.signature_selector (f : Ast.Action) : Ast.Action.ofSelector (selectorOf f.signature) = some f := by
  cases f <;> simp only [Ast.Action.signature, sel_totalSupply, sel_balanceOf, sel_allowance, sel_transfer, sel_approve,
    sel_transferFrom, sel_name, sel_symbol, sel_decimals, sel_minimumBalance, sel_mint, sel_burn, sel_permit, sel_nonces,
    sel_domain] <;> decide

theorem pick {α : Type} {n k : Nat} {a b : α} {o : Option α} (h : (if n = k then some a else o) = some b) :
    (n = k ∧ a = b) ∨ o = some b := by
  by_cases e : n = k
  · rw [if_pos e] at h
    injection h with h
    exact .inl ⟨e, h⟩
  · rw [if_neg e] at h
    exact .inr h

theorem Bal.selector_signature {n : Nat} {f : Bal.Action} (h : Bal.Action.ofSelector n = some f) :
    n = selectorOf f.signature := by
  unfold Bal.Action.ofSelector at h
  rcases pick h with ⟨e, rfl⟩ | h
  · exact e.trans sel_totalSupply.symm
  rcases pick h with ⟨e, rfl⟩ | h
  · exact e.trans sel_balanceOf.symm
  rcases pick h with ⟨e, rfl⟩ | h
  · exact e.trans sel_allowance.symm
  rcases pick h with ⟨e, rfl⟩ | h
  · exact e.trans sel_transfer.symm
  rcases pick h with ⟨e, rfl⟩ | h
  · exact e.trans sel_approve.symm
  rcases pick h with ⟨e, rfl⟩ | h
  · exact e.trans sel_transferFrom.symm
  rcases pick h with ⟨e, rfl⟩ | h
  · exact e.trans sel_name.symm
  rcases pick h with ⟨e, rfl⟩ | h
  · exact e.trans sel_symbol.symm
  rcases pick h with ⟨e, rfl⟩ | h
  · exact e.trans sel_decimals.symm
  rcases pick h with ⟨e, rfl⟩ | h
  · exact e.trans sel_deposit.symm
  rcases pick h with ⟨e, rfl⟩ | h
  · exact e.trans sel_withdraw.symm
  rcases pick h with ⟨e, rfl⟩ | h
  · exact e.trans sel_permit.symm
  rcases pick h with ⟨e, rfl⟩ | h
  · exact e.trans sel_nonces.symm
  rcases pick h with ⟨e, rfl⟩ | h
  · exact e.trans sel_domain.symm
  cases h

theorem Ast.selector_signature {n : Nat} {f : Ast.Action} (h : Ast.Action.ofSelector n = some f) :
    n = selectorOf f.signature := by
  unfold Ast.Action.ofSelector at h
  rcases pick h with ⟨e, rfl⟩ | h
  · exact e.trans sel_totalSupply.symm
  rcases pick h with ⟨e, rfl⟩ | h
  · exact e.trans sel_balanceOf.symm
  rcases pick h with ⟨e, rfl⟩ | h
  · exact e.trans sel_allowance.symm
  rcases pick h with ⟨e, rfl⟩ | h
  · exact e.trans sel_transfer.symm
  rcases pick h with ⟨e, rfl⟩ | h
  · exact e.trans sel_approve.symm
  rcases pick h with ⟨e, rfl⟩ | h
  · exact e.trans sel_transferFrom.symm
  rcases pick h with ⟨e, rfl⟩ | h
  · exact e.trans sel_name.symm
  rcases pick h with ⟨e, rfl⟩ | h
  · exact e.trans sel_symbol.symm
  rcases pick h with ⟨e, rfl⟩ | h
  · exact e.trans sel_decimals.symm
  rcases pick h with ⟨e, rfl⟩ | h
  · exact e.trans sel_minimumBalance.symm
  rcases pick h with ⟨e, rfl⟩ | h
  · exact e.trans sel_mint.symm
  rcases pick h with ⟨e, rfl⟩ | h
  · exact e.trans sel_burn.symm
  rcases pick h with ⟨e, rfl⟩ | h
  · exact e.trans sel_permit.symm
  rcases pick h with ⟨e, rfl⟩ | h
  · exact e.trans sel_nonces.symm
  rcases pick h with ⟨e, rfl⟩ | h
  · exact e.trans sel_domain.symm
  cases h

/-- **C201 (native token).** A call to the native token's contract runs the function whose signature hashes to the first
four bytes of the calldata, and no other; calldata that belongs to no function of the interface, or is shorter than four
bytes, is a deposit. -/
theorem C201_native_function (input : List Byte) (f : Bal.Action) :
    Bal.actionOf input = f ↔
      (4 ≤ input.length ∧ ofBe (input.take 4) = selectorOf f.signature) ∨
      (f = .deposit ∧ ¬ (4 ≤ input.length ∧ ∃ g : Bal.Action, ofBe (input.take 4) = selectorOf g.signature)) := by
  unfold Bal.actionOf
  by_cases hl : input.length < 4
  · have e : readSelector input = .error .revert := if_pos hl
    rw [e]
    constructor
    · rintro rfl
      exact .inr ⟨rfl, fun h => absurd h.1 (by omega)⟩
    · rintro (⟨h, -⟩ | ⟨rfl, -⟩)
      · exact absurd h (by omega)
      · rfl
  · have e : readSelector input = .ok (ofBe (input.take 4)) := if_neg hl
    rw [e]
    dsimp only
    cases ho : Bal.Action.ofSelector (ofBe (input.take 4)) with
    | none =>
      have none : ∀ g : Bal.Action, ofBe (input.take 4) ≠ selectorOf g.signature := by
        intro g hg
        rw [hg, Bal.signature_selector] at ho
        cases ho
      constructor
      · rintro rfl
        exact .inr ⟨rfl, fun ⟨_, g, hg⟩ => none g hg⟩
      · rintro (⟨-, h⟩ | ⟨rfl, -⟩)
        · exact (none f h).elim
        · rfl
    | some g =>
      have hg := Bal.selector_signature ho
      constructor
      · rintro rfl
        exact .inl ⟨by omega, hg⟩
      · rintro (⟨-, h⟩ | ⟨-, h⟩)
        · rw [h, Bal.signature_selector] at ho
          injection ho with ho
          exact ho.symm
        · exact (h ⟨by omega, g, hg⟩).elim

/-- **C201 (assets, known functions).** A call to an asset's contract whose calldata begins with the selector of a function
runs that function, after the check of its modifier (static context, value). -/
theorem C201_asset_function (rt : Rt) (cx : Ctx) (s : Ast.State) (id : Nat) (a : Ast.Asset) (hto : Ast.To cx s id a)
    (input : List Byte) (f : Ast.Action) (hl : 4 ≤ input.length) (hf : ofBe (input.take 4) = selectorOf f.signature) :
    Ast.execute rt cx input s = some (do checkModifier cx f.modifier; Ast.act rt cx s id a input f) := by
  rw [Ast.execute_to hto]
  unfold Ast.call
  have e : readSelector input = .ok (ofBe (input.take 4)) := if_neg (by omega)
  rw [e, ok_bind, hf, Ast.signature_selector]
  rfl

/-- **C201 (assets, anything else).** All other calldata is refused. -/
theorem C201_asset_unknown (rt : Rt) (cx : Ctx) (s : Ast.State) (id : Nat) (a : Ast.Asset) (hto : Ast.To cx s id a)
    (input : List Byte) (h : input.length < 4 ∨ ∀ f : Ast.Action, ofBe (input.take 4) ≠ selectorOf f.signature) :
    Ast.execute rt cx input s = some (.error .revert) := by
  rw [Ast.execute_to hto]
  unfold Ast.call
  by_cases hl : input.length < 4
  · have e : readSelector input = .error .revert := if_pos hl
    rw [e]; rfl
  · have e : readSelector input = .ok (ofBe (input.take 4)) := if_neg hl
    rw [e, ok_bind]
    cases ho : Ast.Action.ofSelector (ofBe (input.take 4)) with
    | none => rfl
    | some f =>
      rcases h with h | h
      · exact (hl h).elim
      · exact (h f (Ast.selector_signature ho)).elim

/-- **C201 (no clash).** Different functions of a contract have different selectors. -/
theorem C201_no_clash : (∀ f g : Bal.Action, selectorOf f.signature = selectorOf g.signature → f = g) ∧
    (∀ f g : Ast.Action, selectorOf f.signature = selectorOf g.signature → f = g) := by
  constructor
  · intro f g h
    have := Bal.signature_selector f
    rw [h, Bal.signature_selector] at this
    injection this with this
    exact this.symm
  · intro f g h
    have := Ast.signature_selector f
    rw [h, Ast.signature_selector] at this
    injection this with this
    exact this.symm

/-- **C201 (modifiers).** Only the functions that change state refuse a static context; none but these is refused there, and
no function of an asset's contract takes value. -/
theorem C201_modifiers (cx : Ctx) (f : Ast.Action) : checkModifier cx f.modifier = .ok () ↔
    cx.value = 0 ∧ (f ∈ [Ast.Action.approve, .transfer, .transferFrom, .mint, .burn] → cx.isStatic = false) := by
  cases f <;> simp [Ast.Action.modifier, Ast.check_view_iff, Ast.check_nonPayable_iff] <;> tauto

/-- Non-vacuity: the calldata of `transfer` starts with its selector. -/
example : 4 ≤ (callOf 0xa9059cbb [(20, 6), (32, 40)] ++ []).length ∧
    ofBe ((callOf 0xa9059cbb [(20, 6), (32, 40)] ++ []).take 4) = selectorOf Ast.Action.transfer.signature := by
  constructor
  · decide +kernel
  · rw [show Ast.Action.transfer.signature = "transfer(address,uint256)" from rfl, sel_transfer]
    decide +kernel

/-! ## Constants -/

theorem digits_lt (l : List Nat) (h : ∀ d ∈ l, d < 256) : digits l < 256 ^ l.length := by
  have key : ∀ (l : List Nat) (a : Nat), (∀ d ∈ l, d < 256) →
      l.foldl (fun a d => force (256 * a + d) id) a < (a + 1) * 256 ^ l.length := by
    intro l
    induction l with
    | nil => intro a _; simp
    | cons d l ih =>
      intro a hd
      rw [List.foldl_cons, force_eq, id]
      refine lt_of_lt_of_le (ih _ fun x hx => hd x (List.mem_cons_of_mem _ hx)) ?_
      have := hd d List.mem_cons_self
      rw [List.length_cons, Nat.pow_succ]
      calc (256 * a + d + 1) * 256 ^ l.length ≤ ((a + 1) * 256) * 256 ^ l.length := Nat.mul_le_mul_right _ (by omega)
        _ = (a + 1) * (256 ^ l.length * 256) := by ring
  have := key l 0 h
  rw [Nat.zero_add, Nat.one_mul] at this
  exact this

theorem laneBytes_spec (n v : Nat) : (laneBytes n v).length = n ∧ ∀ d ∈ laneBytes n v, d < 256 := by
  induction n generalizing v with
  | zero => exact ⟨rfl, fun d hd => by cases hd⟩
  | succ n ih =>
    refine ⟨by rw [laneBytes, List.length_cons, (ih _).1], fun d hd => ?_⟩
    rw [laneBytes, List.mem_cons] at hd
    rcases hd with rfl | hd
    · exact Nat.mod_lt _ (by decide)
    · exact (ih _).2 d hd

/-- A hash has 32 bytes. -/
theorem keccak256_lt (l : List Byte) : keccak256 l < 256 ^ 32 := by
  unfold keccak256
  generalize ha : (absorb ((pad l).length / 136) (pad l) (List.replicate 25 0)).take 4 = a
  have hlen : a.length ≤ 4 := by rw [← ha, List.length_take]; omega
  have h1 : (a.flatMap (laneBytes 8)).length = 8 * a.length := by
    clear ha hlen
    induction a with
    | nil => rfl
    | cons x a ih => rw [List.flatMap_cons, List.length_append, ih, (laneBytes_spec 8 x).1, List.length_cons]; omega
  refine lt_of_lt_of_le (digits_lt _ fun d hd => ?_) (Nat.pow_le_pow_right (by decide) (by rw [h1]; omega))
  rw [List.mem_flatMap] at hd
  obtain ⟨x, -, hd⟩ := hd
  exact (laneBytes_spec 8 x).2 d hd

/-- The real hash, with any signature recovery. -/
def realCrypto (recover : (r s v digest : Nat) → Option (List Byte)) : Crypto := ⟨keccak256, keccak256_lt, recover⟩

theorem typehash1 : keccak256 (ascii "EIP712Domain(string name,string version,uint256 chainId,address verifyingContract)") =
    0x8b73c3c69bb8fe3d512ecc4cf759cc79239f7b179b0ffacaa9a75d522b39400f := by
  decide +kernel

theorem typehash2 : keccak256 (ascii "Permit(address owner,address spender,uint256 value,uint256 nonce,uint256 deadline)") =
    0x6e71edae12b1b97f4d1f60370fef10105fa2faae0126114a169c64845d6126c9 := by
  decide +kernel

attribute [local irreducible] keccak256 in
/-- **C201 (permits).** The type hashes in a permit's digest are those of EIP-712 and EIP-2612, which wallets use. -/
theorem C201_typehashes (recover : (r s v digest : Nat) → Option (List Byte)) :
    permitDomain (realCrypto recover) = 0x8b73c3c69bb8fe3d512ecc4cf759cc79239f7b179b0ffacaa9a75d522b39400f ∧
    permitTypehash (realCrypto recover) = 0x6e71edae12b1b97f4d1f60370fef10105fa2faae0126114a169c64845d6126c9 := by
  unfold permitDomain permitTypehash realCrypto
  exact ⟨typehash1, typehash2⟩

/-- The signature of an event; its hash is the first topic (`balances-erc20/src/lib.rs:52-61`,
`assets-erc20/src/lib.rs:49-52`). -/
def Event.signature : Event → String
  | .transfer => "Transfer(address,address,uint256)"
  | .approval => "Approval(address,address,uint256)"
  | .deposit => "Deposit(address,uint256)"
  | .withdrawal => "Withdrawal(address,uint256)"

/-- The topics are the ones of ERC-20 and WETH. -/
theorem topics : keccak256 (ascii Event.transfer.signature) =
      0xddf252ad1be2c89b69c2b068fc378daa952ba7f163c4a11628f55a4df523b3ef ∧
    keccak256 (ascii Event.approval.signature) = 0x8c5be1e5ebec7d5bd14f71427d1e84f3dd0314c0f7b2291e5b200ac8c7c3b925 ∧
    keccak256 (ascii Event.deposit.signature) = 0xe1fffcc4923d04b559f4d29a8bfc6cda04eb5b0d3c460751c2402c5c5cc9109c ∧
    keccak256 (ascii Event.withdrawal.signature) = 0x7fcf532c15f0a6db0bd6d0e038bea71d30d808c7d98cb3bf7268a95bf5081b65 := by
  refine ⟨?_, ?_, ?_, ?_⟩ <;> decide +kernel

/-- **C201 (events).** Different events have different first topics. -/
theorem C201_topics (e e' : Event) (h : keccak256 (ascii e.signature) = keccak256 (ascii e'.signature)) : e = e' := by
  obtain ⟨h1, h2, h3, h4⟩ := topics
  cases e <;> cases e' <;> first | rfl | (exfalso; simp only [h1, h2, h3, h4] at h; revert h; decide)

/-! ## Wrapping without a native token; names; precompile addresses -/

/-- **C129 (not native).** Where the metadata say that the contract is not the native token's, `deposit`, `withdraw` and
unknown calldata are refused. -/
theorem C129_not_native (rt : Rt) (m : Bal.Meta) (cx : Ctx) (input : List Byte) (s : Bal.State) (hm : m.native = false)
    (h : Bal.actionOf input = .deposit ∨ Bal.actionOf input = .withdraw) :
    Bal.execute rt m cx input s = .error .revert := by
  unfold Bal.execute
  rcases h with h | h
  · rw [h]
    show Bal.deposit rt m cx s = _
    unfold Bal.deposit ensure
    rw [hm]; rfl
  · rw [h]
    show Bal.withdraw rt m cx s input = _
    unfold Bal.withdraw ensure
    rw [hm]; rfl

/-- **C136 (name).** The name under which an asset's permits are signed is the asset's name, or for an asset without one
`Unnamed XC20 #` and its number. -/
theorem C136_name (a : Ast.Asset) (id : Nat) :
    (a.name ≠ [] → Ast.permitName a id = a.name) ∧
    (a.name = [] → Ast.permitName a id = ascii "Unnamed XC20 #" ++ ascii (toString id)) :=
  ⟨fun h => if_neg h, fun h => if_pos h⟩

/-- **C137 (addresses).** The addresses with a precompile: the stateless ones 1 to 9 and 1024 to 1027, the native token at
2050, and every address that begins with four bytes `ff` and ends in the number of an existing asset. -/
theorem C137_is_precompile (s : Ast.State) (address : Nat) : Ast.isPrecompile s address = true ↔
    (1 ≤ address ∧ address ≤ 9) ∨ (1024 ≤ address ∧ address ≤ 1027) ∨ address = 2050 ∨
      (address / 256 ^ 16 = 0xffffffff ∧ ∃ a, s.assets (address % 256 ^ 4) = some a) := by
  have h1 : address ∈ Ast.usedAddresses ↔ (1 ≤ address ∧ address ≤ 9) ∨ (1024 ≤ address ∧ address ≤ 1027) ∨ address = 2050 := by
    unfold Ast.usedAddresses
    simp only [List.mem_cons, List.not_mem_nil, or_false]
    omega
  have h2 : Ast.isAsset s address = true ↔ address / 256 ^ 16 = 0xffffffff ∧ ∃ a, s.assets (address % 256 ^ 4) = some a := by
    unfold Ast.isAsset Ast.addressToAssetId
    by_cases hp : address / 256 ^ 16 = 0xffffffff
    · rw [if_pos hp]
      dsimp only
      rw [Option.isSome_iff_exists]
      exact ⟨fun h => ⟨hp, h⟩, fun h => h.2⟩
    · rw [if_neg hp]
      constructor
      · intro h
        cases h
      · exact fun h => (hp h.1).elim
  unfold Ast.isPrecompile
  rw [Bool.or_eq_true, decide_eq_true_iff, h1, h2]
  tauto

theorem ofBe_cons (b : Byte) (l : List Byte) : ofBe (b :: l) = b.val * 256 ^ l.length + ofBe l := by
  induction l using List.reverseRecOn with
  | nil => unfold ofBe; simp
  | append_singleton l c ih =>
    rw [← List.cons_append, ofBe_append, ih, ofBe_append, List.length_append, List.length_singleton, Nat.pow_succ]
    ring

/-- **C123 (refuted, how).** A `ByFork` network is read back as another one: one byte too many is written before the
number, so the number read is the byte 1 and the first seven bytes of the number written, and the hash is shifted too. -/
theorem C123_fork_misread (n : Nat) (h : List Byte) (hn : n < 256 ^ 8) (hh : h.length = 32) :
    networkFromBytes (networkToBytes (some (.byFork n h))) =
      .ok (some (.byFork (256 ^ 7 + n / 256) (⟨n % 256, Nat.mod_lt _ (by decide)⟩ :: h.take 31))) := by
  set b : Byte := ⟨n % 256, Nat.mod_lt _ (by decide)⟩ with hb
  have e : networkToBytes (some (.byFork n h)) =
      [4] ++ ((1 :: beBytes 7 (n / 256)) ++ ((b :: h.take 31) ++ h.drop 31)) := by
    show [4, 1] ++ (beBytes 7 (n / 256) ++ [b]) ++ h = _
    rw [List.cons_append (a := b), List.take_append_drop]
    simp
  have hs : ([4] ++ ((1 :: beBytes 7 (n / 256)) ++ ((b :: h.take 31) ++ h.drop 31)) : List Byte).length ≤ usizeMax := by
    refine le_trans (b := 42) ?_ (by decide)
    rw [List.cons_append (a := b), List.take_append_drop]
    simp [hh]
  rw [e]
  unfold networkFromBytes
  rw [ensure_of (by simp), ok_bind]
  have r0 : Reader.rawBytes (Reader.new ([4] ++ ((1 :: beBytes 7 (n / 256)) ++ ((b :: h.take 31) ++ h.drop 31)))) 1 =
      .ok ([4], ⟨[4] ++ ((1 :: beBytes 7 (n / 256)) ++ ((b :: h.take 31) ++ h.drop 31)), 1⟩) :=
    rawBytes_mid [] [4] ((1 :: beBytes 7 (n / 256)) ++ ((b :: h.take 31) ++ h.drop 31)) 1 rfl hs
  have r1 := rawBytes_mid [4] (1 :: beBytes 7 (n / 256)) ((b :: h.take 31) ++ h.drop 31) 8 (by simp) hs
  have r2 := rawBytes_mid ([4] ++ (1 :: beBytes 7 (n / 256))) (b :: h.take 31) (h.drop 31) 32 (by simp [hh])
    (by rw [List.append_assoc]; exact hs)
  rw [List.append_assoc] at r2
  rw [r0, ok_bind]
  show networkBody (ofBe [4]) _ = _
  rw [show ofBe [4] = 4 from rfl]
  have hl : ([4] ++ (1 :: beBytes 7 (n / 256)) : List Byte).length = 9 := by simp
  rw [hl] at r2
  have body : ∀ R : Reader, networkBody 4 R = (do
      let (n, r1) ← R.rawBytes 8
      let (h, _) ← r1.rawBytes 32
      pure (some (.byFork (ofBe n) h))) := fun _ => rfl
  rw [body, show Reader.rawBytes ⟨_, 1⟩ 8 = _ from r1, ok_bind]
  dsimp only
  rw [show Reader.rawBytes ⟨_, [(4 : Byte)].length + 8⟩ 32 = _ from r2, ok_bind]
  dsimp only
  have hv : ofBe (1 :: beBytes 7 (n / 256)) = 256 ^ 7 + n / 256 := by
    rw [ofBe_cons, beBytes_length, ofBe_beBytes 7 _ (by omega)]
    show 1 * 256 ^ 7 + n / 256 = _
    rw [Nat.one_mul]
  rw [hv]
  rfl

/-- Non-vacuity: block 5 with some hash. -/
example : (5 : Nat) < 256 ^ 8 ∧ (List.replicate 32 (7 : Byte)).length = 32 := ⟨by decide, rfl⟩

end Verif.Evm
