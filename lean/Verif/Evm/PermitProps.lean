import Verif.Evm.Erc20Lemmas

/-!
# What a permit signature binds (used by C128 and by the permits of asset tokens)
-/

namespace Verif.Evm

/-- The hash does not collide on the given byte strings. -/
def NoCollision (c : Crypto) (l : List (List Byte)) : Prop :=
  ∀ x ∈ l, ∀ y ∈ l, c.keccak x = c.keccak y → x = y

/-- The fields of a permit are in the range of their Solidity types. -/
def Permit.Fits (p : Permit) : Prop :=
  p.owner < 256 ^ 20 ∧ p.spender < 256 ^ 20 ∧ p.value < 256 ^ 32 ∧ p.nonce < 256 ^ 32 ∧ p.deadline < 256 ^ 32

/-- A token contract: chain, name, address. -/
structure Domain where
  rt : Rt
  name : List Byte
  address : Nat

/-- The chain id and the address are in range. -/
def Domain.Fits (d : Domain) : Prop := d.rt.chainId < 256 ^ 32 ∧ d.address < 256 ^ 20

/-- What is signed for a permit of a token contract. -/
def Domain.digest (d : Domain) (p : Permit) : Nat := generatePermit d.rt d.name d.address p

/-- All byte strings that are hashed on the way to a digest. -/
def Domain.hashed (d : Domain) (p : Permit) : List (List Byte) :=
  [d.name, domainBytes d.rt d.name d.address, contentBytes d.rt p, digestBytes d.rt d.name d.address p]

theorem beBytes_inj {k a b : Nat} (ha : a < 256 ^ k) (hb : b < 256 ^ k) (h : beBytes k a = beBytes k b) : a = b := by
  rw [← ofBe_beBytes k a ha, ← ofBe_beBytes k b hb, h]

theorem domainEnc_inj {a b c d e a' b' c' d' e' : Nat} (ha : a < 256 ^ 32) (hb : b < 256 ^ 32) (hc : c < 256 ^ 32)
    (hd : d < 256 ^ 32) (he : e < 256 ^ 20) (ha' : a' < 256 ^ 32) (hb' : b' < 256 ^ 32) (hc' : c' < 256 ^ 32)
    (hd' : d' < 256 ^ 32) (he' : e' < 256 ^ 20) (h : domainEnc a b c d e = domainEnc a' b' c' d' e') :
    b = b' ∧ d = d' ∧ e = e' := by
  have h1 := ((C121_writer_is_abi domainTys (a, b, c, d, e)).symm.trans h).trans
    (C121_writer_is_abi domainTys (a', b', c', d', e'))
  have := C121_injective domainTys (a, b, c, d, e) (a', b', c', d', e')
    ⟨⟨le_refl _, ha⟩, ⟨le_refl _, hb⟩, ⟨le_refl _, hc⟩, ⟨le_refl _, hd⟩, ⟨by decide, he⟩⟩
    ⟨⟨le_refl _, ha'⟩, ⟨le_refl _, hb'⟩, ⟨le_refl _, hc'⟩, ⟨le_refl _, hd'⟩, ⟨by decide, he'⟩⟩ ?_ h1
  · injection this with _ this
    injection this with h1 this
    injection this with _ this
    injection this with h2 h3
    exact ⟨h1, h2, h3⟩
  · show (Abi.seq [⟨true, Abi.encUint 32 a⟩, ⟨true, Abi.encUint 32 b⟩, ⟨true, Abi.encUint 32 c⟩, ⟨true, Abi.encUint 32 d⟩,
      ⟨true, Abi.encUint 20 e⟩]).length ≤ _
    simp only [Abi.seq, Abi.seqFrom, if_true, List.append_nil, List.length_append, Abi.encUint, List.length_replicate,
      beBytes_length]
    decide

theorem permitEnc_inj {a b c d e f a' b' c' d' e' f' : Nat} (ha : a < 256 ^ 32) (hb : b < 256 ^ 20) (hc : c < 256 ^ 20)
    (hd : d < 256 ^ 32) (he : e < 256 ^ 32) (hf : f < 256 ^ 32) (ha' : a' < 256 ^ 32) (hb' : b' < 256 ^ 20)
    (hc' : c' < 256 ^ 20) (hd' : d' < 256 ^ 32) (he' : e' < 256 ^ 32) (hf' : f' < 256 ^ 32)
    (h : permitEnc a b c d e f = permitEnc a' b' c' d' e' f') :
    b = b' ∧ c = c' ∧ d = d' ∧ e = e' ∧ f = f' := by
  have h1 := ((C121_writer_is_abi permitTys (a, b, c, d, e, f)).symm.trans h).trans
    (C121_writer_is_abi permitTys (a', b', c', d', e', f'))
  have := C121_injective permitTys (a, b, c, d, e, f) (a', b', c', d', e', f')
    ⟨⟨le_refl _, ha⟩, ⟨by decide, hb⟩, ⟨by decide, hc⟩, ⟨le_refl _, hd⟩, ⟨le_refl _, he⟩, ⟨le_refl _, hf⟩⟩
    ⟨⟨le_refl _, ha'⟩, ⟨by decide, hb'⟩, ⟨by decide, hc'⟩, ⟨le_refl _, hd'⟩, ⟨le_refl _, he'⟩, ⟨le_refl _, hf'⟩⟩ ?_ h1
  · injection this with _ this
    injection this with h1 this
    injection this with h2 this
    injection this with h3 this
    injection this with h4 h5
    exact ⟨h1, h2, h3, h4, h5⟩
  · show (Abi.seq [⟨true, Abi.encUint 32 a⟩, ⟨true, Abi.encUint 20 b⟩, ⟨true, Abi.encUint 20 c⟩, ⟨true, Abi.encUint 32 d⟩,
      ⟨true, Abi.encUint 32 e⟩, ⟨true, Abi.encUint 32 f⟩]).length ≤ _
    simp only [Abi.seq, Abi.seqFrom, if_true, List.append_nil, List.length_append, Abi.encUint, List.length_replicate,
      beBytes_length]
    decide

theorem domainBytes_inj {d d' : Domain} (hc : d'.rt.crypto = d.rt.crypto) (hf : d.Fits) (hf' : d'.Fits)
    (h : domainBytes d.rt d.name d.address = domainBytes d'.rt d'.name d'.address) :
    d.rt.crypto.keccak d.name = d.rt.crypto.keccak d'.name ∧ d.rt.chainId = d'.rt.chainId ∧ d.address = d'.address := by
  have k := d.rt.crypto.keccak_lt
  unfold domainBytes at h
  rw [hc] at h
  exact domainEnc_inj (k _) (k _) (k _) hf.1 hf.2 (k _) (k _) (k _) hf'.1 hf'.2 h

theorem contentBytes_inj {d d' : Domain} {p p' : Permit} (hc : d'.rt.crypto = d.rt.crypto) (hf : p.Fits) (hf' : p'.Fits)
    (h : contentBytes d.rt p = contentBytes d'.rt p') : p = p' := by
  have k := d.rt.crypto.keccak_lt
  unfold contentBytes at h
  rw [hc] at h
  obtain ⟨f1, f2, f3, f4, f5⟩ := hf
  obtain ⟨g1, g2, g3, g4, g5⟩ := hf'
  obtain ⟨h1, h2, h3, h4, h5⟩ := permitEnc_inj (k _) f1 f2 f3 f4 f5 (k _) g1 g2 g3 g4 g5 h
  cases p
  cases p'
  dsimp only at h1 h2 h3 h4 h5
  rw [h1, h2, h3, h4, h5]

/-- **C128 (binding).** A signature over a permit says exactly one thing: two permits with the same signed digest are for
the same owner, spender, value, nonce and deadline, on the same chain, for the token contract with the same address and
name, unless the hash collides on one of the (explicitly given) strings that are hashed. -/
theorem C128_digest_binds (d d' : Domain) (p p' : Permit) (hc : d'.rt.crypto = d.rt.crypto)
    (hd : d.Fits) (hd' : d'.Fits) (hp : p.Fits) (hp' : p'.Fits)
    (hn : NoCollision d.rt.crypto (d.hashed p ++ d'.hashed p')) (h : d.digest p = d'.digest p') :
    p = p' ∧ d.rt.chainId = d'.rt.chainId ∧ d.address = d'.address ∧ d.name = d'.name := by
  have k := d.rt.crypto.keccak_lt
  have m : ∀ x, x ∈ d.hashed p → x ∈ d.hashed p ++ d'.hashed p' := fun x hx => List.mem_append_left _ hx
  have m' : ∀ x, x ∈ d'.hashed p' → x ∈ d.hashed p ++ d'.hashed p' := fun x hx => List.mem_append_right _ hx
  unfold Domain.digest generatePermit at h
  rw [hc] at h
  have e := hn _ (m _ (by simp [Domain.hashed])) _ (m' _ (by simp [Domain.hashed])) h
  unfold digestBytes at e
  rw [hc] at e
  obtain ⟨e1, e2⟩ := List.append_inj e (by simp only [List.length_append, beBytes_length])
  obtain ⟨_, e3⟩ := List.append_inj e1 rfl
  have k1 : domainSeparator d.rt d.name d.address < 256 ^ 32 := k _
  have k2 : domainSeparator d'.rt d'.name d'.address < 256 ^ 32 := d'.rt.crypto.keccak_lt _
  have e4 := beBytes_inj k1 k2 e3
  have e5 := beBytes_inj (k _) (k _) e2
  unfold domainSeparator at e4
  rw [hc] at e4
  have e6 := hn _ (m _ (by simp [Domain.hashed])) _ (m' _ (by simp [Domain.hashed])) e4
  have e7 := hn _ (m _ (by simp [Domain.hashed])) _ (m' _ (by simp [Domain.hashed])) e5
  obtain ⟨h1, h2, h3⟩ := domainBytes_inj hc hd hd' e6
  exact ⟨contentBytes_inj hc hp hp' e7, h2, h3,
    hn _ (m _ (by simp [Domain.hashed])) _ (m' _ (by simp [Domain.hashed])) h1⟩

theorem encUint_word {k n : Nat} (hk : k ≤ 32) (h : n < 256 ^ k) : Abi.encUint k n = beBytes 32 n := by
  have e : ofBe (Abi.encUint k n) = n := by
    unfold Abi.encUint
    rw [ofBe_zeros, ofBe_beBytes k n h]
  have l : (Abi.encUint k n).length = 32 := by
    simp only [Abi.encUint, List.length_append, List.length_replicate, beBytes_length]; omega
  have := beBytes_ofBe (Abi.encUint k n)
  rw [l, e] at this
  exact this.symm

theorem domainEnc_words {a b c d e : Nat} (ha : a < 256 ^ 32) (hb : b < 256 ^ 32) (hc : c < 256 ^ 32)
    (hd : d < 256 ^ 32) (he : e < 256 ^ 20) :
    domainEnc a b c d e = beBytes 32 a ++ beBytes 32 b ++ beBytes 32 c ++ beBytes 32 d ++ beBytes 32 e := by
  have h1 := C121_writer_is_abi domainTys (a, b, c, d, e)
  rw [← encUint_word (le_refl 32) ha, ← encUint_word (le_refl 32) hb, ← encUint_word (le_refl 32) hc,
    ← encUint_word (le_refl 32) hd, ← encUint_word (by decide : 20 ≤ 32) he]
  refine h1.trans ?_
  show (Abi.seq [⟨true, Abi.encUint 32 a⟩, ⟨true, Abi.encUint 32 b⟩, ⟨true, Abi.encUint 32 c⟩, ⟨true, Abi.encUint 32 d⟩,
      ⟨true, Abi.encUint 20 e⟩]) = _
  simp only [Abi.seq, Abi.seqFrom, if_true, List.append_nil, List.append_assoc]

theorem permitEnc_words {a b c d e f : Nat} (ha : a < 256 ^ 32) (hb : b < 256 ^ 20) (hc : c < 256 ^ 20)
    (hd : d < 256 ^ 32) (he : e < 256 ^ 32) (hf : f < 256 ^ 32) :
    permitEnc a b c d e f =
      beBytes 32 a ++ beBytes 32 b ++ beBytes 32 c ++ beBytes 32 d ++ beBytes 32 e ++ beBytes 32 f := by
  have h1 := C121_writer_is_abi permitTys (a, b, c, d, e, f)
  rw [← encUint_word (le_refl 32) ha, ← encUint_word (by decide : 20 ≤ 32) hb, ← encUint_word (by decide : 20 ≤ 32) hc,
    ← encUint_word (le_refl 32) hd, ← encUint_word (le_refl 32) he, ← encUint_word (le_refl 32) hf]
  refine h1.trans ?_
  show (Abi.seq [⟨true, Abi.encUint 32 a⟩, ⟨true, Abi.encUint 20 b⟩, ⟨true, Abi.encUint 20 c⟩, ⟨true, Abi.encUint 32 d⟩,
      ⟨true, Abi.encUint 32 e⟩, ⟨true, Abi.encUint 32 f⟩]) = _
  simp only [Abi.seq, Abi.seqFrom, if_true, List.append_nil, List.append_assoc]

/-! ### EIP-712 conformance -/

/-- `domainSeparator = keccak256(abi.encode(typeHash(EIP712Domain), keccak256(name), keccak256(version), chainId,
verifyingContract))`, each value one 32 byte big-endian word, from EIP-712 and EIP-2612; the version is "1". -/
def eip712Separator (keccak : List Byte → Nat) (name : List Byte) (chainId contract : Nat) : Nat :=
  keccak (beBytes 32 (keccak (ascii
      "EIP712Domain(string name,string version,uint256 chainId,address verifyingContract)")) ++
    beBytes 32 (keccak name) ++ beBytes 32 (keccak (ascii "1")) ++ beBytes 32 chainId ++ beBytes 32 contract)

/-- `keccak256("\x19\x01" ‖ domainSeparator ‖ hashStruct(Permit))` from EIP-712 and EIP-2612. -/
def eip712Digest (keccak : List Byte → Nat) (name : List Byte) (chainId contract owner spender value nonce deadline : Nat) :
    Nat :=
  keccak ([0x19, 0x01] ++ beBytes 32 (eip712Separator keccak name chainId contract) ++
    beBytes 32 (keccak (beBytes 32 (keccak (ascii
        "Permit(address owner,address spender,uint256 value,uint256 nonce,uint256 deadline)")) ++
      beBytes 32 owner ++ beBytes 32 spender ++ beBytes 32 value ++ beBytes 32 nonce ++ beBytes 32 deadline)))

/-- **C128 (standard).** What an owner has to sign is exactly the EIP-712 digest of an EIP-2612 permit, so any standard
wallet can produce it. -/
theorem C128_eip712 (d : Domain) (p : Permit) (hd : d.Fits) (hp : p.Fits) :
    d.digest p = eip712Digest d.rt.crypto.keccak d.name d.rt.chainId d.address p.owner p.spender p.value p.nonce
      p.deadline := by
  have k := d.rt.crypto.keccak_lt
  obtain ⟨p1, p2, p3, p4, p5⟩ := hp
  unfold Domain.digest generatePermit digestBytes domainSeparator domainBytes contentBytes permitDomain permitTypehash
  rw [domainEnc_words (k _) (k _) (k _) hd.1 hd.2, permitEnc_words (k _) p1 p2 p3 p4 p5]
  rfl

/-- The hypotheses are met, for instance, on chain 2012 for the contract at address 2050 and a permit for 1000 units. -/
example (c : Crypto) : (⟨⟨id, 2012, 1, 9, c, fun _ => true⟩, ascii "Parallel", 2050⟩ : Domain).Fits ∧
    (⟨2, 5, 1000, 0, 9⟩ : Permit).Fits := by
  constructor
  · exact ⟨by show 2012 < 256 ^ 32; decide, by show 2050 < 256 ^ 20; decide⟩
  · exact ⟨by decide, by decide, by decide, by decide, by decide⟩

/-- The calldata of `permit(owner, spender, value, deadline, v, r, s)`. -/
def permitCall (owner spender value deadline v r sg : Nat) : List Byte :=
  callOf 0xd505accf [(20, owner), (20, spender), (32, value), (32, deadline), (1, v), (32, r), (32, sg)]

/-- The arguments are in range, and the calldata fits the address space. -/
structure PermitArgs (owner spender value deadline v r sg : Nat) (tail : List Byte) : Prop where
  hOwner : owner < 256 ^ 20
  hSpender : spender < 256 ^ 20
  hValue : value < 256 ^ 32
  hDeadline : deadline < 256 ^ 32
  hV : v < 256 ^ 1
  hR : r < 256 ^ 32
  hSg : sg < 256 ^ 32
  hSize : Sized (permitCall owner spender value deadline v r sg ++ tail)

/-- The call of the example: the owner's key is `[1]`, its address 2, the signature `(7, 8, 27)`. -/
theorem exPermitArgs : PermitArgs 2 5 1000 9 27 7 8 [] where
  hOwner := by decide
  hSpender := by decide
  hValue := by decide
  hDeadline := by decide
  hV := by decide
  hR := by decide
  hSg := by decide
  hSize := by
    unfold Sized permitCall callOf
    rw [List.append_nil, List.length_append, beBytes_length]
    simp only [List.flatMap_cons, List.flatMap_nil, List.length_append, List.length_nil, Abi.encUint,
      List.length_replicate, beBytes_length]
    decide

end Verif.Evm
