import Mathlib.Tactic.Ring
import Mathlib.Tactic.Linarith

/-!
# Account addresses the runtimes derive

An `AccountId32` is 32 bytes.  Here it is the number these bytes spell, the first byte being the least significant one
(the model's accounts are numbers everywhere), so trailing zero bytes need not be written.
-/

namespace Verif.Accounts

/-- The number a list of bytes spells, least significant byte first. -/
def ofBytes : List Nat → Nat
  | [] => 0
  | b :: bs => b + 256 * ofBytes bs

/-- A list of bytes. -/
def Bytes (l : List Nat) : Prop := ∀ b ∈ l, b < 256

/-- `u32::encode` of SCALE: four bytes, least significant first (larger numbers are cut off). -/
def le32 (n : Nat) : List Nat := [n % 256, n / 256 % 256, n / 65536 % 256, n / 16777216 % 256]

/-- `PalletId(id).into_account_truncating()`: `"modl"`, the 8 bytes of the id, and zeros
(`TypeId` of `PalletId` is `*b"modl"`; used by every `account_id()`, e.g. pallets/amm/src/lib.rs:476-478). -/
def pallet (id : List Nat) : Nat := ofBytes ([109, 111, 100, 108] ++ id)

/-- `Sibling(p).into_account_truncating()`: `"sibl"`, the parachain id, and zeros
(`SiblingParachainConvertsVia<Sibling, AccountId>`, runtime/parallel/src/lib.rs:1164-1171). -/
def sibling (p : Nat) : Nat := ofBytes ([115, 105, 98, 108] ++ le32 p)

/-- `ParaId(p).into_account_truncating()`: `"para"`, the parachain id, and zeros: a parachain's account on the relay
chain (`para_account_id`, pallets/crowdloans/src/lib.rs:1233-1235). -/
def para (p : Nat) : Nat := ofBytes ([112, 97, 114, 97] ++ le32 p)

/-- `ParentIsPreset`: `"Parent"` and zeros, runtime/parallel/src/lib.rs:1166. -/
def parent : Nat := ofBytes [80, 97, 114, 101, 110, 116]

/-- `OneAccount`: `[1u8; 32]`, runtime/parallel/src/lib.rs:1364. -/
def one : Nat := ofBytes (List.replicate 32 1)

/-! ### Lemmas -/

theorem ofBytes_append (a b : List Nat) : ofBytes (a ++ b) = ofBytes a + 256 ^ a.length * ofBytes b := by
  induction a with
  | nil => simp [ofBytes]
  | cons x xs ih => simp only [List.cons_append, ofBytes, ih, List.length_cons]; ring

theorem ofBytes_lt {l : List Nat} (h : Bytes l) : ofBytes l < 256 ^ l.length := by
  induction l with
  | nil => simp [ofBytes]
  | cons x xs ih =>
    have h1 := ih (fun b hb => h b (by simp [hb]))
    have h2 := h x (by simp)
    simp only [ofBytes, List.length_cons, pow_succ]
    omega

theorem ofBytes_inj : ∀ {a b : List Nat}, Bytes a → Bytes b → a.length = b.length → ofBytes a = ofBytes b → a = b
  | [], [], _, _, _, _ => rfl
  | [], _ :: _, _, _, h, _ => by simp at h
  | _ :: _, [], _, _, h, _ => by simp at h
  | x :: xs, y :: ys, ha, hb, hl, h => by
    have h1 := ha x (by simp)
    have h2 := hb y (by simp)
    simp only [ofBytes] at h
    have h3 : x = y := by omega
    have h4 : ofBytes xs = ofBytes ys := by omega
    rw [h3, ofBytes_inj (fun b hb' => ha b (by simp [hb'])) (fun c hc => hb c (by simp [hc])) (by simpa using hl) h4]

theorem le32_bytes (n : Nat) : Bytes (le32 n) := by
  intro b hb
  simp only [le32, List.mem_cons, List.not_mem_nil, or_false] at hb
  omega

theorem ofBytes_le32 {n : Nat} (h : n < 2 ^ 32) : ofBytes (le32 n) = n := by
  simp only [le32, ofBytes]
  omega

/-- The first four bytes. -/
theorem ofBytes_mod (a b c d : Nat) (l : List Nat) (ha : a < 256) (hb : b < 256) (hc : c < 256) (hd : d < 256) :
    ofBytes ([a, b, c, d] ++ l) % 2 ^ 32 = a + 256 * b + 65536 * c + 16777216 * d := by
  simp only [List.cons_append, List.nil_append, ofBytes]
  omega

theorem pallet_mod (id : List Nat) : pallet id % 2 ^ 32 = 1818521453 := by
  unfold pallet
  rw [ofBytes_mod _ _ _ _ _ (by decide) (by decide) (by decide) (by decide)]

theorem sibling_mod (p : Nat) : sibling p % 2 ^ 32 = 1818388851 := by
  unfold sibling
  rw [ofBytes_mod _ _ _ _ _ (by decide) (by decide) (by decide) (by decide)]

theorem para_mod (p : Nat) : para p % 2 ^ 32 = 1634886000 := by
  unfold para
  rw [ofBytes_mod _ _ _ _ _ (by decide) (by decide) (by decide) (by decide)]

theorem parent_mod : parent % 2 ^ 32 = 1701994832 := by decide +kernel
theorem one_mod : one % 2 ^ 32 = 16843009 := by decide +kernel

/-! ### Theorems -/

/-- **C197.** Pallets with different ids have different accounts. -/
theorem C197_pallets {a b : List Nat} (ha : Bytes a) (hb : Bytes b) (hl : a.length = b.length)
    (h : pallet a = pallet b) : a = b := by
  unfold pallet at h
  rw [ofBytes_append, ofBytes_append] at h
  refine ofBytes_inj ha hb hl ?_
  simp only [List.length_cons, List.length_nil] at h
  omega

/-- **C197.** Different parachains have different sovereign accounts, here and on the relay chain. -/
theorem C197_siblings {p q : Nat} (hp : p < 2 ^ 32) (hq : q < 2 ^ 32) :
    (sibling p = sibling q → p = q) ∧ (para p = para q → p = q) := by
  unfold sibling para
  rw [ofBytes_append, ofBytes_append, ofBytes_append, ofBytes_append, ofBytes_le32 hp, ofBytes_le32 hq]
  simp only [List.length_cons, List.length_nil]
  omega

/-- **C197.** The account of a pallet, the sovereign account of a parachain, the relay chain's account and the account
nobody has the key of are different from each other, whatever the ids are. -/
theorem C197_apart (id : List Nat) (p : Nat) :
    pallet id ≠ sibling p ∧ pallet id ≠ parent ∧ pallet id ≠ one ∧ sibling p ≠ parent ∧ sibling p ≠ one ∧
      parent ≠ one := by
  have h1 := pallet_mod id
  have h2 := sibling_mod p
  have h3 := parent_mod
  have h4 := one_mod
  generalize pallet id = a at *
  generalize sibling p = b at *
  generalize parent = d at *
  generalize one = e at *
  refine ⟨?_, ?_, ?_, ?_, ?_, ?_⟩ <;> (rintro rfl; omega)

theorem lt_of_bytes {l : List Nat} (h : Bytes l) (hl : l.length ≤ 32) : ofBytes l < 2 ^ 256 := by
  have h1 := ofBytes_lt h
  have h2 : (256 : Nat) ^ l.length ≤ 256 ^ 32 := Nat.pow_le_pow_right (by decide) hl
  have h3 : (256 : Nat) ^ 32 = 2 ^ 256 := by decide
  omega

/-- **C197.** All of them are addresses of 32 bytes. -/
theorem C197_size {id : List Nat} (h : Bytes id) (hl : id.length = 8) (p : Nat) :
    pallet id < 2 ^ 256 ∧ sibling p < 2 ^ 256 ∧ para p < 2 ^ 256 ∧ parent < 2 ^ 256 ∧ one < 2 ^ 256 := by
  have hb : ∀ {a b : List Nat}, Bytes a → Bytes b → Bytes (a ++ b) := fun ha hb x hx =>
    (List.mem_append.1 hx).elim (ha x) (hb x)
  refine ⟨lt_of_bytes (hb (by unfold Bytes; decide) h) (by simp [hl]),
    lt_of_bytes (hb (by unfold Bytes; decide) (le32_bytes p)) (by simp [le32]),
    lt_of_bytes (hb (by unfold Bytes; decide) (le32_bytes p)) (by simp [le32]),
    lt_of_bytes (by unfold Bytes; decide) (by decide), lt_of_bytes (by unfold Bytes; decide) (by decide)⟩

/-- `b"par/loan"` and `b"par/ammp"`, parachain 2012. -/
example : pallet [112, 97, 114, 47, 108, 111, 97, 110] ≠ pallet [112, 97, 114, 47, 97, 109, 109, 112] := by
  decide +kernel
example : sibling 2012 = 115 + 256 * (105 + 256 * (98 + 256 * (108 + 256 * 2012))) := by decide +kernel

end Verif.Accounts
