import Verif.Helper.Model

/-!
# C165: the bytes of relay-chain calls are unambiguous
-/

namespace Verif.Helper
open Verif

theorem le_length (n v : Nat) : (le n v).length = n := by
  induction n generalizing v with
  | zero => rfl
  | succ n ih => simp [le, ih]

theorem le_inj {n v w : Nat} (hv : v < 256 ^ n) (hw : w < 256 ^ n) (e : le n v = le n w) : v = w := by
  induction n generalizing v w with
  | zero =>
    rw [Nat.pow_zero] at hv hw
    omega
  | succ n ih =>
    simp only [le, List.cons.injEq] at e
    have := ih (v := v / 256) (w := w / 256) (by rw [Nat.pow_succ] at hv; omega) (by rw [Nat.pow_succ] at hw; omega) e.2
    omega

/-- `f` writes values in `P` so that a reader knows where they end and what they are. -/
def Readable {α : Type} (P : α → Prop) (f : α → List Nat) : Prop :=
  ∀ a b x y, P a → P b → f a ++ x = f b ++ y → a = b ∧ x = y

theorem readable_le (n : Nat) : Readable (fun v => v < 256 ^ n) (le n) := by
  intro a b x y ha hb e
  obtain ⟨e1, e2⟩ := List.append_inj e (by rw [le_length, le_length])
  exact ⟨le_inj ha hb e1, e2⟩

theorem byteLen_spec {v : Nat} (h : 0 < v) : v < 256 ^ byteLen v ∧ 256 ^ (byteLen v - 1) ≤ v := by
  have hl := Nat.lt_log2_self (n := v)
  have hs := Nat.log2_self_le (n := v) (by omega)
  have e : ∀ n, (256 : Nat) ^ n = 2 ^ (8 * n) := fun n => by rw [Nat.pow_mul]
  unfold byteLen
  rw [e, e]
  constructor
  · exact Nat.lt_of_lt_of_le hl (Nat.pow_le_pow_right (by omega) (by omega))
  · exact Nat.le_trans (Nat.pow_le_pow_right (by omega) (by omega)) hs

theorem byteLen_le {v : Nat} (h : v ≤ maxU128) : byteLen v ≤ 16 := by
  unfold byteLen
  have : Nat.log2 v < 128 := by
    by_cases h0 : v = 0
    · subst h0
      decide
    · rw [Nat.log2_lt h0]
      unfold maxU128 at h
      omega
  omega

theorem byteLen_ge {v : Nat} (h : 2 ^ 30 ≤ v) : 4 ≤ byteLen v := by
  unfold byteLen
  have : 30 ≤ Nat.log2 v := (Nat.le_log2 (by omega)).2 h
  omega

/-- First byte and length of a compact number. -/
theorem compact_head (v : Nat) : ∃ b t, compact v = b :: t ∧
    ((v < 64 ∧ b = 4 * v ∧ t = []) ∨
     (64 ≤ v ∧ v < 2 ^ 14 ∧ b % 4 = 1 ∧ compact v = le 2 (4 * v + 1)) ∨
     (2 ^ 14 ≤ v ∧ v < 2 ^ 30 ∧ b % 4 = 2 ∧ compact v = le 4 (4 * v + 2)) ∨
     (2 ^ 30 ≤ v ∧ b = 4 * (byteLen v - 4) + 3 ∧ t = le (byteLen v) v)) := by
  unfold compact
  by_cases h1 : v < 64
  · rw [if_pos h1]
    refine ⟨4 * v, [], ?_, Or.inl ⟨h1, rfl, rfl⟩⟩
    simp only [le]
    rw [Nat.mod_eq_of_lt (by omega)]
  · rw [if_neg h1]
    by_cases h2 : v < 2 ^ 14
    · rw [if_pos h2]
      exact ⟨(4 * v + 1) % 256, _, rfl, Or.inr (Or.inl ⟨by omega, h2, by omega, rfl⟩)⟩
    · rw [if_neg h2]
      by_cases h3 : v < 2 ^ 30
      · rw [if_pos h3]
        exact ⟨(4 * v + 2) % 256, _, rfl, Or.inr (Or.inr (Or.inl ⟨by omega, h3, by omega, rfl⟩))⟩
      · rw [if_neg h3]
        exact ⟨_, _, rfl, Or.inr (Or.inr (Or.inr ⟨by omega, rfl, rfl⟩))⟩

theorem readable_compact : Readable (fun v => v ≤ maxU128) compact := by
  intro a b x y ha hb e
  obtain ⟨p, t, ea, ca⟩ := compact_head a
  obtain ⟨q, u, eb, cb⟩ := compact_head b
  have hpq : p = q := by
    rw [ea, eb] at e
    exact (List.cons.inj e).1
  have htl : t ++ x = u ++ y := by
    rw [ea, eb] at e
    exact (List.cons.inj e).2
  rcases ca with ⟨a1, a2, a3⟩ | ⟨a1, a2, a3, a4⟩ | ⟨a1, a2, a3, a4⟩ | ⟨a1, a2, a3⟩ <;>
    rcases cb with ⟨b1, b2, b3⟩ | ⟨b1, b2, b3, b4⟩ | ⟨b1, b2, b3, b4⟩ | ⟨b1, b2, b3⟩
  all_goals first
    | (exfalso; omega)
    | skip
  · subst a3 b3
    exact ⟨by omega, by simpa using htl⟩
  · rw [a4, b4] at e
    obtain ⟨e1, e2⟩ := readable_le 2 _ _ _ _ (show 4 * a + 1 < 256 ^ 2 by omega) (show 4 * b + 1 < 256 ^ 2 by omega) e
    exact ⟨by omega, e2⟩
  · rw [a4, b4] at e
    obtain ⟨e1, e2⟩ := readable_le 4 _ _ _ _ (show 4 * a + 2 < 256 ^ 4 by omega) (show 4 * b + 2 < 256 ^ 4 by omega) e
    exact ⟨by omega, e2⟩
  · have ga := byteLen_ge a1
    have gb := byteLen_ge b1
    have hlen : byteLen a = byteLen b := by omega
    rw [a3, b3, hlen] at htl
    exact readable_le (byteLen b) _ _ _ _ (hlen ▸ (byteLen_spec (by omega)).1) (byteLen_spec (by omega)).1 htl

theorem readable_acct : Readable (fun v => v < 2 ^ 256) acct := by
  intro a b x y ha hb e
  refine readable_le 32 a b x y ?_ ?_ e
  · exact Nat.lt_of_lt_of_eq ha (by norm_num)
  · exact Nat.lt_of_lt_of_eq hb (by norm_num)

theorem readable_source : Readable (fun v => v < 2 ^ 256) source := by
  intro a b x y ha hb e
  exact readable_acct a b x y ha hb (List.cons.inj e).2

theorem readable_items {P : Nat → Prop} {f : Nat → List Nat} (hf : Readable P f) (as : List Nat) :
    ∀ (bs x y : List Nat), as.length = bs.length → (∀ a ∈ as, P a) → (∀ b ∈ bs, P b) →
      items f as ++ x = items f bs ++ y → as = bs ∧ x = y := by
  induction as with
  | nil =>
    intro bs x y hl _ _ e
    cases bs with
    | nil => exact ⟨rfl, e⟩
    | cons b bs => simp at hl
  | cons a as ih =>
    intro bs x y hl ha hb e
    cases bs with
    | nil => simp at hl
    | cons b bs =>
      simp only [items, List.append_assoc] at e
      obtain ⟨e1, e2⟩ := hf a b _ _ (ha a (by simp)) (hb b (by simp)) e
      obtain ⟨e3, e4⟩ := ih bs x y (by simpa using hl) (fun c hc => ha c (by simp [hc])) (fun c hc => hb c (by simp [hc])) e2
      exact ⟨by rw [e1, e3], e4⟩

/-- `Vec`: length and elements. -/
theorem readable_vec {P : Nat → Prop} {f : Nat → List Nat} (hf : Readable P f) :
    Readable (fun l : List Nat => l.length ≤ maxU32 ∧ ∀ a ∈ l, P a) (fun l => compact l.length ++ items f l) := by
  intro a b x y ha hb e
  simp only [List.append_assoc] at e
  have hm : maxU32 ≤ maxU128 := by decide
  obtain ⟨e1, e2⟩ := readable_compact _ _ _ _ (Nat.le_trans ha.1 hm) (Nat.le_trans hb.1 hm) e
  exact readable_items hf a b x y e1 ha.2 hb.2 e2

theorem readable_payee : Readable (fun p : Payee => ∀ a, p = .account a → a < 2 ^ 256) Payee.enc := by
  intro a b x y ha hb e
  cases a with
  | account a =>
    cases b with
    | account b =>
      obtain ⟨e1, e2⟩ := readable_acct a b x y (ha a rfl) (hb b rfl) (List.cons.inj e).2
      exact ⟨by rw [e1], e2⟩
    | _ => exact absurd (List.cons.inj e).1 (by decide)
  | _ =>
    cases b with
    | account b => exact absurd (List.cons.inj e).1 (by decide)
    | _ => first
      | exact ⟨rfl, (List.cons.inj e).2⟩
      | exact absurd (List.cons.inj e).1 (by decide)

theorem readable_optType : Readable (fun _ : Option PType => True) optType := by
  intro a b x y _ _ e
  cases a with
  | none =>
    cases b with
    | none => exact ⟨rfl, (List.cons.inj e).2⟩
    | some b => exact absurd (List.cons.inj e).1 (by decide)
  | some a =>
    cases b with
    | none => exact absurd (List.cons.inj e).1 (by decide)
    | some b =>
      have e1 := List.cons.inj (List.cons.inj e).2
      exact ⟨by revert e1; cases a <;> cases b <;> simp [PType.num], e1.2⟩

/-- The first two bytes are the tag. -/
theorem enc_tag (n : Net) (c : RCall) : ∃ t, c.enc n = (c.tag n).1 :: (c.tag n).2 :: t := by
  cases c <;> exact ⟨_, rfl⟩

theorem tag_eq {n : Net} {a b : RCall} {x y : List Nat} (e : a.enc n ++ x = b.enc n ++ y) : a.tag n = b.tag n := by
  obtain ⟨t, ha⟩ := enc_tag n a
  obtain ⟨u, hb⟩ := enc_tag n b
  rw [ha, hb] at e
  have h1 := List.cons.inj e
  have h2 := List.cons.inj h1.2
  exact Prod.ext h1.1 h2.1

/-- Calls of different kinds have different tags. -/
theorem tag_ne {n : Net} {a b : RCall} {x y : List Nat} (h : a.tag n ≠ b.tag n) : a.enc n ++ x ≠ b.enc n ++ y :=
  fun e => h (tag_eq e)

/-- Strip the tags. -/
theorem strip {p q p' q' : Nat} {s t x y : List Nat} (e : (p :: q :: s) ++ x = (p' :: q' :: t) ++ y) : s ++ x = t ++ y :=
  (List.cons.inj (List.cons.inj e).2).2

theorem readable_le1 : Readable (fun v => v < 256) (le 1) := readable_le 1

theorem u32_le {v : Nat} (h : v ≤ maxU32) : v < 256 ^ 4 := by
  unfold maxU32 at h
  omega

theorem u32_u128 {v : Nat} (h : v ≤ maxU32) : v ≤ maxU128 := Nat.le_trans h (by decide)

theorem u16_le {v : Nat} (h : v < 65536) : v < 256 ^ 2 := by omega

theorem bool_inj {a b : Bool} (h : a.toNat = b.toNat) : a = b := by
  revert h
  cases a <;> cases b <;> simp

mutual
/-- The encoding of a call determines the call and where it ends. -/
theorem enc_readable (n : Net) : ∀ (a b : RCall) (x y : List Nat), a.Valid → b.Valid →
    a.enc n ++ x = b.enc n ++ y → a = b ∧ x = y := by
  intro a b x y ha hb e
  have ht := tag_eq e
  match a, ha with
  | .remark l, ha =>
    cases b with
    | remark m =>
      simp only [RCall.Valid] at ha hb
      simp only [RCall.enc] at e
      have e0 := strip e
      obtain ⟨f1, e1⟩ := readable_vec readable_le1 _ _ _ _ ha hb e0
      exact ⟨by rw [f1], e1⟩
    | _ => cases n <;> simp [RCall.tag, balancesIdx, stakingIdx, utilityIdx, proxyIdx, crowdloansIdx] at ht
  | .transferKeepAlive d v, ha =>
    cases b with
    | transferKeepAlive d' v' =>
      simp only [RCall.Valid] at ha hb
      simp only [RCall.enc] at e
      have e0 := strip e
      simp only [List.append_assoc] at e0
      obtain ⟨f1, e1⟩ := readable_source _ _ _ _ (ha.1) (hb.1) e0
      obtain ⟨f2, e2⟩ := readable_compact _ _ _ _ (ha.2) (hb.2) e1
      exact ⟨by rw [f1, f2], e2⟩
    | _ => cases n <;> simp [RCall.tag, balancesIdx, stakingIdx, utilityIdx, proxyIdx, crowdloansIdx] at ht
  | .transferAll d k, ha =>
    cases b with
    | transferAll d' k' =>
      simp only [RCall.Valid] at ha hb
      simp only [RCall.enc] at e
      have e0 := strip e
      simp only [List.append_assoc] at e0
      obtain ⟨f1, e1⟩ := readable_source _ _ _ _ (ha) (hb) e0
      obtain ⟨f2, e2⟩ := readable_le1 _ _ _ _ (by cases k <;> decide) (by cases k' <;> decide) e1
      exact ⟨by rw [f1, bool_inj f2], e2⟩
    | _ => cases n <;> simp [RCall.tag, balancesIdx, stakingIdx, utilityIdx, proxyIdx, crowdloansIdx] at ht
  | .bond c v p, ha =>
    cases b with
    | bond c' v' p' =>
      simp only [RCall.Valid] at ha hb
      simp only [RCall.enc] at e
      have e0 := strip e
      simp only [List.append_assoc] at e0
      obtain ⟨f1, e1⟩ := readable_source _ _ _ _ (ha.1) (hb.1) e0
      obtain ⟨f2, e2⟩ := readable_compact _ _ _ _ (ha.2.1) (hb.2.1) e1
      obtain ⟨f3, e3⟩ := readable_payee _ _ _ _ ha.2.2 hb.2.2 e2
      exact ⟨by rw [f1, f2, f3], e3⟩
    | _ => cases n <;> simp [RCall.tag, balancesIdx, stakingIdx, utilityIdx, proxyIdx, crowdloansIdx] at ht
  | .bondExtra v, ha =>
    cases b with
    | bondExtra v' =>
      simp only [RCall.Valid] at ha hb
      simp only [RCall.enc] at e
      have e0 := strip e
      obtain ⟨f1, e1⟩ := readable_compact _ _ _ _ (ha) (hb) e0
      exact ⟨by rw [f1], e1⟩
    | _ => cases n <;> simp [RCall.tag, balancesIdx, stakingIdx, utilityIdx, proxyIdx, crowdloansIdx] at ht
  | .unbond v, ha =>
    cases b with
    | unbond v' =>
      simp only [RCall.Valid] at ha hb
      simp only [RCall.enc] at e
      have e0 := strip e
      obtain ⟨f1, e1⟩ := readable_compact _ _ _ _ (ha) (hb) e0
      exact ⟨by rw [f1], e1⟩
    | _ => cases n <;> simp [RCall.tag, balancesIdx, stakingIdx, utilityIdx, proxyIdx, crowdloansIdx] at ht
  | .withdrawUnbonded v, ha =>
    cases b with
    | withdrawUnbonded v' =>
      simp only [RCall.Valid] at ha hb
      simp only [RCall.enc] at e
      have e0 := strip e
      obtain ⟨f1, e1⟩ := readable_le 4 _ _ _ _ (u32_le ha) (u32_le hb) e0
      exact ⟨by rw [f1], e1⟩
    | _ => cases n <;> simp [RCall.tag, balancesIdx, stakingIdx, utilityIdx, proxyIdx, crowdloansIdx] at ht
  | .nominate v, ha =>
    cases b with
    | nominate v' =>
      simp only [RCall.Valid] at ha hb
      simp only [RCall.enc] at e
      have e0 := strip e
      obtain ⟨f1, e1⟩ := readable_vec readable_source _ _ _ _ ha hb e0
      exact ⟨by rw [f1], e1⟩
    | _ => cases n <;> simp [RCall.tag, balancesIdx, stakingIdx, utilityIdx, proxyIdx, crowdloansIdx] at ht
  | .payoutStakers s r, ha =>
    cases b with
    | payoutStakers s' r' =>
      simp only [RCall.Valid] at ha hb
      simp only [RCall.enc] at e
      have e0 := strip e
      simp only [List.append_assoc] at e0
      obtain ⟨f1, e1⟩ := readable_acct _ _ _ _ (ha.1) (hb.1) e0
      obtain ⟨f2, e2⟩ := readable_le 4 _ _ _ _ (u32_le ha.2) (u32_le hb.2) e1
      exact ⟨by rw [f1, f2], e2⟩
    | _ => cases n <;> simp [RCall.tag, balancesIdx, stakingIdx, utilityIdx, proxyIdx, crowdloansIdx] at ht
  | .rebond v, ha =>
    cases b with
    | rebond v' =>
      simp only [RCall.Valid] at ha hb
      simp only [RCall.enc] at e
      have e0 := strip e
      obtain ⟨f1, e1⟩ := readable_compact _ _ _ _ (ha) (hb) e0
      exact ⟨by rw [f1], e1⟩
    | _ => cases n <;> simp [RCall.tag, balancesIdx, stakingIdx, utilityIdx, proxyIdx, crowdloansIdx] at ht
  | .proxy r f c, ha =>
    cases b with
    | proxy r' f' c' =>
      simp only [RCall.Valid] at ha hb
      simp only [RCall.enc] at e
      have e0 := strip e
      simp only [List.append_assoc] at e0
      obtain ⟨f1, e1⟩ := readable_acct _ _ _ _ (ha.1) (hb.1) e0
      obtain ⟨f2, e2⟩ := readable_optType _ _ _ _ trivial trivial e1
      obtain ⟨f3, e3⟩ := enc_readable n c c' _ _ ha.2 hb.2 e2
      exact ⟨by rw [f1, f2, f3], e3⟩
    | _ => cases n <;> simp [RCall.tag, balancesIdx, stakingIdx, utilityIdx, proxyIdx, crowdloansIdx] at ht
  | .addProxy d t w, ha =>
    cases b with
    | addProxy d' t' w' =>
      simp only [RCall.Valid] at ha hb
      simp only [RCall.enc] at e
      have e0 := strip e
      simp only [List.append_assoc] at e0
      obtain ⟨f1, e1⟩ := readable_acct _ _ _ _ (ha.1) (hb.1) e0
      obtain ⟨f2, e2⟩ := readable_optType _ _ _ _ trivial trivial e1
      obtain ⟨f3, e3⟩ := readable_le 4 _ _ _ _ (u32_le ha.2) (u32_le hb.2) e2
      exact ⟨by rw [f1, f2, f3], e3⟩
    | _ => cases n <;> simp [RCall.tag, balancesIdx, stakingIdx, utilityIdx, proxyIdx, crowdloansIdx] at ht
  | .removeProxy d t w, ha =>
    cases b with
    | removeProxy d' t' w' =>
      simp only [RCall.Valid] at ha hb
      simp only [RCall.enc] at e
      have e0 := strip e
      simp only [List.append_assoc] at e0
      obtain ⟨f1, e1⟩ := readable_acct _ _ _ _ (ha.1) (hb.1) e0
      obtain ⟨f2, e2⟩ := readable_optType _ _ _ _ trivial trivial e1
      obtain ⟨f3, e3⟩ := readable_le 4 _ _ _ _ (u32_le ha.2) (u32_le hb.2) e2
      exact ⟨by rw [f1, f2, f3], e3⟩
    | _ => cases n <;> simp [RCall.tag, balancesIdx, stakingIdx, utilityIdx, proxyIdx, crowdloansIdx] at ht
  | .asDerivative i c, ha =>
    cases b with
    | asDerivative i' c' =>
      simp only [RCall.Valid] at ha hb
      simp only [RCall.enc] at e
      have e0 := strip e
      simp only [List.append_assoc] at e0
      obtain ⟨f1, e1⟩ := readable_le 2 _ _ _ _ (u16_le ha.1) (u16_le hb.1) e0
      obtain ⟨f2, e2⟩ := enc_readable n c c' _ _ ha.2 hb.2 e1
      exact ⟨by rw [f1, f2], e2⟩
    | _ => cases n <;> simp [RCall.tag, balancesIdx, stakingIdx, utilityIdx, proxyIdx, crowdloansIdx] at ht
  | .batchAll cs, ha =>
    cases b with
    | batchAll cs' =>
      simp only [RCall.Valid] at ha hb
      simp only [RCall.enc] at e
      have e0 := strip e
      simp only [List.append_assoc] at e0
      obtain ⟨f1, e1⟩ := readable_compact _ _ _ _ (u32_u128 ha.1) (u32_u128 hb.1) e0
      obtain ⟨f2, e2⟩ := encs_readable n cs cs' _ _ f1 ha.2 hb.2 e1
      exact ⟨by rw [f2], e2⟩
    | _ => cases n <;> simp [RCall.tag, balancesIdx, stakingIdx, utilityIdx, proxyIdx, crowdloansIdx] at ht
  | .contribute p v, ha =>
    cases b with
    | contribute p' v' =>
      simp only [RCall.Valid] at ha hb
      simp only [RCall.enc] at e
      have e0 := strip e
      simp only [List.append_assoc] at e0
      obtain ⟨f1, e1⟩ := readable_compact _ _ _ _ (u32_u128 ha.1) (u32_u128 hb.1) e0
      obtain ⟨f2, e2⟩ := readable_compact _ _ _ _ (ha.2) (hb.2) e1
      exact ⟨by rw [f1, f2], (List.cons.inj e2).2⟩
    | _ => cases n <;> simp [RCall.tag, balancesIdx, stakingIdx, utilityIdx, proxyIdx, crowdloansIdx] at ht
  | .withdraw w p, ha =>
    cases b with
    | withdraw w' p' =>
      simp only [RCall.Valid] at ha hb
      simp only [RCall.enc] at e
      have e0 := strip e
      simp only [List.append_assoc] at e0
      obtain ⟨f1, e1⟩ := readable_acct _ _ _ _ (ha.1) (hb.1) e0
      obtain ⟨f2, e2⟩ := readable_compact _ _ _ _ (u32_u128 ha.2) (u32_u128 hb.2) e1
      exact ⟨by rw [f1, f2], e2⟩
    | _ => cases n <;> simp [RCall.tag, balancesIdx, stakingIdx, utilityIdx, proxyIdx, crowdloansIdx] at ht
  | .addMemo p m, ha =>
    cases b with
    | addMemo p' m' =>
      simp only [RCall.Valid] at ha hb
      simp only [RCall.enc] at e
      have e0 := strip e
      simp only [List.append_assoc] at e0
      obtain ⟨f1, e1⟩ := readable_le 4 _ _ _ _ (u32_le ha.1) (u32_le hb.1) e0
      obtain ⟨f2, e2⟩ := readable_vec readable_le1 _ _ _ _ ha.2 hb.2 (by simpa only [List.append_assoc] using e1)
      exact ⟨by rw [f1, f2], e2⟩
    | _ => cases n <;> simp [RCall.tag, balancesIdx, stakingIdx, utilityIdx, proxyIdx, crowdloansIdx] at ht
/-- The same for lists of calls of the same length. -/
theorem encs_readable (n : Net) : ∀ (a b : RCalls) (x y : List Nat), a.length = b.length → a.Valid → b.Valid →
    a.enc n ++ x = b.enc n ++ y → a = b ∧ x = y := by
  intro a b x y hl ha hb e
  match a, ha with
  | .nil, _ =>
    cases b with
    | nil => exact ⟨rfl, by simpa only [RCalls.enc, List.nil_append] using e⟩
    | cons c cs => simp [RCalls.length] at hl
  | .cons c cs, ha =>
    cases b with
    | nil => simp [RCalls.length] at hl
    | cons c' cs' =>
      simp only [RCalls.Valid] at ha hb
      simp only [RCalls.enc, List.append_assoc] at e
      obtain ⟨f1, e1⟩ := enc_readable n c c' _ _ ha.1 hb.1 e
      obtain ⟨f2, e2⟩ := encs_readable n cs cs' _ _ (by simpa [RCalls.length] using hl) ha.2 hb.2 e1
      exact ⟨by rw [f1, f2], e2⟩
end

/-! ### Bytes -/

/-- All numbers are bytes. -/
def Bytes (l : List Nat) : Prop := ∀ x ∈ l, x < 256

theorem Bytes.nil : Bytes [] := by
  intro x h
  simp at h

theorem Bytes.cons {a : Nat} {l : List Nat} (h : a < 256) (hl : Bytes l) : Bytes (a :: l) := by
  intro x hx
  rcases List.mem_cons.1 hx with rfl | hx
  · exact h
  · exact hl x hx

theorem Bytes.app {a b : List Nat} (ha : Bytes a) (hb : Bytes b) : Bytes (a ++ b) := by
  intro x hx
  rcases List.mem_append.1 hx with hx | hx
  · exact ha x hx
  · exact hb x hx

theorem bytes_le (n v : Nat) : Bytes (le n v) := by
  induction n generalizing v with
  | zero => exact .nil
  | succ n ih => exact .cons (by omega) (ih _)

theorem bytes_compact {v : Nat} (h : v ≤ maxU128) : Bytes (compact v) := by
  unfold compact
  split
  · exact bytes_le _ _
  · split
    · exact bytes_le _ _
    · split
      · exact bytes_le _ _
      · have := byteLen_le h
        exact .cons (by omega) (bytes_le _ _)

theorem bytes_source (a : Nat) : Bytes (source a) := .cons (by omega) (bytes_le _ _)

theorem bytes_items {f : Nat → List Nat} (hf : ∀ x, Bytes (f x)) (l : List Nat) : Bytes (items f l) := by
  induction l with
  | nil => exact .nil
  | cons a l ih => exact .app (hf a) ih

theorem bytes_vec {f : Nat → List Nat} (hf : ∀ x, Bytes (f x)) {l : List Nat} (h : l.length ≤ maxU32) :
    Bytes (compact l.length ++ items f l) := .app (bytes_compact (u32_u128 h)) (bytes_items hf l)

theorem bytes_payee (p : Payee) : Bytes p.enc := by
  cases p with
  | account a => exact .cons (by omega) (bytes_le _ _)
  | _ => exact .cons (by omega) .nil

theorem bytes_optType (t : Option PType) : Bytes (optType t) := by
  cases t with
  | none => exact .cons (by omega) .nil
  | some t => exact .cons (by omega) (.cons (by cases t <;> decide) .nil)

theorem tag_byte (n : Net) {l : List Nat} {f : Net → Nat} {i : Nat} (hf : f n < 256) (hi : i < 256) (h : Bytes l) :
    Bytes (f n :: i :: l) := .cons hf (.cons hi h)

theorem idx_byte (n : Net) : balancesIdx n < 256 ∧ stakingIdx n < 256 ∧ utilityIdx n < 256 ∧ proxyIdx n < 256 ∧
    crowdloansIdx n < 256 := by
  cases n <;> decide

mutual
theorem enc_bytes (n : Net) : ∀ a : RCall, a.Valid → Bytes (a.enc n) := by
  intro a ha
  obtain ⟨i1, i2, i3, i4, i5⟩ := idx_byte n
  match a, ha with
  | .remark l, ha =>
    simp only [RCall.Valid] at ha
    exact .cons (by omega) (.cons (by omega) (bytes_vec (bytes_le 1) ha.1))
  | .transferKeepAlive d v, ha =>
    simp only [RCall.Valid] at ha
    exact .cons i1 (.cons (by omega) (.app (bytes_source d) (bytes_compact ha.2)))
  | .transferAll d k, ha => exact .cons i1 (.cons (by omega) (.app (bytes_source d) (bytes_le 1 _)))
  | .bond c v p, ha =>
    simp only [RCall.Valid] at ha
    exact .cons i2 (.cons (by omega) (.app (bytes_source c) (.app (bytes_compact ha.2.1) (bytes_payee p))))
  | .bondExtra v, ha =>
    simp only [RCall.Valid] at ha
    exact .cons i2 (.cons (by omega) (bytes_compact ha))
  | .unbond v, ha =>
    simp only [RCall.Valid] at ha
    exact .cons i2 (.cons (by omega) (bytes_compact ha))
  | .withdrawUnbonded k, ha => exact .cons i2 (.cons (by omega) (bytes_le 4 k))
  | .nominate ts, ha =>
    simp only [RCall.Valid] at ha
    exact .cons i2 (.cons (by omega) (bytes_vec bytes_source ha.1))
  | .payoutStakers s e, ha => exact .cons i2 (.cons (by omega) (.app (bytes_le 32 s) (bytes_le 4 e)))
  | .rebond v, ha =>
    simp only [RCall.Valid] at ha
    exact .cons i2 (.cons (by omega) (bytes_compact ha))
  | .proxy r f c, ha =>
    simp only [RCall.Valid] at ha
    exact .cons i4 (.cons (by omega) (.app (bytes_le 32 r) (.app (bytes_optType f) (enc_bytes n c ha.2))))
  | .addProxy d t y, ha => exact .cons i4 (.cons (by omega) (.app (bytes_le 32 d) (.app (bytes_optType t) (bytes_le 4 y))))
  | .removeProxy d t y, ha =>
    exact .cons i4 (.cons (by omega) (.app (bytes_le 32 d) (.app (bytes_optType t) (bytes_le 4 y))))
  | .asDerivative i c, ha =>
    simp only [RCall.Valid] at ha
    exact .cons i3 (.cons (by omega) (.app (bytes_le 2 i) (enc_bytes n c ha.2)))
  | .batchAll cs, ha =>
    simp only [RCall.Valid] at ha
    exact .cons i3 (.cons (by omega) (.app (bytes_compact (u32_u128 ha.1)) (encs_bytes n cs ha.2)))
  | .contribute p v, ha =>
    simp only [RCall.Valid] at ha
    exact .cons i5 (.cons (by omega) (.app (bytes_compact (u32_u128 ha.1)) (.app (bytes_compact ha.2) (.cons (by omega) .nil))))
  | .withdraw w p, ha =>
    simp only [RCall.Valid] at ha
    exact .cons i5 (.cons (by omega) (.app (bytes_le 32 w) (bytes_compact (u32_u128 ha.2))))
  | .addMemo p m, ha =>
    simp only [RCall.Valid] at ha
    exact .cons i5 (.cons (by omega) (.app (bytes_le 4 p) (bytes_vec (bytes_le 1) ha.2.1)))
theorem encs_bytes (n : Net) : ∀ a : RCalls, a.Valid → Bytes (a.enc n) := by
  intro a ha
  match a, ha with
  | .nil, _ => exact .nil
  | .cons c cs, ha =>
    simp only [RCalls.Valid] at ha
    exact .app (enc_bytes n c ha.1) (encs_bytes n cs ha.2)
end

end Verif.Helper
