import Verif.Migrations.Model
import Verif.Registry.Props
import Mathlib.Data.Prod.Lex
import Mathlib.Data.List.Lex

/-!
# C174, C175: migrations of the asset registry and of the EVM
-/

namespace Verif.Migrations
open Verif Registry

/-! ### C174: asset registry -/

section General
set_option linter.unusedSectionVars false
variable {τ τ' : Type} [LinearOrder τ] [LinearOrder τ']

/-- Different old locations become different new ones. -/
def Inj (conv : τ → Option τ') : Prop := ∀ a b c, conv a = some c → conv b = some c → a = b

/-- The old storage holds the location somewhere. -/
def InUse (s : State τ) (t : τ) : Prop :=
  (∃ i, getAssetType s i = some t) ∨ getAssetId s t ≠ none ∨ getUnits s t ≠ none ∨ t ∈ s.supported

/-- The iterators visit all stored keys. -/
def Complete (ids : List Nat) (types : List τ) (s : State τ) : Prop :=
  (∀ i, getAssetType s i ≠ none → i ∈ ids) ∧ ∀ t, getAssetId s t ≠ none ∨ getUnits s t ≠ none → t ∈ types

theorem moveKeys_spec {β : Type} {conv : τ → Option τ'} (hi : Inj conv) {m : τ → Option β} {ks : List τ}
    {acc r : τ' → Option β} (h : moveKeys conv m ks acc = .ok r) :
    (∀ k k' v, m k = some v → conv k = some k' → (k ∈ ks ∨ acc k' = some v) → r k' = some v) ∧
    ∀ k', (∀ k ∈ ks, m k ≠ none → conv k ≠ some k') → r k' = acc k' := by
  induction ks generalizing acc with
  | nil =>
    cases h
    refine ⟨fun k k' v _ _ h => ?_, fun _ _ => rfl⟩
    rcases h with h | h
    · cases h
    · exact h
  | cons q qs ih =>
    cases hq : m q with
    | none =>
      unfold moveKeys at h
      rw [hq] at h
      obtain ⟨h1, h2⟩ := ih h
      refine ⟨fun k k' v hk hc hor => h1 k k' v hk hc ?_, fun k' hk => h2 k' (fun k hm => hk k (List.mem_cons_of_mem _ hm))⟩
      rcases hor with hor | hor
      · rcases List.mem_cons.1 hor with rfl | hor
        · rw [hq] at hk
          cases hk
        · exact .inl hor
      · exact .inr hor
    | some w =>
      unfold moveKeys at h
      rw [hq] at h
      simp only [bind_ok_iff, okOr_ok_iff] at h
      obtain ⟨q', hq', h⟩ := h
      obtain ⟨h1, h2⟩ := ih h
      refine ⟨fun k k' v hk hc hor => ?_, fun k' hk => ?_⟩
      · by_cases e : k = q
        · subst e
          have ev : w = v := Option.some.inj (hq.symm.trans hk)
          have ek : q' = k' := Option.some.inj (hq'.symm.trans hc)
          subst ev ek
          exact h1 k q' w hk hc (.inr (upd_same _ _ _))
        · refine h1 k k' v hk hc ?_
          rcases hor with hor | hor
          · exact .inl ((List.mem_cons.1 hor).resolve_left e)
          · refine .inr ?_
            have hne : k' ≠ q' := by
              rintro rfl
              exact e (hi k q k' hc hq')
            rw [upd_of_ne _ _ hne]
            exact hor
      · rw [h2 k' (fun k hm => hk k (List.mem_cons_of_mem _ hm))]
        refine upd_of_ne _ _ (fun e => hk q List.mem_cons_self (by rw [hq]; simp) (e ▸ hq'))

theorem moveKeys_total {β : Type} {conv : τ → Option τ'} {m : τ → Option β} {ks : List τ} {acc : τ' → Option β} :
    (∃ r, moveKeys conv m ks acc = .ok r) ↔ ∀ k ∈ ks, m k ≠ none → conv k ≠ none := by
  induction ks generalizing acc with
  | nil => exact ⟨fun _ k hk => (by cases hk), fun _ => ⟨acc, rfl⟩⟩
  | cons q qs ih =>
    unfold moveKeys
    cases hq : m q with
    | none =>
      dsimp only
      rw [ih]
      refine ⟨fun h k hk hm => ?_, fun h k hk => h k (List.mem_cons_of_mem _ hk)⟩
      rcases List.mem_cons.1 hk with rfl | hk
      · exact absurd hq hm
      · exact h k hk hm
    | some w =>
      dsimp only
      simp only [bind_ok_iff, okOr_ok_iff]
      constructor
      · rintro ⟨r, q', hq', hr⟩ k hk hm
        rcases List.mem_cons.1 hk with rfl | hk
        · rw [hq']
          simp
        · exact ih.1 ⟨r, hr⟩ k hk hm
      · intro h
        obtain ⟨q', hq'⟩ := Option.ne_none_iff_exists'.1 (h q List.mem_cons_self (by rw [hq]; simp))
        obtain ⟨r, hr⟩ := ih (acc := upd acc q' (some w)).2 (fun k hk => h k (List.mem_cons_of_mem _ hk))
        exact ⟨r, q', hq', hr⟩

theorem moveValues_spec {conv : τ → Option τ'} {m : Nat → Option τ} {is : List Nat} {acc r : Nat → Option τ'}
    (h : moveValues conv m is acc = .ok r) (i : Nat) :
    r i = if i ∈ is ∧ m i ≠ none then (m i).bind conv else acc i := by
  induction is generalizing acc with
  | nil =>
    cases h
    rw [if_neg (fun e => by cases e.1)]
  | cons q qs ih =>
    cases hq : m q with
    | none =>
      unfold moveValues at h
      rw [hq] at h
      rw [ih h]
      by_cases e : i = q
      · subst e
        rw [if_neg (fun e => e.2 hq), if_neg (fun e => e.2 hq)]
      · simp only [List.mem_cons, e, false_or]
    | some w =>
      unfold moveValues at h
      rw [hq] at h
      simp only [bind_ok_iff, okOr_ok_iff] at h
      obtain ⟨q', hq', h⟩ := h
      rw [ih h]
      by_cases e : i = q
      · subst e
        rw [upd_same, hq]
        have e : (some w).bind conv = some q' := hq'
        rw [e, if_pos (show i ∈ i :: qs ∧ some w ≠ none from ⟨List.mem_cons_self, by simp⟩)]
        split <;> rfl
      · rw [upd_of_ne _ _ e]
        simp only [List.mem_cons, e, false_or]

theorem moveValues_total {conv : τ → Option τ'} {m : Nat → Option τ} {is : List Nat} {acc : Nat → Option τ'} :
    (∃ r, moveValues conv m is acc = .ok r) ↔ ∀ i ∈ is, ∀ t, m i = some t → conv t ≠ none := by
  induction is generalizing acc with
  | nil => exact ⟨fun _ k hk => (by cases hk), fun _ => ⟨acc, rfl⟩⟩
  | cons q qs ih =>
    unfold moveValues
    cases hq : m q with
    | none =>
      dsimp only
      rw [ih]
      refine ⟨fun h k hk t hm => ?_, fun h k hk => h k (List.mem_cons_of_mem _ hk)⟩
      rcases List.mem_cons.1 hk with rfl | hk
      · rw [hq] at hm
        cases hm
      · exact h k hk t hm
    | some w =>
      dsimp only
      simp only [bind_ok_iff, okOr_ok_iff]
      constructor
      · rintro ⟨r, q', hq', hr⟩ k hk t hm
        rcases List.mem_cons.1 hk with rfl | hk
        · rw [hq] at hm
          cases hm
          rw [hq']
          simp
        · exact ih.1 ⟨r, hr⟩ k hk t hm
      · intro h
        obtain ⟨q', hq'⟩ := Option.ne_none_iff_exists'.1 (h q List.mem_cons_self w hq)
        obtain ⟨r, hr⟩ := ih (acc := upd acc q (some q')).2 (fun k hk => h k (List.mem_cons_of_mem _ hk))
        exact ⟨r, q', hq', hr⟩

theorem moveList_iff {conv : τ → Option τ'} {l : List τ} {r : List τ'} :
    moveList conv l = .ok r ↔ List.Forall₂ (fun t t' => conv t = some t') l r := by
  induction l generalizing r with
  | nil =>
    unfold moveList
    constructor
    · intro h
      cases h
      exact .nil
    · intro h
      cases h
      rfl
  | cons t ts ih =>
    unfold moveList
    simp only [bind_ok_iff, okOr_ok_iff, pure_ok_iff]
    constructor
    · rintro ⟨t', ht, ts', hts, rfl⟩
      exact .cons ht (ih.1 hts)
    · intro h
      cases h with
      | cons ht hts => exact ⟨_, ht, _, ih.2 hts, rfl⟩

theorem moveList_total {conv : τ → Option τ'} {l : List τ} :
    (∃ r, moveList conv l = .ok r) ↔ ∀ t ∈ l, conv t ≠ none := by
  induction l with
  | nil => exact ⟨fun _ k hk => (by cases hk), fun _ => ⟨[], rfl⟩⟩
  | cons q qs ih =>
    unfold moveList
    simp only [bind_ok_iff, okOr_ok_iff, pure_ok_iff]
    constructor
    · rintro ⟨r, q', hq', ts, hts, -⟩ t ht
      rcases List.mem_cons.1 ht with rfl | ht
      · rw [hq']
        simp
      · exact ih.1 ⟨ts, hts⟩ t ht
    · intro h
      obtain ⟨q', hq'⟩ := Option.ne_none_iff_exists'.1 (h q List.mem_cons_self)
      obtain ⟨r, hr⟩ := ih.2 (fun t ht => h t (List.mem_cons_of_mem _ ht))
      exact ⟨q' :: r, q', hq', r, hr, rfl⟩

theorem forall2_from {conv : τ → Option τ'} {l : List τ} {r : List τ'}
    (h : List.Forall₂ (fun t t' => conv t = some t') l r) {t' : τ'} (hm : t' ∈ r) : ∃ t ∈ l, conv t = some t' := by
  induction h with
  | nil => cases hm
  | cons hz _ ih =>
    rcases List.mem_cons.1 hm with rfl | hy'
    · exact ⟨_, List.mem_cons_self, hz⟩
    · obtain ⟨y, hy, e⟩ := ih hy'
      exact ⟨y, List.mem_cons_of_mem _ hy, e⟩

theorem forall2_mem {conv : τ → Option τ'} (hi : Inj conv) {l : List τ} {r : List τ'}
    (h : List.Forall₂ (fun t t' => conv t = some t') l r) {t : τ} {t' : τ'} (ht : conv t = some t') : t' ∈ r ↔ t ∈ l := by
  constructor
  · intro hm
    obtain ⟨q, hq, e⟩ := forall2_from h hm
    rw [hi t q t' ht e]
    exact hq
  · intro hm
    induction h with
    | nil => cases hm
    | cons hz _ ih =>
      rcases List.mem_cons.1 hm with rfl | hm
      · rw [ht] at hz
        rw [Option.some.inj hz]
        exact List.mem_cons_self
      · exact List.mem_cons_of_mem _ (ih hm)

theorem forall2_sorted {conv : τ → Option τ'} {l : List τ} {r : List τ'}
    (h : List.Forall₂ (fun t t' => conv t = some t') l r) (hp : l.Pairwise (· < ·))
    (hmono : ∀ t ∈ l, ∀ q ∈ l, ∀ t' q', conv t = some t' → conv q = some q' → t < q → t' < q') : r.Pairwise (· < ·) := by
  induction h with
  | nil => exact .nil
  | cons hx hxs ih =>
    rw [List.pairwise_cons] at hp ⊢
    refine ⟨fun y' hy' => ?_, ih hp.2 (fun a ha b hb => hmono a (List.mem_cons_of_mem _ ha) b (List.mem_cons_of_mem _ hb))⟩
    obtain ⟨y, hy, e⟩ := forall2_from hxs hy'
    exact hmono _ List.mem_cons_self y (List.mem_cons_of_mem _ hy) _ y' hx e (hp.1 y hy)

/-- **C174, when it works.** The migration goes through exactly if all locations in use can be converted; otherwise the
upgrade block traps. -/
theorem C174_total_partial {conv : τ → Option τ'} {ids : List Nat} {types : List τ} {s : State τ} (hc : Complete ids types s) :
    (∃ s', migrateRegistry conv ids types s = .ok s') ↔ ∀ t, InUse s t → conv t ≠ none := by
  unfold migrateRegistry
  simp only [bind_ok_iff, pure_ok_iff]
  constructor
  · rintro ⟨s', a, ha, b, hb, u, hu, l, hl, -⟩ t ht
    rcases ht with ⟨i, hi⟩ | ht | ht | ht
    · exact moveValues_total.1 ⟨a, ha⟩ i (hc.1 i (by rw [hi]; simp)) t hi
    · exact moveKeys_total.1 ⟨b, hb⟩ t (hc.2 t (.inl ht)) ht
    · exact moveKeys_total.1 ⟨u, hu⟩ t (hc.2 t (.inr ht)) ht
    · exact moveList_total.1 ⟨l, hl⟩ t ht
  · intro h
    obtain ⟨a, ha⟩ := moveValues_total (conv := conv) (m := s.idType) (is := ids) (acc := fun _ => none).2
      (fun i _ t ht => h t (.inl ⟨i, ht⟩))
    obtain ⟨b, hb⟩ := moveKeys_total (conv := conv) (m := s.typeId) (ks := types) (acc := fun _ => none).2
      (fun t _ ht => h t (.inr (.inl ht)))
    obtain ⟨u, hu⟩ := moveKeys_total (conv := conv) (m := s.units) (ks := types) (acc := fun _ => none).2
      (fun t _ ht => h t (.inr (.inr (.inl ht))))
    obtain ⟨l, hl⟩ := moveList_total (conv := conv) (l := s.supported).2 (fun t ht => h t (.inr (.inr (.inr ht))))
    exact ⟨_, a, ha, b, hb, u, hu, l, hl, rfl⟩

theorem map_move {conv : τ → Option τ'} (hi : Inj conv) {m : τ → Option Nat} {types : List τ} {r : τ' → Option Nat}
    (hc : ∀ t, m t ≠ none → t ∈ types) (h : moveKeys conv m types (fun _ => none) = .ok r) :
    (∀ t t', conv t = some t' → r t' = m t) ∧ ∀ t', (∀ t, conv t ≠ some t') → r t' = none := by
  obtain ⟨h1, h2⟩ := moveKeys_spec hi h
  refine ⟨fun t t' ht => ?_, fun t' ht => h2 t' (fun k _ _ => ht k)⟩
  cases hm : m t with
  | some v => exact h1 t t' v hm ht (.inl (hc t (by rw [hm]; simp)))
  | none =>
    refine h2 t' (fun k _ hk e => ?_)
    rw [hi k t t' e ht] at hk
    exact hk hm

/-- **C174, lookups.** After the migration each asset has its old location in the new format, each location its asset and
its fee rate, and no location is there that was not there before. -/
theorem C174_lookups_partial {conv : τ → Option τ'} (hi : Inj conv) {ids : List Nat} {types : List τ} {s : State τ}
    {s' : State τ'} (hc : Complete ids types s) (h : migrateRegistry conv ids types s = .ok s') :
    (∀ i, getAssetType s' i = (getAssetType s i).bind conv) ∧
    (∀ t t', conv t = some t' → getAssetId s' t' = getAssetId s t ∧ getUnits s' t' = getUnits s t ∧
      (t' ∈ s'.supported ↔ t ∈ s.supported)) ∧
    ∀ t', (∀ t, conv t ≠ some t') → getAssetId s' t' = none ∧ getUnits s' t' = none ∧ t' ∉ s'.supported := by
  unfold migrateRegistry at h
  simp only [bind_ok_iff, pure_ok_iff] at h
  obtain ⟨a, ha, b, hb, u, hu, l, hl, rfl⟩ := h
  obtain ⟨hb1, hb2⟩ := map_move hi (fun t ht => hc.2 t (.inl ht)) hb
  obtain ⟨hu1, hu2⟩ := map_move hi (fun t ht => hc.2 t (.inr ht)) hu
  have hl := moveList_iff.1 hl
  refine ⟨fun i => ?_, fun t t' ht => ⟨hb1 t t' ht, hu1 t t' ht, ?_⟩, fun t' ht => ⟨hb2 t' ht, hu2 t' ht, fun hm => ?_⟩⟩
  · show a i = (s.idType i).bind conv
    rw [moveValues_spec ha]
    by_cases hm : s.idType i = none
    · rw [if_neg (fun e => e.2 hm), hm]
      rfl
    · rw [if_pos ⟨hc.1 i hm, hm⟩]
  · exact forall2_mem hi hl ht
  · obtain ⟨t, -, e⟩ := forall2_from hl hm
    exact ht t e

/-- **C174, payment.** If the new order of the accepted locations is the old one, each is accepted for fees after the
migration exactly if it was before. -/
theorem C174_payment_partial {conv : τ → Option τ'} (hi : Inj conv) {ids : List Nat} {types : List τ} {s : State τ}
    {s' : State τ'} (hs : Reach s) (hc : Complete ids types s) (h : migrateRegistry conv ids types s = .ok s')
    (hmono : ∀ t ∈ s.supported, ∀ q ∈ s.supported, ∀ t' q', conv t = some t' → conv q = some q' → t < q → t' < q')
    {t : τ} {t' : τ'} (ht : conv t = some t') : paymentIsSupported s' t' = paymentIsSupported s t := by
  have hmem := (C174_lookups_partial hi hc h).2.1 t t' ht
  have hsort : s'.supported.Pairwise (· < ·) := by
    unfold migrateRegistry at h
    simp only [bind_ok_iff, pure_ok_iff] at h
    obtain ⟨a, ha, b, hb, u, hu, l, hl, rfl⟩ := h
    exact forall2_sorted (moveList_iff.1 hl) hs.inv.sorted hmono
  rw [Bool.eq_iff_iff, supported_iff_mem hsort, supported_iff_mem hs.inv.sorted]
  exact hmem.2.2

end General

/-! The assets of other parachains: `GeneralKey` locations. -/

/-- A key of a parachain in XCM v2: bytes, ordered lexicographically (the order that `xcm::v2` derives). -/
abbrev Loc2 := ℕ ×ₗ List ℕ

/-- A key of a parachain in XCM v3: length and 32 bytes, ordered in this sequence (the order that `xcm::v3` derives). -/
abbrev Loc3 := ℕ ×ₗ (ℕ ×ₗ List ℕ)

/-- `TryFrom<v2::Junction> for v3::Junction`: the key is padded with zeros; more than 32 bytes fail. -/
def convKey (l : Loc2) : Option Loc3 :=
  if (ofLex l).2.length ≤ 32 then
    some (toLex ((ofLex l).1, toLex ((ofLex l).2.length, (ofLex l).2 ++ List.replicate (32 - (ofLex l).2.length) 0)))
  else none

theorem convKey_inj : Inj convKey := by
  intro a b c ha hb
  unfold convKey at ha hb
  split at ha
  · split at hb
    · have h := (Option.some.inj ha).trans (Option.some.inj hb).symm
      have h := Prod.mk.inj (toLex.injective h)
      have h2 := Prod.mk.inj (toLex.injective h.2)
      refine ofLex.injective (Prod.ext h.1 ?_)
      exact (List.append_inj h2.2 h2.1).1
    · cases hb
  · cases ha

/-- **C174.** Whoever could pay fees in an asset can do so after the migration. -/
def C174_statement : Prop :=
  ∀ (s : State Loc2) (s' : State Loc3) (ids : List Nat) (types : List Loc2), Reach s → Complete ids types s →
    migrateRegistry convKey ids types s = .ok s' →
    ∀ t t', convKey t = some t' → paymentIsSupported s t = true → paymentIsSupported s' t' = true

/-- Keys `[1, 1]` and `[2]` of parachain 2000. -/
def keyA : Loc2 := toLex (2000, [1, 1])
def keyB : Loc2 := toLex (2000, [2])

def runR (s : State Loc2) : List (Call Loc2) → State Loc2
  | [] => s
  | k :: ks => runR (commit s (exec true s k)) ks
theorem runR_reach {s : State Loc2} (h : Reach s) : ∀ ks : List (Call Loc2), Reach (runR s ks)
  | [] => h
  | k :: ks => by
    refine runR_reach (s := commit s (exec true s k)) ?_ ks
    rcases commit_cases s (exec true s k) with he | ⟨he, _⟩
    · exact ReachBy.call h true k trivial he
    · rw [he]; exact h

/-- Both are registered and accepted. -/
def exReg : State Loc2 :=
  runR (State.empty Loc2) [.register 1 keyA, .register 2 keyB, .updateUnits keyA 500, .updateUnits keyB 700]

theorem exReg_lists : exReg.supported = [keyA, keyB] ∧ exReg.idType 1 = some keyA ∧ exReg.idType 2 = some keyB := by
  decide +kernel

theorem exReg_complete : Complete [1, 2] [keyA, keyB] exReg := by
  let _ : DecidableEq Loc2 := LinearOrder.toDecidableEq
  have h1 : exReg.idType = upd (upd (fun _ => none) 1 (some keyA)) 2 (some keyB) := by rfl
  have h2 : exReg.typeId = upd (upd (fun _ => none) keyA (some 1)) keyB (some 2) := by rfl
  have h3 : exReg.units = upd (upd (fun _ => none) keyA (some 500)) keyB (some 700) := by rfl
  refine ⟨fun i hi => ?_, fun t ht => ?_⟩
  · by_contra hn
    simp only [List.mem_cons, List.not_mem_nil, or_false, not_or] at hn
    apply hi
    show exReg.idType i = none
    rw [h1, upd_of_ne _ _ hn.2, upd_of_ne _ _ hn.1]
  · by_contra hn
    simp only [List.mem_cons, List.not_mem_nil, or_false, not_or] at hn
    rcases ht with ht | ht
    · apply ht
      show exReg.typeId t = none
      rw [h2, upd_of_ne _ _ hn.2, upd_of_ne _ _ hn.1]
    · apply ht
      show exReg.units t = none
      rw [h3, upd_of_ne _ _ hn.2, upd_of_ne _ _ hn.1]

theorem exReg_migrated : okAnd (migrateRegistry convKey [1, 2] [keyA, keyB] exReg) (fun s' =>
    decide ((convKey keyA).map (paymentIsSupported s') = some false) &&
    decide ((convKey keyB).map (paymentIsSupported s') = some true)) = true := by decide +kernel

/-- **C174 is false**: the list keeps its order, in which `[1, 1]` comes before `[2]`; the new format orders by length
first, so that the binary search no longer finds `[1, 1]`. -/
theorem C174_refuted : ¬ C174_statement := by
  intro h
  obtain ⟨s', h1, h2⟩ := okAnd_iff.1 exReg_migrated
  rw [Bool.and_eq_true] at h2
  have ha : ∃ a, convKey keyA = some a := ⟨_, rfl⟩
  obtain ⟨a, ha⟩ := ha
  have h3 := h exReg s' _ _ (runR_reach .init _) exReg_complete h1 keyA a ha (by decide +kernel)
  have h4 : (convKey keyA).map (paymentIsSupported s') = some false := by simpa using h2.1
  rw [ha] at h4
  have h4 : some (paymentIsSupported s' a) = some false := h4
  rw [h3] at h4
  cases h4

/-- With keys of one length for each parachain the order stays, so payment carries over (`C174_payment_partial`). -/
theorem convKey_mono {t q : Loc2} {t' q' : Loc3} (ht : convKey t = some t') (hq : convKey q = some q') (hlt : t < q)
    (hlen : (ofLex t).1 = (ofLex q).1 → (ofLex t).2.length = (ofLex q).2.length) : t' < q' := by
  unfold convKey at ht hq
  split at ht
  · split at hq
    · cases ht
      cases hq
      rw [Prod.Lex.lt_iff] at hlt ⊢
      rcases hlt with h | ⟨h, h2⟩
      · exact .inl h
      · have hl := hlen h
        refine .inr ⟨h, ?_⟩
        rw [Prod.Lex.lt_iff]
        refine .inr ⟨hl, ?_⟩
        show (ofLex t).2 ++ _ < (ofLex q).2 ++ _
        rw [hl]
        generalize List.replicate (32 - (ofLex q).2.length) 0 = z
        clear * - h2 hl
        revert h2 hl
        generalize (ofLex t).2 = x
        generalize (ofLex q).2 = y
        intro h2 hl
        induction x generalizing y with
        | nil =>
          cases y with
          | nil => exact absurd h2 (lt_irrefl _)
          | cons _ _ => cases hl
        | cons a x ih =>
          cases y with
          | nil => cases hl
          | cons b y =>
            rw [List.cons_append, List.cons_append]
            rw [List.cons_lt_cons_iff] at h2 ⊢
            rcases h2 with h | ⟨h, h2⟩
            · exact .inl h
            · exact .inr ⟨h, ih y h2 (Nat.succ.inj hl)⟩
    · cases hq
  · cases ht

/-- Keys `[0, 128]` and `[0, 129]` of parachain 2000 have one length: they stay payable. -/
example : okAnd (migrateRegistry convKey [1, 2] [toLex (2000, [0, 128]), toLex (2000, [0, 129])]
    (runR (State.empty Loc2) [.register 1 (toLex (2000, [0, 129])), .register 2 (toLex (2000, [0, 128])),
      .updateUnits (toLex (2000, [0, 129])) 500, .updateUnits (toLex (2000, [0, 128])) 700])) (fun s' =>
    decide ((convKey (toLex (2000, [0, 128]))).map (paymentIsSupported s') = some true) &&
    decide ((convKey (toLex (2000, [0, 129]))).map (paymentIsSupported s') = some true)) = true := by decide +kernel

/-- A key of 33 bytes cannot be converted: the upgrade traps. -/
example : errIs (migrateRegistry convKey [1] [toLex (2000, List.replicate 33 1)]
    (runR (State.empty Loc2) [.register 1 (toLex (2000, List.replicate 33 1))])) .panic = true := by decide +kernel

/-! ### C175: EVM -/

/-- **C175.** On a chain where address 1 has no code, each precompile address gets the code that reverts, and nothing else
changes but the reference counts of those accounts, which grow by one if they had no code. -/
theorem C175_codes (s : Evm) (h : s.codes 1 = none) :
    (∀ a ∈ usedAddresses, (initEvm s).codes a = some revertCode) ∧
    (∀ a ∉ usedAddresses, (initEvm s).codes a = s.codes a ∧ (initEvm s).sufficients a = s.sufficients a) ∧
    ∀ a ∈ usedAddresses, (initEvm s).sufficients a = s.sufficients a + if s.codes a = none then 1 else 0 := by
  have key : ∀ (l : List Nat), l.Nodup → ∀ s : Evm,
      (∀ a ∈ l, (l.foldl (fun s a => createAccount s a revertCode) s).codes a = some revertCode) ∧
      (∀ a ∉ l, (l.foldl (fun s a => createAccount s a revertCode) s).codes a = s.codes a ∧
        (l.foldl (fun s a => createAccount s a revertCode) s).sufficients a = s.sufficients a) ∧
      ∀ a ∈ l, (l.foldl (fun s a => createAccount s a revertCode) s).sufficients a =
        s.sufficients a + if s.codes a = none then 1 else 0 := by
    intro l hl
    induction l with
    | nil => exact fun s => ⟨fun a ha => (by cases ha), fun a _ => ⟨rfl, rfl⟩, fun a ha => (by cases ha)⟩
    | cons x xs ih =>
      rw [List.nodup_cons] at hl
      intro s
      obtain ⟨i1, i2, i3⟩ := ih hl.2 (createAccount s x revertCode)
      have hx : ∀ a, a ≠ x → (createAccount s x revertCode).codes a = s.codes a ∧
          (createAccount s x revertCode).sufficients a = s.sufficients a := by
        intro a ha
        refine ⟨upd_of_ne _ _ ha, ?_⟩
        show (if s.codes x = none then upd s.sufficients x (s.sufficients x + 1) else s.sufficients) a = _
        split
        · exact upd_of_ne _ _ ha
        · rfl
      have hx1 : (createAccount s x revertCode).codes x = some revertCode := upd_same _ _ _
      have hx2 : (createAccount s x revertCode).sufficients x = s.sufficients x + if s.codes x = none then 1 else 0 := by
        show (if s.codes x = none then upd s.sufficients x (s.sufficients x + 1) else s.sufficients) x = _
        split
        · exact upd_same _ _ _
        · rfl
      rw [List.foldl_cons]
      refine ⟨fun a ha => ?_, fun a ha => ?_, fun a ha => ?_⟩
      · rcases List.mem_cons.1 ha with rfl | ha
        · rw [(i2 a hl.1).1]
          exact hx1
        · exact i1 a ha
      · rw [List.mem_cons, not_or] at ha
        rw [(i2 a ha.2).1, (i2 a ha.2).2]
        exact hx a ha.1
      · rcases List.mem_cons.1 ha with rfl | ha
        · rw [(i2 a hl.1).2]
          exact hx2
        · have hne : a ≠ x := fun e => hl.1 (e ▸ ha)
          rw [i3 a ha, (hx a hne).1, (hx a hne).2]
  unfold initEvm
  rw [if_neg (not_not.2 h)]
  exact key usedAddresses (by decide) s

/-- **C175, once.** On a chain where address 1 has code nothing changes; so the migration runs at most once. -/
theorem C175_once (s : Evm) : (s.codes 1 ≠ none → initEvm s = s) ∧ initEvm (initEvm s) = initEvm s := by
  have h0 : ∀ s : Evm, s.codes 1 ≠ none → initEvm s = s := fun s h => if_pos h
  refine ⟨h0 s, ?_⟩
  by_cases h : s.codes 1 = none
  · refine h0 _ ?_
    rw [(C175_codes s h).1 1 (by decide)]
    simp
  · rw [h0 s h, h0 s h]

/-- A new chain, with code of a user at address 5000. -/
example : (initEvm ⟨upd (fun _ => none) 5000 (some [1]), fun _ => 0⟩).codes 2050 = some revertCode ∧
    (initEvm ⟨upd (fun _ => none) 5000 (some [1]), fun _ => 0⟩).codes 5000 = some [1] := by decide +kernel

end Verif.Migrations
