import Verif.Registry.Lemmas

/-!
# Asset registry: property theorems (C141 – C144)

Vocabulary: `Verif/Registry/Spec.lean`.
-/

namespace Verif.Registry
open Verif
variable {τ : Type} [LinearOrder τ] {s s' : State τ}

/-! Fixture: asset types are numbers; assets 1 and 2 are registered as types 30 and 10, both accepted for
fees at rates 500 and 700. -/
def run (s : State Nat) : List (Call Nat) → State Nat
  | [] => s
  | k :: ks => run (commit s (exec true s k)) ks
theorem run_reach {s : State Nat} (h : Reach s) : ∀ ks : List (Call Nat), Reach (run s ks)
  | [] => h
  | k :: ks => by
    refine run_reach (s := commit s (exec true s k)) ?_ ks
    rcases commit_cases s (exec true s k) with he | ⟨he, _⟩
    · exact ReachBy.call h true k trivial he
    · rw [he]; exact h
def exSetup : List (Call Nat) := [.register 1 30, .register 2 10, .updateUnits 30 500, .updateUnits 10 700]
def ex1 : State Nat := run (State.empty Nat) exSetup
theorem ex1_reach : Reach ex1 := run_reach .init _

/-! ## C141 -/

/-- C141: in every reachable state an asset type is accepted for fees exactly if a fee rate is set for it. -/
theorem C141_supported_iff_rate (h : Reach s) (t : τ) :
    paymentIsSupported s t = true ↔ ∃ u, getUnits s t = some u :=
  (supported_iff_mem h.inv.sorted t).trans (h.inv.mem t)

/-- C141: the stored list of accepted asset types is in ascending order without repetition, and lists exactly
the accepted types. -/
theorem C141_list (h : Reach s) :
    s.supported.Pairwise (· < ·) ∧ ∀ t, t ∈ s.supported ↔ paymentIsSupported s t = true :=
  ⟨h.inv.sorted, fun t => (supported_iff_mem h.inv.sorted t).symm⟩

example : ex1.supported = [10, 30] ∧ paymentIsSupported ex1 10 = true ∧ paymentIsSupported ex1 20 = false ∧
    getUnits ex1 10 = some 700 := by decide +kernel

/-! ## C142 -/

/-- The property as one would like it: an asset id has a type exactly if the type has that id. -/
def C142_statement : Prop := ∀ s : State Nat, Reach s → ∀ i t,
  getAssetId s t = some i ↔ getAssetType s i = some t

/-- C142 is false: two ids may be registered with one type, and the first then no longer is the type's id;
after the second is deregistered (or given another type), nothing is. Also an update of an asset to the type
it has removes the type's id. -/
theorem C142_refuted : ¬ C142_statement := by
  intro h
  have h1 := (h (run (State.empty Nat) [.register 1 30, .register 2 30, .deregister 2]) (run_reach .init _) 1 30).2
    (by decide +kernel)
  exact absurd h1 (by decide +kernel)

/-- C142: the other way to lose the type's id. -/
theorem C142_same_type_update :
    getAssetType (run ex1 [.updateType 1 30]) 1 = some 30 ∧ getAssetId (run ex1 [.updateType 1 30]) 30 = none := by
  decide +kernel

/-- C142, what holds in all histories: the id found for a type is an id with that type. -/
theorem C142_back_partial (h : Reach s) {i : Nat} {t : τ} (ht : getAssetId s t = some i) :
    getAssetType s i = some t := h.inv.back t i ht

/-- C142, what holds in histories that never bring in a type some asset already has: ids and types determine
each other. -/
theorem C142_inverse_partial (h : ReachBy FreshType s) (i : Nat) (t : τ) :
    getAssetId s t = some i ↔ getAssetType s i = some t := by
  refine ⟨fun ht => h.inv.back t i ht, ?_⟩
  revert i t
  induction h with
  | init => intro i t ht; cases ht
  | @call s0 s1 h0 auth k hk he ih =>
    intro i x hx
    change s1.idType i = some x at hx
    show s1.typeId x = some i
    cases k with
    | register id t =>
      obtain ⟨-, hn, rfl⟩ := register_iff.1 he
      dsimp only at hx ⊢
      by_cases hi : i = id
      · subst hi; rw [upd_same] at hx; cases hx; rw [upd_same]
      · rw [upd_of_ne _ _ hi] at hx
        have : x ≠ t := by rintro rfl; exact hk i hx
        rw [upd_of_ne _ _ this]; exact ih i x hx
    | updateUnits t n =>
      obtain ⟨-, -, rfl⟩ := updateUnits_iff.1 he
      exact ih i x hx
    | updateType id new =>
      obtain ⟨-, old, ho, rfl⟩ := updateType_iff.1 he
      rw [moveUnits_idType] at hx
      rw [moveUnits_typeId]
      dsimp only at hx ⊢
      have hno : new ≠ old := by rintro rfl; exact hk id ho
      by_cases hi : i = id
      · subst hi; rw [upd_same] at hx; cases hx
        rw [upd_of_ne _ _ hno, upd_same]
      · rw [upd_of_ne _ _ hi] at hx
        have h1 : x ≠ new := by rintro rfl; exact hk i hx
        have h2 : x ≠ old := by
          rintro rfl
          have e1 := ih i x hx
          have e2 := ih id x ho
          rw [e1] at e2; cases e2; exact hi rfl
        rw [upd_of_ne _ _ h2, upd_of_ne _ _ h1]; exact ih i x hx
    | removeFee t =>
      obtain ⟨-, rfl⟩ := removeFee_iff.1 he
      exact ih i x hx
    | deregister id =>
      obtain ⟨-, t, ht, rfl⟩ := deregister_iff.1 he
      dsimp only at hx ⊢
      by_cases hi : i = id
      · subst hi; rw [upd_same] at hx; cases hx
      · rw [upd_of_ne _ _ hi] at hx
        have h2 : x ≠ t := by
          rintro rfl
          have e1 := ih i x hx
          have e2 := ih id x ht
          rw [e1] at e2; cases e2; exact hi rfl
        rw [upd_of_ne _ _ h2]; exact ih i x hx

example : ∃ s : State Nat, ReachBy FreshType s ∧ getAssetId s 30 = some 1 ∧ getAssetId s 40 = some 2 := by
  refine ⟨_, .call (.call (.call .init true (.register 1 30) ?_ rfl) true (.register 2 10) ?_ rfl) true
    (.updateType 2 40) ?_ rfl, by decide +kernel, by decide +kernel⟩
  · intro i h; cases h
  · intro i h
    change upd _ _ _ i = _ at h
    by_cases hi : i = 1
    · subst hi; exact absurd h (by decide)
    · rw [upd_of_ne _ _ hi] at h; cases h
  · intro i h
    change upd (upd _ _ _) _ _ i = _ at h
    by_cases hi : i = 2
    · subst hi; exact absurd h (by decide)
    · rw [upd_of_ne _ _ hi] at h
      by_cases hj : i = 1
      · subst hj; exact absurd h (by decide)
      · rw [upd_of_ne _ _ hj] at h; cases h

/-! ## C143 -/

/-- C143: only the update origin can change anything. -/
theorem C143_only_authorised {auth : Bool} {k : Call τ} (he : exec auth s k = .ok s') : auth = true := by
  cases k with
  | register id t => exact (register_iff.1 he).1
  | updateUnits t n => exact (updateUnits_iff.1 he).1
  | updateType id t => exact (updateType_iff.1 he).1
  | removeFee t => exact (removeFee_iff.1 he).1
  | deregister id => exact (deregister_iff.1 he).1

/-- C143: `register_asset` is accepted exactly for ids without a type. -/
theorem C143_register_when (id : Nat) (t : τ) :
    (∃ s', exec true s (.register id t) = .ok s') ↔ getAssetType s id = none :=
  ⟨fun ⟨_, h⟩ => (register_iff.1 h).2.1, fun h => ⟨_, register_iff.2 ⟨rfl, h, rfl⟩⟩⟩

/-- C143: `register_asset` links the id and the type both ways and changes nothing else. -/
theorem C143_register_what {auth : Bool} {id : Nat} {t : τ} (he : exec auth s (.register id t) = .ok s') :
    (∀ i, getAssetType s' i = if i = id then some t else getAssetType s i) ∧
    (∀ x, getAssetId s' x = if x = t then some id else getAssetId s x) ∧
    (∀ x, getUnits s' x = getUnits s x) ∧ ∀ x, paymentIsSupported s' x = paymentIsSupported s x := by
  obtain ⟨-, -, rfl⟩ := register_iff.1 he
  exact ⟨fun _ => rfl, fun _ => rfl, fun _ => rfl, fun _ => rfl⟩

/-- C143: a fee rate can be set exactly for types that lead to an id. -/
theorem C143_units_when (t : τ) (n : Nat) :
    (∃ s', exec true s (.updateUnits t n) = .ok s') ↔ ∃ id, getAssetId s t = some id := by
  rw [← Option.isSome_iff_exists, Option.isSome_iff_ne_none]
  exact ⟨fun ⟨_, h⟩ => (updateUnits_iff.1 h).2.1, fun h => ⟨_, updateUnits_iff.2 ⟨rfl, h, rfl⟩⟩⟩

/-- C143: setting a fee rate sets exactly that rate and makes the type accepted for fees. -/
theorem C143_units_what (h : Reach s) {auth : Bool} {t : τ} {n : Nat}
    (he : exec auth s (.updateUnits t n) = .ok s') :
    (∀ x, getUnits s' x = if x = t then some n else getUnits s x) ∧
    (∀ x, paymentIsSupported s' x = true ↔ x = t ∨ paymentIsSupported s x = true) ∧
    (∀ i, getAssetType s' i = getAssetType s i) ∧ ∀ x, getAssetId s' x = getAssetId s x := by
  have h' : Reach s' := .call h auth _ trivial he
  obtain ⟨-, -, rfl⟩ := updateUnits_iff.1 he
  refine ⟨fun _ => rfl, fun x => ?_, fun _ => rfl, fun _ => rfl⟩
  rw [supported_iff_mem h'.inv.sorted, supported_iff_mem h.inv.sorted]
  exact (addSupported_spec h.inv.sorted t).2 x

/-- C143: `update_asset_type` is accepted exactly for ids with a type. -/
theorem C143_type_when (id : Nat) (new : τ) :
    (∃ s', exec true s (.updateType id new) = .ok s') ↔ ∃ old, getAssetType s id = some old :=
  ⟨fun ⟨_, h⟩ => (let ⟨o, ho, _⟩ := (updateType_iff.1 h).2; ⟨o, ho⟩),
    fun ⟨o, ho⟩ => ⟨_, updateType_iff.2 ⟨rfl, o, ho, rfl⟩⟩⟩

/-- C143: `update_asset_type` to a different type: the id has the new type, the new type leads to the id, the
old type to nothing; the old type's fee rate, if it has one, moves to the new type, and nothing else changes. -/
theorem C143_type_what {auth : Bool} {id : Nat} {old new : τ} (ho : getAssetType s id = some old) (hne : new ≠ old)
    (he : exec auth s (.updateType id new) = .ok s') :
    (∀ i, getAssetType s' i = if i = id then some new else getAssetType s i) ∧
    (∀ x, getAssetId s' x = if x = new then some id else if x = old then none else getAssetId s x) ∧
    (getUnits s old = none → ∀ x, getUnits s' x = getUnits s x) ∧
    ∀ u, getUnits s old = some u →
      ∀ x, getUnits s' x = if x = new then some u else if x = old then none else getUnits s x := by
  obtain ⟨-, o, ho', rfl⟩ := updateType_iff.1 he
  have : o = old := by
    have : s.idType id = some old := ho
    rw [this] at ho'; cases ho'; rfl
  subst this
  refine ⟨fun i => ?_, fun x => ?_, fun hu x => ?_, fun u hu x => ?_⟩
  · unfold getAssetType; rw [moveUnits_idType]; rfl
  · unfold getAssetId; rw [moveUnits_typeId]
    dsimp only [upd]
    by_cases h1 : x = new
    · rw [if_pos h1, if_neg (h1 ▸ hne), if_pos h1]
    · by_cases h2 : x = o
      · rw [if_pos h2, if_neg h1, if_pos h2]
      · rw [if_neg h2, if_neg h1, if_neg h1, if_neg h2]
  · unfold getUnits at *; rw [moveUnits_units]; dsimp only; rw [if_pos hu]
  · unfold getUnits at *; rw [moveUnits_units]; dsimp only
    rw [if_neg (by rw [hu]; exact fun h => (by cases h)), hu]
    rfl

/-- C143: `remove_fee_payment_asset` always succeeds for the update origin; it removes the type's rate and its
acceptance for fees and changes nothing else. -/
theorem C143_remove_fee (h : Reach s) (t : τ) : ∃ s', exec true s (.removeFee t) = .ok s' ∧
    (∀ x, getUnits s' x = if x = t then none else getUnits s x) ∧
    (∀ x, paymentIsSupported s' x = true ↔ x ≠ t ∧ paymentIsSupported s x = true) ∧
    (∀ i, getAssetType s' i = getAssetType s i) ∧ ∀ x, getAssetId s' x = getAssetId s x := by
  refine ⟨_, removeFee_iff.2 ⟨rfl, rfl⟩, fun _ => rfl, fun x => ?_, fun _ => rfl, fun _ => rfl⟩
  have h' : Reach _ := ReachBy.call h true (.removeFee t) trivial (removeFee_iff.2 ⟨rfl, rfl⟩)
  rw [supported_iff_mem h'.inv.sorted, supported_iff_mem h.inv.sorted]
  exact (dropSupported_spec h.inv.sorted t).2 x

/-- C143: `deregister_asset` succeeds exactly for ids with a type; the id and its type lose their link, the
type its fee rate and acceptance, and nothing else changes. -/
theorem C143_deregister_when (id : Nat) :
    (∃ s', exec true s (.deregister id) = .ok s') ↔ ∃ t, getAssetType s id = some t :=
  ⟨fun ⟨_, h⟩ => (let ⟨o, ho, _⟩ := (deregister_iff.1 h).2; ⟨o, ho⟩),
    fun ⟨o, ho⟩ => ⟨_, deregister_iff.2 ⟨rfl, o, ho, rfl⟩⟩⟩

theorem C143_deregister_what (h : Reach s) {auth : Bool} {id : Nat} {t : τ} (ht : getAssetType s id = some t)
    (he : exec auth s (.deregister id) = .ok s') :
    (∀ i, getAssetType s' i = if i = id then none else getAssetType s i) ∧
    (∀ x, getAssetId s' x = if x = t then none else getAssetId s x) ∧
    (∀ x, getUnits s' x = if x = t then none else getUnits s x) ∧
    ∀ x, paymentIsSupported s' x = true ↔ x ≠ t ∧ paymentIsSupported s x = true := by
  have h' : Reach s' := .call h auth _ trivial he
  obtain ⟨-, o, ho', rfl⟩ := deregister_iff.1 he
  have : o = t := by
    have : s.idType id = some t := ht
    rw [this] at ho'; cases ho'; rfl
  subst this
  refine ⟨fun _ => rfl, fun _ => rfl, fun _ => rfl, fun x => ?_⟩
  rw [supported_iff_mem h'.inv.sorted, supported_iff_mem h.inv.sorted]
  exact (dropSupported_spec h.inv.sorted o).2 x

example : (∃ s', exec true ex1 (.updateType 1 20) = .ok s' ∧ getUnits s' 20 = some 500 ∧ s'.supported = [10, 20] ∧
    getAssetId s' 20 = some 1 ∧ getAssetId s' 30 = none) ∧ getAssetType ex1 1 = some 30 :=
  ⟨⟨_, rfl, by decide +kernel, by decide +kernel, by decide +kernel, by decide +kernel⟩, by decide +kernel⟩
example : getAssetType ex1 1 = some 30 ∧ getAssetType ex1 3 = none ∧ getAssetId ex1 10 = some 2 := by decide +kernel

/-! ## C144 -/

/-- The property as one would like it: a type accepted for fees leads to an asset id (so that fees can be
booked). -/
def C144_statement : Prop := ∀ s : State Nat, Reach s → ∀ t, paymentIsSupported s t = true →
  ∃ id, getAssetId s t = some id

/-- C144 is false: updating an accepted asset to the type it has removes the type's id but not its
acceptance. -/
theorem C144_refuted : ¬ C144_statement := by
  intro h
  obtain ⟨id, hid⟩ := h (run ex1 [.updateType 1 30]) (run_reach ex1_reach _) 30 (by decide +kernel)
  have hn : getAssetId (run ex1 [.updateType 1 30]) 30 = none := by decide +kernel
  rw [hn] at hid
  cases hid

/-- C144, what holds: in histories without an update of an asset to the type it already has, every accepted
type leads to an id (and that id has the type, `C142_back_partial`). -/
theorem C144_fee_asset_registered_partial (h : ReachBy RealUpdate s) {t : τ} (ht : paymentIsSupported s t = true) :
    ∃ id, getAssetId s t = some id := by
  rw [C141_supported_iff_rate h.reach] at ht
  revert ht t
  show ∀ t, (∃ u, s.units t = some u) → ∃ id, s.typeId t = some id
  induction h with
  | init => rintro t ⟨u, hu⟩; cases hu
  | @call s0 s1 h0 auth k hk he ih =>
    rintro x ⟨u, hu⟩
    cases k with
    | register id t =>
      obtain ⟨-, hn, rfl⟩ := register_iff.1 he
      dsimp only at hu ⊢
      by_cases hx : x = t
      · subst hx; exact ⟨id, upd_same _ _ _⟩
      · rw [upd_of_ne _ _ hx]; exact ih x ⟨u, hu⟩
    | updateUnits t n =>
      obtain ⟨-, hn, rfl⟩ := updateUnits_iff.1 he
      dsimp only at hu ⊢
      by_cases hx : x = t
      · subst hx; exact Option.ne_none_iff_exists'.1 hn
      · rw [upd_of_ne _ _ hx] at hu; exact ih x ⟨u, hu⟩
    | updateType id new =>
      obtain ⟨-, old, ho, rfl⟩ := updateType_iff.1 he
      have hno : new ≠ old := by rintro rfl; exact hk ho
      rw [moveUnits_units] at hu
      rw [moveUnits_typeId]
      dsimp only at hu ⊢
      by_cases hxn : x = new
      · subst hxn; exact ⟨id, by rw [upd_of_ne _ _ hno, upd_same]⟩
      · have hxo : x ≠ old := by
          rintro rfl
          split at hu
          · rename_i hz; rw [hz] at hu; cases hu
          · rw [upd_of_ne _ _ hxn, upd_same] at hu; cases hu
        rw [upd_of_ne _ _ hxo, upd_of_ne _ _ hxn]
        refine ih x ⟨u, ?_⟩
        split at hu
        · exact hu
        · rw [upd_of_ne _ _ hxn, upd_of_ne _ _ hxo] at hu; exact hu
    | removeFee t =>
      obtain ⟨-, rfl⟩ := removeFee_iff.1 he
      dsimp only at hu ⊢
      have : x ≠ t := by rintro rfl; rw [upd_same] at hu; cases hu
      rw [upd_of_ne _ _ this] at hu
      exact ih x ⟨u, hu⟩
    | deregister id =>
      obtain ⟨-, t, ht, rfl⟩ := deregister_iff.1 he
      dsimp only at hu ⊢
      have hxt : x ≠ t := by rintro rfl; rw [upd_same] at hu; cases hu
      rw [upd_of_ne _ _ hxt] at hu ⊢
      exact ih x ⟨u, hu⟩

example : ∃ s : State Nat, ReachBy RealUpdate s ∧ paymentIsSupported s 40 = true := by
  refine ⟨_, .call (.call (.call .init true (.register 1 30) trivial rfl) true (.updateUnits 30 5) trivial rfl) true
    (.updateType 1 40) ?_ rfl, by decide +kernel⟩
  intro h
  exact absurd h (by decide +kernel)

end Verif.Registry
