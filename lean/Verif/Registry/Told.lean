import Verif.Registry.Props

/-!
# C244: the events of the asset registry tell what happened

`execE` is `exec` (Registry/Model.lean) that also returns the deposited events; `C244_same` says that the two agree.
-/

namespace Verif.Registry
open Verif
variable {τ : Type} [LinearOrder τ]

/-- `Event` (`pallets/asset-registry/src/lib.rs:71-95`). -/
inductive Ann (τ : Type) where
  | registered (id : Nat) (t : τ)
  | units (t : τ) (n : Nat)
  | typed (id : Nat) (new : τ)
  | deregistered (id : Nat) (t : τ)
  | feeRemoved (t : τ)
deriving DecidableEq

/-- The extrinsics with their events (`pallets/asset-registry/src/lib.rs:131-296`); the event of `deregister_asset` names
the type read before it is removed. -/
def execE (auth : Bool) (s : State τ) : Call τ → R (State τ × List (Ann τ))
  | .register id t => do
    let s ← register auth s id t
    pure (s, [.registered id t])
  | .updateUnits t n => do
    let s ← updateUnits auth s t n
    pure (s, [.units t n])
  | .updateType id new => do
    let s ← updateType auth s id new
    pure (s, [.typed id new])
  | .removeFee t => do
    let s ← removeFee auth s t
    pure (s, [.feeRemoved t])
  | .deregister id => do
    ensure (auth = true) .badOrigin
    let t ← okOr (s.idType id) .assetDoesNotExist
    let s ← deregister auth s id
    pure (s, [.deregistered id t])

/-! ## Specification -/

/-- What an observer notes down. -/
structure Notes (τ : Type) where
  type : Nat → Option τ
  id : τ → Option Nat
  rate : τ → Option Nat

/-- An empty page. -/
def Notes.empty (τ : Type) : Notes τ := ⟨fun _ => none, fun _ => none, fun _ => none⟩

/-- An observer who sees only the events. When an asset gets a new type, its old type leads nowhere any more and the rate of
the old type is now that of the new one: the event does not name the old type, the notes do. -/
def Notes.see (n : Notes τ) : Ann τ → Notes τ
  | .registered i t => { n with
      type := fun j => if j = i then some t else n.type j
      id := fun x => if x = t then some i else n.id x }
  | .units t r => { n with rate := fun x => if x = t then some r else n.rate x }
  | .typed i new => ⟨fun j => if j = i then some new else n.type j,
      fun x => if n.type i = some x then none else if x = new then some i else n.id x,
      match n.type i with
      | none => n.rate
      | some old => match n.rate old with
        | none => n.rate
        | some r => fun x => if x = new then some r else if x = old then none else n.rate x⟩
  | .deregistered i t => ⟨fun j => if j = i then none else n.type j, fun x => if x = t then none else n.id x,
      fun x => if x = t then none else n.rate x⟩
  | .feeRemoved t => { n with rate := fun x => if x = t then none else n.rate x }

/-- The notes after a list of events. -/
def Notes.after (es : List (Ann τ)) : Notes τ := es.foldl Notes.see (Notes.empty τ)

/-- Histories with the events of all calls, in order. -/
inductive Told : State τ → List (Ann τ) → Prop
  | init : Told (State.empty τ) []
  | call {s s' : State τ} {es fs : List (Ann τ)} (h : Told s es) (auth : Bool) (k : Call τ)
      (hk : execE auth s k = .ok (s', fs)) : Told s' (es ++ fs)

/-- What an event claims about the state before the call (`s`) and the one after it (`s'`). -/
def Ann.holds (s s' : State τ) : Ann τ → Prop
  | .registered i t => getAssetType s i = none ∧ getAssetType s' i = some t ∧ getAssetId s' t = some i
  | .units t n => getUnits s' t = some n ∧ paymentIsSupported s' t = true
  | .typed i new => (∃ old, getAssetType s i = some old) ∧ getAssetType s' i = some new ∧
      (getAssetType s i ≠ some new → getAssetId s' new = some i)
  | .deregistered i t => getAssetType s i = some t ∧ getAssetType s' i = none ∧ getAssetId s' t = none ∧
      getUnits s' t = none ∧ paymentIsSupported s' t = false
  | .feeRemoved t => getUnits s' t = none ∧ paymentIsSupported s' t = false

/-- The asset ids an event mentions. -/
def Ann.names : Ann τ → Nat → Prop
  | .registered i _, j => j = i
  | .typed i _, j => j = i
  | .deregistered i _, j => j = i
  | _, _ => False

/-! ## Proofs -/

/-- **C244** (additional) The events are additional: acceptance, errors and the new state are those of `exec`. -/
theorem C244_same (auth : Bool) (s : State τ) (k : Call τ) : Prod.fst <$> execE auth s k = exec auth s k := by
  cases k with
  | deregister id =>
    simp only [execE, exec, deregister]
    cases auth
    · rfl
    · cases h : s.idType id <;> rfl
  | _ => simp only [execE, exec, map_bind, map_pure, bind_pure]

theorem execE_exec {auth : Bool} {s s' : State τ} {k : Call τ} {es : List (Ann τ)} (h : execE auth s k = .ok (s', es)) :
    exec auth s k = .ok s' := by
  rw [← C244_same, h]; rfl

theorem execE_ok {auth : Bool} {s s' : State τ} {k : Call τ} {es : List (Ann τ)} (h : execE auth s k = .ok (s', es)) :
    match k with
    | .register id t => es = [.registered id t]
    | .updateUnits t n => es = [.units t n]
    | .updateType id new => es = [.typed id new]
    | .removeFee t => es = [.feeRemoved t]
    | .deregister id => ∃ t, s.idType id = some t ∧ es = [.deregistered id t] := by
  cases k <;> simp only [execE, bind_ok_iff, ensure_ok_iff, okOr_ok_iff, pure_ok_iff, Prod.mk.injEq] at h
  case deregister id =>
    obtain ⟨_, _, t, ht, _, _, _, rfl⟩ := h
    exact ⟨t, ht, rfl⟩
  all_goals
    obtain ⟨_, _, _, rfl⟩ := h
    rfl

/-- The observer's view of the storage. -/
def noted (s : State τ) : Notes τ := ⟨s.idType, s.typeId, s.units⟩

theorem upd_eq {α β : Type} [DecidableEq α] (f : α → β) (a : α) (b : β) : upd f a b = fun x => if x = a then b else f x := by
  funext x
  by_cases h : x = a
  · subst h; simp
  · rw [upd_of_ne _ _ h, if_neg h]

theorem execE_notes {auth : Bool} {s s' : State τ} {k : Call τ} {es : List (Ann τ)} (h : execE auth s k = .ok (s', es)) :
    noted s' = es.foldl Notes.see (noted s) := by
  have hx := execE_exec h
  have he := execE_ok h
  cases k with
  | register id t =>
    obtain ⟨-, -, rfl⟩ := register_iff.1 hx
    dsimp only at he
    subst he
    simp only [noted, List.foldl_cons, List.foldl_nil, Notes.see, upd_eq]
  | updateUnits t n =>
    obtain ⟨-, -, rfl⟩ := updateUnits_iff.1 hx
    dsimp only at he
    subst he
    simp only [noted, List.foldl_cons, List.foldl_nil, Notes.see, upd_eq]
  | updateType id new =>
    obtain ⟨-, old, ho, rfl⟩ := updateType_iff.1 hx
    dsimp only at he
    subst he
    simp only [noted, List.foldl_cons, List.foldl_nil, Notes.see, moveUnits_idType, moveUnits_typeId, ho]
    have e1 : upd (upd s.typeId new (some id)) old none =
        fun x => if some old = some x then none else if x = new then some id else s.typeId x := by
      funext x
      rw [upd_eq, upd_eq]
      by_cases h1 : x = old
      · subst h1; simp
      · have : ¬ some old = some x := fun e => h1 (Option.some.inj e).symm
        simp [h1, this]
    rw [e1, upd_eq]
    congr 1
    unfold moveUnits
    dsimp only
    cases hu : s.units old with
    | none => rfl
    | some r =>
      dsimp only
      rw [upd_eq, upd_eq]
  | removeFee t =>
    obtain ⟨-, rfl⟩ := removeFee_iff.1 hx
    dsimp only at he
    subst he
    simp only [noted, List.foldl_cons, List.foldl_nil, Notes.see, upd_eq]
  | deregister id =>
    obtain ⟨-, t, ht, rfl⟩ := deregister_iff.1 hx
    obtain ⟨t', ht', rfl⟩ := he
    rw [ht] at ht'; cases ht'
    simp only [noted, List.foldl_cons, List.foldl_nil, Notes.see, upd_eq]

theorem Told.reach {s : State τ} {es : List (Ann τ)} (h : Told s es) : Reach s := by
  induction h with
  | init => exact .init
  | call h auth k hk ih => exact .call ih auth k trivial (execE_exec hk)

/-- **C244** (notes) Whoever has read all events knows, in every state that any history leads to, the type of every asset, the
asset of every type, the fee rate of every type, and with it which types are accepted for fees. -/
theorem C244_notes {s : State τ} {es : List (Ann τ)} (h : Told s es) :
    (∀ i, (Notes.after es).type i = getAssetType s i) ∧ (∀ t, (Notes.after es).id t = getAssetId s t) ∧
    (∀ t, (Notes.after es).rate t = getUnits s t) ∧
    ∀ t, ((Notes.after es).rate t).isSome = paymentIsSupported s t := by
  have e : Notes.after es = noted s := by
    induction h with
    | init => rfl
    | call h auth k hk ih => rw [execE_notes hk, ← ih]; unfold Notes.after; rw [List.foldl_append]
  rw [e]
  refine ⟨fun _ => rfl, fun _ => rfl, fun _ => rfl, fun t => ?_⟩
  have := C141_supported_iff_rate h.reach t
  show (s.units t).isSome = _
  rw [Bool.eq_iff_iff, this, Option.isSome_iff_exists]
  rfl

/-- **C244** (facts) In every reachable state an accepted call deposits exactly one event, what it claims is the case, and the
type of an asset it does not name stays as it was. -/
theorem C244_facts {s s' : State τ} (h : Reach s) {auth : Bool} {k : Call τ} {es : List (Ann τ)}
    (hk : execE auth s k = .ok (s', es)) :
    ∃ e, es = [e] ∧ e.holds s s' ∧ ∀ j, ¬ e.names j → getAssetType s' j = getAssetType s j := by
  have hx := execE_exec hk
  have hr : Reach s' := .call h auth k trivial hx
  have hsup := C141_supported_iff_rate hr
  have he := execE_ok hk
  cases k with
  | register id t =>
    obtain ⟨-, hn, rfl⟩ := register_iff.1 hx
    exact ⟨_, he, ⟨hn, upd_same _ _ _, upd_same _ _ _⟩, fun j hj => upd_of_ne _ _ hj⟩
  | updateUnits t n =>
    obtain ⟨-, -, rfl⟩ := updateUnits_iff.1 hx
    exact ⟨_, he, ⟨upd_same _ _ _, (hsup t).2 ⟨n, upd_same _ _ _⟩⟩, fun _ _ => rfl⟩
  | updateType id new =>
    obtain ⟨-, old, ho, rfl⟩ := updateType_iff.1 hx
    refine ⟨_, he, ⟨⟨old, ho⟩, ?_, fun hne => ?_⟩, fun j hj => ?_⟩
    · show (moveUnits _ old new).idType id = _
      rw [moveUnits_idType]; exact upd_same _ _ _
    · show (moveUnits _ old new).typeId new = _
      rw [moveUnits_typeId]
      have : new ≠ old := by rintro rfl; exact hne ho
      show upd (upd s.typeId new (some id)) old none new = _
      rw [upd_of_ne _ _ this]; exact upd_same _ _ _
    · show (moveUnits _ old new).idType j = _
      rw [moveUnits_idType]; exact upd_of_ne _ _ hj
  | removeFee t =>
    obtain ⟨-, rfl⟩ := removeFee_iff.1 hx
    have hu : upd s.units t none t = none := upd_same _ _ _
    refine ⟨_, he, ⟨hu, ?_⟩, fun _ _ => rfl⟩
    rw [← Bool.not_eq_true, hsup t]
    rintro ⟨u, hu'⟩
    change upd s.units t none t = some u at hu'
    rw [hu] at hu'; cases hu'
  | deregister id =>
    obtain ⟨-, t, ht, rfl⟩ := deregister_iff.1 hx
    obtain ⟨t', ht', rfl⟩ := he
    rw [ht] at ht'; cases ht'
    have hu : upd s.units t none t = none := upd_same _ _ _
    refine ⟨_, rfl, ⟨ht, upd_same _ _ _, upd_same _ _ _, hu, ?_⟩, fun j hj => upd_of_ne _ _ hj⟩
    rw [← Bool.not_eq_true, hsup t]
    rintro ⟨u, hu'⟩
    change upd s.units t none t = some u at hu'
    rw [hu] at hu'; cases hu'

/-- Every history has its events. -/
theorem C244_every {s : State τ} (h : Reach s) : ∃ es, Told s es := by
  induction h with
  | init => exact ⟨[], .init⟩
  | @call s0 s1 h auth k _ he ih =>
    obtain ⟨es, ih⟩ := ih
    have e := C244_same auth s0 k
    rw [he] at e
    cases hE : execE auth s0 k with
    | error err => rw [hE] at e; cases e
    | ok r =>
      obtain ⟨t, fs⟩ := r
      rw [hE] at e
      cases e
      exact ⟨_, .call ih auth k hE⟩

/-- An asset with a fee rate gets a new type and is then deregistered: what is announced, and what the reader notes. -/
example : (Prod.snd <$> execE true ex1 (.updateType 1 40)).toOption = some [.typed 1 40] ∧
    (Prod.snd <$> execE true (run ex1 [.updateType 1 40]) (.deregister 1)).toOption = some [.deregistered 1 40] ∧
    (Notes.after [.registered 1 30, .registered 2 10, .units 30 500, .units 10 700, .typed 1 40]).rate 40 = some 500 ∧
    (Notes.after [.registered 1 30, .registered 2 10, .units 30 500, .units 10 700, .typed 1 40]).id 30 = none := by
  decide +kernel

end Verif.Registry
