import Verif.Registry.Spec

/-! # Asset registry: binary search on sorted lists, invariants -/

namespace Verif.Registry
open Verif
variable {τ : Type} [LinearOrder τ]

/-- What a correct search returns. -/
def GoodSearch (xs : List τ) (t : τ) : Search → Prop
  | .found i => xs[i]? = some t
  | .missing i => i ≤ xs.length ∧ (∀ j x, xs[j]? = some x → j < i → x < t) ∧
      ∀ j x, xs[j]? = some x → i ≤ j → t < x

theorem sorted_lt {xs : List τ} (h : xs.Pairwise (· < ·)) {i j : Nat} {x y : τ}
    (hx : xs[i]? = some x) (hy : xs[j]? = some y) (hij : i < j) : x < y := by
  obtain ⟨hi, rfl⟩ := List.getElem?_eq_some_iff.1 hx
  obtain ⟨hj, rfl⟩ := List.getElem?_eq_some_iff.1 hy
  exact List.pairwise_iff_getElem.1 h i j hi hj hij

theorem searchLoop_good {xs : List τ} (h : xs.Pairwise (· < ·)) (t : τ) :
    ∀ (n l r : Nat), r - l < n → l ≤ r → r ≤ xs.length →
      (∀ j x, xs[j]? = some x → j < l → x < t) → (∀ j x, xs[j]? = some x → r ≤ j → t < x) →
      GoodSearch xs t (searchLoop xs t n l r) := by
  intro n
  induction n with
  | zero => intro l r hn; omega
  | succ n ih =>
    intro l r hn hlr hr hlo hhi
    unfold searchLoop
    by_cases hlt : l < r
    · rw [if_pos hlt]
      have hm1 : l ≤ l + (r - l) / 2 := by omega
      have hm2 : l + (r - l) / 2 < r := by omega
      revert hm1 hm2
      generalize l + (r - l) / 2 = m
      intro hm1 hm2
      have hmx : xs[m]? = some (xs[m]'(by omega)) := List.getElem?_eq_getElem (by omega)
      rw [hmx]
      dsimp only
      split
      · rename_i hc
        refine ih (m + 1) r (by omega) (by omega) hr ?_ hhi
        intro j x hj hjm
        rcases Nat.lt_or_ge j m with hh | hh
        · exact lt_trans (sorted_lt h hj hmx hh) hc
        · have : j = m := by omega
          subst this
          rw [hmx] at hj; cases hj; exact hc
      · split
        · rename_i hc hd
          refine ih l m (by omega) hm1 (by omega) hlo ?_
          intro j x hj hjm
          rcases Nat.lt_or_ge m j with hh | hh
          · exact lt_trans hd (sorted_lt h hmx hj hh)
          · have : j = m := by omega
            subst this
            rw [hmx] at hj; cases hj; exact hd
        · rename_i hc hd
          show xs[m]? = some t
          rw [hmx]
          exact congrArg some (le_antisymm (not_lt.1 hd) (not_lt.1 hc))
    · rw [if_neg hlt]
      have : l = r := by omega
      subst this
      exact ⟨hr, hlo, hhi⟩

theorem search_good {xs : List τ} (h : xs.Pairwise (· < ·)) (t : τ) : GoodSearch xs t (search xs t) := by
  refine searchLoop_good h t _ _ _ (by omega) (by omega) le_rfl ?_ ?_
  · intro j x _ hj; omega
  · intro j x hx hj
    have := (List.getElem?_eq_some_iff.1 hx).1
    omega

omit [LinearOrder τ] in
theorem mem_of_good_found {xs : List τ} {t : τ} {i : Nat} (h : xs[i]? = some t) : t ∈ xs :=
  List.mem_of_getElem? h

theorem not_mem_of_good_missing {xs : List τ} {t : τ} {i : Nat} (h : GoodSearch xs t (.missing i)) :
    t ∉ xs := by
  intro hm
  obtain ⟨j, hj⟩ := List.getElem?_of_mem hm
  rcases Nat.lt_or_ge j i with hh | hh
  · exact lt_irrefl _ (h.2.1 j t hj hh)
  · exact lt_irrefl _ (h.2.2 j t hj hh)

theorem mem_take_lt {xs : List τ} {t : τ} {i : Nat} (h : GoodSearch xs t (.missing i)) {x : τ}
    (hx : x ∈ xs.take i) : x < t := by
  obtain ⟨j, hj⟩ := List.getElem?_of_mem hx
  rw [List.getElem?_take] at hj
  split at hj
  · rename_i hji; exact h.2.1 j x hj hji
  · cases hj

theorem mem_drop_gt {xs : List τ} {t : τ} {i : Nat} (h : GoodSearch xs t (.missing i)) {x : τ}
    (hx : x ∈ xs.drop i) : t < x := by
  obtain ⟨j, hj⟩ := List.getElem?_of_mem hx
  rw [List.getElem?_drop] at hj
  exact h.2.2 _ x hj (by omega)

theorem addSupported_spec {xs : List τ} (h : xs.Pairwise (· < ·)) (t : τ) :
    (addSupported xs t).Pairwise (· < ·) ∧ ∀ x, x ∈ addSupported xs t ↔ x = t ∨ x ∈ xs := by
  have hg := search_good h t
  unfold addSupported
  revert hg
  cases search xs t with
  | found i =>
    intro hg
    refine ⟨h, fun x => ⟨.inr, ?_⟩⟩
    rintro (rfl | hx)
    · exact mem_of_good_found hg
    · exact hx
  | missing i =>
    intro hg
    have hsplit : xs.take i ++ xs.drop i = xs := List.take_append_drop i xs
    have hp : (xs.take i ++ xs.drop i).Pairwise (· < ·) := by rw [hsplit]; exact h
    rw [List.pairwise_append] at hp
    refine ⟨?_, ?_⟩
    · show (xs.take i ++ t :: xs.drop i).Pairwise (· < ·)
      rw [List.pairwise_append, List.pairwise_cons]
      refine ⟨hp.1, ⟨fun x hx => mem_drop_gt hg hx, hp.2.1⟩, ?_⟩
      intro x hx y hy
      rcases List.mem_cons.1 hy with rfl | hy
      · exact mem_take_lt hg hx
      · exact hp.2.2 x hx y hy
    · intro x
      show x ∈ xs.take i ++ t :: xs.drop i ↔ _
      have hx : x ∈ xs ↔ x ∈ xs.take i ∨ x ∈ xs.drop i := by
        rw [← List.mem_append, hsplit]
      rw [List.mem_append, List.mem_cons, hx]
      tauto

theorem dropSupported_spec {xs : List τ} (h : xs.Pairwise (· < ·)) (t : τ) :
    (dropSupported xs t).Pairwise (· < ·) ∧ ∀ x, x ∈ dropSupported xs t ↔ x ≠ t ∧ x ∈ xs := by
  have hg := search_good h t
  unfold dropSupported
  revert hg
  cases search xs t with
  | missing i =>
    intro hg
    refine ⟨h, fun x => ⟨fun hx => ⟨?_, hx⟩, fun hx => hx.2⟩⟩
    rintro rfl
    exact not_mem_of_good_missing hg hx
  | found i =>
    intro hg
    obtain ⟨hi, hit⟩ := List.getElem?_eq_some_iff.1 hg
    have hsplit : xs.take i ++ t :: xs.drop (i + 1) = xs := by
      rw [← hit, ← List.drop_eq_getElem_cons hi, List.take_append_drop]
    have hp : (xs.take i ++ t :: xs.drop (i + 1)).Pairwise (· < ·) := by rw [hsplit]; exact h
    rw [List.pairwise_append, List.pairwise_cons] at hp
    refine ⟨?_, ?_⟩
    · show (xs.take i ++ xs.drop (i + 1)).Pairwise (· < ·)
      rw [List.pairwise_append]
      exact ⟨hp.1, hp.2.1.2, fun x hx y hy => hp.2.2 x hx y (List.mem_cons_of_mem _ hy)⟩
    · intro x
      show x ∈ xs.take i ++ xs.drop (i + 1) ↔ _
      have hx : x ∈ xs ↔ x ∈ xs.take i ∨ x = t ∨ x ∈ xs.drop (i + 1) := by
        rw [← List.mem_cons, ← List.mem_append, hsplit]
      rw [List.mem_append, hx]
      constructor
      · rintro (h1 | h1)
        · refine ⟨?_, .inl h1⟩
          rintro rfl
          exact lt_irrefl _ (hp.2.2 _ h1 _ (List.mem_cons_self))
        · refine ⟨?_, .inr (.inr h1)⟩
          rintro rfl
          exact lt_irrefl _ (hp.2.1.1 _ h1)
      · rintro ⟨h1, h2 | h2 | h2⟩
        · exact .inl h2
        · exact absurd h2 h1
        · exact .inr h2

theorem supported_iff_mem {s : State τ} (h : s.supported.Pairwise (· < ·)) (t : τ) :
    paymentIsSupported s t = true ↔ t ∈ s.supported := by
  have hg := search_good h t
  unfold paymentIsSupported
  revert hg
  cases search s.supported t with
  | found i => intro hg; exact ⟨fun _ => mem_of_good_found hg, fun _ => rfl⟩
  | missing i => intro hg; exact ⟨fun h => (by cases h), fun h => absurd h (not_mem_of_good_missing hg)⟩

/-- The invariant of all histories. -/
structure Inv (s : State τ) : Prop where
  sorted : s.supported.Pairwise (· < ·)
  mem : ∀ t, t ∈ s.supported ↔ ∃ u, s.units t = some u
  back : ∀ t i, s.typeId t = some i → s.idType i = some t

theorem inv_empty : Inv (State.empty τ) :=
  ⟨List.Pairwise.nil, fun t => ⟨fun h => absurd h List.not_mem_nil, fun ⟨_, h⟩ => (by cases h)⟩,
    fun t i h => (by cases h)⟩

theorem register_iff {auth : Bool} {s s' : State τ} {id : Nat} {t : τ} :
    register auth s id t = .ok s' ↔ auth = true ∧ s.idType id = none ∧
      s' = { s with idType := upd s.idType id (some t), typeId := upd s.typeId t (some id) } := by
  simp only [register, bind_ok_iff, ensure_ok_iff, pure_ok_iff, exists_const]
  exact ⟨fun ⟨a, b, c⟩ => ⟨a, b, c.symm⟩, fun ⟨a, b, c⟩ => ⟨a, b, c.symm⟩⟩

theorem updateUnits_iff {auth : Bool} {s s' : State τ} {t : τ} {n : Nat} :
    updateUnits auth s t n = .ok s' ↔ auth = true ∧ s.typeId t ≠ none ∧
      s' = { s with supported := addSupported s.supported t, units := upd s.units t (some n) } := by
  simp only [updateUnits, bind_ok_iff, ensure_ok_iff, pure_ok_iff, exists_const]
  exact ⟨fun ⟨a, b, c⟩ => ⟨a, b, c.symm⟩, fun ⟨a, b, c⟩ => ⟨a, b, c.symm⟩⟩

theorem updateType_iff {auth : Bool} {s s' : State τ} {id : Nat} {new : τ} :
    updateType auth s id new = .ok s' ↔ auth = true ∧ ∃ old, s.idType id = some old ∧
      s' = moveUnits { s with
        idType := upd s.idType id (some new)
        typeId := upd (upd s.typeId new (some id)) old none } old new := by
  simp only [updateType, bind_ok_iff, ensure_ok_iff, pure_ok_iff, exists_const, okOr_ok_iff]
  exact ⟨fun ⟨a, b, c, d⟩ => ⟨a, b, c, d.symm⟩, fun ⟨a, b, c, d⟩ => ⟨a, b, c, d.symm⟩⟩

theorem removeFee_iff {auth : Bool} {s s' : State τ} {t : τ} :
    removeFee auth s t = .ok s' ↔ auth = true ∧
      s' = { s with supported := dropSupported s.supported t, units := upd s.units t none } := by
  simp only [removeFee, bind_ok_iff, ensure_ok_iff, pure_ok_iff, exists_const]
  exact ⟨fun ⟨a, c⟩ => ⟨a, c.symm⟩, fun ⟨a, c⟩ => ⟨a, c.symm⟩⟩

theorem deregister_iff {auth : Bool} {s s' : State τ} {id : Nat} :
    deregister auth s id = .ok s' ↔ auth = true ∧ ∃ t, s.idType id = some t ∧
      s' = ⟨upd s.idType id none, upd s.typeId t none, upd s.units t none, dropSupported s.supported t⟩ := by
  simp only [deregister, bind_ok_iff, ensure_ok_iff, pure_ok_iff, exists_const, okOr_ok_iff]
  exact ⟨fun ⟨a, b, c, d⟩ => ⟨a, b, c, d.symm⟩, fun ⟨a, b, c, d⟩ => ⟨a, b, c, d.symm⟩⟩

theorem moveUnits_idType (s : State τ) (o n : τ) : (moveUnits s o n).idType = s.idType := by
  unfold moveUnits; split <;> rfl
theorem moveUnits_typeId (s : State τ) (o n : τ) : (moveUnits s o n).typeId = s.typeId := by
  unfold moveUnits; split <;> rfl
theorem moveUnits_units (s : State τ) (o n : τ) : (moveUnits s o n).units =
    if s.units o = none then s.units else upd (upd s.units o none) n (s.units o) := by
  unfold moveUnits
  cases hu : s.units o with
  | none => rfl
  | some u => rfl

/-- The fee part of the invariant. -/
def FeeInv (sup : List τ) (units : τ → Option Nat) : Prop :=
  sup.Pairwise (· < ·) ∧ ∀ t, t ∈ sup ↔ ∃ u, units t = some u

theorem feeInv_add {sup : List τ} {units : τ → Option Nat} (h : FeeInv sup units) (t : τ) (n : Nat) :
    FeeInv (addSupported sup t) (upd units t (some n)) := by
  obtain ⟨h1, h2⟩ := addSupported_spec h.1 t
  refine ⟨h1, fun x => ?_⟩
  rw [h2 x]
  by_cases hx : x = t
  · subst hx; rw [upd_same]; simp
  · rw [upd_of_ne _ _ hx, ← h.2 x]; simp [hx]

theorem feeInv_drop {sup : List τ} {units : τ → Option Nat} (h : FeeInv sup units) (t : τ) :
    FeeInv (dropSupported sup t) (upd units t none) := by
  obtain ⟨h1, h2⟩ := dropSupported_spec h.1 t
  refine ⟨h1, fun x => ?_⟩
  rw [h2 x]
  by_cases hx : x = t
  · subst hx; rw [upd_same]; simp
  · rw [upd_of_ne _ _ hx, ← h.2 x]; simp [hx]

theorem feeInv_move {s : State τ} (h : FeeInv s.supported s.units) (o n : τ) :
    FeeInv (moveUnits s o n).supported (moveUnits s o n).units := by
  unfold moveUnits
  cases hu : s.units o with
  | none => exact h
  | some u => exact feeInv_add (feeInv_drop h o) n u

theorem inv_exec {auth : Bool} {s s' : State τ} {k : Call τ} (h : Inv s) (he : exec auth s k = .ok s') :
    Inv s' := by
  have hf : FeeInv s.supported s.units := ⟨h.sorted, h.mem⟩
  cases k with
  | register id t =>
    obtain ⟨-, hn, rfl⟩ := register_iff.1 he
    refine ⟨h.sorted, h.mem, ?_⟩
    intro x i hx
    dsimp only at hx ⊢
    by_cases hxt : x = t
    · subst hxt; rw [upd_same] at hx; cases hx; rw [upd_same]
    · rw [upd_of_ne _ _ hxt] at hx
      have h3 := h.back x i hx
      have : i ≠ id := by rintro rfl; rw [hn] at h3; cases h3
      rw [upd_of_ne _ _ this]; exact h3
  | updateUnits t n =>
    obtain ⟨-, -, rfl⟩ := updateUnits_iff.1 he
    have h2 := feeInv_add hf t n
    exact ⟨h2.1, h2.2, h.back⟩
  | updateType id new =>
    obtain ⟨-, old, ho, rfl⟩ := updateType_iff.1 he
    have h2 := feeInv_move (s := { s with
        idType := upd s.idType id (some new)
        typeId := upd (upd s.typeId new (some id)) old none }) hf old new
    refine ⟨h2.1, h2.2, ?_⟩
    rw [moveUnits_idType, moveUnits_typeId]
    intro x i hx
    dsimp only at hx ⊢
    by_cases hxo : x = old
    · subst hxo; rw [upd_same] at hx; cases hx
    · rw [upd_of_ne _ _ hxo] at hx
      by_cases hxn : x = new
      · subst hxn; rw [upd_same] at hx; cases hx; rw [upd_same]
      · rw [upd_of_ne _ _ hxn] at hx
        have h3 := h.back x i hx
        have : i ≠ id := by rintro rfl; rw [ho] at h3; cases h3; exact hxo rfl
        rw [upd_of_ne _ _ this]; exact h3
  | removeFee t =>
    obtain ⟨-, rfl⟩ := removeFee_iff.1 he
    have h2 := feeInv_drop hf t
    exact ⟨h2.1, h2.2, h.back⟩
  | deregister id =>
    obtain ⟨-, t, ht, rfl⟩ := deregister_iff.1 he
    have h2 := feeInv_drop hf t
    refine ⟨h2.1, h2.2, ?_⟩
    intro x i hx
    dsimp only at hx ⊢
    by_cases hxt : x = t
    · subst hxt; rw [upd_same] at hx; cases hx
    · rw [upd_of_ne _ _ hxt] at hx
      have h3 := h.back x i hx
      have : i ≠ id := by rintro rfl; rw [ht] at h3; cases h3; exact hxt rfl
      rw [upd_of_ne _ _ this]; exact h3

theorem ReachBy.inv {ok : State τ → Call τ → Prop} {s : State τ} (h : ReachBy ok s) : Inv s := by
  induction h with
  | init => exact inv_empty
  | call _ _ _ _ he ih => exact inv_exec ih he

theorem ReachBy.reach {ok : State τ → Call τ → Prop} {s : State τ} (h : ReachBy ok s) : Reach s := by
  induction h with
  | init => exact .init
  | call _ auth k _ he ih => exact .call ih auth k trivial he

end Verif.Registry
