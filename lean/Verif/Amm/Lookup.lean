import Verif.Amm.Props3

/-!
# C251: looking up pools

`AMM::get_pools`, `get_pool_by_lp_asset` and `get_pool_by_asset_pair` of `pallets/amm`. Storage maps are iterated in the order of
the hashes of their keys; the model takes any enumeration `ks` of the keys.
-/

namespace Verif.Amm
open Verif

/-- `get_pool_by_lp_asset` (`pallets/amm/src/lib.rs:1181-1194`): the first pool with this token, in the order of the iteration. -/
def poolByLp (s : State) : List (Nat × Nat) → Nat → Option (Nat × Nat × Pool)
  | [], _ => none
  | k :: ks, a => match s.pools k with
    | some p => if p.lp = a then some (k.1, k.2, p) else poolByLp s ks a
    | none => poolByLp s ks a

/-- `get_pool_by_asset_pair` (`pallets/amm/src/lib.rs:1197-1204`). -/
def poolByPair (s : State) (a b : Nat) : Option Pool :=
  match sortAssets a b with
  | .ok (_, base, quote) => s.pools (base, quote)
  | .error _ => none

/-! ## Specification -/

/-- `get_pools` (`pallets/amm/src/lib.rs:1175-1177`): every key of the map once, in any order. -/
structure Listing (s : State) (ks : List (Nat × Nat)) : Prop where
  nodup : ks.Nodup
  mem : ∀ k, k ∈ ks ↔ s.pools k ≠ none

/-- A pool of the two assets, whichever is named first. -/
def IsPool (s : State) (a b : Nat) (p : Pool) : Prop := s.pools (a, b) = some p ∨ s.pools (b, a) = some p

/-! ## Proofs -/

/-- No two pools have the same token. -/
theorem reach_lp {c : Cfg} (hc : c.OK) {s : State} (h : Reach c s) :
    ∀ k k' p p', s.pools k = some p → s.pools k' = some p' → p.lp = p'.lp → k = k' := by
  induction h with
  | init s hp hw => intro k k' p p' h; simp [hp] at h
  | @step s s' h hs ih =>
    have hi := h.inv hc
    cases hs with
    | env he => rw [he.pools]; exact ih
    | call k0 hk he =>
      obtain ⟨-, h0 | ⟨k1, q, q', hq, hu, hl, -⟩ | ⟨k1, q', hq, hu, -, hz, -⟩⟩ := exec_pools he
      · rw [h0]; exact ih
      · have key : ∀ k p, s'.pools k = some p → ∃ p0, s.pools k = some p0 ∧ p0.lp = p.lp := by
          intro k p hp
          rw [hu] at hp
          by_cases e : k = k1
          · subst e
            rw [upd_same] at hp
            cases hp
            exact ⟨q, hq, hl.symm⟩
          · rw [upd_of_ne _ _ e] at hp
            exact ⟨p, hp, rfl⟩
        intro k k' p p' h1 h2 h3
        obtain ⟨r, hr, e⟩ := key k p h1
        obtain ⟨r', hr', e'⟩ := key k' p' h2
        exact ih k k' r r' hr hr' (by rw [e, e', h3])
      · have old : ∀ k p, k ≠ k1 → s'.pools k = some p → s.pools k = some p ∧ p.lp ≠ q'.lp := by
          intro k p hk hp
          rw [hu, upd_of_ne _ _ hk] at hp
          have hpos := (hi.pool k p hp).2.2.1
          have hle := Ledger.bal_le_iss hi.wf p.lp c.lock
          have := hc.minLiq
          refine ⟨hp, fun e => ?_⟩
          rw [e, hz] at hle
          rw [e] at hpos
          omega
        have new : ∀ p, s'.pools k1 = some p → p = q' := by
          intro p hp
          rw [hu, upd_same] at hp
          cases hp; rfl
        intro k k' p p' h1 h2 h3
        by_cases e : k = k1 <;> by_cases e' : k' = k1
        · rw [e, e']
        · subst e
          obtain rfl := new p h1
          exact absurd h3.symm (old k' p' e' h2).2
        · subst e'
          obtain rfl := new p' h2
          exact absurd h3 (old k p e h1).2
        · exact ih k k' p p' (old k p e h1).1 (old k' p' e' h2).1 h3

/-- **C251** (tokens) Two different pools never have the same token. -/
theorem C251_unique {c : Cfg} (hc : c.OK) {s : State} (h : Reach c s) {k k' : Nat × Nat} {p p' : Pool}
    (hp : s.pools k = some p) (hp' : s.pools k' = some p') (he : p.lp = p'.lp) : k = k' ∧ p = p' := by
  obtain rfl := reach_lp hc h k k' p p' hp hp' he
  rw [hp] at hp'
  cases hp'
  exact ⟨rfl, rfl⟩

theorem poolByLp_some {s : State} : ∀ {ks : List (Nat × Nat)} {a b q : Nat} {p : Pool},
    poolByLp s ks a = some (b, q, p) → (b, q) ∈ ks ∧ s.pools (b, q) = some p ∧ p.lp = a
  | [], _, _, _, _, h => by cases h
  | k :: ks, a, b, q, p, h => by
    unfold poolByLp at h
    split at h
    · rename_i p0 hp
      split at h
      · rename_i hl
        cases h
        exact ⟨List.mem_cons_self, hp, hl⟩
      · obtain ⟨h1, h2, h3⟩ := poolByLp_some h
        exact ⟨List.mem_cons_of_mem _ h1, h2, h3⟩
    · obtain ⟨h1, h2, h3⟩ := poolByLp_some h
      exact ⟨List.mem_cons_of_mem _ h1, h2, h3⟩

theorem poolByLp_none {s : State} : ∀ {ks : List (Nat × Nat)} {a : Nat}, poolByLp s ks a = none →
    ∀ k p, k ∈ ks → s.pools k = some p → p.lp ≠ a
  | [], _, _, _, _, h, _ => by cases h
  | k0 :: ks, a, h, k, p, hk, hp => by
    unfold poolByLp at h
    rcases List.mem_cons.1 hk with rfl | hk
    · rw [hp] at h
      dsimp only at h
      split at h
      · cases h
      · rename_i hl; exact hl
    · split at h
      · split at h
        · cases h
        · exact poolByLp_none h k p hk hp
      · exact poolByLp_none h k p hk hp

/-- **C251** (by token) In every state any history leads to, the pool found for a token is the pool that has this token, with the
assets it is a pool of; nothing is found exactly if there is none. The order of the iteration does not matter. -/
theorem C251_byLp {c : Cfg} (hc : c.OK) {s : State} (h : Reach c s) {ks : List (Nat × Nat)} (hl : Listing s ks) (a : Nat) :
    (∀ b q p, poolByLp s ks a = some (b, q, p) ↔ s.pools (b, q) = some p ∧ p.lp = a) ∧
    (poolByLp s ks a = none ↔ ∀ k p, s.pools k = some p → p.lp ≠ a) := by
  have m : ∀ k p, s.pools k = some p → k ∈ ks := fun k p hp => (hl.mem k).2 (by rw [hp]; simp)
  have fwd : ∀ b q p, s.pools (b, q) = some p → p.lp = a → poolByLp s ks a = some (b, q, p) := by
    intro b q p hp he
    cases hx : poolByLp s ks a with
    | none => exact absurd he (poolByLp_none hx _ _ (m _ _ hp) hp)
    | some r =>
      obtain ⟨b', q', p'⟩ := r
      obtain ⟨-, h2, h3⟩ := poolByLp_some hx
      obtain ⟨e, rfl⟩ := C251_unique hc h hp h2 (he.trans h3.symm)
      cases e
      rfl
  refine ⟨fun b q p => ⟨fun hx => (poolByLp_some hx).2, fun ⟨h1, h2⟩ => fwd b q p h1 h2⟩, fun hx k p hp => ?_, fun hn => ?_⟩
  · exact poolByLp_none hx k p (m k p hp) hp
  · cases hx : poolByLp s ks a with
    | none => rfl
    | some r =>
      obtain ⟨b', q', p'⟩ := r
      obtain ⟨-, h2, h3⟩ := poolByLp_some hx
      exact absurd h3 (hn _ _ h2)

/-- **C251** (order) Two nodes that iterate in different orders find the same pool. -/
theorem C251_order {c : Cfg} (hc : c.OK) {s : State} (h : Reach c s) {ks js : List (Nat × Nat)} (hl : Listing s ks)
    (hj : Listing s js) (a : Nat) : poolByLp s ks a = poolByLp s js a := by
  cases hx : poolByLp s ks a with
  | none => exact (((C251_byLp hc h hj a).2).2 (((C251_byLp hc h hl a).2).1 hx)).symm
  | some r =>
    obtain ⟨b, q, p⟩ := r
    exact ((((C251_byLp hc h hj a).1) b q p).2 ((((C251_byLp hc h hl a).1) b q p).1 hx)).symm

/-- **C251** (listing) The list has exactly as many entries as any other list of the pools, each a pair of different assets, and
no pair of assets twice in either order. -/
theorem C251_listing {c : Cfg} (hc : c.OK) {s : State} (h : Reach c s) {ks : List (Nat × Nat)} (hl : Listing s ks) :
    (∀ js, Listing s js → js.length = ks.length) ∧ (∀ k ∈ ks, k.2 < k.1) ∧ (∀ a b, (a, b) ∈ ks → (b, a) ∉ ks) := by
  have hs : ∀ k ∈ ks, k.2 < k.1 := by
    intro k hk
    cases hp : s.pools k with
    | none => exact absurd hp ((hl.mem k).1 hk)
    | some p => exact ((h.inv hc).pool k p hp).2.2.2
  refine ⟨fun js hj => ?_, hs, fun a b h1 h2 => ?_⟩
  · exact ((List.perm_ext_iff_of_nodup hj.nodup hl.nodup).2 (fun k => (hj.mem k).trans (hl.mem k).symm)).length_eq
  · have := hs _ h1
    have := hs _ h2
    dsimp only at *
    omega

/-- **C251** (by pair) The pool found for two assets is the pool of these assets, whichever is named first; for an asset with itself
nothing is found. -/
theorem C251_byPair {c : Cfg} (hc : c.OK) {s : State} (h : Reach c s) (a b : Nat) :
    (∀ p, poolByPair s a b = some p ↔ IsPool s a b p) ∧ poolByPair s a b = poolByPair s b a ∧ poolByPair s a a = none := by
  have hi := h.inv hc
  have one : ∀ x y p, poolByPair s x y = some p ↔ IsPool s x y p := by
    intro x y p
    unfold poolByPair sortAssets IsPool
    by_cases h1 : x > y
    · rw [if_pos h1]
      refine ⟨Or.inl, fun g => g.elim id fun g => ?_⟩
      have := (hi.pool _ _ g).2.2.2
      dsimp only at this
      omega
    · by_cases h2 : x < y
      · rw [if_neg h1, if_pos h2]
        refine ⟨Or.inr, fun g => g.elim (fun g => ?_) id⟩
        have := (hi.pool _ _ g).2.2.2
        dsimp only at this
        omega
      · rw [if_neg h1, if_neg h2]
        refine ⟨fun g => (by cases g), fun g => ?_⟩
        have hd : y < x ∨ x < y := by
          rcases g with g | g
          · exact .inl (hi.pool _ _ g).2.2.2
          · exact .inr (hi.pool _ _ g).2.2.2
        omega
  have flip : ∀ p, poolByPair s a b = some p ↔ poolByPair s b a = some p := fun p => by
    rw [one, one]; exact or_comm
  refine ⟨one a b, Option.ext flip, ?_⟩
  simp [poolByPair, sortAssets]

/-- **C251** (stable) Whatever happens in a step of the chain, a pool stays the pool of its token and of its two assets. -/
theorem C251_stable {c : Cfg} (hc : c.OK) {s s' : State} (h : Reach c s) (hs : Step c s s') {ks ks' : List (Nat × Nat)}
    (hl : Listing s ks) (hl' : Listing s' ks') {a b q : Nat} {p : Pool} (hp : poolByLp s ks a = some (b, q, p)) :
    ∃ p', poolByLp s' ks' a = some (b, q, p') ∧ poolByPair s' b q = some p' ∧ poolByPair s' q b = some p' := by
  have h' : Reach c s' := .step h hs
  obtain ⟨h1, rfl⟩ := (((C251_byLp hc h hl a).1) b q p).1 hp
  have key : ∃ p', s'.pools (b, q) = some p' ∧ p'.lp = p.lp := by
    cases hs with
    | env he => rw [he.pools]; exact ⟨p, h1, rfl⟩
    | call k0 hk he =>
      obtain ⟨-, h0 | ⟨k1, r, r', hq, hu, hlp, -⟩ | ⟨k1, r', hq, hu, -⟩⟩ := exec_pools he
      · rw [h0]; exact ⟨p, h1, rfl⟩
      · rw [hu]
        by_cases e : (b, q) = k1
        · subst e
          rw [hq] at h1
          cases h1
          exact ⟨r', upd_same _ _ _, hlp⟩
        · rw [upd_of_ne _ _ e]; exact ⟨p, h1, rfl⟩
      · have e : (b, q) ≠ k1 := fun e => by rw [e, hq] at h1; cases h1
        rw [hu, upd_of_ne _ _ e]; exact ⟨p, h1, rfl⟩
  obtain ⟨p', hp', e⟩ := key
  exact ⟨p', (((C251_byLp hc h' hl' _).1) b q p').2 ⟨hp', e⟩, (((C251_byPair hc h' b q).1) p').2 (.inl hp'),
    (((C251_byPair hc h' q b).1) p').2 (.inr hp')⟩

/-- The example pool of assets 1 and 2 has token 50. -/
example : Listing ex1 [(2, 1)] ∧ (poolByLp ex1 [(2, 1)] 50).map (fun r => (r.1, r.2.1, r.2.2.base)) = some (2, 1, 20000) ∧
    poolByLp ex1 [(2, 1)] 51 = none ∧ (poolByPair ex1 1 2).map Pool.lp = some 50 := by
  refine ⟨⟨by simp, fun k => ?_⟩, by decide +kernel, by decide +kernel, by decide +kernel⟩
  rw [List.mem_singleton]
  constructor
  · rintro rfl
    have : (ex1.pools (2, 1)).isSome = true := by decide +kernel
    intro e
    rw [e] at this
    cases this
  · intro hk
    have hx : okAnd (createPool exCfg ex0 (1, 2) (5000, 20000) 7 50) (fun _ => true) = true := by decide +kernel
    obtain ⟨s', hs, -⟩ := okAnd_iff.1 hx
    obtain ⟨b, q, ba, qa, s2, p2, hpair, -, -, hadd, hs'⟩ := createPool_ok hs
    obtain ⟨l0, liq, _, _, _, e0, _, _, _, hs2, _⟩ := doAdd_ok hadd
    have e1 : ex1 = s' := by unfold ex1; rw [hs]; rfl
    have e2 : ex1.pools = upd ex0.pools (b, q) (some p2) := by rw [e1, hs', hs2]
    rcases hpair with ⟨hh, _⟩ | ⟨_, rfl, rfl, _⟩
    · exact absurd hh (by decide)
    · by_contra hne
      rw [e2, upd_of_ne _ _ hne] at hk
      exact hk rfl

end Verif.Amm
