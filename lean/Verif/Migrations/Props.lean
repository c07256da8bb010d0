import Verif.Migrations.Model
import Verif.Registry.Props
import Verif.Crowdloans.Props2
import Mathlib.Data.Prod.Lex
import Mathlib.Data.List.Lex

/-!
# C171–C175: storage migrations
-/

namespace Verif.Migrations
open Verif

/-! ### C171: the migration of the current runtime -/

/-- Any calls of the crowdloans pallet, and anything else on the chain, between two upgrades. -/
inductive Later (c : Crowdloans.Cfg) (D : Nat → Prop) : Loan → Loan → Prop
  | refl {s : Loan} : Later c D s s
  | call {s t : Loan} {x : Crowdloans.Call} {r : Crowdloans.State} :
      Later c D s t → Crowdloans.exec c t.core x = .ok r → Later c D s ⟨r, t.version⟩
  | env {s t : Loan} {r : Crowdloans.State} : Later c D s t → Crowdloans.Env c D t.core r → Later c D s ⟨r, t.version⟩

/-- **C171.** Once an upgrade has corrected the vault, later upgrades with the same migration change nothing, whatever
users did in between. -/
def C171_statement : Prop :=
  ∀ (c : Crowdloans.Cfg) (D : Nat → Prop) (s t : Loan), Later c D (migrate4 s) t → migrate4 t = t

/-- **C171, effect.** The migration changes at most what one vault has invested: the vault of parachain 2040 with lease 8
to 15, if the storage version is 3 and the slot has expired, and the amount becomes the fixed one. -/
theorem C171_effect (s : Loan) :
    (migrate4 s).version = s.version ∧
    (migrate4 s).core = { s.core with vaults := (migrate4 s).core.vaults } ∧
    (∀ k, k ≠ fixedKey → (migrate4 s).core.vaults k = s.core.vaults k) ∧
    (migrate4 s).core.vaults fixedKey = (s.core.vaults fixedKey).map (fun v =>
      if s.version = .v3 ∧ v.phase = .expired then { v with contributed := fixedAmount } else v) := by
  unfold migrate4
  by_cases hv : s.version = .v3
  · rw [if_pos hv]
    cases h : s.core.vaults fixedKey with
    | none => exact ⟨rfl, rfl, fun _ _ => rfl, h⟩
    | some v =>
      dsimp only
      by_cases hp : v.phase = .expired
      · rw [if_pos hp]
        refine ⟨rfl, rfl, fun k hk => upd_of_ne _ _ hk, ?_⟩
        dsimp only [Option.map_some]
        rw [upd_same, if_pos ⟨hv, hp⟩]
      · rw [if_neg hp]
        refine ⟨rfl, rfl, fun _ _ => rfl, ?_⟩
        rw [h]
        dsimp only [Option.map_some]
        rw [if_neg (fun e => hp e.2)]
  · rw [if_neg hv]
    refine ⟨rfl, rfl, fun _ _ => rfl, ?_⟩
    cases h : s.core.vaults fixedKey with
    | none => rfl
    | some v =>
      dsimp only [Option.map_some]
      rw [if_neg (fun e => hv e.1)]

/-- **C171, when it is harmless.** An upgrade changes nothing exactly if the version is not 3, or the vault has not expired,
or it still has exactly the fixed amount invested. -/
theorem C171_harmless_partial (s : Loan) :
    migrate4 s = s ↔
      (s.version = .v3 → ∀ v, s.core.vaults fixedKey = some v → v.phase = .expired → v.contributed = fixedAmount) := by
  constructor
  · intro h hv v hk hp
    have := (C171_effect s).2.2.2
    rw [h, hk] at this
    have e : some v = some (if s.version = .v3 ∧ v.phase = .expired then { v with contributed := fixedAmount } else v) := this
    rw [if_pos ⟨hv, hp⟩, Option.some.injEq] at e
    have := congrArg Crowdloans.Vault.contributed e
    exact this
  · intro h
    unfold migrate4
    by_cases hv : s.version = .v3
    · rw [if_pos hv]
      cases hk : s.core.vaults fixedKey with
      | none => rfl
      | some v =>
        dsimp only
        by_cases hp : v.phase = .expired
        · rw [if_pos hp]
          have hc := h hv v hk hp
          have : { v with contributed := fixedAmount } = v := by
            rcases v with ⟨_, _, _, _, _, _, _, _, _⟩
            dsimp only at hc
            rw [hc]
          rw [this, ← hk, upd_eq_self]
        · rw [if_neg hp]
    · rw [if_neg hv]

/-- **C171, twice in a row.** Repeating the migration at once changes nothing. -/
theorem C171_twice_partial (s : Loan) : migrate4 (migrate4 s) = migrate4 s := by
  rw [C171_harmless_partial]
  obtain ⟨h1, -, -, h4⟩ := C171_effect s
  intro hv v hk hp
  rw [h4] at hk
  cases h : s.core.vaults fixedKey with
  | none =>
    rw [h] at hk
    cases hk
  | some w =>
    rw [h] at hk
    have e : (if s.version = .v3 ∧ w.phase = .expired then { w with contributed := fixedAmount } else w) = v :=
      Option.some.inj hk
    rw [h1] at hv
    by_cases hw : w.phase = .expired
    · rw [if_pos ⟨hv, hw⟩] at e
      rw [← e]
    · rw [if_neg (fun q => hw q.2)] at e
      rw [e] at hw
      exact absurd hp hw

/-- No call changes the storage version, so the migration stays armed for ever. -/
theorem C171_armed (c : Crowdloans.Cfg) (D : Nat → Prop) (s t : Loan) (h : Later c D s t) : t.version = s.version := by
  induction h with
  | refl => rfl
  | call _ _ ih => exact ih
  | env _ _ ih => exact ih

/-- Version 3 after the third migration, on a chain where user 7 holds 2000 derivative tokens. -/
def ex4 : Loan := migrate3 ⟨{ Crowdloans.ex0 with
  str := { Crowdloans.ex0.str with ledger := Ledger.ofList [(200080015, 7, 2000)] } }, .v2⟩

/-- **C171 is false**: an upgrade, a redemption of 1000, another upgrade — and the vault again shows the full amount. -/
theorem C171_refuted : ¬ C171_statement := by
  intro h
  have hr : ∃ r, Crowdloans.exec Crowdloans.exC (migrate4 ex4).core (.redeem 7 fixedKey 1000) = .ok r ∧
      (r.vaults fixedKey).map Crowdloans.Vault.contributed = some (fixedAmount - 1000) := by
    have e : okAnd (Crowdloans.exec Crowdloans.exC (migrate4 ex4).core (.redeem 7 fixedKey 1000))
      (fun r => decide ((r.vaults fixedKey).map Crowdloans.Vault.contributed = some (fixedAmount - 1000))) = true := by
      decide +kernel
    obtain ⟨r, h1, h2⟩ := okAnd_iff.1 e
    exact ⟨r, h1, by simpa using h2⟩
  obtain ⟨r, h1, h2⟩ := hr
  have h3 := h Crowdloans.exC Crowdloans.exD ex4 _ (.call .refl h1)
  have hp : okAnd (Crowdloans.exec Crowdloans.exC (migrate4 ex4).core (.redeem 7 fixedKey 1000))
      (fun r => decide ((r.vaults fixedKey).map Crowdloans.Vault.phase = some .expired)) = true := by decide +kernel
  obtain ⟨r', h1', h4⟩ := okAnd_iff.1 hp
  rw [h1] at h1'
  cases h1'
  have h4 : (r.vaults fixedKey).map Crowdloans.Vault.phase = some .expired := by simpa using h4
  cases hv : r.vaults fixedKey with
  | none =>
    rw [hv] at h2
    cases h2
  | some v =>
    rw [hv] at h2 h4
    have h5 := (C171_harmless_partial _).1 h3 (show (migrate4 ex4).version = .v3 by decide +kernel) v hv (Option.some.inj h4)
    have h6 := Option.some.inj h2
    rw [h5] at h6
    revert h6
    decide

/-! ### C172: migrations that add vaults -/

/-- The vaults have different child storages, and the next index is free. -/
def Apart (s : Crowdloans.State) : Prop :=
  (∀ k v, s.vaults k = some v → v.trie < s.nextTrie) ∧
  ∀ k k' v v', s.vaults k = some v → s.vaults k' = some v' → v.trie = v'.trie → k = k'

/-- **C172.** Migrations keep the child storages of vaults apart. -/
def C172_statement : Prop :=
  ∀ s : Loan, Apart s.core → Apart (migrate1 s).core ∧ Apart (migrate2 s).core ∧ Apart (migrate3 s).core

theorem putRow_other {p : Crowdloans.Phase} {s : Crowdloans.State} {r : Row} {k : Crowdloans.Key} (h : k ≠ r.key) :
    (putRow p s r).vaults k = s.vaults k := upd_of_ne _ _ h

theorem fold_vaults (p : Crowdloans.Phase) (rs : List Row) (s : Crowdloans.State) (hn : (rs.map Row.key).Nodup) :
    (∀ k, (∀ r ∈ rs, r.key ≠ k) → (rs.foldl (putRow p) s).vaults k = s.vaults k) ∧
    ∀ r ∈ rs, (rs.foldl (putRow p) s).vaults r.key =
      some ⟨r.ctoken, p, r.raised, 0, 0, false, r.cap, r.endBlock, r.trie⟩ := by
  induction rs generalizing s with
  | nil => exact ⟨fun _ _ => rfl, fun r hr => by cases hr⟩
  | cons r rs ih =>
    rw [List.map_cons, List.nodup_cons] at hn
    obtain ⟨h1, h2⟩ := ih (putRow p s r) hn.2
    refine ⟨fun k hk => ?_, fun q hq => ?_⟩
    · rw [List.foldl_cons, h1 k (fun q hq => hk q (List.mem_cons_of_mem _ hq))]
      exact putRow_other (fun e => hk r List.mem_cons_self e.symm)
    · rw [List.foldl_cons]
      rcases List.mem_cons.1 hq with rfl | hq
      · rw [h1 q.key (fun q' hq' e => hn.1 (e ▸ List.mem_map_of_mem hq'))]
        exact upd_same _ _ _
      · exact h2 q hq

theorem fold_next (p : Crowdloans.Phase) (rs : List Row) (s : Crowdloans.State) :
    rs.foldl (putRow p) s = { s with
      vaults := (rs.foldl (putRow p) s).vaults
      ctokenOf := (rs.foldl (putRow p) s).ctokenOf
      leaseOf := (rs.foldl (putRow p) s).leaseOf } := by
  induction rs generalizing s with
  | nil => rfl
  | cons r rs ih =>
    rw [List.foldl_cons, ih (putRow p s r)]
    rfl

/-- Rows with fresh and different indices keep vaults apart. -/
theorem fold_apart {p : Crowdloans.Phase} {rs : List Row} {s : Crowdloans.State} {n : Nat} (hs : Apart s)
    (hn : (rs.map Row.key).Nodup) (ht : (rs.map Row.trie).Nodup) (hlo : ∀ r ∈ rs, s.nextTrie ≤ r.trie)
    (hhi : ∀ r ∈ rs, r.trie < n) (hle : s.nextTrie ≤ n) :
    Apart { rs.foldl (putRow p) s with nextTrie := n } := by
  obtain ⟨h1, h2⟩ := fold_vaults p rs s hn
  have cases : ∀ k v, (rs.foldl (putRow p) s).vaults k = some v →
      (∃ r ∈ rs, r.key = k ∧ v.trie = r.trie) ∨ ((∀ r ∈ rs, r.key ≠ k) ∧ s.vaults k = some v) := by
    intro k v hk
    by_cases hr : ∃ r ∈ rs, r.key = k
    · obtain ⟨r, hr, rfl⟩ := hr
      rw [h2 r hr] at hk
      cases hk
      exact Or.inl ⟨r, hr, rfl, rfl⟩
    · push Not at hr
      rw [h1 k hr] at hk
      exact Or.inr ⟨hr, hk⟩
  refine ⟨?_, ?_⟩
  · intro k v hk
    show v.trie < n
    rcases cases k v hk with ⟨r, hr, -, e⟩ | ⟨-, h⟩
    · rw [e]
      exact hhi r hr
    · exact Nat.lt_of_lt_of_le (hs.1 k v h) hle
  · intro k k' v v' hk hk' e
    rcases cases k v hk with ⟨r, hr, rfl, e1⟩ | ⟨-, h⟩ <;> rcases cases k' v' hk' with ⟨r', hr', rfl, e2⟩ | ⟨-, h'⟩
    · have : r = r' := by
        rw [e1, e2] at e
        exact List.inj_on_of_nodup_map ht hr hr' e
      rw [this]
    · have := hs.1 k' v' h'
      have := hlo r hr
      omega
    · have := hs.1 k v h
      have := hlo r' hr'
      omega
    · exact hs.2 k k' v v' h h' e

/-- **C172, what holds.** The first migration always keeps them apart; the second if the next index is at most 9, the third
if it is at most 25 (what the checks of test builds ask for). -/
theorem C172_apart_partial (s : Loan) (hs : Apart s.core) :
    Apart (migrate1 s).core ∧ (s.core.nextTrie ≤ 9 → Apart (migrate2 s).core) ∧
    (s.core.nextTrie ≤ 25 → Apart (migrate3 s).core) := by
  refine ⟨?_, fun h => ?_, fun h => ?_⟩
  · unfold migrate1
    by_cases hv : s.version = .v0
    · rw [if_pos hv]
      refine fold_apart hs (by simp [rows1]) (by simp [rows1]) ?_ ?_ (by omega)
      · intro r hr
        simp only [rows1, List.mem_singleton] at hr
        rw [hr]
      · intro r hr
        simp only [rows1, List.mem_singleton] at hr
        rw [hr]
        exact Nat.lt_succ_self _
    · rw [if_neg hv]
      exact hs
  · unfold migrate2
    by_cases hv : s.version = .v1
    · rw [if_pos hv]
      refine fold_apart hs (by decide) (by decide) ?_ (by decide) (by omega)
      intro r hr
      have : ∀ r ∈ rows2, 9 ≤ r.trie := by decide
      have := this r hr
      omega
    · rw [if_neg hv]
      exact hs
  · unfold migrate3
    by_cases hv : s.version = .v2
    · rw [if_pos hv]
      refine fold_apart hs (by decide) (by decide) ?_ (by decide) (by omega)
      intro r hr
      have : ∀ r ∈ rows3, 25 ≤ r.trie := by decide
      have := this r hr
      omega
    · rw [if_neg hv]
      exact hs

/-- **C172 is false**: on a chain that has run the first migration with next index 10 (what its check asks for), the second
gives the storage of the vault of parachain 2085 to that of 2032, too. -/
theorem C172_refuted : ¬ C172_statement := by
  intro h
  have h0 : Apart { Crowdloans.ex0 with nextTrie := 10 } := by
    refine ⟨fun k v hk => ?_, fun k k' v v' hk => ?_⟩
    · have e : (none : Option Crowdloans.Vault) = some v := hk
      cases e
    · have e : (none : Option Crowdloans.Vault) = some v := hk
      cases e
  have h1 := (h ⟨{ Crowdloans.ex0 with nextTrie := 10 }, .v0⟩ h0).1
  have h2 := (h (migrate1 ⟨{ Crowdloans.ex0 with nextTrie := 10 }, .v0⟩) h1).2.1
  have := h2.2 ⟨2085, 15, 22⟩ ⟨2032, 7, 14⟩ _ _ (by rfl) (by rfl) (by rfl)
  revert this
  decide

/-- A migration that writes a batch of vaults in a phase. -/
def Writes (f : Loan → Loan) (before after : Release) (p : Crowdloans.Phase) (rows : Nat → List Row) : Prop :=
  ∀ s, (s.version ≠ before → f s = s) ∧
    (s.version = before → (f s).version = after ∧
      (∀ r ∈ rows s.core.nextTrie, (f s).core.vaults r.key =
        some ⟨r.ctoken, p, r.raised, 0, 0, false, r.cap, r.endBlock, r.trie⟩) ∧
      (∀ k, (∀ r ∈ rows s.core.nextTrie, r.key ≠ k) → (f s).core.vaults k = s.core.vaults k) ∧
      (f s).core = { s.core with
        vaults := (f s).core.vaults, ctokenOf := (f s).core.ctokenOf, leaseOf := (f s).core.leaseOf,
        nextTrie := (f s).core.nextTrie })

/-- **C172, effects.** Each of the migrations runs only on the version before it, writes its vaults and leaves all other
vaults, all contributions and all balances alone. -/
theorem C172_writes :
    Writes migrate1 .v0 .v1 .succeeded rows1 ∧ Writes migrate2 .v1 .v2 .succeeded (fun _ => rows2) ∧
    Writes migrate3 .v2 .v3 .expired (fun _ => rows3) := by
  refine ⟨fun s => ⟨fun h => if_neg h, fun h => ?_⟩, fun s => ⟨fun h => if_neg h, fun h => ?_⟩,
    fun s => ⟨fun h => if_neg h, fun h => ?_⟩⟩
  · unfold migrate1
    rw [if_pos h]
    obtain ⟨h1, h2⟩ := fold_vaults .succeeded (rows1 s.core.nextTrie) s.core (by simp [rows1])
    exact ⟨rfl, h2, h1, by dsimp only; rw [fold_next]⟩
  · unfold migrate2
    rw [if_pos h]
    obtain ⟨h1, h2⟩ := fold_vaults .succeeded rows2 s.core (by decide)
    exact ⟨rfl, h2, h1, by dsimp only; rw [fold_next]⟩
  · unfold migrate3
    rw [if_pos h]
    obtain ⟨h1, h2⟩ := fold_vaults .expired rows3 s.core (by decide)
    exact ⟨rfl, h2, h1, by dsimp only; rw [fold_next]⟩

/-- **C172, once.** No migration runs twice. -/
theorem C172_once (s : Loan) :
    migrate1 (migrate1 s) = migrate1 s ∧ migrate2 (migrate2 s) = migrate2 s ∧ migrate3 (migrate3 s) = migrate3 s := by
  refine ⟨?_, ?_, ?_⟩
  · unfold migrate1
    by_cases h : s.version = .v0
    · rw [if_pos h]
      exact if_neg (show ¬ (Release.v1 = Release.v0) by decide)
    · rw [if_neg h, if_neg h]
  · unfold migrate2
    by_cases h : s.version = .v1
    · rw [if_pos h]
      exact if_neg (show ¬ (Release.v2 = Release.v1) by decide)
    · rw [if_neg h, if_neg h]
  · unfold migrate3
    by_cases h : s.version = .v2
    · rw [if_pos h]
      exact if_neg (show ¬ (Release.v3 = Release.v2) by decide)
    · rw [if_neg h, if_neg h]

/-- Three migrations in a row write twelve vaults and leave the version at 3. -/
example : (migrate3 (migrate2 (migrate1 ⟨{ Crowdloans.ex0 with nextTrie := 8 }, .v0⟩))).version = .v3 ∧
    ((migrate3 (migrate2 (migrate1 ⟨{ Crowdloans.ex0 with nextTrie := 8 }, .v0⟩))).core.vaults ⟨2085, 15, 22⟩).map
      Crowdloans.Vault.trie = some 8 := ⟨rfl, rfl⟩

/-! ### C173: loans -/

/-- What `add_market` and `update_market` of the old pallet ensured. -/
structure Valid2 (m : Market2) : Prop where
  model : m.model.check = true
  cf : m.cf < 1000000
  rf : 0 < m.rf ∧ m.rf < 1000000
  cap : 0 < m.supplyCap

/-- What `add_market` and `update_market` ensure now. -/
structure Valid3 (m : Loans.Market) : Prop where
  model : m.model.check = true
  cf : m.cf < 1000000
  lt : m.cf ≤ m.lt ∧ m.lt < 1000000
  rf : 0 < m.rf ∧ m.rf < 1000000
  irf : 0 < m.irf ∧ m.irf < 1000000
  cap : 0 < m.supplyCap

/-- **C173.** Migration turns valid markets into valid markets. -/
def C173_statement : Prop := ∀ s a m, s.version = .v2 → s.markets a = some (.inl m) → Valid2 m →
  ∃ m', (migrateLoans s).markets a = some (.inr m') ∧ Valid3 m'

theorem migrateLoans_entry {s : LoansStore} {a : Nat} {m : Market2} (hv : s.version = .v2)
    (hm : s.markets a = some (.inl m)) : (migrateLoans s).markets a = some (.inr (translate m)) := by
  unfold migrateLoans
  rw [if_pos hv]
  dsimp only
  rw [hm]
  rfl

theorem translate_lt (m : Market2) :
    (translate m).lt = min (m.cf + m.cf / 10) 1000000 := by
  show min (m.cf + m.cf * 100000 / 1000000) 1000000 = _
  have : m.cf * 100000 / 1000000 = m.cf / 10 := by omega
  rw [this]

/-- **C173, what holds.** Each market keeps all it had, gets a liquidation threshold 10% above its collateral factor and at
most 100%, and a reserved share of 3% of the liquidation incentive. It is valid exactly if its collateral factor was at most
90.9090%. -/
theorem C173_markets_partial {s : LoansStore} {a : Nat} {m : Market2} (hv : s.version = .v2)
    (hm : s.markets a = some (.inl m)) (h2 : Valid2 m) :
    ∃ m', (migrateLoans s).markets a = some (.inr m') ∧
      (m'.cf = m.cf ∧ m'.rf = m.rf ∧ m'.close = m.close ∧ m'.incentive = m.incentive ∧ m'.model = m.model ∧
        m'.state = m.state ∧ m'.supplyCap = m.supplyCap ∧ m'.borrowCap = m.borrowCap ∧ m'.ptoken = m.ptoken) ∧
      (m'.cf ≤ m'.lt ∧ m'.lt ≤ 1000000 ∧ m'.lt = min (m.cf + m.cf / 10) 1000000) ∧ m'.irf = 30000 ∧
      (Valid3 m' ↔ m.cf ≤ 909090) := by
  refine ⟨translate m, migrateLoans_entry hv hm, ⟨rfl, rfl, rfl, rfl, rfl, rfl, rfl, rfl, rfl⟩, ⟨?_, ?_, translate_lt m⟩,
    rfl, ?_⟩
  · rw [translate_lt]
    have := h2.cf
    show m.cf ≤ _
    omega
  · rw [translate_lt]
    omega
  · have := h2.cf
    constructor
    · intro h
      have h := h.lt.2
      rw [translate_lt] at h
      omega
    · intro h
      refine ⟨h2.model, h2.cf, ⟨?_, ?_⟩, h2.rf, ⟨by show 0 < 30000; decide, by show 30000 < 1000000; decide⟩, h2.cap⟩
      · rw [translate_lt]
        show m.cf ≤ _
        omega
      · rw [translate_lt]
        omega

/-- **C173, the rest of the storage.** Markets neither appear nor vanish; the reward speed of a market becomes its speed for
suppliers and for borrowers; the version becomes 3, and the global time of the last accrual is removed. -/
theorem C173_rest {s : LoansStore} (hv : s.version = .v2) :
    (migrateLoans s).version = .v3 ∧ (migrateLoans s).lastTime = 0 ∧ (∀ a, (migrateLoans s).markets a = none ↔ s.markets a = none) ∧
    ∀ a, (∀ n, s.oldSpeed a = some n → (migrateLoans s).supplySpeed a = n ∧ (migrateLoans s).borrowSpeed a = n) ∧
      (s.oldSpeed a = none → (migrateLoans s).supplySpeed a = s.supplySpeed a ∧
        (migrateLoans s).borrowSpeed a = s.borrowSpeed a) ∧
      (migrateLoans s).oldSpeed a = none := by
  unfold migrateLoans
  rw [if_pos hv]
  refine ⟨rfl, rfl, fun a => ?_, fun a => ⟨fun n h => ?_, fun h => ?_, rfl⟩⟩
  · dsimp only
    rw [Option.map_eq_none_iff]
  · dsimp only
    rw [h]
    exact ⟨rfl, rfl⟩
  · dsimp only
    rw [h]
    exact ⟨rfl, rfl⟩

/-- **C173, once.** On any other version, as after itself, the migration does nothing. -/
theorem C173_once (s : LoansStore) :
    (s.version ≠ .v2 → migrateLoans s = s) ∧ migrateLoans (migrateLoans s) = migrateLoans s := by
  have h0 : ∀ s : LoansStore, s.version ≠ .v2 → migrateLoans s = s := fun s h => if_neg h
  refine ⟨h0 s, ?_⟩
  by_cases h : s.version = .v2
  · refine h0 _ ?_
    rw [(C173_rest h).1]
    decide
  · rw [h0 s h, h0 s h]

/-- A market with collateral factor `cf`, otherwise as in the fixture of the loans model. -/
def exMarket2 (cf : Nat) : Market2 :=
  ⟨cf, 150000, 500000, 1100000000000000000, .curve 20000000000000000, .active, 1000000000000000000000, 100000000, 1200⟩

theorem exMarket2_valid {cf : Nat} (h : cf < 1000000) : Valid2 (exMarket2 cf) :=
  ⟨by show Loans.RateModel.check (.curve 20000000000000000) = true; decide +kernel, h,
    ⟨by show 0 < 150000; decide, by show 150000 < 1000000; decide⟩, by show 0 < 1000000000000000000000; decide⟩

/-- **C173 is false**: a collateral factor of 95% gives a liquidation threshold of 100%. -/
theorem C173_refuted : ¬ C173_statement := by
  intro h
  have hm := exMarket2_valid (cf := 950000) (by decide)
  obtain ⟨m', h1, h2⟩ := h ⟨.v2, fun _ => some (.inl (exMarket2 950000)), fun _ => 0, fun _ => 0, fun _ => none, 0⟩ 0
    (exMarket2 950000) rfl rfl hm
  obtain ⟨m'', h3, -, -, -, h4⟩ := C173_markets_partial (s :=
    ⟨.v2, fun _ => some (.inl (exMarket2 950000)), fun _ => 0, fun _ => 0, fun _ => none, 0⟩) (a := 0) rfl rfl hm
  rw [h3] at h1
  cases h1
  have : (950000 : Nat) ≤ 909090 := h4.1 h2
  omega

example : Valid3 (translate (exMarket2 500000)) ∧ (translate (exMarket2 500000)).lt = 550000 := by
  refine ⟨?_, by decide +kernel⟩
  obtain ⟨m', h1, -, -, -, h4⟩ := C173_markets_partial (s :=
    ⟨.v2, fun _ => some (.inl (exMarket2 500000)), fun _ => 0, fun _ => 0, fun _ => none, 0⟩) (a := 0) rfl rfl
      (exMarket2_valid (by decide))
  rw [migrateLoans_entry rfl rfl] at h1
  cases h1
  exact h4.2 (by show (500000 : Nat) ≤ 909090; decide)

end Verif.Migrations
