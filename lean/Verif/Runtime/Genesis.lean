import Verif.Prelude.Ledger
import Verif.Migrations.Model
import Verif.Evm.AssetsProps

/-!
# C221, C222: the first block

How the node builds the genesis of each chain from a list of allocations (`node/parallel/src/chain_spec/*.rs`), and what state the
balances and EVM pallets make of it.  The `build` functions of `pallet_balances` and `pallet_evm` are not in the repository: they
are modelled from outside knowledge (release v0.9.38), as said at each definition.  Keys, councils, sessions and the other genesis
sections are left out; so are the chain specifications shipped as JSON.
-/

namespace Verif.Runtime.Genesis
open Verif

/-! ## Model -/

/-- One step of `accumulate` (`node/parallel/src/chain_spec/mod.rs:46-54`) on a `BTreeMap`: an ordered list of entries.
`checked_add(amount).unwrap()` panics. -/
def addTo (who n : Nat) : List (Nat × Nat) → R (List (Nat × Nat))
  | [] => .ok [(who, n)]
  | (a, m) :: l =>
    if who < a then .ok ((who, n) :: (a, m) :: l)
    else if who = a then if m + n ≤ maxU128 then .ok ((a, m + n) :: l) else .error .panic
    else do let r ← addTo who n l; pure ((a, m) :: r)

/-- The `fold` of `accumulate` (`node/parallel/src/chain_spec/mod.rs:42-57`). -/
def accumulateFrom : List (Nat × Nat) → List (Nat × Nat) → R (List (Nat × Nat))
  | [], m => .ok m
  | (a, n) :: l, m => do let m' ← addTo a n m; accumulateFrom l m'

/-- `accumulate` (`node/parallel/src/chain_spec/mod.rs:42-57`). -/
def accumulate (l : List (Nat × Nat)) : R (List (Nat × Nat)) := accumulateFrom l []

/-- The four chains. -/
inductive Rt where
  | parallel | heiko | vanilla | kerria
deriving DecidableEq

/-- `EXISTENTIAL_DEPOSIT`: 10 cents (`runtime/parallel/src/lib.rs:126`, `runtime/kerria/src/lib.rs:125`) or one cent
(`runtime/heiko/src/lib.rs:125`, `runtime/vanilla/src/lib.rs:125`); a cent is 10^10. -/
def Rt.ed : Rt → Nat
  | .parallel | .kerria => 100000000000
  | .heiko | .vanilla => 10000000000

/-- What the first block knows of money and code. -/
structure Chain where
  free : Nat → Nat
  issuance : Nat
  evm : Migrations.Evm

/-- `GenesisConfig::build` of `pallet_balances` (outside knowledge): the total is summed with overflow checks; accounts below the
existential deposit and duplicated accounts panic. -/
def buildBalances (ed : Nat) (l : List (Nat × Nat)) : R Chain := do
  ensure ((l.map (·.2)).sum ≤ maxU128) .panic
  ensure (∀ x ∈ l, ed ≤ x.2) .panic
  ensure ((l.map (·.1)).Nodup) .panic
  pure ⟨fun w => (l.lookup w).getD 0, (l.map (·.2)).sum, ⟨fun _ => none, fun _ => 0⟩⟩

/-- `deposit_creating` of `pallet_balances` (outside knowledge): nothing happens for zero, for a new account below the existential
deposit, or if the balance would overflow; otherwise the issuance grows by the imbalance, *saturating*. -/
def depositCreating (ed : Nat) (c : Chain) (who v : Nat) : Chain :=
  if v = 0 then c
  else if c.free who = 0 ∧ v < ed then c
  else if maxU128 < c.free who + v then c
  else { c with free := upd c.free who (c.free who + v), issuance := min (c.issuance + v) maxU128 }

/-- An entry of the EVM genesis: address, balance, code. -/
structure Entry where
  addr : Nat
  balance : Nat
  code : List Nat

/-- Alice's truncated address on vanilla (`node/parallel/src/chain_spec/vanilla.rs:318`). -/
def aliceH160 : Nat := 0xd43593c715fdd31c61141abd04a99fd6822c8558

/-- The `evm` section: `node/parallel/src/chain_spec/parallel.rs:215-231`, `heiko.rs:219-235`, `kerria.rs:239-255`: revert code
and no money under each of the used addresses; `vanilla.rs:294-329` adds an entry for Alice with 2^128 - 1 units and no code.  (A
`BTreeMap` in ascending order: Alice's address is the greatest.) -/
def evmAccounts (rt : Rt) : List Entry :=
  Migrations.usedAddresses.map (fun a => ⟨a, 0, Migrations.revertCode⟩) ++
    if rt = .vanilla then [⟨aliceH160, 0xffffffffffffffffffffffffffffffff, []⟩] else []

/-- One entry of `GenesisConfig::build` of `pallet_evm` (outside knowledge): deposit the balance on the mapped account, then
`create_account`, which returns at once for empty code. -/
def buildEntry (ed : Nat) (acc : Nat → Nat) (c : Chain) (e : Entry) : Chain :=
  let c := depositCreating ed c (acc e.addr) e.balance
  if e.code = [] then c else { c with evm := Migrations.createAccount c.evm e.addr e.code }

/-- The genesis of a chain; `acc` is `HashedAddressMapping` (`runtime/vanilla/src/lib.rs:838`).  `Balances` is built before
`EVM` (`runtime/vanilla/src/lib.rs:1990,2056`). -/
def genesis (rt : Rt) (acc : Nat → Nat) (alloc : List (Nat × Nat)) : R Chain := do
  let l ← accumulate alloc
  let c ← buildBalances rt.ed l
  pure ((evmAccounts rt).foldl (buildEntry rt.ed acc) c)

/-! ## Specification -/

/-- What a list of allocations gives an account in total. -/
def given (alloc : List (Nat × Nat)) (who : Nat) : Nat := ((alloc.filter (fun x => x.1 = who)).map (·.2)).sum

/-- What a list of allocations gives away in total. -/
def total (alloc : List (Nat × Nat)) : Nat := (alloc.map (·.2)).sum

/-- An account appears in the list. -/
def listed (alloc : List (Nat × Nat)) (who : Nat) : Prop := who ∈ alloc.map (·.1)

instance (alloc : List (Nat × Nat)) (who : Nat) : Decidable (listed alloc who) := inferInstanceAs (Decidable (_ ∈ _))

theorem listed_iff (alloc : List (Nat × Nat)) (who : Nat) : listed alloc who ↔ ∃ n, (who, n) ∈ alloc := by
  simp [listed]

/-! ## Lemmas -/

/-- Entries in strictly ascending order. -/
def Sorted (l : List (Nat × Nat)) : Prop := l.Pairwise (fun x y => x.1 < y.1)

theorem Sorted.nodup {l : List (Nat × Nat)} (h : Sorted l) : (l.map (·.1)).Nodup := by
  unfold Sorted at h
  rw [List.nodup_iff_pairwise_ne, List.pairwise_map]
  exact h.imp (fun h => Nat.ne_of_lt h)

theorem lookup_none_of_lt {l : List (Nat × Nat)} {who : Nat} (h : ∀ x ∈ l, who < x.1) : l.lookup who = none := by
  induction l with
  | nil => rfl
  | cons x l ih =>
    obtain ⟨a, m⟩ := x
    have ha : who < a := h (a, m) List.mem_cons_self
    have hne : (who == a) = false := by simpa using Nat.ne_of_lt ha
    rw [List.lookup_cons, hne]
    exact ih (fun y hy => h y (List.mem_cons_of_mem _ hy))

theorem addTo_spec {who n : Nat} : ∀ {l r : List (Nat × Nat)}, Sorted l → addTo who n l = .ok r →
    Sorted r ∧ (∀ w, r.lookup w = if w = who then some ((l.lookup who).getD 0 + n) else l.lookup w) ∧
    (r.map (·.2)).sum = (l.map (·.2)).sum + n ∧ (∀ x ∈ r, x.1 = who ∨ ∃ y ∈ l, y.1 = x.1) ∧
    ((l.lookup who).getD 0 + n ≤ maxU128 ∨ l.lookup who = none) := by
  intro l
  induction l with
  | nil =>
    intro r _ h
    unfold addTo at h
    cases h
    refine ⟨List.pairwise_singleton _ _, ?_, by simp, by simp, Or.inr rfl⟩
    intro w
    by_cases hw : w = who
    · subst hw; simp
    · have : (w == who) = false := by simpa using hw
      rw [List.lookup_cons, this]; simp [hw]
  | cons x l ih =>
    obtain ⟨a, m⟩ := x
    intro r hs h
    have hs1 := (List.pairwise_cons.1 hs).1
    have hs2 := (List.pairwise_cons.1 hs).2
    unfold addTo at h
    split at h
    · rename_i hlt
      cases h
      have hlo : ∀ y ∈ ((a, m) :: l), who < y.1 := by
        intro y hy
        rcases List.mem_cons.1 hy with rfl | hy
        · exact hlt
        · exact hlt.trans (hs1 y hy)
      have hn := lookup_none_of_lt hlo
      refine ⟨List.pairwise_cons.2 ⟨hlo, hs⟩, ?_, by simp; omega, ?_, Or.inr hn⟩
      · intro w
        by_cases hw : w = who
        · subst hw; rw [hn]; simp
        · have : (w == who) = false := by simpa using hw
          rw [List.lookup_cons, this, if_neg hw]
      · intro y hy
        rcases List.mem_cons.1 hy with rfl | hy
        · exact Or.inl rfl
        · exact Or.inr ⟨y, hy, rfl⟩
    · split at h
      · rename_i heq
        subst heq
        split at h
        · rename_i hle
          cases h
          refine ⟨List.pairwise_cons.2 ⟨fun y hy => hs1 y hy, hs2⟩, ?_, by simp; omega, ?_, ?_⟩
          · intro w
            by_cases hw : w = who
            · subst hw; simp
            · have : (w == who) = false := by simpa using hw
              simp only [List.lookup_cons, this, if_neg hw]
          · intro y hy
            rcases List.mem_cons.1 hy with rfl | hy
            · exact Or.inl rfl
            · exact Or.inr ⟨y, List.mem_cons_of_mem _ hy, rfl⟩
          · left; simpa using hle
        · cases h
      · rename_i hnlt hne
        simp only [bind_ok_iff, pure_ok_iff] at h
        obtain ⟨r', h1, rfl⟩ := h
        obtain ⟨i1, i2, i3, i4, i5⟩ := ih hs2 h1
        have hb : (who == a) = false := by simpa using hne
        refine ⟨List.pairwise_cons.2 ⟨?_, i1⟩, ?_, by simp [i3, Nat.add_assoc], ?_, ?_⟩
        · intro y hy
          rcases i4 y hy with e | ⟨z, hz, e⟩
          · show a < y.1; omega
          · rw [← e]; exact hs1 z hz
        · intro w
          rw [List.lookup_cons, List.lookup_cons, List.lookup_cons, hb, i2 w]
          by_cases hw : w = who
          · subst hw; simp only [hb, if_true]
          · simp only [if_neg hw]
        · intro y hy
          rcases List.mem_cons.1 hy with rfl | hy
          · exact Or.inr ⟨_, List.mem_cons_self, rfl⟩
          · rcases i4 y hy with e | ⟨z, hz, e⟩
            · exact Or.inl e
            · exact Or.inr ⟨z, List.mem_cons_of_mem _ hz, e⟩
        · rw [List.lookup_cons, hb]; exact i5

theorem addTo_ok {who n : Nat} : ∀ {l : List (Nat × Nat)}, Sorted l → (l.lookup who).getD 0 + n ≤ maxU128 →
    ∃ r, addTo who n l = .ok r := by
  intro l
  induction l with
  | nil => intro _ _; exact ⟨_, rfl⟩
  | cons x l ih =>
    obtain ⟨a, m⟩ := x
    intro hs h
    unfold addTo
    split
    · exact ⟨_, rfl⟩
    · split
      · rename_i heq
        subst heq
        have : m + n ≤ maxU128 := by simpa using h
        rw [if_pos this]
        exact ⟨_, rfl⟩
      · rename_i hne
        have hb : (who == a) = false := by simpa using hne
        rw [List.lookup_cons, hb] at h
        obtain ⟨r, hr⟩ := ih (List.pairwise_cons.1 hs).2 h
        exact ⟨(a, m) :: r, by rw [hr]; rfl⟩

theorem given_cons (a n : Nat) (l : List (Nat × Nat)) (who : Nat) :
    given ((a, n) :: l) who = (if a = who then n else 0) + given l who := by
  unfold given
  by_cases h : a = who
  · simp [h]
  · simp [h]

theorem given_le_total (l : List (Nat × Nat)) (who : Nat) : given l who ≤ total l := by
  induction l with
  | nil => simp [given]
  | cons x l ih =>
    obtain ⟨a, n⟩ := x
    rw [given_cons]
    have : total ((a, n) :: l) = n + total l := by simp [total]
    rw [this]
    split <;> omega

/-- What the map holds after the fold. -/
theorem accumulateFrom_spec : ∀ {l m r : List (Nat × Nat)}, Sorted m → accumulateFrom l m = .ok r →
    Sorted r ∧
    (∀ w, r.lookup w = if listed l w ∨ (m.lookup w).isSome then some ((m.lookup w).getD 0 + given l w) else none) ∧
    (r.map (·.2)).sum = (m.map (·.2)).sum + total l := by
  intro l
  induction l with
  | nil =>
    intro m r hs h
    cases h
    refine ⟨hs, ?_, by simp [total]⟩
    intro w
    cases hw : m.lookup w <;> simp [listed, given]
  | cons x l ih =>
    obtain ⟨a, n⟩ := x
    intro m r hs h
    unfold accumulateFrom at h
    simp only [bind_ok_iff] at h
    obtain ⟨m', h1, h2⟩ := h
    obtain ⟨a1, a2, a3, -, -⟩ := addTo_spec hs h1
    obtain ⟨i1, i2, i3⟩ := ih a1 h2
    refine ⟨i1, ?_, by rw [i3, a3]; simp [total]; omega⟩
    intro w
    rw [i2 w, a2 w, given_cons]
    have hl : listed ((a, n) :: l) w ↔ w = a ∨ listed l w := by simp [listed]
    by_cases hw : w = a
    · subst hw; simp [hl]; omega
    · have hw' : ¬ a = w := fun e => hw e.symm
      simp only [hl, if_neg hw', hw, false_or, Nat.zero_add, if_false]

theorem accumulateFrom_ok : ∀ {l m : List (Nat × Nat)}, Sorted m → (∀ w, (m.lookup w).getD 0 + given l w ≤ maxU128) →
    ∃ r, accumulateFrom l m = .ok r := by
  intro l
  induction l with
  | nil => intro m _ _; exact ⟨m, rfl⟩
  | cons x l ih =>
    obtain ⟨a, n⟩ := x
    intro m hs h
    have ha := h a
    rw [given_cons, if_pos rfl] at ha
    obtain ⟨m', hm⟩ := addTo_ok (who := a) (n := n) hs (by omega)
    obtain ⟨a1, a2, -, -, -⟩ := addTo_spec hs hm
    obtain ⟨r, hr⟩ := ih (m := m') a1 (by
      intro w
      have hw := h w
      rw [given_cons] at hw
      rw [a2 w]
      by_cases e : w = a
      · subst e; simp only [if_true, Option.getD_some] at hw ⊢; omega
      · rw [if_neg e]
        rw [if_neg (fun e' => e e'.symm)] at hw
        omega)
    exact ⟨r, by unfold accumulateFrom; rw [hm]; exact hr⟩

theorem sumsTo_lookup {l : List (Nat × Nat)} (h : (l.map (·.1)).Nodup) :
    SumsTo (fun w => (l.lookup w).getD 0) (l.map (·.2)).sum := by
  induction l with
  | nil => exact SumsTo.zero
  | cons x l ih =>
    obtain ⟨a, m⟩ := x
    have h1 : a ∉ l.map (·.1) := (List.nodup_cons.1 h).1
    have h2 := ih (List.nodup_cons.1 h).2
    have h3 : l.lookup a = none := by
      rw [List.lookup_eq_none_iff]
      intro p hp
      simp only [List.mem_map, not_exists, not_and] at h1
      have := h1 p hp
      simpa using fun e => this e.symm
    refine h2.update a ?_ ?_
    · intro i hi
      have : (i == a) = false := by simpa using hi
      simp only [List.lookup_cons, this]
    · simp [h3]

theorem depositCreating_zero (ed : Nat) (c : Chain) (who : Nat) : depositCreating ed c who 0 = c := if_pos rfl

/-- A deposit arrives in full exactly if the account exists already or reaches the existential deposit, and the balance fits. -/
theorem depositCreating_pays (ed : Nat) (c : Chain) (who v : Nat) (hv : 0 < v) :
    (depositCreating ed c who v).free who = c.free who + v ↔
      (0 < c.free who ∨ ed ≤ v) ∧ c.free who + v ≤ maxU128 := by
  unfold depositCreating
  generalize maxU128 = top
  rw [if_neg (by omega)]
  split
  · constructor
    · intro h; omega
    · intro h; omega
  · split
    · constructor
      · intro h; omega
      · intro h; omega
    · refine ⟨fun _ => ⟨?_, ?_⟩, fun _ => upd_same _ _ _⟩ <;> omega

/-- The entries of the precompiles bring no money. -/
theorem buildEntries_money (ed : Nat) (acc : Nat → Nat) (as : List Nat) (c : Chain) :
    ((as.map (fun a => (⟨a, 0, Migrations.revertCode⟩ : Entry))).foldl (buildEntry ed acc) c).free = c.free ∧
    ((as.map (fun a => (⟨a, 0, Migrations.revertCode⟩ : Entry))).foldl (buildEntry ed acc) c).issuance = c.issuance ∧
    (∀ a, ((as.map (fun a => (⟨a, 0, Migrations.revertCode⟩ : Entry))).foldl (buildEntry ed acc) c).evm.codes a =
      if a ∈ as then some Migrations.revertCode else c.evm.codes a) := by
  induction as generalizing c with
  | nil => exact ⟨rfl, rfl, fun a => by simp⟩
  | cons x as ih =>
    have e : buildEntry ed acc c ⟨x, 0, Migrations.revertCode⟩ =
        { c with evm := Migrations.createAccount c.evm x Migrations.revertCode } := by
      unfold buildEntry
      rw [if_neg (by decide : ¬ Migrations.revertCode = []), depositCreating_zero]
    rw [List.map_cons, List.foldl_cons, e]
    obtain ⟨i1, i2, i3⟩ := ih { c with evm := Migrations.createAccount c.evm x Migrations.revertCode }
    refine ⟨i1, i2, ?_⟩
    intro a
    rw [i3 a]
    show (if a ∈ as then _ else upd c.evm.codes x (some Migrations.revertCode) a) = _
    by_cases ha : a ∈ as
    · rw [if_pos ha, if_pos (List.mem_cons_of_mem _ ha)]
    · rw [if_neg ha]
      by_cases hx : a = x
      · subst hx; rw [upd_same, if_pos List.mem_cons_self]
      · rw [upd_of_ne _ _ hx, if_neg (by simp [hx, ha])]

/-- The balances built from a list of allocations. -/
theorem balances_spec {ed : Nat} {alloc l : List (Nat × Nat)} {c : Chain} (h1 : accumulate alloc = .ok l)
    (h2 : buildBalances ed l = .ok c) :
    (∀ w, c.free w = given alloc w) ∧ c.issuance = total alloc ∧ SumsTo c.free c.issuance ∧ total alloc ≤ maxU128 ∧
    (∀ w, listed alloc w → ed ≤ given alloc w) ∧ c.evm = ⟨fun _ => none, fun _ => 0⟩ := by
  obtain ⟨s1, s2, s3⟩ := accumulateFrom_spec List.Pairwise.nil h1
  unfold buildBalances at h2
  simp only [bind_ok_iff, ensure_ok_iff, exists_const, pure_ok_iff] at h2
  obtain ⟨g1, g2, g3, rfl⟩ := h2
  have hg : ∀ w, (l.lookup w).getD 0 = given alloc w := by
    intro w
    rw [s2 w]
    by_cases hl : listed alloc w
    · simp [hl]
    · have : given alloc w = 0 := by
        unfold given
        have hf : alloc.filter (fun x => decide (x.1 = w)) = [] := by
          rw [List.filter_eq_nil_iff]
          rintro ⟨a, n⟩ hm e
          have ea : a = w := by simpa using e
          subst ea
          exact hl ((listed_iff _ _).2 ⟨n, hm⟩)
        rw [hf]; rfl
      simp [hl, this]
  have ht : (l.map (·.2)).sum = total alloc := by simpa using s3
  refine ⟨hg, ht, sumsTo_lookup g3, by rw [← ht]; exact g1, ?_, rfl⟩
  intro w hw
  have h3 : l.lookup w = some (given alloc w) := by rw [s2 w]; simp [hw]
  have hmem : (w, given alloc w) ∈ l := by
    clear s1 s2 s3 g1 g2 g3 hg ht h1
    induction l with
    | nil => cases h3
    | cons x l ih =>
      obtain ⟨a, m⟩ := x
      rw [List.lookup_cons] at h3
      by_cases e : w = a
      · subst e
        have e : m = given alloc w := by simpa using h3
        rw [← e]; exact List.mem_cons_self
      · have hb : (w == a) = false := by simpa using e
        rw [hb] at h3
        exact List.mem_cons_of_mem _ (ih h3)
  exact g2 _ hmem

/-! ## Theorems -/

/-- **C221 (accumulate).** Allocations to the same account are added up: every listed account appears exactly once, with the sum of
everything the list gives it; nobody else appears; and nothing is lost. -/
theorem C221_accumulate {alloc l : List (Nat × Nat)} (h : accumulate alloc = .ok l) :
    (l.map (·.1)).Nodup ∧ (∀ w, l.lookup w = some (given alloc w) ↔ listed alloc w) ∧
    (∀ w, l.lookup w = none ↔ ¬ listed alloc w) ∧ total l = total alloc := by
  obtain ⟨s1, s2, s3⟩ := accumulateFrom_spec List.Pairwise.nil h
  refine ⟨s1.nodup, ?_, ?_, by simpa [total] using s3⟩
  · intro w; rw [s2 w]; by_cases hl : listed alloc w <;> simp [hl]
  · intro w; rw [s2 w]; by_cases hl : listed alloc w <;> simp [hl]

/-- **C221 (accumulate fails only on overflow).** It panics exactly if some account would get more than a `u128` can hold. -/
theorem C221_accumulate_ok (alloc : List (Nat × Nat)) (h : ∀ w, given alloc w ≤ maxU128) :
    ∃ l, accumulate alloc = .ok l :=
  accumulateFrom_ok List.Pairwise.nil (by simpa using h)

/-- **C221 (full statement).** On every chain, the first block gives out exactly what the allocations say, and the recorded total
issuance is the sum of all balances. -/
def C221_statement : Prop :=
  ∀ (rt : Rt) (acc : Nat → Nat) (alloc : List (Nat × Nat)) (c : Chain), genesis rt acc alloc = .ok c →
    (∀ w, c.free w = given alloc w) ∧ SumsTo c.free c.issuance

/-- **C221 (all chains but vanilla).** The balances are the allocations, the issuance is their total and the sum of all balances,
and nobody is below the existential deposit. -/
theorem C221_partial {rt : Rt} (hrt : rt ≠ .vanilla) {acc : Nat → Nat} {alloc : List (Nat × Nat)} {c : Chain}
    (h : genesis rt acc alloc = .ok c) :
    (∀ w, c.free w = given alloc w) ∧ SumsTo c.free c.issuance ∧ c.issuance = total alloc ∧
    ∀ w, listed alloc w → rt.ed ≤ c.free w := by
  unfold genesis at h
  simp only [bind_ok_iff, pure_ok_iff] at h
  obtain ⟨l, h1, c0, h2, rfl⟩ := h
  obtain ⟨b1, b2, b3, -, b5, -⟩ := balances_spec h1 h2
  unfold evmAccounts
  rw [if_neg hrt, List.append_nil]
  obtain ⟨m1, m2, -⟩ := buildEntries_money rt.ed acc Migrations.usedAddresses c0
  rw [m1, m2]
  exact ⟨b1, b3, b2, fun w hw => by rw [b1]; exact b5 w hw⟩

/-- **C221 (which allocations are accepted).** On every chain: the total fits in a `u128` and every listed account gets at least
the existential deposit. -/
theorem C221_accepts (rt : Rt) (acc : Nat → Nat) (alloc : List (Nat × Nat)) :
    (∃ c, genesis rt acc alloc = .ok c) ↔ total alloc ≤ maxU128 ∧ ∀ w, listed alloc w → rt.ed ≤ given alloc w := by
  constructor
  · rintro ⟨c, h⟩
    unfold genesis at h
    simp only [bind_ok_iff, pure_ok_iff] at h
    obtain ⟨l, h1, c0, h2, rfl⟩ := h
    obtain ⟨-, -, -, b4, b5, -⟩ := balances_spec h1 h2
    exact ⟨b4, b5⟩
  · rintro ⟨ht, he⟩
    obtain ⟨l, hl⟩ := C221_accumulate_ok alloc (fun w => (given_le_total _ _).trans ht)
    obtain ⟨s1, s2, s3⟩ := accumulateFrom_spec List.Pairwise.nil hl
    have hb : ∃ c, buildBalances rt.ed l = .ok c := by
      unfold buildBalances
      simp only [bind_ok_iff, ensure_ok_iff, exists_const, pure_ok_iff]
      refine ⟨_, ?_, ?_, s1.nodup, rfl⟩
      · have : (l.map (·.2)).sum = total alloc := by simpa using s3
        rw [this]; exact ht
      · rintro ⟨w, n⟩ hx
        have hlk : l.lookup w = some n := by
          clear s2 s3 hl
          induction l with
          | nil => cases hx
          | cons y l ih =>
            obtain ⟨a, m⟩ := y
            have hs := List.pairwise_cons.1 s1
            rcases List.mem_cons.1 hx with e | hx
            · cases e; simp
            · have : a < w := hs.1 _ hx
              have hb : (w == a) = false := by simpa using Nat.ne_of_gt this
              rw [List.lookup_cons, hb]
              exact ih hs.2 hx
        rw [s2 w] at hlk
        by_cases hw : listed alloc w
        · have e : given alloc w = n := by simpa [hw] using hlk
          rw [← e]; exact he w hw
        · simp [hw] at hlk
    obtain ⟨c, hc⟩ := hb
    exact ⟨_, by unfold genesis; rw [hl]; show (buildBalances rt.ed l >>= _) = _; rw [hc]; rfl⟩

/-- **C221 (vanilla).** The EVM section gives Alice's mapped account 2^128 - 1 units on top of the allocations.  Unless the
allocations already give that account something, the recorded issuance sticks at the maximum: it falls short of the sum of all
balances by everything the allocations give. -/
theorem C221_vanilla {acc : Nat → Nat} {alloc : List (Nat × Nat)} {c : Chain} (h : genesis .vanilla acc alloc = .ok c)
    (hn : ¬ listed alloc (acc aliceH160)) :
    c.free (acc aliceH160) = maxU128 ∧ c.issuance = maxU128 ∧ SumsTo c.free (c.issuance + total alloc) := by
  unfold genesis at h
  simp only [bind_ok_iff, pure_ok_iff] at h
  obtain ⟨l, h1, c0, h2, rfl⟩ := h
  obtain ⟨b1, b2, b3, b4, -, -⟩ := balances_spec h1 h2
  have h0 : given alloc (acc aliceH160) = 0 := by
    unfold given
    have hf : alloc.filter (fun x => decide (x.1 = acc aliceH160)) = [] := by
      rw [List.filter_eq_nil_iff]
      rintro ⟨a, n⟩ hm e
      have ea : a = acc aliceH160 := by simpa using e
      exact hn ((listed_iff _ _).2 ⟨n, by rw [← ea]; exact hm⟩)
    rw [hf]; rfl
  unfold evmAccounts
  rw [if_pos rfl, List.foldl_append]
  obtain ⟨m1, m2, -⟩ := buildEntries_money Rt.vanilla.ed acc Migrations.usedAddresses c0
  generalize (Migrations.usedAddresses.map (fun a => (⟨a, 0, Migrations.revertCode⟩ : Entry))).foldl
    (buildEntry Rt.vanilla.ed acc) c0 = c1 at m1 m2
  rw [List.foldl_cons, List.foldl_nil]
  have hm : (0xffffffffffffffffffffffffffffffff : Nat) = maxU128 := by decide
  have hf : c1.free (acc aliceH160) = 0 := by rw [m1, b1, h0]
  have he : buildEntry Rt.vanilla.ed acc c1 ⟨aliceH160, 0xffffffffffffffffffffffffffffffff, []⟩ =
      { c1 with free := upd c1.free (acc aliceH160) maxU128, issuance := maxU128 } := by
    unfold buildEntry
    dsimp only
    rw [if_pos rfl, hm]
    unfold depositCreating
    rw [if_neg (by decide), if_neg (fun h => absurd h.2 (by decide)), hf, Nat.zero_add, if_neg (lt_irrefl _),
      min_eq_right (Nat.le_add_left _ _)]
  rw [he]
  refine ⟨upd_same _ _ _, rfl, ?_⟩
  have hs : SumsTo c1.free (total alloc) := by rw [m1, ← b2]; exact b3
  refine hs.update (acc aliceH160) (fun i hi => upd_of_ne _ _ hi) ?_
  show upd c1.free (acc aliceH160) maxU128 (acc aliceH160) + total alloc = _ + (maxU128 + total alloc)
  rw [upd_same, hf, Nat.zero_add]

/-- An allocation of vanilla's size: 10^24 units to account 1. -/
def exAlloc : List (Nat × Nat) := [(1, 1000000000000000000000000)]

/-- **C221 (refuted).** On vanilla the issuance of the first block is not the sum of the balances. -/
theorem C221_refuted : ¬ C221_statement := by
  intro h
  have hok := (C221_accepts .vanilla (fun a => a) exAlloc).2 ⟨by decide, by
    intro w hw
    obtain rfl : w = 1 := by simpa [exAlloc, listed] using hw
    decide⟩
  obtain ⟨c, hc⟩ := hok
  have hn : ¬ listed exAlloc aliceH160 := by
    decide
  obtain ⟨v1, v2, -⟩ := C221_vanilla hc hn
  obtain ⟨g1, -⟩ := h _ _ _ _ hc
  have g := g1 aliceH160
  rw [v1] at g
  exact absurd g (by decide)

/-- Non-vacuity: two entries of the same account are added up; the genesis of parallel accepts the result. -/
example : accumulate [(7, 1000000000000), (3, 500000000000), (7, 10)] = .ok [(3, 500000000000), (7, 1000000000010)] := by
  decide

example : ∃ c, genesis .parallel (fun a => a) [(7, 1000000000000), (3, 500000000000), (7, 10)] = .ok c :=
  (C221_accepts _ _ _).2 ⟨by decide, by
    intro w hw
    simp only [listed, List.map_cons, List.map_nil, List.mem_cons, List.not_mem_nil, or_false] at hw
    rcases hw with rfl | rfl | rfl <;> decide⟩

/-! ### C222: code under the precompiles -/

/-- **C222 (full statement).** "We will pre-deploy it under all of our precompiles to ensure they can be called from within
contracts": every address that the precompile set answers for has code. -/
def C222_statement : Prop :=
  ∀ (rt : Rt) (acc : Nat → Nat) (alloc : List (Nat × Nat)) (c : Chain) (s : Evm.Ast.State) (a : Nat),
    genesis rt acc alloc = .ok c → Evm.Ast.isPrecompile s a = true → c.evm.codes a ≠ none

/-- **C222 (the fixed precompiles).** Every precompile with a fixed address (Ethereum's nine, the hashes and signatures, the native
token) has the code that reverts; nothing else has code in the first block: in particular no asset's token contract. -/
theorem C222_partial {rt : Rt} {acc : Nat → Nat} {alloc : List (Nat × Nat)} {c : Chain} (h : genesis rt acc alloc = .ok c)
    (a : Nat) :
    c.evm.codes a = if a ∈ [1, 2, 3, 4, 5, 6, 7, 8, 9, 1024, 1025, 1026, 1027, 2050] then some [0x60, 0x00, 0x60, 0x00, 0xFD]
      else none := by
  unfold genesis at h
  simp only [bind_ok_iff, pure_ok_iff] at h
  obtain ⟨l, h1, c0, h2, rfl⟩ := h
  obtain ⟨-, -, -, -, -, b6⟩ := balances_spec h1 h2
  unfold evmAccounts
  rw [List.foldl_append]
  obtain ⟨-, -, m3⟩ := buildEntries_money rt.ed acc Migrations.usedAddresses c0
  have m3 := m3 a
  rw [b6] at m3
  generalize (Migrations.usedAddresses.map (fun a => (⟨a, 0, Migrations.revertCode⟩ : Entry))).foldl
    (buildEntry rt.ed acc) c0 = c1 at m3
  have he : ((if rt = .vanilla then [(⟨aliceH160, 0xffffffffffffffffffffffffffffffff, []⟩ : Entry)] else []).foldl
      (buildEntry rt.ed acc) c1).evm = c1.evm := by
    split
    · rw [List.foldl_cons, List.foldl_nil]
      unfold buildEntry
      dsimp only
      rw [if_pos rfl]
      unfold depositCreating
      repeat' split
      all_goals rfl
    · rfl
  rw [he, m3]
  rfl

/-- **C222 (refuted).** An asset's token contract is a precompile without code. -/
theorem C222_refuted : ¬ C222_statement := by
  intro h
  obtain ⟨c, hc⟩ := (C221_accepts .parallel (fun a => a) []).2 ⟨by decide, by intro w hw; simp [listed] at hw⟩
  have h1 := h .parallel _ _ c Evm.Ast.exSt (Evm.Ast.assetIdToAddress 7) hc (by decide +kernel)
  rw [C222_partial hc, if_neg (by decide +kernel)] at h1
  exact h1 rfl

end Verif.Runtime.Genesis
