import Verif.Crowdloans.Model

/-! # Crowdloans: child storage, effects of the primitive operations -/

set_option linter.unusedSimpArgs false

namespace Verif.Crowdloans
open Verif

/-! ## Lists of contributions -/

/-- The sum of the contributions in a list. -/
def total (l : List Entry) : Nat := (l.map Entry.amt).sum

/-- Ascending key order, one entry per account. -/
def Sorted (l : List Entry) : Prop := l.Pairwise (fun a b => a.who < b.who)

@[simp] theorem total_nil : total [] = 0 := rfl
@[simp] theorem total_cons (e : Entry) (l : List Entry) : total (e :: l) = e.amt + total l := by
  simp [total]

theorem getEntry_cons (e : Entry) (l : List Entry) (w : Nat) :
    getEntry (e :: l) w = if e.who = w then e else getEntry l w := rfl

theorem getEntry_who (l : List Entry) (w : Nat) : (getEntry l w).who = w := by
  induction l with
  | nil => rfl
  | cons e l ih => unfold getEntry; split_ifs with h; exacts [h, ih]

theorem getEntry_absent {l : List Entry} {w : Nat} (h : ∀ e ∈ l, e.who ≠ w) : getEntry l w = ⟨w, 0, 0⟩ := by
  induction l with
  | nil => rfl
  | cons e l ih =>
    unfold getEntry
    rw [if_neg (h e List.mem_cons_self)]
    exact ih (fun x hx => h x (List.mem_cons_of_mem _ hx))

theorem getEntry_mem {l : List Entry} {w : Nat} (h : (getEntry l w).amt ≠ 0) : getEntry l w ∈ l := by
  induction l with
  | nil => exact absurd rfl h
  | cons e l ih =>
    unfold getEntry at h ⊢
    split_ifs at h ⊢ with hw
    · exact List.mem_cons_self
    · exact List.mem_cons_of_mem _ (ih h)

theorem getEntry_of_mem {l : List Entry} (hs : Sorted l) {e : Entry} (h : e ∈ l) : getEntry l e.who = e := by
  induction l with
  | nil => cases h
  | cons x l ih =>
    have hx := List.pairwise_cons.mp hs
    unfold getEntry
    rcases List.mem_cons.mp h with rfl | h
    · rw [if_pos rfl]
    · have := hx.1 e h
      rw [if_neg (by omega)]
      exact ih hx.2 h

theorem getEntry_put (l : List Entry) (n : Entry) : getEntry (putEntry l n) n.who = n := by
  induction l with
  | nil => unfold putEntry getEntry; rw [if_pos rfl]
  | cons e l ih =>
    unfold putEntry
    split_ifs with h1 h2
    · unfold getEntry; rw [if_pos rfl]
    · unfold getEntry; rw [if_pos rfl]
    · unfold getEntry; rw [if_neg h2]; exact ih

theorem getEntry_put_ne {l : List Entry} {n : Entry} {w : Nat} (h : w ≠ n.who) :
    getEntry (putEntry l n) w = getEntry l w := by
  induction l with
  | nil => exact if_neg (Ne.symm h)
  | cons e l ih =>
    unfold putEntry
    split_ifs with h1 h2
    · rw [getEntry_cons, if_neg (Ne.symm h)]
    · rw [getEntry_cons, if_neg (Ne.symm h), getEntry_cons, if_neg (by rw [h2]; exact Ne.symm h)]
    · rw [getEntry_cons, getEntry_cons, ih]

theorem getEntry_kill (l : List Entry) (w : Nat) : getEntry (killEntry l w) w = ⟨w, 0, 0⟩ := by
  apply getEntry_absent
  intro e he
  unfold killEntry at he
  rw [List.mem_filter] at he
  exact of_decide_eq_true he.2

theorem getEntry_kill_ne {l : List Entry} {w u : Nat} (h : u ≠ w) : getEntry (killEntry l w) u = getEntry l u := by
  induction l with
  | nil => rfl
  | cons e l ih =>
    unfold killEntry at ih ⊢
    by_cases hw : e.who = w
    · rw [List.filter_cons_of_neg (by simp [hw]), ih, getEntry_cons, if_neg (by rw [hw]; exact Ne.symm h)]
    · rw [List.filter_cons_of_pos (by simp [hw]), getEntry_cons, getEntry_cons, ih]

theorem mem_putEntry {l : List Entry} {n e : Entry} (h : e ∈ putEntry l n) : e = n ∨ e ∈ l := by
  induction l with
  | nil => unfold putEntry at h; exact Or.inl (List.mem_singleton.mp h)
  | cons x l ih =>
    unfold putEntry at h
    split_ifs at h with h1 h2
    · rcases List.mem_cons.mp h with h | h
      exacts [Or.inl h, Or.inr h]
    · rcases List.mem_cons.mp h with h | h
      exacts [Or.inl h, Or.inr (List.mem_cons_of_mem _ h)]
    · rcases List.mem_cons.mp h with h | h
      · exact Or.inr (by rw [h]; exact List.mem_cons_self)
      · rcases ih h with h | h
        exacts [Or.inl h, Or.inr (List.mem_cons_of_mem _ h)]

theorem mem_killEntry {l : List Entry} {w : Nat} {e : Entry} (h : e ∈ killEntry l w) : e ∈ l ∧ e.who ≠ w := by
  unfold killEntry at h
  rw [List.mem_filter] at h
  exact ⟨h.1, of_decide_eq_true h.2⟩

theorem Sorted.put {l : List Entry} (hs : Sorted l) (n : Entry) : Sorted (putEntry l n) := by
  induction l with
  | nil => exact List.pairwise_singleton _ _
  | cons x l ih =>
    have hx := List.pairwise_cons.mp hs
    unfold putEntry
    split_ifs with h1 h2
    · refine List.pairwise_cons.mpr ⟨?_, hs⟩
      intro e he
      rcases List.mem_cons.mp he with rfl | he
      · exact h1
      · exact Nat.lt_trans h1 (hx.1 e he)
    · refine List.pairwise_cons.mpr ⟨?_, hx.2⟩
      intro e he
      have := hx.1 e he
      omega
    · refine List.pairwise_cons.mpr ⟨?_, ih hx.2⟩
      intro e he
      rcases mem_putEntry he with rfl | he
      · omega
      · exact hx.1 e he

theorem Sorted.kill {l : List Entry} (hs : Sorted l) (w : Nat) : Sorted (killEntry l w) :=
  List.Pairwise.filter _ hs

theorem total_put {l : List Entry} (hs : Sorted l) (n : Entry) :
    total (putEntry l n) + (getEntry l n.who).amt = total l + n.amt := by
  induction l with
  | nil => unfold putEntry getEntry; simp
  | cons x l ih =>
    have hx := List.pairwise_cons.mp hs
    unfold putEntry
    split_ifs with h1 h2
    · rw [getEntry_absent]
      · simp only [total_cons]; omega
      · intro e he
        rcases List.mem_cons.mp he with rfl | he
        · omega
        · have := hx.1 e he; omega
    · rw [getEntry_cons, if_pos h2]
      simp only [total_cons]; omega
    · rw [getEntry_cons, if_neg h2]
      have := ih hx.2
      simp only [total_cons]; omega

theorem total_kill {l : List Entry} (hs : Sorted l) (w : Nat) :
    total (killEntry l w) + (getEntry l w).amt = total l := by
  induction l with
  | nil => rfl
  | cons x l ih =>
    have hx := List.pairwise_cons.mp hs
    have ih := ih hx.2
    unfold killEntry at ih ⊢
    by_cases hw : x.who = w
    · rw [List.filter_cons_of_neg (by simp [hw]), getEntry_cons, if_pos hw]
      have h0 : getEntry l w = ⟨w, 0, 0⟩ := by
        apply getEntry_absent
        intro e he
        have := hx.1 e he
        omega
      rw [h0] at ih
      simp only [total_cons] at ih ⊢
      omega
    · rw [List.filter_cons_of_pos (by simp [hw]), getEntry_cons, if_neg hw]
      simp only [total_cons]
      omega

theorem getEntry_le_total (l : List Entry) (w : Nat) : (getEntry l w).amt ≤ total l := by
  induction l with
  | nil => exact Nat.le_refl _
  | cons x l ih =>
    unfold getEntry
    split_ifs <;> simp only [total_cons] <;> omega

/-! ## What a user holds -/

/-- The amount `who` has in the child trie `(t, k)`. -/
def State.amount (s : State) (t : Nat) (k : Kind) (who : Nat) : Nat := (getEntry (s.child (t, k)) who).amt

/-- Everything `who` has in the three child tries of the vault with trie index `t`. -/
def State.held (s : State) (t who : Nat) : Nat :=
  s.amount t .pending who + s.amount t .flying who + s.amount t .contributed who

/-! ## The primitive operations -/

@[simp] theorem withTok_tok (s : State) (l : Ledger) : (s.withTok l).tok = l := rfl
@[simp] theorem withTok_child (s : State) (l : Ledger) : (s.withTok l).child = s.child := rfl
@[simp] theorem withTok_vaults (s : State) (l : Ledger) : (s.withTok l).vaults = s.vaults := rfl
@[simp] theorem withTok_requests (s : State) (l : Ledger) : (s.withTok l).requests = s.requests := rfl
@[simp] theorem withTok_log (s : State) (l : Ledger) : (s.withTok l).log = s.log := rfl

theorem putVault_self {s : State} {k : Key} {v : Vault} (h : s.vaults k = some v) : s.putVault k v = s := by
  have : upd s.vaults k (some v) = s.vaults := by
    funext x
    by_cases hx : x = k
    · rw [hx, upd_same, h]
    · exact upd_of_ne _ _ hx
  unfold State.putVault
  rw [this]

theorem upd_upd {α β : Type} [DecidableEq α] (f : α → β) (k : α) (x y : β) : upd (upd f k x) k y = upd f k y := by
  funext z
  by_cases hz : z = k
  · rw [hz, upd_same, upd_same]
  · rw [upd_of_ne _ _ hz, upd_of_ne _ _ hz, upd_of_ne _ _ hz]

theorem Vault.set_trie (v : Vault) (k : Kind) (x : Nat) : (v.set k x).trie = v.trie := by cases k <;> rfl
theorem Vault.set_get (v : Vault) (k : Kind) (x : Nat) : (v.set k x).get k = x := by cases k <;> rfl
theorem Vault.set_get_ne (v : Vault) {k k' : Kind} (x : Nat) (h : k' ≠ k) : (v.set k x).get k' = v.get k' := by
  cases k <;> cases k' <;> first | rfl | exact absurd rfl h

/-- The fields of a vault other than the running totals are equal. -/
structure SameVault (v v' : Vault) : Prop where
  ctoken : v'.ctoken = v.ctoken
  phase : v'.phase = v.phase
  proxied : v'.proxied = v.proxied
  cap : v'.cap = v.cap
  endBlock : v'.endBlock = v.endBlock
  trie : v'.trie = v.trie

theorem SameVault.refl (v : Vault) : SameVault v v := ⟨rfl, rfl, rfl, rfl, rfl, rfl⟩
theorem SameVault.trans {a b d : Vault} (h : SameVault a b) (h' : SameVault b d) : SameVault a d :=
  ⟨h'.1.trans h.1, h'.2.trans h.2, h'.3.trans h.3, h'.4.trans h.4, h'.5.trans h.5, h'.6.trans h.6⟩
theorem Vault.set_same (v : Vault) (k : Kind) (x : Nat) : SameVault v (v.set k x) := by
  cases k <;> exact ⟨rfl, rfl, rfl, rfl, rfl, rfl⟩

theorem bump_ok_iff {add : Bool} {x m y : Nat} : bump add x m = .ok y ↔
    (add = true ∧ x + m ≤ maxU128 ∧ y = x + m) ∨ (add = false ∧ m ≤ x ∧ y = x - m) := by
  unfold bump
  cases add
  · rw [if_neg (by simp), csub_ok_iff]; simp
  · rw [if_pos rfl, cadd_ok_iff]; simp

/-- Effect of `updateContribution`: only one child trie changes. -/
structure Upd (s s' : State) (v v' : Vault) (who m : Nat) (add : Bool) (k : Kind) : Prop where
  state : s' = { s with child := s'.child }
  same : SameVault v v'
  oth : ∀ k', k' ≠ k → v'.get k' = v.get k'
  off : ∀ p, p ≠ (v.trie, k) → s'.child p = s.child p
  who_off : ∀ u, u ≠ who → s'.amount v.trie k u = s.amount v.trie k u
  up : add = true → v'.get k = v.get k + m ∧ s'.amount v.trie k who = s.amount v.trie k who + m ∧
    v.get k + m ≤ maxU128 ∧ s.amount v.trie k who + m ≤ maxU128
  down : add = false → m ≤ v.get k ∧ v'.get k = v.get k - m ∧ m ≤ s.amount v.trie k who ∧
    s'.amount v.trie k who = s.amount v.trie k who - m
  sorted : Sorted (s.child (v.trie, k)) → Sorted (s'.child (v.trie, k)) ∧
    (add = true → total (s'.child (v.trie, k)) = total (s.child (v.trie, k)) + m) ∧
    (add = false → total (s'.child (v.trie, k)) + m = total (s.child (v.trie, k)))
  mem : ∀ e ∈ s'.child (v.trie, k), e ∈ s.child (v.trie, k) ∨ (e.who = who ∧ e.amt ≠ 0)
  killed : s'.amount v.trie k who = 0 → s'.child (v.trie, k) = killEntry (s.child (v.trie, k)) who
  put : s'.amount v.trie k who ≠ 0 → s'.child (v.trie, k) = putEntry (s.child (v.trie, k))
    (getEntry (s'.child (v.trie, k)) who)

theorem updateContribution_ok {s s' : State} {v v' : Vault} {who m cd : Nat} {code : Option Nat} {add : Bool}
    {k : Kind} (h : updateContribution s v who m code add k = .ok (s', v', cd)) :
    Upd s s' v v' who m add k ∧ cd = code.getD (getEntry (s.child (v.trie, k)) who).code := by
  unfold updateContribution at h
  simp only [bind_ok_iff, pure_ok_iff, Prod.mk.injEq] at h
  obtain ⟨t, ht, n, hn, hs, hv, hc⟩ := h
  rw [bump_ok_iff] at ht hn
  refine ⟨?_, hc.symm⟩
  subst hs hv
  have hch : (upd s.child (v.trie, k) (if n = 0 then killEntry (s.child (v.trie, k)) who
            else putEntry (s.child (v.trie, k)) ⟨who, n, cd⟩)) (v.trie, k) =
      if n = 0 then killEntry (s.child (v.trie, k)) who else putEntry (s.child (v.trie, k)) ⟨who, n, cd⟩ :=
    upd_same _ _ _
  rw [hc]
  have hget : ∀ u, getEntry (if n = 0 then killEntry (s.child (v.trie, k)) who
      else putEntry (s.child (v.trie, k)) ⟨who, n, cd⟩) u =
      if u = who then (if n = 0 then ⟨who, 0, 0⟩ else ⟨who, n, cd⟩) else getEntry (s.child (v.trie, k)) u := by
    intro u
    by_cases hu : u = who
    · subst hu
      rw [if_pos rfl]
      split_ifs
      · exact getEntry_kill _ _
      · exact getEntry_put (s.child (v.trie, k)) ⟨u, n, cd⟩
    · rw [if_neg hu]
      split_ifs
      · exact getEntry_kill_ne hu
      · exact getEntry_put_ne (n := ⟨who, n, cd⟩) hu
  have hamt : (getEntry (if n = 0 then killEntry (s.child (v.trie, k)) who
      else putEntry (s.child (v.trie, k)) ⟨who, n, cd⟩) who).amt = n := by
    rw [hget, if_pos rfl]
    split_ifs with h0
    · exact h0.symm
    · rfl
  constructor
  · rfl
  · exact Vault.set_same _ _ _
  · intro k' hk'; exact Vault.set_get_ne _ _ hk'
  · intro p hp; exact upd_of_ne _ _ hp
  · intro u hu
    unfold State.amount
    dsimp only
    rw [hch, hget, if_neg hu]
  · intro ha
    unfold State.amount
    dsimp only
    rw [hch, hamt, Vault.set_get]
    rw [ha] at ht hn
    simp only [true_and, Bool.true_eq_false, false_and, or_false] at ht hn
    exact ⟨ht.2, hn.2, ht.1, hn.1⟩
  · intro ha
    unfold State.amount
    dsimp only
    rw [hch, hamt, Vault.set_get]
    rw [ha] at ht hn
    simp only [true_and, Bool.false_eq_true, false_and, false_or] at ht hn
    exact ⟨ht.1, ht.2, hn.1, hn.2⟩
  · intro hs
    dsimp only
    rw [hch]
    have h1 := total_kill hs who
    have h2 := total_put hs ⟨who, n, cd⟩
    dsimp only at h2
    refine ⟨?_, ?_, ?_⟩
    · split_ifs
      · exact hs.kill _
      · exact hs.put _
    · intro ha
      rw [ha] at hn
      simp only [true_and, Bool.true_eq_false, false_and, or_false] at hn
      split_ifs with h0 <;> omega
    · intro ha
      rw [ha] at hn
      simp only [true_and, Bool.false_eq_true, false_and, false_or] at hn
      split_ifs with h0 <;> omega
  · intro e he
    dsimp only at he
    rw [hch] at he
    split_ifs at he with h0
    · exact Or.inl (mem_killEntry he).1
    · rcases mem_putEntry he with rfl | he
      · exact Or.inr ⟨rfl, h0⟩
      · exact Or.inl he
  · unfold State.amount
    dsimp only
    rw [hch, hamt]
    intro h0
    rw [if_pos h0]
  · unfold State.amount
    dsimp only
    rw [hch, hamt]
    intro h0
    rw [hget, if_pos rfl, if_neg h0, if_neg h0]

/-- Effect of `migrateContribution` between two different kinds. -/
structure Mig (s s' : State) (v v' : Vault) (who m : Nat) (src dst : Kind) : Prop where
  state : s' = { s with child := s'.child }
  same : SameVault v v'
  oth : ∀ k', k' ≠ src → k' ≠ dst → v'.get k' = v.get k'
  off : ∀ p, p ≠ (v.trie, src) → p ≠ (v.trie, dst) → s'.child p = s.child p
  who_off : ∀ k u, u ≠ who → s'.amount v.trie k u = s.amount v.trie k u
  srcV : m ≤ v.get src ∧ v'.get src = v.get src - m ∧ m ≤ s.amount v.trie src who ∧
    s'.amount v.trie src who = s.amount v.trie src who - m
  dstV : v'.get dst = v.get dst + m ∧ s'.amount v.trie dst who = s.amount v.trie dst who + m
  sorted : (∀ k, Sorted (s.child (v.trie, k))) → (∀ k, Sorted (s'.child (v.trie, k))) ∧
    total (s'.child (v.trie, src)) + m = total (s.child (v.trie, src)) ∧
    total (s'.child (v.trie, dst)) = total (s.child (v.trie, dst)) + m
  mem : ∀ k, ∀ e ∈ s'.child (v.trie, k), e ∈ s.child (v.trie, k) ∨ (e.who = who ∧ e.amt ≠ 0)
  killed : s'.amount v.trie src who = 0 → s'.child (v.trie, src) = killEntry (s.child (v.trie, src)) who

theorem pair_ne {t : Nat} {k k' : Kind} (h : k ≠ k') : (t, k) ≠ (t, k') := fun e => h (Prod.mk.inj e).2

theorem migrateContribution_ok {s s' : State} {v v' : Vault} {who m : Nat} {src dst : Kind} (hne : src ≠ dst)
    (h : migrateContribution s v who m src dst = .ok (s', v')) : Mig s s' v v' who m src dst := by
  unfold migrateContribution at h
  simp only [bind_ok_iff, pure_ok_iff, Prod.exists, Prod.mk.injEq] at h
  obtain ⟨s1, v1, cd, h1, s2, v2, cd2, h2, rfl, rfl⟩ := h
  obtain ⟨u1, -⟩ := updateContribution_ok h1
  obtain ⟨u2, -⟩ := updateContribution_ok h2
  have et : v1.trie = v.trie := u1.same.trie
  have o1 : s1.child (v.trie, dst) = s.child (v.trie, dst) := u1.off _ (pair_ne hne.symm)
  have o2 : s2.child (v.trie, src) = s1.child (v.trie, src) := u2.off _ (by rw [et]; exact pair_ne hne)
  have a1 : ∀ u, s1.amount v.trie dst u = s.amount v.trie dst u := by
    intro u; unfold State.amount; rw [o1]
  have a2 : ∀ u, s2.amount v.trie src u = s1.amount v.trie src u := by
    intro u; unfold State.amount; rw [o2]
  have d1 := u1.down rfl
  have d2 := u2.up rfl
  rw [et] at d2
  constructor
  · have e1 := u1.state
    have e2 := u2.state
    rw [e1] at e2
    exact e2
  · exact u1.same.trans u2.same
  · intro k' h1 h2
    rw [u2.oth k' h2, u1.oth k' h1]
  · intro p hp1 hp2
    rw [u2.off p (by rw [et]; exact hp2), u1.off p hp1]
  · intro k u hu
    by_cases hk : k = dst
    · subst hk
      have := u2.who_off u hu
      rw [et] at this
      rw [this, a1]
    · have e2 : s2.child (v.trie, k) = s1.child (v.trie, k) := u2.off _ (by rw [et]; exact pair_ne hk)
      by_cases hk' : k = src
      · subst hk'; rw [a2]; exact u1.who_off u hu
      · have e1 : s1.child (v.trie, k) = s.child (v.trie, k) := u1.off _ (pair_ne hk')
        unfold State.amount; rw [e2, e1]
  · refine ⟨d1.1, ?_, d1.2.2.1, ?_⟩
    · rw [u2.oth src hne]; exact d1.2.1
    · rw [a2]; exact d1.2.2.2
  · refine ⟨?_, ?_⟩
    · rw [d2.1, u1.oth dst hne.symm]
    · rw [d2.2.1, a1]
  · intro hs
    have q1 := u1.sorted (hs src)
    have hsd : Sorted (s1.child (v1.trie, dst)) := by rw [et, o1]; exact hs dst
    have q2 := u2.sorted hsd
    rw [et] at q2
    refine ⟨?_, ?_, ?_⟩
    · intro k
      by_cases hk : k = dst
      · subst hk; exact q2.1
      · have e2 : s2.child (v.trie, k) = s1.child (v.trie, k) := u2.off _ (by rw [et]; exact pair_ne hk)
        rw [e2]
        by_cases hk' : k = src
        · subst hk'; exact q1.1
        · rw [u1.off _ (pair_ne hk')]; exact hs k
    · rw [o2]; exact q1.2.2 rfl
    · rw [q2.2.1 rfl, o1]
  · intro k e he
    by_cases hk : k = dst
    · subst hk
      have := u2.mem e (by rw [et]; exact he)
      rw [et, o1] at this
      exact this
    · have e2 : s2.child (v.trie, k) = s1.child (v.trie, k) := u2.off _ (by rw [et]; exact pair_ne hk)
      rw [e2] at he
      by_cases hk' : k = src
      · subst hk'; exact u1.mem e he
      · rw [u1.off _ (pair_ne hk')] at he; exact Or.inl he
  · rw [o2, a2]; exact u1.killed

/-- Effect of sending a message. -/
theorem sendXcm_ok {c : Cfg} {s s' : State} {f : Fee} {r : Req} (h : sendXcm c s f r = .ok s') :
    ∃ l, s.tok.burn c.relay c.xcmAcct (s.fee f) = .ok l ∧ s.sendOk = true ∧
      s' = { (s.withTok l) with
        requests := upd s.requests s.nextQuery (some r)
        nextQuery := s.nextQuery + 1 } := by
  unfold sendXcm at h
  simp only [bind_ok_iff, ensure_ok_iff, pure_ok_iff, exists_const] at h
  obtain ⟨l, hl, ho, hs⟩ := h
  refine ⟨l, ?_, ho, hs.symm⟩
  unfold burnFee at hl
  split at hl
  · rename_i l' hb; cases hl; exact hb
  · cases hl

theorem doContribute_ok {c : Cfg} {s s' : State} {k : Key} {p : Bool} {who m code : Nat}
    (h : doContribute c s k p who m code = .ok s') :
    ∃ l, s.tok.burn c.relay c.xcmAcct (s.fee (if p = true then .proxyContribute else .contribute)) = .ok l ∧
      s.sendOk = true ∧ (p = true → s.proxy ≠ none) ∧ s' = { (s.withTok l) with
        requests := upd s.requests s.nextQuery (some (.contribute k who m code))
        nextQuery := s.nextQuery + 1 } := by
  unfold doContribute at h
  split_ifs at h with hp
  · rw [bind_ok_iff] at h
    obtain ⟨x, hx, h⟩ := h
    rw [okOr_ok_iff] at hx
    obtain ⟨l, h1, h2, h3⟩ := sendXcm_ok h
    exact ⟨l, by rw [if_pos hp]; exact h1, h2, fun _ => by rw [hx]; simp, h3⟩
  · obtain ⟨l, h1, h2, h3⟩ := sendXcm_ok h
    exact ⟨l, by rw [if_neg hp]; exact h1, h2, fun e => absurd e hp, h3⟩

theorem current_iff {s : State} {para : Nat} {k : Key} {v : Vault} :
    s.current para = some (k, v) ↔ s.leaseOf para = some k.lease ∧ k.para = para ∧ s.vaults k = some v := by
  unfold State.current State.currentKey
  simp only [Option.bind_eq_bind, Option.bind_eq_some_iff, Option.map_eq_some_iff, Option.some.injEq, Prod.mk.injEq]
  constructor
  · rintro ⟨k', ⟨l, hl, rfl⟩, v', hv, rfl, rfl⟩
    exact ⟨hl, rfl, hv⟩
  · rintro ⟨h1, h2, h3⟩
    refine ⟨k, ⟨k.lease, h1, ?_⟩, v, h3, rfl, rfl⟩
    subst h2; rfl

theorem total_ok_iff {v : Vault} {t : Nat} : v.total = .ok t ↔
    v.contributed + v.flying + v.pending ≤ maxU128 ∧ t = v.contributed + v.flying + v.pending := by
  unfold Vault.total
  simp only [bind_ok_iff, cadd_ok_iff]
  constructor
  · rintro ⟨a, ⟨_, rfl⟩, h⟩; exact h
  · rintro ⟨h1, h2⟩; exact ⟨_, ⟨by omega, rfl⟩, h1, h2⟩

/-! ## Bonus streams -/

theorem popFinished_ledger {c : Streaming.Cfg} {s s' : Streaming.State} {a : Nat}
    (h : Streaming.popFinished c s a = .ok s') : s'.ledger = s.ledger := by
  unfold Streaming.popFinished at h
  dsimp only at h
  split_ifs at h
  · cases h; rfl
  · split at h
    · cases h; rfl
    · rw [bind_ok_iff] at h
      obtain ⟨st, _, h⟩ := h
      rw [pure_ok_iff] at h
      rw [← h]

theorem traitCreate_ledger {c : Streaming.Cfg} {s s' : Streaming.State} {sd rc d a st sp : Nat} {cl : Bool}
    (h : Streaming.traitCreate c s sd rc d a st sp cl = .ok s') :
    s.ledger.transfer a sd c.acct d false = .ok s'.ledger := by
  unfold Streaming.traitCreate Streaming.doCreate Streaming.updateFinished Streaming.pushLib at h
  simp only [bind_ok_iff, ensure_ok_iff, csub_ok_iff, cdiv_ok_iff, cadd_ok_iff, pure_ok_iff, Prod.exists,
    Prod.mk.injEq] at h
  obtain ⟨_, _, s1, id, ⟨_, _, dur, _, rate, _, _, _, l, htr, nx, _, s2, ⟨s3, h3, h4⟩, hs1, _⟩, r, _, hs'⟩ := h
  have e3 := popFinished_ledger h3
  have e4 := popFinished_ledger h4
  rw [← hs', ← hs1]
  dsimp only at e3 e4 ⊢
  rw [e4, e3]
  exact htr

/-- The part of the bonus that is paid. -/
def streamed (c : Cfg) (s : State) (lease : Nat × Nat) (m : Nat) : Nat := if c.streams = true then bonusOf c s lease m else 0

theorem payBonus_ok {c : Cfg} {s s' : State} {lease : Nat × Nat} {who m : Nat}
    (h : payBonus c s lease who m = .ok s') : s' = { s with str := s'.str } ∧
      s.tok.transfer c.native c.acct c.streaming.acct (streamed c s lease m) false = .ok s'.tok := by
  unfold payBonus at h
  split_ifs at h with h0
  · cases h
    refine ⟨rfl, ?_⟩
    have e : streamed c s lease m = 0 := by
      unfold streamed
      rcases h0 with h0 | h0 <;> simp [h0]
    rw [e]
    unfold Ledger.transfer
    simp
  · rw [bind_ok_iff] at h
    obtain ⟨str, hs, h⟩ := h
    rw [pure_ok_iff] at h
    subst h
    have e : streamed c s lease m = bonusOf c s lease m := if_pos (by cases e : c.streams <;> simp_all)
    rw [e]
    exact ⟨rfl, traitCreate_ledger hs⟩

end Verif.Crowdloans
