import Verif.Currency.Lemmas

/-!
# C166–C170: the multi-currency interface
-/

namespace Verif.Currency
open Verif

/-! ### C166 -/

/-- **C166.** Once governance has locked native money of an account, money leaves its free balance only if at least the
locked amount remains, until governance changes the lock. -/
def C166_statement (c : Cfg) : Prop :=
  ∀ (s s1 s2 s3 : State) (w amt : Nat), Sound c s → forceSetLock c s c.native w amt = .ok s1 → Quiets c w s1 s2 →
    Quiet c w s2 s3 → s3.free w < s2.free w → amt ≤ s3.free w

/-- The lock of an account is in force. -/
structure Held (c : Cfg) (s : State) (w amt : Nat) : Prop where
  reg : (adapterId, amt) ∈ s.locks w
  froz : amt ≤ s.frozen w
  pin : s.lockRef w = true ∨ c.ed ≤ amt
  alive : c.ed ≤ s.total w

theorem le_maxLock {l : Nat × Nat} : ∀ {ls : List (Nat × Nat)}, l ∈ ls → l.2 ≤ maxLock ls
  | [], h => by simp at h
  | k :: ks, h => by
    rcases List.mem_cons.1 h with rfl | h
    · exact Nat.le_max_left _ _
    · exact Nat.le_trans (le_maxLock h) (Nat.le_max_right _ _)

theorem mem_putLock (id amt : Nat) (ls : List (Nat × Nat)) : (id, amt) ∈ putLock id amt ls := by
  induction ls with
  | nil => simp [putLock]
  | cons l ls ih =>
    unfold putLock
    split
    · simp
    · exact List.mem_cons_of_mem _ ih

theorem mem_putLock_of {id amt : Nat} {l : Nat × Nat} (hne : l.1 ≠ id) {ls : List (Nat × Nat)} (h : l ∈ ls) :
    l ∈ putLock id amt ls := by
  induction ls with
  | nil => simp at h
  | cons k ks ih =>
    unfold putLock
    split
    · rename_i e
      rcases List.mem_cons.1 h with rfl | h
      · exact absurd e hne
      · exact List.mem_cons_of_mem _ h
    · rcases List.mem_cons.1 h with rfl | h
      · simp
      · exact List.mem_cons_of_mem _ (ih h)

theorem putLock_ne_nil (id amt : Nat) (ls : List (Nat × Nat)) : putLock id amt ls ≠ [] := by
  cases ls with
  | nil => simp [putLock]
  | cons l ls =>
    unfold putLock
    split <;> simp

/-- Locks of others leave the account's data alone. -/
theorem updateLocks_other {c : Cfg} {s : State} {v w : Nat} (ls : List (Nat × Nat)) (h : w ≠ v) :
    (updateLocks c s v ls).locks w = s.locks w ∧ (updateLocks c s v ls).frozen w = s.frozen w ∧
      (updateLocks c s v ls).lockRef w = s.lockRef w := by
  unfold updateLocks
  refine ⟨upd_of_ne _ _ h, upd_of_ne _ _ h, ?_⟩
  dsimp only
  split
  · exact upd_of_ne _ _ h
  · split
    · exact upd_of_ne _ _ h
    · rfl

theorem updateLocks_total (c : Cfg) (s : State) (v : Nat) (ls : List (Nat × Nat)) (w : Nat) :
    (updateLocks c s v ls).total w = s.total w ∧ (updateLocks c s v ls).free w = s.free w := ⟨rfl, rfl⟩

/-- Changing another lock of the account keeps the lock in force. -/
theorem Held.update {c : Cfg} {s : State} {w amt : Nat} (h : Held c s w amt) {ls : List (Nat × Nat)}
    (hm : (adapterId, amt) ∈ ls) : Held c (updateLocks c s w ls) w amt := by
  have hl : ls ≠ [] := by
    rintro rfl
    simp at hm
  have hs : s.locks w ≠ [] := by
    intro e
    have := h.reg
    rw [e] at this
    simp at this
  refine ⟨?_, ?_, ?_, h.alive⟩
  · show _ ∈ upd s.locks w ls w
    rw [upd_same]
    exact hm
  · show amt ≤ upd s.frozen w _ w
    rw [upd_same, if_pos h.alive]
    exact le_maxLock (l := (adapterId, amt)) hm
  · unfold updateLocks
    dsimp only
    rw [if_neg hl, if_neg hs]
    exact h.pin

theorem Held.other {c : Cfg} {s : State} {w amt v : Nat} (h : Held c s w amt) (ls : List (Nat × Nat)) (hne : w ≠ v) :
    Held c (updateLocks c s v ls) w amt := by
  obtain ⟨e1, e2, e3⟩ := updateLocks_other (c := c) (s := s) ls hne
  exact ⟨by rw [e1]; exact h.reg, by rw [e2]; exact h.froz, by rw [e3]; exact h.pin, h.alive⟩

/-- Nothing that concerns locks changed, and the account is not poorer than before, or keeps the locked amount. -/
theorem Held.keep {c : Cfg} {s s' : State} {w amt : Nat} (h : Held c s w amt) (h1 : s'.locks = s.locks)
    (h2 : s'.frozen w = s.frozen w) (h3 : s'.lockRef = s.lockRef) (h4 : c.ed ≤ s'.total w) : Held c s' w amt :=
  ⟨by rw [h1]; exact h.reg, by rw [h2]; exact h.froz, by rw [h3]; exact h.pin, h4⟩

theorem held_transfer {c : Cfg} {s s' : State} {w amt a src dst m : Nat} {keep : Bool} (h : Held c s w amt)
    (ht : transfer c s a src dst m keep = .ok s') :
    Held c s' w amt ∧ (s'.free w < s.free w → amt ≤ s'.free w) := by
  by_cases h0 : m = 0 ∨ src = dst
  · rw [transfer_nothing h0 ht]
    exact ⟨h, fun h => absurd h (by omega)⟩
  · rw [not_or] at h0
    unfold transfer at ht
    split at ht
    · rw [natTransfer_ok h0.1 h0.2] at ht
      obtain ⟨⟨h1, h2, h3, h4, h5⟩, rfl⟩ := ht
      have hm := move_total s h1 h0.2 w
      have hal := h.alive
      have hfr := h.froz
      have htot : ∀ v, s.total v = s.free v + s.resv v := fun _ => rfl
      split
      · rename_i hd
        have hws : w ≠ src := by
          rintro rfl
          rcases h.pin with hp | hp
          · rcases h5 with h5 | h5
            · unfold State.pinned at h5
              rw [hp] at h5
              simp at h5
            · omega
          · omega
        have hf : s.free w ≤ (reap c { s with free := upd (upd s.free src (s.free src - m)) dst (s.free dst + m) } src).free w := by
          unfold reap
          dsimp only
          have hf1 : s.free w ≤ upd (upd (upd s.free src (s.free src - m)) dst (s.free dst + m)) src 0 w := by
            rw [upd_of_ne _ _ hws]
            by_cases e : w = dst
            · subst e
              rw [upd_same]
              omega
            · rw [upd_of_ne _ _ e, upd_of_ne _ _ hws]
          by_cases e : w = c.treasury
          · rw [← e, upd_same]
            omega
          · rw [upd_of_ne _ _ e]
            exact hf1
        refine ⟨h.keep rfl (upd_of_ne _ _ hws) rfl ?_, fun hlt => by omega⟩
        rw [reap_total, if_neg hws]
        rw [if_neg hws] at hm
        omega
      · rename_i hd
        by_cases hws : w = src
        · subst hws
          have hf : upd (upd s.free w (s.free w - m)) dst (s.free dst + m) w = s.free w - m := by
            rw [upd_of_ne _ _ h0.2, upd_same]
          refine ⟨h.keep rfl rfl rfl ?_, fun _ => ?_⟩
          · show c.ed ≤ upd (upd s.free w (s.free w - m)) dst (s.free dst + m) w + s.resv w
            rw [hf]
            omega
          · show amt ≤ upd (upd s.free w (s.free w - m)) dst (s.free dst + m) w
            rw [hf]
            omega
        · have hf : s.free w ≤ upd (upd s.free src (s.free src - m)) dst (s.free dst + m) w := by
            by_cases e : w = dst
            · subst e
              rw [upd_same]
              omega
            · rw [upd_of_ne _ _ e, upd_of_ne _ _ hws]
          refine ⟨h.keep rfl rfl rfl ?_, fun hlt => ?_⟩
          · show c.ed ≤ upd (upd s.free src (s.free src - m)) dst (s.free dst + m) w + s.resv w
            have := htot w
            omega
          · exact absurd (show upd (upd s.free src (s.free src - m)) dst (s.free dst + m) w < s.free w from hlt) (by omega)
    · simp only [bind_ok_iff, okOr_ok_iff, pure_ok_iff, if_neg h0.1] at ht
      obtain ⟨x, -, x', -, rfl⟩ := ht
      exact ⟨h.keep rfl rfl rfl h.alive, fun h => absurd h (Nat.lt_irrefl _)⟩

theorem held_mint {c : Cfg} {s s' : State} {w amt a v m : Nat} (h : Held c s w amt) (ht : mint c s a v m = .ok s') :
    Held c s' w amt ∧ (s'.free w < s.free w → amt ≤ s'.free w) := by
  by_cases h0 : m = 0
  · subst h0
    unfold mint natMint at ht
    rw [if_pos rfl, if_pos rfl, ite_self] at ht
    cases ht
    exact ⟨h, fun h => absurd h (Nat.lt_irrefl _)⟩
  · unfold mint at ht
    split at ht
    · rw [natMint_ok h0] at ht
      obtain ⟨-, rfl⟩ := ht
      have hf : s.free w ≤ upd s.free v (s.free v + m) w := by
        by_cases e : w = v
        · subst e
          rw [upd_same]
          omega
        · rw [upd_of_ne _ _ e]
      have hal := h.alive
      have htot : s.total w = s.free w + s.resv w := rfl
      refine ⟨h.keep rfl rfl rfl ?_, fun hlt => ?_⟩
      · show c.ed ≤ upd s.free v (s.free v + m) w + s.resv w
        omega
      · exact absurd (show upd s.free v (s.free v + m) w < s.free w from hlt) (by omega)
    · simp only [bind_ok_iff, okOr_ok_iff, pure_ok_iff] at ht
      obtain ⟨x, -, x', -, rfl⟩ := ht
      exact ⟨h.keep rfl rfl rfl h.alive, fun h => absurd h (Nat.lt_irrefl _)⟩

theorem held_burn {c : Cfg} {s s' : State} {w amt a v m d : Nat} (h : Held c s w amt)
    (ht : burn c s a v m = .ok (s', d)) : Held c s' w amt ∧ (s'.free w < s.free w → amt ≤ s'.free w) := by
  unfold burn at ht
  split at ht
  · by_cases h0 : m = 0
    · subst h0
      unfold natBurn at ht
      rw [if_pos rfl] at ht
      cases ht
      exact ⟨h, fun h => absurd h (Nat.lt_irrefl _)⟩
    · rw [natBurn_ok h0] at ht
      have hal := h.alive
      have hfr := h.froz
      have htot : ∀ v, s.total v = s.free v + s.resv v := fun _ => rfl
      have htv := htot v
      obtain ⟨⟨h1, h2, h3, h4⟩, ⟨h5, rfl, rfl⟩ | ⟨h5, h6, rfl, rfl⟩⟩ := ht
      · by_cases e : w = v
        · subst e
          refine ⟨h.keep rfl rfl rfl ?_, fun _ => ?_⟩
          · show c.ed ≤ upd s.free w (s.free w - d) w + s.resv w
            rw [upd_same]
            omega
          · show amt ≤ upd s.free w (s.free w - d) w
            rw [upd_same]
            omega
        · refine ⟨h.keep rfl rfl rfl ?_, fun hlt => ?_⟩
          · show c.ed ≤ upd s.free v (s.free v - d) w + s.resv w
            rw [upd_of_ne _ _ e]
            exact hal
          · have hlt' : upd s.free v (s.free v - d) w < s.free w := hlt
            rw [upd_of_ne _ _ e] at hlt'
            omega
      · have e : w ≠ v := by
          rintro rfl
          rcases h.pin with hp | hp
          · rcases h4 with h4 | h4
            · omega
            · unfold State.pinned at h4
              rw [hp] at h4
              simp at h4
          · omega
        refine ⟨h.keep rfl (upd_of_ne _ _ e) rfl ?_, fun hlt => ?_⟩
        · show c.ed ≤ upd s.free v 0 w + s.resv w
          rw [upd_of_ne _ _ e]
          exact hal
        · have hlt' : upd s.free v 0 w < s.free w := hlt
          rw [upd_of_ne _ _ e] at hlt'
          omega
  · simp only [bind_ok_iff, okOr_ok_iff, pure_ok_iff, Prod.exists, Prod.mk.injEq] at ht
    obtain ⟨x, -, x', d', -, rfl, rfl⟩ := ht
    exact ⟨h.keep rfl rfl rfl h.alive, fun h => absurd h (Nat.lt_irrefl _)⟩

theorem held_quiet {c : Cfg} {s s' : State} {w amt : Nat} (h : Held c s w amt) (hq : Quiet c w s s') :
    Held c s' w amt ∧ (s'.free w < s.free w → amt ≤ s'.free w) := by
  have irr : s.free w < s.free w → amt ≤ s.free w := fun h => absurd h (Nat.lt_irrefl _)
  cases hq with
  | transfer a src dst m keep ht => exact held_transfer h ht
  | mint a v m ht => exact held_mint h ht
  | burn a v m d ht => exact held_burn h ht
  | setLock a v m hne ht =>
    unfold forceSetLock at ht
    simp only [bind_ok_iff, ensure_ok_iff, pure_ok_iff, exists_const] at ht
    obtain ⟨-, rfl⟩ := ht
    unfold setLock
    split
    · exact ⟨h, irr⟩
    · exact ⟨h.other _ hne.symm, irr⟩
  | removeLock a v hne ht =>
    unfold forceRemoveLock at ht
    simp only [bind_ok_iff, ensure_ok_iff, pure_ok_iff, exists_const] at ht
    obtain ⟨-, rfl⟩ := ht
    exact ⟨h.other _ hne.symm, irr⟩
  | otherLock id v m hid =>
    unfold setLock
    split
    · exact ⟨h, irr⟩
    · by_cases e : w = v
      · subst e
        exact ⟨h.update (mem_putLock_of (l := (adapterId, amt)) (fun e => hid e.symm) h.reg), irr⟩
      · exact ⟨h.other _ e, irr⟩
  | otherUnlock id v hid =>
    by_cases e : w = v
    · subst e
      exact ⟨h.update (List.mem_filter.2 ⟨h.reg, by simpa using fun e : adapterId = id => hid e.symm⟩), irr⟩
    · exact ⟨h.other _ e, irr⟩
  | freeze a st iced hx => exact ⟨h.keep rfl rfl rfl h.alive, irr⟩

theorem held_quiets {c : Cfg} {s s' : State} {w amt : Nat} (h : Held c s w amt) (hq : Quiets c w s s') :
    Held c s' w amt := by
  induction hq with
  | refl => exact h
  | step _ hs ih => exact (held_quiet ih hs).1

theorem held_set {c : Cfg} {s s1 : State} {w amt : Nat} (h0 : amt ≠ 0) (hal : c.ed ≤ s.total w)
    (hp : c.ed ≤ amt ∨ s.locks w = [] ∨ s.lockRef w = true) (h : forceSetLock c s c.native w amt = .ok s1) :
    Held c s1 w amt := by
  unfold forceSetLock at h
  simp only [bind_ok_iff, ensure_ok_iff, pure_ok_iff, exists_const] at h
  obtain ⟨-, rfl⟩ := h
  unfold setLock
  rw [if_neg h0]
  refine ⟨?_, ?_, ?_, hal⟩
  · show _ ∈ upd s.locks w _ w
    rw [upd_same]
    exact mem_putLock _ _ _
  · show amt ≤ upd s.frozen w _ w
    rw [upd_same, if_pos hal]
    exact le_maxLock (l := (adapterId, amt)) (mem_putLock _ _ _)
  · unfold updateLocks
    dsimp only
    rw [if_neg (putLock_ne_nil _ _ _)]
    split
    · left
      rw [upd_same]
      simpa using hal
    · rename_i hn
      rcases hp with hp | hp | hp
      · exact Or.inr hp
      · exact absurd hp hn
      · exact Or.inl hp

/-- **C166, what holds.** If the account exists when the lock is set (and the lock is not smaller than the existential
deposit, or is the first one), then money leaves only if the locked amount remains, and the account keeps at least the
smaller of the locked amount and what it had, for ever until governance changes the lock. -/
theorem C166_lock_partial (c : Cfg) (s s1 s2 s3 : State) (w amt : Nat) (hal : minimum c s c.native ≤ balance c s c.native w)
    (hp : minimum c s c.native ≤ amt ∨ s.locks w = [] ∨ s.lockRef w = true)
    (h : forceSetLock c s c.native w amt = .ok s1) (hq : Quiets c w s1 s2) :
    (Quiet c w s2 s3 → s3.free w < s2.free w → amt ≤ s3.free w) ∧ min amt (s.free w) ≤ s2.free w := by
  by_cases h0 : amt = 0
  · subst h0
    exact ⟨fun _ _ => Nat.zero_le _, by omega⟩
  rw [minimum_native] at hal hp
  rw [balance_native] at hal
  have hh := held_set h0 hal hp h
  refine ⟨fun hq' => (held_quiet (held_quiets hh hq) hq').2, ?_⟩
  have hf : s1.free w = s.free w := by
    unfold forceSetLock at h
    simp only [bind_ok_iff, ensure_ok_iff, pure_ok_iff, exists_const] at h
    obtain ⟨-, rfl⟩ := h
    unfold setLock
    rw [if_neg h0]
    rfl
  rw [← hf]
  clear h hf hal hp
  induction hq with
  | refl => omega
  | step hqs hs ih =>
    have := (held_quiet (held_quiets hh hqs) hs).2
    omega

theorem transfer_native {c : Cfg} {s : State} {src dst amt : Nat} {keep : Bool} :
    transfer c s c.native src dst amt keep = natTransfer c s src dst amt keep := if_pos rfl

/-- A chain with native currency 0, existential deposit 10 and treasury 99. -/
def exCfg : Cfg := ⟨0, 10, 99⟩

/-- Account 1 has 500; account 2 does not exist; asset 7 has a minimum balance of 5, account 3 has 60 of it. -/
def exS : State where
  free := fun w => if w = 1 then 500 else if w = 99 then 1000 else 0
  resv := fun _ => 0
  frozen := fun _ => 0
  locks := fun _ => []
  lockRef := fun _ => false
  others := fun _ => false
  niss := 1500
  assets := fun a => if a = 7 then some ⟨.live, fun _ => false, fun w => if w = 3 then 60 else 0, 60, 5⟩ else none

theorem exS_sound : Sound exCfg exS := by
  intro a
  unfold balance issuance exCfg
  by_cases h : a = 0
  · subst h
    refine ⟨⟨{1, 99}, ?_, ?_⟩, ?_⟩
    · intro i hi
      simp only [Finset.mem_insert, Finset.mem_singleton, not_or] at hi
      simp [State.total, exS, hi.1, hi.2]
    · simp [State.total, exS]
    · decide
  · simp only [h, if_false, exS]
    by_cases h7 : a = 7
    · subst h7
      refine ⟨⟨{3}, ?_, ?_⟩, ?_⟩
      · intro i hi
        simp only [Finset.mem_singleton] at hi
        simp [hi]
      · simp
      · decide
    · simp only [h7, if_false]
      exact ⟨SumsTo.zero, Nat.zero_le _⟩

/-- **C166 is false**: a lock set on an account that does not exist is registered but not in force when the account is
funded later. -/
theorem C166_refuted : ¬ C166_statement exCfg := by
  intro h
  have h1 : forceSetLock exCfg exS 0 2 100 = .ok (setLock exCfg exS adapterId 2 100) := rfl
  have h2 : transfer exCfg (setLock exCfg exS adapterId 2 100) exCfg.native 1 2 300 false = .ok _ :=
    transfer_native.trans ((natTransfer_ok (by decide) (by decide)).2 ⟨by decide +kernel, rfl⟩)
  rw [if_neg (by decide +kernel)] at h2
  have h3 : transfer exCfg { setLock exCfg exS adapterId 2 100 with
      free := upd (upd (setLock exCfg exS adapterId 2 100).free 1 ((setLock exCfg exS adapterId 2 100).free 1 - 300)) 2
        ((setLock exCfg exS adapterId 2 100).free 2 + 300) } exCfg.native 2 1 290 false = .ok _ :=
    transfer_native.trans ((natTransfer_ok (by decide) (by decide)).2 ⟨by decide +kernel, rfl⟩)
  rw [if_neg (by decide +kernel)] at h3
  have := h exS _ _ _ 2 100 exS_sound h1 (.step .refl (.transfer _ _ _ _ _ h2)) (.transfer _ _ _ _ _ h3) (by decide +kernel)
  revert this
  decide +kernel

/-! ### C167 -/

/-- The amount registered under an identifier. -/
def lockOf (s : State) (w id : Nat) : Option Nat := (s.locks w).lookup id

theorem lookup_putLock (id amt j : Nat) (ls : List (Nat × Nat)) :
    (putLock id amt ls).lookup j = if j = id then some amt else ls.lookup j := by
  induction ls with
  | nil =>
    unfold putLock
    by_cases e : j = id
    · subst e
      simp [List.lookup]
    · rw [if_neg e]
      have hb : (j == id) = false := by simpa using e
      simp only [List.lookup, hb]
  | cons l ls ih =>
    rcases l with ⟨i, m⟩
    unfold putLock
    dsimp only
    by_cases e1 : i = id
    · subst e1
      rw [if_pos rfl]
      by_cases e : j = i
      · subst e
        simp [List.lookup]
      · have hb : (j == i) = false := by simpa using e
        rw [if_neg e]
        simp only [List.lookup, hb]
    · rw [if_neg e1]
      by_cases e : j = i
      · subst e
        rw [if_neg e1]
        simp [List.lookup]
      · have hb : (j == i) = false := by simpa using e
        simp only [List.lookup, hb, ih]

theorem maxLock_attained (ls : List (Nat × Nat)) : ls ≠ [] → ∃ l ∈ ls, l.2 = maxLock ls := by
  induction ls with
  | nil => intro h; exact absurd rfl h
  | cons k ks ih =>
    intro _
    by_cases hk : ks = []
    · subst hk
      exact ⟨k, by simp, by simp [maxLock]⟩
    · obtain ⟨l, hl, e⟩ := ih hk
      rcases Nat.le_total (maxLock ks) k.2 with h | h
      · exact ⟨k, by simp, by simp only [maxLock]; omega⟩
      · exact ⟨l, List.mem_cons_of_mem _ hl, by simp only [maxLock]; omega⟩

theorem lookup_filter (id j : Nat) (ls : List (Nat × Nat)) :
    (ls.filter fun l => decide (l.1 ≠ id)).lookup j = if j = id then none else ls.lookup j := by
  induction ls with
  | nil => simp
  | cons l ls ih =>
    rcases l with ⟨i, m⟩
    by_cases e1 : i = id
    · subst e1
      rw [List.filter_cons_of_neg (by simp), ih]
      by_cases e : j = i
      · rw [if_pos e, if_pos e]
      · have hb : (j == i) = false := by simpa using e
        rw [if_neg e, if_neg e]
        simp only [List.lookup, hb]
    · rw [List.filter_cons_of_pos (by simpa using e1)]
      by_cases e : j = i
      · subst e
        rw [if_neg e1]
        simp [List.lookup]
      · have hb : (j == i) = false := by simpa using e
        simp only [List.lookup, hb, ih]

/-- **C167, setting.** A lock can be set exactly for the native currency. An amount of zero changes nothing. Otherwise
the adapter's lock of the account becomes the amount, whatever it was; other locks of the account, the locks of other
accounts and all balances stay; and if the account exists, what is frozen is the largest of its locks. -/
theorem C167_set (c : Cfg) (s s' : State) (a w amt : Nat) :
    forceSetLock c s a w amt = .ok s' →
      a = c.native ∧ (amt = 0 → s' = s) ∧
      (amt ≠ 0 → (∀ v id, lockOf s' v id = if v = w ∧ id = adapterId then some amt else lockOf s v id) ∧
        (c.ed ≤ s.total w → amt ≤ s'.frozen w ∧ (∀ l ∈ s'.locks w, l.2 ≤ s'.frozen w) ∧
          ∃ l ∈ s'.locks w, l.2 = s'.frozen w)) ∧
      (∀ v, v ≠ w → s'.frozen v = s.frozen v ∧ s'.locks v = s.locks v ∧ s'.pinned v = s.pinned v) ∧
      s'.free = s.free ∧ s'.resv = s.resv ∧ s'.niss = s.niss ∧ s'.assets = s.assets := by
  intro h
  unfold forceSetLock at h
  simp only [bind_ok_iff, ensure_ok_iff, pure_ok_iff, exists_const] at h
  obtain ⟨ha, rfl⟩ := h
  by_cases h0 : amt = 0
  · subst h0
    refine ⟨ha, fun _ => rfl, fun h => absurd rfl h, fun v _ => ⟨rfl, rfl, rfl⟩, rfl, rfl, rfl, rfl⟩
  · have e : setLock c s adapterId w amt = updateLocks c s w (putLock adapterId amt (s.locks w)) := if_neg h0
    rw [e]
    refine ⟨ha, fun h => absurd h h0, fun _ => ⟨?_, ?_⟩, ?_, rfl, rfl, rfl, rfl⟩
    · intro v id
      show (upd s.locks w _ v).lookup id = _
      by_cases hv : v = w
      · subst hv
        rw [upd_same, lookup_putLock]
        by_cases hid : id = adapterId
        · rw [if_pos hid, if_pos ⟨rfl, hid⟩]
        · rw [if_neg hid, if_neg (fun h => hid h.2)]
          rfl
      · rw [upd_of_ne _ _ hv, if_neg (fun h => hv h.1)]
        rfl
    · intro hal
      have hf : (updateLocks c s w (putLock adapterId amt (s.locks w))).frozen w =
          maxLock (putLock adapterId amt (s.locks w)) := by
        show upd s.frozen w _ w = _
        rw [upd_same, if_pos hal]
      have hl : (updateLocks c s w (putLock adapterId amt (s.locks w))).locks w = putLock adapterId amt (s.locks w) :=
        upd_same _ _ _
      rw [hf, hl]
      refine ⟨le_maxLock (l := (adapterId, amt)) (mem_putLock _ _ _), fun l hl => le_maxLock hl, ?_⟩
      exact maxLock_attained _ (putLock_ne_nil _ _ _)
    · intro v hv
      obtain ⟨e1, e2, e3⟩ := updateLocks_other (c := c) (s := s) (putLock adapterId amt (s.locks w)) hv
      exact ⟨e2, e1, by unfold State.pinned; rw [e3]; rfl⟩

/-- **C167, removing.** The adapter's lock can be removed exactly for the native currency; what stays frozen is what another
lock asks for; other locks and all balances stay. -/
theorem C167_remove (c : Cfg) (s s' : State) (a w : Nat) :
    forceRemoveLock c s a w = .ok s' →
      a = c.native ∧
      (∀ v id, lockOf s' v id = if v = w ∧ id = adapterId then none else lockOf s v id) ∧
      (s'.frozen w = 0 ∨ ∃ l ∈ s'.locks w, l.1 ≠ adapterId ∧ l.2 = s'.frozen w) ∧
      (∀ v, v ≠ w → s'.frozen v = s.frozen v ∧ s'.locks v = s.locks v ∧ s'.pinned v = s.pinned v) ∧
      s'.free = s.free ∧ s'.resv = s.resv ∧ s'.niss = s.niss ∧ s'.assets = s.assets := by
  intro h
  unfold forceRemoveLock at h
  simp only [bind_ok_iff, ensure_ok_iff, pure_ok_iff, exists_const] at h
  obtain ⟨ha, rfl⟩ := h
  refine ⟨ha, ?_, ?_, ?_, rfl, rfl, rfl, rfl⟩
  · intro v id
    show (upd s.locks w _ v).lookup id = _
    by_cases hv : v = w
    · subst hv
      rw [upd_same, lookup_filter]
      by_cases hid : id = adapterId
      · rw [if_pos hid, if_pos ⟨rfl, hid⟩]
      · rw [if_neg hid, if_neg (fun h => hid h.2)]
        rfl
    · rw [upd_of_ne _ _ hv, if_neg (fun h => hv h.1)]
      rfl
  · show upd s.frozen w _ w = 0 ∨ ∃ l ∈ upd s.locks w _ w, l.1 ≠ adapterId ∧ l.2 = upd s.frozen w _ w
    rw [upd_same, upd_same]
    by_cases hal : c.ed ≤ s.total w
    · rw [if_pos hal]
      by_cases hn : ((s.locks w).filter fun l => decide (l.1 ≠ adapterId)) = []
      · left
        rw [hn]
        rfl
      · right
        obtain ⟨l, hl, e⟩ := maxLock_attained _ hn
        exact ⟨l, hl, by simpa using (List.mem_filter.1 hl).2, e⟩
    · left
      exact if_neg hal
  · intro v hv
    obtain ⟨e1, e2, e3⟩ := updateLocks_other (c := c) (s := s) ((s.locks w).filter fun l => decide (l.1 ≠ adapterId)) hv
    exact ⟨e2, e1, by unfold State.pinned; rw [show (removeLock c s adapterId w).lockRef v = s.lockRef v from e3]; rfl⟩

/-- **C167, acceptance.** -/
theorem C167_native (c : Cfg) (s : State) (a w amt : Nat) :
    ((∃ s', forceSetLock c s a w amt = .ok s') ↔ a = c.native) ∧
    ((∃ s', forceRemoveLock c s a w = .ok s') ↔ a = c.native) := by
  unfold forceSetLock forceRemoveLock
  simp only [bind_ok_iff, ensure_ok_iff, pure_ok_iff, exists_const]
  exact ⟨⟨fun ⟨_, h, _⟩ => h, fun h => ⟨_, h, rfl⟩⟩, ⟨fun ⟨_, h, _⟩ => h, fun h => ⟨_, h, rfl⟩⟩⟩

end Verif.Currency
