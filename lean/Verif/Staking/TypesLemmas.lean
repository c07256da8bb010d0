import Verif.Staking.Spec

/-! # Lemmas about the matching pool, staking ledgers and unlocking chunks -/

set_option linter.unusedSimpArgs false

namespace Verif.Staking
open Verif

/-! ### Matching pool -/

theorem Half.free_ok {h : Half} {f : Nat} : h.free = .ok f ↔ h.reserved ≤ h.total ∧ f = h.total - h.reserved := by
  simp [Half.free]

theorem Half.add_ok {h h' : Half} {m : Nat} (e : h.add m = .ok h') :
    h' = ⟨h.total + m, h.reserved⟩ ∧ h.total + m ≤ maxU128 := by
  simp only [Half.add, bind_ok_iff, cadd_ok_iff, pure_ok_iff] at e
  obtain ⟨t, ⟨h1, rfl⟩, rfl⟩ := e
  exact ⟨rfl, h1⟩

theorem Half.sub_ok {h h' : Half} {m : Nat} (e : h.sub m = .ok h') :
    h.reserved + m ≤ h.total ∧ h' = ⟨h.total - m, h.reserved⟩ := by
  simp only [Half.sub, bind_ok_iff, Half.free_ok, ensure_ok_iff, exists_const, csub_ok_iff, pure_ok_iff] at e
  obtain ⟨f, ⟨h1, rfl⟩, h2, t, ⟨h3, rfl⟩, rfl⟩ := e
  exact ⟨by omega, rfl⟩

theorem Half.sub_of {h : Half} {m : Nat} (e : h.reserved + m ≤ h.total) :
    h.sub m = .ok ⟨h.total - m, h.reserved⟩ := by
  have h1 : h.reserved ≤ h.total := by omega
  have h2 : m ≤ h.total - h.reserved := by omega
  have h3 : m ≤ h.total := by omega
  simp [Half.sub, Half.free_ok.2 ⟨h1, rfl⟩, ensure_of h2, csub_ok_iff.2 ⟨h3, rfl⟩, pure, Except.pure]

theorem Half.lock_ok {h h' : Half} {m : Nat} (e : h.lock m = .ok h') :
    h' = ⟨h.total, h.reserved + m⟩ ∧ h.reserved + m ≤ h.total := by
  simp only [Half.lock, bind_ok_iff, cadd_ok_iff, ensure_ok_iff, exists_const, pure_ok_iff] at e
  obtain ⟨t, ⟨h1, rfl⟩, h2, rfl⟩ := e
  exact ⟨rfl, h2⟩

theorem Half.unlock_ok {h h' : Half} {m : Nat} (e : h.unlock m = .ok h') :
    m ≤ h.reserved ∧ h' = ⟨h.total, h.reserved - m⟩ := by
  simp only [Half.unlock, bind_ok_iff, csub_ok_iff, pure_ok_iff] at e
  obtain ⟨t, ⟨h1, rfl⟩, rfl⟩ := e
  exact ⟨h1, rfl⟩

/-- `clear` removes the same amount `x` from both totals and keeps the reserved amounts covered. -/
theorem Pool.clear_ok {p p' : Pool} (e : p.clear = .ok p') :
    ∃ x, p.stake.reserved + x ≤ p.stake.total ∧ p.unstake.reserved + x ≤ p.unstake.total ∧
      (x = 0 ∨ (p.stake.total = p.stake.reserved + x ∧ p.unstake.total = p.unstake.reserved + x)) ∧
      p' = ⟨⟨p.stake.total - x, p.stake.reserved⟩, ⟨p.unstake.total - x, p.unstake.reserved⟩⟩ := by
  simp only [Pool.clear, bind_ok_iff, Half.free_ok] at e
  obtain ⟨fs, ⟨h1, rfl⟩, fu, ⟨h2, rfl⟩, e⟩ := e
  split at e
  · cases e
    exact ⟨0, by omega, by omega, .inl rfl, rfl⟩
  · rename_i hne
    simp only [bind_ok_iff, csub_ok_iff, pure_ok_iff] at e
    obtain ⟨a, ⟨h3, rfl⟩, b, ⟨h4, rfl⟩, rfl⟩ := e
    exact ⟨p.stake.total - p.stake.reserved, by omega, by omega, .inr ⟨by omega, by omega⟩, rfl⟩

theorem Pool.clear_total {p : Pool} (h1 : p.stake.reserved ≤ p.stake.total)
    (h2 : p.unstake.reserved ≤ p.unstake.total) : ∃ p', p.clear = .ok p' := by
  unfold Pool.clear
  rw [Half.free_ok.2 ⟨h1, rfl⟩, Half.free_ok.2 ⟨h2, rfl⟩]
  simp only [ok_bind]
  split
  · exact ⟨_, rfl⟩
  · rename_i hne
    rw [csub_ok_iff.2 ⟨Nat.sub_le _ _, rfl⟩, csub_ok_iff.2 ⟨by omega, rfl⟩]
    exact ⟨_, rfl⟩

theorem Pool.consolidateStake_ok {p p' : Pool} {m : Nat} (e : p.consolidateStake m = .ok p') :
    m ≤ p.stake.reserved ∧ p.stake.reserved ≤ p.stake.total ∧
    ∃ x, p.stake.reserved + x ≤ p.stake.total ∧ p.unstake.reserved + x ≤ p.unstake.total ∧
      p' = ⟨⟨p.stake.total - m - x, p.stake.reserved - m⟩, ⟨p.unstake.total - x, p.unstake.reserved⟩⟩ := by
  simp only [Pool.consolidateStake, bind_ok_iff] at e
  obtain ⟨h1, e1, h2, e2, e3⟩ := e
  obtain ⟨hm, rfl⟩ := Half.unlock_ok e1
  obtain ⟨hs, rfl⟩ := Half.sub_ok e2
  obtain ⟨x, hx1, hx2, _, rfl⟩ := Pool.clear_ok e3
  simp only at hs hx1 hx2
  exact ⟨hm, by omega, x, by omega, hx2, rfl⟩

theorem Pool.consolidateUnstake_ok {p p' : Pool} {m : Nat} (e : p.consolidateUnstake m = .ok p') :
    m ≤ p.unstake.reserved ∧ p.unstake.reserved ≤ p.unstake.total ∧
    ∃ x, p.stake.reserved + x ≤ p.stake.total ∧ p.unstake.reserved + x ≤ p.unstake.total ∧
      p' = ⟨⟨p.stake.total - x, p.stake.reserved⟩, ⟨p.unstake.total - m - x, p.unstake.reserved - m⟩⟩ := by
  simp only [Pool.consolidateUnstake, bind_ok_iff] at e
  obtain ⟨h1, e1, h2, e2, e3⟩ := e
  obtain ⟨hm, rfl⟩ := Half.unlock_ok e1
  obtain ⟨hs, rfl⟩ := Half.sub_ok e2
  obtain ⟨x, hx1, hx2, _, rfl⟩ := Pool.clear_ok e3
  simp only at hs hx1 hx2
  exact ⟨hm, by omega, x, hx1, by omega, rfl⟩

theorem Pool.consolidateStake_total {p : Pool} {m : Nat} (hm : m ≤ p.stake.reserved)
    (h1 : p.stake.reserved ≤ p.stake.total) (h2 : p.unstake.reserved ≤ p.unstake.total) :
    ∃ p', p.consolidateStake m = .ok p' := by
  unfold Pool.consolidateStake Half.unlock
  rw [csub_ok_iff.2 ⟨hm, rfl⟩]
  simp only [ok_bind, pure, Except.pure]
  rw [Half.sub_of (by simp only; omega)]
  exact Pool.clear_total (by simp only; omega) h2

theorem Pool.consolidateUnstake_total {p : Pool} {m : Nat} (hm : m ≤ p.unstake.reserved)
    (h1 : p.stake.reserved ≤ p.stake.total) (h2 : p.unstake.reserved ≤ p.unstake.total) :
    ∃ p', p.consolidateUnstake m = .ok p' := by
  unfold Pool.consolidateUnstake Half.unlock
  rw [csub_ok_iff.2 ⟨hm, rfl⟩]
  simp only [ok_bind, pure, Except.pure]
  rw [Half.sub_of (by simp only; omega)]
  exact Pool.clear_total h1 (by simp only; omega)

/-! ### Chunks -/

@[simp] theorem chunkSum_nil : chunkSum [] = 0 := rfl
@[simp] theorem chunkSum_cons (ch : Chunk) (xs : List Chunk) : chunkSum (ch :: xs) = ch.value + chunkSum xs := by
  simp [chunkSum]
@[simp] theorem chunkSum_append (xs ys : List Chunk) : chunkSum (xs ++ ys) = chunkSum xs + chunkSum ys := by
  simp [chunkSum]
@[simp] theorem chunkSum_reverse (xs : List Chunk) : chunkSum xs.reverse = chunkSum xs := by
  simp [chunkSum]
@[simp] theorem dueSum_nil (e : Nat) : dueSum e [] = 0 := rfl
theorem dueSum_cons (e : Nat) (ch : Chunk) (xs : List Chunk) :
    dueSum e (ch :: xs) = (if ch.era ≤ e then ch.value else 0) + dueSum e xs := by
  unfold dueSum
  by_cases h : ch.era ≤ e <;> simp [h]
@[simp] theorem dueSum_append (e : Nat) (xs ys : List Chunk) : dueSum e (xs ++ ys) = dueSum e xs + dueSum e ys := by
  simp [dueSum]

/-- The chunks split into the due ones and the rest. -/
theorem due_add_rest (e : Nat) (xs : List Chunk) :
    dueSum e xs + chunkSum (xs.filter (fun ch => decide (e < ch.era))) = chunkSum xs := by
  induction xs with
  | nil => rfl
  | cons ch xs ih =>
    rw [dueSum_cons]
    by_cases h : ch.era ≤ e
    · have h2 : ¬ e < ch.era := by omega
      simp only [h, h2, if_true, List.filter_cons, decide_false, chunkSum_cons]
      simp only [Bool.false_eq_true, if_false]
      omega
    · have h2 : e < ch.era := by omega
      simp only [h, h2, if_false, List.filter_cons, decide_true, chunkSum_cons, if_true]
      omega

theorem rest_due (e : Nat) (xs : List Chunk) : dueSum e (xs.filter (fun ch => decide (e < ch.era))) = 0 := by
  unfold dueSum
  rw [List.filter_filter]
  have : xs.filter (fun ch => decide (ch.era ≤ e) && decide (e < ch.era)) = [] := by
    rw [List.filter_eq_nil_iff]
    intro ch _
    simp only [Bool.and_eq_true, decide_eq_true_eq, not_and]
    omega
  rw [this]
  rfl

theorem dueSum_le (e : Nat) (xs : List Chunk) : dueSum e xs ≤ chunkSum xs := by
  have := due_add_rest e xs; omega

theorem dueSum_mono {e e' : Nat} (h : e ≤ e') (xs : List Chunk) : dueSum e xs ≤ dueSum e' xs := by
  induction xs with
  | nil => exact Nat.le_refl _
  | cons ch xs ih =>
    rw [dueSum_cons, dueSum_cons]
    split_ifs <;> omega

theorem sumDue_ok {e : Nat} : ∀ {xs : List Chunk} {m : Nat}, sumDue e xs = .ok m → m = dueSum e xs
  | [], m, h => by simp only [sumDue] at h; cases h; rfl
  | ch :: xs, m, h => by
    simp only [sumDue, bind_ok_iff] at h
    obtain ⟨t, ht, h⟩ := h
    have ih := sumDue_ok ht
    rw [dueSum_cons]
    split at h
    · rw [cadd_ok_iff] at h
      rename_i hc
      rw [if_pos hc]; omega
    · cases h
      rename_i hc
      rw [if_neg hc]; omega

theorem sumDue_total {e : Nat} : ∀ {xs : List Chunk}, dueSum e xs ≤ maxU128 → sumDue e xs = .ok (dueSum e xs)
  | [], _ => rfl
  | ch :: xs, h => by
    rw [dueSum_cons] at h ⊢
    unfold sumDue
    rw [sumDue_total (xs := xs) (by omega)]
    simp only [ok_bind]
    by_cases hc : ch.era ≤ e
    · rw [if_pos hc] at h
      rw [if_pos hc, if_pos hc, cadd_ok_iff.2 ⟨h, rfl⟩]
    · rw [if_neg hc, if_neg hc]; simp

theorem eq_dropLast_append {xs : List Chunk} {ch : Chunk} (h : xs.getLast? = some ch) : xs = xs.dropLast ++ [ch] := by
  rw [List.dropLast_append_getLast? ch h]

/-- What `pushChunk` does: either appended, or the last chunk, of the same era, grows. -/
theorem pushChunk_cases (xs : List Chunk) (v e : Nat) :
    pushChunk xs v e = xs ++ [⟨v, e⟩] ∨
    ∃ ys u, xs = ys ++ [⟨u, e⟩] ∧ pushChunk xs v e = ys ++ [⟨satAdd u v, e⟩] := by
  unfold pushChunk
  cases hl : xs.getLast? with
  | none => left; simp [List.getLast?_eq_none_iff.1 hl]
  | some ch =>
    simp only
    split_ifs with he
    · right
      refine ⟨xs.dropLast, ch.value, ?_, rfl⟩
      rw [← he]
      exact eq_dropLast_append hl
    · left; rfl

theorem pushChunk_sum_le (xs : List Chunk) (v e : Nat) : chunkSum (pushChunk xs v e) ≤ chunkSum xs + v := by
  rcases pushChunk_cases xs v e with h | ⟨ys, u, rfl, h⟩
  · rw [h]; simp
  · rw [h]
    simp only [chunkSum_append, chunkSum_cons, chunkSum_nil, satAdd]
    omega

theorem pushChunk_sum (xs : List Chunk) (v e : Nat) (hb : chunkSum xs + v ≤ maxU128) :
    chunkSum (pushChunk xs v e) = chunkSum xs + v := by
  rcases pushChunk_cases xs v e with h | ⟨ys, u, rfl, h⟩
  · rw [h]; simp
  · rw [h]
    simp only [chunkSum_append, chunkSum_cons, chunkSum_nil, satAdd] at *
    omega

/-- Before its target era a new chunk is not due. -/
theorem pushChunk_due (xs : List Chunk) (v e e' : Nat) (h : e' < e) : dueSum e' (pushChunk xs v e) = dueSum e' xs := by
  have h2 : ¬ e ≤ e' := by omega
  rcases pushChunk_cases xs v e with h | ⟨ys, u, rfl, h⟩
  · rw [h]; simp [dueSum_cons, h2]
  · rw [h]; simp [dueSum_cons, h2]

/-- From its target era on it is. -/
theorem pushChunk_due' (xs : List Chunk) (v e e' : Nat) (h : e ≤ e') (hb : chunkSum xs + v ≤ maxU128) :
    dueSum e' (pushChunk xs v e) = dueSum e' xs + v := by
  rcases pushChunk_cases xs v e with h' | ⟨ys, u, rfl, h'⟩
  · rw [h']; simp [dueSum_cons, h]
  · rw [h']
    simp only [chunkSum_append, chunkSum_cons, chunkSum_nil] at hb
    simp only [dueSum_append, dueSum_cons, h, if_true, dueSum_nil, satAdd]
    omega

/-! ### Staking ledgers -/

theorem SLedger.new_consistent {v : Nat} (h : v ≤ maxU128) : (SLedger.new v).Consistent :=
  ⟨by simp [SLedger.new, SLedger.locked], h⟩

theorem subChunks_eq : ∀ (xs : List Chunk) (t : Nat), subChunks t xs = t - chunkSum xs
  | [], t => by simp [subChunks]
  | ch :: xs, t => by
    simp only [subChunks, chunkSum_cons]
    rw [subChunks_eq xs]
    omega

theorem SLedger.consolidate_total (l : SLedger) (e : Nat) : (l.consolidate e).total = l.total - dueSum e l.unlocking := by
  simp only [SLedger.consolidate, subChunks_eq, dueSum]

theorem SLedger.consolidate_ok {l : SLedger} (e : Nat) (h : l.Consistent) :
    (l.consolidate e).Consistent ∧ (l.consolidate e).active = l.active ∧
    (l.consolidate e).locked + dueSum e l.unlocking = l.locked ∧
    l.total - (l.consolidate e).total = dueSum e l.unlocking := by
  have h1 := due_add_rest e l.unlocking
  have h2 := l.consolidate_total e
  have h3 : (l.consolidate e).locked = chunkSum (l.unlocking.filter (fun ch => decide (e < ch.era))) := rfl
  have h4 : (l.consolidate e).active = l.active := rfl
  obtain ⟨hc, hb⟩ := h
  have h5 : l.locked = chunkSum l.unlocking := rfl
  refine ⟨⟨?_, ?_⟩, h4, ?_, ?_⟩ <;> omega

theorem SLedger.bondExtra_ok {l l' : SLedger} {v : Nat} (e : l.bondExtra v = .ok l') (h : l.Consistent) :
    l'.Consistent ∧ l' = ⟨l.total + v, l.active + v, l.unlocking⟩ := by
  simp only [SLedger.bondExtra, bind_ok_iff, cadd_ok_iff, pure_ok_iff] at e
  obtain ⟨t, ⟨h1, rfl⟩, a, ⟨h2, rfl⟩, rfl⟩ := e
  refine ⟨⟨?_, h1⟩, rfl⟩
  have h5 : l.locked = chunkSum l.unlocking := rfl
  have := h.1
  simp only [SLedger.locked]
  omega

theorem SLedger.unbond_ok {l l' : SLedger} {v era : Nat} (e : l.unbond v era = .ok l') (h : l.Consistent) :
    v ≤ l.active ∧ l'.Consistent ∧ l'.active = l.active - v ∧ l'.locked = l.locked + v ∧ l'.total = l.total := by
  simp only [SLedger.unbond, bind_ok_iff, csub_ok_iff, pure_ok_iff] at e
  obtain ⟨a, ⟨h1, rfl⟩, rfl⟩ := e
  have h5 : l.locked = chunkSum l.unlocking := rfl
  obtain ⟨hc, hb⟩ := h
  have h6 := pushChunk_sum l.unlocking v era (by omega)
  refine ⟨h1, ⟨?_, hb⟩, rfl, ?_, rfl⟩
  · simp only [SLedger.locked]; omega
  · simp only [SLedger.locked]; omega

theorem rebondGo_ok {v : Nat} : ∀ {xs : List Chunk} {acc act : Nat} {x : List Chunk × Nat},
    acc ≤ v → rebondGo v xs acc act = .ok x →
    x.2 = act + min (v - acc) (chunkSum xs) ∧ chunkSum x.1 + min (v - acc) (chunkSum xs) = chunkSum xs
  | [], acc, act, x, _, h => by
    simp only [rebondGo] at h
    cases h
    simp
  | ch :: xs, acc, act, x, hv, h => by
    simp only [rebondGo, bind_ok_iff, cadd_ok_iff] at h
    obtain ⟨t, ⟨h1, rfl⟩, h⟩ := h
    simp only [chunkSum_cons]
    split at h
    · rename_i hle
      simp only [bind_ok_iff, cadd_ok_iff] at h
      obtain ⟨a, ⟨h2, rfl⟩, h⟩ := h
      split at h
      · cases h
        rename_i hge
        simp only
        omega
      · obtain ⟨i1, i2⟩ := rebondGo_ok hle h
        rw [i1]
        omega
    · rename_i hle
      simp only [bind_ok_iff, cadd_ok_iff] at h
      obtain ⟨a, ⟨h2, rfl⟩, h⟩ := h
      cases h
      simp only [chunkSum_cons]
      omega

theorem SLedger.rebond_ok {l l' : SLedger} {v : Nat} (e : l.rebond v = .ok l') (h : l.Consistent) :
    l'.Consistent ∧ l'.active = l.active + min v l.locked ∧ l'.locked + min v l.locked = l.locked ∧
    l'.total = l.total := by
  simp only [SLedger.rebond, bind_ok_iff, pure_ok_iff] at e
  obtain ⟨x, hx, rfl⟩ := e
  obtain ⟨i1, i2⟩ := rebondGo_ok (Nat.zero_le _) hx
  obtain ⟨hc, hb⟩ := h
  simp only [chunkSum_reverse, Nat.sub_zero] at i1 i2
  have h5 : l.locked = chunkSum l.unlocking := rfl
  simp only [SLedger.Consistent, SLedger.locked, chunkSum_reverse] at *
  refine ⟨⟨?_, hb⟩, ?_, ?_, trivial⟩ <;> omega

/-- On a consistent ledger no addition of `rebond` overflows. -/
theorem rebondGo_total {v : Nat} : ∀ (xs : List Chunk) (acc act : Nat),
    act + chunkSum xs ≤ maxU128 → acc ≤ act → acc ≤ v → ∃ x, rebondGo v xs acc act = .ok x
  | [], acc, act, _, _, _ => ⟨_, rfl⟩
  | ch :: xs, acc, act, hb, ha, hv => by
    simp only [chunkSum_cons] at hb
    unfold rebondGo
    rw [cadd_ok_iff.2 ⟨(by omega : acc + ch.value ≤ maxU128), rfl⟩]
    simp only [ok_bind]
    split_ifs with hle hge
    · rw [cadd_ok_iff.2 ⟨(by omega : act + ch.value ≤ maxU128), rfl⟩]
      exact ⟨_, rfl⟩
    · rw [cadd_ok_iff.2 ⟨(by omega : act + ch.value ≤ maxU128), rfl⟩]
      simp only [ok_bind]
      exact rebondGo_total xs _ _ (by omega) (by omega) hle
    · rw [cadd_ok_iff.2 ⟨(by omega : act + (v - acc) ≤ maxU128), rfl⟩]
      exact ⟨_, rfl⟩

theorem SLedger.rebond_total {l : SLedger} (v : Nat) (h : l.Consistent) : ∃ l', l.rebond v = .ok l' := by
  obtain ⟨x, hx⟩ := rebondGo_total (v := v) l.unlocking.reverse 0 l.active (by
    have h5 : l.locked = chunkSum l.unlocking := rfl
    have := h.1; have := h.2
    simp only [chunkSum_reverse]; omega) (Nat.zero_le _) (Nat.zero_le _)
  exact ⟨{ l with active := x.2, unlocking := x.1.reverse }, by simp [SLedger.rebond, hx, pure, Except.pure]⟩

end Verif.Staking
