import Verif.Loans.Exact

/-!
# C112: what rewards are paid
-/

set_option linter.unusedSimpArgs false
set_option linter.unusedVariables false

namespace Verif.Loans
open Verif

variable {c : Cfg} {s s' : State}

/-! ### Specification -/

/-- The supply index of market `a` at the current block: the speed times the blocks since the last update, per voucher
(nothing if there are no vouchers). -/
def supIdxNow (s : State) (a : Nat) : Nat :=
  (s.rw.mkt a).supIdx + (s.block - (s.rw.mkt a).supBlock) * (s.rw.mkt a).supSpeed * scale / (s.books a).supply

/-- A debt at the start of the market: divided by the growth of the borrow index. -/
def baseOf (s : State) (a m : Nat) : Nat := DIV * DIV / (s.books a).index * m / DIV

/-- The borrow index of market `a` at the current block. -/
def borIdxNow (s : State) (a : Nat) : Nat :=
  (s.rw.mkt a).borIdx +
    (s.block - (s.rw.mkt a).borBlock) * (s.rw.mkt a).borSpeed * scale / baseOf s a (s.books a).borrows

/-- What `w` earned as a supplier of `a` since it was last settled. -/
def dueSup (s : State) (a w : Nat) : Nat := s.vouchers a w * (supIdxNow s a - s.rw.supIx a w) / scale
/-- What `w` earned as a borrower of `a` since it was last settled. -/
def dueBor (s : State) (a w : Nat) : Nat := baseOf s a (owed s a w) * (borIdxNow s a - s.rw.borIx a w) / scale
/-- Everything `w` earned in market `a` since it was last settled. -/
def due (s : State) (a w : Nat) : Nat := dueSup s a w + dueBor s a w

/-! ### Index updates -/

theorem deltaIndex_iff {db v t d : Nat} : deltaIndex db v t = .ok d ↔ db * v * scale / t ≤ maxU128 ∧ d = db * v * scale / t := by
  unfold deltaIndex
  split_ifs with h
  · subst h
    rw [Nat.div_zero]
    constructor
    · intro e; cases e; exact ⟨Nat.zero_le _, rfl⟩
    · rintro ⟨_, rfl⟩; rfl
  · rw [toU128_ok_iff]

theorem updSupply_exact {a : Nat} (h : updSupply s a = .ok s') :
    s' = setRew s a { s.rw.mkt a with
      supIdx := supIdxNow s a
      supBlock := max (s.rw.mkt a).supBlock s.block } := by
  unfold updSupply at h
  dsimp only at h
  unfold supIdxNow
  split_ifs at h with h0 h1
  · cases h
    have e : max (s.rw.mkt a).supBlock s.block = (s.rw.mkt a).supBlock := by omega
    rw [h0, e]
    simp only [Nat.zero_mul, Nat.zero_div, Nat.add_zero]
    exact (setRew_self _ _).symm
  · cases h
    have e : max (s.rw.mkt a).supBlock s.block = s.block := by omega
    rw [e]
    simp only [h1, Nat.zero_mul, Nat.mul_zero, Nat.zero_div, Nat.add_zero]
  · simp only [bind_ok_iff, cadd_ok_iff, pure_ok_iff, deltaIndex_iff] at h
    obtain ⟨d, ⟨_, rfl⟩, i, ⟨_, rfl⟩, rfl⟩ := h
    have e : max (s.rw.mkt a).supBlock s.block = s.block := by omega
    rw [e]

theorem baseBorrow_iff {ix m y : Nat} (h0 : ix ≠ 0) (hy : baseBorrow ix m = .ok y) : y = DIV * DIV / ix * m / DIV := by
  unfold baseBorrow at hy
  simp only [okOr_ok_iff, Option.bind_eq_some_iff, fixDiv_iff, fixMulInt_iff] at hy
  obtain ⟨_, ⟨_, _, rfl⟩, _, rfl⟩ := hy
  rfl

theorem baseBorrow_eq {ix m y : Nat} (hy : baseBorrow ix m = .ok y) : y = DIV * DIV / ix * m / DIV := by
  by_cases h0 : ix = 0
  · subst h0
    unfold baseBorrow fixDiv at hy
    rw [if_pos rfl] at hy
    cases hy
  · exact baseBorrow_iff h0 hy

theorem updBorrow_exact {a : Nat} (h : updBorrow s a = .ok s') :
    s' = setRew s a { s.rw.mkt a with
      borIdx := borIdxNow s a
      borBlock := max (s.rw.mkt a).borBlock s.block } := by
  unfold updBorrow at h
  dsimp only at h
  unfold borIdxNow baseOf
  split_ifs at h with h0 h1
  · cases h
    have e : max (s.rw.mkt a).borBlock s.block = (s.rw.mkt a).borBlock := by omega
    rw [h0, e]
    simp only [Nat.zero_mul, Nat.zero_div, Nat.add_zero]
    exact (setRew_self _ _).symm
  · cases h
    have e : max (s.rw.mkt a).borBlock s.block = s.block := by omega
    rw [e]
    simp only [h1, Nat.zero_mul, Nat.mul_zero, Nat.zero_div, Nat.add_zero]
  · simp only [bind_ok_iff, cadd_ok_iff, pure_ok_iff, deltaIndex_iff] at h
    obtain ⟨b, hb, d, ⟨_, rfl⟩, i, ⟨_, rfl⟩, rfl⟩ := h
    have e : max (s.rw.mkt a).borBlock s.block = s.block := by omega
    rw [e, baseBorrow_eq hb]

theorem distBorrower_exact {a w : Nat} (h : distBorrower s a w = .ok s') :
    s.rw.borIx a w ≤ (s.rw.mkt a).borIdx ∧
    s' = { s with rw := { s.rw with
      borIx := upd2 s.rw.borIx a w (s.rw.mkt a).borIdx,
      accrued := upd s.rw.accrued w (s.rw.accrued w +
        baseOf s a (owed s a w) * ((s.rw.mkt a).borIdx - s.rw.borIx a w) / scale),
      log := .bor a w (baseOf s a (owed s a w) * ((s.rw.mkt a).borIdx - s.rw.borIx a w) / scale) :: s.rw.log } } := by
  simp only [distBorrower, rewardDelta, bind_ok_iff, csub_ok_iff, cadd_ok_iff, toU128_ok_iff, pure_ok_iff] at h
  obtain ⟨d, ⟨hd, rfl⟩, m, hm, b, hb, x, ⟨_, rfl⟩, t, ⟨_, rfl⟩, rfl⟩ := h
  rw [baseBorrow_eq hb, debt_owed hm]
  exact ⟨hd, rfl⟩

/-- The whole settlement of one user in one market. -/
theorem collect_exact {a w : Nat} (h : collect s a w = .ok s') :
    s' = { s with rw := {
      mkt := upd s.rw.mkt a { s.rw.mkt a with
        supIdx := supIdxNow s a
        supBlock := max (s.rw.mkt a).supBlock s.block
        borIdx := borIdxNow s a
        borBlock := max (s.rw.mkt a).borBlock s.block }
      supIx := upd2 s.rw.supIx a w (supIdxNow s a)
      borIx := upd2 s.rw.borIx a w (borIdxNow s a)
      accrued := upd s.rw.accrued w (s.rw.accrued w + due s a w)
      log := .bor a w (dueBor s a w) :: .sup a w (dueSup s a w) :: s.rw.log } } := by
  simp only [collect, bind_ok_iff] at h
  obtain ⟨s1, h1, s2, h2, s3, h3, h4⟩ := h
  have e1 := updSupply_exact h1
  have e2 := (distSupplier_ok h2).2
  have e3 := updBorrow_exact h3
  have e4 := (distBorrower_exact h4).2
  have k1 : (s1.rw.mkt a) = { s.rw.mkt a with
      supIdx := supIdxNow s a
      supBlock := max (s.rw.mkt a).supBlock s.block } := by rw [e1]; exact upd_same _ _ _
  have k2 : borIdxNow s2 a = borIdxNow s a := by
    rw [e2, e1]; unfold borIdxNow baseOf setRew; simp only [upd_same]
  have k3 : s2.rw.mkt = s1.rw.mkt := by rw [e2]
  have k4 : s3.rw.mkt a = { s.rw.mkt a with
      supIdx := supIdxNow s a
      supBlock := max (s.rw.mkt a).supBlock s.block
      borIdx := borIdxNow s a
      borBlock := max (s.rw.mkt a).borBlock s.block } := by
    have e : s3.rw.mkt a = { s2.rw.mkt a with
      borIdx := borIdxNow s2 a
      borBlock := max (s2.rw.mkt a).borBlock s2.block } := by rw [e3]; exact upd_same _ _ _
    rw [e, k2, k3, k1, e2, e1]
    rfl
  have o3 : owed s3 a w = owed s a w := by rw [e3, e2, e1]; rfl
  have b3 : baseOf s3 a (owed s a w) = baseOf s a (owed s a w) := by rw [e3, e2, e1]; rfl
  have x3 : s3.rw.borIx = s.rw.borIx := by rw [e3, e2, e1]; rfl
  rw [o3, b3, k4, x3] at e4
  have v1 : s1.vouchers a w = s.vouchers a w := by rw [e1]; rfl
  have x1 : s1.rw.supIx = s.rw.supIx := by rw [e1]; rfl
  rw [k1, v1, x1] at e2
  have a3 : s3.rw.accrued = upd s.rw.accrued w (s.rw.accrued w + dueSup s a w) := by rw [e3, e2, e1]; rfl
  have l3 : s3.rw.log = .sup a w (dueSup s a w) :: s.rw.log := by rw [e3, e2, e1]; rfl
  have m3 : s3.rw.mkt = upd s.rw.mkt a { s.rw.mkt a with
      supIdx := supIdxNow s a
      supBlock := max (s.rw.mkt a).supBlock s.block
      borIdx := borIdxNow s a
      borBlock := max (s.rw.mkt a).borBlock s.block } := by
    funext x
    by_cases hx : x = a
    · subst hx; rw [k4, upd_same]
    · rw [upd_of_ne _ _ hx, e3, e2, e1]
      unfold setRew
      simp only [upd_of_ne _ _ hx]
  have s3' : s3.rw.supIx = upd2 s.rw.supIx a w (supIdxNow s a) := by rw [e3, e2, e1]; rfl
  have g3 : s3.rw = ⟨s3.rw.mkt, s3.rw.supIx, s3.rw.borIx, s3.rw.accrued, s3.rw.log⟩ := rfl
  rw [m3, a3, l3, s3', x3] at g3
  have f3 : s3 = { s with rw := s3.rw } := by rw [e3, e2, e1]; rfl
  rw [g3] at f3
  rw [e4, f3]
  simp only [upd_same, upd_upd]
  unfold due dueSup dueBor
  rw [Nat.add_assoc]

theorem upd2_hit {β : Type} (f : Nat → Nat → β) (a w : Nat) (x : β) : upd2 f a w x a w = x := by
  rw [upd2_apply, if_pos ⟨rfl, rfl⟩]

theorem supIdxNow_settled {a : Nat} (hx : (s'.rw.mkt a).supIdx = supIdxNow s a) (hb : s'.block ≤ (s'.rw.mkt a).supBlock) :
    supIdxNow s' a = supIdxNow s a := by
  have z : s'.block - (s'.rw.mkt a).supBlock = 0 := by omega
  rw [supIdxNow, z, hx, Nat.zero_mul, Nat.zero_mul, Nat.zero_div, Nat.add_zero]

theorem borIdxNow_settled {a : Nat} (hx : (s'.rw.mkt a).borIdx = borIdxNow s a) (hb : s'.block ≤ (s'.rw.mkt a).borBlock) :
    borIdxNow s' a = borIdxNow s a := by
  have z : s'.block - (s'.rw.mkt a).borBlock = 0 := by omega
  rw [borIdxNow, z, hx, Nat.zero_mul, Nat.zero_mul, Nat.zero_div, Nat.add_zero]

/-- After a settlement nothing is due any more in this block. -/
theorem due_settled {a w : Nat} (h : collect s a w = .ok s') : due s' a w = 0 := by
  have e := collect_exact h
  have em : s'.rw.mkt a = { s.rw.mkt a with
        supIdx := supIdxNow s a
        supBlock := max (s.rw.mkt a).supBlock s.block
        borIdx := borIdxNow s a
        borBlock := max (s.rw.mkt a).borBlock s.block } := by rw [e]; exact upd_same _ _ _
  have eb : s'.block = s.block := by rw [e]
  have ki : supIdxNow s' a = supIdxNow s a :=
    supIdxNow_settled (by rw [em]) (by rw [em, eb]; exact Nat.le_max_right _ _)
  have kb : borIdxNow s' a = borIdxNow s a :=
    borIdxNow_settled (by rw [em]) (by rw [em, eb]; exact Nat.le_max_right _ _)
  have xi : s'.rw.supIx a w = supIdxNow s a := by rw [e]; exact upd2_hit _ _ _ _
  have xb : s'.rw.borIx a w = borIdxNow s a := by rw [e]; exact upd2_hit _ _ _ _
  unfold due dueSup dueBor
  rw [ki, kb, xi, xb, Nat.sub_self, Nat.sub_self, Nat.mul_zero, Nat.mul_zero, Nat.zero_div]

/-- A settlement in one market does not change what is due in another one. -/
theorem due_other {a b w v : Nat} (h : collect s a w = .ok s') (hb : b ≠ a) : due s' b v = due s b v := by
  have e := collect_exact h
  rw [e]
  unfold due dueSup dueBor supIdxNow borIdxNow
  simp only [upd_of_ne _ _ hb]
  have u : ∀ (f : Nat → Nat → Nat) (x : Nat), upd2 f a w x b v = f b v := by
    intro f x; rw [upd2_apply, if_neg (fun hh => hb hh.1)]
  rw [u, u]
  rfl

theorem collect_accrued {a w : Nat} (h : collect s a w = .ok s') (v : Nat) :
    s'.rw.accrued v = s.rw.accrued v + (if v = w then due s a w else 0) := by
  rw [collect_exact h]
  by_cases hv : v = w
  · subst hv; simp
  · simp [upd_of_ne _ _ hv, hv]

theorem collectAll_accrued {w : Nat} : ∀ {as : List Nat} {s s' : State}, as.Nodup → collectAll s w as = .ok s' →
    ∀ v, s'.rw.accrued v = s.rw.accrued v + (if v = w then (as.map (fun a => due s a w)).sum else 0)
  | [], s, s', _, h => by cases h; simp
  | a :: as, s, s', hn, h => by
    simp only [collectAll, bind_ok_iff] at h
    obtain ⟨s1, h1, h2⟩ := h
    intro v
    rw [collectAll_accrued (List.nodup_cons.mp hn).2 h2 v, collect_accrued h1 v]
    have e : as.map (fun b => due s1 b w) = as.map (fun b => due s b w) := by
      apply List.map_congr_left
      intro b hb
      exact due_other h1 (fun hh => (List.nodup_cons.mp hn).1 (hh ▸ hb))
    rw [e]
    by_cases hv : v = w
    · subst hv; simp; omega
    · simp [hv]

theorem collectAll_due {w : Nat} : ∀ {as : List Nat} {s s' : State}, as.Nodup → collectAll s w as = .ok s' →
    ∀ b v, due s' b v = if b ∈ as ∧ v = w then 0 else if b ∈ as then due s' b v else due s b v
  | [], s, s', _, h => by cases h; simp
  | a :: as, s, s', hn, h => by
    have hall := h
    simp only [collectAll, bind_ok_iff] at h
    obtain ⟨s1, h1, h2⟩ := h
    intro b v
    have ih := collectAll_due (List.nodup_cons.mp hn).2 h2 b v
    by_cases hb : b = a
    · subst hb
      rw [if_neg (fun hh => (List.nodup_cons.mp hn).1 hh.1), if_neg (List.nodup_cons.mp hn).1] at ih
      by_cases hv : v = w
      · subst hv
        rw [ih, due_settled h1, if_pos ⟨List.mem_cons_self, rfl⟩]
      · rw [if_neg (fun hh => hv hh.2), if_pos List.mem_cons_self]
    · rw [due_other h1 hb] at ih
      simp only [List.mem_cons, hb, false_or]
      exact ih

/-! ### C112 -/

/-- What a payment of `w`'s rewards changes: the whole amount `t` moves from the reward account to `w`, and `w` has
nothing left to claim. -/
structure Paid (c : Cfg) (s s' : State) (w t : Nat) : Prop where
  tokens : ∀ x y, s'.ledger.bal x y + (if x = c.rewardAsset ∧ y = c.rewardAcct then t else 0) =
    s.ledger.bal x y + (if x = c.rewardAsset ∧ y = w then t else 0)
  kept : t = 0 ∨ t < s.ledger.bal c.rewardAsset c.rewardAcct
  none : s'.rw.accrued w = 0
  others : ∀ v, v ≠ w → s'.rw.accrued v = s.rw.accrued v
  book : s'.books = s.books ∧ s'.deposits = s.deposits ∧ s'.debts = s.debts ∧ s'.markets = s.markets

theorem Ledger.transfer_keep {l l' : Ledger} {a x y m : Nat} (h : l.transfer a x y m true = .ok l') :
    m = 0 ∨ m < l.bal a x := by
  unfold Ledger.transfer at h
  split_ifs at h with h0 h1 h2
  · exact .inl h0
  · right
    simp only [true_and] at h2
    omega

theorem payReward_paid {w t : Nat} {s1 : State} (hr : RwOnly s s1) (ht : s1.rw.accrued w = t)
    (ho : ∀ v, v ≠ w → s1.rw.accrued v = s.rw.accrued v) (h : payReward c s1 w = .ok s') : Paid c s s' w t := by
  obtain ⟨x, rfl⟩ := hr
  unfold payReward at h
  split_ifs at h with h0
  · cases h
    have : t = 0 := ht.symm.trans h0
    subst this
    exact ⟨fun x y => by simp, .inl rfl, h0, ho, rfl, rfl, rfl, rfl⟩
  · simp only [bind_ok_iff, pure_ok_iff] at h
    obtain ⟨l, hl, rfl⟩ := h
    rw [ht] at hl
    exact ⟨Ledger.transfer_bal hl, Ledger.transfer_keep hl, upd_same _ _ _,
      fun v hv => (upd_of_ne _ _ hv).trans (ho v hv), rfl, rfl, rfl, rfl⟩

theorem payReward_due {b w v : Nat} (h : payReward c s w = .ok s') : due s' b v = due s b v := by
  unfold payReward at h
  split_ifs at h with h0
  · cases h; rfl
  · simp only [bind_ok_iff, pure_ok_iff] at h
    obtain ⟨l, hl, rfl⟩ := h
    rfl

/-- **C112.** Claiming the rewards of one market pays the caller exactly what was accrued to it before plus what it earned
in that market since it was last settled, and nothing is left to claim from that market afterwards. -/
theorem C112_claim_market {a w : Nat} (h : claimFor c s w a = .ok s') :
    Paid c s s' w (s.rw.accrued w + due s a w) ∧ due s' a w = 0 ∧ ∀ b v, b ≠ a → due s' b v = due s b v := by
  simp only [claimFor, bind_ok_iff] at h
  obtain ⟨s1, h1, h2⟩ := h
  refine ⟨payReward_paid (collect_rw h1) ?_ ?_ h2, ?_, ?_⟩
  · rw [collect_accrued h1, if_pos rfl]
  · intro v hv; rw [collect_accrued h1, if_neg hv, Nat.add_zero]
  · rw [payReward_due h2, due_settled h1]
  · intro b v hb; rw [payReward_due h2, due_other h1 hb]

/-- **C112.** Claiming all rewards pays the caller exactly what was accrued to it before plus what it earned in every
market since it was last settled there, and nothing is left to claim afterwards. -/
theorem C112_claim_all (hc : c.Ok) {ok : Call → Prop} (hr : ReachBy c ok s) {w : Nat} (h : claim c s w = .ok s') :
    Paid c s s' w (s.rw.accrued w + (s.ids.map (fun a => due s a w)).sum) ∧
      ∀ a, s.markets a ≠ none → due s' a w = 0 := by
  have hi := inv_reach hc hr
  simp only [claim, bind_ok_iff] at h
  obtain ⟨s1, h1, h2⟩ := h
  have ha := collectAll_accrued hi.nodup h1
  refine ⟨payReward_paid (collectAll_rw h1) ?_ ?_ h2, ?_⟩
  · rw [ha, if_pos rfl]
  · intro v hv; rw [ha, if_neg hv, Nat.add_zero]
  · intro a hm
    rw [payReward_due h2, collectAll_due hi.nodup h1, if_pos ⟨(hi.mem a).mpr hm, rfl⟩]

/-- **C112.** A second claim before any block passes and any other call is made pays nothing. -/
theorem C112_claim_twice {a w : Nat} {s2 : State} (h : claimFor c s w a = .ok s') (h2 : claimFor c s' w a = .ok s2)
    (x y : Nat) : s2.ledger.bal x y = s'.ledger.bal x y := by
  have p := (C112_claim_market h2).1.tokens x y
  have z := C112_claim_market h
  rw [z.1.none, z.2.1] at p
  simpa using p

/-- **C112.** The emission of a market is what its speed says: while there are vouchers, the index grows in one update by
`speed * blocks * 10^12 / supply` rounded down, so that all suppliers together earn at most `speed * blocks` and,
before per-user rounding, at least `speed * blocks - supply / 10^12`. -/
theorem C112_index_growth (s : State) (a : Nat) (hs : (s.books a).supply ≠ 0) :
    (supIdxNow s a - (s.rw.mkt a).supIdx) * (s.books a).supply ≤
      (s.block - (s.rw.mkt a).supBlock) * (s.rw.mkt a).supSpeed * scale ∧
    (s.block - (s.rw.mkt a).supBlock) * (s.rw.mkt a).supSpeed * scale <
      (supIdxNow s a - (s.rw.mkt a).supIdx) * (s.books a).supply + (s.books a).supply := by
  unfold supIdxNow
  rw [Nat.add_sub_cancel_left]
  generalize (s.block - (s.rw.mkt a).supBlock) * (s.rw.mkt a).supSpeed * scale = n
  have h1 := Nat.div_add_mod n (s.books a).supply
  have h2 := Nat.mod_lt n (Nat.pos_of_ne_zero hs)
  rw [Nat.mul_comm] at h1
  omega

/-- In the fixture supplier 7 is due 500 and borrower 8 something too; claiming pays it, the second claim nothing. -/
example : due ex1 1 7 = 500 ∧ okAnd (exec exC ex1 (.claim 7)) (fun t =>
    decide (t.ledger.bal exC.rewardAsset 7 = ex1.ledger.bal exC.rewardAsset 7 + 500 ∧ t.rw.accrued 7 = 0) &&
    okAnd (exec exC t (.claim 7)) (fun u => decide (u.ledger.bal exC.rewardAsset 7 = t.ledger.bal exC.rewardAsset 7))) =
      true := by decide +kernel

end Verif.Loans
