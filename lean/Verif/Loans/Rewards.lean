import Verif.Loans.Props
import Mathlib.Algebra.BigOperators.Ring.Finset

/-! # Property C48: supply rewards and the emission -/

set_option linter.unusedSimpArgs false
set_option linter.unusedVariables false

namespace Verif.Loans
open Verif Finset

variable {c : Cfg} {s s' : State}

/-- Rewards of `w` in market `a`, credited and pending, in units of `1 / scale`. -/
def term (s : State) (a w : Nat) : Nat :=
  paid s a w * scale + s.vouchers a w * ((s.rw.mkt a).supIdx - s.rw.supIx a w)

/-- The emission not yet in the index, in units of `1 / scale`. -/
def ahead (s : State) (a : Nat) : Nat :=
  scale * ((s.rw.mkt a).supSpeed * (s.block - (s.rw.mkt a).supBlock))

structure RwInv (s : State) : Prop where
  ix : ∀ a w, s.rw.supIx a w ≤ (s.rw.mkt a).supIdx
  blk : ∀ a, (s.rw.mkt a).supBlock ≤ s.block
  grow : ∀ a t, s.block ≤ t →
    emission a t s.rw.log = emission a s.block s.rw.log + (s.rw.mkt a).supSpeed * (t - s.block)
  pot : ∀ a (F : Finset Nat), ∑ w ∈ F, term s a w + ahead s a ≤ scale * emission a s.block s.rw.log

/-- Nothing about supply rewards changes. -/
structure Still (s s' : State) : Prop where
  vou : ∀ a w, s'.vouchers a w = s.vouchers a w
  speed : ∀ a, (s'.rw.mkt a).supSpeed = (s.rw.mkt a).supSpeed
  idx : ∀ a, (s'.rw.mkt a).supIdx = (s.rw.mkt a).supIdx
  sblk : ∀ a, (s'.rw.mkt a).supBlock = (s.rw.mkt a).supBlock
  ix : s'.rw.supIx = s.rw.supIx
  em : ∀ a t, emission a t s'.rw.log = emission a t s.rw.log
  paid : ∀ a w, paid s' a w = paid s a w
  block : s'.block = s.block
  sup : ∀ a, (s'.books a).supply = (s.books a).supply

theorem Still.inv (t : Still s s') (h : RwInv s) : RwInv s' := by
  have ht : ∀ a w, term s' a w = term s a w := by
    intro a w; unfold term; rw [t.paid, t.vou, t.idx, t.ix]
  have ha : ∀ a, ahead s' a = ahead s a := by
    intro a; unfold ahead; rw [t.speed, t.block, t.sblk]
  refine ⟨?_, ?_, ?_, ?_⟩
  · intro a w; rw [t.ix, t.idx]; exact h.ix a w
  · intro a; rw [t.sblk, t.block]; exact h.blk a
  · intro a x hx; rw [t.em, t.em, t.speed, t.block]; exact h.grow a x (t.block ▸ hx)
  · intro a F; rw [ha, t.em, t.block]; simp only [ht]; exact h.pot a F

theorem Still.trans {s1 s2 s3 : State} (h : Still s1 s2) (g : Still s2 s3) : Still s1 s3 :=
  ⟨fun a w => (g.vou a w).trans (h.vou a w), fun a => (g.speed a).trans (h.speed a),
    fun a => (g.idx a).trans (h.idx a), fun a => (g.sblk a).trans (h.sblk a), g.ix.trans h.ix,
    fun a t => (g.em a t).trans (h.em a t), fun a w => (g.paid a w).trans (h.paid a w), g.block.trans h.block,
    fun a => (g.sup a).trans (h.sup a)⟩

/-- Only things unrelated to supply rewards change. -/
theorem Still.of_eq (hd : s'.deposits = s.deposits) (hr : s'.rw = s.rw) (hb : s'.block = s.block)
    (hs : ∀ a, (s'.books a).supply = (s.books a).supply) : Still s s' := by
  refine ⟨?_, ?_, ?_, ?_, ?_, ?_, ?_, hb, hs⟩
  · intro a w; simp [State.vouchers, State.dep, hd]
  · intro a; rw [hr]
  · intro a; rw [hr]
  · intro a; rw [hr]
  · rw [hr]
  · intro a t; rw [hr]
  · intro a w; unfold Loans.paid; rw [hr]

theorem still_accrue {a : Nat} (h : accrue c s a = .ok s') : Still s s' := by
  obtain ⟨b, rfl, hg⟩ := accrue_ok h
  refine .of_eq rfl rfl rfl ?_
  intro x
  by_cases hx : x = a
  · subst hx; simp [setBook, hg.supply]
  · simp [setBook, upd_of_ne _ _ hx]

theorem still_earned {w a r : Nat} (h : updEarned s w a r = .ok s') : Still s s' := by
  obtain ⟨e, rfl⟩ := updEarned_ok h
  exact .of_eq rfl rfl rfl (fun _ => rfl)

theorem still_updBorrow {a : Nat} (h : updBorrow s a = .ok s') : Still s s' := by
  obtain ⟨r, rfl, h1, _, h3, h4, _⟩ := updBorrow_ok h
  have key : ∀ {f : Rew → Nat}, f r = f (s.rw.mkt a) → ∀ x, f (upd s.rw.mkt a r x) = f (s.rw.mkt x) := by
    intro f hf x
    by_cases hx : x = a
    · subst hx; simpa using hf
    · simp [upd_of_ne _ _ hx]
  exact ⟨fun _ _ => rfl, key h1, key h3, key h4, rfl, fun _ _ => rfl, fun _ _ => rfl, rfl, fun _ => rfl⟩

theorem still_distBorrower {a w : Nat} (h : distBorrower s a w = .ok s') : Still s s' := by
  obtain ⟨x, rfl⟩ := distBorrower_ok h
  refine ⟨fun _ _ => rfl, fun _ => rfl, fun _ => rfl, fun _ => rfl, rfl, fun _ _ => rfl, ?_, rfl, fun _ => rfl⟩
  intro b v
  simp [paid, Event.paid]

/-- Vouchers are dominated by the supply. -/
def Dom (s : State) : Prop := ∀ a, SumLe (s.vouchers a) (s.books a).supply

theorem Still.dom (t : Still s s') (h : Dom s) : Dom s' := by
  intro a F
  rw [t.sup]
  simp only [t.vou]
  exact h a F

theorem updSupply_inv {a : Nat} (h : RwInv s) (hd : Dom s) (he : updSupply s a = .ok s') :
    RwInv s' ∧ Dom s' := by
  obtain ⟨r, rfl, h1, _, _, _, h5, h6, h7⟩ := updSupply_ok he
  have hb := h.blk a
  have e5 : r.supBlock = s.block := by rw [h5]; omega
  have off : ∀ x, x ≠ a → (setRew s a r).rw.mkt x = s.rw.mkt x := fun x hx => upd_of_ne _ _ hx
  have onn : (setRew s a r).rw.mkt a = r := upd_same _ _ _
  refine ⟨⟨?_, ?_, ?_, ?_⟩, fun x => hd x⟩
  · intro x w
    by_cases hx : x = a
    · subst hx; rw [onn]; exact (h.ix x w).trans h6
    · rw [off x hx]; exact h.ix x w
  · intro x
    by_cases hx : x = a
    · subst hx; rw [onn, e5]; exact Nat.le_refl _
    · rw [off x hx]; exact h.blk x
  · intro x t ht
    by_cases hx : x = a
    · subst hx; rw [onn, h1]; exact h.grow x t ht
    · rw [off x hx]; exact h.grow x t ht
  · intro x F
    by_cases hx : x = a
    · subst hx
      have hp := h.pot x F
      have e1 : ahead (setRew s x r) x = 0 := by
        unfold ahead; rw [onn, e5]; simp [setRew]
      have e2 : ∀ w, term (setRew s x r) x w = term s x w + s.vouchers x w * (r.supIdx - (s.rw.mkt x).supIdx) := by
        intro w
        unfold term
        rw [onn]
        have h8 := h.ix x w
        have : r.supIdx - s.rw.supIx x w = ((s.rw.mkt x).supIdx - s.rw.supIx x w) + (r.supIdx - (s.rw.mkt x).supIdx) := by
          omega
        show paid s x w * scale + s.vouchers x w * (r.supIdx - s.rw.supIx x w) = _
        rw [this, Nat.mul_add, Nat.add_assoc]
      simp only [e1, e2, Finset.sum_add_distrib, ← Finset.sum_mul]
      have hdx := Nat.mul_le_mul_right (r.supIdx - (s.rw.mkt x).supIdx) (hd x F)
      have e3 : ahead s x = (s.block - (s.rw.mkt x).supBlock) * (s.rw.mkt x).supSpeed * scale := by
        unfold ahead; rw [Nat.mul_comm scale, Nat.mul_comm (s.rw.mkt x).supSpeed]
      rw [Nat.mul_comm (s.books x).supply] at hdx
      rw [e3] at hp
      show _ ≤ scale * emission x s.block s.rw.log
      omega
    · have hp := h.pot x F
      have e1 : ahead (setRew s a r) x = ahead s x := by
        unfold ahead; rw [off x hx]; rfl
      have e2 : ∀ w, term (setRew s a r) x w = term s x w := by
        intro w; unfold term; rw [off x hx]; rfl
      simp only [e1, e2]
      exact hp

/-- Terms may shrink. -/
theorem RwInv.shrink (h : RwInv s) (hm : s'.rw.mkt = s.rw.mkt) (hix : ∀ a w, s'.rw.supIx a w ≤ (s'.rw.mkt a).supIdx)
    (hb : s'.block = s.block) (hem : ∀ a t, emission a t s'.rw.log = emission a t s.rw.log)
    (ht : ∀ a w, term s' a w ≤ term s a w) : RwInv s' := by
  refine ⟨hix, ?_, ?_, ?_⟩
  · intro a; rw [hm, hb]; exact h.blk a
  · intro a t h1; rw [hem, hem, hm, hb]; exact h.grow a t (hb ▸ h1)
  · intro a F
    have e1 : ahead s' a = ahead s a := by unfold ahead; rw [hm, hb]
    rw [e1, hem, hb]
    exact (Nat.add_le_add_right (Finset.sum_le_sum (fun w _ => ht a w)) _).trans (h.pot a F)

theorem distSupplier_inv {a w : Nat} (h : RwInv s) (hd : Dom s) (he : distSupplier s a w = .ok s') :
    RwInv s' ∧ Dom s' ∧ s'.rw.supIx a w = (s'.rw.mkt a).supIdx := by
  obtain ⟨hle, rfl⟩ := distSupplier_ok he
  refine ⟨?_, fun x => hd x, ?_⟩
  · refine h.shrink rfl ?_ rfl (fun _ _ => rfl) ?_
    · intro x y
      dsimp only
      rw [upd2_apply]
      split_ifs with e
      · rw [e.1]
      · exact h.ix x y
    · intro x y
      unfold term paid State.vouchers State.dep
      dsimp only
      rw [upd2_apply, List.map_cons, List.sum_cons]
      by_cases e : x = a ∧ y = w
      · obtain ⟨rfl, rfl⟩ := e
        simp only [Event.paid, and_self, if_true, Nat.sub_self, Nat.mul_zero, Nat.add_zero]
        rw [Nat.add_mul]
        have := Nat.div_mul_le_self (s.vouchers x y * ((s.rw.mkt x).supIdx - s.rw.supIx x y)) scale
        unfold State.vouchers State.dep at this
        omega
      · have e' : ¬ (a = x ∧ w = y) := fun q => e ⟨q.1.symm, q.2.symm⟩
        simp only [Event.paid, e', e, if_false, Nat.zero_add]
        exact Nat.le_refl _
  · simp

/-- Vouchers of settled accounts may change in any way, others may shrink. -/
theorem RwInv.vouchers (h : RwInv s) (hr : s'.rw = s.rw) (hb : s'.block = s.block)
    (hv : ∀ a w, s'.vouchers a w ≤ s.vouchers a w ∨ s.rw.supIx a w = (s.rw.mkt a).supIdx) : RwInv s' := by
  refine h.shrink (by rw [hr]) (by rw [hr]; exact h.ix) hb (by simp [hr]) ?_
  intro a w
  unfold term paid
  rw [hr]
  rcases hv a w with h1 | h1
  · exact Nat.add_le_add_left (Nat.mul_le_mul_right _ h1) _
  · rw [h1]; simp

/-- Settling keeps other accounts of the market settled. -/
theorem distSupplier_keeps {a w v : Nat} (he : distSupplier s a w = .ok s')
    (h : s.rw.supIx a v = (s.rw.mkt a).supIdx) : s'.rw.supIx a v = (s'.rw.mkt a).supIdx := by
  obtain ⟨_, rfl⟩ := distSupplier_ok he
  dsimp only
  rw [upd2_apply]
  split_ifs
  · rfl
  · exact h

theorem collect_inv {a w : Nat} (h : RwInv s) (hd : Dom s) (he : collect s a w = .ok s') : RwInv s' ∧ Dom s' := by
  simp only [collect, bind_ok_iff] at he
  obtain ⟨s1, h1, s2, h2, s3, h3, h4⟩ := he
  obtain ⟨g1, d1⟩ := updSupply_inv h hd h1
  obtain ⟨g2, d2, _⟩ := distSupplier_inv g1 d1 h2
  have t := (still_updBorrow h3).trans (still_distBorrower h4)
  exact ⟨t.inv g2, t.dom d2⟩

theorem collectAll_inv {w : Nat} : ∀ {as : List Nat} {s s' : State}, RwInv s → Dom s →
    collectAll s w as = .ok s' → RwInv s' ∧ Dom s'
  | [], s, s', h, hd, he => by cases he; exact ⟨h, hd⟩
  | a :: as, s, s', h, hd, he => by
    simp only [collectAll, bind_ok_iff] at he
    obtain ⟨s1, h1, h2⟩ := he
    obtain ⟨g1, d1⟩ := collect_inv h hd h1
    exact collectAll_inv g1 d1 h2

theorem payReward_inv {w : Nat} (h : RwInv s) (he : payReward c s w = .ok s') : RwInv s' := by
  obtain ⟨l, _, rfl⟩ := payReward_view he
  refine Still.inv (s := s) ?_ h
  exact ⟨fun _ _ => rfl, fun _ => rfl, fun _ => rfl, fun _ => rfl, rfl, fun _ _ => rfl, fun _ _ => rfl, rfl, fun _ => rfl⟩

theorem redeemVoucher_inv {w a v : Nat} {p : State × Nat} (h : RwInv s) (hd : Dom s)
    (he : redeemVoucher c s w a v = .ok p) : RwInv p.1 := by
  simp only [redeemVoucher, bind_ok_iff, csub_ok_iff, pure_ok_iff, exists_const] at he
  obtain ⟨_, _, s1, h1, s2, h2, r, _, m, _, _, _, t, _, l, _, rfl⟩ := he
  obtain ⟨g1, d1⟩ := updSupply_inv h hd h1
  obtain ⟨g2, d2, _⟩ := distSupplier_inv g1 d1 h2
  refine g2.vouchers rfl rfl ?_
  intro x y
  left
  simp only [State.vouchers, State.dep]
  rw [upd2_apply]
  split_ifs with e
  · rw [minus_getD, e.1, e.2]
    exact Nat.sub_le _ _
  · exact Nat.le_refl _

theorem updateSpeed_inv {a : Nat} {x y : Option Nat} (h : RwInv s) (hd : Dom s)
    (he : updateSpeed s a x y = .ok s') : RwInv s' := by
  simp only [updateSpeed, bind_ok_iff, pure_ok_iff] at he
  obtain ⟨_, _, s1, h1, s2, h2, rfl⟩ := he
  generalize x.getD (s.rw.mkt a).supSpeed = v at h1
  generalize y.getD (s.rw.mkt a).borSpeed = u at h2
  -- the borrow half
  have t2 : Still s1 s2 := by
    unfold setBorSpeed at h2
    split_ifs at h2
    · cases h2; exact .of_eq rfl rfl rfl (fun _ => rfl)
    · simp only [bind_ok_iff, pure_ok_iff] at h2
      obtain ⟨s3, h3, rfl⟩ := h2
      refine (still_updBorrow h3).trans ?_
      have key : ∀ {f : Rew → Nat}, (f { s3.rw.mkt a with borSpeed := u } = f (s3.rw.mkt a)) →
          ∀ x, f ((setRew s3 a { s3.rw.mkt a with borSpeed := u }).rw.mkt x) = f (s3.rw.mkt x) := by
        intro f hf x
        by_cases hx : x = a
        · subst hx; simpa [setRew] using hf
        · simp [setRew, upd_of_ne _ _ hx]
      exact ⟨fun _ _ => rfl, key (f := Rew.supSpeed) rfl, key (f := Rew.supIdx) rfl, key (f := Rew.supBlock) rfl, rfl,
        fun _ _ => rfl, fun _ _ => rfl, rfl, fun _ => rfl⟩
  -- the supply half: up to the speed field, `s1` is a state with the invariant
  obtain ⟨s3, g3, hs1, hv⟩ : ∃ s3, RwInv s3 ∧ s1 = setRew s3 a { s3.rw.mkt a with supSpeed := v } ∧
      (v = (s3.rw.mkt a).supSpeed ∨ (s3.rw.mkt a).supBlock = s3.block) := by
    unfold setSupSpeed at h1
    split_ifs at h1 with e
    · cases h1
      refine ⟨s, h, ?_, .inl e⟩
      rw [e]
      exact (setRew_self s a).symm
    · simp only [bind_ok_iff, pure_ok_iff] at h1
      obtain ⟨s3, h3, rfl⟩ := h1
      obtain ⟨g3, _⟩ := updSupply_inv h hd h3
      refine ⟨s3, g3, rfl, .inr ?_⟩
      obtain ⟨r, rfl, _, _, _, _, h5, _⟩ := updSupply_ok h3
      have := h.blk a
      simp only [setRew, upd_same]
      omega
  have hm : ∀ z, z ≠ a → s1.rw.mkt z = s3.rw.mkt z := by
    intro z hz; rw [hs1]; exact upd_of_ne _ _ hz
  have hma : s1.rw.mkt a = { s3.rw.mkt a with supSpeed := v } := by rw [hs1]; exact upd_same _ _ _
  have hidx : ∀ z, (s1.rw.mkt z).supIdx = (s3.rw.mkt z).supIdx := by
    intro z
    by_cases hz : z = a
    · subst hz; rw [hma]
    · rw [hm z hz]
  have hblk : ∀ z, (s1.rw.mkt z).supBlock = (s3.rw.mkt z).supBlock := by
    intro z
    by_cases hz : z = a
    · subst hz; rw [hma]
    · rw [hm z hz]
  have hb : s2.block = s3.block := by rw [t2.block, hs1]; rfl
  have hlog : s1.rw.log = s3.rw.log := by rw [hs1]; rfl
  have hemit : ∀ z t, emission z t (.speed a v u s2.block :: s2.rw.log) =
      if a = z then v * (t - s3.block) + emission z s3.block s3.rw.log else emission z t s3.rw.log := by
    intro z t
    simp only [emission]
    rw [t2.em, t2.em, hlog, hb]
  refine ⟨?_, ?_, ?_, ?_⟩
  · intro z w
    dsimp only
    rw [t2.ix, t2.idx, hidx, hs1]
    exact g3.ix z w
  · intro z
    dsimp only
    rw [t2.sblk, hblk, hb]
    exact g3.blk z
  · intro z t ht
    dsimp only at ht ⊢
    rw [hemit, hemit, t2.speed]
    rw [hb] at ht ⊢
    split_ifs with e
    · subst e
      rw [hma]
      simp only [Nat.sub_self, Nat.mul_zero, Nat.zero_add]
      omega
    · rw [hm z (Ne.symm e)]
      exact g3.grow z t ht
  · intro z F
    have hp := g3.pot z F
    have e1 : ∀ w, term { s2 with rw := { s2.rw with log := .speed a v u s2.block :: s2.rw.log } } z w = term s3 z w := by
      intro w
      unfold term
      dsimp only
      have p1 : paid { s2 with rw := { s2.rw with log := .speed a v u s2.block :: s2.rw.log } } z w = paid s2 z w := by
        simp [paid, Event.paid]
      have p2 : paid s1 z w = paid s3 z w := by simp [paid, hlog]
      have p3 : State.vouchers { s2 with rw := { s2.rw with log := .speed a v u s2.block :: s2.rw.log } } z w =
        s2.vouchers z w := rfl
      have p4 : s1.vouchers z w = s3.vouchers z w := by rw [hs1]; rfl
      rw [p1, p3, t2.paid, p2, t2.vou, p4, t2.idx, t2.ix, hidx]
      rw [hs1]
      rfl
    have e2 : ahead { s2 with rw := { s2.rw with log := .speed a v u s2.block :: s2.rw.log } } z = ahead s3 z := by
      unfold ahead
      dsimp only
      rw [t2.speed, t2.sblk, hblk, hb]
      by_cases hz : z = a
      · subst hz
        rw [hma]
        dsimp only
        rcases hv with e | e
        · rw [e]
        · rw [e]; simp
      · rw [hm z hz]
    simp only [e1, e2]
    rw [hemit, hb]
    split_ifs with e
    · simpa using hp
    · exact hp

/-- Histories without ptoken transfers. -/
def Call.notTransfer : Call → Prop
  | .transferP .. => False
  | _ => True

theorem still_repayWith {w a d m : Nat} (h : repayWith c s w a d m = .ok s') : Still s s' := by
  simp only [repayWith, bind_ok_iff, ensure_ok_iff, exists_const, pure_ok_iff] at h
  obtain ⟨_, s1, h1, s2, h2, l, _, rfl⟩ := h
  refine ((still_updBorrow h1).trans (still_distBorrower h2)).trans (.of_eq rfl rfl rfl ?_)
  intro x
  by_cases hx : x = a
  · subst hx; simp
  · simp [upd_of_ne _ _ hx]

theorem still_repay {w a m : Nat} (h : repay c s w a m = .ok s') : Still s s' := by
  simp only [repay, bind_ok_iff] at h
  obtain ⟨_, _, s1, h1, d, _, h2⟩ := h
  exact (still_accrue h1).trans (still_repayWith h2)

theorem liquidatedTransfer_inv {liq br a k m und : Nat} {mk : Market} (h : RwInv s) (hd : Dom s)
    (he : liquidatedTransfer c s liq br a k m und mk = .ok s') : RwInv s' := by
  simp only [liquidatedTransfer, bind_ok_iff, csub_ok_iff, cadd_ok_iff, pure_ok_iff] at he
  obtain ⟨s1, h1, s2, h2, l, _, d, _, d', ⟨_, _⟩, t, ⟨_, rfl⟩, s3, h3, s4, h4, s5, h5, s6, h6, r, _, v, _, x, ⟨_, rfl⟩, q, _,
    g, ⟨_, rfl⟩, y, ⟨_, rfl⟩, z, ⟨_, rfl⟩, rfl⟩ := he
  have t2 := (still_updBorrow h1).trans (still_distBorrower h2)
  have g2 := t2.inv h
  have d2 := t2.dom hd
  generalize hs2 : ({ s2 with
      ledger := l,
      debts := upd2 s2.debts a br ⟨d', (s2.books a).index⟩,
      books := upd s2.books a { s2.books a with borrows := (s2.books a).borrows - m } } : State) = s2' at h3
  have t2' : Still s2 s2' := by
    rw [← hs2]
    refine .of_eq rfl rfl rfl ?_
    intro x
    by_cases hx : x = a
    · subst hx; simp
    · simp [upd_of_ne _ _ hx]
  obtain ⟨g3, d3⟩ := updSupply_inv (t2'.inv g2) (t2'.dom d2) h3
  obtain ⟨g4, d4, e4⟩ := distSupplier_inv g3 d3 h4
  obtain ⟨g5, d5, e5⟩ := distSupplier_inv g4 d4 h5
  obtain ⟨g6, d6, e6⟩ := distSupplier_inv g5 d5 h6
  have f4 := distSupplier_keeps h6 (distSupplier_keeps h5 e4)
  have f5 := distSupplier_keeps h6 e5
  refine g6.vouchers rfl rfl ?_
  intro x y
  by_cases hx : x = k ∧ (y = br ∨ y = liq ∨ y = c.incentiveAcct)
  · obtain ⟨rfl, rfl | rfl | rfl⟩ := hx
    · exact .inr f5
    · exact .inr f4
    · exact .inr e6
  · left
    have n1 : ¬ (x = k ∧ y = br) := fun e => hx ⟨e.1, .inl e.2⟩
    have n2 : ¬ (x = k ∧ y = liq) := fun e => hx ⟨e.1, .inr (.inl e.2)⟩
    have n3 : ¬ (x = k ∧ y = c.incentiveAcct) := fun e => hx ⟨e.1, .inr (.inr e.2)⟩
    simp only [setDep, State.vouchers, State.dep, upd2_apply, n1, n2, n3, if_false]
    exact Nat.le_refl _

theorem exec_rwInv {k : Call} (h : RwInv s) (hd : Dom s) (hk : k.notTransfer) (he : exec c s k = .ok s') :
    RwInv s' := by
  have same : s'.deposits = s.deposits → s'.rw = s.rw → s'.block = s.block →
      (∀ a, (s'.books a).supply = (s.books a).supply) → RwInv s' := fun a b c d => (Still.of_eq a b c d).inv h
  cases k with
  | addMarket a m =>
    obtain ⟨_, _, _, _, _, _, _, _, _, _, rfl⟩ := addMarket_view he
    refine same rfl rfl rfl ?_
    intro x
    by_cases hx : x = a
    · subst hx; simp
    · simp [upd_of_ne _ _ hx]
  | activate a => obtain ⟨m, hm, rfl⟩ := mutateMarket_view he; exact same rfl rfl rfl (fun _ => rfl)
  | updateModel a rm =>
    simp only [exec, updateModel, bind_ok_iff, ensure_ok_iff, exists_const] at he
    obtain ⟨_, he⟩ := he
    obtain ⟨m, hm, rfl⟩ := mutateMarket_view he; exact same rfl rfl rfl (fun _ => rfl)
  | updateMarket a p => obtain ⟨m, hm, _, _, _, _, _, rfl⟩ := updateMarket_view he; exact same rfl rfl rfl (fun _ => rfl)
  | forceUpdate a m => obtain ⟨m0, hm, _, _, rfl⟩ := forceUpdate_view he; exact same rfl rfl rfl (fun _ => rfl)
  | addReward w m => obtain ⟨l, hl, rfl⟩ := addReward_view he; exact same rfl rfl rfl (fun _ => rfl)
  | withdrawReward w m => obtain ⟨l, hl, rfl⟩ := withdrawReward_view he; exact same rfl rfl rfl (fun _ => rfl)
  | updateSpeed a x y => exact updateSpeed_inv h hd he
  | claim w =>
    simp only [exec, claim, bind_ok_iff] at he
    obtain ⟨s1, h1, h2⟩ := he
    exact payReward_inv (collectAll_inv h hd h1).1 h2
  | claimFor w a =>
    simp only [exec, claimFor, bind_ok_iff] at he
    obtain ⟨s1, h1, h2⟩ := he
    exact payReward_inv (collect_inv h hd h1).1 h2
  | mint w a m =>
    simp only [exec, mint, bind_ok_iff, ensure_ok_iff, exists_const, cadd_ok_iff, pure_ok_iff] at he
    obtain ⟨_, _, _, _, _, s1, h1, s2, h2, s3, h3, r, _, s4, h4, v, _, _, l, _, d, ⟨_, rfl⟩, t, ⟨_, rfl⟩, rfl⟩ := he
    have t1 := still_accrue h1
    obtain ⟨g2, d2⟩ := updSupply_inv (t1.inv h) (t1.dom hd) h2
    obtain ⟨g3, d3, e3⟩ := distSupplier_inv g2 d2 h3
    have t4 := still_earned h4
    refine (t4.inv g3).vouchers rfl rfl ?_
    intro x y
    by_cases e : x = a ∧ y = w
    · right
      rw [t4.ix, t4.idx, e.1, e.2]
      exact e3
    · left
      simp only [State.vouchers, State.dep, upd2_apply, e, if_false]
      exact Nat.le_refl _
  | redeem w a m =>
    simp only [exec, redeem, doRedeem, bind_ok_iff, ensure_ok_iff, exists_const, pure_ok_iff] at he
    obtain ⟨_, p, ⟨_, _, s1, h1, r, _, s2, h2, v, _, h3⟩, rfl⟩ := he
    have t := (still_accrue h1).trans (still_earned h2)
    exact redeemVoucher_inv (t.inv h) (t.dom hd) h3
  | redeemAll w a =>
    simp only [exec, redeemAll, bind_ok_iff, pure_ok_iff] at he
    obtain ⟨_, _, s1, h1, r, _, s2, h2, p, h3, rfl⟩ := he
    have t := (still_accrue h1).trans (still_earned h2)
    exact redeemVoucher_inv (t.inv h) (t.dom hd) h3
  | borrow w a m =>
    simp only [exec, borrow, bind_ok_iff, cadd_ok_iff, pure_ok_iff] at he
    obtain ⟨_, _, s1, h1, _, _, s2, h2, s3, h3, d, _, d', ⟨_, _⟩, t, ⟨_, rfl⟩, l, _, rfl⟩ := he
    have t := (((still_accrue h1).trans (still_updBorrow h2)).trans (still_distBorrower h3))
    refine Still.inv (s := s3) (.of_eq rfl rfl rfl ?_) (t.inv h)
    intro x
    by_cases hx : x = a
    · subst hx; simp
    · simp [upd_of_ne _ _ hx]
  | repay w a m => exact (still_repay he).inv h
  | repayAll w a =>
    simp only [exec, repayAll, bind_ok_iff] at he
    obtain ⟨_, _, s1, h1, d, _, h2⟩ := he
    exact ((still_accrue h1).trans (still_repay h2)).inv h
  | collateral w a on =>
    obtain ⟨_, _, _, rfl⟩ := collateral_view he
    refine h.vouchers rfl rfl ?_
    intro x y
    left
    simp only [setDep, State.vouchers, State.dep, upd2_apply]
    split_ifs with e
    · rw [e.1, e.2]; exact Nat.le_refl _
    · exact Nat.le_refl _
  | liquidate liq br a m k =>
    obtain ⟨s1, s2, _, _, h1, h2, h3⟩ := liquidate_view he
    obtain ⟨_, _, _, _, _, _, _, _, _, _, _, _, _, _, _, h4⟩ := doLiquidate_view h3
    have t := (still_accrue h1).trans (still_accrue h2)
    exact liquidatedTransfer_inv (t.inv h) (t.dom hd) h4
  | addReserves w a m =>
    obtain ⟨_, _, _, _, _, _, rfl⟩ := addReserves_view he
    refine same rfl rfl rfl ?_
    intro x
    by_cases hx : x = a
    · subst hx; simp
    · simp [upd_of_ne _ _ hx]
  | reduceReserves w a m =>
    obtain ⟨_, _, _, _, _, _, rfl⟩ := reduceReserves_view he
    refine same rfl rfl rfl ?_
    intro x
    by_cases hx : x = a
    · subst hx; simp
    · simp [upd_of_ne _ _ hx]
  | reduceIncentive w a m =>
    simp only [exec, reduceIncentive, bind_ok_iff, ensure_ok_iff, exists_const, pure_ok_iff] at he
    obtain ⟨_, _, _, r, _, v, _, p, h1, l, _, rfl⟩ := he
    refine Still.inv (s := p.1) ?_ (redeemVoucher_inv h hd h1)
    exact .of_eq rfl rfl rfl (fun _ => rfl)
  | updateLfc as => cases he; exact same rfl rfl rfl (fun _ => rfl)
  | transferP p src dst m => exact hk.elim

theorem rwInv_reach {ok : Call → Prop} (hc : c.Ok) (hok : ∀ k, ok k → k.notTransfer) (h : ReachBy c ok s) :
    RwInv s := by
  induction h with
  | init l p t b hw =>
    refine ⟨?_, ?_, ?_, ?_⟩
    · intro a w; exact Nat.le_refl _
    · intro a; exact Nat.zero_le _
    · intro a t _; simp [State.fresh, Rewards.zero, emission]
    · intro a F
      have : ∀ w, term (State.fresh l p t b) a w = 0 := by
        intro w; simp [term, paid, State.fresh, Rewards.zero]
      have e2 : ahead (State.fresh l p t b) a = 0 := by simp [ahead, State.fresh, Rewards.zero]
      simp only [this, e2, Finset.sum_const_zero]
      exact Nat.zero_le _
  | @step s s' hr hs ih =>
    cases hs with
    | call k _ _ hk he =>
      exact exec_rwInv ih (fun a => ((inv_reach hc hr).sums a).le) (hok k hk) he
    | env he =>
      have h1 : s'.rw = s.rw := by rw [he.same]
      have h2 : s'.deposits = s.deposits := by rw [he.same]
      have hb := he.block
      refine ⟨?_, ?_, ?_, ?_⟩
      · rw [h1]; exact ih.ix
      · intro a; rw [h1]; exact (ih.blk a).trans hb
      · intro a t ht
        rw [h1, ih.grow a t (hb.trans ht), ih.grow a s'.block hb]
        have : t - s.block = (s'.block - s.block) + (t - s'.block) := by omega
        rw [this, Nat.mul_add, Nat.add_assoc]
      · intro a F
        have hp := ih.pot a F
        have hbl := ih.blk a
        have e1 : ∀ w, term s' a w = term s a w := by
          intro w; unfold term paid State.vouchers State.dep; rw [h1, h2]
        have e2 : ahead s' a = ahead s a + scale * ((s.rw.mkt a).supSpeed * (s'.block - s.block)) := by
          unfold ahead
          rw [h1, ← Nat.mul_add, ← Nat.mul_add]
          congr 2
          omega
        simp only [e1, e2]
        rw [h1, ih.grow a s'.block hb, Nat.mul_add]
        omega

/-! ## C48 -/

/-- The property: the rewards credited to any set of suppliers, plus those they could still have credited, do
not exceed the configured emission. -/
def C48_statement : Prop := ∀ (c : Cfg), c.Ok → ∀ s, Reach c s → ∀ (a : Nat) (F : Finset Nat),
  ∑ w ∈ F, (paid s a w + pendingReward s a w) ≤ emission a s.block s.rw.log

/-- **C48** It holds for all histories without ptoken transfers. -/
theorem C48_partial (hc : c.Ok) (h : ReachBy c Call.notTransfer s) (a : Nat) (F : Finset Nat) :
    ∑ w ∈ F, (paid s a w + pendingReward s a w) ≤ emission a s.block s.rw.log := by
  have hp := (rwInv_reach hc (fun _ h => h) h).pot a F
  have hs : 0 < scale := by decide
  have h1 : scale * ∑ w ∈ F, (paid s a w + pendingReward s a w) ≤ ∑ w ∈ F, term s a w := by
    rw [Finset.mul_sum]
    apply Finset.sum_le_sum
    intro w _
    unfold term pendingReward
    rw [Nat.mul_add, Nat.mul_comm scale]
    have := Nat.mul_div_le (s.vouchers a w * ((s.rw.mkt a).supIdx - s.rw.supIx a w)) scale
    omega
  exact Nat.le_of_mul_le_mul_left (h1.trans (by omega)) hs

/-- Supplier 7 of the fixture collects, hands the ptokens to 9, and 9 collects the same rewards again. -/
def exD : State := run exC ex1 [.claimFor 7 1, .transferP 11 7 9 5000000, .claimFor 9 1]
theorem exD_reach : Reach exC exD := run_reach ex1_reach (by
  intro k hk
  simp only [List.mem_cons, List.not_mem_nil, or_false] at hk
  rcases hk with rfl | rfl | rfl <;> simp [Call.wt, Call.signers, exC])

/-- **C48** It is false in general: a ptoken transfer lets the same vouchers earn the same emission twice. -/
theorem C48_refuted : ¬ C48_statement := by
  intro h
  have h1 := h exC exC_ok exD exD_reach 1 {7, 9}
  exact absurd h1 (by decide +kernel)

/-- Amounts: 500 emitted, 500 credited to each. -/
example : paid exD 1 7 = 500 ∧ paid exD 1 9 = 500 ∧ emission 1 exD.block exD.rw.log = 500 := by decide +kernel

/-- The bound is tight: without the transfer exactly the emission is credited. -/
example : paid (run exC ex1 [.claimFor 7 1]) 1 7 = 500 ∧
    emission 1 (run exC ex1 [.claimFor 7 1]).block (run exC ex1 [.claimFor 7 1]).rw.log = 500 := by decide +kernel

end Verif.Loans
