import Verif.Loans.RewardExact
import Verif.Loans.Rewards
import Verif.Loans.Health
import Verif.Loans.Told

/-!
# C233: nobody else can reduce the reward one has earned

`liquidated_transfer` settles the borrow reward of the liquidator (`pallets/loans/src/lib.rs:1765`), not of the account whose
debt it reduces: what that account had earned on the repaid part is lost.
-/

set_option linter.unusedSimpArgs false
set_option linter.unusedVariables false

namespace Verif.Loans
open Verif Finset

/-! ## Specification -/

/-- What `w` could claim now in the markets `L`: what is credited to it already and what it has earned there since. -/
def claimable (s : State) (L : Finset Nat) (w : Nat) : Nat := s.rw.accrued w + ∑ a ∈ L, due s a w
/-- The same, as a supplier only. -/
def claimableSup (s : State) (L : Finset Nat) (w : Nat) : Nat := s.rw.accrued w + ∑ a ∈ L, dueSup s a w

/-- **C233** What somebody else signs does not reduce what one can claim. -/
def C233_statement : Prop :=
  ∀ (c : Cfg), c.Ok → ∀ (s : State), Reach c s → ∀ k s', k.wt → c.acct ∉ k.signers → exec c s k = .ok s' →
    ∀ w, w ∉ k.signers → w ≠ c.incentiveAcct → ∀ L, claimable s L w ≤ claimable s' L w

/-! ## Proofs -/

variable {c : Cfg} {s s' : State} {w : Nat}

/-- What counts: supply rewards, and borrow rewards if `f`. -/
def worth (f : Bool) (s : State) (a w : Nat) : Nat := dueSup s a w + if f = true then dueBor s a w else 0

def Keeps (f : Bool) (w : Nat) (s s' : State) : Prop :=
  ∀ L : Finset Nat, s.rw.accrued w + ∑ a ∈ L, worth f s a w ≤ s'.rw.accrued w + ∑ a ∈ L, worth f s' a w

theorem Keeps.refl (f : Bool) (w : Nat) (s : State) : Keeps f w s s := fun _ => Nat.le_refl _
theorem Keeps.trans {f : Bool} {t : State} (h : Keeps f w s s') (g : Keeps f w s' t) : Keeps f w s t :=
  fun L => (h L).trans (g L)

theorem Keeps.of_le {f : Bool} (ha : s.rw.accrued w ≤ s'.rw.accrued w) (hw : ∀ a, worth f s a w ≤ worth f s' a w) :
    Keeps f w s s' := fun L => Nat.add_le_add ha (Finset.sum_le_sum fun a _ => hw a)

/-- One market is settled. -/
theorem Keeps.settle {f : Bool} {b x : Nat} (ha : s'.rw.accrued w = s.rw.accrued w + x)
    (hb : worth f s b w ≤ worth f s' b w + x) (ho : ∀ a, a ≠ b → worth f s a w ≤ worth f s' a w) : Keeps f w s s' := by
  intro L
  by_cases hL : b ∈ L
  · rw [← Finset.add_sum_erase L _ hL, ← Finset.add_sum_erase L (fun a => worth f s' a w) hL]
    have := Finset.sum_le_sum (s := L.erase b) (f := fun a => worth f s a w) (g := fun a => worth f s' a w)
      (fun a h => ho a (Finset.ne_of_mem_erase h))
    omega
  · have := Finset.sum_le_sum (s := L) (f := fun a => worth f s a w) (g := fun a => worth f s' a w)
      (fun a h => ho a (fun e => hL (e ▸ h)))
    omega

/-- The indices of a market are up to date. -/
def UpS (s : State) (a : Nat) : Prop := s.block ≤ (s.rw.mkt a).supBlock
def UpB (s : State) (a : Nat) : Prop := s.block ≤ (s.rw.mkt a).borBlock

theorem supIdx_up {a : Nat} (h : UpS s a) : supIdxNow s a = (s.rw.mkt a).supIdx := by
  have z : s.block - (s.rw.mkt a).supBlock = 0 := Nat.sub_eq_zero_of_le h
  rw [supIdxNow, z, Nat.zero_mul, Nat.zero_mul, Nat.zero_div, Nat.add_zero]
theorem borIdx_up {a : Nat} (h : UpB s a) : borIdxNow s a = (s.rw.mkt a).borIdx := by
  have z : s.block - (s.rw.mkt a).borBlock = 0 := Nat.sub_eq_zero_of_le h
  rw [borIdxNow, z, Nat.zero_mul, Nat.zero_mul, Nat.zero_div, Nat.add_zero]

theorem baseOf_zero (s : State) (a : Nat) : baseOf s a 0 = 0 := by
  unfold baseOf
  generalize DIV * DIV / (s.books a).index = n
  generalize DIV = d
  rw [Nat.mul_zero, Nat.zero_div]

theorem dueBor_zero {a : Nat} (h : owed s a w = 0) : dueBor s a w = 0 := by
  unfold dueBor
  rw [h, baseOf_zero, Nat.zero_mul, Nat.zero_div]

theorem supIdxNow_eq {a : Nat} (hr : s'.rw = s.rw) (hb : s'.block = s.block)
    (hs : (s'.books a).supply = (s.books a).supply ∨ UpS s a) : supIdxNow s' a = supIdxNow s a := by
  rcases hs with e | e
  · unfold supIdxNow; rw [hr, hb, e]
  · rw [supIdx_up e, supIdx_up (s := s') (by unfold UpS; rw [hr, hb]; exact e), hr]

theorem baseOf_eq {a m : Nat} (hi : (s'.books a).index = (s.books a).index) : baseOf s' a m = baseOf s a m := by
  unfold baseOf
  generalize DIV * DIV = n
  generalize DIV = d
  rw [hi]

theorem borIdxNow_eq {a : Nat} (hr : s'.rw = s.rw) (hb : s'.block = s.block) 
    (hs : ((s'.books a).borrows = (s.books a).borrows ∧ (s'.books a).index = (s.books a).index) ∨ UpB s a) :
    borIdxNow s' a = borIdxNow s a := by
  rcases hs with ⟨e1, e2⟩ | e
  · unfold borIdxNow
    rw [hr, hb, e1, baseOf_eq e2]
  · rw [borIdx_up e, borIdx_up (s := s') (by unfold UpB; rw [hr, hb]; exact e), hr]

theorem dueSup_le {a : Nat} (hr : s'.rw = s.rw) (hi : supIdxNow s' a = supIdxNow s a)
    (hv : s.vouchers a w ≤ s'.vouchers a w) : dueSup s a w ≤ dueSup s' a w := by
  unfold dueSup
  rw [hi, hr]
  generalize scale = n
  exact Nat.div_le_div_right (Nat.mul_le_mul_right _ hv)

theorem dueBor_eq {a : Nat} (hr : s'.rw = s.rw) (hi : borIdxNow s' a = borIdxNow s a)
    (ho : owed s' a w = owed s a w) (hx : (s'.books a).index = (s.books a).index) : dueBor s' a w = dueBor s a w := by
  unfold dueBor
  rw [hi, hr, ho, baseOf_eq hx]

/-- Nothing that counts changes, except sums whose index is up to date. -/
theorem Keeps.other {f : Bool} (hr : s'.rw = s.rw) (hb : s'.block = s.block)
    (hv : ∀ a, s.vouchers a w ≤ s'.vouchers a w) (hs : ∀ a, (s'.books a).supply = (s.books a).supply ∨ UpS s a)
    (hf : f = true → (∀ a, owed s' a w = owed s a w) ∧ (∀ a, (s'.books a).index = (s.books a).index ∨ owed s a w = 0) ∧
      ∀ a, ((s'.books a).borrows = (s.books a).borrows ∧ (s'.books a).index = (s.books a).index) ∨ UpB s a ∨ owed s a w = 0) :
    Keeps f w s s' := by
  refine .of_le (Nat.le_of_eq (by rw [hr])) fun a => ?_
  have e1 := dueSup_le hr (supIdxNow_eq hr hb (hs a)) (hv a)
  have e2 : f = true → dueBor s a w ≤ dueBor s' a w := by
    intro e
    obtain ⟨ho, hi, hB⟩ := hf e
    by_cases hz : owed s a w = 0
    · rw [dueBor_zero hz]
      exact Nat.zero_le _
    · have hi := (hi a).resolve_right hz
      refine Nat.le_of_eq (dueBor_eq hr (borIdxNow_eq hr hb ?_) (ho a) hi).symm
      rcases hB a with e | e | e
      · exact .inl e
      · exact .inr e
      · exact absurd e hz
  unfold worth
  split_ifs with e
  · exact Nat.add_le_add e1 (e2 e)
  · exact Nat.add_le_add_right e1 _

theorem updSupply_up {a : Nat} (h : updSupply s a = .ok s') : UpS s' a := by
  rw [updSupply_exact h]
  unfold UpS setRew
  simp only [upd_same]
  exact Nat.le_max_right _ _

theorem updBorrow_up {a : Nat} (h : updBorrow s a = .ok s') : UpB s' a := by
  rw [updBorrow_exact h]
  unfold UpB setRew
  simp only [upd_same]
  exact Nat.le_max_right _ _

/-- A changed entry of the reward table that says the same. -/
theorem Keeps.setRew {f : Bool} {a : Nat} {r : Rew} (h1 : supIdxNow (setRew s a r) a = supIdxNow s a)
    (h2 : borIdxNow (setRew s a r) a = borIdxNow s a) : Keeps f w s (setRew s a r) := by
  refine .of_le (Nat.le_refl _) fun b => Nat.le_of_eq ?_
  have e1 : supIdxNow (Loans.setRew s a r) b = supIdxNow s b := by
    by_cases hb : b = a
    · subst hb; exact h1
    · unfold supIdxNow Loans.setRew; simp only [upd_of_ne _ _ hb]
  have e2 : borIdxNow (Loans.setRew s a r) b = borIdxNow s b := by
    by_cases hb : b = a
    · subst hb; exact h2
    · unfold borIdxNow Loans.setRew baseOf; simp only [upd_of_ne _ _ hb]
  unfold worth dueSup dueBor
  rw [e1, e2]
  rfl

theorem Keeps.updSupply {f : Bool} {a : Nat} (h : updSupply s a = .ok s') : Keeps f w s s' := by
  have hu := updSupply_up h
  have e := updSupply_exact h
  subst e
  refine .setRew ((supIdx_up hu).trans ?_) ?_
  · unfold Loans.setRew; simp only [upd_same]
  · unfold borIdxNow Loans.setRew baseOf; simp only [upd_same]

theorem Keeps.updBorrow {f : Bool} {a : Nat} (h : updBorrow s a = .ok s') : Keeps f w s s' := by
  have hu := updBorrow_up h
  have e := updBorrow_exact h
  subst e
  refine .setRew ?_ ((borIdx_up hu).trans ?_)
  · unfold supIdxNow Loans.setRew; simp only [upd_same]
  · unfold Loans.setRew; simp only [upd_same]

theorem Keeps.distSupplier {f : Bool} {a v : Nat} (hu : UpS s a) (h : distSupplier s a v = .ok s') : Keeps f w s s' := by
  obtain ⟨-, e⟩ := distSupplier_ok h
  subst e
  have hn : ∀ b, (b = a ∧ w = v) ∨ upd2 s.rw.supIx a v (s.rw.mkt a).supIdx b w = s.rw.supIx b w := by
    intro b
    by_cases hh : b = a ∧ w = v
    · exact .inl hh
    · right; rw [upd2_apply, if_neg hh]
  by_cases hv : w = v
  · subst hv
    refine .settle (b := a) (x := dueSup s a w) ?_ ?_ ?_
    · show upd _ _ _ _ = _
      rw [upd_same, dueSup, supIdx_up hu]
    · unfold worth
      rw [Nat.add_comm (dueSup s a w)]
      exact Nat.add_le_add_right (Nat.le_add_left (if f = true then dueBor s a w else 0) (dueSup _ a w)) _
    · intro b hb
      refine Nat.le_of_eq ?_
      unfold worth dueSup
      show _ = s.vouchers b w * (supIdxNow s b - upd2 s.rw.supIx a w (s.rw.mkt a).supIdx b w) / scale + _
      rw [(hn b).resolve_left (fun h => hb h.1)]
      rfl
  · refine .of_le ?_ fun b => Nat.le_of_eq ?_
    · show _ ≤ upd _ _ _ _
      rw [upd_of_ne _ _ hv]
    · unfold worth dueSup
      show _ = s.vouchers b w * (supIdxNow s b - upd2 s.rw.supIx a v (s.rw.mkt a).supIdx b w) / scale + _
      rw [(hn b).resolve_left (fun h => hv h.2)]
      rfl

theorem Keeps.distBorrower {f : Bool} {a v : Nat} (hv : w ≠ v) (h : distBorrower s a v = .ok s') : Keeps f w s s' := by
  obtain ⟨x, e⟩ := distBorrower_ok h
  subst e
  refine .of_le ?_ fun b => Nat.le_of_eq ?_
  · show _ ≤ upd _ _ _ _
    rw [upd_of_ne _ _ hv]
  · unfold worth dueBor
    show _ = dueSup s b w + (if f = true then baseOf s b (owed s b w) *
      (borIdxNow s b - upd2 s.rw.borIx a v (s.rw.mkt a).borIdx b w) / scale else 0)
    rw [upd2_of_ne _ _ (.inr hv)]

theorem Keeps.updEarned {f : Bool} {v a r : Nat} (h : updEarned s v a r = .ok s') : Keeps f w s s' := by
  obtain ⟨e, rfl⟩ := updEarned_ok h
  exact .other rfl rfl (fun _ => Nat.le_refl _) (fun _ => .inl rfl) fun _ => ⟨fun _ => rfl, fun _ => .inl rfl,
    fun _ => .inl ⟨rfl, rfl⟩⟩

/-- No interest is added now: the market was accrued in this block, or never. -/
def Accrued (s : State) (a : Nat) : Prop := s.time ≤ (s.books a).lastTime ∨ (s.books a).lastTime = 0

theorem Keeps.accrue {f : Bool} {a : Nat} (hf : f = true → Accrued s a) (h : accrue c s a = .ok s') : Keeps f w s s' := by
  cases f with
  | false =>
    have t := still_accrue h
    obtain ⟨b, rfl, -⟩ := accrue_ok h
    exact .other rfl rfl (fun _ => Nat.le_refl _) (fun x => .inl (t.sup x)) (fun e => by cases e)
  | true =>
    have hf := hf rfl
    unfold Loans.accrue at h
    split_ifs at h with h0 h1
    · cases h
      have e : ∀ x, ((setBook s a { s.books a with lastTime := s.time }).books x).supply = (s.books x).supply ∧
          ((setBook s a { s.books a with lastTime := s.time }).books x).index = (s.books x).index ∧
          ((setBook s a { s.books a with lastTime := s.time }).books x).borrows = (s.books x).borrows := by
        intro x
        unfold setBook
        by_cases hx : x = a
        · subst hx; simp only [upd_same, and_self]
        · simp only [upd_of_ne _ _ hx, and_self]
      refine .other rfl rfl (fun _ => Nat.le_refl _) (fun x => .inl (e x).1) fun _ => ⟨fun x => ?_, fun x => .inl (e x).2.1,
        fun x => .inl ⟨(e x).2.2, (e x).2.1⟩⟩
      unfold owed
      rw [(e x).2.1]
      rfl
    · cases h; exact .refl _ _ _
    · rcases hf with hf | hf
      · exact absurd hf h1
      · exact absurd hf h0

theorem Accrued.after {a b : Nat} (h : Loans.accrue c s a = .ok s') (hb : Accrued s b) : Accrued s' b := by
  unfold Accrued
  unfold Loans.accrue at h
  split_ifs at h with h0 h1
  · cases h
    by_cases hx : b = a
    · subst hx; left; show s.time ≤ ((upd s.books _ _) _).lastTime; rw [upd_same]
    · show s.time ≤ ((upd s.books _ _) _).lastTime ∨ ((upd s.books _ _) _).lastTime = 0
      rw [upd_of_ne _ _ hx]; exact hb
  · cases h; exact hb
  · simp only [bind_ok_iff, pure_ok_iff] at h
    obtain ⟨k, _, rfl⟩ := h
    by_cases hx : b = a
    · subst hx; left; show s.time ≤ ((upd s.books _ _) _).lastTime; rw [upd_same]
    · show s.time ≤ ((upd s.books _ _) _).lastTime ∨ ((upd s.books _ _) _).lastTime = 0
      rw [upd_of_ne _ _ hx]; exact hb

theorem RwOnly.vou (h : RwOnly s s') : s'.block = s.block ∧ s'.books = s.books ∧ s'.deposits = s.deposits ∧
    s'.debts = s.debts := by
  obtain ⟨x, rfl⟩ := h
  exact ⟨rfl, rfl, rfl, rfl⟩

theorem book_keep (f : Book → Nat) {a : Nat} {k : Book} (h : f k = f (s.books a)) (x : Nat) :
    f (upd s.books a k x) = f (s.books x) := by
  by_cases hx : x = a
  · subst hx; rw [upd_same, h]
  · rw [upd_of_ne _ _ hx]

theorem vou_other {a b v : Nat} {d : Option Deposit} (hv : w ≠ v) :
    State.vouchers { s with deposits := upd2 s.deposits a v d } b w = s.vouchers b w := by
  unfold State.vouchers State.dep
  dsimp only
  rw [upd2_of_ne _ _ (.inr hv)]

theorem owed_books {b : Nat} (hi : ∀ b, (s'.books b).index = (s.books b).index) (hd : s'.debts b w = s.debts b w) :
    owed s' b w = owed s b w := by
  unfold owed
  rw [hi, hd]

theorem Keeps.redeemVoucher {f : Bool} {v a m : Nat} {p : State × Nat} (hv : w ≠ v)
    (h : redeemVoucher c s v a m = .ok p) : Keeps f w s p.1 := by
  simp only [Loans.redeemVoucher, bind_ok_iff, csub_ok_iff, pure_ok_iff] at h
  obtain ⟨_, _, s1, h1, s2, h2, r, _, x, _, _, _, t, ⟨_, rfl⟩, l, _, rfl⟩ := h
  have u1 := updSupply_up h1
  refine (Keeps.updSupply h1).trans ((Keeps.distSupplier u1 h2).trans ?_)
  have u2 : UpS s2 a := by
    obtain ⟨-, rfl⟩ := distSupplier_ok h2
    exact u1
  refine .other rfl rfl (fun b => ?_) (fun b => ?_) fun _ => ⟨fun b => ?_, fun b => .inl ?_, fun b => .inl ⟨?_, ?_⟩⟩
  · exact Nat.le_of_eq (vou_other hv).symm
  · by_cases hb : b = a
    · exact .inr (hb ▸ u2)
    · exact .inl (congrArg Book.supply (upd_of_ne _ _ hb))
  · exact owed_books (fun b => book_keep Book.index (by rfl) b) rfl
  · exact book_keep Book.index (by rfl) b
  · exact book_keep Book.borrows (by rfl) b
  · exact book_keep Book.index (by rfl) b

theorem Keeps.plain {f : Bool} (hr : s'.rw = s.rw) (hb : s'.block = s.block) (hv : ∀ a, s'.vouchers a w = s.vouchers a w)
    (hk : ∀ a, (s'.books a).supply = (s.books a).supply ∧ (s'.books a).index = (s.books a).index ∧
      (s'.books a).borrows = (s.books a).borrows) (hd : ∀ a, s'.debts a w = s.debts a w) : Keeps f w s s' :=
  .other hr hb (fun a => Nat.le_of_eq (hv a).symm) (fun a => .inl (hk a).1) fun _ =>
    ⟨fun a => owed_books (fun b => (hk b).2.1) (hd a), fun a => .inl (hk a).2.1, fun a => .inl ⟨(hk a).2.2, (hk a).2.1⟩⟩

theorem Keeps.collect {f : Bool} {a v : Nat} (hv : w ≠ v) (h : collect s a v = .ok s') : Keeps f w s s' := by
  simp only [Loans.collect, bind_ok_iff] at h
  obtain ⟨s1, h1, s2, h2, s3, h3, h4⟩ := h
  exact ((Keeps.updSupply h1).trans (Keeps.distSupplier (updSupply_up h1) h2)).trans
    ((Keeps.updBorrow h3).trans (Keeps.distBorrower hv h4))

theorem Keeps.collectAll {f : Bool} {v : Nat} (hv : w ≠ v) : ∀ {as : List Nat} {s s' : State},
    collectAll s v as = .ok s' → Keeps f w s s'
  | [], s, s', h => by cases h; exact .refl _ _ _
  | a :: as, s, s', h => by
    simp only [Loans.collectAll, bind_ok_iff] at h
    obtain ⟨s1, h1, h2⟩ := h
    exact (Keeps.collect hv h1).trans (Keeps.collectAll hv h2)

theorem Keeps.payReward {f : Bool} {v : Nat} (hv : w ≠ v) (h : payReward c s v = .ok s') : Keeps f w s s' := by
  unfold Loans.payReward at h
  split_ifs at h with h0
  · cases h; exact .refl _ _ _
  · simp only [bind_ok_iff, pure_ok_iff] at h
    obtain ⟨l, hl, rfl⟩ := h
    refine .of_le ?_ fun b => Nat.le_refl _
    show _ ≤ upd _ _ _ _
    rw [upd_of_ne _ _ hv]

theorem Keeps.setSupSpeed {f : Bool} {a v : Nat} (h : setSupSpeed s a v = .ok s') : Keeps f w s s' := by
  unfold Loans.setSupSpeed at h
  split_ifs at h with h0
  · cases h; exact .refl _ _ _
  · simp only [bind_ok_iff, pure_ok_iff] at h
    obtain ⟨t, ht, rfl⟩ := h
    have hu := updSupply_up ht
    refine (Keeps.updSupply ht).trans (.setRew ?_ ?_)
    · rw [supIdx_up hu, supIdx_up (s := Loans.setRew t a { t.rw.mkt a with supSpeed := v })]
      · unfold Loans.setRew; simp only [upd_same]
      · unfold UpS Loans.setRew; simp only [upd_same]; exact hu
    · unfold borIdxNow Loans.setRew baseOf; simp only [upd_same]

theorem Keeps.setBorSpeed {f : Bool} {a v : Nat} (h : setBorSpeed s a v = .ok s') : Keeps f w s s' := by
  unfold Loans.setBorSpeed at h
  split_ifs at h with h0
  · cases h; exact .refl _ _ _
  · simp only [bind_ok_iff, pure_ok_iff] at h
    obtain ⟨t, ht, rfl⟩ := h
    have hu := updBorrow_up ht
    refine (Keeps.updBorrow ht).trans (.setRew ?_ ?_)
    · unfold supIdxNow Loans.setRew; simp only [upd_same]
    · rw [borIdx_up hu, borIdx_up (s := Loans.setRew t a { t.rw.mkt a with borSpeed := v })]
      · unfold Loans.setRew; simp only [upd_same]
      · unfold UpB Loans.setRew; simp only [upd_same]; exact hu

theorem Keeps.mint {f : Bool} {v a m : Nat} (hA : f = true → ∀ a, Accrued s a) (hv : w ≠ v)
    (h : mint c s v a m = .ok s') : Keeps f w s s' := by
  simp only [Loans.mint, bind_ok_iff, cadd_ok_iff, ensure_ok_iff, exists_const, pure_ok_iff] at h
  obtain ⟨_, _, _, _, _, s1, h1, s2, h2, s3, h3, r, _, s4, h4, x, _, _, l, _, d, ⟨_, rfl⟩, t, ⟨_, rfl⟩, rfl⟩ := h
  refine (Keeps.accrue (fun e => hA e a) h1).trans ((Keeps.updSupply h2).trans ((Keeps.distSupplier (updSupply_up h2) h3).trans
    ((Keeps.updEarned h4).trans ?_)))
  have u : UpS s4 a := by
    have u := updSupply_up h2
    obtain ⟨e, rfl⟩ := updEarned_ok h4
    obtain ⟨-, rfl⟩ := distSupplier_ok h3
    exact u
  refine .other rfl rfl (fun b => ?_) (fun b => ?_) fun _ => ⟨fun b => ?_, fun b => .inl ?_, fun b => .inl ⟨?_, ?_⟩⟩
  · exact Nat.le_of_eq (vou_other hv).symm
  · by_cases hb : b = a
    · exact .inr (hb ▸ u)
    · exact .inl (congrArg Book.supply (upd_of_ne _ _ hb))
  · exact owed_books (fun b => book_keep Book.index (by rfl) b) rfl
  · exact book_keep Book.index (by rfl) b
  · exact book_keep Book.borrows (by rfl) b
  · exact book_keep Book.index (by rfl) b

/-- Writing somebody else's debt, once the index of the market is up to date. -/
theorem Keeps.debt {f : Bool} {v a n : Nat} {l : Ledger} {x : Snapshot} (hv : f = true → w ≠ v) (hu : UpB s a) :
    Keeps f w s { s with ledger := l, debts := upd2 s.debts a v x, books := upd s.books a { s.books a with borrows := n } } := by
  refine .other rfl rfl (fun b => Nat.le_refl _) (fun b => .inl ?_) fun e => ⟨fun b => ?_, fun b => .inl ?_, fun b => ?_⟩
  · exact book_keep Book.supply (by rfl) b
  · exact owed_books (fun b => book_keep Book.index (by rfl) b) (upd2_of_ne _ _ (.inr (hv e)))
  · exact book_keep Book.index (by rfl) b
  · by_cases hb : b = a
    · exact .inr (.inl (hb ▸ hu))
    · exact .inl ⟨congrArg Book.borrows (upd_of_ne _ _ hb), congrArg Book.index (upd_of_ne _ _ hb)⟩

theorem Keeps.borrow {f : Bool} {v a m : Nat} (hA : f = true → ∀ a, Accrued s a) (hv : w ≠ v)
    (h : borrow c s v a m = .ok s') : Keeps f w s s' := by
  simp only [Loans.borrow, bind_ok_iff, cadd_ok_iff, exists_const, pure_ok_iff] at h
  obtain ⟨_, _, s1, h1, _, _, s2, h2, s3, h3, d, _, d', ⟨_, rfl⟩, t, ⟨_, rfl⟩, l, _, rfl⟩ := h
  refine (Keeps.accrue (fun e => hA e a) h1).trans ((Keeps.updBorrow h2).trans ((Keeps.distBorrower hv h3).trans ?_))
  have u : UpB s3 a := by
    have u := updBorrow_up h2
    obtain ⟨x, rfl⟩ := distBorrower_ok h3
    exact u
  exact Keeps.debt (fun _ => hv) u

theorem Keeps.repayWith {f : Bool} {v a d m : Nat} (hv : w ≠ v)
    (h : repayWith c s v a d m = .ok s') : Keeps f w s s' := by
  simp only [Loans.repayWith, bind_ok_iff, ensure_ok_iff, exists_const, pure_ok_iff] at h
  obtain ⟨_, s2, h2, s3, h3, l, _, rfl⟩ := h
  refine (Keeps.updBorrow h2).trans ((Keeps.distBorrower hv h3).trans ?_)
  have u : UpB s3 a := by
    have u := updBorrow_up h2
    obtain ⟨x, rfl⟩ := distBorrower_ok h3
    exact u
  exact Keeps.debt (fun _ => hv) u

theorem Keeps.repay {f : Bool} {v a m : Nat} (hA : f = true → ∀ a, Accrued s a) (hv : w ≠ v)
    (h : repay c s v a m = .ok s') : Keeps f w s s' := by
  simp only [Loans.repay, bind_ok_iff] at h
  obtain ⟨_, _, s1, h1, d, _, h2⟩ := h
  exact (Keeps.accrue (fun e => hA e a) h1).trans (Keeps.repayWith hv h2)

/-- Writing a deposit: of somebody else, or a larger one, or one that has just been settled. -/
theorem Keeps.deposit {f : Bool} {v a : Nat} {d : Option Deposit} (h : w ≠ v ∨ (s.vouchers a w ≤ (d.getD ⟨0, false⟩).vouchers) ∨
    (UpS s a ∧ s.rw.supIx a w = (s.rw.mkt a).supIdx)) : Keeps f w s (setDep s a v d) := by
  by_cases hv : w = v
  · subst hv
    have h := h.resolve_left (fun g => g rfl)
    refine .of_le (Nat.le_refl _) fun b => ?_
    unfold worth
    refine Nat.add_le_add ?_ (Nat.le_refl _)
    by_cases hb : b = a
    · subst hb
      rcases h with h | ⟨h1, h2⟩
      · refine dueSup_le (s' := setDep s b w d) rfl rfl ?_
        unfold State.vouchers State.dep setDep at *
        dsimp only
        rw [upd2_same]
        exact h
      · unfold dueSup
        rw [supIdx_up h1, h2, Nat.sub_self, Nat.mul_zero, Nat.zero_div]
        exact Nat.zero_le _
    · refine dueSup_le (s' := setDep s a w d) rfl rfl (Nat.le_of_eq ?_)
      unfold State.vouchers State.dep setDep
      dsimp only
      rw [upd2_of_ne _ _ (.inl hb)]
  · exact .plain rfl rfl (fun b => vou_other hv) (fun _ => ⟨rfl, rfl, rfl⟩) (fun _ => rfl)

theorem Keeps.transferP {f : Bool} {p v y m : Nat} (hv : w ≠ v) (h : transferP c s p v y m = .ok s') : Keeps f w s s' := by
  simp only [Loans.transferP, bind_ok_iff, ensure_ok_iff, exists_const, csub_ok_iff, cadd_ok_iff, pure_ok_iff] at h
  obtain ⟨_, s1, h1, s2, h2, s3, h3, a, _, _, _, z, ⟨_, rfl⟩, rfl⟩ := h
  have u1 := updSupply_up h1
  have u2 : UpS s2 p := by
    obtain ⟨-, rfl⟩ := distSupplier_ok h2
    exact u1
  refine (Keeps.updSupply h1).trans ((Keeps.distSupplier u1 h2).trans ((Keeps.distSupplier u2 h3).trans
    ((Keeps.deposit (.inl hv)).trans (Keeps.deposit ?_))))
  by_cases hy : w = y
  · subst hy
    exact .inr (.inl (Nat.le_add_right _ _))
  · exact .inl hy

theorem Keeps.liquidatedTransfer {f : Bool} {lq br a k m und : Nat} {mk : Market} (hv : w ≠ lq) (hb : f = true → w ≠ br)
    (hi : w ≠ c.incentiveAcct) (h : liquidatedTransfer c s lq br a k m und mk = .ok s') : Keeps f w s s' := by
  simp only [Loans.liquidatedTransfer, bind_ok_iff, csub_ok_iff, cadd_ok_iff, okOr_ok_iff, pure_ok_iff] at h
  obtain ⟨s1, h1, s2, h2, l, _, d, _, d', ⟨_, rfl⟩, t, ⟨_, rfl⟩, s3, h3, s4, h4, s5, h5, s6, h6, r, _, v, _, x, ⟨_, rfl⟩,
    q, _, g, ⟨_, rfl⟩, y, ⟨_, rfl⟩, z, ⟨_, rfl⟩, rfl⟩ := h
  have u2 : UpB s2 a := by
    have u := updBorrow_up h1
    obtain ⟨x, rfl⟩ := distBorrower_ok h2
    exact u
  have u3 := updSupply_up h3
  have u4 : UpS s4 k := by
    obtain ⟨-, rfl⟩ := distSupplier_ok h4
    exact u3
  have u5 : UpS s5 k := by
    obtain ⟨-, rfl⟩ := distSupplier_ok h5
    exact u4
  have hs : w = br → UpS s6 k ∧ s6.rw.supIx k w = (s6.rw.mkt k).supIdx := by
    intro e
    obtain ⟨-, rfl⟩ := distSupplier_ok h6
    obtain ⟨-, e5⟩ := distSupplier_ok h5
    refine ⟨u5, ?_⟩
    show upd2 _ _ _ _ _ _ = _
    rw [upd2_of_ne _ _ (.inr hi), e5, e]
    exact upd2_same _ _ _ _
  refine (Keeps.updBorrow h1).trans ((Keeps.distBorrower hv h2).trans ((Keeps.debt hb u2).trans
    ((Keeps.updSupply h3).trans ((Keeps.distSupplier u3 h4).trans ((Keeps.distSupplier u4 h5).trans
    ((Keeps.distSupplier u5 h6).trans ((Keeps.deposit ?_).trans ((Keeps.deposit (.inl hv)).trans
    (Keeps.deposit (.inl hi))))))))))
  by_cases e : w = br
  · exact .inr (.inr (hs e))
  · exact .inl e

theorem Keeps.call {f : Bool} (hinv : Inv c s) {k : Call} (hA : f = true → ∀ a, Accrued s a)
    (hl : f = true → ∀ lq a m b, k ≠ .liquidate lq w a m b) (h : exec c s k = .ok s') (hv : w ∉ k.signers)
    (hi : w ≠ c.incentiveAcct) : Keeps f w s s' := by
  have flat : ∀ {t : State}, t.rw = s.rw → t.block = s.block → t.deposits = s.deposits → t.books = s.books →
      t.debts = s.debts → Keeps f w s t := by
    intro t e1 e2 e3 e4 e5
    refine .plain e1 e2 (fun a => ?_) (fun a => ?_) (fun a => by rw [e5])
    · unfold State.vouchers State.dep; rw [e3]
    · rw [e4]; exact ⟨rfl, rfl, rfl⟩
  cases k with
  | addMarket b m =>
    simp only [exec, Loans.addMarket, bind_ok_iff, ensure_ok_iff, exists_const, pure_ok_iff] at h
    obtain ⟨hm, _, _, _, _, _, _, _, _, _, rfl⟩ := h
    have hz : ∀ {t : State}, t.debts = s.debts → owed t b w = 0 := by
      intro t e
      unfold owed
      rw [e, hinv.debts0 b w hm, Nat.mul_zero, Nat.zero_div]
    refine .other rfl rfl (fun _ => Nat.le_refl _) (fun x => .inl (book_keep Book.supply (by rfl) x)) fun _ =>
      ⟨fun x => ?_, fun x => ?_, fun x => ?_⟩
    · by_cases hx : x = b
      · subst hx; rw [hz (t := s) rfl]; exact hz rfl
      · unfold owed
        show (upd s.books b _ x).index * _ / _ * _ / _ = _
        rw [upd_of_ne _ _ hx]
    · by_cases hx : x = b
      · subst hx; exact .inr (hz rfl)
      · exact .inl (congrArg Book.index (upd_of_ne _ _ hx))
    · by_cases hx : x = b
      · subst hx; exact .inr (.inr (hz rfl))
      · exact .inl ⟨congrArg Book.borrows (upd_of_ne _ _ hx), congrArg Book.index (upd_of_ne _ _ hx)⟩
  | activate b =>
    simp only [exec, activate, mutateMarket, bind_ok_iff, pure_ok_iff] at h
    obtain ⟨_, _, rfl⟩ := h
    exact flat rfl rfl rfl rfl rfl
  | updateModel b rm =>
    simp only [exec, updateModel, mutateMarket, bind_ok_iff, ensure_ok_iff, exists_const, pure_ok_iff] at h
    obtain ⟨_, _, _, rfl⟩ := h
    exact flat rfl rfl rfl rfl rfl
  | updateMarket b p =>
    simp only [exec, updateMarket, mutateMarket, bind_ok_iff, ensure_ok_iff, exists_const, pure_ok_iff] at h
    obtain ⟨_, _, _, _, _, _, _, _, rfl⟩ := h
    exact flat rfl rfl rfl rfl rfl
  | forceUpdate b m =>
    simp only [exec, forceUpdate, mutateMarket, bind_ok_iff, ensure_ok_iff, exists_const, pure_ok_iff] at h
    obtain ⟨_, _, _, _, rfl⟩ := h
    exact flat rfl rfl rfl rfl rfl
  | addReward v m =>
    simp only [exec, addReward, bind_ok_iff, ensure_ok_iff, exists_const, pure_ok_iff] at h
    obtain ⟨_, _, _, rfl⟩ := h
    exact flat rfl rfl rfl rfl rfl
  | withdrawReward v m =>
    simp only [exec, withdrawReward, bind_ok_iff, ensure_ok_iff, exists_const, pure_ok_iff] at h
    obtain ⟨_, _, _, rfl⟩ := h
    exact flat rfl rfl rfl rfl rfl
  | updateSpeed b x y =>
    simp only [exec, updateSpeed, bind_ok_iff, pure_ok_iff] at h
    obtain ⟨_, _, s1, h1, s2, h2, rfl⟩ := h
    exact ((Keeps.setSupSpeed h1).trans (Keeps.setBorSpeed h2)).trans (.of_le (Nat.le_refl _) fun _ => Nat.le_refl _)
  | claim v =>
    simp only [exec, claim, bind_ok_iff] at h
    obtain ⟨s1, h1, h2⟩ := h
    have hv : w ≠ v := by simpa [Call.signers] using hv
    exact (Keeps.collectAll hv h1).trans (Keeps.payReward hv h2)
  | claimFor v b =>
    simp only [exec, claimFor, bind_ok_iff] at h
    obtain ⟨s1, h1, h2⟩ := h
    have hv : w ≠ v := by simpa [Call.signers] using hv
    exact (Keeps.collect hv h1).trans (Keeps.payReward hv h2)
  | mint v b m => exact Keeps.mint hA (by simpa [Call.signers] using hv) h
  | redeem v b m =>
    have hv : w ≠ v := by simpa [Call.signers] using hv
    simp only [exec, redeem, doRedeem, bind_ok_iff, ensure_ok_iff, exists_const, pure_ok_iff] at h
    obtain ⟨_, p, ⟨_, _, s1, h1, r, _, s2, h2, x, _, h3⟩, rfl⟩ := h
    exact (Keeps.accrue (fun e => hA e b) h1).trans ((Keeps.updEarned h2).trans (Keeps.redeemVoucher hv h3))
  | redeemAll v b =>
    have hv : w ≠ v := by simpa [Call.signers] using hv
    simp only [exec, redeemAll, bind_ok_iff, pure_ok_iff] at h
    obtain ⟨_, _, s1, h1, r, _, s2, h2, p, h3, rfl⟩ := h
    exact (Keeps.accrue (fun e => hA e b) h1).trans ((Keeps.updEarned h2).trans (Keeps.redeemVoucher hv h3))
  | borrow v b m => exact Keeps.borrow hA (by simpa [Call.signers] using hv) h
  | repay v b m => exact Keeps.repay hA (by simpa [Call.signers] using hv) h
  | repayAll v b =>
    simp only [exec, repayAll, bind_ok_iff] at h
    obtain ⟨_, _, s1, h1, d, _, h2⟩ := h
    exact (Keeps.accrue (fun e => hA e b) h1).trans (Keeps.repay (fun e a => Accrued.after h1 (hA e a))
      (by simpa [Call.signers] using hv) h2)
  | collateral v b on =>
    have hv : w ≠ v := by simpa [Call.signers] using hv
    obtain ⟨_, _, _, rfl⟩ := collateral_view h
    exact Keeps.deposit (.inl hv)
  | liquidate lq br b m k =>
    have hv : w ≠ lq := by simpa [Call.signers] using hv
    simp only [exec, liquidate, doLiquidate, bind_ok_iff, ensure_ok_iff, exists_const] at h
    obtain ⟨_, s1, h1, s2, h2, _, _, _, _, mk, _, _, _, _, _, _, _, _, _, _, _, _, _, _, _, _, _, _, _, _, g⟩ := h
    refine (Keeps.accrue (fun e => hA e b) h1).trans ((Keeps.accrue (fun e => Accrued.after h1 (hA e k)) h2).trans
      (Keeps.liquidatedTransfer hv (fun e hx => ?_) hi g))
    subst hx
    exact hl e _ _ _ _ rfl
  | addReserves v b m =>
    simp only [exec, addReserves, bind_ok_iff, cadd_ok_iff, pure_ok_iff] at h
    obtain ⟨_, _, l, _, t, ⟨_, rfl⟩, rfl⟩ := h
    exact .plain rfl rfl (fun _ => rfl) (fun x => ⟨book_keep Book.supply (by rfl) x, book_keep Book.index (by rfl) x,
      book_keep Book.borrows (by rfl) x⟩) (fun _ => rfl)
  | reduceReserves v b m =>
    simp only [exec, reduceReserves, bind_ok_iff, csub_ok_iff, pure_ok_iff] at h
    obtain ⟨_, _, t, ⟨_, rfl⟩, l, _, rfl⟩ := h
    exact .plain rfl rfl (fun _ => rfl) (fun x => ⟨book_keep Book.supply (by rfl) x, book_keep Book.index (by rfl) x,
      book_keep Book.borrows (by rfl) x⟩) (fun _ => rfl)
  | reduceIncentive v b m =>
    simp only [exec, reduceIncentive, bind_ok_iff, ensure_ok_iff, exists_const, pure_ok_iff] at h
    obtain ⟨_, _, _, r, _, x, _, p, h1, l, _, rfl⟩ := h
    exact (Keeps.redeemVoucher hi h1).trans (.of_le (Nat.le_refl _) fun _ => Nat.le_refl _)
  | updateLfc as => cases h; exact flat rfl rfl rfl rfl rfl
  | transferP p x y m => exact Keeps.transferP (by simpa [Call.signers] using hv) h

/-! ## C233 -/

/-- **C233** (suppliers): what somebody else signs never reduces what one can claim as a supplier. -/
theorem C233_suppliers (hc : c.Ok) (hr : Reach c s) {k : Call} (h : exec c s k = .ok s') (hw : w ∉ k.signers)
    (hi : w ≠ c.incentiveAcct) (L : Finset Nat) : claimableSup s L w ≤ claimableSup s' L w := by
  have := Keeps.call (f := false) (inv_reach hc hr) (fun e => by cases e) (fun e => by cases e) h hw hi L
  simpa [worth, claimableSup] using this

/-- **C233**, for every call but the liquidation of `w` itself, if the interest of all markets was accrued in this block (or
never).  Missing: being liquidated, for which it is false; and the rounding of base debts when interest is added. -/
theorem C233_claimable_partial (hc : c.Ok) (hr : Reach c s) {k : Call} (h : exec c s k = .ok s') (hw : w ∉ k.signers)
    (hi : w ≠ c.incentiveAcct) (hl : ∀ lq a m b, k ≠ .liquidate lq w a m b)
    (hA : ∀ a, s.markets a ≠ none → s.time ≤ (s.books a).lastTime ∨ (s.books a).lastTime = 0) (L : Finset Nat) :
    claimable s L w ≤ claimable s' L w := by
  have hinv := inv_reach hc hr
  have hA : ∀ a, Accrued s a := by
    intro a
    by_cases hm : s.markets a = none
    · right; rw [hinv.books0 a hm]; rfl
    · exact hA a hm
  have := Keeps.call (f := true) hinv (fun _ => hA) (fun _ => hl) h hw hi L
  simpa [worth, claimable, due] using this

/-- 100 blocks later asset 1 has doubled in price and user 8 can be liquidated; interest was accrued in this block. -/
def exKR : State := pass ex0 (fun a => if a = 1 then some (2 * DIV) else exPrices a) 0 100
theorem exKR_reach : Reach exC exKR := pass_reach exC_ok ex0_reach

/-- User 8 can claim 699; after user 9 has repaid half of its debt, only 349. -/
theorem exKR_lost : okAnd (exec exC exKR (.liquidate 9 8 1 30000 2)) (fun t =>
    decide (claimable exKR {1, 2} 8 = 699 ∧ claimable t {1, 2} 8 = 349)) = true := by decide +kernel

/-- **C233 is false**: a liquidation takes away half of the borrow reward of user 8. -/
theorem C233_refuted : ¬ C233_statement := by
  intro H
  obtain ⟨t, ht, hp⟩ := okAnd_iff.1 exKR_lost
  have hp := of_decide_eq_true hp
  have := H exC exC_ok exKR exKR_reach (.liquidate 9 8 1 30000 2) t trivial (by simp [Call.signers, exC]) ht 8
    (by simp [Call.signers]) (by decide) {1, 2}
  omega

/-- The conditions of `C233_claimable_partial` are met in the same state, e.g. when user 9 supplies. -/
example : claimable exKR {1, 2} 8 = 699 ∧ okAnd (exec exC exKR (.mint 9 1 500)) (fun t =>
    decide (claimable t {1, 2} 8 = 699 ∧ claimable t {1, 2} 7 = 500)) = true := by decide +kernel

end Verif.Loans
