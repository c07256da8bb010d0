import Verif.Loans.Lent
import Verif.Loans.Rewards
import Verif.Loans.RewardExact

/-! # Property C236: borrow rewards and the emission -/

set_option linter.unusedSimpArgs false
set_option linter.unusedVariables false

namespace Verif.Loans
open Verif

variable {c : Cfg} {s s' : State}

/-! ### Specification -/

/-- Borrow rewards of market `a` credited to `w` according to one event. -/
def Event.lentTo (a w : Nat) : Event → Nat
  | .bor a' w' x => if a' = a ∧ w' = w then x else 0
  | _ => 0
/-- Borrow rewards of market `a` credited to `w` so far. -/
def paidBor (s : State) (a w : Nat) : Nat := (s.rw.log.map (Event.lentTo a w)).sum

/-- The rewards borrowers of market `a` should share until block `now`: the configured speed times the number of
blocks it was in force; the log is newest first. -/
def emissionBor (a : Nat) : Nat → List Event → Nat
  | _, [] => 0
  | now, .speed a' _ v b :: es => if a' = a then v * (now - b) + emissionBor a b es else emissionBor a now es
  | now, _ :: es => emissionBor a now es

/-- Histories in which the index of market `a` never exceeds `X`, and its total lent, in units of the first day of the
market, is never positive but below `L`; they count the moments at which the clock moved (`n`) and the seconds (`d`) it
moved. -/
inductive Steady (c : Cfg) (a X L : Nat) : Nat → Nat → State → Prop
  | init (l : Ledger) (prices : Nat → Option Nat) (time block : Nat) (hw : l.WF) :
      Steady c a X L 0 0 (State.fresh l prices time block)
  | call {n d : Nat} {s s' : State} (h : Steady c a X L n d s) (k : Call) (hw : k.wt)
      (hk : c.acct ∉ k.signers) (he : exec c s k = .ok s') (hX : (s'.books a).index ≤ X)
      (hL : (s'.books a).borrows = 0 ∨ L * (s'.books a).index ≤ (s'.books a).borrows * DIV) :
      Steady c a X L n d s'
  | rest {n d : Nat} {s s' : State} (h : Steady c a X L n d s) (he : Env c s s') (ht : s'.time = s.time) :
      Steady c a X L n d s'
  | tick {n d : Nat} {s s' : State} (h : Steady c a X L n d s) (he : Env c s s') :
      Steady c a X L (n + 1) (d + (s'.time - s.time)) s'

/-! ### What the books allow -/

/-- Debts exceed the total by at most `E`, and the total is nothing or at least `L - E`. -/
structure Fit (D : Nat → Snapshot) (b : Book) (E L X : ℚ) : Prop where
  le : ∀ F : Finset Nat, ∑ w ∈ F, ub (D w) ≤ tot b + E
  big : b.borrows = 0 ∨ (DIV ≤ b.index ∧ L - E ≤ tot b ∧ (b.index : ℚ) ≤ X)
  idx : ∀ w, (D w).principal = 0 ∨ (DIV ≤ b.index ∧ (D w).index ≤ b.index)

/-- The base of a debt is at most the debt in old units. -/
theorem base_le_ub {a w : Nat} {E L X : ℚ} (h : Fit (s.debts a) (s.books a) E L X) :
    (baseOf s a (owed s a w) : ℚ) ≤ ub (s.debts a w) := by
  have hd := DIV_pos
  rcases h.idx w with h0 | ⟨h1, h2⟩
  · have : owed s a w = 0 := by unfold owed; rw [h0]; simp
    unfold baseOf
    rw [this]
    simpa using ub_nonneg (s.debts a w)
  · refine le_trans ?_ (owed_ub h1 h2).1
    unfold baseOf
    have hI : (0 : ℚ) < (s.books a).index := by
      have : 0 < DIV := by decide
      exact_mod_cast (by omega : 0 < (s.books a).index)
    have q1 := floor_le (DIV * DIV) (s.books a).index
    have p1 := floor_le (DIV * DIV / (s.books a).index * owed s a w) DIV
    push_cast at q1 p1
    have ho : (0 : ℚ) ≤ owed s a w := by positivity
    generalize ((DIV * DIV / (s.books a).index * owed s a w / DIV : Nat) : ℚ) = r at *
    generalize ((DIV * DIV / (s.books a).index : Nat) : ℚ) = q at *
    generalize (owed s a w : ℚ) = o at *
    generalize ((s.books a).index : ℚ) = I at *
    generalize (DIV : ℚ) = V at *
    calc r ≤ q * o / V := p1
      _ ≤ (V * V / I) * o / V := by gcongr
      _ = o * V / I := by field_simp

/-- The part of the emission that is certain. -/
def sure (E L X : ℚ) : ℚ := (L - E) * (1 - X / (DIV * DIV)) - 1

/-- The debts in old units are not much more than the base the index is computed from. -/
theorem sure_base {a : Nat} {E L X : ℚ} (h : Fit (s.debts a) (s.books a) E L X) (hE : 0 ≤ E) (hL : 0 ≤ L)
    (hX : X ≤ DIV * DIV) (hk : 0 ≤ sure E L X) (h0 : (s.books a).borrows ≠ 0) (F : Finset Nat) :
    sure E L X * ∑ w ∈ F, ub (s.debts a w) ≤ L * baseOf s a (s.books a).borrows := by
  obtain ⟨h1, h2, h3⟩ := h.big.resolve_left h0
  have hd := DIV_pos
  have hI : (0 : ℚ) < (s.books a).index := by
    have : 0 < DIV := by decide
    exact_mod_cast (by omega : 0 < (s.books a).index)
  have hle := h.le F
  have k : tot (s.books a) * (1 - X / (DIV * DIV)) - 1 ≤ baseOf s a (s.books a).borrows := by
    unfold baseOf tot
    have q1 := lt_floor (DIV * DIV) (y := (s.books a).index) (by exact_mod_cast hI)
    have p1 := lt_floor (DIV * DIV / (s.books a).index * (s.books a).borrows) (by decide : 0 < DIV)
    push_cast at q1 p1
    have ho : (0 : ℚ) ≤ (s.books a).borrows := by positivity
    generalize ((DIV * DIV / (s.books a).index * (s.books a).borrows / DIV : Nat) : ℚ) = r at *
    generalize ((DIV * DIV / (s.books a).index : Nat) : ℚ) = q at *
    generalize ((s.books a).borrows : ℚ) = o at *
    generalize ((s.books a).index : ℚ) = I at *
    generalize (DIV : ℚ) = V at *
    have k1 : (V * V / I - 1) * o / V ≤ q * o / V := by gcongr; linarith
    have k2 : (V * V / I - 1) * o / V = o * V / I - o / V := by field_simp
    have k3 : o / V = o * V / I * (I / (V * V)) := by field_simp
    have k4 : o * V / I * (I / (V * V)) ≤ o * V / I * (X / (V * V)) := by gcongr
    have k5 : o * V / I * (1 - X / (V * V)) = o * V / I - o * V / I * (X / (V * V)) := by ring
    linarith
  have hg : 0 ≤ 1 - X / (DIV * DIV) := by
    have : X / (DIV * DIV) ≤ 1 := by rw [div_le_one (by positivity)]; exact hX
    linarith
  unfold sure at hk ⊢
  generalize (1 - X / ((DIV : ℚ) * DIV)) = g at *
  generalize tot (s.books a) = t at *
  generalize ∑ w ∈ F, ub (s.debts a w) = S at *
  generalize (baseOf s a (s.books a).borrows : ℚ) = B at *
  have e1 : ((L - E) * g - 1) * S ≤ ((L - E) * g - 1) * (t + E) := mul_le_mul_of_nonneg_left hle hk
  have e2 : L * (t * g - 1) ≤ L * B := mul_le_mul_of_nonneg_left k hL
  have e3 : 0 ≤ (g * E + 1) * (t - (L - E)) := mul_nonneg (by positivity) (by linarith)
  nlinarith

/-! ### The potential -/

/-- Borrow rewards of `w`, credited and pending, in units of `1 / scale`. -/
def termB (s : State) (a w : Nat) : ℚ :=
  paidBor s a w * scale + ub (s.debts a w) * ((s.rw.mkt a).borIdx - s.rw.borIx a w : Nat)

/-- The emission not yet in the index, in units of `1 / scale`. -/
def aheadB (s : State) (a : Nat) : Nat :=
  scale * ((s.rw.mkt a).borSpeed * (s.block - (s.rw.mkt a).borBlock))

structure BInv (s : State) (a : Nat) (κ L : ℚ) : Prop where
  ix : ∀ w, s.rw.borIx a w ≤ (s.rw.mkt a).borIdx
  blk : (s.rw.mkt a).borBlock ≤ s.block
  grow : ∀ t, s.block ≤ t →
    emissionBor a t s.rw.log = emissionBor a s.block s.rw.log + (s.rw.mkt a).borSpeed * (t - s.block)
  pot : ∀ F : Finset Nat, κ * ∑ w ∈ F, termB s a w + L * aheadB s a ≤ L * (scale * emissionBor a s.block s.rw.log : Nat)

/-- Nothing about the borrow rewards of market `a` changes. -/
structure StillB (s s' : State) (a : Nat) : Prop where
  debts : s'.debts a = s.debts a
  speed : (s'.rw.mkt a).borSpeed = (s.rw.mkt a).borSpeed
  idx : (s'.rw.mkt a).borIdx = (s.rw.mkt a).borIdx
  bblk : (s'.rw.mkt a).borBlock = (s.rw.mkt a).borBlock
  ix : ∀ w, s'.rw.borIx a w = s.rw.borIx a w
  em : ∀ t, emissionBor a t s'.rw.log = emissionBor a t s.rw.log
  paid : ∀ w, paidBor s' a w = paidBor s a w
  block : s'.block = s.block

theorem StillB.inv {a : Nat} {κ L : ℚ} (t : StillB s s' a) (h : BInv s a κ L) : BInv s' a κ L := by
  have ht : ∀ w, termB s' a w = termB s a w := by
    intro w; unfold termB; rw [t.paid, t.debts, t.idx, t.ix]
  have ha : aheadB s' a = aheadB s a := by
    unfold aheadB; rw [t.speed, t.block, t.bblk]
  refine ⟨?_, ?_, ?_, ?_⟩
  · intro w; rw [t.ix, t.idx]; exact h.ix w
  · rw [t.bblk, t.block]; exact h.blk
  · intro x hx; rw [t.em, t.em, t.speed, t.block]; exact h.grow x (t.block ▸ hx)
  · intro F; rw [ha, t.em, t.block]; simp only [ht]; exact h.pot F

theorem StillB.trans {s1 s2 s3 : State} {a : Nat} (h : StillB s1 s2 a) (g : StillB s2 s3 a) : StillB s1 s3 a :=
  ⟨g.debts.trans h.debts, g.speed.trans h.speed, g.idx.trans h.idx, g.bblk.trans h.bblk,
    fun w => (g.ix w).trans (h.ix w), fun t => (g.em t).trans (h.em t), fun w => (g.paid w).trans (h.paid w),
    g.block.trans h.block⟩

theorem StillB.of_eq {a : Nat} (hd : s'.debts a = s.debts a) (hr : s'.rw = s.rw) (hb : s'.block = s.block) :
    StillB s s' a := by
  refine ⟨hd, by rw [hr], by rw [hr], by rw [hr], by simp [hr], by simp [hr], ?_, hb⟩
  intro w; unfold paidBor; rw [hr]

theorem stillB_accrue {a x : Nat} (h : accrue c s x = .ok s') : StillB s s' a := by
  obtain ⟨b, rfl, _⟩ := accrue_ok h
  exact .of_eq rfl rfl rfl

theorem stillB_earned {a w x r : Nat} (h : updEarned s w x r = .ok s') : StillB s s' a := by
  obtain ⟨e, rfl⟩ := updEarned_ok h
  exact .of_eq rfl rfl rfl

theorem stillB_setRew {a x : Nat} {r : Rew} (h : x = a → r.borSpeed = (s.rw.mkt a).borSpeed ∧
    r.borIdx = (s.rw.mkt a).borIdx ∧ r.borBlock = (s.rw.mkt a).borBlock) : StillB s (setRew s x r) a := by
  have key : ∀ f : Rew → Nat, (x = a → f r = f (s.rw.mkt a)) → f ((setRew s x r).rw.mkt a) = f (s.rw.mkt a) := by
    intro f hf
    by_cases hx : a = x
    · subst hx; simpa [setRew] using hf rfl
    · simp [setRew, upd_of_ne _ _ hx]
  exact ⟨rfl, key Rew.borSpeed (fun e => (h e).1), key Rew.borIdx (fun e => (h e).2.1),
    key Rew.borBlock (fun e => (h e).2.2), fun _ => rfl, fun _ => rfl, fun _ => rfl, rfl⟩

theorem stillB_updSupply {a x : Nat} (h : updSupply s x = .ok s') : StillB s s' a := by
  obtain ⟨r, rfl, _, h2, h3, h4, _⟩ := updSupply_ok h
  refine stillB_setRew ?_
  rintro rfl
  exact ⟨h2, h3, h4⟩

theorem stillB_distSupplier {a x w : Nat} (h : distSupplier s x w = .ok s') : StillB s s' a := by
  obtain ⟨_, rfl⟩ := distSupplier_ok h
  refine ⟨rfl, rfl, rfl, rfl, fun _ => rfl, fun _ => rfl, ?_, rfl⟩
  intro v
  simp [paidBor, Event.lentTo]

theorem stillB_payReward {a w : Nat} (h : payReward c s w = .ok s') : StillB s s' a := by
  obtain ⟨l, _, rfl⟩ := payReward_view h
  exact ⟨rfl, rfl, rfl, rfl, fun _ => rfl, fun _ => rfl, fun _ => rfl, rfl⟩

section
variable {a : Nat} {E L X : ℚ}

theorem updBorrow_b {x : Nat} (hE : 0 ≤ E) (hL : 0 ≤ L) (hX : X ≤ DIV * DIV) (hk : 0 ≤ sure E L X)
    (h : BInv s a (sure E L X) L) (hf : x = a → Fit (s.debts a) (s.books a) E L X) (he : updBorrow s x = .ok s') :
    BInv s' a (sure E L X) L := by
  have e := updBorrow_exact he
  by_cases hx : x = a
  swap
  · rw [e]; exact (stillB_setRew (fun e => absurd e hx)).inv h
  subst hx
  have hf := hf rfl
  have hb := h.blk
  have e5 : max (s.rw.mkt x).borBlock s.block = s.block := by omega
  rw [e5] at e
  have onn : s'.rw.mkt x = { s.rw.mkt x with borIdx := borIdxNow s x, borBlock := s.block } := by
    rw [e]; exact upd_same _ _ _
  have hblk : s'.block = s.block := by rw [e]; rfl
  have hlog : s'.rw.log = s.rw.log := by rw [e]; rfl
  have hix : s'.rw.borIx = s.rw.borIx := by rw [e]; rfl
  have hdb : s'.debts = s.debts := by rw [e]; rfl
  have hmono : (s.rw.mkt x).borIdx ≤ borIdxNow s x := Nat.le_add_right _ _
  refine ⟨?_, ?_, ?_, ?_⟩
  · intro w; rw [onn, hix]; exact (h.ix w).trans hmono
  · rw [onn, hblk]
  · intro t ht; rw [onn, hlog, hblk]; exact h.grow t (hblk ▸ ht)
  · intro F
    have hp := h.pot F
    have e1 : aheadB s' x = 0 := by unfold aheadB; rw [onn, hblk]; simp
    have e2 : ∀ w, termB s' x w = termB s x w + ub (s.debts x w) * (borIdxNow s x - (s.rw.mkt x).borIdx : Nat) := by
      intro w
      unfold termB paidBor
      rw [onn, hlog, hix, hdb]
      have h8 := h.ix w
      have : borIdxNow s x - s.rw.borIx x w = ((s.rw.mkt x).borIdx - s.rw.borIx x w) +
        (borIdxNow s x - (s.rw.mkt x).borIdx) := by omega
      dsimp only
      rw [this]
      push_cast
      ring
    simp only [e1, e2, Finset.sum_add_distrib, ← Finset.sum_mul]
    rw [hlog, hblk]
    have key : sure E L X * ((∑ w ∈ F, ub (s.debts x w)) * (borIdxNow s x - (s.rw.mkt x).borIdx : Nat)) ≤
        L * aheadB s x := by
      have hδ : borIdxNow s x - (s.rw.mkt x).borIdx =
          (s.block - (s.rw.mkt x).borBlock) * (s.rw.mkt x).borSpeed * scale / baseOf s x (s.books x).borrows := by
        unfold borIdxNow; exact Nat.add_sub_cancel_left _ _
      by_cases h0 : (s.books x).borrows = 0
      · have : baseOf s x (s.books x).borrows = 0 := by rw [h0]; simp [baseOf]
        rw [hδ, this, Nat.div_zero]
        simp only [Nat.cast_zero, mul_zero]
        positivity
      · have k1 := sure_base hf hE hL hX hk h0 F
        have k2 : (borIdxNow s x - (s.rw.mkt x).borIdx) * baseOf s x (s.books x).borrows ≤ aheadB s x := by
          rw [hδ]
          refine (Nat.div_mul_le_self _ _).trans (le_of_eq ?_)
          unfold aheadB
          ring
        have k3 : ((borIdxNow s x - (s.rw.mkt x).borIdx : Nat) : ℚ) * baseOf s x (s.books x).borrows ≤ aheadB s x := by
          exact_mod_cast k2
        have h9 : (0 : ℚ) ≤ ((borIdxNow s x - (s.rw.mkt x).borIdx : Nat) : ℚ) := by positivity
        generalize ((borIdxNow s x - (s.rw.mkt x).borIdx : Nat) : ℚ) = δ at *
        have k4 := mul_le_mul_of_nonneg_right k1 h9
        have k5 := mul_le_mul_of_nonneg_left k3 hL
        nlinarith
    rw [mul_add]
    simp only [Nat.cast_zero, mul_zero, add_zero]
    linarith

/-- Terms may shrink. -/
theorem BInv.shrink {κ : ℚ} (hk : 0 ≤ κ) (h : BInv s a κ L) (hm : s'.rw.mkt = s.rw.mkt)
    (hix : ∀ w, s'.rw.borIx a w ≤ (s'.rw.mkt a).borIdx)
    (hb : s'.block = s.block) (hem : ∀ t, emissionBor a t s'.rw.log = emissionBor a t s.rw.log)
    (ht : ∀ w, termB s' a w ≤ termB s a w) : BInv s' a κ L := by
  refine ⟨hix, ?_, ?_, ?_⟩
  · rw [hm, hb]; exact h.blk
  · intro t h1; rw [hem, hem, hm, hb]; exact h.grow t (hb ▸ h1)
  · intro F
    have e1 : aheadB s' a = aheadB s a := by unfold aheadB; rw [hm, hb]
    rw [e1, hem, hb]
    have := mul_le_mul_of_nonneg_left (Finset.sum_le_sum (s := F) (fun w _ => ht w)) hk
    linarith [h.pot F]

theorem distBorrower_b {κ : ℚ} {x w : Nat} (hk : 0 ≤ κ) (h : BInv s a κ L)
    (hf : x = a → Fit (s.debts a) (s.books a) E L X) (he : distBorrower s x w = .ok s') :
    BInv s' a κ L ∧ (x = a → s'.rw.borIx a w = (s'.rw.mkt a).borIdx) := by
  obtain ⟨hle, e⟩ := distBorrower_exact he
  by_cases hx : x = a
  swap
  · refine ⟨StillB.inv ?_ h, fun g => absurd g hx⟩
    rw [e]
    refine ⟨rfl, rfl, rfl, rfl, ?_, fun _ => rfl, ?_, rfl⟩
    · intro v; exact upd2_of_ne _ _ (.inl (Ne.symm hx))
    · intro v; simp [paidBor, Event.lentTo, hx]
  subst hx
  refine ⟨?_, fun _ => by rw [e]; simp⟩
  have hb := base_le_ub (w := w) (hf rfl)
  refine h.shrink hk (by rw [e]) ?_ (by rw [e]) (by rw [e]; exact fun _ => rfl) ?_
  · intro y
    rw [e]
    dsimp only
    rw [upd2_apply]
    split_ifs with g
    · exact Nat.le_refl _
    · exact h.ix y
  · intro y
    rw [e]
    unfold termB paidBor
    dsimp only
    rw [upd2_apply, List.map_cons, List.sum_cons]
    by_cases g : y = w
    · subst g
      simp only [Event.lentTo, and_self, if_true, Nat.sub_self, Nat.cast_zero, mul_zero, add_zero]
      have k1 := floor_le (baseOf s x (owed s x y) * ((s.rw.mkt x).borIdx - s.rw.borIx x y)) scale
      rw [le_div_iff₀ (by norm_num [scale])] at k1
      push_cast at k1 ⊢
      have h9 : (0 : ℚ) ≤ ((s.rw.mkt x).borIdx - s.rw.borIx x y : Nat) := by positivity
      have := mul_le_mul_of_nonneg_right hb h9
      linarith
    · have g' : ¬ w = y := fun q => g q.symm
      simp only [Event.lentTo, g, g', and_false, if_false, Nat.zero_add, le_refl]

/-- Debts of settled accounts may change in any way, others may shrink. -/
theorem BInv.debts {κ : ℚ} (hk : 0 ≤ κ) (h : BInv s a κ L) (hr : s'.rw = s.rw) (hb : s'.block = s.block)
    (hv : ∀ w, ub (s'.debts a w) ≤ ub (s.debts a w) ∨ s.rw.borIx a w = (s.rw.mkt a).borIdx) : BInv s' a κ L := by
  refine h.shrink hk (by rw [hr]) (by rw [hr]; exact h.ix) hb (by simp [hr]) ?_
  intro w
  unfold termB paidBor
  rw [hr]
  rcases hv w with h1 | h1
  · have h9 : (0 : ℚ) ≤ ((s.rw.mkt a).borIdx - s.rw.borIx a w : Nat) := by positivity
    have := mul_le_mul_of_nonneg_right h1 h9
    linarith
  · rw [h1]; simp

theorem RwOnly.fit (h : RwOnly s s') (hf : Fit (s.debts a) (s.books a) E L X) :
    Fit (s'.debts a) (s'.books a) E L X := by
  obtain ⟨x, rfl⟩ := h
  exact hf

/-! ### Calls -/

/-- The constants of the bound. -/
structure Nums (E L X : ℚ) : Prop where
  e : 0 ≤ E
  l : 0 ≤ L
  x : X ≤ DIV * DIV
  k : 0 ≤ sure E L X

theorem collect_b {x w : Nat} (N : Nums E L X) (h : BInv s a (sure E L X) L)
    (hf : Fit (s.debts a) (s.books a) E L X) (he : collect s x w = .ok s') : BInv s' a (sure E L X) L := by
  simp only [collect, bind_ok_iff] at he
  obtain ⟨s1, h1, s2, h2, s3, h3, h4⟩ := he
  have t := (stillB_updSupply (a := a) h1).trans (stillB_distSupplier h2)
  have r := (updSupply_rw h1).trans (distSupplier_rw h2)
  have g3 := updBorrow_b N.e N.l N.x N.k (t.inv h) (fun _ => r.fit hf) h3
  exact (distBorrower_b N.k g3 (fun _ => (r.trans (updBorrow_rw h3)).fit hf) h4).1

theorem collectAll_b {w : Nat} (N : Nums E L X) : ∀ {as : List Nat} {s s' : State}, BInv s a (sure E L X) L →
    Fit (s.debts a) (s.books a) E L X → collectAll s w as = .ok s' → BInv s' a (sure E L X) L
  | [], s, s', h, hf, he => by cases he; exact h
  | b :: as, s, s', h, hf, he => by
    simp only [collectAll, bind_ok_iff] at he
    obtain ⟨s1, h1, h2⟩ := he
    exact collectAll_b N (collect_b N h hf h1) ((collect_rw h1).fit hf) h2

theorem updateSpeed_b {x : Nat} {u v : Option Nat} (N : Nums E L X) (h : BInv s a (sure E L X) L)
    (hf : Fit (s.debts a) (s.books a) E L X) (he : updateSpeed s x u v = .ok s') : BInv s' a (sure E L X) L := by
  simp only [updateSpeed, bind_ok_iff, pure_ok_iff] at he
  obtain ⟨_, _, s1, h1, s2, h2, rfl⟩ := he
  generalize u.getD (s.rw.mkt x).supSpeed = p at h1
  generalize v.getD (s.rw.mkt x).borSpeed = q at h2
  -- the supply half
  have t1 : StillB s s1 a := by
    unfold setSupSpeed at h1
    split_ifs at h1
    · cases h1; exact .of_eq rfl rfl rfl
    · simp only [bind_ok_iff, pure_ok_iff] at h1
      obtain ⟨s3, h3, rfl⟩ := h1
      refine (stillB_updSupply h3).trans (stillB_setRew ?_)
      rintro rfl
      exact ⟨rfl, rfl, rfl⟩
  have f1 := (setSupSpeed_rw h1).fit hf
  have g1 := t1.inv h
  obtain ⟨s3, g3, hs2, hv⟩ : ∃ s3, BInv s3 a (sure E L X) L ∧ s2 = setRew s3 x { s3.rw.mkt x with borSpeed := q } ∧
      (q = (s3.rw.mkt x).borSpeed ∨ x ≠ a ∨ (s3.rw.mkt x).borBlock = s3.block) := by
    unfold setBorSpeed at h2
    split_ifs at h2 with e
    · cases h2
      refine ⟨s1, g1, ?_, .inl e⟩
      rw [e]
      exact (setRew_self s1 x).symm
    · simp only [bind_ok_iff, pure_ok_iff] at h2
      obtain ⟨s3, h3, rfl⟩ := h2
      refine ⟨s3, updBorrow_b N.e N.l N.x N.k g1 (fun _ => f1) h3, rfl, .inr ?_⟩
      by_cases hx : x = a
      · right
        have e := updBorrow_exact h3
        have := g1.blk
        rw [e]
        subst hx
        simp only [setRew, upd_same]
        omega
      · exact .inl hx
  have hb : s2.block = s3.block := by rw [hs2]; rfl
  have hlog : s2.rw.log = s3.rw.log := by rw [hs2]; rfl
  have hix : s2.rw.borIx = s3.rw.borIx := by rw [hs2]; rfl
  have hdb : s2.debts = s3.debts := by rw [hs2]; rfl
  by_cases hx : x = a
  · subst hx
    have hm : s2.rw.mkt x = { s3.rw.mkt x with borSpeed := q } := by rw [hs2]; exact upd_same _ _ _
    have hemit : ∀ t, emissionBor x t (.speed x p q s2.block :: s2.rw.log) =
        q * (t - s3.block) + emissionBor x s3.block s3.rw.log := by
      intro t
      simp only [emissionBor, if_true]
      rw [hlog, hb]
    refine ⟨?_, ?_, ?_, ?_⟩
    · intro w; dsimp only; rw [hm, hix]; exact g3.ix w
    · dsimp only; rw [hm, hb]; exact g3.blk
    · intro t ht
      dsimp only at ht ⊢
      rw [hemit, hemit, hm, hb]
      simp only [Nat.sub_self, Nat.mul_zero, Nat.zero_add]
      omega
    · intro F
      have hp := g3.pot F
      have e1 : ∀ w, termB { s2 with rw := { s2.rw with log := .speed x p q s2.block :: s2.rw.log } } x w =
          termB s3 x w := by
        intro w
        unfold termB paidBor
        dsimp only
        rw [hm, hix, hdb, List.map_cons, List.sum_cons, hlog]
        simp [Event.lentTo]
      have e2 : aheadB { s2 with rw := { s2.rw with log := .speed x p q s2.block :: s2.rw.log } } x = aheadB s3 x := by
        unfold aheadB
        dsimp only
        rw [hm, hb]
        dsimp only
        rcases hv with e | e | e
        · rw [e]
        · exact absurd rfl e
        · rw [e]; simp
      simp only [e1, e2]
      rw [hemit, hb]
      simpa using hp
  · have hm : s2.rw.mkt a = s3.rw.mkt a := by rw [hs2]; exact upd_of_ne _ _ (Ne.symm hx)
    refine StillB.inv (s := s3) ?_ g3
    refine ⟨by dsimp only; rw [hdb], by dsimp only; rw [hm], by dsimp only; rw [hm], by dsimp only; rw [hm],
      by dsimp only; rw [hix]; exact fun _ => rfl, ?_, ?_, hb⟩
    · intro t
      simp only [emissionBor, hx, if_false]
      rw [hlog]
    · intro w
      unfold paidBor
      rw [List.map_cons, List.sum_cons, hlog]
      simp [Event.lentTo]

/-- The debt of one account is written. -/
theorem BInv.write {x w p i : Nat} {l : Ledger} {B : Nat → Book} (N : Nums E L X) (h : BInv s a (sure E L X) L)
    (hw : x = a → s.rw.borIx a w = (s.rw.mkt a).borIdx ∨ ub ⟨p, i⟩ ≤ ub (s.debts a w)) :
    BInv { s with ledger := l, debts := upd2 s.debts x w ⟨p, i⟩, books := B } a (sure E L X) L := by
  refine h.debts N.k rfl rfl ?_
  intro y
  dsimp only
  rw [upd2_apply]
  split_ifs with g
  · obtain ⟨rfl, rfl⟩ := g
    exact (hw rfl).symm
  · exact .inl (le_refl _)

theorem repayWith_b {x w d m : Nat} (N : Nums E L X) (h : BInv s a (sure E L X) L)
    (hf : x = a → Fit (s.debts a) (s.books a) E L X) (he : repayWith c s w x d m = .ok s') :
    BInv s' a (sure E L X) L := by
  simp only [repayWith, bind_ok_iff, ensure_ok_iff, exists_const, pure_ok_iff] at he
  obtain ⟨_, s1, h1, s2, h2, l, _, rfl⟩ := he
  have g1 := updBorrow_b N.e N.l N.x N.k h hf h1
  obtain ⟨g2, e2⟩ := distBorrower_b N.k g1 (fun e => (updBorrow_rw h1).fit (hf e)) h2
  exact g2.write N (fun e => .inl (e2 e))

/-- An accrual lowers the total in old units by no more than the rounding it may cause. -/
theorem tot_adv {b b' : Book} {t : Nat} (hi : DIV ≤ b.index) (e : Adv b t b') :
    tot b ≤ tot b' + pend b t := by
  have h0 : Bal (fun w => if w = 0 then ⟨b.borrows, b.index⟩ else ⟨0, 0⟩) b 0 0 := by
    have hz : ub ⟨0, 0⟩ = 0 := by simp [ub]
    refine ⟨fun F => ?_, {0}, ?_, ?_⟩
    · have : ∀ w ∈ F, ub (if w = 0 then ⟨b.borrows, b.index⟩ else ⟨0, 0⟩) = if w = 0 then tot b else 0 := by
        intro w _
        split_ifs
        · rfl
        · exact hz
      rw [Finset.sum_congr rfl this, Finset.sum_ite_eq']
      split_ifs
      · linarith
      · linarith [tot_nonneg b]
    · intro w hw
      rw [Finset.mem_singleton] at hw
      rw [if_neg hw]
    · rw [Finset.sum_singleton, if_pos rfl, add_zero]
      exact le_refl _
  obtain ⟨x, x0, x1, x2⟩ := h0.adv hi (Nat.le_refl _) e
  have := x2.one 0
  rw [if_pos rfl] at this
  have h2 := pend_nonneg b' t
  have h3 : ub ⟨b.borrows, b.index⟩ = tot b := rfl
  rw [h3] at this
  linarith

/-- What a state of a steady history satisfies. -/
structure Base (c : Cfg) (s : State) (a M : Nat) (E : ℚ) (L X : Nat) : Prop where
  inv : Inv c s
  held : ∃ m, Held s a M E m
  cap : (s.books a).borrows ≤ M
  idx : (s.books a).index ≤ X
  big : (s.books a).borrows = 0 ∨ L * (s.books a).index ≤ (s.books a).borrows * DIV
  time : s.time ≤ maxU64

variable {M L' X' : Nat}

theorem Base.big' (h : Base c s a M E L' X') : (s.books a).borrows = 0 ∨
    (DIV ≤ (s.books a).index ∧ (L' : ℚ) ≤ tot (s.books a)) := by
  rcases h.big with h0 | h0
  · exact .inl h0
  · by_cases hm : s.markets a = none
    · left; rw [h.inv.books0 a hm]; rfl
    · right
      have hi := h.inv.idx a hm
      have hI : (0 : ℚ) < (s.books a).index := by
        have : 0 < DIV := by decide
        exact_mod_cast (by omega : 0 < (s.books a).index)
      refine ⟨hi, ?_⟩
      unfold tot
      rw [le_div_iff₀ hI]
      exact_mod_cast h0

theorem Base.debts (h : Base c s a M E L' X') (w : Nat) : (s.debts a w).principal = 0 ∨
    (DIV ≤ (s.books a).index ∧ (s.debts a w).index ≤ (s.books a).index) := by
  by_cases hm : s.markets a = none
  · left; rw [h.inv.debts0 a w hm]
  · exact .inr ⟨h.inv.idx a hm, h.inv.didx a w⟩

theorem Base.fit (h : Base c s a M E L' X') (hE : 0 ≤ E) : Fit (s.debts a) (s.books a) E L' X' := by
  obtain ⟨m, u, h0, h1, h2⟩ := h.held
  have hp := pend_nonneg (s.books a) s.time
  refine ⟨fun F => (h2.le F).trans (by linarith), ?_, h.debts⟩
  rcases h.big' with g | ⟨g1, g2⟩
  · exact .inl g
  · exact .inr ⟨g1, by linarith, by exact_mod_cast h.idx⟩

theorem Base.fit_accrue {x : Nat} (h : Base c s a M E L' X') (hE : 0 ≤ E) (he : accrue c s x = .ok s')
    (hm : s.markets x ≠ none) (hx : (s'.books a).index ≤ X') : Fit (s'.debts a) (s'.books a) E L' X' := by
  obtain ⟨b, e, hg⟩ := accrue_ok he
  have hd : s'.debts = s.debts := by rw [e]; rfl
  by_cases g : x = a
  swap
  · have : s'.books a = s.books a := by rw [e]; exact upd_of_ne _ _ (Ne.symm g)
    rw [hd, this]
    exact h.fit hE
  subst g
  have A := accrue_adv he h.time
  have hi := h.inv.idx x hm
  obtain ⟨m, u, h0, h1, h2⟩ := h.held
  have hp := pend_nonneg (s.books x) s.time
  obtain ⟨y, y0, y1, y2⟩ := h2.adv hi h.cap A
  have hp' := pend_nonneg (s'.books x) s.time
  have hix : (s.books x).index ≤ (s'.books x).index := by
    cases A with
    | still _ h2 _ _ => omega
    | moved _ _ _ _ _ h2 => omega
  rw [hd]
  refine ⟨fun F => (y2.le F).trans (by linarith), ?_, ?_⟩
  · rcases h.big' with g | ⟨g1, g2⟩
    · left
      cases A with
      | still h1 _ _ _ => omega
      | moved rate _ _ _ h1 _ => rw [h1, g]; simp [Loans.grow]
    · right
      refine ⟨hi.trans hix, ?_, by exact_mod_cast hx⟩
      have := tot_adv hi A
      linarith
  · intro w
    rcases h.debts w with g | ⟨g1, g2⟩
    · exact .inl g
    · exact .inr ⟨g1.trans hix, g2.trans hix⟩

theorem liquidatedTransfer_b {liq br x k m und : Nat} {mk : Market} (N : Nums E L X) (h : BInv s a (sure E L X) L)
    (hf : x = a → Fit (s.debts a) (s.books a) E L X)
    (he : liquidatedTransfer c s liq br x k m und mk = .ok s') : BInv s' a (sure E L X) L := by
  simp only [liquidatedTransfer, bind_ok_iff, csub_ok_iff, cadd_ok_iff, pure_ok_iff] at he
  obtain ⟨s1, h1, s2, h2, l, _, d, hd, d', ⟨hmd, hd'⟩, t, ⟨_, rfl⟩, s3, h3, s4, h4, s5, h5, s6, h6, r, _, v, _, y, ⟨_, rfl⟩,
    q, _, g, ⟨_, rfl⟩, z, ⟨_, rfl⟩, u, ⟨_, rfl⟩, rfl⟩ := he
  have g1 := updBorrow_b N.e N.l N.x N.k h hf h1
  have f1 : x = a → Fit (s1.debts a) (s1.books a) E L X := fun e => (updBorrow_rw h1).fit (hf e)
  obtain ⟨g2, _⟩ := distBorrower_b N.k g1 f1 h2
  have f2 : x = a → Fit (s2.debts a) (s2.books a) E L X := fun e => (distBorrower_rw h2).fit (f1 e)
  have g3 := g2.write (l := l) (B := upd s2.books x { s2.books x with borrows := (s2.books x).borrows - m })
    (x := x) (w := br) (p := d') (i := (s2.books x).index) N (by
      rintro rfl
      right
      have e := debt_owed hd
      have e' : d = owed s2 x br := e
      rcases (f2 rfl).idx br with g | ⟨k1, k2⟩
      · have : owed s2 x br = 0 := by unfold owed; rw [g]; simp
        have h0 : d' = 0 := by omega
        rw [h0]
        simpa [ub] using ub_nonneg (s2.debts x br)
      · refine le_trans ?_ (owed_ub k1 k2).1
        unfold ub
        dsimp only
        have hD := DIV_pos
        have : (d' : ℚ) ≤ owed s2 x br := by exact_mod_cast (by omega : d' ≤ owed s2 x br)
        gcongr)
  have t6 := (((stillB_updSupply (a := a) h3).trans (stillB_distSupplier h4)).trans (stillB_distSupplier h5)).trans
    (stillB_distSupplier h6)
  refine StillB.inv (s := s6) (.of_eq rfl rfl rfl) (t6.inv ?_)
  exact g3

theorem exec_b {k : Call} (N : Nums E L' X') (hB : Base c s a M E L' X') (h : BInv s a (sure E L' X') L')
    (hX : (s'.books a).index ≤ X') (he : exec c s k = .ok s') : BInv s' a (sure E L' X') L' := by
  have hf := hB.fit N.e
  have same : s'.debts = s.debts → s'.rw = s.rw → s'.block = s.block → BInv s' a (sure E L' X') L' :=
    fun p q r => (StillB.of_eq (by rw [p]) q r).inv h
  cases k with
  | addMarket a m => obtain ⟨_, _, _, _, _, _, _, _, _, _, rfl⟩ := addMarket_view he; exact same rfl rfl rfl
  | activate a => obtain ⟨m, hm, rfl⟩ := mutateMarket_view he; exact same rfl rfl rfl
  | updateModel a rm =>
    simp only [exec, updateModel, bind_ok_iff, ensure_ok_iff, exists_const] at he
    obtain ⟨_, he⟩ := he
    obtain ⟨m, hm, rfl⟩ := mutateMarket_view he; exact same rfl rfl rfl
  | updateMarket a p => obtain ⟨m, hm, _, _, _, _, _, rfl⟩ := updateMarket_view he; exact same rfl rfl rfl
  | forceUpdate a m => obtain ⟨m0, hm, _, _, rfl⟩ := forceUpdate_view he; exact same rfl rfl rfl
  | addReward w m => obtain ⟨l, hl, rfl⟩ := addReward_view he; exact same rfl rfl rfl
  | withdrawReward w m => obtain ⟨l, hl, rfl⟩ := withdrawReward_view he; exact same rfl rfl rfl
  | updateSpeed x u v => exact updateSpeed_b N h hf he
  | claim w =>
    simp only [exec, claim, bind_ok_iff] at he
    obtain ⟨s1, h1, h2⟩ := he
    exact (stillB_payReward h2).inv (collectAll_b N h hf h1)
  | claimFor w x =>
    simp only [exec, claimFor, bind_ok_iff] at he
    obtain ⟨s1, h1, h2⟩ := he
    exact (stillB_payReward h2).inv (collect_b N h hf h1)
  | mint w x m =>
    simp only [exec, mint, bind_ok_iff, ensure_ok_iff, exists_const, cadd_ok_iff, pure_ok_iff] at he
    obtain ⟨_, _, _, _, _, s1, h1, s2, h2, s3, h3, r, _, s4, h4, v, _, _, l, _, d, ⟨_, rfl⟩, t, ⟨_, rfl⟩, rfl⟩ := he
    have t := (((stillB_accrue (a := a) h1).trans (stillB_updSupply h2)).trans (stillB_distSupplier h3)).trans
      (stillB_earned h4)
    exact StillB.inv (s := s4) (.of_eq rfl rfl rfl) (t.inv h)
  | redeem w x m =>
    simp only [exec, redeem, doRedeem, redeemVoucher, bind_ok_iff, ensure_ok_iff, exists_const, pure_ok_iff,
      csub_ok_iff] at he
    obtain ⟨_, p, ⟨_, _, s1, h1, r, _, s2, h2, v, _, _, _, s3, h3, s4, h4, _, _, _, _, _, _, t, _, l, _, rfl⟩, rfl⟩ := he
    have t := (((stillB_accrue (a := a) h1).trans (stillB_earned h2)).trans (stillB_updSupply h3)).trans
      (stillB_distSupplier h4)
    exact StillB.inv (s := s4) (.of_eq rfl rfl rfl) (t.inv h)
  | redeemAll w x =>
    simp only [exec, redeemAll, redeemVoucher, bind_ok_iff, pure_ok_iff, csub_ok_iff] at he
    obtain ⟨_, _, s1, h1, r, _, s2, h2, p, ⟨_, _, s3, h3, s4, h4, _, _, _, _, _, _, t, _, l, _, rfl⟩, rfl⟩ := he
    have t := (((stillB_accrue (a := a) h1).trans (stillB_earned h2)).trans (stillB_updSupply h3)).trans
      (stillB_distSupplier h4)
    exact StillB.inv (s := s4) (.of_eq rfl rfl rfl) (t.inv h)
  | borrow w x m =>
    simp only [exec, borrow, bind_ok_iff, cadd_ok_iff, pure_ok_iff] at he
    obtain ⟨mk, hmk, s1, h1, _, _, s2, h2, s3, h3, d, _, d', ⟨_, _⟩, t, ⟨_, rfl⟩, l, _, rfl⟩ := he
    have r := (updBorrow_rw h2).trans (distBorrower_rw h3)
    have f1 : Fit (s1.debts a) (s1.books a) E L' X' := by
      refine hB.fit_accrue N.e h1 (by rw [(ensureActive_ok hmk).1]; simp) ?_
      obtain ⟨y, hy⟩ := r
      have : s3.books = s1.books := by rw [hy]
      dsimp only at hX
      rw [this] at hX
      by_cases e : a = x
      · subst e; simpa using hX
      · rwa [upd_of_ne _ _ e] at hX
    have g2 := updBorrow_b N.e N.l N.x N.k ((stillB_accrue h1).inv h) (fun _ => f1) h2
    obtain ⟨g3, e3⟩ := distBorrower_b N.k g2 (fun _ => (updBorrow_rw h2).fit f1) h3
    exact g3.write N (fun e => .inl (e3 e))
  | repay w x m =>
    have v := repay_view he
    simp only [exec, repay, bind_ok_iff] at he
    obtain ⟨mk, hmk, s1, h1, d, _, h2⟩ := he
    refine repayWith_b N ((stillB_accrue h1).inv h) (fun e => ?_) h2
    refine hB.fit_accrue N.e h1 (by rw [(ensureActive_ok hmk).1]; simp) ?_
    subst e
    obtain ⟨_, b, _, _, _, _, _, v1, _, _, _, _, hs⟩ := v
    rw [h1] at v1
    cases v1
    rw [hs] at hX
    simpa [setBook] using hX
  | repayAll w x =>
    have v := repayAll_view he
    simp only [exec, repayAll, repay, bind_ok_iff] at he
    obtain ⟨mk, hmk, s1, h1, d, _, _, _, s2, h3, d', _, h2⟩ := he
    have e2 := accrue_idem h1
    rw [h3] at e2
    cases e2
    refine repayWith_b N ((stillB_accrue h1).inv h) (fun e => ?_) h2
    refine hB.fit_accrue N.e h1 (by rw [(ensureActive_ok hmk).1]; simp) ?_
    subst e
    obtain ⟨_, b, _, _, _, _, _, v1, _, _, _, hs⟩ := v
    rw [h1] at v1
    cases v1
    rw [hs] at hX
    simpa [setBook] using hX
  | collateral w x on => obtain ⟨_, _, _, rfl⟩ := collateral_view he; exact same rfl rfl rfl
  | liquidate liq br x m k =>
    obtain ⟨s1, s2, _, _, h1, h2, h3⟩ := liquidate_view he
    obtain ⟨mk, mk', _, _, hm, hk, _, _, _, _, _, _, _, _, _, h4⟩ := doLiquidate_view h3
    obtain ⟨y, d, r, l, _, _, _, _, _, _, _, _, hs⟩ := liquidatedTransfer_view h4
    have t := (stillB_accrue (a := a) h1).trans (stillB_accrue h2)
    refine liquidatedTransfer_b N (t.inv h) (fun e => ?_) h4
    subst e
    obtain ⟨b, e1, _⟩ := accrue_ok h1
    obtain ⟨b', e2, _⟩ := accrue_ok h2
    have ha : s2.books x = s1.books x := by
      by_cases e : x = k
      · subst e
        have := accrue_idem h1
        rw [this] at h2
        cases h2
        rfl
      · rw [e2]; exact upd_of_ne _ _ e
    have hdb : s2.debts = s1.debts := by rw [e2]; rfl
    have hmar : s2.markets = s.markets := by rw [e2, e1]; rfl
    rw [ha, hdb]
    refine hB.fit_accrue N.e h1 (by rw [← hmar, hm]; simp) ?_
    rw [hs] at hX
    dsimp only at hX
    rw [upd_same] at hX
    rw [← ha]
    exact hX
  | addReserves w x m => obtain ⟨_, _, _, _, _, _, rfl⟩ := addReserves_view he; exact same rfl rfl rfl
  | reduceReserves w x m => obtain ⟨_, _, _, _, _, _, rfl⟩ := reduceReserves_view he; exact same rfl rfl rfl
  | reduceIncentive w x m =>
    simp only [exec, reduceIncentive, redeemVoucher, bind_ok_iff, ensure_ok_iff, exists_const, pure_ok_iff,
      csub_ok_iff] at he
    obtain ⟨_, _, _, r, _, v, _, p, ⟨_, _, s3, h3, s4, h4, _, _, _, _, _, _, t, _, l, _, rfl⟩, l', _, rfl⟩ := he
    have t := (stillB_updSupply (a := a) h3).trans (stillB_distSupplier h4)
    exact StillB.inv (s := s4) (.of_eq rfl rfl rfl) (t.inv h)
  | updateLfc as => cases he; exact same rfl rfl rfl
  | transferP p src dst m =>
    simp only [exec, transferP, bind_ok_iff, ensure_ok_iff, exists_const, pure_ok_iff] at he
    obtain ⟨_, s1, h1, s2, h2, s3, h3, x, _, _, _, y, _, rfl⟩ := he
    have t := ((stillB_updSupply (a := a) h1).trans (stillB_distSupplier h2)).trans (stillB_distSupplier h3)
    exact StillB.inv (s := s3) (.of_eq rfl rfl rfl) (t.inv h)

/-! ### Whole histories -/

theorem Steady.counted {n d : Nat} (h : Steady c a X' L' n d s) : ∃ M m, Counted c a M n d m s := by
  induction h with
  | init l p t b hw => exact ⟨0, 0, .init l p t b hw⟩
  | @call n d s s' h k hw hk he hX hL ih =>
    obtain ⟨M, m, ih⟩ := ih
    exact ⟨max M (s'.books a).borrows, m + 1, .call (ih.up (le_max_left _ _)) k hw hk he (le_max_right _ _)⟩
  | rest h he ht ih => obtain ⟨M, m, ih⟩ := ih; exact ⟨M, m, .rest ih he ht⟩
  | tick h he ih => obtain ⟨M, m, ih⟩ := ih; exact ⟨M, m, .tick ih he⟩

theorem Steady.ends {n d : Nat} (h : Steady c a X' L' n d s) : (s.books a).index ≤ X' ∧
    ((s.books a).borrows = 0 ∨ L' * (s.books a).index ≤ (s.books a).borrows * DIV) := by
  induction h with
  | init l p t b hw => exact ⟨Nat.zero_le _, .inl rfl⟩
  | call h k hw hk he hX hL ih => exact ⟨hX, hL⟩
  | rest h he ht ih => rw [he.same]; exact ih
  | tick h he ih => rw [he.same]; exact ih

theorem Steady.base {n d : Nat} (hc : c.Ok) (h : Steady c a X' L' n d s) (ht : s.time ≤ maxU64) (hE : slack n d ≤ E) :
    ∃ M, Base c s a M E L' X' := by
  obtain ⟨M, m, hC⟩ := h.counted
  exact ⟨M, inv_reach hc hC.reach, ⟨m, (held_counted hc hC ht).mono hE (Nat.le_refl _)⟩, hC.bound, h.ends.1, h.ends.2, ht⟩

theorem BInv.env {κ : ℚ} (h : BInv s a κ L) (he : Env c s s') : BInv s' a κ L := by
  have h1 : s'.rw = s.rw := by rw [he.same]
  have h2 : s'.debts = s.debts := by rw [he.same]
  have hb := he.block
  refine ⟨?_, ?_, ?_, ?_⟩
  · rw [h1]; exact h.ix
  · rw [h1]; exact h.blk.trans hb
  · intro t ht
    rw [h1, h.grow t (hb.trans ht), h.grow s'.block hb]
    have : t - s.block = (s'.block - s.block) + (t - s'.block) := by omega
    rw [this, Nat.mul_add, Nat.add_assoc]
  · intro F
    have hp := h.pot F
    have hbl := h.blk
    have e1 : ∀ w, termB s' a w = termB s a w := by
      intro w; unfold termB paidBor; rw [h1, h2]
    have e2 : aheadB s' a = aheadB s a + scale * ((s.rw.mkt a).borSpeed * (s'.block - s.block)) := by
      unfold aheadB
      rw [h1, ← Nat.mul_add, ← Nat.mul_add]
      congr 2
      omega
    simp only [e1, e2]
    rw [h1, h.grow s'.block hb, Nat.mul_add]
    push_cast at hp ⊢
    linarith

theorem binv_steady {n d : Nat} (hc : c.Ok) (N : Nums E L' X') (h : Steady c a X' L' n d s) (ht : s.time ≤ maxU64)
    (hE : slack n d ≤ E) : BInv s a (sure E L' X') L' := by
  induction h with
  | init l p t b hw =>
    refine ⟨fun w => Nat.le_refl _, Nat.zero_le _, ?_, ?_⟩
    · intro t _; simp [State.fresh, Rewards.zero, emissionBor]
    · intro F
      have : ∀ w, termB (State.fresh l p t b) a w = 0 := by
        intro w; simp [termB, paidBor, State.fresh, Rewards.zero, ub]
      have e2 : aheadB (State.fresh l p t b) a = 0 := by simp [aheadB, State.fresh, Rewards.zero]
      simp only [this, e2, Finset.sum_const_zero, mul_zero, Nat.cast_zero, add_zero]
      have := N.l
      positivity
  | @call n d s s' h k hw hk he hX hL ih =>
    have ht' : s.time ≤ maxU64 := by rw [← exec_time he]; exact ht
    obtain ⟨M, hB⟩ := h.base hc ht' hE
    exact exec_b N hB (ih ht' hE) hX he
  | @rest n d s s' h he e ih => exact (ih (by rw [← e]; exact ht) hE).env he
  | @tick n d s s' h he ih =>
    exact (ih (he.time.trans ht) ((slack_mono _ _ _).trans hE)).env he

end

/-! ## C236 -/

/-- Borrow rewards `w` could get credited right now. -/
def pendingBor (s : State) (a w : Nat) : Nat :=
  baseOf s a (owed s a w) * ((s.rw.mkt a).borIdx - s.rw.borIx a w) / scale

/-- The property: the rewards credited to any set of borrowers, plus those they could still have credited, do not
exceed the configured emission. -/
def C236_statement : Prop := ∀ (c : Cfg), c.Ok → ∀ s, Reach c s → s.time ≤ maxU64 → ∀ (a : Nat) (F : Finset Nat),
  ∑ w ∈ F, (paidBor s a w + pendingBor s a w) ≤ emissionBor a s.block s.rw.log

/-- **C236** They exceed it at most by the factor `L / ((L - e) * (1 - X / 10^36) - 1)`, where `L` units (of the first day
of the market) is the least positive total ever lent, `X` the largest index, and `e` one unit for every moment the clock
moved and every year. -/
theorem C236_rewards_partial (hc : c.Ok) {a X L n d : Nat} (h : Steady c a X L n d s) (ht : s.time ≤ maxU64)
    (hX : X ≤ DIV * DIV) (F : Finset Nat) :
    ((L - slack n d) * (1 - X / (DIV * DIV)) - 1) * ((∑ w ∈ F, (paidBor s a w + pendingBor s a w) : Nat) : ℚ) ≤
      L * emissionBor a s.block s.rw.log := by
  have hE : 0 ≤ slack n d := by
    unfold slack
    have := year_pos
    positivity
  by_cases hk : 0 ≤ sure (slack n d) L X
  · have N : Nums (slack n d) L X := ⟨hE, by positivity, by exact_mod_cast hX, hk⟩
    have hp := (binv_steady hc N h ht (le_refl _)).pot F
    obtain ⟨M, hB⟩ := h.base hc ht (le_refl _)
    have hf := hB.fit hE
    have hs : (0 : ℚ) < scale := by norm_num [scale]
    have k1 : ((∑ w ∈ F, (paidBor s a w + pendingBor s a w) : Nat) : ℚ) * scale ≤ ∑ w ∈ F, termB s a w := by
      push_cast
      rw [Finset.sum_mul]
      apply Finset.sum_le_sum
      intro w _
      unfold termB pendingBor
      have b1 := base_le_ub (w := w) hf
      have f1 := floor_le (baseOf s a (owed s a w) * ((s.rw.mkt a).borIdx - s.rw.borIx a w)) scale
      rw [le_div_iff₀ hs] at f1
      have h9 : (0 : ℚ) ≤ ((s.rw.mkt a).borIdx - s.rw.borIx a w : Nat) := by positivity
      have f2 := mul_le_mul_of_nonneg_right b1 h9
      push_cast at f1 ⊢
      linarith
    have k2 := mul_le_mul_of_nonneg_left k1 hk
    have k3 : (0 : ℚ) ≤ L * aheadB s a := by positivity
    have k4 : sure (slack n d) L X * ((∑ w ∈ F, (paidBor s a w + pendingBor s a w) : Nat) : ℚ) * scale ≤
        L * emissionBor a s.block s.rw.log * scale := by
      push_cast at hp ⊢
      push_cast at k2
      linarith
    exact le_of_mul_le_mul_right k4 hs
  · have h1 : ((L - slack n d) * (1 - X / ((DIV : ℚ) * DIV)) - 1) ≤ 0 := by unfold sure at hk; linarith
    have h2 : (0 : ℚ) ≤ ((∑ w ∈ F, (paidBor s a w + pendingBor s a w) : Nat) : ℚ) := by positivity
    have h3 : (0 : ℚ) ≤ L * emissionBor a s.block s.rw.log := by positivity
    exact (mul_nonpos_of_nonpos_of_nonneg h1 h2).trans h3

/-! ### Cases -/

/-- The history of C235 in which 402 units are owed and 400 recorded, then 1000 blocks, then user 8 collects. -/
def exBw : State := run exC (pass exDr exPrices 0 1000) [.claimFor 8 1]

theorem exClaim_ok : ∀ k ∈ [Call.claimFor 8 1], k.wt ∧ exC.acct ∉ k.signers ∧ True := by
  intro k hk
  simp only [List.mem_cons, List.not_mem_nil, or_false] at hk
  subst hk
  simp [Call.wt, Call.signers, exC]

theorem exBw_reach : Reach exC exBw := run_reach (pass_reach exC_ok exDr_reach) exClaim_ok

theorem exBw_paid : paidBor exBw 1 8 = 7246 ∧ emissionBor 1 exBw.block exBw.rw.log = 7210 ∧ exBw.time ≤ maxU64 := by
  decide +kernel

/-- **C236** It is false: the base of the index is computed from the recorded total, the rewards from the debts, and the
debts may exceed the total (C235). -/
theorem C236_refuted : ¬ C236_statement := by
  intro h
  have h1 := h exC exC_ok exBw exBw_reach exBw_paid.2.2 1 {8}
  rw [Finset.sum_singleton, exBw_paid.1, exBw_paid.2.1] at h1
  omega

/-- The conditions of `Steady` hold while the calls are executed. -/
def steadily (c : Cfg) (a X L : Nat) : State → List Call → Bool
  | _, [] => true
  | s, k :: ks =>
    decide (((commit s (exec c s k)).books a).index ≤ X) &&
    decide (((commit s (exec c s k)).books a).borrows = 0 ∨
      L * ((commit s (exec c s k)).books a).index ≤ ((commit s (exec c s k)).books a).borrows * DIV) &&
    steadily c a X L (commit s (exec c s k)) ks

theorem steady_run {a X L n d : Nat} : ∀ {ks : List Call} {s : State}, Steady c a X L n d s →
    (∀ k ∈ ks, k.wt ∧ c.acct ∉ k.signers ∧ True) → steadily c a X L s ks = true → Steady c a X L n d (run c s ks)
  | [], s, h, _, _ => h
  | k :: ks, s, h, hk, hw => by
    have h1 := hk k (by simp)
    simp only [steadily, Bool.and_eq_true, decide_eq_true_eq] at hw
    have step : Steady c a X L n d (commit s (exec c s k)) := by
      rcases commit_cases s (exec c s k) with he | he
      · exact .call h k h1.1 h1.2.1 he hw.1.1 hw.1.2
      · rw [he.1]; exact h
    exact steady_run (s := commit s (exec c s k)) step (fun k' hk' => hk k' (by simp [hk'])) hw.2

theorem steady_pass {a X L n d dt db : Nat} {prices : Nat → Option Nat} (hc : c.Ok) (h : Steady c a X L n d s) :
    Steady c a X L (n + 1) (d + dt) (pass s prices dt db) := by
  obtain ⟨M, m, hC⟩ := h.counted
  have e : (pass s prices dt db).time - s.time = dt := by simp [pass]
  have := Steady.tick h (s' := pass s prices dt db)
    ⟨rfl, (inv_reach hc hC.reach).wf, fun _ => Nat.le_refl _, Nat.le_add_right _ _, Nat.le_add_right _ _⟩
  rwa [e] at this

/-- The history above: four movements of the clock, a quarter of a year, at least 397 old units lent, an index of at most
twice the initial one. -/
theorem exBw_steady : Steady exC 1 (2 * DIV) 397 4 7884000 exBw := by
  have h0 := steady_run (a := 1) (X := 2 * DIV) (L := 397) (.init exL exPrices 1000 10 exL_wf) exCalls_ok
    (by decide +kernel)
  have h1 := steady_run (ks := [.repayAll 8 1, .borrow 8 1 400]) (s := ex0) h0 (by
    intro k hk
    simp only [List.mem_cons, List.not_mem_nil, or_false] at hk
    rcases hk with rfl | rfl <;> simp [Call.wt, Call.signers, exC]) (by decide +kernel)
  have h2 := steady_run (steady_pass (prices := exPrices) (dt := 2628000) (db := 10) exC_ok h1) exMint_ok
    (by decide +kernel)
  have h3 := steady_run (steady_pass (prices := exPrices) (dt := 2628000) (db := 10) exC_ok h2) exMint_ok
    (by decide +kernel)
  have h4 := steady_run (steady_pass (prices := exPrices) (dt := 2628000) (db := 10) exC_ok h3) exMint_ok
    (by decide +kernel)
  exact steady_run (steady_pass (s := exDr) (prices := exPrices) (dt := 0) (db := 1000) exC_ok h4) exClaim_ok
    (by decide +kernel)

/-- The bound for it: 7246 units are at most about 397/391 of 7210. -/
example : ((397 - 17 / 4 : ℚ) * (1 - ((2 * DIV : Nat) : ℚ) / (DIV * DIV)) - 1) * (7246 : Nat) ≤ 397 * (7210 : Nat) := by
  have k := C236_rewards_partial exC_ok exBw_steady exBw_paid.2.2 (by decide +kernel) {8}
  have e : pendingBor exBw 1 8 = 0 := by decide +kernel
  rw [Finset.sum_singleton, exBw_paid.1, exBw_paid.2.1, e] at k
  have hs : slack 4 7884000 = 17 / 4 := by norm_num [slack, secondsPerYear]
  rw [hs] at k
  exact_mod_cast k

end Verif.Loans
