import Verif.Loans.Markets
import Mathlib.Algebra.BigOperators.Group.Finset.Basic
import Mathlib.Algebra.Order.BigOperators.Group.Finset
import Mathlib.Algebra.BigOperators.Ring.Finset
import Mathlib.Algebra.Order.Field.Basic
import Mathlib.Data.Rat.Cast.Order
import Mathlib.Algebra.Order.Ring.Rat
import Mathlib.Tactic.Linarith
import Mathlib.Tactic.FieldSimp
import Mathlib.Tactic.Ring
import Mathlib.Tactic.Positivity

/-! # Property C235: the debts of a market and the total it records -/

set_option linter.unusedSimpArgs false
set_option linter.unusedVariables false

namespace Verif.Loans
open Verif

variable {c : Cfg} {s s' : State}

/-! ### Specification -/

/-- Histories that count the calls (`m`), the moments at which the clock moved (`n`) and the seconds (`d`) it moved, and
in which the total lent of market `a` never exceeds `M`. -/
inductive Counted (c : Cfg) (a M : Nat) : Nat → Nat → Nat → State → Prop
  | init (l : Ledger) (prices : Nat → Option Nat) (time block : Nat) (hw : l.WF) :
      Counted c a M 0 0 0 (State.fresh l prices time block)
  | call {n d m : Nat} {s s' : State} (h : Counted c a M n d m s) (k : Call) (hw : k.wt)
      (hk : c.acct ∉ k.signers) (he : exec c s k = .ok s') (hM : (s'.books a).borrows ≤ M) :
      Counted c a M n d (m + 1) s'
  | rest {n d m : Nat} {s s' : State} (h : Counted c a M n d m s) (he : Env c s s') (ht : s'.time = s.time) :
      Counted c a M n d m s'
  | tick {n d m : Nat} {s s' : State} (h : Counted c a M n d m s) (he : Env c s s') :
      Counted c a M (n + 1) (d + (s'.time - s.time)) m s'

/-- What `w` owes in market `a` before rounding. -/
def exactDebt (s : State) (a w : Nat) : ℚ :=
  (s.debts a w).principal * ((s.books a).index / (s.debts a w).index)

/-- One unit for every moment the clock moved, one for every year. -/
def slack (n d : Nat) : ℚ := n + d / secondsPerYear

/-! ### Arithmetic -/

theorem floor_le (x y : Nat) : ((x / y : Nat) : ℚ) ≤ x / y := by
  rcases Nat.eq_zero_or_pos y with rfl | h
  · simp
  · have hy : (0 : ℚ) < y := by exact_mod_cast h
    rw [le_div_iff₀ hy]
    exact_mod_cast Nat.div_mul_le_self x y

theorem lt_floor (x : Nat) {y : Nat} (h : 0 < y) : (x : ℚ) / y < (x / y : Nat) + 1 := by
  have hy : (0 : ℚ) < y := by exact_mod_cast h
  rw [div_lt_iff₀ hy]
  have h1 := Nat.lt_div_mul_add h (a := x)
  have h2 : x < (x / y + 1) * y := by rw [Nat.add_mul, Nat.one_mul]; exact h1
  exact_mod_cast h2

/-- The growth of an amount, of the index. -/
def grow (rate z dt : Nat) : Nat := rate * z / DIV * dt / secondsPerYear

theorem DIV_pos : (0 : ℚ) < DIV := by norm_num [DIV]
theorem year_pos : (0 : ℚ) < secondsPerYear := by norm_num [secondsPerYear]

theorem grow_le (rate z dt : Nat) :
    (grow rate z dt : ℚ) ≤ z * (rate * dt / (DIV * secondsPerYear)) := by
  have h1 : (grow rate z dt : ℚ) ≤ _ := floor_le (rate * z / DIV * dt) secondsPerYear
  have h2 := floor_le (rate * z) DIV
  push_cast at h1 h2
  generalize ((rate * z / DIV : Nat) : ℚ) = q at h1 h2
  have hd := DIV_pos
  have hy := year_pos
  have hdt : (0 : ℚ) ≤ dt := by positivity
  calc (grow rate z dt : ℚ) ≤ q * dt / secondsPerYear := h1
    _ ≤ (rate * z / DIV) * dt / secondsPerYear := by gcongr
    _ = _ := by field_simp

theorem le_grow (rate z dt : Nat) :
    (z : ℚ) * (rate * dt / (DIV * secondsPerYear)) - (1 + dt / secondsPerYear) ≤ grow rate z dt := by
  have h1 : _ < (grow rate z dt : ℚ) + 1 := lt_floor (rate * z / DIV * dt) (by decide : 0 < secondsPerYear)
  have h2 := lt_floor (rate * z) (by decide : 0 < DIV)
  push_cast at h1 h2
  generalize ((rate * z / DIV : Nat) : ℚ) = q at h1 h2
  have hd := DIV_pos
  have hy := year_pos
  have hdt : (0 : ℚ) ≤ dt := by positivity
  have h3 : ((rate : ℚ) * z / DIV - 1) * dt / secondsPerYear ≤ q * dt / secondsPerYear := by
    gcongr; linarith
  have h4 : ((rate : ℚ) * z / DIV - 1) * dt / secondsPerYear =
      z * (rate * dt / (DIV * secondsPerYear)) - dt / secondsPerYear := by field_simp
  linarith

theorem advance_grow {m : Market} {b : Book} {rate now : Nat} {x : Nat × Nat × Nat}
    (h : advance m b rate now = .ok x) (hlt : b.lastTime < now) (hn : now ≤ maxU64) :
    x.1 = b.borrows + grow rate b.borrows (now - b.lastTime) ∧
    x.2.2 = b.index + grow rate b.index (now - b.lastTime) := by
  unfold advance at h
  rw [if_pos hlt] at h
  simp only [bind_ok_iff, cadd_ok_iff, okOr_ok_iff, pure_ok_iff] at h
  obtain ⟨i, hi, tb, ⟨_, rfl⟩, tr, ⟨_, rfl⟩, ix, hix, ix', ⟨_, rfl⟩, rfl⟩ := h
  have hm : (now - b.lastTime) * DIV ≤ maxU128 := by
    have h1 : now - b.lastTime ≤ maxU64 := by omega
    calc (now - b.lastTime) * DIV ≤ maxU64 * DIV := Nat.mul_le_mul_right _ h1
      _ ≤ maxU128 := by decide +kernel
  simp only [accruedInterest, Option.bind_eq_bind, Option.bind_eq_some_iff, fixMulInt_iff, omul_iff, odiv_iff] at hi
  obtain ⟨_, ⟨_, rfl⟩, _, ⟨_, rfl⟩, _, rfl⟩ := hi
  simp only [incrementIndex, Option.bind_eq_bind, Option.bind_eq_some_iff, fixMul_iff, fixDiv_iff,
    Nat.min_eq_right hm] at hix
  obtain ⟨_, ⟨_, rfl⟩, _, ⟨_, rfl⟩, _, _, rfl⟩ := hix
  have hd : 0 < DIV := by decide
  refine ⟨Nat.add_comm _ _, ?_⟩
  dsimp only [grow]
  rw [← Nat.mul_assoc, Nat.mul_div_cancel _ hd, Nat.mul_div_mul_right _ _ hd]
  exact Nat.add_comm _ _

/-! ### The balance between debts and total -/

/-- A debt in units of the first day of the market. -/
def ub (d : Snapshot) : ℚ := d.principal * DIV / d.index
/-- The recorded total in the same units. -/
def tot (b : Book) : ℚ := b.borrows * DIV / b.index

theorem ub_nonneg (d : Snapshot) : 0 ≤ ub d := by unfold ub; have := DIV_pos; positivity
theorem tot_nonneg (b : Book) : 0 ≤ tot b := by unfold tot; have := DIV_pos; positivity

/-- Debts exceed the total by at most `u`, the total exceeds the debts by at most `v`. -/
structure Bal (D : Nat → Snapshot) (b : Book) (u v : ℚ) : Prop where
  le : ∀ F : Finset Nat, ∑ w ∈ F, ub (D w) ≤ tot b + u
  ge : ∃ F : Finset Nat, (∀ w, w ∉ F → (D w).principal = 0) ∧ tot b ≤ ∑ w ∈ F, ub (D w) + v

theorem Bal.mono {D : Nat → Snapshot} {b : Book} {u v u' v' : ℚ} (h : Bal D b u v) (hu : u ≤ u') (hv : v ≤ v') :
    Bal D b u' v' := by
  refine ⟨fun F => (h.le F).trans (by linarith), ?_⟩
  obtain ⟨F, h1, h2⟩ := h.ge
  exact ⟨F, h1, h2.trans (by linarith)⟩

theorem Bal.one {D : Nat → Snapshot} {b : Book} {u v : ℚ} (h : Bal D b u v) (w : Nat) : ub (D w) ≤ tot b + u := by
  simpa using h.le {w}

/-- Interest is added to the total and to the index. -/
theorem Bal.grow {D : Nat → Snapshot} {b b' : Book} {u v M : ℚ} {rate dt : Nat} (h : Bal D b u v)
    (hi : DIV ≤ b.index) (hM : (b.borrows : ℚ) ≤ M)
    (h1 : b'.borrows = b.borrows + Loans.grow rate b.borrows dt)
    (h2 : b'.index = b.index + Loans.grow rate b.index dt) :
    Bal D b' (u + (1 + dt / secondsPerYear)) (v + M / DIV * (1 + dt / secondsPerYear)) := by
  have hd := DIV_pos
  have hy := year_pos
  have hI : (DIV : ℚ) ≤ b.index := by exact_mod_cast hi
  have a1 := grow_le rate b.borrows dt
  have a2 := le_grow rate b.borrows dt
  have a3 := grow_le rate b.index dt
  have a4 := le_grow rate b.index dt
  have hT0 : (0 : ℚ) ≤ b.borrows := by positivity
  have hg : (0 : ℚ) ≤ Loans.grow rate b.index dt := by positivity
  have hgT : (0 : ℚ) ≤ Loans.grow rate b.borrows dt := by positivity
  have he : (1 : ℚ) ≤ 1 + dt / secondsPerYear := by
    have : (0 : ℚ) ≤ dt / secondsPerYear := by positivity
    linarith
  have hz : (0 : ℚ) ≤ rate * dt / (DIV * secondsPerYear) := by positivity
  have e1 : (b'.borrows : ℚ) = b.borrows + Loans.grow rate b.borrows dt := by exact_mod_cast h1
  have e2 : (b'.index : ℚ) = b.index + Loans.grow rate b.index dt := by exact_mod_cast h2
  generalize (1 : ℚ) + dt / secondsPerYear = e at *
  generalize (rate : ℚ) * dt / (DIV * secondsPerYear) = z at *
  generalize (Loans.grow rate b.borrows dt : ℚ) = gT at *
  generalize (Loans.grow rate b.index dt : ℚ) = gI at *
  have hlo : tot b ≤ tot b' + e := by
    unfold tot
    rw [e1, e2]
    generalize (b.borrows : ℚ) = T at *
    generalize (b.index : ℚ) = I at *
    generalize (DIV : ℚ) = V at *
    have hI0 : 0 < I := by linarith
    rw [div_add' _ _ _ (by linarith), div_le_div_iff₀ hI0 (by linarith)]
    have k1 : T * (I + gI) ≤ (T + gT) * I + e * I := by nlinarith
    have k2 : V * (e * I) ≤ I * (e * I) := by
      apply mul_le_mul_of_nonneg_right hI; positivity
    have k3 : 0 ≤ e * gI * I := by positivity
    nlinarith [mul_le_mul_of_nonneg_left k1 hd.le]
  have hhi : tot b' ≤ tot b + M / DIV * e := by
    unfold tot
    rw [e1, e2]
    generalize (b.borrows : ℚ) = T at *
    generalize (b.index : ℚ) = I at *
    generalize (DIV : ℚ) = V at *
    have hI0 : 0 < I := by linarith
    have hM0 : 0 ≤ M := hT0.trans hM
    have k1 : (T + gT) * I ≤ T * (I + gI) + T * e := by nlinarith
    have k2 : (T + gT) / (I + gI) ≤ T / I + T * e / (I * I) := by
      rw [div_add_div _ _ (by linarith) (by positivity), div_le_div_iff₀ (by linarith) (by positivity)]
      have k3 : 0 ≤ T * e * gI := by positivity
      have k4 : (T + gT) * I * (I * I) ≤ (T * (I + gI) + T * e) * (I * I) := by
        apply mul_le_mul_of_nonneg_right k1; positivity
      nlinarith [mul_nonneg k3 hI0.le]
    have k5 : V * (T * e / (I * I)) ≤ M / V * e := by
      rw [div_mul_eq_mul_div, mul_div_assoc', div_le_div_iff₀ (by positivity) hd]
      have : V * V ≤ I * I := by nlinarith
      have : T * e ≤ M * e := by apply mul_le_mul_of_nonneg_right hM; linarith
      have k6 : (T * e) * (V * V) ≤ (M * e) * (I * I) := by
        apply mul_le_mul this (by nlinarith) (by positivity) (by positivity)
      nlinarith
    calc (T + gT) * V / (I + gI) = V * ((T + gT) / (I + gI)) := by ring
      _ ≤ V * (T / I + T * e / (I * I)) := by apply mul_le_mul_of_nonneg_left k2 hd.le
      _ = T * V / I + V * (T * e / (I * I)) := by ring
      _ ≤ _ := by linarith
  refine ⟨fun F => (h.le F).trans (by linarith), ?_⟩
  obtain ⟨F, f1, f2⟩ := h.ge
  exact ⟨F, f1, by linarith⟩

/-- What the code computes as the debt, in old units: at most the debt, and at most one unit and a `10^18`-th less. -/
theorem owed_ub {a w : Nat} (hi : DIV ≤ (s.books a).index) (hj : (s.debts a w).index ≤ (s.books a).index) :
    (owed s a w : ℚ) * DIV / (s.books a).index ≤ ub (s.debts a w) ∧
    ub (s.debts a w) ≤ owed s a w * DIV / (s.books a).index + (1 + ub (s.debts a w) / DIV) := by
  unfold owed ub
  generalize s.debts a w = D at *
  generalize s.books a = b at *
  have hd := DIV_pos
  have hI : (DIV : ℚ) ≤ b.index := by exact_mod_cast hi
  have hI0 : (0 : ℚ) < b.index := by linarith
  rcases Nat.eq_zero_or_pos D.index with h0 | h0
  · rw [h0]; simp
  · have hJ0 : (0 : ℚ) < D.index := by exact_mod_cast h0
    have hJ : (D.index : ℚ) ≤ b.index := by exact_mod_cast hj
    have hP : (0 : ℚ) ≤ D.principal := by positivity
    have q1 := floor_le (b.index * DIV) D.index
    have q2 := lt_floor (b.index * DIV) h0
    have p1 := floor_le (b.index * DIV / D.index * D.principal) DIV
    have p2 := lt_floor (b.index * DIV / D.index * D.principal) (by decide : 0 < DIV)
    push_cast at q1 q2 p1 p2
    generalize ((b.index * DIV / D.index : Nat) : ℚ) = q at *
    generalize ((b.index * DIV / D.index * D.principal / DIV : Nat) : ℚ) = o at *
    generalize (b.index : ℚ) = I at *
    generalize (D.index : ℚ) = J at *
    generalize (D.principal : ℚ) = P at *
    generalize (DIV : ℚ) = V at *
    constructor
    · have : o ≤ I * P / J := by
        calc o ≤ q * P / V := p1
          _ ≤ (I * V / J) * P / V := by gcongr
          _ = _ := by field_simp
      calc o * V / I ≤ (I * P / J) * V / I := by gcongr
        _ = P * V / J := by field_simp
    · have h1 : (I * V / J - 1) * P / V ≤ q * P / V := by gcongr; linarith
      have h2 : I * P / J - P / V ≤ o + 1 := by
        have : (I * V / J - 1) * P / V = I * P / J - P / V := by field_simp
        linarith
      have h3 : I * P / J - P / V - 1 ≤ o := by linarith
      have h4 : (I * P / J - P / V - 1) * V / I ≤ o * V / I := by gcongr
      have h5 : (I * P / J - P / V - 1) * V / I = P * V / J - P / I - V / I := by field_simp
      have h6 : V / I ≤ 1 := (div_le_one hI0).mpr hI
      have h7 : P / I ≤ P * V / J / V := by
        have : P * V / J / V = P / J := by field_simp
        rw [this]
        gcongr
      linarith

/-- A debt is rounded and changed by `x`, and so is the total, unless that would be negative. -/
theorem Bal.op {D : Nat → Snapshot} {b : Book} {u v B : ℚ} {w o p t : Nat} {x : ℚ} (h : Bal D b u v)
    (hu : 0 ≤ u) (hv : 0 ≤ v)
    (hi : DIV ≤ b.index) (h1 : (o : ℚ) * DIV / b.index ≤ ub (D w))
    (h2 : ub (D w) ≤ o * DIV / b.index + (1 + ub (D w) / DIV)) (hB : ub (D w) ≤ B)
    (hp : (p : ℚ) = o + x) (ht1 : (b.borrows : ℚ) + x ≤ t) (ht2 : (t : ℚ) ≤ b.borrows + x ∨ t = 0) :
    Bal (upd D w ⟨p, b.index⟩) { b with borrows := t } u (v + (1 + B / DIV)) := by
  have hd := DIV_pos
  have hI : (DIV : ℚ) ≤ b.index := by exact_mod_cast hi
  have hI0 : (0 : ℚ) < b.index := by linarith
  have hB' : ub (D w) / DIV ≤ B / DIV := by gcongr
  have hB0 : 0 ≤ B / DIV := le_trans (div_nonneg (ub_nonneg _) hd.le) hB'
  have hn : ub ⟨p, b.index⟩ = o * DIV / b.index + x * DIV / b.index := by
    unfold ub; dsimp only; rw [hp]; ring
  have ht : tot b + x * DIV / b.index ≤ tot { b with borrows := t } := by
    unfold tot
    dsimp only
    have : (b.borrows : ℚ) * DIV / b.index + x * DIV / b.index = (b.borrows + x) * DIV / b.index := by ring
    rw [this]
    gcongr
  have hsum : ∀ F : Finset Nat, w ∈ F → ∑ y ∈ F, ub (upd D w ⟨p, b.index⟩ y) =
      ∑ y ∈ F, ub (D y) - ub (D w) + ub ⟨p, b.index⟩ := by
    intro F hw
    rw [← Finset.add_sum_erase F _ hw, ← Finset.add_sum_erase F (fun y => ub (D y)) hw, upd_same]
    have : ∑ y ∈ F.erase w, ub (upd D w ⟨p, b.index⟩ y) = ∑ y ∈ F.erase w, ub (D y) := by
      apply Finset.sum_congr rfl
      intro y hy
      rw [upd_of_ne _ _ (Finset.ne_of_mem_erase hy)]
    rw [this]
    ring
  refine ⟨fun F => ?_, ?_⟩
  · have k1 : ∑ y ∈ F, ub (upd D w ⟨p, b.index⟩ y) ≤ ∑ y ∈ insert w F, ub (upd D w ⟨p, b.index⟩ y) :=
      Finset.sum_le_sum_of_subset_of_nonneg (Finset.subset_insert _ _) (fun _ _ _ => ub_nonneg _)
    rw [hsum _ (Finset.mem_insert_self _ _), hn] at k1
    have := h.le (insert w F)
    linarith
  · obtain ⟨F, f1, f2⟩ := h.ge
    have f3 : ∑ y ∈ F, ub (D y) ≤ ∑ y ∈ insert w F, ub (D y) :=
      Finset.sum_le_sum_of_subset_of_nonneg (Finset.subset_insert _ _) (fun _ _ _ => ub_nonneg _)
    refine ⟨insert w F, ?_, ?_⟩
    · intro y hy
      rw [Finset.mem_insert, not_or] at hy
      rw [upd_of_ne _ _ hy.1]
      exact f1 y hy.2
    · rcases ht2 with ht2 | rfl
      · have k : tot { b with borrows := t } ≤ tot b + x * DIV / b.index := by
          unfold tot
          dsimp only
          have : (b.borrows : ℚ) * DIV / b.index + x * DIV / b.index = (b.borrows + x) * DIV / b.index := by ring
          rw [this]
          gcongr
        rw [hsum _ (Finset.mem_insert_self _ _), hn]
        linarith
      · have k : tot { b with borrows := 0 } = 0 := by simp [tot]
        rw [k]
        have : 0 ≤ ∑ y ∈ insert w F, ub (upd D w ⟨p, b.index⟩ y) := Finset.sum_nonneg (fun _ _ => ub_nonneg _)
        linarith

/-! ### One call, seen from one market -/

/-- What an accrual at time `t` does to a book. -/
inductive Adv (b : Book) (t : Nat) (b' : Book) : Prop
  | still (h1 : b'.borrows = b.borrows) (h2 : b'.index = b.index) (h3 : b.lastTime = 0 ∨ t ≤ b.lastTime)
      (h4 : b'.lastTime = t ∨ b'.lastTime = b.lastTime)
  | moved (rate : Nat) (h0 : b.lastTime ≠ 0) (h3 : b.lastTime < t) (h4 : b'.lastTime = t)
      (h1 : b'.borrows = b.borrows + grow rate b.borrows (t - b.lastTime))
      (h2 : b'.index = b.index + grow rate b.index (t - b.lastTime))

theorem accrue_adv {a : Nat} (h : accrue c s a = .ok s') (ht : s.time ≤ maxU64) :
    Adv (s.books a) s.time (s'.books a) := by
  unfold accrue at h
  split_ifs at h with h0 h1
  · cases h
    exact .still (by simp [setBook]) (by simp [setBook]) (.inl h0) (.inl (by simp [setBook]))
  · cases h
    exact .still rfl rfl (.inr h1) (.inr rfl)
  · simp only [bind_ok_iff, pure_ok_iff, marketStatus, okOr_ok_iff, market_ok] at h
    obtain ⟨b, ⟨m, hm, u, hu, br, hbr, x, hx, r, hr, rfl⟩, rfl⟩ := h
    obtain ⟨g1, g2⟩ := advance_grow hx (by omega) ht
    refine .moved br h0 (by omega) (by simp [setBook]) ?_ ?_
    · simpa [setBook] using g1
    · simpa [setBook] using g2

/-- The parts of a book that matter here. -/
structure Alike (b b' : Book) : Prop where
  borrows : b'.borrows = b.borrows
  index : b'.index = b.index
  last : b'.lastTime = b.lastTime

theorem Alike.refl (b : Book) : Alike b b := ⟨rfl, rfl, rfl⟩

/-- What a call does to market `a`. -/
inductive Kind (s s' : State) (a : Nat) : Prop
  | still (hd : s'.debts a = s.debts a) (hb : Alike (s.books a) (s'.books a))
  | start (h0 : s.markets a = none) (hd : s'.debts a = s.debts a) (hb : (s'.books a).borrows = (s.books a).borrows)
      (hl : (s'.books a).lastTime = (s.books a).lastTime)
  | adv (b : Book) (hm : s.markets a ≠ none) (h : Adv (s.books a) s.time b) (hd : s'.debts a = s.debts a)
      (hb : Alike b (s'.books a))
  | op (b : Book) (w p t : Nat) (x : ℚ) (hm : s.markets a ≠ none) (h : Adv (s.books a) s.time b)
      (hd : s'.debts a = upd (s.debts a) w ⟨p, b.index⟩) (hb : Alike { b with borrows := t } (s'.books a))
      (hp : (p : ℚ) = owed (setBook s a b) a w + x) (ht1 : (b.borrows : ℚ) + x ≤ t)
      (ht2 : (t : ℚ) ≤ b.borrows + x ∨ t = 0)

/-- Other markets, other fields. -/
theorem Kind.of_eq {a : Nat} (hd : s'.debts = s.debts) (hb : s'.books a = s.books a) : Kind s s' a :=
  .still (by rw [hd]) (by rw [hb]; exact .refl _)

theorem setBook_adv {a : Nat} {b : Book} (h : accrue c s a = .ok (setBook s a b)) (ht : s.time ≤ maxU64) :
    Adv (s.books a) s.time b := by
  have := accrue_adv h ht
  simpa [setBook] using this

theorem redeemed_kind {w a v x : Nat} (h : Redeemed c s s' w a v) (ht : s.time ≤ maxU64) : Kind s s' x := by
  obtain ⟨mk, b, e, y, r, l, hm, _, h1, _, _, _, _, _, _, _, hs⟩ := h.view
  rw [hs]
  by_cases e : x = a
  · subst e
    refine .adv b (by simp [hm]) (setBook_adv h1 ht) rfl ?_
    dsimp only; rw [upd_same]; exact ⟨rfl, rfl, rfl⟩
  · exact .of_eq rfl (upd_of_ne _ _ e)

theorem repaid_kind {w a x d m : Nat} {b : Book} {l : Ledger} {y : Rewards} (hm : s.markets a ≠ none)
    (h1 : accrue c s a = .ok (setBook s a b)) (hd : debt (setBook s a b) a w = .ok d) (hle : m ≤ d)
    (ht : s.time ≤ maxU64)
    (hs : s' = { s with
        ledger := l,
        debts := upd2 s.debts a w ⟨d - m, b.index⟩,
        books := upd s.books a { b with borrows := b.borrows - m },
        rw := y }) : Kind s s' x := by
  rw [hs]
  by_cases e : x = a
  · subst e
    refine .op b w (d - m) (b.borrows - m) (-(m : ℚ)) hm (setBook_adv h1 ht) (by simp [upd2]) ?_ ?_ ?_ ?_
    · dsimp only; rw [upd_same]; exact ⟨rfl, rfl, rfl⟩
    · rw [← debt_owed hd, Nat.cast_sub hle]; ring
    · rcases Nat.le_total m b.borrows with h | h
      · rw [Nat.cast_sub h]; linarith
      · have : (b.borrows : ℚ) ≤ m := by exact_mod_cast h
        have h0 : (0 : ℚ) ≤ ((b.borrows - m : Nat) : ℚ) := by positivity
        linarith
    · rcases Nat.le_total m b.borrows with h | h
      · left; rw [Nat.cast_sub h]; linarith
      · right; omega
  · refine .still (by simp [upd2, upd_of_ne _ _ e]) ?_
    dsimp only; rw [upd_of_ne _ _ e]; exact .refl _

theorem liquidate_kind {liq br a m k x : Nat} (he : liquidate c s liq br a m k = .ok s')
    (ht : s.time ≤ maxU64) : Kind s s' x := by
  obtain ⟨s1, s2, _, _, h1, h2, h3⟩ := liquidate_view he
  obtain ⟨mk, mk', _, _, hm, hk, _, _, _, _, _, _, _, _, _, h4⟩ := doLiquidate_view h3
  obtain ⟨y, d, r, l, hd, hmd, hmb, _, _, _, _, _, hs⟩ := liquidatedTransfer_view h4
  obtain ⟨b, e1, _⟩ := accrue_ok h1
  obtain ⟨b', e2, _⟩ := accrue_ok h2
  have A := accrue_adv h1 ht
  have A' := accrue_adv h2 (by rw [e1]; exact ht)
  have hb : s1.books a = b := by rw [e1]; simp [setBook]
  have hb' : s2.books k = b' := by rw [e2]; simp [setBook]
  have ha : s2.books a = b := by
    by_cases e : a = k
    · subst e
      have := accrue_idem h1
      rw [this] at h2
      cases h2
      exact hb
    · rw [e2]; simp only [setBook]; rw [upd_of_ne _ _ e]; exact hb
  have hdb : s2.debts = s.debts := by rw [e2, e1]; rfl
  have hmar : s2.markets = s.markets := by rw [e2, e1]; rfl
  have htm : s1.time = s.time := by rw [e1]; rfl
  rw [hs]
  by_cases e : x = a
  · subst e
    have ow : owed s2 x br = owed (setBook s x b) x br := by
      simp only [owed, hdb, ha, setBook, upd_same]
    rw [hb] at A
    refine .op b br (d - m) (b.borrows - m) (-(m : ℚ)) (by rw [← hmar, hm]; simp) A ?_ ?_ ?_ ?_ ?_
    · simp [upd2, hdb, ha]
    · dsimp only; rw [upd_same, ha]; exact ⟨rfl, rfl, rfl⟩
    · rw [← ow, ← debt_owed hd, Nat.cast_sub hmd]; ring
    · rw [ha] at hmb; rw [Nat.cast_sub hmb]; linarith
    · rw [ha] at hmb; left; rw [Nat.cast_sub hmb]; linarith
  · have hd' : (upd2 s2.debts a br ⟨d - m, (s2.books a).index⟩) x = s.debts x := by
      simp [upd2, upd_of_ne _ _ e, hdb]
    by_cases e' : x = k
    · subst e'
      have hx : s1.books x = s.books x := by rw [e1]; simp only [setBook]; rw [upd_of_ne _ _ e]
      rw [hx, htm, hb'] at A'
      refine .adv b' (by rw [← hmar, hk]; simp) A' hd' ?_
      dsimp only; rw [upd_of_ne _ _ e, hb']; exact .refl _
    · refine .still hd' ?_
      dsimp only; rw [upd_of_ne _ _ e, e2, e1]; simp only [setBook]
      rw [upd_of_ne _ _ e', upd_of_ne _ _ e]; exact .refl _

theorem exec_kind {k : Call} {x : Nat} (he : exec c s k = .ok s') (ht : s.time ≤ maxU64) :
    Kind s s' x := by
  cases k with
  | addMarket a m =>
    obtain ⟨h0, _, _, _, _, _, _, _, _, _, rfl⟩ := addMarket_view he
    by_cases e : x = a
    · subst e
      exact .start h0 rfl (by simp) (by simp)
    · exact .of_eq rfl (upd_of_ne _ _ e)
  | activate a => obtain ⟨m, hm, rfl⟩ := mutateMarket_view he; exact .of_eq rfl rfl
  | updateModel a rm =>
    simp only [exec, updateModel, bind_ok_iff, ensure_ok_iff, exists_const] at he
    obtain ⟨_, he⟩ := he
    obtain ⟨m, hm, rfl⟩ := mutateMarket_view he
    exact .of_eq rfl rfl
  | updateMarket a p => obtain ⟨m, hm, _, _, _, _, _, rfl⟩ := updateMarket_view he; exact .of_eq rfl rfl
  | forceUpdate a m => obtain ⟨m0, hm, _, h2, rfl⟩ := forceUpdate_view he; exact .of_eq rfl rfl
  | addReward w m => obtain ⟨l, hl, rfl⟩ := addReward_view he; exact .of_eq rfl rfl
  | withdrawReward w m => obtain ⟨l, hl, rfl⟩ := withdrawReward_view he; exact .of_eq rfl rfl
  | updateSpeed a u v => obtain ⟨z, rfl⟩ := updateSpeed_rw he; exact .of_eq rfl rfl
  | claim w => obtain ⟨m, l, y, hl, rfl⟩ := claim_view he; exact .of_eq rfl rfl
  | claimFor w a => obtain ⟨m, l, y, hl, rfl⟩ := claimFor_view he; exact .of_eq rfl rfl
  | mint w a m =>
    obtain ⟨mk, b, _, _, _, _, _, hm, _, _, h1, _, _, _, _, _, rfl⟩ := mint_view he
    by_cases e : x = a
    · subst e
      refine .adv b (by simp [hm]) (setBook_adv h1 ht) rfl ?_
      dsimp only; rw [upd_same]; exact ⟨rfl, rfl, rfl⟩
    · exact .of_eq rfl (upd_of_ne _ _ e)
  | redeem w a m => obtain ⟨_, _, _, _, h⟩ := redeem_redeemed he; exact redeemed_kind h ht
  | redeemAll w a => exact redeemed_kind (redeemAll_redeemed he) ht
  | borrow w a m =>
    obtain ⟨mk, b, y, d, l, hm, _, h1, _, _, hd, _, _, _, rfl⟩ := borrow_view he
    by_cases e : x = a
    · subst e
      refine .op b w (d + m) (b.borrows + m) m (by simp [hm]) (setBook_adv h1 ht) (by simp [upd2]) ?_ ?_ ?_ ?_
      · dsimp only; rw [upd_same]; exact ⟨rfl, rfl, rfl⟩
      · rw [← debt_owed hd]; push_cast; ring
      · push_cast; linarith
      · left; push_cast; linarith
    · refine .still (by simp [upd2, upd_of_ne _ _ e]) ?_
      dsimp only; rw [upd_of_ne _ _ e]; exact .refl _
  | repay w a m =>
    obtain ⟨mk, b, y, d, l, hm, _, h1, _, hd, hle, _, hs⟩ := repay_view he
    exact repaid_kind (by simp [hm]) h1 hd hle ht hs
  | repayAll w a =>
    obtain ⟨mk, b, y, d, l, hm, _, h1, _, hd, _, hs⟩ := repayAll_view he
    refine repaid_kind (m := d) (l := l) (y := y) (by simp [hm]) h1 hd (Nat.le_refl _) ht ?_
    rw [Nat.sub_self]; exact hs
  | collateral w a on => obtain ⟨_, _, _, rfl⟩ := collateral_view he; exact .of_eq rfl rfl
  | liquidate liq br a m k => exact liquidate_kind he ht
  | addReserves w a m =>
    obtain ⟨_, _, _, _, _, _, rfl⟩ := addReserves_view he
    by_cases e : x = a
    · subst e
      refine .still rfl ?_
      dsimp only; rw [upd_same]; exact ⟨rfl, rfl, rfl⟩
    · exact .of_eq rfl (upd_of_ne _ _ e)
  | reduceReserves w a m =>
    obtain ⟨_, _, _, _, _, _, rfl⟩ := reduceReserves_view he
    by_cases e : x = a
    · subst e
      refine .still rfl ?_
      dsimp only; rw [upd_same]; exact ⟨rfl, rfl, rfl⟩
    · exact .of_eq rfl (upd_of_ne _ _ e)
  | reduceIncentive w a m =>
    obtain ⟨_, _, _, _, _, _, _, _, _, _, _, _, _, _, rfl⟩ := reduceIncentive_view he
    by_cases e : x = a
    · subst e
      refine .still rfl ?_
      dsimp only; rw [upd_same]; exact ⟨rfl, rfl, rfl⟩
    · exact .of_eq rfl (upd_of_ne _ _ e)
  | updateLfc as => cases he; exact .of_eq rfl rfl
  | transferP p src dst m => obtain ⟨_, _, _, _, _, rfl⟩ := transferP_view he; exact .of_eq rfl rfl

/-! ### Whole histories -/

/-- Rounding that the next accrual may cause. -/
def pend (b : Book) (t : Nat) : ℚ :=
  if b.lastTime = 0 ∨ t ≤ b.lastTime then 0 else 1 + ((t - b.lastTime : Nat) : ℚ) / secondsPerYear

theorem pend_nonneg (b : Book) (t : Nat) : 0 ≤ pend b t := by
  unfold pend
  have := year_pos
  split_ifs <;> positivity

/-- The balance after `m` calls, with `E` units of rounding of interest allowed. -/
def Held (s : State) (a M : Nat) (E : ℚ) (m : Nat) : Prop :=
  ∃ u : ℚ, 0 ≤ u ∧ u + pend (s.books a) s.time ≤ E ∧
    Bal (s.debts a) (s.books a) u (M / DIV * u + m * (1 + (M + E) / DIV))

theorem Bal.alike {D : Nat → Snapshot} {b b' : Book} {u v : ℚ} (h : Bal D b u v) (e : Alike b b') : Bal D b' u v := by
  have : tot b' = tot b := by unfold tot; rw [e.borrows, e.index]
  refine ⟨fun F => by rw [this]; exact h.le F, ?_⟩
  rw [this]; exact h.ge

theorem pend_alike {b b' : Book} {t : Nat} (e : Alike b b') : pend b' t = pend b t := by
  unfold pend; rw [e.last]

theorem Bal.adv {D : Nat → Snapshot} {b b' : Book} {u v : ℚ} {t M : Nat} (h : Bal D b u v)
    (hi : DIV ≤ b.index) (hM : b.borrows ≤ M) (e : Adv b t b') :
    ∃ x : ℚ, 0 ≤ x ∧ x + pend b' t ≤ pend b t ∧ Bal D b' (u + x) (v + M / DIV * x) := by
  cases e with
  | still h1 h2 h3 h4 =>
    refine ⟨0, le_refl _, ?_, ?_⟩
    · have e1 : pend b t = 0 := by unfold pend; rw [if_pos h3]
      have e2 : pend b' t = 0 := by
        unfold pend
        rcases h4 with h4 | h4
        · rw [if_pos (.inr (by omega))]
        · rw [if_pos (by rw [h4]; exact h3)]
      rw [e1, e2]; simp
    · have : tot b' = tot b := by unfold tot; rw [h1, h2]
      rw [mul_zero, add_zero, add_zero]
      refine ⟨fun F => by rw [this]; exact h.le F, ?_⟩
      rw [this]; exact h.ge
  | moved rate h0 h3 h4 h1 h2 =>
    refine ⟨1 + ((t - b.lastTime : Nat) : ℚ) / secondsPerYear, ?_, ?_, ?_⟩
    · have := year_pos; positivity
    · have e1 : pend b t = 1 + ((t - b.lastTime : Nat) : ℚ) / secondsPerYear := by
        unfold pend; rw [if_neg (by omega)]
      have e2 : pend b' t = 0 := by unfold pend; rw [if_pos (.inr (by omega))]
      rw [e1, e2]; simp
    · exact h.grow hi (by exact_mod_cast hM) h1 h2

theorem Held.mono {a M m m' : Nat} {E E' : ℚ} (h : Held s a M E m) (hE : E ≤ E') (hm : m ≤ m') : Held s a M E' m' := by
  obtain ⟨u, h0, h1, h2⟩ := h
  have hd := DIV_pos
  have hE0 : 0 ≤ E := by have := pend_nonneg (s.books a) s.time; linarith
  have hm' : (m : ℚ) ≤ m' := by exact_mod_cast hm
  refine ⟨u, h0, h1.trans hE, h2.mono (le_refl _) ?_⟩
  have hM : (0 : ℚ) ≤ M := by positivity
  have : (M + E) / DIV ≤ (M + E') / DIV := by gcongr
  have h3 : (0 : ℚ) ≤ 1 + (M + E) / DIV := by positivity
  gcongr

theorem Held.exec {k : Call} {a M m : Nat} {E : ℚ} (hI : Inv c s) (h : Held s a M E m)
    (hM : (s.books a).borrows ≤ M) (ht : s.time ≤ maxU64) (ht' : s'.time = s.time)
    (hk : Kind s s' a) : Held s' a M E (m + 1) := by
  have hd := DIV_pos
  cases hk with
  | still hd hb =>
    refine Held.mono (m := m) ?_ (le_refl _) (Nat.le_succ _)
    obtain ⟨u, h0, h1, h2⟩ := h
    refine ⟨u, h0, ?_, ?_⟩
    · rw [ht', pend_alike hb]; exact h1
    · rw [hd]; exact h2.alike hb
  | start h0 hd hb hl =>
    refine Held.mono (m := m) ?_ (le_refl _) (Nat.le_succ _)
    obtain ⟨u, h0', h1, h2⟩ := h
    have b0 := hI.books0 a h0
    have e1 : (s'.books a).borrows = 0 := by rw [hb, b0]; rfl
    have e2 : (s'.books a).lastTime = 0 := by rw [hl, b0]; rfl
    have e3 : tot (s'.books a) = tot (s.books a) := by
      unfold tot; rw [e1, b0]; simp [Book.zero]
    have e4 : pend (s'.books a) s'.time = 0 := by unfold pend; rw [if_pos (.inl e2)]
    refine ⟨u, h0', ?_, ?_⟩
    · rw [e4]; have := pend_nonneg (s.books a) s.time; linarith
    · rw [hd]
      refine ⟨fun F => by rw [e3]; exact h2.le F, ?_⟩
      rw [e3]; exact h2.ge
  | adv b hm hA hd hb =>
    refine Held.mono (m := m) ?_ (le_refl _) (Nat.le_succ _)
    obtain ⟨u, h0, h1, h2⟩ := h
    obtain ⟨x, x0, x1, x2⟩ := h2.adv (hI.idx a hm) hM hA
    refine ⟨u + x, by linarith, ?_, ?_⟩
    · rw [ht', pend_alike hb]; linarith
    · rw [hd]
      refine (x2.alike hb).mono (le_refl _) (le_of_eq ?_)
      ring
  | op b w p t x hm hA hd' hb hp ht1 ht2 =>
    obtain ⟨u, h0, h1, h2⟩ := h
    obtain ⟨y, y0, y1, y2⟩ := h2.adv (hI.idx a hm) hM hA
    have hix : (s.books a).index ≤ b.index := by
      cases hA with
      | still _ h2 _ _ => omega
      | moved _ _ _ _ _ h2 => omega
    have hidx : DIV ≤ b.index := (hI.idx a hm).trans hix
    have hI0 : (DIV : ℚ) ≤ (s.books a).index := by exact_mod_cast hI.idx a hm
    have hM' : ((s.books a).borrows : ℚ) ≤ M := by exact_mod_cast hM
    have hE0 := pend_nonneg (s.books a) s.time
    have hpend := pend_nonneg b s.time
    have hB : ub (s.debts a w) ≤ M + E := by
      have k1 := h2.one w
      have k2 : tot (s.books a) ≤ M := by
        unfold tot
        rw [div_le_iff₀ (by linarith)]
        apply mul_le_mul hM' hI0 hd.le (by positivity)
      linarith
    have o := owed_ub (s := setBook s a b) (a := a) (w := w) (by simpa [setBook] using hidx)
      (by simpa [setBook] using (hI.didx a w).trans hix)
    have o1 : (owed (setBook s a b) a w : ℚ) * DIV / b.index ≤ ub (s.debts a w) := by
      simpa [setBook] using o.1
    have o2 : ub (s.debts a w) ≤ owed (setBook s a b) a w * DIV / b.index + (1 + ub (s.debts a w) / DIV) := by
      simpa [setBook] using o.2
    have hv : (0 : ℚ) ≤ M / DIV * u + m * (1 + (M + E) / DIV) + M / DIV * y := by
      have : 0 ≤ E := by linarith
      positivity
    have z := y2.op (by linarith) hv hidx o1 o2 hB hp ht1 ht2
    refine ⟨u + y, by linarith, ?_, ?_⟩
    · rw [ht', pend_alike hb]
      have : pend { b with borrows := t } s.time = pend b s.time := rfl
      rw [this]; linarith
    · rw [hd']
      refine (z.alike hb).mono (le_refl _) (le_of_eq ?_)
      push_cast; ring

/-- Calls do not move the clock. -/
theorem exec_time {k : Call} (he : exec c s k = .ok s') : s'.time = s.time := by
  cases k with
  | addMarket a m => obtain ⟨h0, _, _, _, _, _, _, _, _, _, rfl⟩ := addMarket_view he; rfl
  | activate a => obtain ⟨m, hm, rfl⟩ := mutateMarket_view he; rfl
  | updateModel a rm =>
    simp only [exec, updateModel, bind_ok_iff, ensure_ok_iff, exists_const] at he
    obtain ⟨_, he⟩ := he
    obtain ⟨m, hm, rfl⟩ := mutateMarket_view he
    rfl
  | updateMarket a p => obtain ⟨m, hm, _, _, _, _, _, rfl⟩ := updateMarket_view he; rfl
  | forceUpdate a m => obtain ⟨m0, hm, _, h2, rfl⟩ := forceUpdate_view he; rfl
  | addReward w m => obtain ⟨l, hl, rfl⟩ := addReward_view he; rfl
  | withdrawReward w m => obtain ⟨l, hl, rfl⟩ := withdrawReward_view he; rfl
  | updateSpeed a u v => obtain ⟨z, rfl⟩ := updateSpeed_rw he; rfl
  | claim w => obtain ⟨m, l, y, hl, rfl⟩ := claim_view he; rfl
  | claimFor w a => obtain ⟨m, l, y, hl, rfl⟩ := claimFor_view he; rfl
  | mint w a m => obtain ⟨mk, b, _, _, _, _, _, hm, _, _, h1, _, _, _, _, _, rfl⟩ := mint_view he; rfl
  | redeem w a m =>
    obtain ⟨_, _, _, _, h⟩ := redeem_redeemed he
    obtain ⟨mk, b, e, y, r, l, hm, _, h1, _, _, _, _, _, _, _, hs⟩ := h.view
    rw [hs]
  | redeemAll w a =>
    obtain ⟨mk, b, e, y, r, l, hm, _, h1, _, _, _, _, _, _, _, hs⟩ := (redeemAll_redeemed he).view
    rw [hs]
  | borrow w a m => obtain ⟨mk, b, y, d, l, hm, _, h1, _, _, hd, _, _, _, rfl⟩ := borrow_view he; rfl
  | repay w a m => obtain ⟨mk, b, y, d, l, hm, _, h1, _, hd, hle, _, rfl⟩ := repay_view he; rfl
  | repayAll w a => obtain ⟨mk, b, y, d, l, hm, _, h1, _, hd, _, rfl⟩ := repayAll_view he; rfl
  | collateral w a on => obtain ⟨_, _, _, rfl⟩ := collateral_view he; rfl
  | liquidate liq br a m k =>
    obtain ⟨s1, s2, _, _, h1, h2, h3⟩ := liquidate_view he
    obtain ⟨_, _, _, _, _, _, _, _, _, _, _, _, _, _, _, h4⟩ := doLiquidate_view h3
    obtain ⟨_, _, _, _, _, _, _, _, _, _, _, _, rfl⟩ := liquidatedTransfer_view h4
    obtain ⟨_, hs2, _⟩ := accrue2_ok h1 h2
    subst hs2
    rfl
  | addReserves w a m => obtain ⟨_, _, _, _, _, _, rfl⟩ := addReserves_view he; rfl
  | reduceReserves w a m => obtain ⟨_, _, _, _, _, _, rfl⟩ := reduceReserves_view he; rfl
  | reduceIncentive w a m =>
    obtain ⟨_, _, _, _, _, _, _, _, _, _, _, _, _, _, rfl⟩ := reduceIncentive_view he; rfl
  | updateLfc as => cases he; rfl
  | transferP p src dst m => obtain ⟨_, _, _, _, _, rfl⟩ := transferP_view he; rfl

theorem Counted.reach {a M n d m : Nat} (h : Counted c a M n d m s) : Reach c s := by
  induction h with
  | init l p t b hw => exact .init l p t b hw
  | call h k hw hk he hM ih => exact .step ih (.call k hw hk trivial he)
  | rest h he ht ih => exact .step ih (.env he)
  | tick h he ih => exact .step ih (.env he)

theorem Counted.bound {a M n d m : Nat} (h : Counted c a M n d m s) : (s.books a).borrows ≤ M := by
  induction h with
  | init l p t b hw => exact Nat.zero_le _
  | call h k hw hk he hM ih => exact hM
  | rest h he ht ih => rw [he.same]; exact ih
  | tick h he ih => rw [he.same]; exact ih

theorem Counted.up {a M M' n d m : Nat} (h : Counted c a M n d m s) (hM : M ≤ M') : Counted c a M' n d m s := by
  induction h with
  | init l p t b hw => exact .init l p t b hw
  | call h k hw hk he h' ih => exact .call ih k hw hk he (h'.trans hM)
  | rest h he ht ih => exact .rest ih he ht
  | tick h he ih => exact .tick ih he

/-- Every history can be counted. -/
theorem C235_every_history_is_counted (h : Reach c s) (a : Nat) : ∃ M n d m, Counted c a M n d m s := by
  induction h with
  | init l p t b hw => exact ⟨0, 0, 0, 0, .init l p t b hw⟩
  | @step s s' h hs ih =>
    obtain ⟨M, n, d, m, ih⟩ := ih
    cases hs with
    | call k hw hk _ he =>
      exact ⟨max M (s'.books a).borrows, n, d, m + 1, .call (ih.up (le_max_left _ _)) k hw hk he (le_max_right _ _)⟩
    | env he => exact ⟨M, _, _, m, .tick ih he⟩

theorem slack_tick {n d : Nat} {b : Book} {t t' : Nat} (h : t ≤ t') :
    pend b t' - pend b t ≤ slack (n + 1) (d + (t' - t)) - slack n d := by
  have hy := year_pos
  have e : slack (n + 1) (d + (t' - t)) - slack n d = 1 + ((t' - t : Nat) : ℚ) / secondsPerYear := by
    unfold slack; push_cast [Nat.cast_sub h]; field_simp; ring
  rw [e]
  have h0 : (0 : ℚ) ≤ ((t' - t : Nat) : ℚ) / secondsPerYear := by positivity
  unfold pend
  by_cases h1 : b.lastTime = 0 ∨ t' ≤ b.lastTime
  · rw [if_pos h1, if_pos (by omega)]; linarith
  · rw [if_neg h1]
    by_cases h2 : b.lastTime = 0 ∨ t ≤ b.lastTime
    · rw [if_pos h2]
      have : ((t' - b.lastTime : Nat) : ℚ) ≤ ((t' - t : Nat) : ℚ) := by
        exact_mod_cast (by omega : t' - b.lastTime ≤ t' - t)
      have : ((t' - b.lastTime : Nat) : ℚ) / secondsPerYear ≤ ((t' - t : Nat) : ℚ) / secondsPerYear := by gcongr
      linarith
    · rw [if_neg h2]
      have : ((t' - b.lastTime : Nat) : ℚ) = ((t - b.lastTime : Nat) : ℚ) + ((t' - t : Nat) : ℚ) := by
        exact_mod_cast (by omega : t' - b.lastTime = (t - b.lastTime) + (t' - t))
      rw [this, add_div]
      linarith

theorem slack_mono (n d x : Nat) : slack n d ≤ slack (n + 1) (d + x) := by
  have hy := year_pos
  unfold slack
  push_cast
  have : (d : ℚ) / secondsPerYear ≤ (d + x) / secondsPerYear := by gcongr; simp
  linarith

theorem held_counted (hc : c.Ok) {a M n d m : Nat} (h : Counted c a M n d m s) (ht : s.time ≤ maxU64) :
    Held s a M (slack n d) m := by
  induction h with
  | init l p t b hw =>
    refine ⟨0, le_refl _, ?_, ?_⟩
    · simp [pend, State.fresh, Book.zero, slack]
    · have e : tot ((State.fresh l p t b).books a) = 0 := by simp [tot, State.fresh, Book.zero]
      have e2 : ∀ w, ub ((State.fresh l p t b).debts a w) = 0 := by intro w; simp [ub, State.fresh]
      refine ⟨fun F => ?_, ∅, fun w _ => rfl, ?_⟩
      · rw [e, Finset.sum_congr rfl (fun w _ => e2 w)]; simp
      · rw [e]; simp
  | @call n d m s s' h k hw hk he hM ih =>
    have e := exec_time he
    rw [e] at ht
    exact (ih ht).exec (k := k) (inv_reach hc h.reach) h.bound ht e (exec_kind he ht)
  | rest h he e ih =>
    rw [e] at ht
    obtain ⟨u, h0, h1, h2⟩ := ih ht
    refine ⟨u, h0, ?_, ?_⟩
    · rw [e, he.same]; exact h1
    · rw [he.same]; exact h2
  | @tick n d m s s' h he ih =>
    have hle := he.time
    obtain ⟨u, h0, h1, h2⟩ := (ih (hle.trans ht)).mono (E' := slack n d) (le_refl _) (Nat.le_refl _)
    have hb : s'.books a = s.books a := by rw [he.same]
    have hd : s'.debts a = s.debts a := by rw [he.same]
    have hp := slack_tick (n := n) (d := d) (b := s.books a) hle
    have hE : slack n d ≤ slack (n + 1) (d + (s'.time - s.time)) := slack_mono _ _ _
    refine ⟨u, h0, ?_, ?_⟩
    · rw [hb]; linarith
    · rw [hb, hd]
      refine h2.mono (le_refl _) ?_
      have hv := DIV_pos
      have : ((M : ℚ) + slack n d) / DIV ≤ (M + slack (n + 1) (d + (s'.time - s.time))) / DIV := by gcongr
      have : (m : ℚ) * (1 + (M + slack n d) / DIV) ≤
          m * (1 + (M + slack (n + 1) (d + (s'.time - s.time))) / DIV) := by gcongr
      linarith

/-! ## C235 -/

/-- The exact statement: whoever borrows in a market, all of them together never owe more than the total the market
records as lent. -/
def C235_statement : Prop := ∀ (c : Cfg), c.Ok → ∀ s, Reach c s → s.time ≤ maxU64 → ∀ (a : Nat) (F : Finset Nat),
  ∑ w ∈ F, owed s a w ≤ (s.books a).borrows

/-- **C235** What any group of borrowers owes exceeds the total the market records as lent by at most one unit for every
moment the clock moved and every year, times the growth of the market's index. -/
theorem C235_debts_le_total_partial (hc : c.Ok) {a M n d m : Nat} (h : Counted c a M n d m s)
    (ht : s.time ≤ maxU64) (F : Finset Nat) :
    ((∑ w ∈ F, owed s a w : Nat) : ℚ) ≤ (s.books a).borrows + slack n d * ((s.books a).index / DIV) := by
  have hI := inv_reach hc h.reach
  obtain ⟨u, h0, h1, h2⟩ := held_counted hc h ht
  have hd := DIV_pos
  have hp := pend_nonneg (s.books a) s.time
  by_cases hm : s.markets a = none
  · have : ∀ w, owed s a w = 0 := by intro w; unfold owed; rw [hI.debts0 a w hm]; simp
    simp only [this, Finset.sum_const_zero, Nat.cast_zero]
    have : 0 ≤ slack n d := by linarith
    positivity
  · have hi := hI.idx a hm
    have hi' : (DIV : ℚ) ≤ (s.books a).index := by exact_mod_cast hi
    have hpos : (0 : ℚ) < (s.books a).index := by linarith
    have k1 : ∀ w ∈ F, (owed s a w : ℚ) ≤ ub (s.debts a w) * ((s.books a).index / DIV) := by
      intro w _
      have := (owed_ub hi (hI.didx a w)).1
      rw [div_le_iff₀ hpos] at this
      rw [mul_div_assoc', le_div_iff₀ hd]
      exact this
    push_cast
    calc ∑ w ∈ F, (owed s a w : ℚ) ≤ ∑ w ∈ F, ub (s.debts a w) * ((s.books a).index / DIV) := Finset.sum_le_sum k1
      _ = (∑ w ∈ F, ub (s.debts a w)) * ((s.books a).index / DIV) := by rw [Finset.sum_mul]
      _ ≤ (tot (s.books a) + u) * ((s.books a).index / DIV) := by gcongr; exact h2.le F
      _ ≤ (tot (s.books a) + slack n d) * ((s.books a).index / DIV) := by gcongr; linarith
      _ = _ := by unfold tot; field_simp

/-- **C235** The total exceeds what the borrowers owe, before rounding, by at most one unit per call and a
`10^18`-th part of the largest total per call, per clock movement and per year, times the growth of the index. -/
theorem C235_total_le_debts_partial (hc : c.Ok) {a M n d m : Nat} (h : Counted c a M n d m s)
    (ht : s.time ≤ maxU64) : ∃ F : Finset Nat, (∀ w, w ∉ F → (s.debts a w).principal = 0) ∧
    ((s.books a).borrows : ℚ) ≤ ∑ w ∈ F, exactDebt s a w +
      (m + (M * slack n d + m * (M + slack n d)) / DIV) * ((s.books a).index / DIV) := by
  have hI := inv_reach hc h.reach
  obtain ⟨u, h0, h1, -, F, h2, h3⟩ := held_counted hc h ht
  have hd := DIV_pos
  have hp := pend_nonneg (s.books a) s.time
  have hs : 0 ≤ slack n d := by linarith
  refine ⟨F, h2, ?_⟩
  by_cases hm : s.markets a = none
  · have e1 : ∀ w, exactDebt s a w = 0 := by intro w; unfold exactDebt; rw [hI.debts0 a w hm]; simp
    rw [Finset.sum_congr rfl (fun w _ => e1 w), hI.books0 a hm]
    simp [Book.zero]
  · have hi := hI.idx a hm
    have hi' : (DIV : ℚ) ≤ (s.books a).index := by exact_mod_cast hi
    have hpos : (0 : ℚ) < (s.books a).index := by linarith
    have e : ∑ w ∈ F, exactDebt s a w = (∑ w ∈ F, ub (s.debts a w)) * ((s.books a).index / DIV) := by
      rw [Finset.sum_mul]
      apply Finset.sum_congr rfl
      intro w _
      unfold exactDebt ub
      rw [div_mul_div_comm, mul_right_comm, mul_div_mul_right _ _ hd.ne', mul_div_assoc]
    have e2 : ((s.books a).borrows : ℚ) = tot (s.books a) * ((s.books a).index / DIV) := by
      unfold tot; field_simp
    rw [e, e2, ← add_mul]
    apply mul_le_mul_of_nonneg_right _ (by positivity)
    have k : (M : ℚ) / DIV * u ≤ M / DIV * slack n d := by gcongr; linarith
    have e3 : (m + ((M : ℚ) * slack n d + m * (M + slack n d)) / DIV) =
        M / DIV * slack n d + m * (1 + (M + slack n d) / DIV) := by ring
    rw [e3]
    linarith

/-- What is asked from a borrower differs from the exact debt by less than one unit and a `10^18`-th of the amount
borrowed, in the borrower's favour. -/
theorem C235_owed_of_exact (hc : c.Ok) (h : Reach c s) (a w : Nat) :
    (owed s a w : ℚ) ≤ exactDebt s a w ∧ exactDebt s a w ≤ owed s a w + 1 + (s.debts a w).principal / DIV := by
  unfold owed exactDebt
  rcases Nat.eq_zero_or_pos (s.debts a w).index with h0 | h0
  · rw [h0]; simp; have := DIV_pos; positivity
  · have hJ0 : (0 : ℚ) < (s.debts a w).index := by exact_mod_cast h0
    have hP : (0 : ℚ) ≤ (s.debts a w).principal := by positivity
    have hV := DIV_pos
    have q1 := floor_le ((s.books a).index * DIV) (s.debts a w).index
    have q2 := lt_floor ((s.books a).index * DIV) h0
    have p1 := floor_le ((s.books a).index * DIV / (s.debts a w).index * (s.debts a w).principal) DIV
    have p2 := lt_floor ((s.books a).index * DIV / (s.debts a w).index * (s.debts a w).principal)
      (by decide : 0 < DIV)
    push_cast at q1 q2 p1 p2
    generalize (((s.books a).index * DIV / (s.debts a w).index : Nat) : ℚ) = q at *
    generalize (((s.books a).index * DIV / (s.debts a w).index * (s.debts a w).principal / DIV : Nat) : ℚ) = o at *
    generalize ((s.books a).index : ℚ) = I at *
    generalize ((s.debts a w).index : ℚ) = J at *
    generalize ((s.debts a w).principal : ℚ) = P at *
    generalize (DIV : ℚ) = V at *
    constructor
    · calc o ≤ q * P / V := p1
        _ ≤ (I * V / J) * P / V := by gcongr
        _ = _ := by field_simp
    · have h1 : (I * V / J - 1) * P / V ≤ q * P / V := by gcongr; linarith
      have h2 : (I * V / J - 1) * P / V = P * (I / J) - P / V := by field_simp
      linarith

/-! ### Cases -/

/-- User 8 pays back the loan, then borrows 400 units of asset 1; a month passes three times, and each time somebody
supplies 100 units. -/
def exDr0 : State := run exC ex0 [.repayAll 8 1, .borrow 8 1 400]
def exDr : State :=
  run exC (pass (run exC (pass (run exC (pass exDr0 exPrices 2628000 10) [.mint 9 1 100]) exPrices 2628000 10)
    [.mint 9 1 100]) exPrices 2628000 10) [.mint 9 1 100]

theorem exMint_ok : ∀ k ∈ [Call.mint 9 1 100], k.wt ∧ exC.acct ∉ k.signers ∧ True := by
  intro k hk
  simp only [List.mem_cons, List.not_mem_nil, or_false] at hk
  subst hk
  simp [Call.wt, Call.signers, exC]

theorem exDr_reach : Reach exC exDr := by
  have h0 : Reach exC exDr0 := run_reach ex0_reach (by
    intro k hk
    simp only [List.mem_cons, List.not_mem_nil, or_false] at hk
    rcases hk with rfl | rfl <;> simp [Call.wt, Call.signers, exC])
  exact run_reach (pass_reach exC_ok (run_reach (pass_reach exC_ok (run_reach (pass_reach exC_ok h0) exMint_ok))
    exMint_ok)) exMint_ok

theorem exDr_owes : owed exDr 1 8 = 402 ∧ (exDr.books 1).borrows = 400 ∧ exDr.time ≤ maxU64 := by decide +kernel

/-- **C235** It is false: the interest of a month on a small total is rounded down to nothing each time, while the
index, and with it the debt, grows. -/
theorem C235_refuted : ¬ C235_statement := by
  intro h
  have h1 := h exC exC_ok exDr exDr_reach exDr_owes.2.2 1 {8}
  rw [Finset.sum_singleton, exDr_owes.1, exDr_owes.2.1] at h1
  omega

/-- The total of market `a` stays within `M` while the calls are executed. -/
def within (c : Cfg) (a M : Nat) : State → List Call → Bool
  | _, [] => true
  | s, k :: ks => decide (((commit s (exec c s k)).books a).borrows ≤ M) && within c a M (commit s (exec c s k)) ks

theorem counted_run {a M n d : Nat} : ∀ {ks : List Call} {m : Nat} {s : State}, Counted c a M n d m s →
    (∀ k ∈ ks, k.wt ∧ c.acct ∉ k.signers ∧ True) → within c a M s ks = true →
    ∃ m', m' ≤ m + ks.length ∧ Counted c a M n d m' (run c s ks)
  | [], m, s, h, _, _ => ⟨m, Nat.le_refl _, h⟩
  | k :: ks, m, s, h, hk, hw => by
    have h1 := hk k (by simp)
    simp only [within, Bool.and_eq_true, decide_eq_true_eq] at hw
    have step : ∃ m', m' ≤ m + 1 ∧ Counted c a M n d m' (commit s (exec c s k)) := by
      rcases commit_cases s (exec c s k) with he | he
      · exact ⟨m + 1, Nat.le_refl _, .call h k h1.1 h1.2.1 he hw.1⟩
      · rw [he.1]; exact ⟨m, Nat.le_succ _, h⟩
    obtain ⟨m', hm', h2⟩ := step
    obtain ⟨m'', hm'', h3⟩ := counted_run h2 (fun k' hk' => hk k' (by simp [hk'])) hw.2
    refine ⟨m'', ?_, h3⟩
    simp only [List.length_cons]
    omega

theorem counted_pass {a M n d m dt db : Nat} {prices : Nat → Option Nat} (hc : c.Ok) (h : Counted c a M n d m s) :
    Counted c a M (n + 1) (d + dt) m (pass s prices dt db) := by
  have e : (pass s prices dt db).time - s.time = dt := by simp [pass]
  have := Counted.tick h (s' := pass s prices dt db)
    ⟨rfl, (inv_reach hc h.reach).wf, fun _ => Nat.le_refl _, Nat.le_add_right _ _, Nat.le_add_right _ _⟩
  rwa [e] at this

/-- The history above: three movements of the clock, a quarter of a year, at most sixteen calls, a total of at most
60000 units. -/
theorem exDr_counted : ∃ m, m ≤ 16 ∧ Counted exC 1 60000 3 7884000 m exDr := by
  obtain ⟨m0, l0, h0⟩ := counted_run (a := 1) (M := 60000) (.init exL exPrices 1000 10 exL_wf) exCalls_ok
    (by decide +kernel)
  obtain ⟨m1, l1, h1⟩ := counted_run (ks := [.repayAll 8 1, .borrow 8 1 400]) (s := ex0) h0 (by
    intro k hk
    simp only [List.mem_cons, List.not_mem_nil, or_false] at hk
    rcases hk with rfl | rfl <;> simp [Call.wt, Call.signers, exC]) (by decide +kernel)
  obtain ⟨m2, l2, h2⟩ := counted_run (counted_pass (prices := exPrices) (dt := 2628000) (db := 10) exC_ok h1)
    exMint_ok (by decide +kernel)
  obtain ⟨m3, l3, h3⟩ := counted_run (counted_pass (prices := exPrices) (dt := 2628000) (db := 10) exC_ok h2)
    exMint_ok (by decide +kernel)
  obtain ⟨m4, l4, h4⟩ := counted_run (counted_pass (prices := exPrices) (dt := 2628000) (db := 10) exC_ok h3)
    exMint_ok (by decide +kernel)
  refine ⟨m4, ?_, h4⟩
  have : exCalls.length = 11 := rfl
  simp only [List.length_cons, List.length_nil] at l1 l2 l3 l4
  omega

/-- The bound says 402 ≤ 400 + 3.27 for it. -/
example : ((402 : Nat) : ℚ) ≤ 400 + 327 / 100 := by
  obtain ⟨m, _, h⟩ := exDr_counted
  have k := C235_debts_le_total_partial exC_ok h exDr_owes.2.2 {8}
  rw [Finset.sum_singleton, exDr_owes.1, exDr_owes.2.1] at k
  have e : (exDr.books 1).index ≤ 1005200000000000000 := by decide +kernel
  have e' : ((exDr.books 1).index : ℚ) / DIV ≤ 10052 / 10000 := by
    rw [div_le_iff₀ DIV_pos]
    have : ((exDr.books 1).index : ℚ) ≤ (1005200000000000000 : Nat) := by exact_mod_cast e
    norm_num [DIV] at this ⊢
    linarith
  have hs : slack 3 7884000 = 13 / 4 := by norm_num [slack, secondsPerYear]
  rw [hs] at k
  push_cast at k ⊢
  linarith

/-- A year on 60000 units: debts and total agree. -/
example : Reach exC ex1 ∧ owed ex1 1 8 = 60000 ∧ okAnd (exec exC ex1 (.mint 9 1 100)) (fun t =>
    decide (owed t 1 8 = (t.books 1).borrows ∧ 60000 < owed t 1 8)) = true :=
  ⟨ex1_reach, by decide +kernel, by decide +kernel⟩

end Verif.Loans
