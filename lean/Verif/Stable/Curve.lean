import Verif.Stable.Lemmas

/-!
# Arithmetic of `helpers.rs`
-/

namespace Verif.Stable
open Verif

theorem hdiv_fit {a b : Nat} (ha : a ≤ maxU128) (hb : b ≤ maxU128) : hdiv a b = a / b := by
  unfold hdiv fit
  rw [if_pos ha, if_pos hb]
  split_ifs with h
  · rw [h, Nat.div_zero]
  · rfl

/-- The loop of `compute_base` ends with a last round whose result is the answer. -/
theorem yLoop_last {s ann d t n y0 y : Nat} (h : yLoop s ann d t n y0 = .ok y) :
    ∃ z, d ≤ 2 * z + s ∧ y = hdiv (ann * z * z + t) (ann * (2 * z + s - d) + d) ∧ y ≤ z + 1 ∧ z ≤ y + 1 := by
  induction n generalizing y0 with
  | zero => simp [yLoop] at h
  | succ n ih =>
    simp only [yLoop, yStep, bind_ok_iff, csub_ok_iff, pure_ok_iff] at h
    obtain ⟨y', ⟨t2, ⟨ht, rfl⟩, rfl⟩, h⟩ := h
    split_ifs at h with hc
    · simp only [toU128_ok_iff] at h
      obtain ⟨-, rfl⟩ := h
      refine ⟨y0, ht, rfl, ?_, ?_⟩ <;>
      · unfold close at hc
        omega
    · exact ih h

/-- The last round is exact unless its operands are absurdly large. -/
theorem yLoop_exact {s ann d t n y0 y : Nat} (h : yLoop s ann d t n y0 = .ok y)
    (h1 : ann + t ≤ maxU128) (h2 : ann * (2 + s) + d ≤ maxU128) :
    ∃ z, d ≤ 2 * z + s ∧ y = (ann * z * z + t) / (ann * (2 * z + s - d) + d) := by
  obtain ⟨z, hz, hy, hc1, hc2⟩ := yLoop_last h
  refine ⟨z, hz, ?_⟩
  have key : z ≤ 1 → ann * z * z + t ≤ maxU128 ∧ ann * (2 * z + s - d) + d ≤ maxU128 := by
    intro hz1
    have e1 : ann * z * z ≤ ann * 1 * 1 := Nat.mul_le_mul (Nat.mul_le_mul_left _ hz1) hz1
    have e2 : ann * (2 * z + s - d) ≤ ann * (2 + s) := Nat.mul_le_mul_left _ (by omega)
    omega
  by_cases ha : ann * z * z + t ≤ maxU128
  · by_cases hb : ann * (2 * z + s - d) + d ≤ maxU128
    · rw [hy, hdiv_fit ha hb]
    · have : y = 0 := by rw [hy]; unfold hdiv fit; rw [if_neg hb]; simp
      exact absurd (key (by omega)).2 hb
  · have : y = 0 := by
      rw [hy]; unfold hdiv
      have : fit (ann * z * z + t) = 0 := by unfold fit; rw [if_neg ha]
      rw [this]; split <;> simp
    exact absurd (key (by omega)).1 ha

/-- Newton's method never ends more than one unit below the root. -/
theorem newton_core {s ann d t z y : Nat} (hd : 0 < d) (hz : d ≤ 2 * z + s)
    (hy : y = (ann * z * z + t) / (ann * (2 * z + s - d) + d)) :
    (t : ℤ) < ann * (y + 1) * (y + 1) + (ann * ((s : ℤ) - d) + d) * (y + 1) := by
  have hlt : ann * z * z + t < (y + 1) * (ann * (2 * z + s - d) + d) := by
    rw [hy]
    have := Nat.lt_div_mul_add (a := ann * z * z + t) (b := ann * (2 * z + s - d) + d) (by omega)
    rw [Nat.add_mul, Nat.one_mul]; exact this
  have hlt' : (ann : ℤ) * z * z + t < (y + 1) * (ann * (2 * z + s - d) + d) := by
    have := (Int.ofNat_lt.2 hlt)
    push_cast [Int.ofNat_sub hz] at this
    exact this
  nlinarith [mul_nonneg (Int.natCast_nonneg ann) (mul_self_nonneg ((y : ℤ) + 1 - z))]

/-- What `compute_base` returns together with the new quote amount is at least `d - 1`. -/
theorem computeBase_ge {s amp d y : Nat} (h : computeBase s amp d = .ok y) (hs : 0 < s) (hamp : 0 < amp)
    (hsu : s ≤ maxU128) (hc : d / 2 * (d / 2) * d ≤ maxU128) (hd2 : d ≤ maxU128)
    (h1 : amp * 2 * 2 + d / 2 * (d / 2) * d / s ≤ maxU128)
    (h2 : amp * 2 * 2 * (2 + s) + d ≤ maxU128) : d ≤ y + 1 + s := by
  rcases Nat.eq_zero_or_pos d with rfl | hd
  · exact Nat.zero_le _
  unfold computeBase at h
  have e2 : hdiv d 2 = d / 2 := hdiv_fit hd2 (by decide)
  rw [e2, hdiv_fit hc hsu] at h
  obtain ⟨z, hz, hy⟩ := yLoop_exact h h1 h2
  have hn := newton_core hd hz hy
  generalize hann : amp * 2 * 2 = ann at *
  have hann : 1 ≤ ann := by omega
  clear h hz hy h1 h2
  set dn := d / 2 with hdn
  by_contra hcon
  have hlt : y + 1 + s + 1 ≤ d := by omega
  obtain ⟨e, he⟩ : ∃ e, d = y + 1 + s + 1 + e := ⟨d - (y + 1 + s + 1), by omega⟩
  -- term1 * s > dn*dn*d - s
  have ht : dn * dn * d < (dn * dn * d / s + 1) * s := by
    rw [Nat.add_mul, Nat.one_mul]; exact Nat.lt_div_mul_add hs
  set t := dn * dn * d / s with htdef
  -- Y = y + 1
  have hY : (t : ℤ) + ann * (y + 1) ≤ d * (y + 1) := by
    have e1 : (ann : ℤ) * (y + 1) * (y + 1) + (ann * ((s : ℤ) - d) + d) * (y + 1)
        = ann * (y + 1) * ((y : ℤ) + 1 + s - d) + d * (y + 1) := by ring
    rw [e1] at hn
    have e2 : ((y : ℤ) + 1 + s - d) ≤ -1 := by omega
    have e3 : (ann : ℤ) * (y + 1) * ((y : ℤ) + 1 + s - d) ≤ ann * (y + 1) * (-1) :=
      mul_le_mul_of_nonneg_left e2 (by positivity)
    linarith
  have hYn : t + ann * (y + 1) ≤ d * (y + 1) := by exact_mod_cast hY
  -- (y+1)*s ≤ dn*dn
  have ham : (y + 1) * s ≤ dn * dn := by
    have h2 : y + 1 + s ≤ 2 * dn := by omega
    have h3 : (y + 1 + s) * (y + 1 + s) ≤ (2 * dn) * (2 * dn) := Nat.mul_le_mul h2 h2
    have h4 : 4 * ((y + 1) * s) ≤ (y + 1 + s) * (y + 1 + s) := by
      nlinarith [sq_nonneg (((y : ℤ) + 1) - s), Nat.zero_le y]
    nlinarith
  have f1 : (t + ann * (y + 1)) * s ≤ d * (y + 1) * s := Nat.mul_le_mul_right s hYn
  have f2 : d * ((y + 1) * s) ≤ d * (dn * dn) := Nat.mul_le_mul_left d ham
  have f3 : s ≤ ann * (y + 1) * s := Nat.le_mul_of_pos_left s (by positivity)
  nlinarith

/-- In a pool with equal reserves the invariant is exactly their sum. -/
theorem computeD_balanced {r amp : Nat} (hr : 0 < r) (hamp : 0 < amp)
    (h : (amp * 2 * 2 * (r + r) + 2 * r * 2) * (r + r) ≤ maxU128) : computeD r r amp = .ok (r + r) := by
  have hle : r + r ≤ maxU128 := by
    refine le_trans ?_ h
    exact Nat.le_mul_of_pos_left _ (by positivity)
  have h1 : (r + r) * (r + r) ≤ maxU128 := by
    refine le_trans ?_ h
    refine Nat.mul_le_mul_right _ ?_
    have : r + r ≤ amp * 2 * 2 * (r + r) := Nat.le_mul_of_pos_left _ (by positivity)
    omega
  have e0 : hdiv ((r + r) * (r + r)) (r * 2) = r + r := by
    rw [hdiv_fit h1 (by omega), show r * 2 = r + r by ring]
    exact Nat.mul_div_cancel _ (by omega)
  unfold computeD
  rw [if_neg (by omega)]
  have estep : dStep r r (amp * 2 * 2) (r + r) = .ok (r + r) := by
    unfold dStep
    simp only [e0]
    have hsub : r + r ≤ amp * 2 * 2 * (r + r) + 3 * (r + r) := by
      have : 0 ≤ amp * 2 * 2 * (r + r) := Nat.zero_le _
      omega
    rw [csub_ok_iff.2 ⟨hsub, rfl⟩, ok_bind]
    have e1 : amp * 2 * 2 * (r + r) + 3 * (r + r) - (r + r) = amp * 2 * 2 * (r + r) + 2 * r * 2 := by omega
    have e2 : (r + r) * 2 = 2 * r * 2 := by ring
    rw [e1, e2, hdiv_fit h]
    · rw [Nat.mul_div_cancel_left _ (by positivity)]; rfl
    · refine le_trans ?_ h
      exact Nat.le_mul_of_pos_right _ (by omega)
  rw [dLoop, estep, ok_bind, if_pos (show close (r + r) (r + r) from Or.inr ⟨Nat.le_refl _, by omega⟩)]
  exact toU128_ok_iff.2 ⟨hle, rfl⟩

end Verif.Stable
