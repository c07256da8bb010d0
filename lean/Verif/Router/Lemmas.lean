import Verif.Router.Spec
import Verif.Amm.Props
import Mathlib.Algebra.BigOperators.Group.List.Basic

set_option linter.unnecessarySeqFocus false
set_option linter.unusedSimpArgs false

namespace Verif.Router
open Verif Verif.Amm

theorem hasDup_false_iff : ∀ {l : List Nat}, hasDup l = false ↔ l.Nodup
  | [] => by simp [hasDup]
  | a :: l => by
    simp only [hasDup, Bool.or_eq_false_iff, List.nodup_cons, hasDup_false_iff (l := l)]
    simp

theorem routeChecks_ok {m : Nat} {l : List Nat} {u : Unit} (h : routeChecks m l = .ok u) :
    l ≠ [] ∧ l.length ≤ m ∧ l.Nodup := by
  unfold routeChecks at h
  simp only [bind_ok_iff, ensure_ok_iff] at h
  obtain ⟨_, h1, _, h2, h3⟩ := h
  exact ⟨h1, h2, hasDup_false_iff.1 h3⟩

/-! ### Swaps along a route -/

theorem view_congr {s s' : State} {u v : Nat} (h1 : s'.pools (u, v) = s.pools (u, v))
    (h2 : s'.pools (v, u) = s.pools (v, u)) : view s' u v = view s u v := by
  unfold view; rw [h1, h2]

theorem amountsOutFrom_congr {c : Cfg} {s s' : State} (a : Nat)
    (hv : ∀ u v, u ≠ a → v ≠ a → view s' u v = view s u v) :
    ∀ (l : List Nat) (x b : Nat), b ≠ a → a ∉ l → amountsOutFrom c s' x b l = amountsOutFrom c s x b l
  | [], _, _, _, _ => rfl
  | d :: l, x, b, hb, hl => by
    have hd : d ≠ a := fun e => hl (by simp [e])
    have hl' : a ∉ l := fun e => hl (by simp [e])
    have hr : reserves s' b d = reserves s b d := by
      have hv := hv b d hb hd
      cases h : reserves s b d with
      | ok r => rw [reserves_ok_iff] at h ⊢; rw [hv]; exact h
      | error e =>
        cases h' : reserves s' b d with
        | ok r => rw [reserves_ok_iff] at h'; rw [hv, ← reserves_ok_iff, h] at h'; cases h'
        | error e' =>
          -- same error: both come from the same branch
          unfold reserves at h h'
          unfold view at hv
          unfold sortAssets at h h'
          split_ifs at h h' hv with c1 c2
          · simp only [ok_bind] at h h'
            cases hp : s.pools (b, d) <;> cases hp' : s'.pools (b, d) <;> simp_all [okOr, pure, Except.pure]
          · simp only [ok_bind] at h h'
            cases hp : s.pools (d, b) <;> cases hp' : s'.pools (d, b) <;> simp_all [okOr, pure, Except.pure]
          · simp only [error_bind] at h h'
            rw [← h, ← h']
    unfold amountsOutFrom
    rw [hr]
    congr 1
    funext r
    obtain ⟨ri, ro⟩ := r
    simp only
    congr 1
    funext y
    rw [amountsOutFrom_congr a hv l y d hd hl']

theorem last_ne_of_nodup {a : Nat} {l : List Nat} (h : (a :: l).Nodup) (hl : l ≠ []) : l.getLastD 0 ≠ a := by
  have : l.getLastD 0 ∈ l := by
    rw [List.getLastD_eq_getLast?, List.getLast?_eq_some_getLast hl]
    exact List.getLast_mem hl
  intro e
  rw [e] at this
  exact (List.nodup_cons.1 h).1 this

theorem getLastD_cons_cons (a b d : Nat) (l : List Nat) : (a :: b :: l).getLastD d = (b :: l).getLastD d := by
  rfl

/-- The heart of C13: executing the quoted amounts along a duplicate-free route. -/
theorem swapAlong_quoted {c : Cfg} {who : Nat} (hw : who ≠ c.acct) :
    ∀ (rest : List Nat) (s s' : State) (a x : Nat) (ys : List Nat), (a :: rest).Nodup →
      amountsOutFrom c s x a rest = .ok ys → swapAlong c s who (a :: rest) (x :: ys) = .ok s' →
      rest ≠ [] →
      (∀ z, s'.ledger.bal z who + (if z = a then x else 0)
        = s.ledger.bal z who + (if z = (a :: rest).getLastD 0 then (x :: ys).getLastD 0 else 0)) ∧
      (∀ z w, w ≠ who → w ≠ c.acct → s'.ledger.bal z w = s.ledger.bal z w) ∧
      s'.ledger.iss = s.ledger.iss
  | [], _, _, _, _, _, _, _, _, h => absurd rfl h
  | b :: rest, s, s', a, x, ys, hnd, hq, hs, _ => by
    unfold amountsOutFrom at hq
    simp only [bind_ok_iff, Prod.exists, pure_ok_iff] at hq
    obtain ⟨ri, ro, hr, y, hy, ys', hys, rfl⟩ := hq
    unfold swapAlong at hs
    simp only [bind_ok_iff, Prod.exists] at hs
    obtain ⟨s1, y', hsw, hs⟩ := hs
    obtain ⟨c1, hab, c2, c3, c4, c5, c6, c7, ⟨ra, rb, cv, _, _⟩, c8, c9⟩ := C03_swap_exact hw hsw
    have hyy : y' = y := by
      rw [reserves_ok_iff] at hr
      rw [hr] at cv; cases cv
      have e1 := amountsOut_two (c := c) hr hy
      rw [c1] at e1
      simpa using e1
    subst hyy
    have hnd' := (List.nodup_cons.1 hnd).2
    have ha : a ∉ b :: rest := (List.nodup_cons.1 hnd).1
    have hv : ∀ u v, u ≠ a → v ≠ a → view s1 u v = view s u v := by
      intro u v hu hv
      apply view_congr
      · apply c8 <;> intro e <;> cases e <;> simp_all
      · apply c8 <;> intro e <;> cases e <;> simp_all
    cases rest with
    | nil =>
      simp only [amountsOutFrom, Except.ok.injEq] at hys
      subst hys
      simp only [swapAlong, Except.ok.injEq] at hs
      subst hs
      refine ⟨?_, ?_, c7⟩
      · intro z
        simp only [List.getLastD]
        by_cases hza : z = a
        · subst hza; simp [hab]; omega
        · by_cases hzb : z = b
          · subst hzb; simp [hza]; simpa using c3
          · have := c6 z who (Or.inl ⟨hza, hzb⟩)
            simp [hza, hzb]; exact this
      · intro z w h1 h2
        exact c6 z w (Or.inr ⟨h1, h2⟩)
    | cons d rest =>
      have hb : b ≠ a := fun e => hab e.symm
      have hl : a ∉ d :: rest := fun e => ha (by simp [List.mem_cons] at e ⊢; tauto)
      have hq1 := amountsOutFrom_congr (c := c) a hv (d :: rest) y' b hb hl
      rw [hys] at hq1
      obtain ⟨i1, i2, i3⟩ := swapAlong_quoted hw (d :: rest) s1 s' b y' ys' hnd' hq1 hs (by simp)
      refine ⟨?_, ?_, i3.trans c7⟩
      · intro z
        have := i1 z
        rw [getLastD_cons_cons a b, getLastD_cons_cons x y']
        have hla : (b :: d :: rest).getLastD 0 ≠ a := last_ne_of_nodup hnd (by simp)
        have hlb : (b :: d :: rest).getLastD 0 ≠ b := by
          rw [getLastD_cons_cons]; exact last_ne_of_nodup hnd' (by simp)
        by_cases hza : z = a
        · subst hza
          simp only [if_true, hab, if_false, Ne.symm hla] at this ⊢
          omega
        · by_cases hzb : z = b
          · subst hzb
            simp only [if_true, hza, if_false, Ne.symm hlb] at this ⊢
            omega
          · have h6 := c6 z who (Or.inl ⟨hza, hzb⟩)
            simp only [hza, hzb, if_false] at this ⊢
            omega
      · intro z w h1 h2
        rw [i2 z w h1 h2, c6 z w (Or.inr ⟨h1, h2⟩)]

/-- Executing arbitrary amounts along a route touches only the assets of the route, the trader and the
AMM account, and no issuance. -/
theorem swapAlong_frame {c : Cfg} {who : Nat} (hw : who ≠ c.acct) :
    ∀ (rest xs : List Nat) (s s' : State) (a : Nat),
      swapAlong c s who (a :: rest) xs = .ok s' →
      (∀ z w, (z ∉ a :: rest) ∨ (w ≠ who ∧ w ≠ c.acct) → s'.ledger.bal z w = s.ledger.bal z w) ∧
      s'.ledger.iss = s.ledger.iss
  | [], xs, s, s', a, h => by
    simp only [swapAlong, Except.ok.injEq] at h; subst h; simp
  | b :: rest, [], s, s', a, h => by
    simp only [swapAlong, Except.ok.injEq] at h; subst h; simp
  | b :: rest, x :: xs, s, s', a, h => by
    unfold swapAlong at h
    simp only [bind_ok_iff, Prod.exists] at h
    obtain ⟨s1, y, hsw, hs⟩ := h
    obtain ⟨c1, hab, c2, c3, c4, c5, c6, c7, _, c8, c9⟩ := C03_swap_exact hw hsw
    obtain ⟨i1, i2⟩ := swapAlong_frame hw rest xs s1 s' b hs
    refine ⟨?_, i2.trans c7⟩
    intro z w hz
    rcases hz with hz | hz
    · simp only [List.mem_cons, not_or] at hz
      rw [i1 z w (Or.inl (by simp [hz.2.1, hz.2.2])), c6 z w (Or.inl ⟨hz.1, hz.2.1⟩)]
    · rw [i1 z w (Or.inr hz), c6 z w (Or.inr hz)]

/-- The first asset of the route is charged exactly once. -/
theorem swapAlong_head {c : Cfg} {who : Nat} (hw : who ≠ c.acct) {a b x : Nat} {rest xs : List Nat}
    {s s' : State} (hnd : (a :: b :: rest).Nodup)
    (h : swapAlong c s who (a :: b :: rest) (x :: xs) = .ok s') :
    s'.ledger.bal a who + x = s.ledger.bal a who := by
  unfold swapAlong at h
  simp only [bind_ok_iff, Prod.exists] at h
  obtain ⟨s1, y, hsw, hs⟩ := h
  obtain ⟨c1, hab, c2, _⟩ := C03_swap_exact hw hsw
  obtain ⟨i1, _⟩ := swapAlong_frame hw rest xs s1 s' b hs
  rw [i1 a who (Or.inl (List.nodup_cons.1 hnd).1)]
  exact c2

/-- The last asset of the route grows by what the last hop pays, as quoted on the state before. -/
theorem swapAlong_last {c : Cfg} {who : Nat} (hw : who ≠ c.acct) {p z x out : Nat} :
    ∀ (pre pre' : List Nat) (s s' : State), pre.length = pre'.length → (pre ++ [p, z]).Nodup →
      swapAlong c s who (pre ++ [p, z]) (pre' ++ [x, out]) = .ok s' →
      ∃ ri ro y, view s p z = some (ri, ro) ∧ amountOut c x ri ro = .ok y ∧
        s'.ledger.bal z who = s.ledger.bal z who + y
  | [], [], s, s', _, hnd, h => by
    simp only [List.nil_append, swapAlong, bind_ok_iff, Prod.exists, Except.ok.injEq] at h
    obtain ⟨s1, y, hsw, rfl⟩ := h
    obtain ⟨c1, hab, c2, c3, _⟩ := C03_swap_exact hw hsw
    simp only [amountsOut, amountsOutFrom, bind_ok_iff, Prod.exists, pure_ok_iff] at c1
    obtain ⟨ys, ⟨ri, ro, hr, y', hy, zs, hzs, rfl⟩, hl⟩ := c1
    cases hzs
    cases hl
    exact ⟨ri, ro, _, reserves_ok_iff.1 hr, hy, c3⟩
  | [], _ :: _, _, _, hl, _, _ => by simp at hl
  | _ :: _, [], _, _, hl, _, _ => by simp at hl
  | a :: pre, x' :: pre', s, s', hl, hnd, h => by
    have hnd' : (a :: (pre ++ [p, z])).Nodup := hnd
    obtain ⟨b, rest, hbr⟩ : ∃ b rest, pre ++ [p, z] = b :: rest := by
      cases pre with
      | nil => exact ⟨_, _, rfl⟩
      | cons b r => exact ⟨b, r ++ [p, z], rfl⟩
    have h2 : ∃ s1 y, doSwap c s who a b x' = .ok (s1, y) ∧
        swapAlong c s1 who (pre ++ [p, z]) (pre' ++ [x, out]) = .ok s' := by
      rw [List.cons_append, List.cons_append, hbr] at h
      unfold swapAlong at h
      simp only [bind_ok_iff, Prod.exists] at h
      obtain ⟨s1, y, h1, h2⟩ := h
      exact ⟨s1, y, h1, by rw [hbr]; exact h2⟩
    obtain ⟨s1, y1, hsw, hs⟩ := h2
    obtain ⟨c1, hab, c2, c3, c4, c5, c6, c7, _, c8, c9⟩ := C03_swap_exact hw hsw
    have hn := List.nodup_cons.1 hnd'
    obtain ⟨ri, ro, y, hv, hy, hb⟩ := swapAlong_last hw pre pre' s1 s' (by simpa using hl) hn.2 hs
    have hpa : p ≠ a := by rintro rfl; exact hn.1 (by simp)
    have hza : z ≠ a := by rintro rfl; exact hn.1 (by simp)
    refine ⟨ri, ro, y, ?_, hy, ?_⟩
    · rw [← hv]; symm
      apply view_congr <;> apply c8 <;> intro e <;> cases e <;> simp_all
    · have hzb : z ≠ b := by
        rintro rfl
        have h3 := hn.2
        cases pre with
        | nil => simp at hbr h3; exact h3 hbr.1
        | cons d r =>
          simp at hbr h3
          exact h3.1.2.2 hbr.1
      rw [hb, c6 z who (Or.inl ⟨hza, hzb⟩)]

end Verif.Router
