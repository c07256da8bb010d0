import Verif.Farming.Props2

set_option linter.unusedSimpArgs false

/-!
# Farming: reward streams are accepted and computed exactly (C88)
-/

namespace Verif.Farming
open Verif

theorem newRate_ok_iff {p : Pool} {now m d r : Nat} (hm : m ≤ maxU128) :
    newRate p now m d = .ok r ↔ d ≠ 0 ∧ (p.finish - now) * p.rate + m ≤ maxU128 ∧ r = ((p.finish - now) * p.rate + m) / d := by
  unfold newRate
  split_ifs with hf
  · have e : p.finish - now = 0 := by omega
    rw [cdiv_ok_iff, e, Nat.zero_mul, Nat.zero_add]
    constructor
    · rintro ⟨h1, h2⟩; exact ⟨h1, hm, h2⟩
    · rintro ⟨h1, _, h2⟩; exact ⟨h1, h2⟩
  · simp only [bind_ok_iff, csub_ok_iff, cmul_ok_iff, cadd_ok_iff, cdiv_ok_iff]
    constructor
    · rintro ⟨_, ⟨_, rfl⟩, _, ⟨_, rfl⟩, _, ⟨h, rfl⟩, h1, h2⟩
      exact ⟨h1, h, h2⟩
    · rintro ⟨h1, h, h2⟩
      exact ⟨_, ⟨by omega, rfl⟩, _, ⟨by omega, rfl⟩, _, ⟨h, rfl⟩, h1, h2⟩

/-- C88 (g): a reward is accepted exactly for an existing pool whose rewards can be brought up to date, with a positive
duration ending in a representable block, and if the payer owns the amount (and the sum still to stream fits). -/
theorem C88_dispatch_iff {c : Cfg} {s s1 : State} (hr : Reach c s) {k : Key} {w m d : Nat} {p : Pool} (hp : s.pools k = some p)
    (hu : updateNone s k = .ok s1) :
    (∃ s', dispatch c s k w m d = .ok s') ↔
      d ≠ 0 ∧ s.now + d ≤ maxU32 ∧ m ≤ s.ledger.bal k.reward w ∧ (p.finish - s.now) * p.rate + m ≤ maxU128 := by
  have hu' := hu
  unfold updateNone at hu'
  simp only [hp, bind_ok_iff, okOr_ok_iff, Option.some.injEq, exists_eq_left', pure_ok_iff] at hu'
  obtain ⟨q, hq, rfl⟩ := hu'
  have eq' := update_ok hq
  have e1 : q.finish = p.finish := by rw [eq']
  have e2 : q.rate = p.rate := by rw [eq']
  have hwf : s.ledger.WF := by
    obtain ⟨H, B, hi⟩ := hr.inv
    exact hi.wf
  have hmax : s.ledger.bal k.reward w ≤ maxU128 :=
    Nat.le_trans (Ledger.bal_le_iss hwf _ _) (hwf _).2
  unfold dispatch
  simp only [hu, hp, bind_ok_iff, ensure_ok_iff, okOr_ok_iff, exists_const, pure_ok_iff, Option.isSome_some,
    true_and, Except.ok.injEq, exists_eq_left', upd_same, Option.some.injEq, payIf_eq]
  constructor
  · rintro ⟨_, h1, r, h2, h3, l, hl, _⟩
    have hm := Ledger.transfer_le hl
    have hm : m ≤ s.ledger.bal k.reward w := hm
    obtain ⟨_, h4, _⟩ := (newRate_ok_iff (by omega)).1 h2
    rw [e1, e2] at h4
    exact ⟨h1, h3, hm, h4⟩
  · rintro ⟨h1, h3, hm, h4⟩
    obtain ⟨l, hl⟩ := Ledger.transfer_succeeds (l := s.ledger) (a := k.reward) (s := w) (d := c.acct k.reward) (m := m)
      (k := false) hm (by simp)
    have hn := (newRate_ok_iff (p := q) (now := s.now) (m := m) (d := d) (by omega)).2 ⟨h1, by rw [e1, e2]; exact h4, rfl⟩
    exact ⟨_, h1, _, hn, h3, l, hl, rfl⟩

/-- C88 (h): the accepted reward and what was left of the previous one are spread evenly over the new duration, starting
now; the stake of nobody changes. -/
theorem C88_dispatch_exact {c : Cfg} {s s' : State} {k : Key} {w m d : Nat} {p : Pool} (hp : s.pools k = some p)
    (hm : m ≤ maxU128) (hd : dispatch c s k w m d = .ok s') :
    ∃ q, s'.pools k = some q ∧ q.rate = ((p.finish - s.now) * p.rate + m) / d ∧ q.finish = s.now + d ∧ q.duration = d ∧
      q.last = s.now ∧ q.total = p.total ∧ q.active = p.active ∧ q.unlock = p.unlock ∧ q.cool = p.cool ∧
      s'.pos = s.pos ∧ s'.now = s.now := by
  unfold dispatch at hd
  simp only [hp, bind_ok_iff, ensure_ok_iff, okOr_ok_iff, exists_const, pure_ok_iff, Option.isSome_some,
    true_and] at hd
  obtain ⟨h1, s1, hu, q, hq, r, hr, h3, l, hl, rfl⟩ := hd
  unfold updateNone at hu
  simp only [hp, bind_ok_iff, okOr_ok_iff, Option.some.injEq, exists_eq_left', pure_ok_iff] at hu
  obtain ⟨q', hq', rfl⟩ := hu
  dsimp only at hq hr h3 hl ⊢
  rw [upd_same] at hq
  cases hq
  have eq' := update_ok hq'
  obtain ⟨_, _, h5⟩ := (newRate_ok_iff hm).1 hr
  refine ⟨_, upd_same _ _ _, ?_, rfl, rfl, rfl, ?_, ?_, ?_, ?_, rfl, rfl⟩
  · show r = _
    rw [h5, eq']
  all_goals rw [eq']

example : okAnd (dispatch exCfg ex2 exK 9 600 30) (fun s => (s.pools exK).any fun q => q.finish == s.now + 30) ∧
    errIs (dispatch exCfg ex2 exK 9 600 0) .notAValidDuration ∧
    errIs (dispatch exCfg ex2 exK 9 600 maxU32) .overflow := by decide +kernel

end Verif.Farming
