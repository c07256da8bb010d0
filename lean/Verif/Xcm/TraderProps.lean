import Verif.Xcm.TraderSpec

/-!
# XCM fee trader: property theorems (C145 – C147)
-/

namespace Verif.Xcm
open Verif
variable {τ : Type} [DecidableEq τ]

/-! Fixture: location 7 is accepted at 5·10^12 units per second (5 per picosecond), location 8 at 10^12. -/
def exFees : Fees Nat := ⟨fun t => t == 7 || t == 8, fun t =>
  if t = 7 then some 5000000000000 else if t = 8 then some 1000000000000 else none⟩

/-! ## C145 -/

/-- C145: a purchase is accepted exactly if the first fungible asset offered is a concrete asset accepted for
fees with a rate, and there is enough of it: at least the rate times the weight over one second, rounded
down. -/
theorem C145_buy_when (f : Fees τ) (tr : Trader τ) (w : Weight) (p : Holding τ) :
    (∃ r, buy f tr w p = some r) ↔ ∃ t n rest u, p = (.concrete t, n) :: rest ∧ f.supported t = true ∧
      f.units t = some u ∧ min (u * w.rt) maxU128 / perSecond ≤ n := by
  constructor
  · rintro ⟨r, h⟩
    unfold buy at h
    split at h
    · rename_i t n rest
      split at h
      · rename_i hs
        split at h
        · cases h
        · rename_i u hu
          refine ⟨t, n, rest, u, rfl, hs, hu, ?_⟩
          split at h
          · rename_i h0; unfold feeOf at h0; rw [h0]; exact Nat.zero_le _
          · unfold subFirst at h
            split at h
            · cases h
            · rename_i hh
              split at hh
              · rename_i hle; exact hle
              · cases hh
      · cases h
    · cases h
  · rintro ⟨t, n, rest, u, rfl, hs, hu, hle⟩
    unfold buy
    dsimp only
    rw [if_pos hs, hu]
    dsimp only
    split
    · exact ⟨_, rfl⟩
    · have : subFirst (Key.concrete t) n (feeOf u w.rt) rest =
        some (if n = feeOf u w.rt then rest else (Key.concrete t, n - feeOf u w.rt) :: rest) := if_pos hle
      rw [this]
      exact ⟨_, rfl⟩

theorem held_cons_same (t : τ) (n : Nat) (rest : Holding τ) :
    held ((.concrete t, n) :: rest) t = n + held rest t := by
  unfold held
  rw [List.filter_cons_of_pos (by simp)]
  simp

theorem held_cons_ne {t x : τ} (h : x ≠ t) (n : Nat) (rest : Holding τ) :
    held ((.concrete t, n) :: rest) x = held rest x := by
  unfold held
  rw [List.filter_cons_of_neg]
  simpa using fun h' => h h'.symm

/-- What a successful purchase does, in one formula. -/
theorem buy_ok {f : Fees τ} {tr tr' : Trader τ} {w : Weight} {p un : Holding τ} (h : buy f tr w p = some (un, tr')) :
    ∃ t n rest u, p = (.concrete t, n) :: rest ∧ f.units t = some u ∧ f.supported t = true ∧ feeOf u w.rt ≤ n ∧
      (feeOf u w.rt = 0 → un = p ∧ tr' = tr) ∧
      (feeOf u w.rt ≠ 0 → un = (if n = feeOf u w.rt then rest else (.concrete t, n - feeOf u w.rt) :: rest) ∧
        tr' = book tr w t (feeOf u w.rt) u) := by
  obtain ⟨t, n, rest, u, rfl, hs, hu, hle⟩ := (C145_buy_when f tr w p).1 ⟨_, h⟩
  refine ⟨t, n, rest, u, rfl, hu, hs, hle, ?_, ?_⟩
  · intro h0
    unfold buy at h
    dsimp only at h
    rw [if_pos hs, hu] at h
    dsimp only at h
    rw [if_pos h0] at h
    cases h
    exact ⟨rfl, rfl⟩
  · intro h0
    unfold buy at h
    dsimp only at h
    rw [if_pos hs, hu] at h
    dsimp only at h
    have : subFirst (Key.concrete t) n (feeOf u w.rt) rest =
        some (if n = feeOf u w.rt then rest else (Key.concrete t, n - feeOf u w.rt) :: rest) := if_pos hle
    rw [if_neg h0, this] at h
    cases h
    exact ⟨rfl, rfl⟩

/-- C145: a purchase takes exactly the fee — rate times weight over one second, rounded down — of the first
asset offered, and nothing of any other asset. -/
theorem C145_buy_what {f : Fees τ} {tr tr' : Trader τ} {w : Weight} {t : τ} {n : Nat} {rest un : Holding τ}
    (h : buy f tr w ((.concrete t, n) :: rest) = some (un, tr')) :
    ∃ u, f.units t = some u ∧
      held un t + min (u * w.rt) maxU128 / perSecond = held ((.concrete t, n) :: rest) t ∧
      ∀ x, x ≠ t → held un x = held ((.concrete t, n) :: rest) x := by
  obtain ⟨t', n', rest', u, he, hu, -, hle, h0, h1⟩ := buy_ok h
  cases he
  refine ⟨u, hu, ?_, ?_⟩
  · show held un t + feeOf u w.rt = _
    by_cases hz : feeOf u w.rt = 0
    · rw [(h0 hz).1, hz]; rfl
    · rw [(h1 hz).1, held_cons_same]
      split
      · omega
      · rw [held_cons_same]; omega
  · intro x hx
    by_cases hz : feeOf u w.rt = 0
    · rw [(h0 hz).1]
    · rw [(h1 hz).1, held_cons_ne hx]
      split
      · rfl
      · rw [held_cons_ne hx]

example : ∃ r, buy exFees (Trader.new Nat) ⟨100, 3⟩ [(.concrete 7, 600), (.concrete 8, 9)] = some r ∧
    r.1 = [(.concrete 7, 100), (.concrete 8, 9)] := ⟨_, rfl, by decide +kernel⟩
example : buy exFees (Trader.new Nat) ⟨100, 3⟩ [(.concrete 7, 499), (.concrete 8, 900)] = none := by decide +kernel

omit [DecidableEq τ] in
/-- C145: a refund is paid in the asset of the first purchase that cost something, at the rate of that
purchase; without such a purchase there is none. -/
theorem C145_refund {tr tr' : Trader τ} {w : Weight} {o : Option (τ × Nat)} (h : refund tr w = .ok (tr', o)) :
    (tr.asset = none → o = none ∧ tr' = tr) ∧
    ∀ t a u, tr.asset = some (t, a, u) → o = some (t, u * min w.rt tr.weight.rt / perSecond) ∧
      tr'.weight.rt = tr.weight.rt - min w.rt tr.weight.rt := by
  unfold refund at h
  refine ⟨fun hn => ?_, fun t a u hs => ?_⟩
  · rw [hn] at h; cases h; exact ⟨rfl, rfl⟩
  · rw [hs] at h
    dsimp only at h
    split at h
    · cases h; exact ⟨rfl, rfl⟩
    · cases h

/-! ## C146 -/

/-- The property as one would like it: no session gives back more than it took. -/
def C146_statement : Prop := ∀ (ops : List (Op Nat)) (s : Session Nat), (Session.new Nat).run ops = .ok s →
  ∀ t, s.back t ≤ s.paid t

/-- C146 is false: each purchase adds its weight to the trader twice, so twice the weight bought can be
refunded. Here 500 units are paid for weight 100 and 1000 are given back. -/
theorem C146_refuted : ¬ C146_statement := by
  intro h
  have h1 := h [.buy exFees ⟨100, 3⟩ [(.concrete 7, 600)], .refund ⟨200, 0⟩] _ rfl 7
  exact absurd h1 (by decide +kernel)

/-- C146: paying in a cheap asset after an expensive one earns a refund in the expensive one: 500 of asset 7
and 1000 of asset 8 are paid, and 6000 of asset 7 come back. -/
theorem C146_cross_asset : ∃ s, (Session.new Nat).run [.buy exFees ⟨100, 0⟩ [(.concrete 7, 500)],
      .buy exFees ⟨1000, 0⟩ [(.concrete 8, 1000)], .refund ⟨1200, 0⟩] = .ok s ∧
    s.paid 7 = 500 ∧ s.paid 8 = 1000 ∧ s.back 7 = 6000 := ⟨_, rfl, by decide +kernel⟩

/-- What holds after the first paid purchase: `t`, `u`, `w1` its location, rate and weight, `r` the weight
of which a refund was requested since. -/
structure SInv (t : τ) (u w1 r : Nat) (s : Session τ) : Prop where
  asset : ∃ a, s.tr.asset = some (t, a, u) ∧ (s.paid t ≤ maxU128 → a + s.back t = s.paid t)
  back : s.back t * perSecond ≤ u * r
  paid : u * w1 / perSecond ≤ s.paid t
  other : ∀ x, x ≠ t → s.back x = 0

theorem SInv.bound {t : τ} {u w1 r : Nat} {s : Session τ} (h : SInv t u w1 r s) (hr : r ≤ w1) (x : τ) :
    s.back x ≤ s.paid x := by
  by_cases hx : x = t
  · subst hx
    refine le_trans ?_ h.paid
    rw [Nat.le_div_iff_mul_le (by decide)]
    exact le_trans h.back (Nat.mul_le_mul_left u hr)
  · rw [h.other x hx]; exact Nat.zero_le _

theorem book_asset {tr : Trader τ} {t x : τ} {a u m v : Nat} {w : Weight} (h : tr.asset = some (t, a, u)) :
    (book tr w x m v).asset = some (t, if t = x then min (a + m) maxU128 else a, u) := by
  unfold book
  rw [h]
  dsimp only
  split
  · rename_i hx; subst hx; rfl
  · rfl

theorem paid_eq {t : τ} {n : Nat} {rest un : Holding τ} {fee : Nat} (hle : fee ≤ n)
    (h : un = if n = fee then rest else (.concrete t, n - fee) :: rest) (x : τ) :
    held ((.concrete t, n) :: rest) x - held un x = if x = t then fee else 0 := by
  subst h
  by_cases hx : x = t
  · subst hx
    rw [held_cons_same, if_pos rfl]
    split
    · omega
    · rw [held_cons_same]; omega
  · rw [held_cons_ne hx, if_neg hx]
    split
    · omega
    · rw [held_cons_ne hx]; omega

theorem SInv.buy {t : τ} {u w1 r : Nat} {s s' : Session τ} (h : SInv t u w1 r s) {f : Fees τ} {w : Weight}
    {p : Holding τ} (hs : s.step (.buy f w p) = .ok s') : SInv t u w1 r s' ∧ ∀ x, s.paid x ≤ s'.paid x := by
  unfold Session.step at hs
  dsimp only at hs
  split at hs
  · cases hs; exact ⟨h, fun _ => le_rfl⟩
  · rename_i un tr' hb
    cases hs
    refine ⟨?_, fun x => by dsimp only; omega⟩
    obtain ⟨t', n, rest, v, rfl, -, -, hle, h0, h1⟩ := buy_ok hb
    by_cases hz : feeOf v w.rt = 0
    · obtain ⟨rfl, rfl⟩ := h0 hz
      refine ⟨?_, h.back, ?_, h.other⟩
      · dsimp only; rw [Nat.sub_self, Nat.add_zero]; exact h.asset
      · dsimp only; rw [Nat.sub_self, Nat.add_zero]; exact h.paid
    · obtain ⟨hun, rfl⟩ := h1 hz
      have hp := paid_eq hle hun
      obtain ⟨a, ha, hab⟩ := h.asset
      refine ⟨⟨_, book_asset ha, ?_⟩, h.back, ?_, h.other⟩
      · dsimp only
        rw [hp t]
        by_cases hx : t = t'
        · rw [if_pos hx, if_pos hx]
          intro hm
          have h2 := hab (by omega)
          have : a + feeOf v w.rt ≤ maxU128 := by omega
          rw [Nat.min_eq_left this]; omega
        · rw [if_neg hx, if_neg hx]; exact hab
      · have := h.paid
        dsimp only; omega

theorem SInv.refund {t : τ} {u w1 r : Nat} {s : Session τ} (h : SInv t u w1 r s) {w : Weight}
    (hr : r + w.rt ≤ w1) (hm : u * w1 ≤ maxU128) :
    ∃ s', s.step (.refund w) = .ok s' ∧ SInv t u w1 (r + w.rt) s' ∧ ∀ x, s'.paid x = s.paid x := by
  obtain ⟨a, ha, hab⟩ := h.asset
  have hmin : (w.inf s.tr.weight).rt ≤ w.rt := Nat.min_le_left _ _
  have hle : u * (w.inf s.tr.weight).rt ≤ maxU128 :=
    le_trans (Nat.mul_le_mul_left u (by omega)) hm
  have hstep : Session.step s (.refund w) = .ok { s with
      tr := ⟨s.tr.weight.sub (w.inf s.tr.weight), some (t, a - u * (w.inf s.tr.weight).rt / perSecond, u)⟩
      back := upd s.back t (s.back t + u * (w.inf s.tr.weight).rt / perSecond) } := by
    have hre : Verif.Xcm.refund s.tr w =
        .ok (⟨s.tr.weight.sub (w.inf s.tr.weight), some (t, a - u * (w.inf s.tr.weight).rt / perSecond, u)⟩,
          some (t, u * (w.inf s.tr.weight).rt / perSecond)) := by
      unfold Verif.Xcm.refund
      rw [ha]
      exact if_pos hle
    unfold Session.step
    dsimp only
    rw [hre, ok_bind]
    rfl
  refine ⟨_, hstep, ?_, fun _ => rfl⟩
  revert hmin hle hstep
  generalize (w.inf s.tr.weight).rt = q
  intro hq hle _
  have hbk : (s.back t + u * q / perSecond) * perSecond ≤ u * (r + w.rt) := by
    rw [Nat.add_mul, Nat.mul_add]
    have h1 := h.back
    have h2 : u * q / perSecond * perSecond ≤ u * q := Nat.div_mul_le_self _ _
    have h3 : u * q ≤ u * w.rt := Nat.mul_le_mul_left u hq
    omega
  have hbp : s.back t + u * q / perSecond ≤ s.paid t := by
    refine le_trans ?_ h.paid
    rw [Nat.le_div_iff_mul_le (by decide)]
    exact le_trans hbk (Nat.mul_le_mul_left u hr)
  refine ⟨⟨_, rfl, ?_⟩, ?_, h.paid, ?_⟩
  · dsimp only
    rw [upd_same]
    intro hmx
    have := hab hmx
    generalize u * q / perSecond = g at *
    omega
  · dsimp only; rw [upd_same]; exact hbk
  · intro x hx; dsimp only; rw [upd_of_ne _ _ hx]; exact h.other x hx

theorem SInv.run {t : τ} {u w1 : Nat} (hm : u * w1 ≤ maxU128) : ∀ (ops : List (Op τ)) (r : Nat) (s : Session τ),
    SInv t u w1 r s → r + refundWeight ops ≤ w1 →
    ∃ s' r', s.run ops = .ok s' ∧ r' ≤ w1 ∧ SInv t u w1 r' s' := by
  intro ops
  induction ops with
  | nil => intro r s h hr; exact ⟨s, r, rfl, by omega, h⟩
  | cons o os ih =>
    intro r s h hr
    cases o with
    | buy f w p =>
      have hr' : r + refundWeight os ≤ w1 := hr
      have hstep : ∃ s1, s.step (.buy f w p) = .ok s1 := by
        unfold Session.step; dsimp only; split <;> exact ⟨_, rfl⟩
      obtain ⟨s1, hs1⟩ := hstep
      obtain ⟨s', r', h1, h2, h3⟩ := ih r s1 (h.buy hs1).1 hr'
      refine ⟨s', r', ?_, h2, h3⟩
      unfold Session.run; rw [hs1, ok_bind]; exact h1
    | refund w =>
      have hr' : r + (w.rt + refundWeight os) ≤ w1 := hr
      obtain ⟨s1, hs1, hi, -⟩ := h.refund (w := w) (by omega) hm
      obtain ⟨s', r', h1, h2, h3⟩ := ih (r + w.rt) s1 hi (by omega)
      refine ⟨s', r', ?_, h2, h3⟩
      unfold Session.run; rw [hs1, ok_bind]; exact h1

theorem SInv.first {f : Fees τ} {w : Weight} {p : Holding τ} {t : τ} {n u : Nat} {rest : Holding τ}
    (hp : p = (.concrete t, n) :: rest) (hs : f.supported t = true) (hu : f.units t = some u)
    (hm : u * w.rt ≤ maxU128) (hpos : perSecond ≤ u * w.rt) (hn : u * w.rt / perSecond ≤ n) :
    ∃ s, (Session.new τ).step (.buy f w p) = .ok s ∧ SInv t u w.rt 0 s := by
  have hfee : feeOf u w.rt = u * w.rt / perSecond := by unfold feeOf; rw [Nat.min_eq_left hm]
  obtain ⟨⟨un, tr'⟩, hr⟩ := (C145_buy_when f (Trader.new τ) w p).2
    ⟨t, n, rest, u, hp, hs, hu, by rw [Nat.min_eq_left hm]; exact hn⟩
  obtain ⟨t', n', rest', u', he, hu', -, hle, h0, h1⟩ := buy_ok hr
  rw [hp] at he; cases he
  rw [hu] at hu'; cases hu'
  have hz : feeOf u w.rt ≠ 0 := by
    rw [hfee]; exact Nat.pos_iff_ne_zero.1 (Nat.div_pos hpos (by decide))
  obtain ⟨hun, rfl⟩ := h1 hz
  have hpd := paid_eq hle hun
  refine ⟨⟨book (Trader.new τ) w t (feeOf u w.rt) u, fun t => 0 + (held p t - held un t), fun _ => 0⟩, ?_, ?_⟩
  · unfold Session.step
    dsimp only
    have hr' : Verif.Xcm.buy f (Session.new τ).tr w p = some (un, book (Trader.new τ) w t (feeOf u w.rt) u) := hr
    rw [hr']; rfl
  · subst hp
    refine ⟨⟨_, rfl, ?_⟩, ?_, ?_, fun _ _ => rfl⟩
    · dsimp only; rw [hpd t, if_pos rfl]; intro _; omega
    · show 0 * perSecond ≤ _; rw [Nat.zero_mul]; exact Nat.zero_le _
    · dsimp only; rw [hpd t, if_pos rfl, hfee]; omega

/-- C146, what holds: if refunds are requested of no more weight than the first paid purchase bought (the
executor buys the whole weight of a message first), then — whatever else is bought in between, in whatever
assets — the session does not panic, gives back of no asset more than it took of it, and if the payments do
not exceed the `u128` range, the revenue left for the treasury is exactly what was paid in the first asset
minus what was given back. -/
theorem C146_refund_bounded_partial {f : Fees τ} {w : Weight} {t : τ} {n u : Nat} {rest : Holding τ}
    {ops : List (Op τ)} (hs : f.supported t = true) (hu : f.units t = some u)
    (hn : u * w.rt / perSecond ≤ n) (hpos : perSecond ≤ u * w.rt) (hm : u * w.rt ≤ maxU128)
    (hops : refundWeight ops ≤ w.rt) :
    ∃ s, (Session.new τ).run (.buy f w ((.concrete t, n) :: rest) :: ops) = .ok s ∧
      (∀ x, s.back x ≤ s.paid x) ∧
      (s.paid t ≤ maxU128 → revenue s.tr = some (t, s.paid t - s.back t)) ∧ ∀ x, x ≠ t → s.back x = 0 := by
  obtain ⟨s1, hs1, hi⟩ := SInv.first (p := (.concrete t, n) :: rest) rfl hs hu hm hpos hn
  obtain ⟨s', r', h1, h2, h3⟩ := SInv.run hm ops 0 s1 hi (by omega)
  refine ⟨s', ?_, fun x => h3.bound h2 x, ?_, h3.other⟩
  · unfold Session.run; rw [hs1, ok_bind]; exact h1
  · intro hmx
    obtain ⟨a, ha, hab⟩ := h3.asset
    have := hab hmx
    unfold revenue
    rw [ha]
    show some (t, a) = _
    have : a = s'.paid t - s'.back t := by omega
    rw [this]

example : (exFees.supported 7 = true ∧ exFees.units 7 = some 5000000000000 ∧
    5000000000000 * 100 / perSecond ≤ 600 ∧ perSecond ≤ 5000000000000 * 100 ∧ 5000000000000 * 100 ≤ maxU128) ∧
    refundWeight (τ := Nat) [.buy exFees ⟨50, 0⟩ [(.concrete 8, 50)], .refund ⟨60, 3⟩, .refund ⟨40, 1⟩] ≤ 100 := by
  decide +kernel

omit [DecidableEq τ] in
theorem refund_panic {tr : Trader τ} {w : Weight} {t : τ} {a u : Nat} (h : tr.asset = some (t, a, u))
    (hb : ¬ u * (w.inf tr.weight).rt ≤ maxU128) : refund tr w = .error .panic := by
  unfold refund
  rw [h]
  exact if_neg hb

/-- C146: the multiplication in a refund is unchecked: at a rate of `2^120` a purchase of weight 1000 is
accepted and its refund panics. -/
theorem C146_refund_panics : ∃ (f : Fees Nat) (p : Holding Nat) (s : Session Nat),
    (Session.new Nat).run [.buy f ⟨1000, 0⟩ p] = .ok s ∧ refund s.tr ⟨1000, 0⟩ = .error .panic := by
  refine ⟨⟨fun _ => true, fun _ => some (2 ^ 120)⟩, [(.concrete 7, maxU128)], _, rfl, ?_⟩
  exact refund_panic (u := 2 ^ 120) rfl (by decide +kernel)

/-! ## C147 -/

/-- The property as one would like it: what a session takes is given back or left as revenue, in sessions
that meet the condition of `C146_refund_bounded_partial`. -/
def C147_statement : Prop := ∀ (f : Fees Nat) (w : Weight) (t n u : Nat) (rest : Holding Nat) (ops : List (Op Nat))
    (s : Session Nat), f.supported t = true → f.units t = some u → u * w.rt / perSecond ≤ n →
    perSecond ≤ u * w.rt → u * w.rt ≤ maxU128 → refundWeight ops ≤ w.rt →
    (Session.new Nat).run (.buy f w ((.concrete t, n) :: rest) :: ops) = .ok s →
    (∀ x, s.paid x ≤ maxU128) →
    ∀ x, s.paid x = s.back x + ((revenue s.tr).elim 0 fun r => if r.1 = x then r.2 else 0)

/-- C147 is false: fees taken in a second asset vanish. -/
theorem C147_refuted : ¬ C147_statement := by
  intro h
  have h1 := h exFees ⟨100, 0⟩ 7 600 5000000000000 [] [.buy exFees ⟨50, 0⟩ [(.concrete 8, 50)]] _
    (by decide +kernel) (by decide +kernel) (by decide +kernel) (by decide +kernel) (by decide +kernel)
    (by decide +kernel) rfl ?_ 8
  · exact absurd h1 (by decide +kernel)
  · intro x
    by_cases hx : x = 7
    · subst hx; decide +kernel
    · by_cases hy : x = 8
      · subst hy; decide +kernel
      · have h7 : ∀ n, held [(Key.concrete 7, n)] x = 0 := fun n => held_cons_ne (by omega) _ _
        have h8 : ∀ n, held [(Key.concrete 8, n)] x = 0 := fun n => held_cons_ne (by omega) _ _
        show 0 + (held [(Key.concrete 7, 600)] x - _) + (held [(Key.concrete 8, 50)] x - _) ≤ _
        rw [h7, h8]
        simp

/-- C147, what holds: under the condition of `C146_refund_bounded_partial`, if nothing was paid in another
asset, what the session took is exactly what it gave back plus the revenue. -/
theorem C147_conserved_partial {f : Fees τ} {w : Weight} {t : τ} {n u : Nat} {rest : Holding τ}
    {ops : List (Op τ)} {s : Session τ} (hs : f.supported t = true) (hu : f.units t = some u)
    (hn : u * w.rt / perSecond ≤ n) (hpos : perSecond ≤ u * w.rt) (hm : u * w.rt ≤ maxU128)
    (hops : refundWeight ops ≤ w.rt)
    (hrun : (Session.new τ).run (.buy f w ((.concrete t, n) :: rest) :: ops) = .ok s)
    (hpaid : s.paid t ≤ maxU128) (hone : ∀ x, x ≠ t → s.paid x = 0) :
    ∀ x, s.paid x = s.back x + ((revenue s.tr).elim 0 fun r => if r.1 = x then r.2 else 0) := by
  obtain ⟨s', h1, h2, h3, h4⟩ := C146_refund_bounded_partial (rest := rest) hs hu hn hpos hm hops
  rw [hrun] at h1; cases h1
  intro x
  rw [h3 hpaid]
  show _ = _ + if t = x then _ else 0
  by_cases hx : t = x
  · subst hx; rw [if_pos rfl]; have := h2 t; omega
  · rw [if_neg hx, hone x (Ne.symm hx), h4 x (Ne.symm hx)]

omit [DecidableEq τ] in
/-- C147: the revenue of a known asset is minted to the fee receiver exactly, unless the asset's issuance
would leave the `u128` range (then it is dropped); no other balance changes. -/
theorem C147_booked {l : Ledger} {assetOf : τ → Option Nat} {receiver a m : Nat} {t : τ} (ha : assetOf t = some a)
    (hm : l.iss a + m ≤ maxU128) :
    (takeRevenue l assetOf receiver (t, m)).bal a receiver = l.bal a receiver + m ∧
    ∀ b who, (b, who) ≠ (a, receiver) → (takeRevenue l assetOf receiver (t, m)).bal b who = l.bal b who := by
  have hsome : ∀ l', l.mint a receiver m = .ok l' → l'.bal a receiver = l.bal a receiver + m ∧
      ∀ b who, (b, who) ≠ (a, receiver) → l'.bal b who = l.bal b who := by
    intro l' h
    refine ⟨by rw [Ledger.mint_bal h, if_pos ⟨rfl, rfl⟩], ?_⟩
    intro b who hne
    rw [Ledger.mint_bal h, if_neg, Nat.add_zero]
    rintro ⟨rfl, rfl⟩
    exact hne rfl
  unfold takeRevenue
  dsimp only
  rw [ha]
  dsimp only
  by_cases h0 : m = 0
  · subst h0; rw [if_pos rfl]; exact ⟨rfl, fun _ _ _ => rfl⟩
  · rw [if_neg h0]
    obtain ⟨l', hl'⟩ := Ledger.mint_succeeds (l := l) (a := a) (w := receiver) (m := m) hm
    rw [hl']
    exact hsome l' hl'

/-! ## C145: the weight that can be refunded -/

/-- C145: what a purchase adds to the refundable weight, in time and proof size (capped at `u64`): nothing if it costs nothing;
twice the weight bought if it is the first that costs something or in the same asset; otherwise once. -/
theorem C145_buy_weight {f : Fees τ} {tr tr' : Trader τ} {w : Weight} {t : τ} {n u : Nat} {rest un : Holding τ}
    (h : buy f tr w ((.concrete t, n) :: rest) = some (un, tr')) (hu : f.units t = some u) :
    (feeOf u w.rt = 0 → tr' = tr) ∧
    (feeOf u w.rt ≠ 0 → (∀ p a v, tr.asset = some (p, a, v) → p = t) →
      tr'.weight.rt = min (min (tr.weight.rt + w.rt) maxU64 + w.rt) maxU64 ∧
      tr'.weight.ps = min (min (tr.weight.ps + w.ps) maxU64 + w.ps) maxU64) ∧
    (feeOf u w.rt ≠ 0 → ∀ p a v, tr.asset = some (p, a, v) → p ≠ t →
      tr'.weight.rt = min (tr.weight.rt + w.rt) maxU64 ∧ tr'.weight.ps = min (tr.weight.ps + w.ps) maxU64) := by
  obtain ⟨t', n', rest', u', he, hu', -, hle, h0, h1⟩ := buy_ok h
  cases he
  rw [hu] at hu'
  cases hu'
  refine ⟨fun hz => (h0 hz).2, fun hz hp => ?_, fun hz p a v hs hp => ?_⟩
  · rw [(h1 hz).2]
    unfold book
    cases ha : tr.asset with
    | none => exact ⟨rfl, rfl⟩
    | some q =>
      obtain ⟨p, a, v⟩ := q
      dsimp only
      rw [if_pos (hp p a v ha)]
      exact ⟨rfl, rfl⟩
  · rw [(h1 hz).2]
    unfold book
    rw [hs]
    dsimp only
    rw [if_neg hp]
    exact ⟨rfl, rfl⟩

omit [DecidableEq τ] in
/-- C145: a refund uses up the weight it is paid for; the proof size is used up in the same way. -/
theorem C145_refund_weight {tr tr' : Trader τ} {w : Weight} {o : Option (τ × Nat)} (h : refund tr w = .ok (tr', o))
    {q : τ × Nat × Nat} (hq : tr.asset = some q) :
    tr'.weight.rt = tr.weight.rt - w.rt ∧ tr'.weight.ps = tr.weight.ps - w.ps := by
  unfold refund at h
  obtain ⟨t, a, u⟩ := q
  rw [hq] at h
  dsimp only at h
  split at h
  · cases h
    constructor
    · show tr.weight.rt - min w.rt tr.weight.rt = _
      omega
    · show tr.weight.ps - min w.ps tr.weight.ps = _
      omega
  · cases h

omit [DecidableEq τ] in
/-- C145: a new trader has nothing to refund. -/
theorem C145_new : (Trader.new τ).weight.rt = 0 ∧ (Trader.new τ).weight.ps = 0 ∧ (Trader.new τ).asset = none := ⟨rfl, rfl, rfl⟩

/-- A purchase of weight (100, 3) makes (200, 6) refundable. -/
example : (match buy exFees (Trader.new Nat) ⟨100, 3⟩ [(.concrete 7, 600)] with
    | some (_, tr) => decide (tr.weight = ⟨200, 6⟩)
    | none => false) = true := by decide +kernel

end Verif.Xcm
