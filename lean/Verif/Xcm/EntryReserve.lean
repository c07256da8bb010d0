import Verif.Xcm.EntryProps

/-! # Entry of XCM messages: property C188, where units of an asset come from -/

set_option linter.unusedSimpArgs false
set_option linter.unusedVariables false

namespace Verif.Xcm
open Verif

variable {e : Env}

theorem weights_app (i : List Instr) (f : AssetKey × Nat) (l l' : Option Weight) (rest : List Instr) :
    weights e.base (i ++ .buy f l :: rest) = weights e.base (i ++ .buy f l' :: rest) := by
  induction i with
  | nil => rw [List.nil_append, List.nil_append, weights, weights]; rfl
  | cons a i ih => rw [List.cons_append, List.cons_append, weights, weights, ih]

/-- Until the purchase nothing is booked and no handler is set. -/
def Waiting (W : Weight) (vm : Vm) (is : List Instr) : Prop :=
  vm.trader.asset = none ∧ vm.handler = [] ∧ vm.appendix = [] ∧ vm.refunded.rt = 0 ∧
  (is = [] ∨ ∃ pre f rest, is = pre ++ .buy f (some W) :: rest ∧ ∀ i ∈ pre, BringsAssets i ∨ i = .clearOrigin)

theorem prefix_frame (vm : Vm) {i : Instr} (h : BringsAssets i ∨ i = .clearOrigin) :
    (step e vm i).1.handler = vm.handler ∧ (step e vm i).1.appendix = vm.appendix ∧ (step e vm i).1.trader = vm.trader ∧
    (step e vm i).1.refunded = vm.refunded := by
  cases i with
  | withdraw as =>
    refine withOrigin_elim (P := fun r => r.1.handler = vm.handler ∧ r.1.appendix = vm.appendix ∧ r.1.trader = vm.trader ∧
      r.1.refunded = vm.refunded) vm _ ⟨rfl, rfl, rfl, rfl⟩ (fun o' ho => ?_)
    obtain ⟨l, hd, hh⟩ := withdrawAll_frame (e := e) o' as vm
    rw [hh]
    exact ⟨rfl, rfl, rfl, rfl⟩
  | reserveDeposited as =>
    refine withOrigin_elim (P := fun r => r.1.handler = vm.handler ∧ r.1.appendix = vm.appendix ∧ r.1.trader = vm.trader ∧
      r.1.refunded = vm.refunded) vm _ ⟨rfl, rfl, rfl, rfl⟩ (fun o' ho => ?_)
    obtain ⟨hd, hh⟩ := receiveAll_frame (e := e) o' as vm
    rw [hh]
    exact ⟨rfl, rfl, rfl, rfl⟩
  | teleported as =>
    refine withOrigin_elim (P := fun r => r.1.handler = vm.handler ∧ r.1.appendix = vm.appendix ∧ r.1.trader = vm.trader ∧
      r.1.refunded = vm.refunded) vm _ ⟨rfl, rfl, rfl, rfl⟩ (fun o' ho => ?_)
    split <;> exact ⟨rfl, rfl, rfl, rfl⟩
  | claim as =>
    refine withOrigin_elim (P := fun r => r.1.handler = vm.handler ∧ r.1.appendix = vm.appendix ∧ r.1.trader = vm.trader ∧
      r.1.refunded = vm.refunded) vm _ ⟨rfl, rfl, rfl, rfl⟩ (fun o' ho => ?_)
    split
    · obtain ⟨hd, hh⟩ := subsumeAll_frame (e := e) as { vm with traps := vm.traps.eraseP (sameTrap o' as) }
      rw [hh]
      exact ⟨rfl, rfl, rfl, rfl⟩
    · exact ⟨rfl, rfl, rfl, rfl⟩
  | clearOrigin => exact ⟨rfl, rfl, rfl, rfl⟩
  | _ => rcases h with h | h <;> cases h

theorem good_fee (hg : GoodRates e) {t : Loc} {u : Nat} (hu : e.fees.units t = some u) {W : Nat} (h1 : e.base.rt ≤ W)
    (h2 : W ≤ maxU64) : feeOf u W = u * W / perSecond ∧ feeOf u W ≠ 0 ∧ feeOf u W ≤ maxU128 := by
  obtain ⟨q1, q2⟩ := hg.2 t u hu
  have q3 : u * W ≤ maxU128 := (Nat.mul_le_mul_left _ h2).trans q2
  have q4 : perSecond ≤ u * W := q1.trans (Nat.mul_le_mul_left _ h1)
  unfold feeOf
  rw [Nat.min_eq_left q3]
  refine ⟨rfl, ?_, (Nat.div_le_self _ _).trans q3⟩
  have : 1 ≤ u * W / perSecond := (Nat.one_le_div_iff (by unfold perSecond; omega)).2 q4
  omega

/-- The purchase. -/
theorem buy_phase (hg : GoodRates e) {W : Weight} (h1 : e.base.rt ≤ W.rt) (h2 : W.rt ≤ maxU64) {vm : Vm} {f : AssetKey × Nat}
    (ha : vm.trader.asset = none) (hr : vm.refunded.rt = 0) :
    Bought W.rt (buyExecution e vm f (some W)).1 ∨
    ((buyExecution e vm f (some W)).1.trader.asset = none ∧ ∃ x, (buyExecution e vm f (some W)).2 = .error x) := by
  unfold buyExecution
  dsimp only
  cases ht : tryTake f vm.holding with
  | none => exact Or.inr ⟨ha, _, rfl⟩
  | some h =>
    dsimp only
    cases hb : buy e.fees vm.trader W [(toKey f.1, f.2)] with
    | none => exact Or.inr ⟨ha, _, rfl⟩
    | some q =>
      obtain ⟨un, tr⟩ := q
      left
      dsimp only
      obtain ⟨h', hh⟩ := subsumeAll_frame (e := e) (un.map (fun a => (ofKey a.1, a.2))) { vm with holding := h, trader := tr }
      rw [hh]
      obtain ⟨t, u, -, -, hu, hc⟩ := buy_single hb
      obtain ⟨g1, g2, g3⟩ := good_fee hg hu h1 h2
      rcases hc with ⟨hz, -, -⟩ | ⟨-, -, -, rfl⟩
      · exact absurd hz g2
      · refine ⟨t, feeOf u W.rt, u, ?_, ?_, g3⟩
        · show (book vm.trader W t (feeOf u W.rt) u).asset = _
          unfold book
          rw [ha]
        · show u * (W.rt - vm.refunded.rt) / perSecond ≤ _
          rw [hr, g1, Nat.sub_zero]

/-- What is known while a paid message runs. -/
def Safe (e : Env) (W : Weight) (x m : Nat) (o : Loc) (vm : Vm) (is : List Instr) : Prop :=
  Fine e x m vm ∧ Acts e o [] vm ∧ Pot e W.rt vm is ∧ (Bought W.rt vm ∨ Waiting W vm is)

theorem Safe.trader {W : Weight} {x m : Nat} {o : Loc} {vm : Vm} {is : List Instr} (h : Safe e W x m o vm is) :
    Bought W.rt vm ∨ vm.trader.asset = none := h.2.2.2.imp id (fun h => h.1)

theorem step_phase (hg : GoodRates e) {W : Weight} (h1 : e.base.rt ≤ W.rt) (h2 : W.rt ≤ maxU64) {vm : Vm} {i : Instr}
    {is : List Instr} (hp : Pot e W.rt vm (i :: is)) (h : Bought W.rt vm ∨ Waiting W vm (i :: is)) :
    Bought W.rt (step e vm i).1 ∨ (∀ js, js = [] ∨ (js = is ∧ (step e vm i).2 = .ok ()) → Waiting W (step e vm i).1 js) := by
  rcases h with h | ⟨q1, q2, q3, q4, q5⟩
  · exact Or.inl (step_bought vm i is hp h)
  · rcases q5 with q5 | ⟨pre, f, rest, q5, q6⟩
    · cases q5
    · cases pre with
      | nil =>
        cases q5
        rcases buy_phase hg h1 h2 (f := f) q1 q4 with hb | ⟨hb, y, hy⟩
        · exact Or.inl hb
        · right
          intro js hjs
          obtain ⟨tr, hd, hh⟩ := buyExecution_frame (e := e) vm f (some W)
          have hs : step e vm (.buy f (some W)) = buyExecution e vm f (some W) := rfl
          rw [hs]
          rw [hs, hy] at hjs
          rcases hjs with rfl | ⟨-, hjs⟩
          · rw [hh] at hb ⊢
            exact ⟨hb, q2, q3, q4, Or.inl rfl⟩
          · cases hjs
      | cons j pre =>
        cases q5
        right
        intro js hjs
        obtain ⟨w1, w2, w3, w4⟩ := prefix_frame (e := e) vm (q6 i (by simp))
        refine ⟨by rw [w3]; exact q1, by rw [w1]; exact q2, by rw [w2]; exact q3, by rw [w4]; exact q4, ?_⟩
        rcases hjs with rfl | ⟨rfl, -⟩
        · exact Or.inl rfl
        · exact Or.inr ⟨pre, f, rest, rfl, fun k hk => q6 k (List.mem_cons_of_mem _ hk)⟩

theorem drive_safe (hg : GoodRates e) {W : Weight} (h1 : e.base.rt ≤ W.rt) (h2 : W.rt ≤ maxU64) {x m n : Nat} {o : Loc}
    (hr : NotReserve e o x) {vm vm' : Vm} {is : List Instr} (hq : Safe e W x m o vm is) (h : drive e n vm is = .ok vm') :
    ∃ is', Safe e W x m o vm' is' := by
  refine drive_ind (e := e) (Safe e W x m o) ?_ ?_ ?_ ?_ ?_ n vm is vm' hq h
  · intro v i js v' hv hs
    have a1 := step_fine v i js hv.2.2.1 hv.2.1 hr hv.trader hv.1
    have a2 := step_acts v i hv.2.1
    have a3 := step_pot v i js hv.2.2.1
    have a4 := step_phase hg h1 h2 hv.2.2.1 hv.2.2.2
    rw [hs] at a1 a2 a3 a4
    exact ⟨a1, a2, a3, a4.imp id (fun f => f js (Or.inr ⟨rfl, rfl⟩))⟩
  · intro v i js v' y hv hs _
    have a1 := step_fine v i js hv.2.2.1 hv.2.1 hr hv.trader hv.1
    have a2 := step_acts v i hv.2.1
    have a3 := step_pot v i js hv.2.2.1
    have a4 := step_phase hg h1 h2 hv.2.2.1 hv.2.2.2
    rw [hs] at a1 a2 a3 a4
    dsimp only at a1 a2 a3 a4
    refine ⟨a1, a2.congr rfl rfl, ?_, a4.imp (fun f => f.congr rfl rfl) (fun f => f [] (Or.inl rfl))⟩
    obtain ⟨b1, b2⟩ := a3
    have hsum : (v'.surplus.plus (weights e.base js)).rt = v'.surplus.rt + wt e js := rfl
    refine ⟨?_, ?_⟩
    · dsimp only; omega
    · dsimp only; rw [wt_nil]; omega
  · intro v hv
    refine ⟨hv.1, hv.2.1.congr rfl rfl, ?_, hv.2.2.2.imp (fun f => f.congr rfl rfl) ?_⟩
    · obtain ⟨b1, b2⟩ := hv.2.2.1
      have hsum : (v.surplus.plus (weights e.base v.handler)).rt = v.surplus.rt + wt e v.handler := rfl
      rw [wt_nil] at b2
      refine ⟨?_, ?_⟩
      · show v.refunded.rt ≤ _
        show v.refunded.rt ≤ (v.surplus.plus (weights e.base v.handler)).rt
        omega
      · show (v.surplus.plus (weights e.base v.handler)).rt + wt e v.appendix + wt e [] + wt e [] ≤ _
        rw [wt_nil]
        omega
    · rintro ⟨c1, c2, c3, c4, -⟩
      exact ⟨c1, rfl, rfl, c4, Or.inl c3⟩
  · intro v hh hv
    refine ⟨hv.1, hv.2.1.congr rfl rfl, ?_, hv.2.2.2.imp (fun f => f.congr rfl rfl) ?_⟩
    · obtain ⟨b1, b2⟩ := hv.2.2.1
      rw [wt_nil] at b2
      refine ⟨b1, ?_⟩
      show v.surplus.rt + wt e v.appendix + wt e v.handler + wt e [] ≤ _
      rw [wt_nil]
      omega
    · rintro ⟨c1, c2, c3, c4, -⟩
      exact ⟨c1, c2, rfl, c4, Or.inl c3⟩
  · intro v hv
    refine ⟨hv.1, hv.2.1.congr rfl rfl, ?_, hv.2.2.2.imp (fun f => f.congr rfl rfl) ?_⟩
    · obtain ⟨b1, b2⟩ := hv.2.2.1
      rw [wt_nil] at b2
      refine ⟨b1, ?_⟩
      show v.surplus.rt + wt e v.handler + wt e [] + wt e v.appendix ≤ _
      rw [wt_nil]
      omega
    · rintro ⟨c1, c2, c3, c4, -⟩
      exact ⟨c1, rfl, c3, c4, Or.inl c2⟩

theorem revenue_units (x : Nat) {l : Ledger} (hl : l.WF) (tr : Trader Loc) (w : Nat) :
    (match revenue tr with
      | none => l
      | some r => takeRevenue l (assetIdOf e.self e.typeId) w r).WF ∧
    (match revenue tr with
      | none => l
      | some r => takeRevenue l (assetIdOf e.self e.typeId) w r).iss x ≤ l.iss x + bookedIn e x tr := by
  unfold revenue bookedIn
  cases tr.asset with
  | none => exact ⟨hl, Nat.le_refl _⟩
  | some q =>
    obtain ⟨t, a, u⟩ := q
    dsimp only [Option.map_some]
    unfold takeRevenue
    dsimp only
    have hc : curOf e (.concrete t) = assetIdOf e.self e.typeId t := rfl
    rw [hc]
    cases ht : assetIdOf e.self e.typeId t with
    | none => exact ⟨hl, Nat.le_add_right _ _⟩
    | some b =>
      dsimp only
      split
      · exact ⟨hl, Nat.le_add_right _ _⟩
      · cases hm : l.mint b w a with
        | error y => exact ⟨hl, Nat.le_add_right _ _⟩
        | ok l' =>
          refine ⟨Ledger.mint_wf hm hl, ?_⟩
          have := Ledger.mint_iss hm x
          show l'.iss x ≤ _
          rw [this]
          by_cases hx : x = b
          · subst hx; simp
          · rw [if_neg hx]; omega

theorem finish_safe {W : Weight} {x m : Nat} {o : Loc} {vm vm' : Vm} {is : List Instr} (hq : Safe e W x m o vm is)
    (h : finish e o vm = .ok vm') : vm'.ledger.WF ∧ vm'.ledger.iss x + trappedIn e x vm'.traps ≤ m := by
  obtain ⟨-, v, hv, h1, h2, h3⟩ := finish_ok h
  obtain ⟨c1, c2, -⟩ := refundSurplus_cases (e := e) x vm _ hq.2.2.1
  have hu : v.units e x ≤ m := by
    rw [hv]
    have := hq.1.2
    rcases hq.trader with hb | hb
    · have := (c1 hb).2; omega
    · have := (c2 hb).2; omega
  have hl : v.ledger.WF := by rw [h1]; exact hq.1.1
  have hrev : vm'.ledger.WF ∧ vm'.ledger.iss x ≤ v.ledger.iss x + bookedIn e x v.trader := by
    rw [h2]
    exact revenue_units (e := e) x hl v.trader e.treasury
  refine ⟨hrev.1, ?_⟩
  have ht : trappedIn e x vm'.traps = trappedIn e x v.traps + heldIn e x v.holding := by
    rw [h3]
    by_cases hh : v.holding = []
    · rw [if_pos hh, hh]; rfl
    · rw [if_neg hh, trappedIn_cons]
      dsimp only
      omega
  have := hrev.2
  unfold Vm.units at hu
  omega

/-- The statement: a message from another chain does not increase the number of units (issued or trapped) of an asset whose
reserve is not the sender. -/
def C188_statement : Prop := ∀ (e : Env), GoodRates e → ∀ n (s s' : Sys) (o : Loc) (is : List Instr) (x : Nat), s.ledger.WF →
  NotReserve e o x → inbound e n s o is ⟨0, 0⟩ = .ok s' → s'.units e x ≤ s.units e x

/-- **C188, partial.** It holds for every message that is not a response to an expected query. -/
theorem C188_partial (hg : GoodRates e) {n : Nat} {s s' : Sys} {o : Loc} {is : List Instr} {x : Nat} (hl : s.ledger.WF)
    (hr : NotReserve e o x) (hk : knownResponse e o is = false) (h : inbound e n s o is ⟨0, 0⟩ = .ok s') :
    s'.ledger.WF ∧ s'.units e x ≤ s.units e x := by
  rcases C185_partial hg hk h with rfl | ⟨w, hw, hpay⟩
  · exact ⟨hl, Nat.le_refl _⟩
  · rcases inbound_ok h with rfl | ⟨w', is', vm, vm', hw', hb, hd, hf, rfl⟩
    · exact ⟨hl, Nat.le_refl _⟩
    · rw [hw] at hw'
      cases hw'
      obtain ⟨e1, e2, e3, e4⟩ := (C184_weight is w).1 hw
      obtain ⟨first, k, f, l, rest, r1, r2, -⟩ := hpay
      have hle : e.base.rt ≤ w.rt := by
        rw [e1, r1, weights]
        exact (base_le_weight first).trans (Nat.le_add_right _ _)
      have hle2 : w.rt ≤ maxU64 := by rw [e1]; exact e3
      have hpre : ∀ i ∈ first :: List.replicate k Instr.clearOrigin, BringsAssets i ∨ i = .clearOrigin := by
        intro i hi
        rcases List.mem_cons.1 hi with rfl | hi
        · exact Or.inl r2
        · exact Or.inr (List.eq_of_mem_replicate hi)
      have hpaid : paidExecution w is = some is' := by
        unfold barrier at hb
        have hne : ¬ w.le ⟨0, 0⟩ := by
          rintro ⟨hz, -⟩
          have := hg.1
          dsimp only at hz
          omega
        rw [if_neg hne, hk] at hb
        have hsub : subscription o is = false := by
          rw [r1]
          cases first <;> first | rfl | exact r2.elim
        rw [hsub] at hb
        exact hb
      obtain ⟨first', k', f', l', rest', p1, p2, -, -, p5⟩ := (paidExecution_iff w is is').1 hpaid
      have hpre' : ∀ i ∈ first' :: List.replicate k' Instr.clearOrigin, BringsAssets i ∨ i = .clearOrigin := by
        intro i hi
        rcases List.mem_cons.1 hi with rfl | hi
        · exact Or.inl p2
        · exact Or.inr (List.eq_of_mem_replicate hi)
      have hwt : wt e is' = w.rt := by
        unfold wt
        rw [e1, p5, p1, ← List.cons_append, ← List.cons_append, weights_app]
      have hsafe : Safe e w x (s.units e x) o (Vm.start s.ledger s.traps o) is' := by
        refine ⟨⟨hl, ?_⟩, ⟨fun o' ho => by (cases ho; exact Below.refl o), fun p hp => by (cases hp)⟩, ⟨Nat.le_refl _, ?_⟩,
          Or.inr ⟨rfl, rfl, rfl, rfl, Or.inr ⟨_, f', rest', p5, hpre'⟩⟩⟩
        · exact Nat.le_refl _
        · show 0 + wt e is' + wt e [] + wt e [] ≤ _
          rw [wt_nil]
          omega
      obtain ⟨is2, hs2⟩ := drive_safe hg hle hle2 hr hsafe hd
      exact finish_safe hs2 hf

/-- A parachain is the reserve only of assets registered at locations inside it. -/
theorem notReserve_sibling {p x : Nat} (h : ∀ js, e.typeId ⟨1, .parachain p :: js⟩ ≠ some x) :
    NotReserve e ⟨1, [.parachain p]⟩ x := by
  rintro o' ⟨js, rfl⟩ k hk
  cases k with
  | abstract n => cases hk
  | concrete l =>
    have hk' : chainPart l = some ⟨1, .parachain p :: js⟩ := of_decide_eq_true hk
    show e.typeId (canonical e.self l) ≠ some x
    unfold chainPart at hk'
    split at hk'
    · cases hk'
      exact h _
    · cases hk'
    · cases hk'
    · cases hk'

/-- **C188, partial.** A paid message from the parachain `p` does not bring units of an asset that is registered at no location
inside `p`: neither of other chains' assets, nor of this chain's own. -/
theorem C188_sibling_partial (hg : GoodRates e) {n p : Nat} {s s' : Sys} {is : List Instr} {x : Nat} (hl : s.ledger.WF)
    (hx : ∀ js, e.typeId ⟨1, .parachain p :: js⟩ ≠ some x) (hk : knownResponse e ⟨1, [.parachain p]⟩ is = false)
    (h : inbound e n s ⟨1, [.parachain p]⟩ is ⟨0, 0⟩ = .ok s') : s'.units e x ≤ s.units e x :=
  (C188_partial hg hl (notReserve_sibling hx) hk h).2

/-- A history of messages, each with its origin; one that cannot be run to the end (a panic) has no effect. -/
def receive (e : Env) (n : Nat) (s : Sys) (ms : List (Loc × List Instr)) : Sys :=
  ms.foldl (fun s m => commit s (inbound e n s m.1 m.2 ⟨0, 0⟩)) s

/-- **C188, partial, over histories.** No sequence of messages from chains that are not the reserve of an asset increases the
number of its units, as long as no message is a response to an expected query. -/
theorem C188_history_partial (hg : GoodRates e) (n x : Nat) : ∀ (ms : List (Loc × List Instr)) (s : Sys), s.ledger.WF →
    (∀ m ∈ ms, NotReserve e m.1 x ∧ knownResponse e m.1 m.2 = false) →
    (receive e n s ms).ledger.WF ∧ (receive e n s ms).units e x ≤ s.units e x := by
  intro ms
  induction ms with
  | nil => intro s hl _; exact ⟨hl, Nat.le_refl _⟩
  | cons m ms ih =>
    intro s hl hm
    have hm1 := hm m (by simp)
    have key : (commit s (inbound e n s m.1 m.2 ⟨0, 0⟩)).ledger.WF ∧
        (commit s (inbound e n s m.1 m.2 ⟨0, 0⟩)).units e x ≤ s.units e x := by
      cases hi : inbound e n s m.1 m.2 ⟨0, 0⟩ with
      | error y => exact ⟨hl, Nat.le_refl _⟩
      | ok t => exact C188_partial hg hl hm1.1 hm1.2 hi
    have := ih _ key.1 (fun k hk => hm k (List.mem_cons_of_mem _ hk))
    exact ⟨this.1, this.2.trans key.2⟩

theorem sib7_not (js : List Junction) : exEnv.typeId ⟨1, .parachain 7 :: js⟩ ≠ some 101 := by
  show (if (⟨1, .parachain 7 :: js⟩ : Loc) = ⟨1, []⟩ then some 101
    else if (⟨1, .parachain 7 :: js⟩ : Loc) = ⟨1, [.parachain 1, .other 0]⟩ then some 0 else none) ≠ some 101
  rw [if_neg (by intro h; cases h), if_neg (by intro h; cases h)]
  intro h
  cases h

/-- **C188 is false.** After the response to an expected query, chain 7 buys a small weight for 20 units; the trader records it
twice, and refunds 40. -/
theorem C188_refuted : ¬ C188_statement := by
  intro h
  have hx : okAnd (inbound exEnv 5 exSys sib7 [.queryResponse 3 none, .withdraw [(dot, 50)], .buy (dot, 20) (some ⟨20, 0⟩),
      .other false, .other true, .other true, .other true, .other true, .other true] ⟨0, 0⟩)
    (fun t => decide (exSys.units exEnv 101 < t.units exEnv 101)) = true := by decide +kernel
  obtain ⟨t, ht, hl⟩ := okAnd_iff.mp hx
  have := h exEnv exEnv_good 5 exSys t sib7 _ 101 exChain_wf (notReserve_sibling sib7_not) ht
  have hl' := of_decide_eq_true hl
  omega

/-- The relay chain, the reserve of asset 101, brings units of it; chain 7 does not. -/
example : okAnd (inbound exEnv 5 exSys ⟨1, []⟩ [.reserveDeposited [(dot, 70)], .clearOrigin, .buy (dot, 70) none,
      .depositAsset (fun _ => 1000) ⟨0, [.other 5]⟩ true] ⟨0, 0⟩)
    (fun t => decide (t.units exEnv 101 = exSys.units exEnv 101 + 70 ∧ t.ledger.bal 101 5 = 100)) = true ∧
  okAnd (inbound exEnv 5 exSys sib7 [.reserveDeposited [(dot, 70)], .clearOrigin, .buy (dot, 70) none,
      .depositAsset (fun _ => 1000) ⟨0, [.other 5]⟩ true] ⟨0, 0⟩)
    (fun t => decide (t.units exEnv 101 = exSys.units exEnv 101 ∧ t.ledger.bal 101 5 = 70)) = true := by
  constructor <;> decide +kernel

/-- Chain 7 pays with its own deposit; an error refunds the rest of the weight, and the refund is trapped. -/
example : okAnd (inbound exEnv 5 exSys sib7 [.withdraw [(dot, 70)], .buy (dot, 70) none, .other false, .other true] ⟨0, 0⟩)
    (fun t => decide (t.units exEnv 101 = exSys.units exEnv 101 ∧ t.traps = [(sib7, [(dot, 40)])] ∧ t.ledger.bal 101 98 = 30)) = true := by
  decide +kernel

end Verif.Xcm
