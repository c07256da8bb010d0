import Verif.Xcm.EntrySupply

/-! # Entry of XCM messages: properties C184 – C188 -/

set_option linter.unusedSimpArgs false
set_option linter.unusedVariables false

namespace Verif.Xcm
open Verif

variable {e : Env}

/-! ## Examples -/

/-- The relay chain's asset is asset 101 with the rate 10^12 per second, the chain's own asset is asset 0; chain 7 is expected
to answer query 3. -/
def exEnv : Env :=
  { self := 1
    typeId := fun l => if l = ⟨1, []⟩ then some 101 else if l = ⟨1, [.parachain 1, .other 0]⟩ then some 0 else none
    native := 0
    gift := 99
    giftOf := fun _ _ => 0
    parentAcct := 1000
    siblingAcct := fun p => 2000 + p
    account32 := fun n => if n < 500 then some n else none
    fees := ⟨fun t => decide (t = ⟨1, []⟩), fun t => if t = ⟨1, []⟩ then some 1000000000000 else none⟩
    treasury := 98
    base := ⟨10, 0⟩
    maxInstrs := 100
    expecting := fun o id _ => decide (o = ⟨1, [.parachain 7]⟩ ∧ id = 3)
    room := fun n => decide (n < 64) }

theorem exEnv_good : GoodRates exEnv := by
  refine ⟨by decide, ?_⟩
  intro t u hu
  change (if t = ⟨1, []⟩ then some 1000000000000 else none) = some u at hu
  split at hu
  · cases hu
    decide
  · cases hu

@[irreducible] def exChain : Ledger := Ledger.ofList [(101, 2007, 100), (0, 2007, 50), (101, 5, 70)]
theorem exChain_wf : exChain.WF := by unfold exChain; exact Ledger.ofList_wf _
def exSys : Sys := ⟨exChain, [], []⟩
def dot : AssetKey := .concrete ⟨1, []⟩
def sib7 : Loc := ⟨1, [.parachain 7]⟩

/-! ## C184: which messages are let in -/

theorem paidTail_iff (w : Weight) : ∀ (n : Nat) (is is' : List Instr), paidTail w n is = some is' ↔
    ∃ k f l rest, k < n ∧ is = List.replicate k .clearOrigin ++ .buy f l :: rest ∧ (l = none ∨ ∃ v, l = some v ∧ w.le v) ∧
      is' = List.replicate k .clearOrigin ++ .buy f (some w) :: rest := by
  intro n
  induction n with
  | zero =>
    intro is is'
    constructor
    · intro h
      unfold paidTail at h
      cases h
    · rintro ⟨k, _, _, _, hk, _⟩
      omega
  | succ n ih =>
    intro is is'
    cases is with
    | nil =>
      constructor
      · intro h
        unfold paidTail at h
        cases h
      · rintro ⟨k, f, l, rest, hk, h, _⟩
        cases k <;> cases h
    | cons i is =>
      by_cases hc : i = .clearOrigin
      · subst hc
        rw [paidTail]
        constructor
        · intro h
          rw [Option.map_eq_some_iff] at h
          obtain ⟨js, h1, rfl⟩ := h
          obtain ⟨k, f, l, rest, hk, rfl, hl, rfl⟩ := (ih _ _).1 h1
          exact ⟨k + 1, f, l, rest, by omega, rfl, hl, rfl⟩
        · rintro ⟨k, f, l, rest, hk, h, hl, rfl⟩
          cases k with
          | zero => cases h
          | succ k =>
            rw [List.replicate_succ, List.cons_append, List.cons.injEq] at h
            rw [Option.map_eq_some_iff]
            exact ⟨_, (ih _ _).2 ⟨k, f, l, rest, by omega, h.2, hl, rfl⟩, rfl⟩
      · by_cases hb : ∃ f l, i = .buy f l
        · obtain ⟨f, l, rfl⟩ := hb
          have hz : ∀ (k : Nat) (f' : AssetKey × Nat) (l' : Option Weight) (rest : List Instr),
              Instr.buy f l :: is = List.replicate k .clearOrigin ++ .buy f' l' :: rest →
              k = 0 ∧ f' = f ∧ l' = l ∧ rest = is := by
            intro k f' l' rest h
            cases k with
            | zero => cases h; exact ⟨rfl, rfl, rfl, rfl⟩
            | succ k => cases h
          cases l with
          | none =>
            rw [paidTail]
            constructor
            · intro h
              cases h
              exact ⟨0, f, none, is, by omega, rfl, Or.inl rfl, rfl⟩
            · rintro ⟨k, f', l', rest, hk, h, hl, rfl⟩
              obtain ⟨rfl, rfl, rfl, rfl⟩ := hz _ _ _ _ h
              rfl
          | some v =>
            rw [paidTail]
            constructor
            · intro h
              split at h
              · rename_i hv
                cases h
                exact ⟨0, f, some v, is, by omega, rfl, Or.inr ⟨v, rfl, hv⟩, rfl⟩
              · cases h
            · rintro ⟨k, f', l', rest, hk, h, hl, rfl⟩
              obtain ⟨rfl, rfl, rfl, rfl⟩ := hz _ _ _ _ h
              rcases hl with hl | ⟨v', hv', hle⟩
              · cases hl
              · cases hv'
                rw [if_pos hle]
                rfl
        · have hn : paidTail w (n + 1) (i :: is) = none := by
            cases i <;> first | rfl | exact absurd rfl hc | exact absurd ⟨_, _, rfl⟩ hb
          rw [hn]
          constructor
          · intro h; cases h
          · rintro ⟨k, f, l, rest, hk, h, _⟩
            cases k with
            | zero => cases h; exact absurd ⟨_, _, rfl⟩ hb
            | succ k => cases h; exact absurd rfl hc

theorem paidExecution_iff (w : Weight) (is is' : List Instr) : paidExecution w is = some is' ↔
    ∃ first k f l rest, is = first :: (List.replicate k .clearOrigin ++ .buy f l :: rest) ∧ BringsAssets first ∧ k ≤ 3 ∧
      (l = none ∨ ∃ v, l = some v ∧ w.le v) ∧
      is' = first :: (List.replicate k .clearOrigin ++ .buy f (some w) :: rest) := by
  cases is with
  | nil =>
    constructor
    · intro h; cases h
    · rintro ⟨_, _, _, _, _, h, _⟩; cases h
  | cons i is =>
    by_cases hb : BringsAssets i
    · have he : paidExecution w (i :: is) = (paidTail w 4 is).map (i :: ·) := by
        cases i <;> first | rfl | exact hb.elim
      rw [he, Option.map_eq_some_iff]
      constructor
      · rintro ⟨js, h1, rfl⟩
        obtain ⟨k, f, l, rest, hk, rfl, hl, rfl⟩ := (paidTail_iff w _ _ _).1 h1
        exact ⟨i, k, f, l, rest, rfl, hb, by omega, hl, rfl⟩
      · rintro ⟨first, k, f, l, rest, h, -, hk, hl, rfl⟩
        cases h
        exact ⟨_, (paidTail_iff w _ _ _).2 ⟨k, f, l, rest, by omega, rfl, hl, rfl⟩, rfl⟩
    · have he : paidExecution w (i :: is) = none := by
        cases i <;> first | rfl | exact absurd trivial hb
      rw [he]
      constructor
      · intro h; cases h
      · rintro ⟨first, k, f, l, rest, h, hf, _⟩
        cases h
        exact absurd hf hb

/-- **C184.** A message from another chain (which comes without weight credit) is run exactly if it weighs nothing, or begins
with the response to a query that this chain expects from its origin, or consists of one version subscription (or its end) by
the relay chain or a location one step below it, or brings assets and then buys its whole weight. -/
theorem C184_accepted (o : Loc) (is : List Instr) (w : Weight) :
    (∃ is', barrier e o is w ⟨0, 0⟩ = some is') ↔
    (w.rt = 0 ∧ w.ps = 0) ∨ (∃ id q rest, is = .queryResponse id q :: rest ∧ e.expecting o id q = true) ∨
    ((is = [.subscribe] ∨ is = [.unsubscribe]) ∧ o.parents = 1 ∧ o.interior.length ≤ 1) ∨ PaysFirst w is := by
  have hsub : ∀ l : Loc, parentOrSiblings l = true ↔ l.parents = 1 ∧ l.interior.length ≤ 1 := by
    rintro ⟨p, js⟩
    constructor
    · intro h
      unfold parentOrSiblings at h
      split at h
      · rename_i hh; cases hh; exact ⟨rfl, by simp⟩
      · rename_i hh; cases hh; exact ⟨rfl, by simp⟩
      · cases h
    · rintro ⟨h1, h2⟩
      dsimp only at h1 h2
      subst h1
      match js with
      | [] => rfl
      | [_] => rfl
      | _ :: _ :: _ => simp at h2
  unfold barrier
  by_cases h0 : w.le ⟨0, 0⟩
  · rw [if_pos h0]
    exact ⟨fun _ => Or.inl ⟨Nat.le_zero.1 h0.1, Nat.le_zero.1 h0.2⟩, fun _ => ⟨_, rfl⟩⟩
  · rw [if_neg h0]
    have h0' : ¬ (w.rt = 0 ∧ w.ps = 0) := fun h => h0 ⟨Nat.le_of_eq h.1, Nat.le_of_eq h.2⟩
    by_cases h1 : knownResponse e o is = true
    · rw [if_pos h1]
      refine ⟨fun _ => Or.inr (Or.inl ?_), fun _ => ⟨_, rfl⟩⟩
      unfold knownResponse at h1
      split at h1
      · exact ⟨_, _, _, rfl, h1⟩
      · cases h1
    · rw [if_neg h1]
      have h1' : ¬ ∃ id q rest, is = .queryResponse id q :: rest ∧ e.expecting o id q = true := by
        rintro ⟨id, q, rest, rfl, hx⟩
        exact h1 hx
      by_cases h2 : subscription o is = true
      · rw [if_pos h2]
        refine ⟨fun _ => Or.inr (Or.inr (Or.inl ?_)), fun _ => ⟨_, rfl⟩⟩
        unfold subscription at h2
        split at h2
        · exact ⟨Or.inl rfl, (hsub o).1 h2⟩
        · exact ⟨Or.inr rfl, (hsub o).1 h2⟩
        · cases h2
      · rw [if_neg h2]
        have h2' : ¬ ((is = [.subscribe] ∨ is = [.unsubscribe]) ∧ o.parents = 1 ∧ o.interior.length ≤ 1) := by
          rintro ⟨rfl | rfl, hh⟩
          · exact h2 ((hsub o).2 hh)
          · exact h2 ((hsub o).2 hh)
        constructor
        · rintro ⟨is', h⟩
          obtain ⟨first, k, f, l, rest, q1, q2, q3, q4, -⟩ := (paidExecution_iff w is is').1 h
          exact Or.inr (Or.inr (Or.inr ⟨first, k, f, l, rest, q1, q2, q3, q4⟩))
        · rintro (h | h | h | ⟨first, k, f, l, rest, q1, q2, q3, q4⟩)
          · exact absurd h h0'
          · exact absurd h h1'
          · exact absurd h h2'
          · exact ⟨_, (paidExecution_iff w is _).2 ⟨first, k, f, l, rest, q1, q2, q3, q4, rfl⟩⟩

/-- **C184.** The message is run as it is, except that a paid message buys exactly its weight. -/
theorem C184_as_sent {o : Loc} {is is' : List Instr} {w credit : Weight} (h : barrier e o is w credit = some is') :
    is' = is ∨ ∃ first k f l rest, is = first :: (List.replicate k .clearOrigin ++ .buy f l :: rest) ∧ BringsAssets first ∧
      is' = first :: (List.replicate k .clearOrigin ++ .buy f (some w) :: rest) := by
  unfold barrier at h
  split at h
  · cases h; exact Or.inl rfl
  · split at h
    · cases h; exact Or.inl rfl
    · split at h
      · cases h; exact Or.inl rfl
      · obtain ⟨first, k, f, l, rest, q1, q2, -, -, q5⟩ := (paidExecution_iff w is is').1 h
        exact Or.inr ⟨first, k, f, l, rest, q1, q2, q5⟩

/-- **C184.** What is not let in has no effect. -/
theorem C184_refused {n : Nat} {s : Sys} {o : Loc} {is : List Instr} {credit : Weight}
    (h : ∀ w, weigh e is = some w → barrier e o is w credit = none) : inbound e n s o is credit = .ok s := by
  unfold inbound
  cases hw : weigh e is with
  | none => rfl
  | some w =>
    dsimp only
    rw [h w hw]

/-- **C184.** The weight is the sum over all instructions, and messages of more than the permitted number are refused. -/
theorem C184_weight (is : List Instr) (w : Weight) : weigh e is = some w ↔
    w = weights e.base is ∧ counts is ≤ e.maxInstrs ∧ (weights e.base is).rt ≤ maxU64 ∧ (weights e.base is).ps ≤ maxU64 := by
  unfold weigh
  by_cases h : counts is ≤ e.maxInstrs ∧ (weights e.base is).rt ≤ maxU64 ∧ (weights e.base is).ps ≤ maxU64
  · rw [if_pos h, Option.some.injEq]
    exact ⟨fun hw => ⟨hw.symm, h⟩, fun hw => hw.1.symm⟩
  · rw [if_neg h]
    exact ⟨fun hw => by (cases hw), fun hw => absurd hw.2 h⟩

/-- A paid message passes and its limit is replaced; with too small a limit, a fourth `ClearOrigin` or no assets first it does
not; a stranger's response does not. -/
example : (barrier exEnv sib7 [.withdraw [(dot, 50)], .clearOrigin, .buy (dot, 40) (some ⟨70, 0⟩), .depositAsset (fun _ => 9) sib7 true]
      ⟨40, 0⟩ ⟨0, 0⟩).isSome = true ∧
    (barrier exEnv sib7 [.withdraw [(dot, 50)], .buy (dot, 40) (some ⟨39, 0⟩)] ⟨40, 0⟩ ⟨0, 0⟩).isSome = false ∧
    (barrier exEnv sib7 [.withdraw [(dot, 50)], .clearOrigin, .clearOrigin, .clearOrigin, .clearOrigin, .buy (dot, 40) none]
      ⟨40, 0⟩ ⟨0, 0⟩).isSome = false ∧
    (barrier exEnv sib7 [.buy (dot, 40) none] ⟨40, 0⟩ ⟨0, 0⟩).isSome = false ∧
    (barrier exEnv ⟨1, [.parachain 8]⟩ [.queryResponse 3 none] ⟨40, 0⟩ ⟨0, 0⟩).isSome = false ∧
    (barrier exEnv sib7 [.queryResponse 3 none] ⟨40, 0⟩ ⟨0, 0⟩).isSome = true := by decide +kernel

/-! ## C186: in whose name calls are dispatched -/

theorem inbound_ok {n : Nat} {s s' : Sys} {o : Loc} {is : List Instr} {credit : Weight} (h : inbound e n s o is credit = .ok s') :
    s' = s ∨ ∃ w is' vm vm', weigh e is = some w ∧ barrier e o is w credit = some is' ∧
      drive e n (Vm.start s.ledger s.traps o) is' = .ok vm ∧ finish e o vm = .ok vm' ∧
      s' = ⟨vm'.ledger, vm'.traps, s.log ++ vm'.log⟩ := by
  unfold inbound at h
  cases hw : weigh e is with
  | none => rw [hw] at h; cases h; exact Or.inl rfl
  | some w =>
    rw [hw] at h
    dsimp only at h
    cases hb : barrier e o is w credit with
    | none => rw [hb] at h; cases h; exact Or.inl rfl
    | some is' =>
      rw [hb] at h
      dsimp only at h
      cases hd : drive e n (Vm.start s.ledger s.traps o) is' with
      | error x => rw [hd] at h; cases h
      | ok vm =>
        rw [hd] at h
        dsimp only at h
        cases hf : finish e o vm with
        | error x => rw [hf] at h; cases h
        | ok vm' =>
          rw [hf] at h
          cases h
          exact Or.inr ⟨w, is', vm, vm', rfl, hb, hd, hf, rfl⟩

/-- What the end of a message does. -/
theorem finish_ok {o : Loc} {vm vm' : Vm} (h : finish e o vm = .ok vm') :
    vm'.log = vm.log ∧ ∃ v, v = (refundSurplus e vm).1 ∧ v.ledger = vm.ledger ∧
      vm'.ledger = (match revenue v.trader with
        | none => v.ledger
        | some r => takeRevenue v.ledger (assetIdOf e.self e.typeId) e.treasury r) ∧
      vm'.traps = (if v.holding = [] then v.traps else (v.origin.getD o, v.holding) :: v.traps) := by
  unfold finish at h
  obtain ⟨tr, w, hd, hh⟩ := refundSurplus_frame (e := e) vm
  rcases hr : refundSurplus e vm with ⟨v, r⟩
  rw [hr] at h hh
  dsimp only at hh
  have key : ∀ v2 : Vm, (Except.ok v2 : R Vm) = .ok vm' → v2 = vm' := fun v2 hv => by cases hv; rfl
  cases r with
  | ok u =>
    have := key _ h
    subst this
    exact ⟨by dsimp only; rw [hh], v, rfl, by rw [hh], rfl, rfl⟩
  | error x =>
    by_cases hx : x = .panic
    · subst hx; cases h
    · have h' : (Except.ok { v with
          ledger := match revenue v.trader with
            | none => v.ledger
            | some r => takeRevenue v.ledger (assetIdOf e.self e.typeId) e.treasury r
          traps := if v.holding = [] then v.traps else (v.origin.getD o, v.holding) :: v.traps
          holding := []
          trader := Trader.new Loc } : R Vm) = .ok vm' := by
        cases x <;> first | exact h | exact absurd rfl hx
      have := key _ h'
      subst this
      exact ⟨by dsimp only; rw [hh], v, rfl, by rw [hh], rfl, rfl⟩

/-- **C186.** Every call a message dispatches has an origin into which the message's origin, or a location inside it, converts. -/
theorem C186_origins {n : Nat} {s s' : Sys} {o : Loc} {is : List Instr} {credit : Weight}
    (h : inbound e n s o is credit = .ok s') : ∃ new, s'.log = s.log ++ new ∧
      ∀ p ∈ new, ∃ o' k, Below o o' ∧ convertOrigin e o' k = some p.1 := by
  rcases inbound_ok h with rfl | ⟨w, is', vm, vm', -, -, hd, hf, rfl⟩
  · exact ⟨[], by simp, fun p hp => by (cases hp)⟩
  · have ha : Acts e o [] (Vm.start s.ledger s.traps o) :=
      ⟨fun o' ho => by (cases ho; exact Below.refl o), fun p hp => by (cases hp)⟩
    have hb := drive_acts ha hd
    refine ⟨vm'.log, rfl, fun p hp => ?_⟩
    rw [(finish_ok hf).1] at hp
    exact (hb.2 p hp).resolve_left (by simp)

/-- **C186.** A message from the parachain `p` acts only as the sovereign account of `p`, as the parachain `p`, or as a location
inside `p`; in particular neither as root nor as an account of this chain. -/
theorem C186_sibling {n p : Nat} {s s' : Sys} {is : List Instr} {credit : Weight}
    (h : inbound e n s ⟨1, [.parachain p]⟩ is credit = .ok s') : ∃ new, s'.log = s.log ++ new ∧
      ∀ c ∈ new, c.1 = .signed (e.siblingAcct p) ∨ c.1 = .sibling p ∨ ∃ js, c.1 = .xcm ⟨1, .parachain p :: js⟩ := by
  obtain ⟨new, h1, h2⟩ := C186_origins h
  refine ⟨new, h1, fun c hc => ?_⟩
  obtain ⟨o', k, ⟨js, rfl⟩, hk⟩ := h2 c hc
  cases k with
  | native =>
    cases js with
    | nil => right; left; exact (Option.some.inj hk).symm
    | cons j js => cases hk
  | sovereign =>
    cases js with
    | nil => left; exact (Option.some.inj hk).symm
    | cons j js => cases hk
  | superuser =>
    unfold convertOrigin at hk
    rw [if_neg (by intro hh; cases hh)] at hk
    cases hk
  | xcm => right; right; exact ⟨js, (Option.some.inj hk).symm⟩

/-- **C186.** Only a message from the relay chain acts as root. -/
theorem C186_root {n : Nat} {s s' : Sys} {o : Loc} {is : List Instr} {credit : Weight}
    (h : inbound e n s o is credit = .ok s') {call : Nat} (hc : (.root, call) ∈ s'.log) :
    (.root, call) ∈ s.log ∨ o = ⟨1, []⟩ := by
  obtain ⟨new, h1, h2⟩ := C186_origins h
  rw [h1, List.mem_append] at hc
  rcases hc with hc | hc
  · exact Or.inl hc
  · right
    obtain ⟨o', k, ⟨js, rfl⟩, hk⟩ := h2 _ hc
    have hsup : (⟨o.parents, o.interior ++ js⟩ : Loc) = ⟨1, []⟩ := by
      cases k with
      | native =>
        unfold convertOrigin at hk
        dsimp only at hk
        split at hk
        · cases hk
        · cases hk
        · rw [Option.map_eq_some_iff] at hk
          obtain ⟨_, _, hk⟩ := hk
          cases hk
        · cases hk
      | sovereign =>
        unfold convertOrigin at hk
        rw [Option.map_eq_some_iff] at hk
        obtain ⟨_, _, hk⟩ := hk
        cases hk
      | superuser =>
        unfold convertOrigin at hk
        by_contra hne
        rw [if_neg hne] at hk
        cases hk
      | xcm => cases hk
    rw [Loc.mk.injEq, List.append_eq_nil_iff] at hsup
    obtain ⟨p, i⟩ := o
    obtain ⟨q1, q2, q3⟩ := hsup
    dsimp only at q1 q2
    rw [q1, q2]

/-- A paid message from chain 7 dispatches one call as its sovereign account; the attempt to be root ends it. -/
example : okAnd (inbound exEnv 5 exSys sib7 [.withdraw [(dot, 90)], .buy (dot, 90) none,
      .transact .sovereign ⟨5, 0⟩ ⟨5, 0⟩ 77, .transact .superuser ⟨5, 0⟩ ⟨5, 0⟩ 78] ⟨0, 0⟩)
    (fun t => decide (t.log = [(.signed 2007, 77)])) = true := by decide +kernel

/-! ## C187: whose money a message can take -/

theorem revenue_keeps (Y : Nat → Nat → Prop) (l : Ledger) (f : Loc → Option Nat) (w : Nat) (r : Loc × Nat) :
    Keeps Y l (takeRevenue l f w r) := by
  unfold takeRevenue
  cases f r.1 with
  | none => exact Keeps.refl _ _
  | some a =>
    dsimp only
    split
    · exact Keeps.refl _ _
    · cases hm : l.mint a w r.2 with
      | error x => exact Keeps.refl _ _
      | ok l' =>
        intro x y _
        have := Ledger.mint_bal hm x y
        show l.bal x y ≤ l'.bal x y
        omega

/-- **C187.** A message takes only from the accounts of its origin and of locations inside it, and native tokens from the gift
account. -/
theorem C187_payers {n : Nat} {s s' : Sys} {o : Loc} {is : List Instr} {credit : Weight}
    (h : inbound e n s o is credit = .ok s') {x y : Nat} (hlt : s'.ledger.bal x y < s.ledger.bal x y) :
    (x = e.native ∧ y = e.gift) ∨ ∃ o', Below o o' ∧ locAcct e o' = some y := by
  by_contra hno
  have hk : Keeps (Takes e o) s.ledger s'.ledger := by
    rcases inbound_ok h with rfl | ⟨w, is', vm, vm', -, -, hd, hf, rfl⟩
    · exact Keeps.refl _ _
    · have ha : Acts e o [] (Vm.start s.ledger s.traps o) :=
        ⟨fun o' ho => by (cases ho; exact Below.refl o), fun p hp => by (cases hp)⟩
      have hb : Keeps (Takes e o) s.ledger vm.ledger := drive_keeps ha hd
      obtain ⟨-, v, -, h1, h2, -⟩ := finish_ok hf
      refine hb.trans ?_
      show Keeps _ _ vm'.ledger
      rw [h2, ← h1]
      split
      · exact Keeps.refl _ _
      · exact revenue_keeps _ _ _ _ _
  have := hk x y hno
  omega

/-- **C187.** A message from the parachain `p` takes only from the sovereign account of `p` (and native tokens from the gift
account). -/
theorem C187_sibling {n p : Nat} {s s' : Sys} {is : List Instr} {credit : Weight}
    (h : inbound e n s ⟨1, [.parachain p]⟩ is credit = .ok s') {x y : Nat} (hlt : s'.ledger.bal x y < s.ledger.bal x y) :
    (x = e.native ∧ y = e.gift) ∨ y = e.siblingAcct p := by
  rcases C187_payers h hlt with h1 | ⟨o', ⟨js, rfl⟩, hy⟩
  · exact Or.inl h1
  · right
    cases js with
    | nil => exact (Option.some.inj hy).symm
    | cons j js => cases hy

/-- **C187.** A message from the relay chain takes only from the relay chain's account and from sovereign accounts of
parachains. -/
theorem C187_relay {n : Nat} {s s' : Sys} {is : List Instr} {credit : Weight}
    (h : inbound e n s ⟨1, []⟩ is credit = .ok s') {x y : Nat} (hlt : s'.ledger.bal x y < s.ledger.bal x y) :
    (x = e.native ∧ y = e.gift) ∨ y = e.parentAcct ∨ ∃ p, y = e.siblingAcct p := by
  rcases C187_payers h hlt with h1 | ⟨o', ⟨js, rfl⟩, hy⟩
  · exact Or.inl h1
  · right
    match js with
    | [] => left; exact (Option.some.inj hy).symm
    | [.parachain p] => right; exact ⟨p, (Option.some.inj hy).symm⟩
    | [.other n] => cases hy
    | .parachain p :: j :: js => cases hy
    | .other n :: j :: js => cases hy

/-- Chain 7 pays 30 of its 100 units to account 5 and 40 for the weight. -/
example : okAnd (inbound exEnv 5 exSys sib7 [.withdraw [(dot, 70)], .buy (dot, 70) none, .other true,
      .depositAsset (fun _ => 1000) ⟨0, [.other 5]⟩ true] ⟨0, 0⟩)
    (fun t => decide (t.ledger.bal 101 2007 = 30 ∧ t.ledger.bal 101 5 = 100 ∧ t.ledger.bal 101 98 = 40)) = true := by
  decide +kernel

/-! ## C185: nothing runs unpaid -/

/-- The statement: a message from another chain that leaves any trace pays for its weight first. -/
def C185_statement : Prop := ∀ (e : Env), GoodRates e → ∀ n (s s' : Sys) (o : Loc) (is : List Instr),
  inbound e n s o is ⟨0, 0⟩ = .ok s' → s'.log ≠ s.log → ∃ w, weigh e is = some w ∧ PaysFirst w is

/-- **C185 is false.** After the response to an expected query everything runs: the barrier does not look at the rest. -/
theorem C185_refuted : ¬ C185_statement := by
  intro h
  have hx : okAnd (inbound exEnv 5 exSys sib7 [.queryResponse 3 none, .transact .sovereign ⟨5, 0⟩ ⟨5, 0⟩ 77] ⟨0, 0⟩)
    (fun t => decide (t.log = [(.signed 2007, 77)])) = true := by decide +kernel
  obtain ⟨t, ht, hl⟩ := okAnd_iff.mp hx
  have hl' := of_decide_eq_true hl
  obtain ⟨w, -, first, k, f, l, rest, hq, hf, -⟩ := h exEnv exEnv_good 5 exSys t sib7 _ ht (by rw [hl']; simp [exSys])
  rw [List.cons.injEq] at hq
  rw [← hq.1] at hf
  exact hf

theorem weights_pos (hb : 0 < e.base.rt) {is : List Instr} (h : (weights e.base is).rt = 0) : is = [] := by
  cases is with
  | nil => rfl
  | cons i is =>
    have h1 := base_le_weight (e := e) i
    have h2 := wt_cons (e := e) i is
    unfold wt at h2
    omega

/-- **C185, partial.** It holds for every message that is not a response to an expected query. -/
theorem C185_partial (hg : GoodRates e) {n : Nat} {s s' : Sys} {o : Loc} {is : List Instr}
    (hk : knownResponse e o is = false) (h : inbound e n s o is ⟨0, 0⟩ = .ok s') :
    s' = s ∨ ∃ w, weigh e is = some w ∧ PaysFirst w is := by
  rcases inbound_ok h with h | ⟨w, is', vm, vm', hw, hb, hd, hf, rfl⟩
  · exact Or.inl h
  · have hempty : ∀ v : Vm, drive e n (Vm.start s.ledger s.traps o) is' = .ok v →
        v.ledger = s.ledger ∧ v.traps = s.traps ∧ v.holding = [] ∧ v.log = [] ∧ v.trader = Trader.new Loc →
        finish e o v = .ok vm' → (⟨vm'.ledger, vm'.traps, s.log ++ vm'.log⟩ : Sys) = s := by
      rintro v - ⟨q1, q2, q3, q4, q5⟩ hf
      have hr : (refundSurplus e v).1.holding = [] ∧ (refundSurplus e v).1.trader = Trader.new Loc ∧
          (refundSurplus e v).1.traps = v.traps := by
        unfold refundSurplus
        split
        · exact ⟨q3, q5, rfl⟩
        · have : refund v.trader (v.surplus.sub v.refunded) = .ok (Trader.new Loc, none) := by rw [q5]; rfl
          rw [this]
          exact ⟨q3, rfl, rfl⟩
      obtain ⟨f1, v', rfl, f3, f4, f5⟩ := finish_ok hf
      rw [hr.2.1] at f4
      rw [if_pos hr.1, hr.2.2] at f5
      change vm'.ledger = (refundSurplus e v).1.ledger at f4
      rw [f3, q1] at f4
      rw [f5, f1, f4, q2, q4, List.append_nil]
    have hb0 := hb
    rcases (C184_accepted o is w).1 ⟨is', hb⟩ with h0 | h1 | h2 | h3
    · left
      have hw' := ((C184_weight is w).1 hw).1
      have : is = [] := weights_pos hg.1 (by rw [← hw']; exact h0.1)
      subst this
      have hi : is' = [] := by
        rcases C184_as_sent hb with h | ⟨_, _, _, _, _, h, _⟩
        · exact h
        · cases h
      subst hi
      have hv : vm = Vm.start s.ledger s.traps o := by
        cases n with
        | zero => cases hd; rfl
        | succ n => cases hd; rfl
      subst hv
      exact hempty _ hd ⟨rfl, rfl, rfl, rfl, rfl⟩ hf
    · obtain ⟨id, q, rest, rfl, hx⟩ := h1
      rw [show knownResponse e o (.queryResponse id q :: rest) = e.expecting o id q from rfl, hx] at hk
      cases hk
    · left
      have hi : is' = is := by
        rcases C184_as_sent hb with h | ⟨_, k, _, _, _, h, _⟩
        · exact h
        · rcases h2.1 with hh | hh <;> rw [hh] at h <;> cases k <;> cases h
      have hv : vm.ledger = s.ledger ∧ vm.traps = s.traps ∧ vm.holding = [] ∧ vm.log = [] ∧ vm.trader = Trader.new Loc := by
        rw [hi] at hd
        cases n with
        | zero =>
          rcases h2.1 with hh | hh <;> rw [hh] at hd <;> cases hd <;> exact ⟨rfl, rfl, rfl, rfl, rfl⟩
        | succ n =>
          rcases h2.1 with hh | hh <;> rw [hh] at hd <;>
          · change drive e n { dropHandler e (Vm.start s.ledger s.traps o) with appendix := [] } [] = .ok vm at hd
            cases n with
            | zero => cases hd; exact ⟨rfl, rfl, rfl, rfl, rfl⟩
            | succ n => cases hd; exact ⟨rfl, rfl, rfl, rfl, rfl⟩
      exact hempty _ hd hv hf
    · exact Or.inr ⟨w, hw, h3⟩

/-- **C185, paid messages.** What comes after the purchase runs only if the fee for the whole weight has been taken, in an asset
that is accepted, at its rate. -/
theorem C185_paid {vm vm' : Vm} {b : Bool} {f : AssetKey × Nat} {w : Weight} {rest : List Instr}
    (h0 : vm.trader.asset = none) (h : process e vm (.buy f (some w) :: rest) = .ok (vm', b)) :
    (b = false ∧ vm'.ledger = vm.ledger ∧ vm'.log = vm.log) ∨ ∃ v t u, process e v rest = .ok (vm', b) ∧ f.1 = .concrete t ∧
      e.fees.supported t = true ∧ e.fees.units t = some u ∧ feeOf u w.rt ≤ f.2 ∧
      (feeOf u w.rt = 0 ∨ v.trader.asset = some (t, feeOf u w.rt, u)) := by
  unfold process at h
  rcases hs : step e vm (.buy f (some w)) with ⟨v, r⟩
  rw [hs] at h
  obtain ⟨tr, hd, hfr⟩ := buyExecution_frame (e := e) vm f (some w)
  have hs' : buyExecution e vm f (some w) = (v, r) := hs
  rw [hs'] at hfr
  dsimp only at hfr
  cases r with
  | error x =>
    left
    have key : ∀ z : Vm × Bool, (Except.ok z : R (Vm × Bool)) = .ok (vm', b) → z = (vm', b) := fun z hz => by cases hz; rfl
    by_cases hx : x = .panic
    · subst hx; cases h
    · have h' : (Except.ok ({ v with surplus := v.surplus.plus (weights e.base rest) }, false) : R (Vm × Bool)) = .ok (vm', b) := by
        cases x <;> first | exact h | exact absurd rfl hx
      have := key _ h'
      rw [Prod.mk.injEq] at this
      obtain ⟨q1, q2⟩ := this
      rw [← q1, ← q2, hfr]
      exact ⟨rfl, rfl, rfl⟩
  | ok u =>
    right
    unfold buyExecution at hs'
    dsimp only at hs'
    cases ht : tryTake f vm.holding with
    | none => rw [ht] at hs'; cases hs'
    | some h1 =>
      rw [ht] at hs'
      dsimp only at hs'
      cases hb : buy e.fees vm.trader w [(toKey f.1, f.2)] with
      | none => rw [hb] at hs'; cases hs'
      | some q =>
        obtain ⟨un, tr'⟩ := q
        rw [hb] at hs'
        dsimp only at hs'
        obtain ⟨h2, hfr2⟩ := subsumeAll_frame (e := e) (un.map (fun a => (ofKey a.1, a.2))) { vm with holding := h1, trader := tr' }
        rw [hs'] at hfr2
        dsimp only at hfr2
        obtain ⟨t, u', hk, hsup, hu, hc⟩ := buy_single hb
        refine ⟨v, t, u', h, hk, hsup, hu, ?_⟩
        rw [hfr2]
        rcases hc with ⟨hz, -, -⟩ | ⟨hz, hle, -, rfl⟩
        · exact ⟨by omega, Or.inl hz⟩
        · refine ⟨hle, Or.inr ?_⟩
          show (book vm.trader w t (feeOf u' w.rt) u').asset = _
          unfold book
          rw [h0]

/-- Chain 7 offers 39 for a weight that costs 40: nothing is deposited, and what was withdrawn is trapped for it. -/
example : okAnd (inbound exEnv 5 exSys sib7 [.withdraw [(dot, 70)], .buy (dot, 39) none, .other true,
      .depositAsset (fun _ => 1000) ⟨0, [.other 5]⟩ true] ⟨0, 0⟩)
    (fun t => decide (t.ledger.bal 101 2007 = 30 ∧ t.ledger.bal 101 5 = 70 ∧ t.traps = [(sib7, [(dot, 31)])])) = true := by
  decide +kernel

end Verif.Xcm
