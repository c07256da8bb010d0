import Verif.Prices.Model

/-!
# C90, C91: what the price feed answers

Specification vocabulary: a history is a list of `Step`s (an extrinsic, or an arbitrary change of everything the
pallet asks other pallets about); `Touches` says which steps set or reset the emergency price of an asset;
`Ordinary`, `Leads` describe the foreign-asset mapping.
-/

namespace Verif.Prices
open Verif

/-- One step of a history: an extrinsic, or the rest of the chain changing the providers arbitrarily. -/
inductive Step where
  | call (x : Call)
  | world (w : World)

/-- Execution of one step. -/
def step (s : State) : Step → State
  | .call x => exec s x
  | .world w => { s with world := w }

/-- Execution of a history. -/
def run (s : State) (l : List Step) : State := l.foldl step s

/-- The step sets or resets the emergency price of `a`. -/
def Touches (a : Nat) : Step → Prop
  | .call (.set b _) => b = a
  | .call (.reset b) => b = a
  | _ => False

/-- `a` is priced neither by liquid staking, crowdloans, an LP pool nor as an auxiliary token. -/
def Ordinary (a : Nat) : Prop := isLs a = false ∧ isVault a = false ∧ isLfLp a = false ∧ isAux a = false

/-- Following the foreign-asset mapping from ordinary assets leads from `a` to `b` in `n` hops. -/
inductive Leads (s : State) : Nat → Nat → Nat → Prop
  | refl (a : Nat) : Leads s 0 a a
  | hop {n a b e : Nat} (ho : Ordinary a) (hf : s.foreign a = some b) (hl : Leads s n b e) : Leads s (n + 1) a e

/-! ## Lemmas -/

theorem DIV_eq : DIV = 10 ^ 18 := by decide +kernel


theorem mantissa_eq {w : World} {a d : Nat} (hd : w.decimal a = some d) (hm : 10 ^ d ≤ maxU128) :
    mantissa w a = some (10 ^ d) := by
  unfold mantissa; rw [hd]; exact if_pos hm

theorem mantissa_some {w : World} {a m : Nat} (h : mantissa w a = some m) :
    ∃ d, w.decimal a = some d ∧ m = 10 ^ d ∧ m ≤ maxU128 := by
  unfold mantissa at h
  cases hd : w.decimal a with
  | none => rw [hd] at h; cases h
  | some d =>
    rw [hd] at h
    simp only [Option.bind_eq_bind, Option.bind_some] at h
    split_ifs at h with hm
    cases h; exact ⟨d, rfl, rfl, hm⟩

theorem ten18 (d : Nat) (h : d ≤ 18) : 10 ^ d ≤ maxU128 := by
  refine Nat.le_trans (Nat.pow_le_pow_right (by decide) h) (by decide +kernel)

theorem scale18 (p d : Nat) (h : d ≤ 18) : p * DIV / 10 ^ d = p * 10 ^ (18 - d) := by
  have e : DIV = 10 ^ (18 - d) * 10 ^ d := by
    rw [← Nat.pow_add, Nat.sub_add_cancel h]; decide +kernel
  rw [e, ← Nat.mul_assoc]
  exact Nat.mul_div_cancel _ (Nat.pow_pos (by decide))

theorem fixDiv_ten {p d : Nat} (hf : p * DIV / 10 ^ d ≤ maxU128) :
    fixDiv p (10 ^ d) = some (p * DIV / 10 ^ d) := by
  rw [fixDiv_iff]
  exact ⟨Nat.pos_iff_ne_zero.mp (Nat.pow_pos (by decide)), hf, rfl⟩

theorem emergencyPrice_none {s : State} {a : Nat} (h : s.emergency a = none) : emergencyPrice s a = none := by
  unfold emergencyPrice; rw [h]; rfl

theorem emergencyPrice_eq {s : State} {a p d : Nat} (hp : s.emergency a = some p) (hd : s.world.decimal a = some d)
    (hm : 10 ^ d ≤ maxU128) (hf : p * DIV / 10 ^ d ≤ maxU128) :
    emergencyPrice s a = some ⟨p * DIV / 10 ^ d, 0⟩ := by
  unfold emergencyPrice
  rw [hp]
  simp only [Option.bind_eq_bind, Option.bind_some]
  rw [mantissa_eq hd hm]
  simp only [Option.bind_some]
  rw [fixDiv_ten hf]; rfl

theorem special_world {c : Cfg} {s s' : State} (hw : s'.world = s.world) (hf : s'.foreign = s.foreign) (n a : Nat)
    (bp : TSP) : special c s' n a bp = special c s n a bp := by
  induction n generalizing a with
  | zero => rfl
  | succ n ih =>
    unfold special
    rw [hw, hf]
    split_ifs <;> try rfl
    cases s.foreign a with
    | none => rfl
    | some b => exact ih b

theorem sourced_world {c : Cfg} {s s' : State} (hw : s'.world = s.world) (hf : s'.foreign = s.foreign) (a : Nat) :
    sourced c s' a = sourced c s a := by
  unfold sourced
  rw [hw]
  cases s.world.oracle c.relay with
  | none => rfl
  | some bp =>
    dsimp only
    rw [special_world hw hf]

theorem step_untouched {s : State} {st : Step} {a : Nat} (h : ¬ Touches a st) :
    (step s st).emergency a = s.emergency a := by
  cases st with
  | world w => rfl
  | call x =>
    cases x with
    | set b p => exact upd_of_ne _ _ (fun e => h e.symm)
    | reset b => exact upd_of_ne _ _ (fun e => h e.symm)
    | foreign f b => rfl

theorem run_untouched {l : List Step} {a : Nat} : ∀ {s : State}, (∀ st ∈ l, ¬ Touches a st) →
    (run s l).emergency a = s.emergency a := by
  induction l with
  | nil => intro s _; rfl
  | cons x l ih =>
    intro s h
    have h1 := ih (s := step s x) (fun st hst => h st (List.mem_cons_of_mem _ hst))
    exact h1.trans (step_untouched (h x List.mem_cons_self))

theorem run_append (s : State) (l1 l2 : List Step) : run s (l1 ++ l2) = run (run s l1) l2 :=
  List.foldl_append

theorem scale_time {bp q : TSP} {r : Nat} (h : scale bp r = some q) : q.time = bp.time := by
  unfold scale at h
  cases hm : fixMul bp.value r with
  | none => rw [hm] at h; cases h
  | some x => rw [hm] at h; cases h; rfl

theorem vaultPrice_time {w : World} {b : Nat} {bp q : TSP} (h : vaultPrice w b bp = some q) : q.time = bp.time := by
  unfold vaultPrice at h
  cases hy : w.fullRate b with
  | none => rw [hy] at h; cases h
  | some y =>
    rw [hy] at h
    dsimp only at h
    split_ifs at h
    cases hm : w.vaultRate b y with
    | none => rw [hm] at h; cases h
    | some r => rw [hm] at h; exact scale_time h

theorem lpValue_time {w : World} {b rate diff : Nat} {bp q : TSP} (h : lpValue w b bp rate diff = some q) :
    q.time = bp.time := by
  unfold lpValue at h
  generalize min maxU128 (diff * DIV) = k at h
  simp only [Option.bind_eq_bind, Option.bind_eq_some_iff, Option.some.injEq] at h
  obtain ⟨vp, hv, x, _, y, _, hq⟩ := h
  have ht := vaultPrice_time hv
  rw [← hq]
  exact ht

/-! ## C90: the emergency price -/

/-- C90.  An emergency price `p` (USD per whole token, 18 decimals) of an asset with `d ≤ 18` decimals is what every
reader gets, whatever the oracle, the exchange rates and the mappings say: exactly `p · 10^(18-d)`, marked with
timestamp 0. -/
theorem C90_emergency_price_wins {c : Cfg} {s : State} {a p d : Nat} (hp : s.emergency a = some p)
    (hd : s.world.decimal a = some d) (h18 : d ≤ 18) (hf : p * 10 ^ (18 - d) ≤ maxU128) :
    getPrice c s a = .ok (some ⟨p * 10 ^ (18 - d), 0⟩) := by
  rw [← scale18 p d h18] at hf ⊢
  unfold getPrice
  rw [emergencyPrice_eq hp hd (ten18 d h18) hf]

/-- C90, every number of decimals: the price is rounded down to the 18th decimal of a unit. -/
theorem C90_emergency_price_rounds_down {c : Cfg} {s : State} {a p d : Nat} (hp : s.emergency a = some p)
    (hd : s.world.decimal a = some d) (h38 : 10 ^ d ≤ maxU128) (hf : p * DIV / 10 ^ d ≤ maxU128) :
    getPrice c s a = .ok (some ⟨p * 10 ^ 18 / 10 ^ d, 0⟩) := by
  unfold getPrice
  rw [emergencyPrice_eq hp hd h38 hf]
  dsimp only
  rw [DIV_eq]

/-- C90 over histories: the last `set_price` for an asset decides, whatever happens before it and whatever else
happens after it (emergency prices of other assets, mappings, oracle updates, rates). -/
theorem C90_last_set_decides {c : Cfg} {s : State} {pre post : List Step} {a p d : Nat}
    (hpost : ∀ st ∈ post, ¬ Touches a st)
    (hd : (run s (pre ++ .call (.set a p) :: post)).world.decimal a = some d) (h18 : d ≤ 18)
    (hf : p * 10 ^ (18 - d) ≤ maxU128) :
    getPrice c (run s (pre ++ .call (.set a p) :: post)) a = .ok (some ⟨p * 10 ^ (18 - d), 0⟩) := by
  refine C90_emergency_price_wins ?_ hd h18 hf
  rw [run_append]
  have h1 := run_untouched (s := step (run s pre) (.call (.set a p))) hpost
  exact h1.trans (upd_same _ _ _)

/-- C90 over histories: once the last action on the asset is a reset (or it never had an emergency price), the answer
is the one of a chain whose emergency prices are empty. -/
theorem C90_reset_restores {c : Cfg} {s : State} {pre post : List Step} {a : Nat}
    (hpost : ∀ st ∈ post, ¬ Touches a st) (s' : State) (hs' : s' = run s (pre ++ .call (.reset a) :: post)) :
    getPrice c s' a = getPrice c { s' with emergency := fun _ => none } a := by
  have he : s'.emergency a = none := by
    rw [hs', run_append]
    have h1 := run_untouched (s := step (run s pre) (.call (.reset a))) hpost
    exact h1.trans (upd_same _ _ _)
  unfold getPrice
  rw [emergencyPrice_none he, emergencyPrice_none (s := { s' with emergency := fun _ => none }) rfl]
  dsimp only
  rw [sourced_world (s := s') (s' := { s' with emergency := fun _ => none }) rfl rfl]

/-- C90: setting or resetting an emergency price changes the answer for no other asset — not even for assets whose
price is derived from it — and no mapping. -/
theorem C90_other_assets {c : Cfg} {s : State} {a b : Nat} (hb : b ≠ a) (p : Nat) :
    getPrice c (exec s (.set a p)) b = getPrice c s b ∧ getPrice c (exec s (.reset a)) b = getPrice c s b ∧
    (exec s (.set a p)).foreign = s.foreign ∧ (exec s (.reset a)).foreign = s.foreign := by
  have key : ∀ v : Option Nat, getPrice c { s with emergency := upd s.emergency a v } b = getPrice c s b := by
    intro v
    have he : emergencyPrice { s with emergency := upd s.emergency a v } b = emergencyPrice s b := by
      unfold emergencyPrice
      have h1 : upd s.emergency a v b = s.emergency b := upd_of_ne _ _ hb
      dsimp only
      rw [h1]
    unfold getPrice
    rw [he]
    dsimp only
    rw [sourced_world (s := s) (s' := { s with emergency := upd s.emergency a v }) rfl rfl]
  exact ⟨key _, key _, rfl, rfl⟩

/-- C90: the reader used by the oracle-style interface never sees emergency prices. -/
theorem C90_no_op_ignores_emergency {c : Cfg} {s : State} (a : Nat) (e : Nat → Option Nat) :
    getNoOp c { s with emergency := e } a = getNoOp c s a := by
  unfold getNoOp
  dsimp only
  rw [sourced_world (s := s) (s' := { s with emergency := e }) rfl rfl]

/-- C90, claimed in full: as long as the decimals of the asset are known, an emergency price is what readers get
(up to rounding). -/
def C90_statement : Prop :=
  ∀ (c : Cfg) (s : State) (a p d : Nat), s.emergency a = some p → p ≤ maxU128 → s.world.decimal a = some d → d ≤ 18 →
    ∃ v, getPrice c s a = .ok (some ⟨v, 0⟩)

/-- A chain in which asset 7 has 0 decimals, its oracle price is 1 USD, and its emergency price is 341 USD. -/
def exS : State where
  emergency := fun a => if a = 7 then some (341 * DIV) else none
  foreign := fun _ => none
  world :=
    { oracle := fun a => if a = 7 then some ⟨DIV, 5⟩ else none
      decimal := fun a => if a = 7 then some 0 else none
      liquid := none
      lsRate := fun _ => none
      fullRate := fun _ => none
      isCtoken := fun _ => false
      vaultRate := fun _ _ => none
      lpPool := fun _ => none
      supply := fun _ => 0 }

/-- C90 is false as claimed: an emergency price whose normalised value does not fit the fixed-point type is silently
ignored, and readers keep getting the oracle price the governance wanted to override. -/
theorem C90_refuted : ¬ C90_statement := by
  intro h
  obtain ⟨v, hv⟩ := h ⟨101, 10⟩ exS 7 (341 * DIV) 0 rfl (by decide +kernel) rfl (by decide)
  have h1 : getPrice ⟨101, 10⟩ exS 7 = .ok (some ⟨DIV * DIV, 5⟩) := by decide +kernel
  rw [h1] at hv
  cases hv

/-- C90: timestamp 0 identifies emergency prices: if no oracle value carries timestamp 0, an answer with timestamp 0
is the emergency price set for exactly this asset. -/
theorem C90_timestamp_zero_is_emergency {c : Cfg} {s : State} {a v : Nat}
    (ht : ∀ b q, s.world.oracle b = some q → q.time ≠ 0) (h : getPrice c s a = .ok (some ⟨v, 0⟩)) :
    ∃ p d, s.emergency a = some p ∧ s.world.decimal a = some d ∧ v = p * 10 ^ 18 / 10 ^ d := by
  have hspecial : ∀ (n b : Nat) (bp q : TSP), special c s n b bp = .ok (some q) → q.time = bp.time := by
    intro n
    induction n with
    | zero => intro b bp q h; cases h
    | succ n ih =>
      intro b bp q h
      unfold special at h
      split_ifs at h
      · have h := Except.ok.inj h
        unfold stakingPrice at h
        split_ifs at h
        cases hm : s.world.lsRate b with
        | none => rw [hm] at h; cases h
        | some r => rw [hm] at h; exact scale_time h
      · exact vaultPrice_time (Except.ok.inj h)
      · unfold lpPrice at h
        split at h
        · split at h
          · cases h
          · split_ifs at h
            · rw [bind_ok_iff] at h
              obtain ⟨rate, _, h⟩ := h
              exact lpValue_time (Except.ok.inj h)
            · cases h
        · cases h
      · cases h; rfl
      · split at h
        · exact ih _ _ _ h
        · cases h
  have hsrc : ∀ q, sourced c s a = .ok (some q) → q.time ≠ 0 := by
    intro q hq
    unfold sourced at hq
    split at hq
    · exact ht a q (Except.ok.inj hq)
    · rename_i bp hbp
      rw [bind_ok_iff] at hq
      obtain ⟨sp, hsp, hq⟩ := hq
      have hq := Except.ok.inj hq
      cases sp with
      | none => exact ht a q hq
      | some x =>
        cases hq
        rw [hspecial _ _ _ _ hsp]
        exact ht _ _ hbp
  unfold getPrice at h
  cases he : emergencyPrice s a with
  | some p0 =>
    rw [he] at h
    cases h
    unfold emergencyPrice at he
    cases hp : s.emergency a with
    | none => rw [hp] at he; cases he
    | some p =>
      rw [hp] at he
      simp only [Option.bind_eq_bind, Option.bind_some] at he
      cases hm : mantissa s.world a with
      | none => rw [hm] at he; cases he
      | some m =>
        rw [hm] at he
        simp only [Option.bind_some] at he
        obtain ⟨d, hd, hmd, _⟩ := mantissa_some hm
        cases hv : fixDiv p m with
        | none => rw [hv] at he; cases he
        | some x =>
          rw [hv] at he
          cases he
          rw [fixDiv_iff] at hv
          refine ⟨p, d, rfl, hd, ?_⟩
          rw [hv.2.2, hmd, DIV_eq]
  | none =>
    exfalso
    rw [he] at h
    dsimp only at h
    cases hm : mantissa s.world a with
    | none => rw [hm] at h; cases h
    | some m =>
      rw [hm] at h
      dsimp only at h
      rw [bind_ok_iff] at h
      obtain ⟨q, hq, h⟩ := h
      have h := Except.ok.inj h
      cases q with
      | none => cases h
      | some q =>
        simp only [Option.bind_some] at h
        unfold normalize at h
        cases hv : fixDiv q.value m with
        | none => rw [hv] at h; cases h
        | some x =>
          rw [hv] at h
          exact hsrc q hq (congrArg TSP.time (Option.some.inj h))

/-- Non-vacuity: with 6 decimals an emergency price of 2 USD is served as `2·10^18·10^12` at time 0, whatever the
oracle says, and after the reset the oracle's 1 USD comes back. -/
example :
    let s0 : State := { exS with
      emergency := fun _ => none
      world := { exS.world with decimal := fun _ => some 6 } }
    getPrice ⟨101, 10⟩ (run s0 [.call (.set 7 (2 * DIV)), .call (.set 8 3), .call (.foreign 7 9)]) 7
      = .ok (some ⟨2 * DIV * 10 ^ 12, 0⟩) ∧
    getPrice ⟨101, 10⟩ (run s0 [.call (.set 7 (2 * DIV)), .call (.reset 7), .call (.set 8 3)]) 7
      = .ok (some ⟨DIV * 10 ^ 12, 5⟩) := by
  decide +kernel

end Verif.Prices
