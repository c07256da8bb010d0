import Verif.Prices.Props2

/-!
# C91: which assets are priced how, by their numbers, and how the mapping is maintained
-/

namespace Verif.Prices
open Verif

/-- The numbers of assets that are priced by the oracle itself: no liquid staking token (1000, 1001), no crowdloan
derivative (between 100000000 and 300000000), no LP token of one (5004..5999, 6004..6999), no auxiliary token (the last
10001 numbers). -/
def Plain (a : Nat) : Prop :=
  a ≠ 1000 ∧ a ≠ 1001 ∧ (a ≤ 100000000 ∨ 300000000 ≤ a) ∧ (a ≤ 5003 ∨ 6000 ≤ a) ∧ (a ≤ 6003 ∨ 7000 ≤ a) ∧ a < 4294957295

theorem plain_iff (a : Nat) : Plain a ↔ Ordinary a := by
  have h0 : maxU32 - 10000 = 4294957295 := by decide +kernel
  unfold Ordinary isAux
  rw [h0]
  clear h0
  simp only [Plain, isVault, isLs, isLfLp, Bool.or_eq_false_iff, Bool.and_eq_false_iff, decide_eq_false_iff_not,
    beq_eq_false_iff_ne]
  omega

/-- C91: the native token, stable coins, LP tokens of ordinary pairs, foreign tokens: as long as no mapping is set, the
price per whole token is the asset's own oracle entry, whatever the other providers say. -/
theorem C91_plain_assets {c : Cfg} {s : State} {a : Nat} (hs : 0 < c.stack) (ha : Plain a) (hf : s.foreign a = none) :
    sourced c s a = .ok (s.world.oracle a) :=
  C91_ordinary hs ((plain_iff a).1 ha) hf

/-- C91: every other number is exactly one of the four special kinds. -/
theorem C91_special_numbers (a : Nat) :
    ((a = 1000 ∨ a = 1001) ↔ isLs a = true) ∧ ((100000000 < a ∧ a < 300000000) ↔ isVault a = true) ∧
    ((5003 < a ∧ a < 6000 ∨ 6003 < a ∧ a < 7000) ↔ isLfLp a = true) ∧ (4294957295 ≤ a ↔ isAux a = true) := by
  have h0 : maxU32 - 10000 = 4294957295 := by decide +kernel
  unfold isAux
  rw [h0]
  simp [isLs, isVault, isLfLp]

example : Plain 0 ∧ Plain 1 ∧ Plain 100 ∧ Plain 5003 ∧ Plain 6000 ∧ Plain 7000 ∧ ¬ Plain 5004 ∧ ¬ Plain 6004 ∧ ¬ Plain 200060013 ∧
    ¬ Plain 4294957295 ∧ Plain 100000000 := by
  refine ⟨?_, ?_, ?_, ?_, ?_, ?_, ?_, ?_, ?_, ?_, ?_⟩ <;> unfold Plain <;> omega

/-- The step replaces the mapping of `f`. -/
def Remaps (f : Nat) : Step → Prop
  | .call (.foreign g _) => g = f
  | _ => False

theorem run_unmapped {s : State} {f : Nat} : ∀ {post : List Step}, (∀ st ∈ post, ¬ Remaps f st) →
    (run s post).foreign f = s.foreign f := by
  intro post
  induction post generalizing s with
  | nil => intro _; rfl
  | cons st post ih =>
    intro h
    have h1 := ih (s := step s st) (fun x hx => h x (List.mem_cons_of_mem _ hx))
    have h2 : (step s st).foreign f = s.foreign f := by
      have h3 := h st List.mem_cons_self
      cases st with
      | call k =>
        cases k with
        | set a p => rfl
        | reset a => rfl
        | foreign g b => exact upd_of_ne _ _ (fun e => h3 e.symm)
      | world w => rfl
    exact h1.trans h2

/-- C91 over histories: the last `set_foreign_asset` for a plain asset decides: from then on, whatever else happens, its
derived price is the one of the asset it was mapped to (with its own oracle entry as the fallback). -/
theorem C91_last_mapping_decides {c : Cfg} {s s' : State} {pre post : List Step} {f b : Nat} {bp : TSP} (hf : Plain f)
    (hpost : ∀ st ∈ post, ¬ Remaps f st) (hs' : s' = run s (pre ++ .call (.foreign f b) :: post)) (hs : 0 < c.stack)
    (hr : s'.world.oracle c.relay = some bp) :
    s'.foreign f = some b ∧
    sourced c s' f = (special c s' (c.stack - 1) b bp).map (fun o => o.orElse (fun _ => s'.world.oracle f)) := by
  have h1 : s'.foreign f = some b := by
    rw [hs', run_append]
    have h1 := run_unmapped (s := step (run s pre) (.call (.foreign f b))) hpost
    exact h1.trans (upd_same _ _ _)
  exact ⟨h1, C91_foreign (Leads.hop ((plain_iff f).1 hf) h1 (Leads.refl b)) hs hr⟩

/-- C91: setting a mapping changes no emergency price and no price of a special or directly unmapped other asset. -/
theorem C91_mapping_frame {c : Cfg} {s : State} {f b a : Nat} (hs : 0 < c.stack) (haf : a ≠ f)
    (ha : ¬ Plain a ∨ s.foreign a = none) :
    getPrice c (exec s (.foreign f b)) a = getPrice c s a ∧ (exec s (.foreign f b)).emergency = s.emergency := by
  refine ⟨?_, rfl⟩
  obtain ⟨n, hn⟩ : ∃ n, c.stack = n + 1 := ⟨c.stack - 1, by omega⟩
  have hsp : ∀ bp, special c (exec s (.foreign f b)) c.stack a bp = special c s c.stack a bp := by
    intro bp
    rw [hn]
    by_cases c1 : isLs a = true
    · rw [special_ls c1, special_ls c1]; rfl
    by_cases c2 : isVault a = true
    · rw [special_vault c2, special_vault c2]; rfl
    by_cases c3 : isLfLp a = true
    · rw [special_lp c3, special_lp c3]; rfl
    by_cases c4 : isAux a = true
    · rw [special_aux c4, special_aux c4]
    have ho : Ordinary a := ⟨by simpa using c1, by simpa using c2, by simpa using c3, by simpa using c4⟩
    rcases ha with ha | ha
    · exact absurd ((plain_iff a).2 ho) ha
    · have h2 : (exec s (.foreign f b)).foreign a = s.foreign a := upd_of_ne _ _ haf
      rw [special_direct ho, special_direct ho, h2, ha]
  have hso : sourced c (exec s (.foreign f b)) a = sourced c s a := by
    unfold sourced
    have hw : (exec s (.foreign f b)).world = s.world := rfl
    rw [hw]
    split
    · rfl
    · rename_i bp _
      rw [hsp bp]
  unfold getPrice
  rw [hso]
  rfl

example : Plain 7 ∧ (run exM [.call (.foreign 7 1001), .call (.foreign 9 8), .call (.set 3 5)]).foreign 7 = some 1001 ∧
    exM.world.oracle 101 = some ⟨2 * DIV, 5⟩ := by
  refine ⟨by unfold Plain; omega, by decide +kernel, rfl⟩

end Verif.Prices
