import Verif.Prelude.Ledger

/-!
# What a ledger operation guarantees to everybody else

`Guar src cur l l'`: going from ledger `l` to `l'` keeps the ledger consistent, lowers balances of accounts in `src`
only, and changes the issuance of assets in `cur` only.  This is the "guarantee" half of the rely/guarantee argument
of `Verif/System`: the `Env` structures of the pallets are the "rely" half.
-/

namespace Verif.System
open Verif

/-- The ledger is consistent afterwards if it was before; only accounts in `src` pay; only assets in `cur` are minted
or burnt. -/
structure Guar (src cur : Nat → Prop) (l l' : Ledger) : Prop where
  wf : l.WF → l'.WF
  bal : ∀ a w, ¬ src w → l.bal a w ≤ l'.bal a w
  iss : ∀ a, ¬ cur a → l'.iss a = l.iss a

namespace Guar
variable {src cur : Nat → Prop} {l l1 l2 : Ledger}

theorem refl : Guar src cur l l := ⟨id, fun _ _ _ => le_refl _, fun _ _ => rfl⟩

theorem trans (h : Guar src cur l l1) (g : Guar src cur l1 l2) : Guar src cur l l2 :=
  ⟨fun w => g.wf (h.wf w), fun a w hw => le_trans (h.bal a w hw) (g.bal a w hw),
    fun a ha => (g.iss a ha).trans (h.iss a ha)⟩

theorem mono {src' cur' : Nat → Prop} (h : Guar src cur l l1) (hs : ∀ w, src w → src' w)
    (hc : ∀ a, cur a → cur' a) : Guar src' cur' l l1 :=
  ⟨h.wf, fun a w hw => h.bal a w (fun x => hw (hs w x)), fun a ha => h.iss a (fun x => ha (hc a x))⟩

theorem transfer {a s d m : Nat} {k : Bool} (h : l.transfer a s d m k = .ok l1) (hs : src s) :
    Guar src cur l l1 where
  wf := Ledger.transfer_wf h
  bal x w hw := by
    have h1 := Ledger.transfer_bal h x w
    have hn : w ≠ s := fun e => hw (e ▸ hs)
    simp only [hn, and_false, if_false, Nat.add_zero] at h1
    omega
  iss x _ := by rw [Ledger.transfer_iss h]

theorem mint {a w m : Nat} (h : l.mint a w m = .ok l1) (hc : cur a) : Guar src cur l l1 where
  wf := Ledger.mint_wf h
  bal x y _ := by have := Ledger.mint_bal h x y; omega
  iss x hx := by
    have h1 := Ledger.mint_iss h x
    have hn : x ≠ a := fun e => hx (e ▸ hc)
    simpa [hn] using h1

theorem burn {a w m : Nat} (h : l.burn a w m = .ok l1) (hs : src w) (hc : cur a) : Guar src cur l l1 where
  wf := Ledger.burn_wf h
  bal x y hy := by
    have h1 := Ledger.burn_bal h x y
    have hn : y ≠ w := fun e => hy (e ▸ hs)
    simp only [hn, and_false, if_false, Nat.add_zero] at h1
    omega
  iss x hx := by
    have h1 := Ledger.burn_iss h x
    have hn : x ≠ a := fun e => hx (e ▸ hc)
    simpa [hn] using h1

end Guar
end Verif.System
