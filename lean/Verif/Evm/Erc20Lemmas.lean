import Verif.Evm.Erc20Spec
import Verif.Evm.CodecProps

/-!
# Lemmas about the common parts of the ERC-20 precompiles
-/

namespace Verif.Evm

theorem encUint_length {k n : Nat} (h : k ≤ 32) : (Abi.encUint k n).length = 32 := by
  unfold Abi.encUint
  rw [List.length_append, List.length_replicate, beBytes_length]
  omega

theorem flat_length (args : List (Nat × Nat)) (h : ArgsOk args) :
    (args.flatMap fun a => Abi.encUint a.1 a.2).length = 32 * args.length := by
  induction args with
  | nil => rfl
  | cons a as ih =>
    rw [List.flatMap_cons, List.length_append, encUint_length (h a List.mem_cons_self).1,
      ih fun x hx => h x (List.mem_cons_of_mem _ hx), List.length_cons]
    omega

theorem callOf_length (sel : Nat) (args : List (Nat × Nat)) (h : ArgsOk args) :
    (callOf sel args).length = 4 + 32 * args.length := by
  unfold callOf
  rw [List.length_append, beBytes_length, flat_length args h]

/-- The word of one argument, inside the argument block. -/
theorem word_at (args : List (Nat × Nat)) (tail : List Byte) (h : ArgsOk args) :
    ∀ (i k n : Nat), args[i]? = some (k, n) →
      (((args.flatMap fun a => Abi.encUint a.1 a.2) ++ tail).drop (32 * i)).take 32 = Abi.encUint k n := by
  induction args with
  | nil => intro i k n hi; cases hi
  | cons a as ih =>
    intro i k n hi
    have hl := encUint_length (n := a.2) (h a List.mem_cons_self).1
    rw [List.flatMap_cons, List.append_assoc]
    cases i with
    | zero =>
      injection hi with hi
      rw [Nat.mul_zero, List.drop_zero, List.take_left' hl, hi]
    | succ i =>
      have e : 32 * (i + 1) = (Abi.encUint a.1 a.2).length + 32 * i := by rw [hl]; omega
      rw [e, ← List.drop_drop, List.drop_left' rfl]
      exact ih (fun x hx => h x (List.mem_cons_of_mem _ hx)) i k n hi

theorem rawBytes_eval (I : List Byte) (c : Nat) (hI : I.length ≤ usizeMax) (hc : c + 32 ≤ I.length) :
    Reader.rawBytes ⟨I, c⟩ 32 = .ok ((I.drop c).take 32, ⟨I, c + 32⟩) := by
  unfold Reader.rawBytes Reader.moveCursor
  dsimp only
  rw [if_pos (by omega), ok_bind]
  dsimp only
  unfold getRange
  rw [if_pos ⟨by omega, hc⟩]
  show Except.ok ((I.drop c).take (c + 32 - c), _) = _
  rw [show c + 32 - c = 32 by omega]

theorem readUint_arg (args : List (Nat × Nat)) (tail : List Byte) (h : ArgsOk args) (i k n : Nat)
    (hi : args[i]? = some (k, n))
    (hI : ((args.flatMap fun a => Abi.encUint a.1 a.2) ++ tail).length ≤ usizeMax) :
    readUint k ⟨(args.flatMap fun a => Abi.encUint a.1 a.2) ++ tail, 32 * i⟩ =
      .ok (n, ⟨(args.flatMap fun a => Abi.encUint a.1 a.2) ++ tail, 32 * (i + 1)⟩) := by
  obtain ⟨hlt, -⟩ := List.getElem?_eq_some_iff.1 hi
  have hmem : (k, n) ∈ args := List.mem_of_getElem? hi
  have hfl := flat_length args h
  unfold readUint
  rw [rawBytes_eval _ _ hI (by rw [List.length_append, hfl]; omega), ok_bind]
  dsimp only
  rw [word_at args tail h i k n hi]
  unfold Abi.encUint
  rw [List.drop_left' (List.length_replicate ..), ofBe_beBytes k n (h _ hmem).2]
  rfl

theorem selector_call (sel : Nat) (args : List (Nat × Nat)) (tail : List Byte) (hs : sel < 2 ^ 32) :
    readSelector (callOf sel args ++ tail) = .ok sel := by
  unfold readSelector callOf
  rw [List.append_assoc, if_neg (by rw [List.length_append, beBytes_length]; omega),
    List.take_left' (beBytes_length _ _), ofBe_beBytes 4 sel (by omega)]

theorem skip_call (sel : Nat) (args : List (Nat × Nat)) (tail : List Byte) :
    newSkipSelector (callOf sel args ++ tail) =
      .ok ⟨(args.flatMap fun a => Abi.encUint a.1 a.2) ++ tail, 0⟩ := by
  unfold newSkipSelector callOf
  rw [List.append_assoc, if_neg (by rw [List.length_append, beBytes_length]; omega),
    List.drop_left' (beBytes_length _ _)]
  rfl

theorem expect_call (n : Nat) (args : List (Nat × Nat)) (tail : List Byte) (h : ArgsOk args) (hn : n ≤ args.length) :
    Reader.expectArguments ⟨(args.flatMap fun a => Abi.encUint a.1 a.2) ++ tail, 0⟩ n = .ok () := by
  unfold Reader.expectArguments
  refine ensure_of ?_
  dsimp only
  rw [List.length_append, flat_length args h]
  omega

theorem outWord_eq (n : Nat) : outWord n = Abi.encUint 32 n := by
  have h := C121_writer_is_abi (.one (.uint 32)) n
  exact h.trans (by
    show Abi.seq [⟨true, Abi.encUint 32 n⟩] = _
    simp only [Abi.seq, Abi.seqFrom, if_true, List.append_nil])

theorem outU8_eq (n : Nat) : outU8 n = Abi.encUint 1 n := by
  have h := C121_writer_is_abi (.one (.uint 1)) n
  exact h.trans (by
    show Abi.seq [⟨true, Abi.encUint 1 n⟩] = _
    simp only [Abi.seq, Abi.seqFrom, if_true, List.append_nil])

theorem outBool_eq (b : Bool) : outBool b = Abi.encBool b := by
  have h := C121_writer_is_abi (.one .bool) b
  exact h.trans (by
    show Abi.seq [⟨true, Abi.encBool b⟩] = _
    simp only [Abi.seq, Abi.seqFrom, if_true, List.append_nil])

theorem outBytes_eq (b : List Byte) : outBytes b = Abi.seq [⟨false, Abi.encBytes b⟩] :=
  C121_writer_is_abi (.one .bytes) b

theorem orRevert_ok_iff {α : Type} {x : R α} {a : α} : orRevert x = .ok a ↔ x = .ok a := by
  unfold orRevert
  cases x with
  | ok b => rfl
  | error e =>
    dsimp only
    constructor
    · intro h; cases h
    · intro h; cases h

theorem dispatch_ok_iff {α : Type} {rt : Rt} {d : Disp} {x : R α} {a : α} :
    dispatch rt d x = .ok a ↔ rt.filter d = true ∧ x = .ok a := by
  unfold dispatch
  by_cases h : rt.filter d = true
  · rw [if_pos h, orRevert_ok_iff]
    exact ⟨fun k => ⟨h, k⟩, fun k => k.2⟩
  · rw [if_neg h]
    constructor
    · intro k; cases k
    · intro k; exact absurd k.1 h

theorem u256ToAmount_ok_iff {v a : Nat} : u256ToAmount v = .ok a ↔ v ≤ maxU128 ∧ a = v := by
  unfold u256ToAmount
  split
  · rename_i h
    constructor
    · intro e; injection e with e; exact ⟨h, e.symm⟩
    · rintro ⟨-, rfl⟩; rfl
  · rename_i h
    constructor
    · intro e; cases e
    · exact fun e => (h e.1).elim

theorem argsOk_nil : ArgsOk [] := fun _ h => by cases h

theorem argsOk1 {k a : Nat} (hk : k ≤ 32) (ha : a < 256 ^ k) : ArgsOk [(k, a)] := by
  intro x hx
  rw [List.mem_singleton.1 hx]
  exact ⟨hk, ha⟩

theorem argsOk_cons {k a : Nat} {l : List (Nat × Nat)} (hk : k ≤ 32) (ha : a < 256 ^ k) (hl : ArgsOk l) :
    ArgsOk ((k, a) :: l) := by
  intro x hx
  rcases List.mem_cons.1 hx with rfl | hx
  · exact ⟨hk, ha⟩
  · exact hl x hx

/-- The calldata, with anything behind it, fits the address space. -/
def Sized (input : List Byte) : Prop := input.length ≤ usizeMax

theorem sized_args {sel : Nat} {args : List (Nat × Nat)} {tail : List Byte} (h : Sized (callOf sel args ++ tail)) :
    ((args.flatMap fun a => Abi.encUint a.1 a.2) ++ tail).length ≤ usizeMax := by
  unfold Sized callOf at h
  rw [List.append_assoc, List.length_append] at h
  omega

/-- When a native transfer succeeds. -/
theorem transfer_succeeds_iff (rt : Rt) (n : Native) (src dst amt : Nat) :
    (∃ n', n.transfer rt src dst amt = .ok n') ↔ CanMove rt n src dst amt := by
  unfold Native.transfer CanMove Native.usable remainder
  by_cases h0 : amt = 0 ∨ src = dst
  · rw [if_pos h0]
    exact ⟨fun _ => by tauto, fun _ => ⟨_, rfl⟩⟩
  · rw [if_neg h0]
    rw [not_or] at h0
    constructor
    · rintro ⟨n', h⟩
      simp only [bind_ok_iff, ensure_ok_iff, exists_const] at h
      obtain ⟨h1, h2, h3, h4, h5, h6⟩ := h
      refine .inr (.inr ⟨by omega, h2, h3, fun hp => ?_⟩)
      rcases h5 with h5 | h5
      · rw [hp] at h5; cases h5
      · exact h5
    · rintro (h | h | ⟨h1, h2, h3, h4⟩)
      · exact (h0.1 h).elim
      · exact (h0.2 h).elim
      · rw [ensure_of (by omega), ok_bind, ensure_of h2, ok_bind, ensure_of h3, ok_bind,
          ensure_of (by omega), ok_bind, ensure_of (by
            cases hp : n.pinned src with
            | false => exact .inl rfl
            | true => exact .inr (h4 hp)), ok_bind]
        dsimp only
        split
        · exact ⟨_, rfl⟩
        · exact ⟨_, rfl⟩

/-- What a native transfer does. -/
theorem transfer_moved {rt : Rt} {n n' : Native} {src dst amt : Nat} (h : n.transfer rt src dst amt = .ok n') :
    Moved rt n n' src dst amt := by
  unfold Native.transfer at h
  by_cases h0 : amt = 0 ∨ src = dst
  · rw [if_pos h0] at h
    injection h with h
    subst h
    refine ⟨fun h1 h2 => ?_, fun _ _ => rfl, fun h1 h2 => ?_, fun _ => rfl, rfl, rfl, rfl⟩
    · tauto
    · tauto
  · rw [if_neg h0] at h
    rw [not_or] at h0
    simp only [bind_ok_iff, ensure_ok_iff, exists_const] at h
    obtain ⟨h1, h2, h3, h4, h5, h6⟩ := h
    split at h6
    · rename_i hr
      rw [pure_ok_iff] at h6
      subst h6
      have hd : dustOf rt n src amt = n.free src - amt + n.resv src := if_pos hr
      refine ⟨fun _ _ a => ?_, fun a ha => upd_of_ne _ _ ha, fun _ _ => ?_, fun hc => (not_or.2 h0 hc).elim,
        rfl, rfl, rfl⟩
      · rw [hd]
        simp only [Native.reap, upd]
        have hne := h0.2
        by_cases e1 : a = src <;> by_cases e2 : a = dst <;> by_cases e3 : a = rt.treasury <;>
          by_cases e4 : rt.treasury = src <;> by_cases e5 : rt.treasury = dst <;> simp_all <;> omega
      · unfold remainder
        rw [if_pos hr]
        exact upd_same _ _ _
    · rename_i hr
      rw [pure_ok_iff] at h6
      subst h6
      have hd : dustOf rt n src amt = 0 := if_neg hr
      refine ⟨fun _ _ a => ?_, fun a ha => rfl, fun _ _ => ?_, fun hc => (not_or.2 h0 hc).elim, rfl, rfl, rfl⟩
      · rw [hd]
        simp only [upd]
        have hne := h0.2
        by_cases e1 : a = src <;> by_cases e2 : a = dst <;> simp_all <;> omega
      · unfold remainder
        rw [if_neg hr]

end Verif.Evm
