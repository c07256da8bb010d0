import Verif.Evm.Codec
import Mathlib.Data.List.Induction

/-!
# Round trip of the ABI codec

The proof device is a *layout*: what a writer holds is a list of 32 byte items, each a plain word or a pointer
to further data.  `layout` is the byte string they are built into; writing produces it (`write_layout`), and
reading it back gives the values (`read_at`).
-/

namespace Verif.Evm

/-! ## Big endian words -/

@[simp] theorem beBytes_length (k n : Nat) : (beBytes k n).length = k := by
  induction k generalizing n with
  | zero => rfl
  | succ k ih => simp [beBytes, ih]

theorem ofBe_append (l : List Byte) (b : Byte) : ofBe (l ++ [b]) = ofBe l * 256 + b.val := by
  simp [ofBe, List.foldl_append]

theorem ofBe_beBytes (k n : Nat) (h : n < 256 ^ k) : ofBe (beBytes k n) = n := by
  induction k generalizing n with
  | zero => simp at h; subst h; rfl
  | succ k ih =>
    rw [beBytes, ofBe_append, ih (n / 256) (by
      rw [Nat.div_lt_iff_lt_mul (by decide)]; rw [pow_succ] at h; exact h)]
    show n / 256 * 256 + n % 256 = n
    omega

theorem ofBe_zeros (m : Nat) (l : List Byte) : ofBe (List.replicate m 0 ++ l) = ofBe l := by
  induction m with
  | zero => rfl
  | succ m ih => rw [List.replicate_succ, List.cons_append, ← ih]; simp [ofBe]

theorem ofBe_lt (l : List Byte) : ofBe l < 256 ^ l.length := by
  induction l using List.reverseRecOn with
  | nil => simp [ofBe]
  | append_singleton l b ih =>
    rw [ofBe_append, List.length_append, List.length_singleton, pow_succ]
    have := b.isLt
    omega

theorem beBytes_ofBe (l : List Byte) : beBytes l.length (ofBe l) = l := by
  induction l using List.reverseRecOn with
  | nil => rfl
  | append_singleton l b ih =>
    rw [List.length_append, List.length_singleton, beBytes, ofBe_append]
    have hb := b.isLt
    have h1 : (ofBe l * 256 + b.val) / 256 = ofBe l := by omega
    rw [h1, ih]
    congr 2
    apply Fin.ext
    show (ofBe l * 256 + b.val) % 256 = b.val
    omega

theorem usize_lt : usizeMax < 256 ^ 32 := by decide +kernel

/-! ## Layouts -/

/-- One 32 byte item of a writer. -/
inductive Item where
  | word (w : List Byte)
  | ptr (d : List Byte)

/-- What the writer holds before offsets are computed. -/
def flat : List Item → List Byte
  | [] => []
  | .word w :: r => w ++ flat r
  | .ptr _ :: r => List.replicate 32 255 ++ flat r

/-- The offset data of the items, the first of which is at position `pos`. -/
def offsAt (pos shift : Nat) : List Item → List Datum
  | [] => []
  | .word w :: r => offsAt (pos + w.length) shift r
  | .ptr d :: r => ⟨pos, d, shift⟩ :: offsAt (pos + 32) shift r

/-- Heads and tails of the final output; `off` is the offset at which the next tail goes. -/
def lay (off : Nat) : List Item → List Byte × List Byte
  | [] => ([], [])
  | .word w :: r => (w ++ (lay off r).1, (lay off r).2)
  | .ptr d :: r => (beBytes 32 off ++ (lay (off + d.length) r).1, d ++ (lay (off + d.length) r).2)

/-- The final output for a list of items. -/
def layout (is : List Item) : List Byte :=
  (lay (flat is).length is).1 ++ (lay (flat is).length is).2

/-- Words are 32 bytes and pointed data is not empty. -/
def WfItems (is : List Item) : Prop := ∀ i ∈ is, match i with
  | .word w => w.length = 32
  | .ptr d => d ≠ []

theorem flat_append (a b : List Item) : flat (a ++ b) = flat a ++ flat b := by
  induction a with
  | nil => rfl
  | cons i r ih => cases i <;> simp [flat, ih]

theorem offsAt_append (p s : Nat) (a b : List Item) :
    offsAt p s (a ++ b) = offsAt p s a ++ offsAt (p + (flat a).length) s b := by
  induction a generalizing p with
  | nil => simp [offsAt, flat]
  | cons i r ih =>
    cases i with
    | word w => simp [offsAt, flat, ih, Nat.add_assoc]
    | ptr d =>
      simp only [List.cons_append, offsAt, flat, ih, List.length_append, List.length_replicate,
        Nat.add_assoc]

theorem offsAt_map (p s q t : Nat) (a : List Item) :
    (offsAt p s a).map (fun o => (⟨o.pos + q, o.data, o.shift + t⟩ : Datum)) = offsAt (p + q) (s + t) a := by
  induction a generalizing p with
  | nil => rfl
  | cons i r ih =>
    cases i with
    | word w =>
      simp only [offsAt]; rw [ih]; congr 1; omega
    | ptr d =>
      simp only [offsAt, List.map_cons]; rw [ih]
      congr 2; omega

theorem WfItems.flat_len {is : List Item} (h : WfItems is) : (flat is).length = 32 * is.length := by
  induction is with
  | nil => rfl
  | cons i r ih =>
    have hr := ih fun j hj => h j (List.mem_cons_of_mem _ hj)
    have hi := h i List.mem_cons_self
    cases i with
    | word w => simp only [flat, List.length_append, List.length_cons] at *; omega
    | ptr d => simp only [flat, List.length_append, List.length_cons, List.length_replicate] at *; omega

theorem lay_fst_len (off : Nat) (is : List Item) : (lay off is).1.length = (flat is).length := by
  induction is generalizing off with
  | nil => rfl
  | cons i r ih =>
    cases i with
    | word w => simp only [lay, flat, ih, List.length_append]
    | ptr d => simp only [lay, flat, ih, List.length_append, List.length_replicate, beBytes_length]

theorem overwrite_mid (P X Q w : List Byte) (hX : X.length = 32) :
    overwrite (P ++ X ++ Q) P.length w = P ++ w ++ Q := by
  unfold overwrite
  have h1 : (P ++ X ++ Q).take P.length = P := by
    rw [List.append_assoc, List.take_left]
  have h2 : (P ++ X ++ Q).drop (P.length + 32) = Q := by
    rw [← hX, ← List.length_append, List.drop_left]
  rw [h1, h2]

theorem bake_lay (is : List Item) (P T : List Byte) (s : Nat) (hs : s ≤ P.length) :
    bake (P ++ flat is ++ T) (offsAt P.length s is) =
      P ++ (lay (P.length + (flat is).length + T.length - s) is).1 ++ T ++
        (lay (P.length + (flat is).length + T.length - s) is).2 := by
  induction is generalizing P T with
  | nil => simp [flat, offsAt, bake, lay]
  | cons i r ih =>
    cases i with
    | word w =>
      have e : P ++ flat (.word w :: r) ++ T = (P ++ w) ++ flat r ++ T := by simp [flat]
      have e2 : offsAt P.length s (.word w :: r) = offsAt (P ++ w).length s r := by
        simp [offsAt]
      rw [e, e2, ih (P ++ w) T (by simp; omega)]
      have e3 : (P ++ w).length + (flat r).length + T.length - s =
          P.length + (flat (.word w :: r)).length + T.length - s := by
        simp only [flat, List.length_append]; omega
      rw [e3]
      simp [lay]
    | ptr d =>
      have hX : (List.replicate 32 (255 : Byte)).length = 32 := List.length_replicate
      have e0 : P ++ flat (.ptr d :: r) ++ T = P ++ List.replicate 32 255 ++ (flat r ++ T) := by
        simp only [flat, List.append_assoc]
      have eN : (P ++ flat (.ptr d :: r) ++ T).length - s =
          P.length + (flat (.ptr d :: r)).length + T.length - s := by
        simp only [List.length_append]
      have hfl : (flat (.ptr d :: r)).length = 32 + (flat r).length := by
        simp only [flat, List.length_append, List.length_replicate]
      generalize hN : P.length + (flat (.ptr d :: r)).length + T.length - s = N at *
      simp only [offsAt, bake, lay]
      rw [eN, e0, overwrite_mid P _ _ _ hX]
      have e1 : P ++ beBytes 32 N ++ (flat r ++ T) ++ d = (P ++ beBytes 32 N) ++ flat r ++ (T ++ d) := by
        simp only [List.append_assoc]
      have e2 : P.length + 32 = (P ++ beBytes 32 N).length := by
        simp only [List.length_append, beBytes_length]
      rw [e1, e2, ih (P ++ beBytes 32 N) (T ++ d) (by simp only [List.length_append]; omega)]
      have e3 : (P ++ beBytes 32 N).length + (flat r).length + (T ++ d).length - s = N + d.length := by
        simp only [List.length_append, beBytes_length]; omega
      rw [e3]
      simp only [List.append_assoc]

theorem bake_layout (is : List Item) : bake (flat is) (offsAt 0 0 is) = layout is := by
  have := bake_lay is [] [] 0 (Nat.le_refl _)
  simpa [layout] using this

theorem bake_array (hd : List Byte) (hh : hd.length = 32) (is : List Item) :
    bake (hd ++ flat is) (offsAt 32 32 is) = hd ++ layout is := by
  have := bake_lay is hd [] 32 (by omega)
  rw [hh] at this
  simp only [List.append_nil, List.length_nil, Nat.add_zero, Nat.add_sub_cancel_left] at this
  rw [this]; simp [layout]

/-! ## What is written -/

mutual
/-- The items a value is written as. -/
def Ty.items : (t : Ty) → t.D → List Item
  | .uint k, n => [.word (List.replicate (32 - k) 0 ++ beBytes k n)]
  | .bool, b => [.word (boolWord b)]
  | .bytes, l => [.ptr (beBytes 32 l.length ++ padded l)]
  | .vec t, vs => [.ptr (beBytes 32 vs.length ++ layout (vs.flatMap t.items))]
  | .tup ts, v => if ts.static then ts.items v else [.ptr (layout (ts.items v))]
/-- The items the components of a tuple are written as. -/
def Tys.items : (ts : Tys) → ts.D → List Item
  | .one t, v => t.items v
  | .cons t ts, v => t.items v.1 ++ ts.items v.2
end

/-- A writer after appending items. -/
def Writer.plus (w : Writer) (is : List Item) : Writer :=
  ⟨w.data ++ flat is, w.offs ++ offsAt w.data.length 0 is⟩

theorem Writer.plus_plus (w : Writer) (a b : List Item) : (w.plus a).plus b = w.plus (a ++ b) := by
  simp [plus, flat_append, offsAt_append]

theorem Writer.plus_build (is : List Item) : (Writer.empty.plus is).build = layout is := by
  rw [← bake_layout]
  rfl

theorem Writer.raw_plus (w : Writer) (l : List Byte) : w.raw l = w.plus [.word l] := by
  simp [raw, plus, flat, offsAt]

theorem Writer.pointer_plus (w : Writer) (d : List Byte) : w.pointer d = w.plus [.ptr d] := by
  simp only [pointer, plus, flat, offsAt, List.append_nil]

theorem Writer.build_raw2 (x y : List Byte) : ((Writer.empty.raw x).raw y).build = x ++ y := rfl

/-- The loop over the items of an array. -/
theorem fold_items {α : Type} (f : α → List Item) (g : Writer → α → Writer)
    (hg : ∀ x, g Writer.empty x = Writer.empty.plus (f x)) (vs : List α) (hd : List Byte) (is : List Item)
    (hh : hd.length = 32) :
    vs.foldl (fun (inner : Writer) x => inner.item (g Writer.empty x))
        (⟨hd ++ flat is, offsAt 32 32 is⟩ : Writer) =
      (⟨hd ++ flat (is ++ vs.flatMap f), offsAt 32 32 (is ++ vs.flatMap f)⟩ : Writer) := by
  induction vs generalizing is with
  | nil => simp
  | cons x vs ih =>
    rw [List.foldl_cons, hg]
    have e : Writer.item ⟨hd ++ flat is, offsAt 32 32 is⟩ (Writer.empty.plus (f x)) =
        ⟨hd ++ flat (is ++ f x), offsAt 32 32 (is ++ f x)⟩ := by
      unfold Writer.item Writer.plus Writer.empty
      simp only [List.nil_append, List.length_nil, List.length_append, hh]
      rw [offsAt_map, flat_append, offsAt_append]
      simp
    rw [e, ih]
    simp

theorem tup_write (ts : Tys) (w : Writer) (v : ts.D)
    (h : ∀ (w : Writer) (v : ts.D), ts.write w v = w.plus (ts.items v)) :
    (Ty.tup ts).write w v = w.plus ((Ty.tup ts).items v) := by
  show (if ts.static then ts.write w v else w.pointer (ts.write Writer.empty v).build) =
    w.plus (if ts.static then ts.items v else [.ptr (layout (ts.items v))])
  split
  · exact h w v
  · rw [h, Writer.plus_build, Writer.pointer_plus]

mutual
theorem Ty.write_items : (t : Ty) → (w : Writer) → (v : t.D) → t.write w v = w.plus (t.items v)
  | .uint k, w, n => Writer.raw_plus w _
  | .bool, w, b => Writer.raw_plus w _
  | .bytes, w, l => by
    rw [Ty.write, Ty.items, Writer.pointer_plus, Writer.build_raw2]
  | .vec t, w, vs => by
    rw [Ty.write, Ty.items, Writer.pointer_plus]
    have h := fold_items t.items (t.write) (fun x => t.write_items Writer.empty x) vs
      (beBytes 32 (List.length vs)) [] (beBytes_length _ _)
    have e : Writer.empty.raw (beBytes 32 (List.length vs)) =
        ⟨beBytes 32 (List.length vs) ++ flat [], offsAt 32 32 []⟩ := by
      simp [Writer.raw, Writer.empty, flat, offsAt]
    rw [e, h]
    unfold Writer.build
    rw [bake_array _ (beBytes_length _ _), List.nil_append]
  | .tup ts, w, v => by
    exact tup_write ts w v (fun w v => ts.write_items w v)
theorem Tys.write_items : (ts : Tys) → (w : Writer) → (v : ts.D) → ts.write w v = w.plus (ts.items v)
  | .one t, w, v => t.write_items w v
  | .cons t ts, w, v => by
    rw [Tys.write, Tys.items, t.write_items, ts.write_items, Writer.plus_plus]
end

theorem Tys.build_layout (ts : Tys) (v : ts.D) : (ts.write Writer.empty v).build = layout (ts.items v) := by
  rw [ts.write_items, Writer.plus_build]

theorem Ty.build_layout (t : Ty) (v : t.D) : (t.write Writer.empty v).build = layout (t.items v) := by
  rw [t.write_items, Writer.plus_build]

/-! ## Where a layout is in a byte string -/

/-- The byte string `I` holds the items `is` from position `c` on. -/
def At (I : List Byte) : Nat → List Item → Prop
  | _, [] => True
  | c, .word w :: r => c + 32 ≤ I.length ∧ (I.drop c).take 32 = w ∧ At I (c + 32) r
  | c, .ptr d :: r => (c + 32 ≤ I.length ∧ ∃ p, (I.drop c).take 32 = beBytes 32 p ∧ p < I.length ∧
      d <+: I.drop p) ∧ At I (c + 32) r

theorem At_append {I : List Byte} (a b : List Item) (c : Nat) :
    At I c (a ++ b) ↔ At I c a ∧ At I (c + 32 * a.length) b := by
  induction a generalizing c with
  | nil => simp [At]
  | cons i r ih =>
    have e : c + 32 * (i :: r).length = c + 32 + 32 * r.length := by
      simp only [List.length_cons]; omega
    rw [e]
    cases i with
    | word w => simp only [List.cons_append, At, ih, and_assoc]
    | ptr d => simp only [List.cons_append, At, ih, and_assoc]

theorem At_lay (is : List Item) (P T J : List Byte) (off : Nat) (hw : WfItems is)
    (ho : off = P.length + (flat is).length + T.length) :
    At (P ++ (lay off is).1 ++ T ++ (lay off is).2 ++ J) P.length is := by
  induction is generalizing P T off with
  | nil => trivial
  | cons i r ih =>
    have hwr : WfItems r := fun j hj => hw j (List.mem_cons_of_mem _ hj)
    have hi := hw i List.mem_cons_self
    cases i with
    | word w =>
      have hl : w.length = 32 := hi
      have e : P ++ (lay off (.word w :: r)).1 ++ T ++ (lay off (.word w :: r)).2 ++ J =
          (P ++ w) ++ (lay off r).1 ++ T ++ (lay off r).2 ++ J := by
        simp only [lay, List.append_assoc]
      have hpw : (P ++ w).length = P.length + 32 := by rw [List.length_append, hl]
      have h2 := ih (P ++ w) T off hwr (by
        rw [ho]; simp only [flat, List.length_append]; omega)
      rw [e]
      refine ⟨?_, ?_, ?_⟩
      · simp only [List.length_append]; omega
      · simp only [List.append_assoc]
        rw [List.drop_left, ← hl, List.take_left]
      · rw [hpw] at h2; exact h2
    | ptr d =>
      have hd : d ≠ [] := hi
      have e : P ++ (lay off (.ptr d :: r)).1 ++ T ++ (lay off (.ptr d :: r)).2 ++ J =
          (P ++ beBytes 32 off) ++ (lay (off + d.length) r).1 ++ (T ++ d) ++
            (lay (off + d.length) r).2 ++ J := by
        simp only [lay, List.append_assoc]
      have hpw : (P ++ beBytes 32 off).length = P.length + 32 := by
        rw [List.length_append, beBytes_length]
      have hfl : (flat (.ptr d :: r)).length = 32 + (flat r).length := by
        simp only [flat, List.length_append, List.length_replicate]
      have h2 := ih (P ++ beBytes 32 off) (T ++ d) (off + d.length) hwr (by
        simp only [List.length_append, beBytes_length]; omega)
      rw [e]
      rw [hpw] at h2
      have hdl : 0 < d.length := List.length_pos_iff.2 hd
      have hfst := lay_fst_len (off + d.length) r
      refine ⟨⟨?_, off, ?_, ?_, ?_⟩, h2⟩
      · simp only [List.length_append, beBytes_length]; omega
      · simp only [List.append_assoc]
        rw [List.drop_left]
        have := List.take_left (l₁ := beBytes 32 off) (l₂ := (lay (off + d.length) r).1 ++
          (T ++ (d ++ ((lay (off + d.length) r).2 ++ J))))
        rwa [beBytes_length] at this
      · simp only [List.length_append, beBytes_length]; omega
      · have e2 : (P ++ beBytes 32 off) ++ (lay (off + d.length) r).1 ++ (T ++ d) ++
            (lay (off + d.length) r).2 ++ J =
            (P ++ beBytes 32 off ++ (lay (off + d.length) r).1 ++ T) ++
              (d ++ ((lay (off + d.length) r).2 ++ J)) := by
          simp only [List.append_assoc]
        have e3 : off = (P ++ beBytes 32 off ++ (lay (off + d.length) r).1 ++ T).length := by
          simp only [List.length_append, beBytes_length]; omega
        rw [e2]
        rw [List.drop_left' e3.symm]
        exact List.prefix_append _ _

theorem At_layout {is : List Item} (hw : WfItems is) (J : List Byte) : At (layout is ++ J) 0 is := by
  have := At_lay is [] [] J (flat is).length hw (by simp)
  simpa [layout] using this

theorem layout_len_pos {is : List Item} (hw : WfItems is) (h : is ≠ []) : layout is ≠ [] := by
  intro e
  have : (flat is).length = 0 := by
    have := congrArg List.length e
    unfold layout at this
    rw [List.length_append, lay_fst_len] at this
    simp only [List.length_nil] at this
    omega
  rw [hw.flat_len] at this
  have : is.length = 0 := by omega
  exact h (List.length_eq_zero_iff.1 this)

theorem boolWord_len (b : Bool) : (boolWord b).length = 32 := by cases b <;> decide

theorem wfItems_one {i : Item} (h : match i with | .word w => w.length = 32 | .ptr d => d ≠ []) :
    WfItems [i] := by
  intro j hj
  rw [List.mem_singleton] at hj
  subst hj; exact h

theorem wfItems_append {a b : List Item} (ha : WfItems a) (hb : WfItems b) : WfItems (a ++ b) := by
  intro j hj
  rcases List.mem_append.1 hj with h | h
  · exact ha j h
  · exact hb j h

theorem be_append_ne (k : Nat) (l : List Byte) : beBytes 32 k ++ l ≠ [] := by
  intro e
  have := congrArg List.length e
  rw [List.length_append, beBytes_length, List.length_nil] at this
  omega

theorem tup_wf (ts : Tys) (v : ts.D) (h : WfItems (ts.items v) ∧ ts.items v ≠ []) :
    WfItems ((Ty.tup ts).items v) ∧ (Ty.tup ts).items v ≠ [] := by
  show WfItems (if ts.static then ts.items v else [.ptr (layout (ts.items v))]) ∧
    (if ts.static then ts.items v else [.ptr (layout (ts.items v))]) ≠ []
  split
  · exact h
  · exact ⟨wfItems_one (layout_len_pos h.1 h.2), List.cons_ne_nil _ _⟩

theorem uintWord_len (k n : Nat) (hk : k ≤ 32) :
    (List.replicate (32 - k) (0 : Byte) ++ beBytes k n).length = 32 := by
  rw [List.length_append, List.length_replicate, beBytes_length]; omega

mutual
theorem Ty.items_wf : (t : Ty) → (v : t.D) → t.Fits v → WfItems (t.items v) ∧ t.items v ≠ []
  | .uint k, n, h => by
    have hk : k ≤ 32 := (show uintFits k n from h).1
    exact ⟨wfItems_one (uintWord_len k n hk), List.cons_ne_nil _ _⟩
  | .bool, b, _ => ⟨wfItems_one (boolWord_len b), List.cons_ne_nil _ _⟩
  | .bytes, l, _ => ⟨wfItems_one (be_append_ne _ _), List.cons_ne_nil _ _⟩
  | .vec _, _, _ => ⟨wfItems_one (be_append_ne _ _), List.cons_ne_nil _ _⟩
  | .tup ts, v, h => tup_wf ts v (ts.items_wf v h)
theorem Tys.items_wf : (ts : Tys) → (v : ts.D) → ts.Fits v → WfItems (ts.items v) ∧ ts.items v ≠ []
  | .one t, v, h => t.items_wf v h
  | .cons t ts, v, h =>
    ⟨wfItems_append (t.items_wf v.1 h.1).1 (ts.items_wf v.2 h.2).1,
      List.append_ne_nil_of_left_ne_nil (t.items_wf v.1 h.1).2 _⟩
end

theorem flatMap_wf {t : Ty} {vs : List t.D} (h : ∀ x ∈ vs, t.Fits x) : WfItems (vs.flatMap t.items) := by
  intro i hi
  obtain ⟨x, hx, hxi⟩ := List.mem_flatMap.1 hi
  exact (t.items_wf x (h x hx)).1 i hxi

/-! ## What is read -/

theorem rawBytes_at {I : List Byte} {c n : Nat} (h : c + n ≤ I.length) (hI : I.length ≤ usizeMax) :
    Reader.rawBytes ⟨I, c⟩ n = .ok ((I.drop c).take n, ⟨I, c + n⟩) := by
  unfold Reader.rawBytes Reader.moveCursor
  have h1 : c + n ≤ usizeMax := by omega
  rw [if_pos h1]
  simp only [ok_bind]
  unfold getRange
  rw [if_pos ⟨by omega, h⟩, okOr_some]
  simp only [ok_bind, Nat.add_sub_cancel_left]
  rfl

theorem usize_at {I : List Byte} {c p : Nat} (h : c + 32 ≤ I.length) (hI : I.length ≤ usizeMax)
    (hw : (I.drop c).take 32 = beBytes 32 p) (hp : p ≤ usizeMax) :
    Reader.usize ⟨I, c⟩ = .ok (p, ⟨I, c + 32⟩) := by
  unfold Reader.usize
  rw [rawBytes_at h hI, hw]
  simp only [ok_bind]
  have hp' : p < 256 ^ 32 := Nat.lt_of_le_of_lt hp usize_lt
  rw [ofBe_beBytes 32 p hp', ensure_of hp]
  rfl

theorem pointer_at {I : List Byte} {c p : Nat} (h : c + 32 ≤ I.length) (hI : I.length ≤ usizeMax)
    (hw : (I.drop c).take 32 = beBytes 32 p) (hp : p < I.length) :
    Reader.pointer ⟨I, c⟩ = .ok (⟨I.drop p, 0⟩, ⟨I, c + 32⟩) := by
  unfold Reader.pointer
  rw [usize_at h hI hw (by omega)]
  simp only [ok_bind]
  rw [ensure_of hp]
  simp only [ok_bind]
  unfold Reader.sliceFrom
  rw [if_pos (by omega)]
  rfl

theorem drop_take_uint (k n : Nat) (hn : n < 256 ^ k) :
    ofBe ((List.replicate (32 - k) 0 ++ beBytes k n).drop (32 - k)) = n := by
  rw [List.drop_left' List.length_replicate, ofBe_beBytes k n hn]

theorem boolWord_any (b : Bool) : (boolWord b).any (fun x => decide (x ≠ 0)) = b := by
  cases b <;> decide

theorem padded_take (l : List Byte) : l <+: padded l := List.prefix_append _ _

theorem readN_at {α : Type} (f : Reader → R (α × Reader)) (g : α → List Item) (I : List Byte)
    (P : α → Prop)
    (hf : ∀ c x, P x → At I c (g x) → f ⟨I, c⟩ = .ok (x, ⟨I, c + 32 * (g x).length⟩)) :
    ∀ (vs : List α) (c : Nat), (∀ x ∈ vs, P x) → At I c (vs.flatMap g) →
      readN f vs.length ⟨I, c⟩ = .ok (vs, ⟨I, c + 32 * (vs.flatMap g).length⟩)
  | [], c, _, _ => rfl
  | x :: vs, c, hP, hA => by
    rw [List.flatMap_cons] at hA
    rw [At_append] at hA
    rw [List.length_cons, readN, hf c x (hP x List.mem_cons_self) hA.1]
    simp only [ok_bind]
    rw [readN_at f g I P hf vs _ (fun y hy => hP y (List.mem_cons_of_mem _ hy)) hA.2]
    simp only [ok_bind, List.flatMap_cons, List.length_append]
    rw [Nat.mul_add, Nat.add_assoc]
    rfl

/-- The data a pointer points to. -/
theorem prefix_split {d l : List Byte} (h : d <+: l) : ∃ J, l = d ++ J := by
  obtain ⟨J, hJ⟩ := h; exact ⟨J, hJ.symm⟩

theorem bytes_at (l J : List Byte) (hI : (beBytes 32 l.length ++ padded l ++ J).length ≤ usizeMax) :
    (do
      let (n, inner') ← Reader.usize ⟨beBytes 32 l.length ++ padded l ++ J, 0⟩
      let (d, _) ← inner'.rawBytes n
      pure d : R (List Byte)) = .ok l := by
  obtain ⟨Q, hQ⟩ := prefix_split (padded_take l)
  rw [hQ] at hI ⊢
  have hlen : (beBytes 32 l.length ++ (l ++ Q) ++ J).length = 32 + l.length + Q.length + J.length := by
    simp only [List.length_append, beBytes_length]; omega
  rw [hlen] at hI
  have hw : ((beBytes 32 l.length ++ (l ++ Q) ++ J).drop 0).take 32 = beBytes 32 l.length := by
    rw [List.drop_zero, List.append_assoc, List.take_left' (beBytes_length _ _)]
  rw [usize_at (by rw [hlen]; omega) (by rw [hlen]; omega) hw (by omega)]
  simp only [ok_bind]
  rw [rawBytes_at (by rw [hlen]; omega) (by rw [hlen]; omega)]
  simp only [ok_bind]
  have hd : ((beBytes 32 l.length ++ (l ++ Q) ++ J).drop (0 + 32)).take l.length = l := by
    rw [Nat.zero_add, List.append_assoc, List.drop_left' (beBytes_length _ _), List.append_assoc,
      List.take_left]
  rw [hd]
  rfl

theorem uint_read (k n : Nat) (h : uintFits k n) (I : List Byte) (c : Nat) (hI : I.length ≤ usizeMax)
    (hA : At I c [.word (List.replicate (32 - k) 0 ++ beBytes k n)]) :
    (Ty.uint k).read ⟨I, c⟩ = .ok ((n : Nat), ⟨I, c + 32⟩) := by
  obtain ⟨h1, h2, -⟩ := hA
  show (do
    let (w, r') ← Reader.rawBytes ⟨I, c⟩ 32
    pure (ofBe (w.drop (32 - k)), r') : R (Nat × Reader)) = _
  rw [rawBytes_at h1 hI, h2]
  simp only [ok_bind]
  rw [drop_take_uint k n h.2]
  rfl

theorem bool_read (b : Bool) (I : List Byte) (c : Nat) (hI : I.length ≤ usizeMax)
    (hA : At I c [.word (boolWord b)]) : Ty.bool.read ⟨I, c⟩ = .ok (b, ⟨I, c + 32⟩) := by
  obtain ⟨h1, h2, -⟩ := hA
  show (do
    let (w, r') ← Reader.rawBytes ⟨I, c⟩ 32
    pure (w.any (fun b => b ≠ 0), r') : R (Bool × Reader)) = _
  rw [rawBytes_at h1 hI, h2]
  simp only [ok_bind]
  rw [boolWord_any]
  rfl

theorem bytes_read (l : List Byte) (I : List Byte) (c : Nat) (hI : I.length ≤ usizeMax)
    (hA : At I c [.ptr (beBytes 32 l.length ++ padded l)]) :
    Ty.bytes.read ⟨I, c⟩ = .ok (l, ⟨I, c + 32⟩) := by
  obtain ⟨⟨h1, p, h2, h3, h4⟩, -⟩ := hA
  obtain ⟨J, hJ⟩ := prefix_split h4
  show (do
    let (inner, r') ← Reader.pointer ⟨I, c⟩
    let (n, inner') ← inner.usize
    let (d, _) ← inner'.rawBytes n
    pure (d, r') : R (List Byte × Reader)) = _
  rw [pointer_at h1 hI h2 h3]
  simp only [ok_bind]
  rw [hJ]
  have hl : (beBytes 32 l.length ++ padded l ++ J).length ≤ usizeMax := by
    rw [← hJ, List.length_drop]; omega
  have hb := bytes_at l J hl
  simp only [bind_ok_iff, pure_ok_iff, Prod.exists] at hb
  obtain ⟨n, r1, e1, d, r2, e2, e3⟩ := hb
  rw [e1]
  simp only [ok_bind]
  rw [e2, e3]
  rfl

/-- Reading an array, for any reader `f` of its items; `g x` is what the item `x` was written as. -/
theorem readVec_at {α : Type} (f : Reader → R (α × Reader)) (g : α → List Item) (P : α → Prop)
    (hg : ∀ x, P x → WfItems (g x) ∧ g x ≠ []) (vs : List α) (hf : ∀ x ∈ vs, P x)
    (ih : ∀ (I : List Byte) (c : Nat) (x : α), I.length ≤ usizeMax → P x → At I c (g x) →
      f ⟨I, c⟩ = .ok (x, ⟨I, c + 32 * (g x).length⟩))
    (I : List Byte) (c : Nat) (hI : I.length ≤ usizeMax)
    (hA : At I c [.ptr (beBytes 32 vs.length ++ layout (vs.flatMap g))]) :
    readVec f ⟨I, c⟩ = .ok (vs, ⟨I, c + 32⟩) := by
  obtain ⟨⟨h1, p, h2, h3, h4⟩, -⟩ := hA
  obtain ⟨J, hJ⟩ := prefix_split h4
  unfold readVec
  rw [pointer_at h1 hI h2 h3]
  simp only [ok_bind]
  rw [hJ]
  have hwf : WfItems (vs.flatMap g) := by
    intro i hi
    obtain ⟨x, hx, hxi⟩ := List.mem_flatMap.1 hi
    exact (hg x (hf x hx)).1 i hxi
  have hlen : (beBytes 32 vs.length ++ layout (vs.flatMap g) ++ J).length ≤ usizeMax := by
    rw [← hJ, List.length_drop]; omega
  have hlen2 : (beBytes 32 vs.length ++ layout (vs.flatMap g) ++ J).length =
      32 + (layout (vs.flatMap g) ++ J).length := by
    simp only [List.length_append, beBytes_length]; omega
  have hcount : vs.length ≤ (layout (vs.flatMap g)).length := by
    have h5 : (flat (vs.flatMap g)).length ≤ (layout (vs.flatMap g)).length := by
      unfold layout
      rw [List.length_append, lay_fst_len]; omega
    rw [hwf.flat_len] at h5
    have h6 : vs.length ≤ (vs.flatMap g).length := by
      clear h5 hlen hlen2 hJ h4 hwf h2 h3
      induction vs with
      | nil => simp
      | cons x vs ihv =>
        have hx := (hg x (hf x List.mem_cons_self)).2
        have := ihv (fun y hy => hf y (List.mem_cons_of_mem _ hy))
        have hpos : 0 < (g x).length := List.length_pos_iff.2 hx
        simp only [List.flatMap_cons, List.length_append, List.length_cons]
        omega
    omega
  have hw : ((beBytes 32 vs.length ++ layout (vs.flatMap g) ++ J).drop 0).take 32 =
      beBytes 32 vs.length := by
    rw [List.drop_zero, List.append_assoc, List.take_left' (beBytes_length _ _)]
  have hln : (layout (vs.flatMap g) ++ J).length = (layout (vs.flatMap g)).length + J.length :=
    List.length_append
  rw [usize_at (by omega) hlen hw (by omega)]
  simp only [ok_bind]
  have hit : itemsFrom (beBytes 32 vs.length ++ layout (vs.flatMap g) ++ J) =
      .ok (layout (vs.flatMap g) ++ J) := by
    unfold itemsFrom
    rw [if_pos (by omega), List.append_assoc, List.drop_left' (beBytes_length _ _)]
  rw [hit]
  simp only [ok_bind]
  rw [readN_at f g _ P (fun c x hx hA => ih _ c x (by omega) hx hA) vs 0 hf
    (At_layout hwf J)]
  rfl

theorem vec_read (t : Ty) (vs : List t.D) (hf : ∀ x ∈ vs, t.Fits x)
    (ih : ∀ (I : List Byte) (c : Nat) (x : t.D), I.length ≤ usizeMax → t.Fits x → At I c (t.items x) →
      t.read ⟨I, c⟩ = .ok (x, ⟨I, c + 32 * (t.items x).length⟩))
    (I : List Byte) (c : Nat) (hI : I.length ≤ usizeMax)
    (hA : At I c [.ptr (beBytes 32 vs.length ++ layout (vs.flatMap t.items))]) :
    (Ty.vec t).read ⟨I, c⟩ = .ok (vs, ⟨I, c + 32⟩) :=
  readVec_at t.read t.items t.Fits (fun x hx => t.items_wf x hx) vs hf ih I c hI hA

theorem tup_read (ts : Tys) (v : ts.D) (hf : ts.Fits v)
    (ih : ∀ (I : List Byte) (c : Nat), I.length ≤ usizeMax → At I c (ts.items v) →
      ts.read ⟨I, c⟩ = .ok (v, ⟨I, c + 32 * (ts.items v).length⟩))
    (I : List Byte) (c : Nat) (hI : I.length ≤ usizeMax) (hA : At I c ((Ty.tup ts).items v)) :
    (Ty.tup ts).read ⟨I, c⟩ = .ok (v, ⟨I, c + 32 * ((Ty.tup ts).items v).length⟩) := by
  have e1 : (Ty.tup ts).items v = if ts.static then ts.items v else [.ptr (layout (ts.items v))] := rfl
  rw [e1] at hA ⊢
  show (if ts.static then ts.read ⟨I, c⟩
    else do
      let (inner, r') ← Reader.pointer ⟨I, c⟩
      let (v, _) ← ts.read inner
      pure (v, r') : R (ts.D × Reader)) = _
  by_cases hs : ts.static
  · rw [if_pos hs] at hA ⊢
    rw [if_pos hs]
    exact ih I c hI hA
  · rw [if_neg hs] at hA ⊢
    rw [if_neg hs]
    obtain ⟨⟨h1, p, h2, h3, h4⟩, -⟩ := hA
    obtain ⟨J, hJ⟩ := prefix_split h4
    rw [pointer_at h1 hI h2 h3]
    simp only [ok_bind]
    have hlen : (layout (ts.items v) ++ J).length ≤ usizeMax := by
      rw [← hJ, List.length_drop]; omega
    rw [hJ, ih _ 0 hlen (At_layout (ts.items_wf v hf).1 J)]
    rfl

mutual
theorem Ty.read_at : (t : Ty) → (I : List Byte) → (c : Nat) → (v : t.D) → I.length ≤ usizeMax →
    t.Fits v → At I c (t.items v) → t.read ⟨I, c⟩ = .ok (v, ⟨I, c + 32 * (t.items v).length⟩)
  | .uint k, I, c, n, hI, hf, hA => uint_read k n hf I c hI hA
  | .bool, I, c, b, hI, _, hA => bool_read b I c hI hA
  | .bytes, I, c, l, hI, _, hA => bytes_read l I c hI hA
  | .vec t, I, c, vs, hI, hf, hA => vec_read t vs hf (fun I c x h1 h2 h3 => t.read_at I c x h1 h2 h3) I c hI hA
  | .tup ts, I, c, v, hI, hf, hA => tup_read ts v hf (fun I c h1 h2 => ts.read_at I c v h1 hf h2) I c hI hA
theorem Tys.read_at : (ts : Tys) → (I : List Byte) → (c : Nat) → (v : ts.D) → I.length ≤ usizeMax →
    ts.Fits v → At I c (ts.items v) → ts.read ⟨I, c⟩ = .ok (v, ⟨I, c + 32 * (ts.items v).length⟩)
  | .one t, I, c, v, hI, hf, hA => t.read_at I c v hI hf hA
  | .cons t ts, I, c, v, hI, hf, hA => by
    have e : (Tys.cons t ts).items v = t.items v.1 ++ ts.items v.2 := rfl
    rw [e] at hA ⊢
    rw [At_append] at hA
    rw [Tys.read, t.read_at I c v.1 hI hf.1 hA.1]
    simp only [ok_bind]
    rw [ts.read_at I _ v.2 hI hf.2 hA.2]
    simp only [ok_bind, List.length_append]
    rw [Nat.mul_add, Nat.add_assoc]
    rfl
end

end Verif.Evm
