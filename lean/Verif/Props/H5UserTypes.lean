import Verif.Lemmas.H5UserFile
import Verif.Lemmas.H5Forms
import Verif.Props.H5Typed
/-!
C60: values of user-defined types (compounds, opaque values, enumerations and sequences of them) that
are given to the writer.
-/
namespace Verif.H5
open Verif.Cdf

/-- C60, variables. The value of a variable goes through the writer: its strings are collected in the
heap (after other strings: `h0`), later its sequences (`h1`), the heap is completed (`H`) and written at
the end of the buffer `buf`, then the data are written. The type and the dimensions are those of the
value, and the data mean the value, by the format and with the heap in the file.

Not covered: compounds with members that are sequences (`C60_negation_member`), sequences of compounds
with strings or sequences in them (`C60_negation_string`, `C60_negation_nested`), empty sequences of
other things than numbers, enumerations with arrays of numbers inside compounds. -/
theorem C60_variable_partial {w : WTy} {dims : List Nat} {v : TVal} (hv : VarValue w dims v) (h0 h1 : Heap)
    (hw : ∀ s i, h0.indices.get s = some i → 0 < i ∧ h0.objects[i - 1]? = some s)
    (hle : (collectStringsT h0 v).Le h1) :
    supportedT v = true ∧ ∃ h2 idxs, collectVarT false h1 v dims.length = .ok (h2, idxs) ∧ h1.Le h2 ∧
      ∀ (H : Heap) (buf post : Bytes), h2.Le H → H.objects.length < 65536 →
        H.addr = (writeGlobalHeap buf H.objects).2 →
        ((writeGlobalHeap buf H.objects).1 ++ post).length < 2 ^ 63 →
        ∃ data rest, datatypeOfT v dims.length = .ok w ∧ getDimsLimitedT v dims.length = dims ∧
          writeValT false (some H) (fixedLenT v) v dims.length idxs = .ok (data, rest) ∧
          data.length = prod dims * w.dt.len ∧
          Shown (heapLookup ((writeGlobalHeap buf H.objects).1 ++ post)) w.dt dims data v := by
  obtain ⟨⟨u1, u2, u3⟩, u4⟩ := var_user hv
  obtain ⟨-, -, u5⟩ := u4 h0 hw
  obtain ⟨h2, is, e1, e2, -, e4⟩ := u5 h1
  refine ⟨u1, h2, is, e1, e2, fun H buf post hH hfew haddr hlen => ?_⟩
  obtain ⟨b, hb⟩ := e4 H _ hH ((hle.trans e2).trans hH) (heap_written H buf post hfew haddr hlen)
  exact ⟨b, [], u2, u3, hb.write _, by rw [hb.len, hv.size], hb.shown⟩

/-- C60, attributes: the same for the value of an attribute. The message of the attribute follows the
format; the reader finds the name, the dimensions and the type in it, and it shows the value (an array
of one element as that element, see C55).

Not covered: opaque values for reading (`C60_negation_opaque`), slices of slices of one length (they are
arrays), a compound with a single member (`C55`), and what is missing for variables except members that
are sequences. -/
theorem C60_attribute_partial {w : WTy} {dims : List Nat} {v : TVal} (hv : AttrValue w dims v) (name : Bytes)
    (hn : (0 : UInt8) ∉ name) (hnl : name.length < 65535) (hr : w.Readable true) (htl : (w.bytes false).length < 65536)
    (hfit : FitDims dims) (hsz : prod dims * w.dt.len < 2 ^ 63) (h0 h1 : Heap)
    (hw : ∀ s i, h0.indices.get s = some i → 0 < i ∧ h0.objects[i - 1]? = some s)
    (hle : (collectStringsT h0 v).Le h1) :
    supportedT v = true ∧ ∃ h2 idxs, collectAttrVlenT false h1 v = .ok (h2, idxs) ∧ h1.Le h2 ∧
      ∀ (H : Heap) (buf post : Bytes), h2.Le H → H.objects.length < 65536 →
        H.addr = (writeGlobalHeap buf H.objects).2 →
        ((writeGlobalHeap buf H.objects).1 ++ post).length < 2 ^ 63 →
        ∃ data, attrMessageT false (some H) idxs name v = .ok (Fmt.attr 1 name w.form.bytes (Fmt.dataspace1 dims none) data) ∧
          Shown (heapLookup ((writeGlobalHeap buf H.objects).1 ++ post)) w.dt dims data v ∧
          ((∀ n, w ≠ .opaque n) → (∀ n x, v ≠ .compound [n] [x]) → ∀ cast, Legible cast w.dt →
            ∃ a s, readAttribute ⟨0, Fmt.attr 1 name w.form.bytes (Fmt.dataspace1 dims none) data⟩ = .ok (a, s) ∧
              s.rem = [] ∧ a.name = name ∧ a.dims = dims ∧ a.dt = w.dt ∧
              ∀ i pat, attrFill i = .ok pat →
                ∃ x, parseAttrT cast (heapLookup ((writeGlobalHeap buf H.objects).1 ++ post)) i a = .ok x ∧
                  shownAttr cast (heapLookup ((writeGlobalHeap buf H.objects).1 ++ post)) a x = .ok (oneOut v)) := by
  obtain ⟨⟨u1, u2, u3⟩, u4⟩ := attr_user hv
  obtain ⟨-, -, u5⟩ := u4 h0 hw
  obtain ⟨h2, is, e1, e2, -, e4⟩ := u5 h1
  refine ⟨u1, h2, is, e1, e2, fun H buf post hH hfew haddr hlen => ?_⟩
  obtain ⟨b, hb⟩ := e4 H _ hH ((hle.trans e2).trans hH) (heap_written H buf post hfew haddr hlen)
  have hform : Fmt.attr 1 name w.form.bytes (Fmt.dataspace1 dims none) b =
      buildAttr name (w.bytes false) (buildDataspace dims) b := by
    rw [attr_form, form_bytes w true hr, dataspace_form]
  refine ⟨b, ?_, hb.shown, ?_⟩
  · rw [hform]
    simp only [attrMessageT, u3, u2, hb.write]
  · intro hop h1m cast hleg
    rw [hform, readAttribute_ok name b w dims hn hnl hr htl hfit.1 hfit.2]
    have hbl := hb.len
    have hdata : ∃ d, attrData b w.dt = .ok d ∧
        ∀ name, AttrShown (heapLookup ((writeGlobalHeap buf H.objects).1 ++ post)) ⟨name, dims, w.dt, d⟩ v := by
      have hlt : b.length < 2 ^ 64 := by rw [hbl, ← hv.size]; omega
      have hdf : ∀ d, d = .df b → ∀ name,
          AttrShown (heapLookup ((writeGlobalHeap buf H.objects).1 ++ post)) ⟨name, dims, w.dt, d⟩ v :=
        fun d hd name => AttrShown.data b [] (by simp [hd]) hlt hb.shown
      have hpos : ∀ ds : List Nat, (∀ d ∈ ds, d ≠ 0) → 0 < prod ds := by
        intro ds
        induction ds with
        | nil => intro _; simp [prod]
        | cons d ds ih =>
          intro h
          have h1 := ih fun y hy => h y (by simp [hy])
          have h2 := h d (by simp)
          simp only [prod]
          exact Nat.mul_pos (Nat.pos_of_ne_zero h2) h1
      cases hv with
      | records t dims v ht hv hp =>
        cases w with
        | compound ns ts =>
          have h1 := hpos dims hp
          have h2 : 0 < fieldSizes ts := by
            simp only [WTy.Readable] at hr
            exact hr.2.2.2.1
          have h3 : 0 < b.length := by
            rw [hbl, WTy.fieldSize]
            exact Nat.mul_pos h1 h2
          refine ⟨.df b, by simp [WTy.dt, attrData, h3], hdf _ rfl⟩
        | «opaque» n => exact absurd rfl (hop n)
        | _ => cases ht
      | seqs t dims v hv hp hu =>
        have h1 := hpos dims hp
        have h3 : 16 ≤ b.length := by
          rw [hbl, WTy.fieldSize]
          exact Nat.le_mul_of_pos_left _ h1
        refine ⟨.df b, by simp [WTy.dt, attrData, h3], hdf _ rfl⟩
      | enum k names vals dims v hf hv hp =>
        by_cases h3 : 0 < b.length
        · exact ⟨.df b, by simp [WTy.dt, attrData, h3], hdf _ rfl⟩
        · obtain rfl : b = [] := List.length_eq_zero_iff.1 (by omega)
          exact ⟨.none, by simp [WTy.dt, attrData], fun name => AttrShown.empty rfl hb.shown⟩
    obtain ⟨d, hd1, hd2⟩ := hdata
    rw [hd1]
    refine ⟨_, _, rfl, rfl, rfl, rfl, rfl, fun i pat hp => ?_⟩
    exact C55_attribute_partial (hd2 name) hleg hp h1m

/-! ### Examples -/

/-- A compound with a number, a string and a sequence. -/
def userRec (q : List TVal) : TVal :=
  .compound [ascii "x", ascii "s", ascii "q"] [.num .i32 5, .str (ascii "hi"), .slice (.num .u8) q]

/-- Its type. -/
def userRecTy : WTy := .compound [ascii "x", ascii "s", ascii "q"] [.num .i32, .vlenStr, .vlenSeq (.num .u8)]

theorem userRec_item (q : List TVal) (hq : ∀ x ∈ q, Item false false (.num .u8) x) (hl : q.length < 2 ^ 32) :
    Item true true userRecTy (userRec q) := by
  refine .compound _ _ _ rfl rfl ?_
  intro i t v h1 h2
  match i with
  | 0 =>
    obtain rfl : WTy.num .i32 = t := by simpa using h1
    obtain rfl : TVal.num .i32 5 = v := by simpa using h2
    exact .num _ _ (by decide)
  | 1 =>
    obtain rfl : WTy.vlenStr = t := by simpa using h1
    obtain rfl : TVal.str (ascii "hi") = v := by simpa using h2
    exact .str _ (by decide) (by decide)
  | 2 =>
    obtain rfl : WTy.vlenSeq (.num .u8) = t := by simpa using h1
    obtain rfl : TVal.slice (.num .u8) q = v := by simpa using h2
    exact .seq _ _ hq (by decide) (fun _ => ⟨_, rfl⟩) hl
  | n + 3 => simp at h1

/-- The hypotheses of `C60_attribute_partial` can be met: two compounds with sequences of two and of no
numbers. -/
example : AttrValue userRecTy [2] (.slice .compound [userRec [.num .u8 1, .num .u8 2], userRec []]) ∧
    userRecTy.Readable true ∧ Legible (fun _ => .ok ()) userRecTy.dt := by
  refine ⟨.records _ _ _ trivial ⟨_, rfl, rfl, ?_⟩ (by simp),
    by simp [userRecTy, WTy.Readable, Readables, fieldSizes, WTy.fieldSize, Kind.size]; decide, ?_⟩
  · intro x hx
    simp only [List.mem_cons, List.not_mem_nil, or_false] at hx
    rcases hx with rfl | rfl
    · refine userRec_item _ ?_ (by decide)
      intro x hx
      simp only [List.mem_cons, List.not_mem_nil, or_false] at hx
      rcases hx with rfl | rfl <;> exact .num _ _ (by decide)
    · exact userRec_item _ (by simp) (by decide)
  · simp [userRecTy, WTy.dt, Legible, Legible.LegibleAll, dts, packed, fieldSizes, WTy.fieldSize, Kind.size,
      Kind.isFloat, Steady, prod, DT.len]

/-- The hypotheses of `C60_variable_partial` can be met: sequences of opaque values, and an enumeration. -/
example : VarValue (.vlenSeq (.opaque 2)) [1] (.slice (.slice .opaque) [.slice .opaque [.opaque [1, 2], .opaque [3, 4]]]) ∧
    VarValue (.enum .i8 [ascii "a", ascii "b"] [1, 2]) [3]
      (.enum (.slice (.num .i8) [.num .i8 1, .num .i8 2, .num .i8 1]) [ascii "a", ascii "b"] [.num .i8 1, .num .i8 2]) := by
  constructor
  · refine .seqs (.opaque 2) [1] _ ⟨_, rfl, rfl, ?_⟩ (by simp)
    intro x hx
    obtain rfl := List.mem_singleton.1 hx
    refine .seq (.opaque 2) _ ?_ (by decide) (by simp) (by decide)
    intro x hx
    simp only [List.mem_cons, List.not_mem_nil, or_false] at hx
    rcases hx with rfl | rfl
    · exact .blob [1, 2]
    · exact .blob [3, 4]
  · refine .enum .i8 _ [1, 2] [3] _ rfl ⟨_, rfl, rfl, ?_⟩ (by simp)
    intro x hx
    simp only [List.mem_cons, List.not_mem_nil, or_false] at hx
    rcases hx with rfl | rfl | rfl <;> exact .num _ _ (by decide)

mutual
/-- All enumerations in the type are of integers. -/
def IntEnums : WTy → Prop
  | .enum k _ _ => k ≠ .f32 ∧ k ≠ .f64
  | .vlenSeq t => IntEnums t
  | .compound _ ts => IntEnumsAll ts
  | _ => True
/-- All types of a list. -/
def IntEnumsAll : List WTy → Prop
  | [] => True
  | t :: ts => IntEnums t ∧ IntEnumsAll ts
end

theorem enumTy_int {vals : TVal} {names : List Bytes} {members : List TVal} {w : WTy}
    (h : enumTy vals names members = .ok w) : IntEnums w := by
  unfold enumTy at h
  split at h
  · cases h
  · rename_i k _ _
    split at h
    · cases h
    · split at h
      · cases h
        cases k <;> simp_all [IntEnums, Kind.isFloat]
      · cases h
  · cases h

theorem dtT_int (f : Nat) : (∀ v r w, dtT f v r = .ok w → IntEnums w) ∧
    ∀ vs ws, dtFieldsT f vs = .ok ws → IntEnumsAll ws := by
  induction f with
  | zero => exact ⟨fun v r w h => (by cases h), fun vs ws h => (by cases h)⟩
  | succ f ih =>
    refine ⟨fun v r w h => ?_, fun vs ws h => ?_⟩
    · have hgen : ∀ (v : TVal), (match (stripTyT r v.ty).1 with
          | .enum =>
            match navigateT v (stripTyT r v.ty).2 with
            | .enum vals names members => enumTy vals names members
            | _ => .panic
          | .compound =>
            match navigateT v (stripTyT r v.ty).2 with
            | .compound names vs =>
              match dtFieldsT f vs with
              | .ok ts => .ok (.compound names ts)
              | .err e => .err e
              | .panic => .panic
            | _ => .panic
          | .opaque =>
            match navigateT v (stripTyT r v.ty).2 with
            | .opaque b => .ok (.opaque b.length)
            | _ => .panic
          | .slice _ =>
            match dtT f (firstElemT (navigateT v (stripTyT r v.ty).2))
                (getDimsT (firstElemT (navigateT v (stripTyT r v.ty).2))).length with
            | .ok t => .ok (.vlenSeq t)
            | .err e => .err e
            | .panic => .panic
          | .num k => .ok (.num k)
          | .str => if shouldUseVLenT v then .ok .vlenStr else .ok (.fixStr (findMaxLenT v + 1))
          | .nil => .panic
          | .field => .err .unsupported) = Res.ok w → IntEnums w := by
        intro v h
        split at h
        · split at h
          · exact enumTy_int h
          · cases h
        · split at h
          · split at h
            · rename_i hts
              cases h
              exact ih.2 _ _ hts
            · cases h
            · cases h
          · cases h
        · split at h
          · cases h; trivial
          · cases h
        · split at h
          · rename_i ht
            cases h
            unfold IntEnums
            exact ih.1 _ _ _ ht
          · cases h
          · cases h
        · cases h; trivial
        · split at h <;> cases h <;> trivial
        · cases h
        · cases h
      cases v with
      | enum vals names members => exact enumTy_int h
      | _ => exact hgen _ h
    · cases vs with
      | nil => cases h; trivial
      | cons v vs =>
        unfold dtFieldsT at h
        split at h
        · cases h
        · cases h
        · rename_i t ht
          split at h
          · cases h
          · cases h
          · rename_i ts hts
            cases h
            refine ⟨?_, ih.2 _ _ hts⟩
            split at ht
            · cases ht; trivial
            · exact ih.1 _ _ _ ht

/-- C60, enumerations. Whatever value the writer is given, also one it should not accept: no
enumeration of floating-point numbers gets into the file, at any depth of its type. -/
theorem C60_integer_enums (v : TVal) (r : Nat) (w : WTy) (h : datatypeOfT v r = .ok w) : IntEnums w :=
  (dtT_int _).1 v r w h

/-- The hypothesis can be met, and floating-point numbers are refused. -/
example : datatypeOfT (.slice .enum [.enum (.num .i16 5) [[97]] [.num .i16 5]]) 1
      = .ok (.enum .i16 [[97]] [5]) ∧
    datatypeOfT (.slice .enum [.enum (.num .f32 5) [[97]] [.num .f32 5]]) 1 = .err .unsupported := by
  constructor <;> with_unfolding_all rfl

/-! ### What fails -/

/-- A variable of compounds with a member that is a sequence is accepted by `AddVar`, but `Close` fails. -/
theorem C60_negation_member (h : Heap) :
    supportedT (.slice .compound [userRec [.num .u8 1]]) = true ∧
    collectVarT false h (.slice .compound [userRec [.num .u8 1]]) 1 = .err .other := by
  refine ⟨by decide, ?_⟩
  simp [collectVarT, hasVlenT, hasVlenLoop, hasVlenHeadT, userRec, collectVarVlenT, collectVarVlensT, serializeT]

/-- The descriptor of a string in a compound that is an element of a sequence has the address that the
heap has at that time, whatever address it gets later; the writer has none yet (it is 0). -/
theorem C60_negation_string (h : Heap) (i : Nat) (hi : h.indices.get (ascii "hi") = some i) (h0 : h.addr = 0) :
    collectVarT false h (.slice (.slice .compound) [.slice .compound [.compound [ascii "s"] [.str (ascii "hi")]]]) 1 =
      .ok ((h.addObject (leEnc 4 2 ++ leEnc 8 0 ++ leEnc 4 i)).1, [h.objects.length + 1]) := by
  have e : (ascii "hi").length = 2 := by decide
  simp [collectVarT, hasVlenT, hasVlenLoop, hasVlenHeadT, collectVarVlenT, collectVarVlensT, serializeT, seqElemsT,
    seqElemT, writeFieldsT, writeFieldT, hi, h0, descriptor, Heap.addObject, e]

/-- Sequences in compounds that are elements of sequences: a run-time panic. -/
theorem C60_negation_nested (h : Heap) :
    collectVarT false h (.slice (.slice .compound) [.slice .compound [userRec [.num .u8 1]]]) 1 = .panic ∧
    supportedT (.slice (.slice .compound) [.slice .compound [userRec [.num .u8 1]]]) = true := by
  refine ⟨?_, by decide⟩
  simp [collectVarT, hasVlenT, hasVlenLoop, hasVlenHeadT, collectVarVlenT, collectVarVlensT, serializeT, seqElemsT,
    seqElemT, writeFieldsT, writeFieldT, userRec]

/-- The bytes of an opaque attribute are in the file, but the reader shows zeros. -/
theorem C60_negation_opaque (H : Heap) (heap : HeapFn) :
    ∃ msg a s x, attrMessageT false (some H) [] (ascii "a") (.opaque [1, 2, 3]) = .ok msg ∧
      readAttribute ⟨0, msg⟩ = .ok (a, s) ∧ (∀ i, parseAttrT (fun _ => .ok ()) heap i a = .ok x) ∧
      shownAttr (fun _ => .ok ()) heap a x = .ok (.opaque [0, 0, 0]) := by
  refine ⟨buildAttr (ascii "a") ((WTy.opaque 3).bytes false) (buildDataspace []) [1, 2, 3], ⟨ascii "a", [], .opaque 3 false, .none⟩,
    ?_, .nil, by with_unfolding_all rfl, ?_, fun i => rfl, ?_⟩
  rotate_left
  · rw [readAttribute_ok (ascii "a") [1, 2, 3] (.opaque 3) [] (by decide) (by decide) (by simp [WTy.Readable]) (by decide) (by decide)
      (by simp)]
    rfl
  · rfl

/-- The empty slice of compounds gets the type of a compound without members and of size zero, and the
reader takes that type for broken. -/
theorem C60_negation_empty : datatypeOfT (.slice .compound []) 1 = .ok (.compound [] []) ∧
    ∀ f, ∃ e, parseDT f ⟨0, (WTy.compound [] []).bytes false⟩ = .err e := by
  refine ⟨by with_unfolding_all rfl, fun f => ?_⟩
  cases f with
  | zero => exact ⟨_, rfl⟩
  | succ f => exact ⟨.assertFail, by with_unfolding_all rfl⟩

/-- An empty sequence of enumerations: a run-time panic. -/
theorem C60_negation_enum : datatypeOfT (.slice (.slice .enum) [.slice .enum []]) 1 = .panic ∧
    supportedT (.slice (.slice .enum) [.slice .enum []]) = true := by
  constructor <;> with_unfolding_all rfl

/-- Opaque values of different lengths: the type has the length of the first, and the data of all of them
follow each other. -/
theorem C60_negation_lengths (H : Heap) :
    supportedT (.slice .opaque [.opaque [1], .opaque [2, 3]]) = true ∧
    datatypeOfT (.slice .opaque [.opaque [1], .opaque [2, 3]]) 1 = .ok (.opaque 1) ∧
    writeValT false (some H) 0 (.slice .opaque [.opaque [1], .opaque [2, 3]]) 1 [] = .ok ([1, 2, 3], []) := by
  refine ⟨by decide, by with_unfolding_all rfl, ?_⟩
  simp [writeValT, writeValsT]

/-- An enumeration with two values as a member of a compound: the type has room for one. -/
theorem C60_negation_room (H : Heap) :
    ∃ ns vs, supportedT (.compound ns vs) = true ∧
      datatypeOfT (.compound ns vs) 0 = .ok (.compound ns [.enum .u8 [] [], .num .u8]) ∧
      (WTy.compound ns [.enum .u8 [] [], .num .u8]).dt.len = 2 ∧
      writeValT false (some H) 0 (.compound ns vs) 0 [] = .ok ([1, 2, 3], []) := by
  refine ⟨[[97], [98]], [.enum (.slice (.num .u8) [.num .u8 1, .num .u8 2]) [] [], .num .u8 3], by decide, by with_unfolding_all rfl,
    by decide, ?_⟩
  simp [writeValT, writeFieldsT, writeFieldT, binWrite, numsBytes, hostEnc_le, Kind.size]
  decide

end Verif.H5
