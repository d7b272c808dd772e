import Verif.Lemmas.H5Type
/-!
C34 (datatype messages).
-/
namespace Verif.H5

/-- C34, part. On a little-endian host, the message the writer emits for a type is parsed by the
reader, to its last byte, as the same class, size, signedness and byte order, with the same members
at the same offsets, for all types of `WTy.Readable`. Not covered, because the code fails: types with
an opaque before the end of the message, compounds of 65536 to 16777215 bytes, or with no or more
than 255 members, member names with a NUL, and big-endian hosts (see the negations below). -/
theorem C34_datatype_round_trip_partial (t : WTy) (pos : Nat) (h : t.Readable true) :
    parseDatatype ⟨pos, t.bytes false⟩ = .ok (t.dt, ⟨pos + (t.bytes false).length, []⟩) :=
  parseDatatype_ok t pos h

/-- C34, part. When other bytes follow the message, the reader stops exactly at its end. -/
theorem C34_datatype_stops_at_end_partial (t : WTy) (pos : Nat) (rest : Bytes)
    (h : t.Readable false) :
    parseDatatype ⟨pos, t.bytes false ++ rest⟩ =
      .ok (t.dt, ⟨pos + (t.bytes false).length, rest⟩) :=
  parseDatatype_app t pos rest h

/-- A compound with an enum, a sequence of compounds, strings, numbers, and an opaque at the end. -/
def exType : WTy :=
  .compound [ascii "e", ascii "s", ascii "name", ascii "x", ascii "y", ascii "blob"]
    [.enum .u8 [ascii "no", ascii "yes"] [0, 1],
     .vlenSeq (.compound [ascii "a", ascii "b"] [.num .i16, .num .f32]),
     .vlenStr, .num .f64, .num .i64, .opaque 7]

/-- The type meets the hypotheses of `C34_datatype_round_trip_partial`. -/
theorem exType_readable : exType.Readable true := by
  simp only [exType, WTy.Readable, Readables]
  decide

example : (WTy.vlenSeq (.num .u16)).Readable false := by simp only [WTy.Readable]

theorem fieldSize_len (t : WTy) (h : ∀ n, t ≠ .fixStr n) : t.fieldSize = t.dt.len := by
  cases t with
  | fixStr n => exact absurd rfl (h n)
  | num k => cases k <;> rfl
  | _ => simp only [WTy.fieldSize, WTy.dt, DT.len]

/-- C34. The members of a compound lie one after the other without gaps: the offset the reader finds
for a member is the sum of the sizes of the types it finds for the members before it, and the size of
the compound is the sum of all of them. (Strings in a compound are never of the fixed-length
type.) -/
theorem C34_members_consecutive (names : List Bytes) (ts : List WTy)
    (hn : names.length = ts.length) (hf : ∀ t ∈ ts, ∀ n, t ≠ .fixStr n) :
    ∃ ms, (WTy.compound names ts).dt = .compound ((dts ts).map DT.len).sum ms (dts ts) ∧
      ms.length = names.length ∧
      ∀ i name, names[i]? = some name →
        ms[i]? = some (name, (((dts ts).take i).map DT.len).sum, none) := by
  have hsum : ∀ ts : List WTy, (∀ t ∈ ts, ∀ n, t ≠ .fixStr n) →
      fieldSizes ts = ((dts ts).map DT.len).sum := by
    intro ts
    induction ts with
    | nil => intro _; rfl
    | cons t ts ih =>
      intro h
      simp only [fieldSizes, dts, List.map_cons, List.sum_cons]
      rw [fieldSize_len t (h t (by simp)), ih (fun x hx => h x (by simp [hx]))]
  have hpk : ∀ (ts : List WTy) (names : List Bytes) (off : Nat), names.length = ts.length →
      (∀ t ∈ ts, ∀ n, t ≠ .fixStr n) →
      (packed off names ts).length = names.length ∧ ∀ i name, names[i]? = some name →
        (packed off names ts)[i]? = some (name, off + (((dts ts).take i).map DT.len).sum, none) := by
    intro ts
    induction ts with
    | nil =>
      intro names off hl _
      obtain rfl : names = [] := List.length_eq_zero_iff.1 hl
      simp [packed]
    | cons t ts ih =>
      intro names off hl h
      cases names with
      | nil => simp at hl
      | cons n ns =>
        obtain ⟨h1, h2⟩ := ih ns (off + t.fieldSize) (by simpa using hl)
          (fun x hx => h x (by simp [hx]))
        refine ⟨by simp [packed, h1], ?_⟩
        intro i name hi
        cases i with
        | zero =>
          simp only [List.getElem?_cons_zero, Option.some.injEq] at hi
          subst hi
          simp [packed]
        | succ i =>
          rw [List.getElem?_cons_succ] at hi
          rw [packed, List.getElem?_cons_succ, h2 i name hi]
          simp only [dts, List.take_succ_cons, List.map_cons, List.sum_cons]
          rw [fieldSize_len t (h t (by simp))]
          congr 3
          omega
  obtain ⟨h1, h2⟩ := hpk ts names 0 hn hf
  refine ⟨packed 0 names ts, by rw [WTy.dt, hsum ts hf], h1, ?_⟩
  intro i name hi
  rw [h2 i name hi, Nat.zero_add]

example : ∀ t ∈ [WTy.vlenSeq (.num .i16), .vlenStr, .num .f64, .opaque 7], ∀ n, t ≠ .fixStr n := by
  simp

/-- C34 fails on a big-endian host: the values of an `enum` are written in the order of the host, the
type says little-endian. Here the member value 1 is read as 256. -/
theorem C34_negation_big_endian_host : ∃ names vals, ∃ s,
    parseDatatype ⟨0, (WTy.enum .i16 names vals).bytes true⟩ =
      .ok (.enum 2 (.fixed 2 true false) names [256], s) ∧ vals = [1] :=
  ⟨[ascii "a"], [1], _, rfl, rfl⟩

/-- C34 fails for an opaque member that is not the last one: the rest of the message is taken for the
tag of the opaque type, and the type is refused. -/
theorem C34_negation_opaque_not_last :
    parseDatatype ⟨0, (WTy.compound [ascii "a", ascii "b"] [.opaque 2, .num .i8]).bytes false⟩ =
      .err .assertFail := rfl

/-- C34 fails for compounds of 65536 to 16777215 bytes, whatever their members: the writer stores
offsets of four bytes, the reader looks for three, which it does not support. -/
theorem C34_negation_offset_width (n : Bytes) (ns : List Bytes) (t : WTy) (ts : List WTy)
    (hn : (0 : UInt8) ∉ n) (hlen : (n :: ns).length % 256 ≠ 0)
    (h1 : 65536 ≤ fieldSizes (t :: ts)) (h2 : fieldSizes (t :: ts) < 16777216) :
    parseDatatype ⟨0, (WTy.compound (n :: ns) (t :: ts)).bytes false⟩ = .err .assertFail := by
  unfold parseDatatype
  simp only [WTy.bytes, List.append_assoc, List.cons_append, List.nil_append, memberBytes]
  rw [parseDT_head _ 0 _ _ _ _ _ _ (by omega) (by omega) (by decide) (by decide) (by decide)]
  rw [show (UInt8.ofNat (n :: ns).length).toNat = (n :: ns).length % 256 by
    simp only [UInt8.toNat_ofNat']]
  obtain ⟨m, hm⟩ : ∃ m, (n :: ns).length % 256 = m + 1 := ⟨(n :: ns).length % 256 - 1, by omega⟩
  rw [hm]
  simp only [parseClass, UInt8.reduceToNat, Nat.reduceMod, Nat.reduceDiv, P.bind_apply,
    parseMembers, show ¬ ((3 : Nat) = 1 ∨ (3 : Nat) = 2) by omega, ↓reduceIte]
  rw [readName_ok _ _ _ hn]
  have : readEnc (offsetBytes 3 (fieldSizes (t :: ts))) = P.fail .assertFail := by
    unfold offsetBytes readEnc
    simp only [show ¬ ((3 : Nat) = 1 ∨ (3 : Nat) = 2) by omega, ↓reduceIte,
      show ¬ fieldSizes (t :: ts) < 256 by omega, show ¬ fieldSizes (t :: ts) < 65536 by omega, h2]
    rfl
  simp only [this, P.fail]

example : (65536 ≤ fieldSizes [.opaque 65536, .num .i8]) ∧
    fieldSizes [.opaque 65536, .num .i8] < 16777216 := by decide

/-- C34 fails for a compound of 256 members, whatever their types: the reader finds none. -/
theorem C34_negation_256_members (names : List Bytes) (ts : List WTy) (h : names.length = 256)
    (h1 : 0 < fieldSizes ts) (h2 : fieldSizes ts < 2 ^ 32) :
    ∃ s, parseDatatype ⟨0, (WTy.compound names ts).bytes false⟩ =
      .ok (.compound (fieldSizes ts) [] [], s) := by
  unfold parseDatatype
  simp only [WTy.bytes, List.cons_append, List.nil_append]
  rw [parseDT_head _ 0 _ _ _ _ _ _ h2 (by omega) (by decide) (by decide) (by decide), h]
  exact ⟨_, rfl⟩

end Verif.H5
