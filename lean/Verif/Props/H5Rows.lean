import Verif.Lemmas.H5Rows
import Verif.Props.H5Declared
/-!
C73: `GetSlice` returns rows of what `GetVariable` returns, for any HDF5 file that opens.
-/
namespace Verif.H5
open Sane Fmt

/-- The bytes of a variable, and those of its rows. -/
theorem HasBytes.bytes {inflate : Bytes → Res Bytes} {fuel : Nat} {file : Bytes} {i : Info} {dt : DT} {d : Nat} {ds : List Nat}
    (h : HasBytes inflate fuel file i dt (d :: ds)) :
    d < 2 ^ 63 ∧ ∃ B rest, B.length = d * (prod ds * dt.len) ∧
      (∃ bl, dataBytes inflate fuel file i dt (d :: ds) (i.blocks.map Block.toD) none = .ok (B ++ rest, bl)) ∧
      ∀ b e : Nat, b ≤ e → e ≤ d → ∃ bl, dataBytes inflate fuel file i dt (d :: ds) (i.blocks.map Block.toD)
        (some ((b : Int), (e : Int))) = .ok ((B.drop (b * (prod ds * dt.len))).take ((e - b) * (prod ds * dt.len)), bl) := by
  rcases h with ⟨cell, pat, h⟩ | ⟨cell, pat, t, addr, h, hfuel, hb, ho, hl⟩
  · refine ⟨h.dlt d List.mem_cons_self, rowMajor (d :: ds) cell, [], ?_, ⟨_, h.all⟩, fun b e h1 h2 => ?_⟩
    · rw [rowMajor_length (n := dt.len) fun idx _ => h.cells idx, prod, Nat.mul_assoc]
    · have := h.part (inflate := inflate) (fuel := fuel) rfl h1 h2
      rw [List.append_nil] at this
      exact ⟨_, this⟩
  · obtain ⟨rest, blocks, h1, -⟩ := h.whole hfuel ho
    rw [hb]
    refine ⟨Nat.lt_of_lt_of_le (h.geo.dlt d List.mem_cons_self) (by decide), rowMajor (d :: ds) cell, rest, ?_, ⟨_, h1⟩,
      fun b e h2 h3 => ?_⟩
    · rw [rowMajor_length (n := dt.len) fun idx _ => h.cells idx, prod, Nat.mul_assoc]
    · obtain ⟨bl, h4⟩ := h.rows hfuel hl rfl (.inl rfl) h2 h3
      rw [rowMajor_slice h.cells h2 h3]
      exact ⟨bl, h4⟩

/-! ### Variables with bytes -/

theorem rows_join (B : Bytes) (w : Nat) : ∀ d, (List.range d).flatMap (fun i => (B.drop (i * w)).take w) = B.take (d * w)
  | 0 => by simp
  | d + 1 => by
    rw [List.range_succ, List.flatMap_append, rows_join B w d, List.flatMap_cons, List.flatMap_nil, List.append_nil,
      Nat.add_mul, Nat.one_mul, List.take_add]

/-- Any bytes are those of elements. -/
theorem cells_of (n : Nat) : ∀ (dims : List Nat) (B : Bytes), B.length = prod dims * n →
    ∃ cell : List Nat → Bytes, (∀ idx, (cell idx).length = n) ∧ rowMajor dims cell = B
  | [], B, h => ⟨fun _ => B, fun _ => by rw [h, prod, Nat.one_mul], by simp [rowMajor, indices]⟩
  | d :: ds, B, h => by
    have hw : ∀ i, ∃ cell : List Nat → Bytes, (∀ idx, (cell idx).length = n) ∧
        (i < d → rowMajor ds cell = (B.drop (i * (prod ds * n))).take (prod ds * n)) := by
      intro i
      by_cases hi : i < d
      · obtain ⟨cell, h1, h2⟩ := cells_of n ds ((B.drop (i * (prod ds * n))).take (prod ds * n)) (by
          rw [List.length_take, List.length_drop, h, prod, Nat.mul_assoc]
          have : (i + 1) * (prod ds * n) ≤ d * (prod ds * n) := Nat.mul_le_mul_right _ hi
          rw [Nat.add_mul] at this
          omega)
        exact ⟨cell, h1, fun _ => h2⟩
      · exact ⟨fun _ => List.replicate n 0, by simp, fun h => absurd h hi⟩
    refine ⟨fun idx => match idx with
      | [] => List.replicate n 0
      | i :: is => Classical.choose (hw i) is, ?_, ?_⟩
    · intro idx
      cases idx with
      | nil => simp
      | cons i is => exact (Classical.choose_spec (hw i)).1 is
    · rw [rowMajor_cons]
      have : (List.range d).flatMap (fun i => rowMajor ds (Classical.choose (hw i))) =
          (List.range d).flatMap (fun i => (B.drop (i * (prod ds * n))).take (prod ds * n)) := by
        rw [List.flatMap_def, List.flatMap_def]
        congr 1
        exact List.map_congr_left fun i hi => (Classical.choose_spec (hw i)).2 (List.mem_range.1 hi)
      refine this.trans ?_
      rw [rows_join, List.take_of_length_le (by rw [h, prod, Nat.mul_assoc]; exact Nat.le_refl _)]

/-- C73: the bytes of a variable are there if it is in one piece in the file, or in its description, or if
it was never written. -/
theorem C73_bytes (inflate : Bytes → Res Bytes) (fuel : Nat) (file : Bytes) (i : Info) (dt : DT) (dims : List Nat) (pat : Bytes)
    (layout : i.layout = []) (chunk : i.chunk = none) (filters : i.filters = []) (small : file.length < 2 ^ 63)
    (size : prod dims * dt.len < 2 ^ 63) (dlt : ∀ d ∈ dims, d < 2 ^ 63) (elem : 0 < dt.len) (fill : FillOf i dt pat)
    (patLen : pat.length ∣ dt.len)
    (data : (∃ a, i.blocks = [.at a (prod dims * dt.len)] ∧ a + prod dims * dt.len ≤ file.length) ∨
      (∃ r, i.blocks = [.raw r] ∧ r.length = prod dims * dt.len) ∨ i.blocks = []) :
    HasBytes inflate fuel file i dt dims := by
  have key : ∀ B : Bytes, B.length = prod dims * dt.len →
      ((∃ a, i.blocks = [.at a (prod dims * dt.len)] ∧ At file a B) ∨ i.blocks = [.raw B] ∨
        i.blocks = [] ∧ B = fillStream pat (prod dims * dt.len)) → HasBytes inflate fuel file i dt dims := by
    intro B hB h
    obtain ⟨cell, h1, rfl⟩ := cells_of dt.len dims B hB
    exact .inl ⟨cell, pat, layout, chunk, filters, small, size, dlt, elem, h1, fill, patLen, h⟩
  rcases data with ⟨a, h1, h2⟩ | ⟨r, h1, h2⟩ | h1
  · exact key ((file.drop a).take (prod dims * dt.len)) (by rw [List.length_take, List.length_drop]; omega)
      (.inl ⟨a, h1, List.take_prefix _ _⟩)
  · exact key r h2 (.inr (.inl h1))
  · exact key (fillStream pat (prod dims * dt.len)) (by simp [fillStream]) (.inr (.inr ⟨h1, rfl⟩))

/-! ### C73 -/

/-- C73. For every HDF5 file that can be opened, and a variable with at least one dimension whose bytes are
there: if `GetVariable` returns a value when the file has just been opened, then `GetSlice(b, e)` returns
its rows from `b` to `e`, whatever the bytes are, and whatever has been read before. Missing: characters
(`C73_negation_chars`), empty slices of sequences (`C73_negation_sequences`) and sequences of anything but
numbers, strings, references and enumerations, references to regions; array types with dimensions beside their own (C55); chunks
that are not runs of elements (C44); `GetVariable` before `GetSlice` if the variable is in chunks (C22). -/
theorem C73_rows_partial (file : Bytes) (o : Obj) (ho : OpensTo file o) (inflate : Bytes → Res Bytes) (fuel : Nat)
    (ord : List Nat → List NamedType → List NamedType)
    (calls : List AnyRead) (hr : ∀ c ∈ calls, Reached o c.group) (G : Group) (hG : Reached o G) (name : Bytes) (k : Obj)
    (hf : G.findVariable name = some k) (dt : DT) (hdt : k.info.dt = some dt) (d : Nat) (ds : List Nat)
    (hd : k.info.dims.getD [] = d :: ds) (hk : Keeps dt) (hw : Rowwise dt) (hB : HasBytes inflate fuel file k.info dt (d :: ds))
    (hst : calls = [] ∨ Steady dt (d :: ds))
    (hn : k.info.chunk = none ∨ ∀ c ∈ calls, c.var = some k → c.isSlice = true)
    (v : TVariable) (hv : (G.getVariableT (G.cast ord) ⟨inflate, fuel, file⟩ [] name).2 = .ok v)
    (b e : Nat) (h1 : b ≤ e) (h2 : e ≤ d) (hne : IsSeq dt → b < e) :
    (k.getSliceT (G.cast ord) ⟨inflate, fuel, file⟩ (readAny ord ⟨inflate, fuel, file⟩ calls) b e).2 =
      .ok (sliceV b e v.values) := by
  have key : (k.getSliceT (G.cast ord) ⟨inflate, fuel, file⟩ [] b e).2 = .ok (sliceV b e v.values) := by
    obtain ⟨hlt, B, rest, hl, ⟨bl, hall⟩, hpart⟩ := hB.bytes
    obtain ⟨bl2, hp⟩ := hpart b e h1 h2
    rw [Group.getVariableT, hf] at hv
    simp only at hv
    split at hv
    · cases hv
    · cases hv
    · cases hv
    · rename_i x st hx hdd
      have hvx : v.values = x := by
        simp only at hv
        rcases hm : varMetaT (G.cast ord) ⟨inflate, fuel, file⟩ G.root k with m | e | _
        · rw [hm] at hv
          cases hv
          rfl
        · rw [hm] at hv; cases hv
        · rw [hm] at hv; cases hv
      rw [hvx]
      simp only [objDataT, TTab.of, List.lookup_nil, Option.getD_none, TSt.fresh, hdt, hd] at hdd
      split at hdd
      · cases hdd
      · cases hdd
      · rename_i x' bl' dt' hg
        cases hdd
        rw [getDataT, hall] at hg
        simp only [Res.bind_ok] at hg
        obtain ⟨⟨w, t1⟩, g1, g2⟩ := Res.bind_ok' hg
        cases g2
        obtain ⟨s', g1⟩ := onBytes_inv g1
        have hsd : sliceDims (d :: ds) (some ((b : Int), (e : Int))) = (e - b) :: ds := sliceDims_rows h1 (by omega)
        obtain ⟨t2, s2, g3⟩ := allocT_part _ _ _ dt d ds hk hw hne h1 h2 hl g1
        have hg2 : getDataT (G.cast ord) ⟨inflate, fuel, file⟩ k.info dt (d :: ds) (k.info.blocks.map Block.toD)
            (some ((b : Int), (e : Int))) = .ok (sliceV b e w, bl2, t2) := by
          rw [getDataT, hp]
          simp only [Res.bind_ok, hsd, onBytes, allocTy, g3, Res.pure_eq]
        unfold Obj.getSliceT
        rw [if_neg (by rw [hd]; simp), if_neg (by omega)]
        simp only [objDataT, TTab.of, List.lookup_nil, Option.getD_none, TSt.fresh, hdt, hd, hg2]
        cases w <;> first | exact (hx rfl).elim | rfl
  rcases hst with rfl | hst
  · exact key
  · exact C71_part file o ho inflate fuel ord calls hr G hG name k hf dt hdt hk (by rw [hd]; exact hst) (by rw [hd]; simp) hn
      b e _ key

/-! ### A file for which the theorem says something, and what is missing -/

/-- What is read of the variable `a` of a file. -/
def rowsCase (file : Bytes) : Bool :=
  match openN 20 file with
  | .ok o =>
    let G := rootGroup o
    let s : Src := ⟨fun _ => .panic, 20, file⟩
    match G.findVariable (ascii "a") with
    | some k =>
      (match k.info.dt with | some (.fixed 4 true false) => true | _ => false) && (k.info.dims == some [2]) &&
      k.info.layout.isEmpty && k.info.chunk.isNone && k.info.filters.isEmpty && k.info.fillValue.isNone &&
      k.info.fillValueOld.isNone && (match k.info.blocks with | [.at a 8] => decide (a + 8 ≤ file.length) | _ => false) &&
      (match (G.getVariableT (G.cast inOrder) s [] (ascii "a")).2 with
        | .ok ⟨.slice (.num .i32) [.num .i32 1, .num .i32 2], _, _⟩ => true
        | _ => false) &&
      (match (k.getSliceT (G.cast inOrder) s (readAny inOrder s [.whole G (ascii "a")]) 1 2).2 with
        | .ok (.slice (.num .i32) [.num .i32 2]) => true
        | _ => false)
    | none => false
  | _ => false

/-- The hypotheses of C73, and of `C73_bytes`, for a file with a variable of two numbers. -/
example : rowsCase (oddVarFile (ascii "a")) = true := by
  decide +kernel

/-- A file with a variable `a` of type `t`. -/
def oneVarFile (n : Nat) (t : DType) (b : Bytes) : Bytes :=
  { othSuper with eof := 224 + b.length }.bytes ++
    header1 1 [(0, .link 0 false none none (ascii "a") 136)] ++
    header1 2 [(0, .dataspace (.v1 [n] none)), (1, .datatype t), (0, .contiguous 3 224 b.length)] ++ b

/-- All of the variable `a`, and its rows from `b` to `e`. -/
def bothRead (file : Bytes) (b e : Int) : Res (Res TVal × Res TVal) :=
  (openN 20 file).map fun o =>
    let G := rootGroup o
    let s : Src := ⟨fun _ => .panic, 20, file⟩
    ((G.getVariableT (G.cast inOrder) s [] (ascii "a")).2.map (·.values),
      match G.findVariable (ascii "a") with
      | some k => (k.getSliceT (G.cast inOrder) s [] b e).2
      | none => .panic)

/-- C73 fails for characters: behind a NUL byte, `GetSlice` returns what `GetVariable` does not. -/
theorem C73_negation_chars : bothRead (oneVarFile 5 (.str 1 0 0) (ascii "ab" ++ [0] ++ ascii "cd")) 3 5 =
    .ok (.ok (.str (ascii "ab")), .ok (.str (ascii "cd"))) := by
  decide +kernel

/-- C73 fails for references to regions, which have twelve bytes: `GetVariable` reads them as if they had
eight, and `GetSlice` finds the second behind the twelfth byte. -/
theorem C73_negation_region :
    bothRead (oneVarFile 2 (.ref 12 1) (num 8 1 ++ num 4 2 ++ num 8 3 ++ num 4 4)) 1 2 =
      .ok (.ok (.slice (.num .u64) [.num .u64 1, .num .u64 (2 + 3 * 2 ^ 32)]), .ok (.slice (.num .u64) [.num .u64 3])) := by
  decide +kernel

/-- A file with a variable `a` of two sequences of numbers, the first one empty, the second one with the
numbers 7 and 8. -/
def seqsFile : Bytes :=
  { othSuper with eof := 312 }.bytes ++
    header1 1 [(0, .link 0 false none none (ascii "a") 136)] ++
    header1 2 [(0, .dataspace (.v1 [2] none)), (1, .datatype (.vlenSeq 1 16 0 (.fixed 1 4 true false))),
      (0, .contiguous 3 240 32)] ++
    (num 4 0 ++ num 8 0 ++ num 4 0) ++ (num 4 2 ++ num 8 272 ++ num 4 1) ++
    (ascii "GCOL" ++ num 4 1 ++ num 8 40) ++ (num 2 1 ++ num 2 0 ++ num 4 0 ++ num 8 8 ++ num 4 7 ++ num 4 8)

/-- The second one of them, and the first. -/
example : bothRead seqsFile 1 2 =
    .ok (.ok (.slice (.slice (.num .i32)) [.slice (.num .i32) [], .slice (.num .i32) [.num .i32 7, .num .i32 8]]),
      .ok (.slice (.slice (.num .i32)) [.slice (.num .i32) [.num .i32 7, .num .i32 8]])) ∧
    bothRead seqsFile 0 1 =
    .ok (.ok (.slice (.slice (.num .i32)) [.slice (.num .i32) [], .slice (.num .i32) [.num .i32 7, .num .i32 8]]),
      .ok (.slice (.slice (.num .i32)) [.slice (.num .i32) []])) := by
  decide +kernel

/-- The hypotheses of C73, and of `C73_bytes`, for this file. -/
example : (match openN 20 seqsFile with
  | .ok o => (match (rootGroup o).findVariable (ascii "a") with
    | some k =>
      (match k.info.dt with | some (.vlen 16 false (.fixed 4 true false)) => true | _ => false) && (k.info.dims == some [2]) &&
      k.info.layout.isEmpty && k.info.chunk.isNone && k.info.filters.isEmpty && k.info.fillValue.isNone &&
      k.info.fillValueOld.isNone && (match k.info.blocks with | [.at a 32] => decide (a + 32 ≤ seqsFile.length) | _ => false)
    | none => false)
  | _ => false) = true := by
  decide +kernel

/-- C73 fails for empty slices of sequences: `GetSlice` panics. -/
theorem C73_negation_sequences : bothRead seqsFile 1 1 =
    .ok (.ok (.slice (.slice (.num .i32)) [.slice (.num .i32) [], .slice (.num .i32) [.num .i32 7, .num .i32 8]]),
      .panic) := by
  decide +kernel

end Verif.H5
