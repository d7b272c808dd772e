import Verif.Props.H5Box
/-!
C75: `Values` of a getter is what `GetVariable` returns, for any HDF5 file that opens.
-/
namespace Verif.H5
open Sane Fmt

/-- All rows of an array are the array. -/
theorem Declared.rows_all : ∀ (dt : DT), Rowwise dt → ∀ {d : Nat} {ds : List Nat} {v : TVal},
    Declared true dt (d :: ds) v → sliceV 0 d v = v
  | .array n ad e, hw, d, ds, v, h => Declared.rows_all e hw.2 (ds := ds ++ ad) h.array_inv
  | .enum n b ns vs, hw, d, ds, v, h => by
    generalize hdt : DT.enum n b ns vs = dt at h
    generalize hD : d :: ds = D at h
    cases h with
    | «enum» _ be k len _ _ _ w hk hw' =>
      cases hdt
      subst hD
      have : Rowwise (storedNum be k) ∧ ¬ IsEnum (storedNum be k) := by cases k <;> simp [storedNum, Rowwise, IsEnum]
      rw [sliceV, whole this.1 this.2 hw']
    | rows _ _ _ _ _ _ hb =>
      subst hdt
      rcases hb with hb | ⟨hb, -⟩
      · exact hb.elim
      · cases hb
    | num _ be k => exfalso; revert hdt; cases k <;> simp [storedNum]
    | _ => cases hdt
  | .time _, hw, _, _, _, _ => hw.elim
  | .fixed _ _ _, hw, _, _, _, h => whole hw id h
  | .float _ _, hw, _, _, _, h => whole hw id h
  | .str n, hw, _, _, _, h => whole hw id h
  | .opaque _ _, hw, _, _, _, h => whole hw id h
  | .compound _ _ _, hw, _, _, _, h => whole hw id h
  | .ref _, hw, _, _, _, h => whole hw id h
  | .vlen _ _ _, hw, _, _, _, h => whole hw id h
where
  whole {dt : DT} (hw : Rowwise dt) (he : ¬ IsEnum dt) {d : Nat} {ds : List Nat} {v : TVal}
      (h : Declared true dt (d :: ds) v) : sliceV 0 d v = v := by
    obtain ⟨t, xs, rfl, hl, -⟩ := Declared.row dt hw he h
    rw [sliceV, List.drop_zero, Nat.sub_zero, ← hl, List.take_length]

/-- What `GetVariable` finds. -/
theorem getVariableT_inv {cast : DT → Res Unit} {s : Src} {G : Group} {t : TTab} {name : Bytes} {k : Obj} {v : TVariable}
    (hf : G.findVariable name = some k) (hv : (G.getVariableT cast s t name).2 = .ok v) :
    ∃ st, objDataT cast s k (t.of k) = .ok (v.values, st) ∧ v.values ≠ .nil := by
  rw [Group.getVariableT, hf] at hv
  simp only at hv
  split at hv
  · cases hv
  · cases hv
  · cases hv
  · rename_i x st hx hdd
    simp only at hv
    rcases hm : varMetaT cast s G.root k with m | e | _
    · rw [hm] at hv
      cases hv
      exact ⟨st, hdd, hx⟩
    · rw [hm] at hv; cases hv
    · rw [hm] at hv; cases hv

/-- C75. For every HDF5 file that can be opened, and a variable of any type: if `GetVariable` returns a
value when the file has just been opened, then `Values` of a getter for the variable returns that value.
Variables with dimensions have their bytes in one piece or never written (`FlatVar`), or in chunks if the
type is one of C73; after other calls, those of C71. Missing: characters in chunks, and the sequences that
C73 leaves out; chunks that are not runs of elements (C44); what C71 excludes, and `Values` or `GetSlice` of a scalar before. -/
theorem C75_values_partial (file : Bytes) (o : Obj) (ho : OpensTo file o) (inflate : Bytes → Res Bytes) (fuel : Nat)
    (ord : List Nat → List NamedType → List NamedType)
    (calls : List AnyRead) (hr : ∀ c ∈ calls, Reached o c.group) (G : Group) (hG : Reached o G) (name : Bytes) (k : Obj)
    (hf : G.findVariable name = some k) (dt : DT) (hdt : k.info.dt = some dt)
    (hB : k.info.dims.getD [] = [] ∨ (∃ cell pat, FlatVar file k.info dt (k.info.dims.getD []) cell pat) ∨
      Keeps dt ∧ Rowwise dt ∧ (IsSeq dt → ∀ d ∈ (k.info.dims.getD []).head?, 0 < d) ∧
      HasBytes inflate fuel file k.info dt (k.info.dims.getD []))
    (hst : calls = [] ∨ Keeps dt ∧ Steady dt (k.info.dims.getD []))
    (hn : if k.info.dims.getD [] = [] then ∀ c ∈ calls, c.var = some k → c.isSlice = false
      else k.info.chunk = none ∨ ∀ c ∈ calls, c.var = some k → c.isSlice = true)
    (v : TVariable) (hv : (G.getVariableT (G.cast ord) ⟨inflate, fuel, file⟩ [] name).2 = .ok v) :
    (k.valuesT (G.cast ord) ⟨inflate, fuel, file⟩ (readAny ord ⟨inflate, fuel, file⟩ calls)).2 = .ok v.values := by
  cases hd : k.info.dims.getD [] with
  | nil =>
    have hv' : (G.getVariableT (G.cast ord) ⟨inflate, fuel, file⟩ (readAny ord ⟨inflate, fuel, file⟩ calls) name).2 = .ok v := by
      rcases hst with rfl | ⟨hk, hst⟩
      · exact hv
      · rw [if_pos hd] at hn
        exact C71_whole file o ho inflate fuel ord calls hr G hG name k hf dt hdt hk hst hn v hv
    obtain ⟨st, h1, h2⟩ := getVariableT_inv hf hv'
    simp only [Obj.valuesT, Obj.lenT, hd]
    rw [Obj.getSliceT, if_pos ⟨rfl, rfl, hd⟩, h1]
    cases hx : v.values <;> first | exact (h2 hx).elim | rfl
  | cons d ds =>
    rw [if_neg (by rw [hd]; simp)] at hn
    rw [hd] at hB hst
    rcases hB with hB | ⟨cell, pat, hB⟩ | ⟨hk, hw, hne, hB⟩
    · cases hB
    · have hlt := hB.dlt d List.mem_cons_self
      have hlen : k.lenT = (d : Int) := by simp only [Obj.lenT, hd, i64]; omega
      have key : (k.getSliceT (G.cast ord) ⟨inflate, fuel, file⟩ [] ((0 : Nat) : Int) (d : Int)).2 = .ok v.values := by
        obtain ⟨st, h1, h2⟩ := getVariableT_inv hf hv
        have hall := hB.all (inflate := inflate) (fuel := fuel)
        have hp := hB.part (inflate := inflate) (fuel := fuel) rfl (Nat.zero_le d) (Nat.le_refl d)
        have hl := rowMajor_length (dims := d :: ds) (cell := cell) (n := dt.len) fun idx _ => hB.cells idx
        rw [Nat.zero_mul, List.drop_zero, Nat.sub_zero, ← Nat.mul_assoc, show d * prod ds = prod (d :: ds) from rfl, ← hl,
          List.take_length] at hp
        have hsd : sliceDims (d :: ds) (some (((0 : Nat) : Int), (d : Int))) = d :: ds := by
          rw [sliceDims_rows (Nat.zero_le d) (by omega), Nat.sub_zero]
        have hg : getDataT (G.cast ord) ⟨inflate, fuel, file⟩ k.info dt (d :: ds) (k.info.blocks.map Block.toD)
            (some (((0 : Nat) : Int), (d : Int))) =
            getDataT (G.cast ord) ⟨inflate, fuel, file⟩ k.info dt (d :: ds) (k.info.blocks.map Block.toD) none := by
          rw [getDataT, getDataT, hall, hp]
          simp only [Res.bind_ok, hsd]
          rfl
        simp only [objDataT, TTab.of, List.lookup_nil, Option.getD_none, TSt.fresh, hdt, hd] at h1
        unfold Obj.getSliceT
        rw [if_neg (by rw [hd]; simp), if_neg (by omega)]
        simp only [objDataT, TTab.of, List.lookup_nil, Option.getD_none, TSt.fresh, hdt, hd, hg]
        split at h1
        · cases h1
        · cases h1
        · rename_i x bl t hx
          cases h1
          cases hx' : v.values <;> first | exact (h2 hx').elim | rfl
      rw [Obj.valuesT, hlen]
      rcases hst with rfl | ⟨hk, hst⟩
      · exact key
      · exact C71_part file o ho inflate fuel ord calls hr G hG name k hf dt hdt hk (by rw [hd]; exact hst) (by rw [hd]; simp)
          hn _ _ _ key
    · obtain ⟨hlt, -⟩ := hB.bytes
      have hlen : k.lenT = (d : Int) := by simp only [Obj.lenT, hd, i64]; omega
      have hD := (C70_declared file o ho inflate fuel ord [] (by simp) G hG name k hf dt hdt hk (.inl rfl)).1 (by simp) v hv
      rw [hd] at hD
      have := C73_rows_partial file o ho inflate fuel ord calls hr G hG name k hf dt hdt d ds hd hk hw hB (hst.imp id (·.2)) hn
        v hv 0 d (Nat.zero_le d) (Nat.le_refl d) fun h => hne h d rfl
      rw [Declared.rows_all dt hw hD] at this
      rw [Obj.valuesT, hlen]
      exact this

/-! ### Files for which the theorem says something -/

/-- All of the variable `a`, and what `Values` returns after some calls. -/
def valuesRead (file : Bytes) (calls : Group → List AnyRead) : Res (Res TVal × Res TVal) :=
  (openN 20 file).map fun o =>
    let G := rootGroup o
    let s : Src := ⟨fun _ => .panic, 20, file⟩
    ((G.getVariableT (G.cast inOrder) s [] (ascii "a")).2.map (·.values),
      match G.findVariable (ascii "a") with
      | some k => (k.valuesT (G.cast inOrder) s (readAny inOrder s (calls G))).2
      | none => .panic)

/-- Two sequences, after a slice. -/
example : valuesRead seqsFile (fun G => [.slice G (ascii "a") 1 2]) =
    .ok (.ok (.slice (.slice (.num .i32)) [.slice (.num .i32) [], .slice (.num .i32) [.num .i32 7, .num .i32 8]]),
      .ok (.slice (.slice (.num .i32)) [.slice (.num .i32) [], .slice (.num .i32) [.num .i32 7, .num .i32 8]])) := by
  decide +kernel

/-- Two rows of three numbers, after a slice; the hypotheses are those of C74. -/
example : boxCase boxNumbers [2, 3] = true ∧
    valuesRead boxNumbers (fun G => [.slice G (ascii "a") 0 1]) =
      .ok (.ok (.slice (.slice (.num .i16))
          [.slice (.num .i16) [.num .i16 1, .num .i16 2, .num .i16 3], .slice (.num .i16) [.num .i16 4, .num .i16 5, .num .i16 6]]),
        .ok (.slice (.slice (.num .i16))
          [.slice (.num .i16) [.num .i16 1, .num .i16 2, .num .i16 3], .slice (.num .i16) [.num .i16 4, .num .i16 5, .num .i16 6]])) := by
  decide +kernel

/-- Characters, for which C73 fails. -/
example : valuesRead (oneVarFile 5 (.str 1 0 0) (ascii "ab" ++ [0] ++ ascii "cd")) (fun _ => []) =
    .ok (.ok (.str (ascii "ab")), .ok (.str (ascii "ab"))) := by
  decide +kernel

/-- A scalar, after it was read. -/
example : valuesRead (boxFile [] (.fixed 1 2 true false) [7, 0]) (fun G => [.whole G (ascii "a")]) =
    .ok (.ok (.num .i16 7), .ok (.num .i16 7)) := by
  decide +kernel

/-- C75 fails after `GetSlice` of a scalar with bounds that it does not have: the bounds stay in the object,
and `Values` uses them (C22). -/
theorem C75_negation_scalar :
    valuesRead (boxFile [] (.fixed 1 2 true false) [7, 0]) (fun G => [.slice G (ascii "a") 0 0]) =
      .ok (.ok (.num .i16 7), .err .eof) := by
  decide +kernel

end Verif.H5
