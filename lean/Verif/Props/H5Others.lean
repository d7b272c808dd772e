import Verif.Lemmas.H5OthersOpen
import Verif.Props.H5Path
import Verif.Model.H5Api
import Verif.Props.H5Data
/-!
C52, C53, C54: files of other HDF5 programs, as a whole. `Spec/H5Others` says what a file holds,
`Spec/H5Dense` what its groups and objects keep outside of headers.
-/
namespace Verif.H5
open Fmt

/-! ### C52 -/

/-- C52: a file that holds a tree of objects, in headers of both versions with continuations, symbol
tables and dense storage, opens with this tree and with no other. Missing: what `FileHolds` leaves out,
most of all objects with several links (see the negations), soft and external links, shared messages,
huge and tiny heap objects and filtered heaps. -/
theorem C52_open_partial (file : Bytes) (o : Obj) (hf : file.length < 2 ^ 63) (h : FileHolds file o) :
    OpensTo file o ∧ ∀ o', OpensTo file o' → o' = o :=
  ⟨file_ok hf h, fun _ h' => h'.unique (file_ok hf h)⟩

/-- C52: every group of the file is found by its path, and nothing else is. -/
theorem C52_groups_partial (file : Bytes) (o : Obj) (hf : file.length < 2 ^ 63) (h : FileHolds file o) :
    ∃ o', OpensTo file o' ∧ ∀ (names : List Bytes) (path : Bytes), PathOf names path → path.head? = some 47 →
      match follow o names with
      | some g => ∃ G, (rootGroup o').getGroup path = .ok G ∧ G.obj = g
      | none => (rootGroup o').getGroup path = .err .notFound := by
  refine ⟨o, file_ok hf h, fun names path hp habs => ?_⟩
  have := C39_absolute (rootGroup o) path names hp habs
  rw [this, lookup, show (rootGroup o).root = o from rfl]
  cases follow o names with
  | none => rfl
  | some g => exact ⟨_, rfl, rfl⟩

/-- A variable for the reader: it has a shape, and it is not a dimension scale. -/
theorem plain_findVariable {G : Group} {n : Bytes} {v : Obj} (hv : G.obj.kids.find? (fun k => k.info.name == n) = some v)
    (hc : ∀ a ∈ v.info.attrs, a.name ≠ ascii "CLASS") (hd : v.info.dims.isSome) : G.findVariable n = some v := by
  have h1 : (classify v.info.attrs).isScale = false := by
    have : (classify v.info.attrs).hasClass = false := by
      simp only [classify, List.any_eq_false, beq_iff_eq]
      exact hc
    simp [ObjKind.isScale, this]
  unfold Group.findVariable Obj.child
  rw [hv]
  simp only [h1]
  cases hd' : v.info.dims with
  | none => rw [hd'] at hd; cases hd
  | some d => simp

/-- C52: the values of a variable that is stored in one piece are those the file holds. What else
`GetVariable` returns, or fails with, depends on the attributes alone. -/
theorem C52_values_partial (file : Bytes) (o : Obj) (hf : file.length < 2 ^ 63) (h : FileHolds file o)
    (names : List Bytes) (path : Bytes) (hp : PathOf names path) (habs : path.head? = some 47) (g v : Obj) (n : Bytes)
    (hg : follow o names = some g) (hv : g.kids.find? (fun k => k.info.name == n) = some v)
    (hc : ∀ a ∈ v.info.attrs, a.name ≠ ascii "CLASS")
    (dims : List Nat) (dt : DT) (cell : List Nat → Bytes) (pat : Bytes) (val : List Nat → GoVal) (base : GoTy)
    (hd : v.info.dims = some dims) (hdt : v.info.dt = some dt) (hstored : FlatVar file v.info dt dims cell pat)
    (ht : ElemTy dt base) (hz : (∃ e, dt = .vlen 16 false e) → 0 < prod dims)
    (hval : ∀ idx, InRange dims idx → ElemOf (heapLookup file) dt (cell idx) (val idx)) :
    ∃ o' G, OpensTo file o' ∧ (rootGroup o').getGroup path = .ok G ∧
      ∀ (inflate : Bytes → Res Bytes) (fuel : Nat),
        (G.getVariable ⟨inflate, fuel, file⟩ [] n).2 =
          (varMeta ⟨inflate, fuel, file⟩ o v).map fun m => ⟨tabulate base dims val, m.1, m.2⟩ := by
  have hG := C39_absolute (rootGroup o) path names hp habs
  rw [lookup, show (rootGroup o).root = o from rfl, hg] at hG
  refine ⟨o, _, file_ok hf h, hG, fun inflate fuel => ?_⟩
  unfold Group.getVariable
  rw [plain_findVariable (v := v) hv hc (by rw [hd]; rfl)]
  have e : objData ⟨inflate, fuel, file⟩ v (VTab.of [] v) =
      .ok (tabulate base dims val, v.info.blocks.map Block.toD) := by
    unfold objData
    rw [hdt, hd]
    exact C47_flat_values_partial hstored ht hz hval
  simp only [e]

/-! ### C53 -/

theorem objects_members {file : Bytes} (hf : file.length < 2 ^ 63) : ∀ {ms : List Member} {os : List Obj}, Holds file (.objects ms os) →
    os.map (fun o => (o.info.name, o.info.addr)) = ms.map fun m => (m.name, m.addr) := by
  intro ms
  induction ms with
  | nil =>
    intro os h
    cases h
    rfl
  | cons m ms ih =>
    intro os h
    cases h with
    | cons h hs =>
      obtain ⟨h1, h2, -⟩ := good hf h
      rw [List.map_cons, List.map_cons, ih hs, h1, h2]

/-- C53: a root group with a symbol table has the members the table lists, in that order. -/
theorem C53_members_partial (file : Bytes) (root refs f btree heap : Nat) (es : List (Bytes × Nat)) (kids : List Obj)
    (hf : file.length < 2 ^ 63) (hsup : SuperAt file root undefAddr) (h0 : 0 < root) (hroot : root ≠ undefAddr)
    (hrefs : refs < 2 ^ 32) (hfl : f < 256) (hb : btree < 2 ^ 64) (hh : heap < 2 ^ 64)
    (hat : At file root (header1 refs [(f, .symbolTable btree heap)])) (ht : SymTable file btree heap es)
    (hk : Holds file (.objects (es.map fun e => ⟨e.1, e.2, 0, true⟩) kids))
    (hn : (es.map (·.1)).Nodup) (ha : (allAddrs kids).Nodup) :
    ∃ o, OpensTo file o ∧ o.kids = kids ∧ o.kids.map (fun k => (k.info.name, k.info.addr)) = es := by
  have hm := objects_members hf hk
  have hm' : kids.map (fun k => (k.info.name, k.info.addr)) = es := by
    rw [hm, List.map_map]
    exact List.map_id' es
  have hn' : (kids.map fun k => k.info.name).Nodup := by
    rw [← hm', List.map_map] at hn
    exact hn
  refine ⟨.mk { addr := root, isGroup := true } kids, file_ok hf ?_, rfl, hm'⟩
  refine ⟨root, undefAddr, { addr := root, isGroup := true }, [], [], kids, [], hsup, hroot, .inl rfl, ?_, rfl, rfl, .none,
    by simpa using hn', by simpa using ha, by simp⟩
  have := Holds.header1 (file := file) (addr := root) (refs := refs) (ms := [(f, .symbolTable btree heap)])
    (i := { addr := root }) (i' := { addr := root, isGroup := true }) (kids := kids ++ []) ?_ (by simp) hrefs ?_ h0 hat
    (.symbols ht hk .nil)
  · rwa [List.append_nil] at this
  · intro x hx
    cases List.mem_singleton.1 hx
    exact ⟨hfl, ⟨hb, hh⟩, by simp [Message.bytes, num_eq], .inr trivial⟩
  · simp [frames1, frame1, Message.bytes, num_eq]

/-! ### C54 -/

/-- C54: a root group whose links are in dense storage has these links as members, in the order of the
index. -/
theorem C54_links_partial (file : Bytes) (root f order heap btree : Nat) (hd : Head2) (ls : List (Bytes × Nat × Nat))
    (kids : List Obj)
    (hf : file.length < 2 ^ 63) (hsup : SuperAt file root undefAddr) (h0 : 0 < root) (hroot : root ≠ undefAddr)
    (hfl : f < 256) (ho : order < 65536) (hok : hd.OK) (hb : btree < 2 ^ 64) (hh : heap < 2 ^ 64) (hdef : heap ≠ undefAddr)
    (hat : At file root (header2 hd [(f, order, .linkInfo none none heap btree)]))
    (hl : DenseLinks file heap btree ls)
    (hk : Holds file (.objects (ls.map fun l => ⟨l.1, l.2.1, l.2.2, false⟩) kids))
    (hn : (ls.map (·.1)).Nodup) (ha : (allAddrs kids).Nodup) :
    ∃ o, OpensTo file o ∧ o.kids = kids ∧
      o.kids.map (fun k => (k.info.name, k.info.addr)) = ls.map fun l => (l.1, l.2.1) := by
  have hm := objects_members hf hk
  rw [List.map_map] at hm
  have hn' : (kids.map fun k => k.info.name).Nodup := by
    have : (kids.map fun k => k.info.name) = ls.map (·.1) := by
      have := congrArg (List.map Prod.fst) hm
      rw [List.map_map, List.map_map] at this
      exact this
    rwa [this]
  refine ⟨.mk { addr := root, isGroup := true, link := some (heap, btree) } kids, file_ok hf ?_, rfl, hm⟩
  refine ⟨root, undefAddr, { addr := root, isGroup := true, link := some (heap, btree) }, [], ls, [], kids, hsup, hroot,
    .inl rfl, ?_, rfl, ?_, hk, by simpa using hn', by simpa using ha, by simp⟩
  · have hfr : (frames2 hd.tracked [(f, order, .linkInfo none none heap btree)]).length ≤ 24 := by
      unfold frames2
      cases hd.tracked <;> simp [frame2, Message.bytes, num_eq, Fmt.linkInfo]
    have hg : hd.gap < 6 := by
      have := hok.2.2.2
      split at this <;> omega
    refine .header2 hok ?_ ?_ ?_ h0 hat (.plain rfl rfl .nil)
    · intro x hx
      cases List.mem_singleton.1 hx
      exact ⟨hfl, ho, ⟨by simp, by simp, hh, hb⟩, by simp [Message.bytes, num_eq, Fmt.linkInfo]⟩
    · have : 256 ^ 1 ≤ 256 ^ 2 ^ hd.w := Nat.pow_le_pow_right (by omega) (Nat.one_le_two_pow)
      omega
    · have h1 : (hd.times.getD []).length ≤ 16 := by
        cases ht : hd.times with
        | none => simp
        | some t => simp [hok.2.1 t ht]
      have h2 : (hd.phase.getD []).length ≤ 4 := by
        cases ht : hd.phase with
        | none => simp
        | some t => simp [hok.2.2.1 t ht]
      have h3 : 2 ^ hd.w ≤ 2 ^ 3 := Nat.pow_le_pow_right (by omega) hok.1
      simp only [header2Body, num_eq, List.length_append, leEnc_length, List.length_replicate, List.length_cons, List.length_nil]
      omega
  · simp only [LinksOf, if_neg hdef]
    exact hl

/-- C54: the attributes of the root group are those in its header followed by those in dense storage. -/
theorem C54_attributes_partial (file : Bytes) (root : Nat) (i : Info) (heap btree : Nat) (as : List Attr) (kids : List Obj)
    (hf : file.length < 2 ^ 63) (hsup : SuperAt file root undefAddr) (hroot : root ≠ undefAddr)
    (hh : Holds file (.header root { addr := root } i kids))
    (hi : i.attr = some (heap, btree)) (hdef : heap ≠ undefAddr) (hl : i.link = none)
    (hd : DenseAttrs file heap btree as) (hn : (kids.map fun k => k.info.name).Nodup) (ha : (allAddrs kids).Nodup) :
    ∃ o, OpensTo file o ∧ o.info.attrs = i.attrs ++ as ∧ o.kids = kids := by
  refine ⟨.mk { i with isGroup := true, attrs := i.attrs ++ as } kids, file_ok hf ?_, rfl, rfl⟩
  refine ⟨root, undefAddr, i, as, [], kids, [], hsup, hroot, .inl rfl, hh, ?_, ?_, .none, by simpa using hn,
    by simpa using ha, by rw [List.append_nil]⟩
  · rw [hi]
    simp only [AttrsOf, if_neg hdef]
    exact hd
  · rw [hl]
    rfl

end Verif.H5
