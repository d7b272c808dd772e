import Verif.Lemmas.H5ReadTyped
import Verif.Props.H5File
import Verif.Props.H5UserTypes
/-!
C61: values of all types, user-defined ones too, come back when the file is read.
-/
namespace Verif.H5

/-- C61: every sequence of calls on the writer that leads to a file whose parts can be stored
(`FileStored`): `Close` succeeds, the file can be opened, and whatever was read before, every group has
the variables and subgroups that were added and lists no types; its attributes, and the values,
dimensions and attributes of every variable, are those that were given, also when they are compounds,
opaque values, enumerations and sequences; and slices are the rows of those values. `tord` is the
order in which the reader goes through its maps of types.

Missing: files outside `FileStored`; attributes that are compounds with one member, which lose their
name (`C55_negation_member`); opaque attributes, which are read as zeros (`C60_negation_opaque`);
empty slices, and `GetVariable` after slices (`C22_negation_hdf5`). -/
theorem C61_round_trip_partial (u : UniTables) (cs : List HCall) (ord : Order) (hord : OrderOK ord)
    (hstored : FileStored (runCalls u cs)) :
    ∃ file, closeFile false ord (runCalls u cs) = .ok file ∧ (file.length < 2 ^ 63 →
      ∃ o, OpensTo file o ∧ (∀ o', OpensTo file o' → o' = o) ∧
        ∀ (inflate : Bytes → Res Bytes) (fuel : Nat) (tord : List Nat → List NamedType → List NamedType),
          Iteration tord → ∀ (before : ReadCalls) (names : List Bytes)
          (path : Bytes), PathOf names path → path.head? = some 47 →
          match (runCalls u cs).at? names with
          | none => (rootGroup o).getGroup path = .err .notFound
          | some g => ∃ G, (rootGroup o).getGroup path = .ok G ∧
              GroupReadsT ⟨inflate, fuel, file⟩ tord (runCalls u cs) names g G
                (readAllT ⟨inflate, fuel, file⟩ o tord before)) := by
  obtain ⟨file, hc, h⟩ := file_stored u cs ord hord hstored
  refine ⟨file, hc, fun hl => ?_⟩
  obtain ⟨env, root', ds, o, ho, hctx⟩ := h hl
  exact ⟨o, ho, fun o' h' => h'.unique ho, fun inflate fuel tord ht before names path hp habs =>
    (hctx inflate fuel).readsT ht names path hp habs before⟩

/-- C61: what `AddVar` was given comes back, if the variable was not given again later. -/
theorem C61_added_variable_partial (u : UniTables) (cs later : List HCall) (ord : Order) (hord : OrderOK ord)
    (names : List Bytes) (name : Bytes) (val : GoVal) (dims : List Bytes) (attrs : Attrs) (root' : HGroup)
    (g : HGroup) (hg : (runCalls u cs).at? names = some g)
    (hadd : addVarH u (runCalls u cs) names name val dims attrs = .ok root')
    (hlater : ∀ c ∈ later, ∀ v d a, c ≠ .addVar names name v d a)
    (hstored : FileStored (runCalls u (cs ++ .addVar names name val dims attrs :: later))) :
    ∃ file as, closeFile false ord (runCalls u (cs ++ .addVar names name val dims attrs :: later)) = .ok file ∧
      Given attrs as ∧ ((∀ p ∈ as, ¬ Lone p.2) → file.length < 2 ^ 63 → ∃ o, OpensTo file o ∧
        ∀ (inflate : Bytes → Res Bytes) (fuel : Nat) (tord : List Nat → List NamedType → List NamedType),
          Iteration tord → ∀ (before : ReadCalls)
          (path : Bytes), PathOf names path → path.head? = some 47 →
          ∃ G, (rootGroup o).getGroup path = .ok G ∧ name ∈ G.listVariables ∧
            (G.getVariableT (G.cast tord) ⟨inflate, fuel, file⟩ (readAllT ⟨inflate, fuel, file⟩ o tord before) name).2 =
              .ok ⟨GoVal.lift val, dimsRead (runCalls u (cs ++ .addVar names name val dims attrs :: later)) names
                ⟨name, val, dims, some as, false⟩, as.map fun p => (p.1, oneOut (GoVal.lift p.2))⟩) := by
  obtain ⟨file, hc, h⟩ := C61_round_trip_partial u _ ord hord hstored
  obtain ⟨as, has, hr⟩ := addVarH_ok hadd
  refine ⟨file, as.getD [], hc, given_attrPairs has, fun hlone hl => ?_⟩
  obtain ⟨o, ho, -, hread⟩ := h hl
  refine ⟨o, ho, fun inflate fuel tord htord before path hp habs => ?_⟩
  have hvar : (runCalls u (cs ++ .addVar names name val dims attrs :: later)).var? names name =
      some ⟨name, val, dims, as, false⟩ := by
    rw [runCalls, List.foldl_append, List.foldl_cons]
    refine var_runs u _ names name _ later hlater ?_
    have : HCall.run u (cs.foldl (HCall.run u) newRoot) (.addVar names name val dims attrs) = root' := by
      have hadd' : addVarH u (cs.foldl (HCall.run u) newRoot) names name val dims attrs = .ok root' := hadd
      simp only [HCall.run, hadd']
    rw [this, hr, HGroup.var?, at_modify _ (fun g => by cases g; rfl), hg]
    simp only [Option.map_some, Option.bind_some, HGroup.info]
    rw [setVar_find, if_pos rfl]
  have := hread inflate fuel tord htord before names path hp habs
  unfold HGroup.var? at hvar
  cases hat : (runCalls u (cs ++ .addVar names name val dims attrs :: later)).at? names with
  | none => rw [hat] at hvar; cases hvar
  | some g' =>
    rw [hat] at hvar this
    obtain ⟨G, hG, hreads⟩ := this
    have hmem : ⟨name, val, dims, as, false⟩ ∈ g'.info.vars := List.mem_of_find?_eq_some hvar
    exact ⟨G, hG, hreads.vars.mem_iff.2 (List.mem_map_of_mem (f := (·.name)) hmem), hreads.var _ hmem hlone⟩

/-! ### A file with compounds, an enumeration and sequences of opaque values -/

/-- A compound with a number and a string. -/
def ufRec (i : Nat) (s : Bytes) : TVal := .compound [ascii "x", ascii "s"] [.num .i32 i, .str s]

/-- Its type. -/
def ufRecTy : WTy := .compound [ascii "x", ascii "s"] [.num .i32, .vlenStr]

/-- The values of a variable. -/
def ufRecs : TVal := .slice .compound [ufRec 5 (ascii "hi"), ufRec 7 (ascii "you")]

/-- The value of an attribute: compounds with sequences in them. -/
def ufSeqs : TVal := .slice .compound [userRec [.num .u8 1, .num .u8 2], userRec []]

/-- An enumeration. -/
def ufEnum : TVal := .enum (.num .i8 2) [ascii "a", ascii "b"] [.num .i8 1, .num .i8 2]

def ufCalls : List HCall :=
  [.addAttributes [] (fiAttrs "title" (.str (ascii "test"))),
   .addVar [] (ascii "x") (.user ufEnum) [] none,
   .createGroup [] (ascii "g"),
   .addVar [ascii "g"] (ascii "m") (.user ufRecs) [ascii "y"] (fiAttrs "units" (.user ufSeqs))]

def ufX : HVar := ⟨ascii "x", .user ufEnum, [], none, false⟩

def ufM : HVar := ⟨ascii "m", .user ufRecs, [ascii "y"], some [(ascii "units", .user ufSeqs)], false⟩

def ufG : HGroup := .mk { name := ascii "g", vars := [ufM] } []

def ufRoot : HGroup :=
  .mk { name := ascii "/", vars := [ufX], attrs := some [(ascii "title", .str (ascii "test"))] } [ufG]

theorem uf_run : runCalls fiU ufCalls = ufRoot := by
  obtain ⟨hx, hg, hs, hh, hm, h0, h1, h2, h3⟩ := fi_valid
  simp only [runCalls, ufCalls, List.foldl_cons, List.foldl_nil]
  have h4 : Cdf.hasValidNames fiU (fiAttrs "units" (.user ufSeqs)) = true := by decide +kernel
  rw [fi_set _ _ _ _ h1 rfl, fi_add _ _ _ _ _ _ _ hx h0 rfl rfl, fi_create _ _ _ hg,
    fi_add _ _ _ _ _ _ _ hm h4 rfl rfl]
  rfl

theorem uf_item (i : Nat) (s : Bytes) (hi : i < 256 ^ 4) (hs : (0 : UInt8) ∉ s) (hl : s.length < 2 ^ 32) :
    Item true false ufRecTy (ufRec i s) := by
  refine .compound _ _ _ rfl rfl ?_
  intro n t v h1 h2
  match n with
  | 0 =>
    obtain rfl : WTy.num .i32 = t := by simpa using h1
    obtain rfl : TVal.num .i32 i = v := by simpa using h2
    exact .num _ _ hi
  | 1 =>
    obtain rfl : WTy.vlenStr = t := by simpa using h1
    obtain rfl : TVal.str s = v := by simpa using h2
    exact .str _ hs hl
  | n + 2 => simp at h1

theorem uf_recs : VarValue ufRecTy [2] ufRecs := by
  refine .records _ _ _ trivial ⟨_, rfl, rfl, ?_⟩ (by simp)
  intro x hx
  simp only [List.mem_cons, List.not_mem_nil, or_false] at hx
  rcases hx with rfl | rfl <;> exact uf_item _ _ (by decide) (by decide) (by decide)

theorem uf_seqs : AttrValue userRecTy [2] ufSeqs := by
  refine .records _ _ _ trivial ⟨_, rfl, rfl, ?_⟩ (by simp)
  intro x hx
  simp only [List.mem_cons, List.not_mem_nil, or_false] at hx
  rcases hx with rfl | rfl
  · refine userRec_item _ ?_ (by decide)
    intro x hx
    simp only [List.mem_cons, List.not_mem_nil, or_false] at hx
    rcases hx with rfl | rfl <;> exact .num _ _ (by decide)
  · exact userRec_item _ (by simp) (by decide)

theorem uf_x : VarAllowed ufX := by
  refine ⟨.user (.enum .i8 [ascii "a", ascii "b"] [1, 2]) [] _
    (.enum .i8 _ _ [] _ rfl (.num _ _ (by decide)) (by simp)) ?_ (by decide) ⟨by decide, by decide, by decide, by decide⟩
    (by decide), (by decide : ∀ s ∈ heapStrs ufX.val, ¬ ascii "__dimref:" <+: s), fi_none⟩
  simp [WTy.Readable, Kind.size]; decide

theorem uf_m : VarAllowed ufM := by
  refine ⟨.user ufRecTy [2] _ uf_recs ?_ (by decide) ⟨by decide, by decide, by decide, by decide⟩ (by decide),
    (by decide : ∀ s ∈ heapStrs ufM.val, ¬ ascii "__dimref:" <+: s),
    fi_attrs _ ⟨by decide, by decide, by decide, .user userRecTy [2] _ uf_seqs ?_ (fun n h => by cases h)
      ⟨by decide, by decide⟩ (by decide), (by decide : ∀ s ∈ heapStrs (.user ufSeqs), ¬ ascii "__dimref:" <+: s)⟩⟩
  · simp [ufRecTy, WTy.Readable, Readables, fieldSizes, WTy.fieldSize, Kind.size]; decide
  · simp [userRecTy, WTy.Readable, Readables, fieldSizes, WTy.fieldSize, Kind.size]; decide

theorem uf_groups : GroupAllowed ufRoot := by
  refine .mk _ _ (fi_attrs _ (fi_str _ _ (by decide) (by decide) (by decide) (by decide))) ?_ ?_ ?_ (by decide) ?_
  · intro v hv
    rw [List.mem_singleton.1 hv]
    exact uf_x
  · intro n hn
    exact fi_name n ((by decide : ∀ n ∈ [ascii "x", ascii "g"], n ≠ [] ∧ n.length ≤ 255 ∧ slash ∉ n) n hn)
  · exact (by decide : ∀ v ∈ [ufX], v.name ∉ [ascii "g"])
  · intro t ht
    rw [List.mem_singleton.1 ht]
    refine .mk _ _ fi_none ?_ ?_ ?_ (by decide) ?_
    · intro v hv
      rw [List.mem_singleton.1 hv]
      exact uf_m
    · intro n hn
      exact fi_name n ((by decide : ∀ n ∈ [ascii "m"], n ≠ [] ∧ n.length ≤ 255 ∧ slash ∉ n) n hn)
    · exact (by decide : ∀ v ∈ [ufM], v.name ∉ [])
    · intro t ht
      cases ht

theorem uf_stored : FileStored (runCalls fiU ufCalls) := by
  rw [uf_run]
  refine ⟨uf_groups, by decide, ?_, ?_, by decide, by decide⟩
  · exact (by decide : ∀ d ∈ dimsOf ufRoot, d.length ≤ 255 ∧ d ∉ [ascii "g"])
  · intro v hv hd
    rw [List.mem_singleton.1 hv] at hd
    exact absurd hd (by decide)

-- a file with an enumeration, compounds with strings, and an attribute with sequences in compounds
example : FileStored (runCalls fiU ufCalls) ∧ ¬ FileAllowed (runCalls fiU ufCalls) ∧
    OrderOK (fun _ vs => vs.reverse) ∧ Iteration (fun _ ts => ts) ∧
    (runCalls fiU ufCalls).at? [ascii "g"] = some ufG ∧ (∀ p ∈ ufM.attrs.getD [], ¬ Lone p.2) ∧
    extent 0 ufM.val = 2 ∧ sliceV 1 2 (GoVal.lift ufM.val) = .slice .compound [ufRec 7 (ascii "you")] := by
  refine ⟨uf_stored, fun h => ?_, fun _ vs => vs.reverse_perm, fun _ _ => .rfl, by rw [uf_run]; rfl, ?_, rfl, by simp [sliceV, ufM, ufRecs, GoVal.lift]⟩
  · have := h.noUser
    rw [uf_run] at this
    cases this with
    | mk _ _ _ h2 _ => exact (h2 ufX List.mem_cons_self).1
  · rintro p hp ⟨n, x, e⟩
    rw [List.mem_singleton.1 hp] at e
    cases e

end Verif.H5
