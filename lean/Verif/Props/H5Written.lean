import Verif.Lemmas.H5WrittenAs
import Verif.Props.H5File
/-!
C59: files that were written follow the HDF5 file format and the conventions of netCDF-4. The
theorem does not mention the reader of this package: programs that read the format find what was
written.
-/
namespace Verif.H5

/-- C59. After any history of calls on a new writer that leaves groups, variables and attributes
which HDF5 files can hold (`FileStored`), and whatever the order of the maps, `Close` writes a
file that holds a tree of objects according to the HDF5 file format (`Fmt.FileHolds`: superblock,
object headers with their checksums, messages, links). A group is at a path if and only if it was
created. Its object has the attributes of the group, and its members are the variables and groups
that were added and, in the root group, scales for dimensions without variables. The object of a
variable has the value, of the type (a user-defined one, too) and the rank that was given, the attributes, and refers to
scales with the names of its dimensions; the scales of different dimensions have different numbers.
Strings are found through global heaps, with any function that finds the objects of the collections
in the file. Missing: files outside `FileStored` (C60 tells what is wrong with some of them); nothing
is said about the modification times, the fill value and the version of the messages beyond what
`Fmt.FileHolds` demands; the scales have no back references
(`C59_negation_reference_list`). -/
theorem C59_written_format_partial (u : UniTables) (cs : List HCall) (ord : Order) (hord : OrderOK ord)
    (hstored : FileStored (runCalls u cs)) :
    ∃ file, closeFile false ord (runCalls u cs) = .ok file ∧ (file.length < 2 ^ 63 →
      ∃ (o : Obj) (ids : Bytes → Nat), Fmt.FileHolds file o ∧
        (∀ d ∈ dimsOf (runCalls u cs), ∀ d' ∈ dimsOf (runCalls u cs), d ≠ [] → d' ≠ [] → ids d = ids d' → d = d') ∧
        ∀ heap, HeapFinds file heap → ∀ names : List Bytes,
          match (runCalls u cs).at? names with
          | none => follow o names = none
          | some g => ∃ og, follow o names = some og ∧ GroupHeld file heap ids (runCalls u cs) o names g og) := by
  obtain ⟨file, hc, h⟩ := file_stored u cs ord hord hstored
  refine ⟨file, hc, fun hl => ?_⟩
  obtain ⟨env, root', ds, o, -, hctx⟩ := h hl
  have c := hctx (fun _ => .err .eof) 0
  exact ⟨o, idOf ds, c.written.holds, c.ids, fun heap hh names => c.groupIn hh names⟩

/-- C59: there is a function that finds the objects of the collections in a file, namely that of
this package. Reading strings with it is reading strings. -/
theorem C59_heap (file : Bytes) (hl : file.length < 2 ^ 63) : HeapFinds file (heapLookup file) :=
  heapLookup_finds file hl

/-- C59: two functions that find the objects of the collections agree on all of them, so what is
stored does not depend on the function. -/
theorem C59_heap_unique (file : Bytes) (h1 h2 : HeapFn) (f1 : HeapFinds file h1) (f2 : HeapFinds file h2) (addr : Nat)
    (xs : List Fmt.HeapItem) (hc : Fmt.CollectionAt file addr xs) (hz : ∀ y ∈ xs, y.refs = 0) (x : Fmt.HeapItem)
    (hx : x ∈ xs) : h1 addr x.index = h2 addr x.index :=
  (f1 addr xs x hc hz hx).trans (f2 addr xs x hc hz hx).symm

-- the file of C38: nested groups, a coordinate variable, a dimension without variable, strings and
-- a matrix
example : FileStored (runCalls fiU fiCalls) ∧ OrderOK (fun _ vs => vs.reverse) ∧
    (runCalls fiU fiCalls).at? [ascii "g"] = some fiG ∧ fiS ∈ fiG.info.vars ∧ fiS.dims ≠ [] ∧ [] ∉ fiS.dims ∧
    (runCalls fiU fiCalls).at? [ascii "h"] = none :=
  ⟨fi_allowed.toFileStored, fun _ vs => vs.reverse_perm, by rw [fi_run]; rfl, List.mem_singleton.2 rfl, by decide, by decide,
    by rw [fi_run]; rfl⟩

/-! ### What is missing in the files -/

/-- The HDF5 Dimension Scale specification (section 4.2) gives every scale that is attached to a
dataset an attribute `REFERENCE_LIST` with the datasets. No coordinate variable that is written has
one, unless it was given as an attribute. -/
theorem C59_negation_reference_list (u : UniTables) (cs : List HCall) (ord : Order) (hord : OrderOK ord)
    (hstored : FileStored (runCalls u cs)) :
    ∃ file, closeFile false ord (runCalls u cs) = .ok file ∧ (file.length < 2 ^ 63 →
      ∃ o, Fmt.FileHolds file o ∧ ∀ v ∈ (runCalls u cs).info.vars,
        ascii "REFERENCE_LIST" ∉ (v.attrs.getD []).map (·.1) →
        ∃ k ∈ o.kids, k.info.name = v.name ∧ ∀ a ∈ k.info.attrs, a.name ≠ ascii "REFERENCE_LIST") := by
  obtain ⟨file, hc, h⟩ := C59_written_format_partial u cs ord hord hstored
  refine ⟨file, hc, fun hl => ?_⟩
  obtain ⟨o, ids, ho, -, hall⟩ := h hl
  refine ⟨o, ho, fun v hv hno => ?_⟩
  obtain ⟨og, hf, hg⟩ := hall _ (C59_heap file hl) []
  have hf : og = o := by
    simp only [follow] at hf
    split at hf
    · exact (Option.some.inj hf).symm
    · cases hf
  subst hf
  obtain ⟨k, hk, hv⟩ := hg.vars v hv
  refine ⟨k, hk, hv.name, fun a ha e => ?_⟩
  rcases hv.attrs.only a ha with h | h
  · exact hno (e ▸ h)
  · rw [e] at h
    exact absurd h (by decide)

/-- A global heap with one object, `"a"`, that has been given the reference count 1. -/
def wcFile : Bytes :=
  ascii "GCOL" ++ [1, 0, 0, 0, 40, 0, 0, 0, 0, 0, 0, 0] ++
    [1, 0, 1, 0, 0, 0, 0, 0, 1, 0, 0, 0, 0, 0, 0, 0, 97, 0, 0, 0, 0, 0, 0, 0]

/-- The format allows any reference count, but the reader finds no object of a collection in which
a count is not zero. -/
theorem C59_negation_reference_count :
    Fmt.CollectionAt wcFile 0 [⟨1, 1, [97]⟩] ∧ ∀ d, heapLookup wcFile 0 1 ≠ .ok d :=
  ⟨⟨by decide, by decide, ⟨[], false, by decide, [], by decide⟩⟩, by
    intro d
    have h : (match heapLookup wcFile 0 1 with | .ok _ => false | _ => true) = true := by decide +kernel
    intro e
    rw [e] at h
    cases h⟩

end Verif.H5
