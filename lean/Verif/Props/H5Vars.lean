import Verif.Lemmas.H5Vars
import Verif.Props.H5Others
import Verif.Props.H5Typed
/-!
C56: whole variables of files of other programs: values of any type, dimensions and attributes.
-/
namespace Verif.H5
open Fmt

variable {cast : DT → Res Unit}

theorem fileHolds_addrs {file : Bytes} {o : Obj} (h : FileHolds file o) : (allAddrs o.kids).Nodup := by
  obtain ⟨_, _, _, _, _, _, _, _, _, _, _, _, _, _, _, ha, rfl⟩ := h
  exact ha

/-- The attributes that are shown for a variable or a group. -/
def shownAttrs (av : Attr → TVal) (i : Info) : GoMap TVal :=
  (i.attrs.filter fun a => !reservedAttrs.contains a.name).map fun a => (a.name, oneOut (av a))

/-- C56: a variable that is stored in one piece is found in its group, with its values, the names of
its dimensions and its attributes. Missing: what C52 and C55 leave out, attributes that are compounds with
one member, and coordinate variables with several dimensions (`C56_negation_coordinate`). -/
theorem C56_flat_partial (file : Bytes) (o : Obj) (hf : file.length < 2 ^ 63) (h : FileHolds file o)
    (names : List Bytes) (path : Bytes) (hp : PathOf names path) (habs : path.head? = some 47) (g v : Obj) (n : Bytes)
    (hg : follow o names = some g) (hv : g.kids.find? (fun k => k.info.name == n) = some v) (hvar : IsVariable v)
    (dims : List Nat) (dt : DT) (cell : List Nat → Bytes) (pat : Bytes) (val : TVal)
    (hd : v.info.dims = some dims) (hdt : v.info.dt = some dt) (hstored : FlatVar file v.info dt dims cell pat)
    (hs : Shown (heapLookup file) dt dims (rowMajor dims cell) val) (hl : Legible cast dt)
    (av : Attr → TVal) (ds : List Bytes) (hds : DimsOf cast (heapLookup file) o v av ds)
    (ha : AttrsShown cast (heapLookup file) av v.info) (h1 : ∀ a ∈ v.info.attrs, ∀ n x, av a ≠ .compound [n] [x])
    (hn : (v.info.attrs.map (·.name)).Nodup) :
    ∃ o' G, OpensTo file o' ∧ (rootGroup o').getGroup path = .ok G ∧
      ∀ (inflate : Bytes → Res Bytes) (fuel : Nat),
        (G.getVariableT cast ⟨inflate, fuel, file⟩ [] n).2 = .ok ⟨val, ds, shownAttrs av v.info⟩ := by
  have hG := C39_absolute (rootGroup o) path names hp habs
  rw [lookup, show (rootGroup o).root = o from rfl, hg] at hG
  refine ⟨o, _, file_ok hf h, hG, fun inflate fuel => ?_⟩
  have hm := varMetaT_ok (cast := cast) (s := ⟨inflate, fuel, file⟩) hds ha h1 hn (fileHolds_addrs h)
  obtain ⟨st, h2, -⟩ := C55_flat_partial (cast := cast) (s := ⟨inflate, fuel, file⟩) hstored hdt (by rw [hd]; rfl) hs hl
  have hnil := hs.not_nil
  unfold Group.getVariableT
  rw [hvar.found hv]
  simp only [show TTab.of [] v = TSt.fresh v from rfl, h2, hm, Res.map]
  rfl

/-- C56: a variable that is stored in chunks; see C29 for the chunk shapes. -/
theorem C56_chunked_partial (file : Bytes) (o : Obj) (hf : file.length < 2 ^ 63) (h : FileHolds file o)
    (names : List Bytes) (path : Bytes) (hp : PathOf names path) (habs : path.head? = some 47) (g v : Obj) (n : Bytes)
    (hg : follow o names = some g) (hv : g.kids.find? (fun k => k.info.name == n) = some v) (hvar : IsVariable v)
    (dims : List Nat) (dt : DT) (cell : List Nat → Bytes) (pat : Bytes) (val : TVal) (inflate : Bytes → Res Bytes)
    (t : Index) (addr : Nat)
    (hd : v.info.dims = some dims) (hdt : v.info.dt = some dt) (hb : v.info.blocks = [])
    (hstored : StoredVar inflate file v.info dt dims cell pat t addr) (ho : StripesInOrder dims v.info.layout)
    (hs : Shown (heapLookup file) dt dims (rowMajor dims cell) val) (hl : Legible cast dt)
    (av : Attr → TVal) (ds : List Bytes) (hds : DimsOf cast (heapLookup file) o v av ds)
    (ha : AttrsShown cast (heapLookup file) av v.info) (h1 : ∀ a ∈ v.info.attrs, ∀ n x, av a ≠ .compound [n] [x])
    (hn : (v.info.attrs.map (·.name)).Nodup) :
    ∃ o' G, OpensTo file o' ∧ (rootGroup o').getGroup path = .ok G ∧
      ∀ fuel, t.depth ≤ fuel →
        (G.getVariableT cast ⟨inflate, fuel, file⟩ [] n).2 = .ok ⟨val, ds, shownAttrs av v.info⟩ := by
  have hG := C39_absolute (rootGroup o) path names hp habs
  rw [lookup, show (rootGroup o).root = o from rfl, hg] at hG
  refine ⟨o, _, file_ok hf h, hG, fun fuel hfuel => ?_⟩
  have hm := varMetaT_ok (cast := cast) (s := ⟨inflate, fuel, file⟩) hds ha h1 hn (fileHolds_addrs h)
  obtain ⟨st, h2, -⟩ := C55_chunked_partial (cast := cast) (s := ⟨inflate, fuel, file⟩) hstored hfuel ho hdt (by rw [hd]; rfl)
    hb hs hl
  have hnil := hs.not_nil
  unfold Group.getVariableT
  rw [hvar.found hv]
  simp only [show TTab.of [] v = TSt.fresh v from rfl, h2, hm, Res.map]
  rfl

/-- C56: the attributes of a group. -/
theorem C56_group_attributes_partial (file : Bytes) (o : Obj) (hf : file.length < 2 ^ 63) (h : FileHolds file o)
    (names : List Bytes) (path : Bytes) (hp : PathOf names path) (habs : path.head? = some 47) (g : Obj)
    (hg : follow o names = some g) (av : Attr → TVal)
    (ha : AttrsShown cast (heapLookup file) av g.info) (h1 : ∀ a ∈ g.info.attrs, ∀ n x, av a ≠ .compound [n] [x])
    (hn : (g.info.attrs.map (·.name)).Nodup) :
    ∃ o' G, OpensTo file o' ∧ (rootGroup o').getGroup path = .ok G ∧
      ∀ (inflate : Bytes → Res Bytes) (fuel : Nat),
        G.attributesT cast ⟨inflate, fuel, file⟩ = .ok (shownAttrs av g.info) := by
  have hG := C39_absolute (rootGroup o) path names hp habs
  rw [lookup, show (rootGroup o).root = o from rfl, hg] at hG
  refine ⟨o, _, file_ok hf h, hG, fun inflate fuel => ?_⟩
  unfold Group.attributesT
  simp only [ha.parsed, getAttributesT_ok _ ha.2 h1 hn]
  rfl

end Verif.H5
