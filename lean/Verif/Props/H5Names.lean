import Verif.Lemmas.H5NamesRead
import Verif.Props.H5Vars
/-!
C57: the descriptions of types in CDL and in Go.
-/
namespace Verif.H5
open Fmt

/-! ### The types of a group -/

theorem typesOf_types {G : Group} {cat : List (Bytes × Ty)} (h : TypesOf G.obj cat) :
    G.types = (G.obj.kids.filter fun k => !k.info.isGroup && k.info.dims.isNone).map fun o => (o.info.name, o.info.dt) := by
  unfold Group.types
  congr 1
  refine List.filter_congr fun k hk => ?_
  unfold isType
  cases h1 : k.info.isGroup with
  | true => rfl
  | false =>
    cases h2 : k.info.dims with
    | some => simp
    | none =>
      have := h.bare k hk h1 h2
      rw [this]
      rfl

theorem catalogue {G : Group} {cat : List (Bytes × Ty)} (h : TypesOf G.obj cat) : Catalogue G.types cat where
  stored := by
    rw [typesOf_types h, List.map_map]
    exact h.stored
  names := by
    have h1 : cat.map (·.1) = (G.obj.kids.filter fun k => !k.info.isGroup && k.info.dims.isNone).map (·.info.name) := by
      have := congrArg (List.map Prod.fst) h.stored
      rw [List.map_map, List.map_map] at this
      exact this.symm
    rw [h1]
    exact h.links.sublist ((List.filter_sublist).map _)
  apart := h.apart
  plain := h.plain

/-- A name of the catalogue is the link to the type. -/
theorem typesOf_child {g : Obj} {cat : List (Bytes × Ty)} (h : TypesOf g cat) {n : Bytes} {t : Ty} (hm : (n, t) ∈ cat) :
    ∃ k d, g.child n = some k ∧ k.info.isGroup = false ∧ k.info.dims = none ∧ k.info.attrs = [] ∧ k.info.dt = some d ∧ d.ty = some t := by
  have h1 : (n, some t) ∈ cat.map fun p => (p.1, some p.2) := List.mem_map_of_mem (f := fun p : Bytes × Ty => (p.1, some p.2)) hm
  rw [← h.stored] at h1
  obtain ⟨k, hk, he⟩ := List.mem_map.mp h1
  obtain ⟨hk, hf⟩ := List.mem_filter.mp hk
  simp only [Bool.and_eq_true, Bool.not_eq_true', Option.isNone_iff_eq_none] at hf
  simp only [Prod.mk.injEq] at he
  obtain ⟨rfl, he⟩ := he
  rw [Option.bind_eq_some_iff] at he
  obtain ⟨d, hd, ht⟩ := he
  refine ⟨k, d, ?_, hf.1, hf.2, h.bare k hk hf.1 hf.2, hd, ht⟩
  unfold Obj.child
  cases hs : g.kids.find? (fun x => x.info.name == k.info.name) with
  | none =>
    have := List.find?_eq_none.mp hs k hk
    simp at this
  | some k' =>
    have h2 := List.find?_some hs
    have h3 := List.mem_of_find?_eq_some hs
    simp only [beq_iff_eq] at h2
    rw [List.inj_on_of_nodup_map h.links h3 hk h2]

/-- Another link is to a group or to a variable. -/
theorem typesOf_other {g : Obj} {cat : List (Bytes × Ty)} (h : TypesOf g cat) {n : Bytes} (hm : n ∉ cat.map (·.1)) {k : Obj}
    (hk : g.child n = some k) : k.info.isGroup = true ∨ k.info.dims.isSome = true := by
  have h2 := List.find?_some hk
  have h3 := List.mem_of_find?_eq_some hk
  simp only [beq_iff_eq] at h2
  cases h4 : k.info.isGroup with
  | true => exact .inl rfl
  | false =>
    cases h5 : k.info.dims with
    | some => exact .inr rfl
    | none =>
      exfalso
      apply hm
      have h6 : (k.info.name, k.info.dt.bind DT.ty) ∈ cat.map fun p => (p.1, some p.2) := by
        rw [← h.stored]
        refine List.mem_map_of_mem (f := fun k : Obj => (k.info.name, k.info.dt.bind DT.ty)) (List.mem_filter.mpr ⟨h3, ?_⟩)
        simp [h4, h5]
      obtain ⟨p, hp, he⟩ := List.mem_map.mp h6
      simp only [Prod.mk.injEq] at he
      rw [← h2, ← he.1]
      exact List.mem_map_of_mem (f := Prod.fst) hp

/-! ### The printers -/

theorem unused_le (cat : List (Bytes × Ty)) (U : List Bytes) : unused cat U ≤ cat.length := List.length_filter_le _ _

theorem describe_ok {ord : List Nat → List NamedType → List NamedType} (hord : Iteration ord) {types : List NamedType}
    {cat : List (Bytes × Ty)} (hc : Catalogue types cat) {nt : Notation} {owner : Bytes} {bad : Ty → Prop}
    (hgood : ∀ p ∈ cat, ¬ p.2.Has bad) (hap : Apart nt owner bad cat) (used : List Bytes) {d : DT} {t : Ty}
    (ht : d.ty = some t) (hg : Sayable bad t) :
    describe ord types nt owner used d = .ok (t.write nt owner (outside used (nameIn cat))) := by
  have hl : types.length = cat.length := by
    have := congrArg List.length hc.stored
    simpa using this
  exact typeText_eq (findSig_eq hord hc hgood hap _ used (by have := unused_le cat used; omega)) (calls_outside hc used) d [] t ht hg

theorem write_outside {cat : List (Bytes × Ty)} {types : List NamedType} (hc : Catalogue types cat) {n : Bytes}
    (hn : n ∉ cat.map (·.1)) (nt : Notation) (owner : Bytes) (t : Ty) :
    t.write nt owner (outside [n] (nameIn cat)) = t.write nt owner (nameIn cat) := by
  have : outside [n] (nameIn cat) = nameIn cat := by
    funext s
    cases h : nameIn cat s with
    | none => simp [outside, h]
    | some m =>
      have : m ≠ n := by
        rintro rfl
        exact hn (List.mem_map_of_mem (f := Prod.fst) ((nameIn_some hc).mp h).1)
      simp [outside, h, Option.filter, this]
  rw [this]

theorem body_outside {cat : List (Bytes × Ty)} {types : List NamedType} (hc : Catalogue types cat) {n : Bytes} {t : Ty}
    (hm : (n, t) ∈ cat) (nt : Notation) (owner : Bytes) :
    t.write nt owner (outside [n] (nameIn cat)) = t.body nt owner (nameIn cat) := by
  have h1 : outside [n] (nameIn cat) t = none := by
    cases h : outside [n] (nameIn cat) t with
    | none => rfl
    | some m =>
      obtain ⟨h1, h2⟩ := outside_some.mp h
      obtain ⟨h3, h4⟩ := (nameIn_some hc).mp h1
      have := hc.apart _ h3 _ hm rfl h4
      cases this
      exact absurd List.mem_cons_self h2
  rw [Ty.write, h1]
  refine body_congr nt owner _ _ t fun s hs => ?_
  cases h' : nameIn cat s with
  | none => simp [outside, h']
  | some m =>
    have : m ≠ n := by
      rintro rfl
      have := cat_name hc ((nameIn_some hc).mp h').1 hm
      subst this
      exact absurd hs (Nat.lt_irrefl _)
    simp [outside, h', Option.filter, this]

theorem has_false : ∀ t : Ty, ¬ t.Has fun _ => False := by
  intro t
  have key : ∀ n, (∀ t : Ty, sizeOf t < n → ¬ t.Has fun _ => False) ∧ (∀ ts : List Ty, sizeOf ts < n → ¬ Ty.HasAny (fun _ => False) ts) := by
    intro n
    induction n with
    | zero => exact ⟨fun t h => absurd h (by omega), fun t h => absurd h (by omega)⟩
    | succ n ih =>
      refine ⟨fun t ht => ?_, fun ts ht => ?_⟩
      · cases t <;> simp only [Ty.Has, false_or, not_false_iff] <;> simp at ht
        · exact ih.2 _ (by omega)
        · exact ih.1 _ (by omega)
        · exact ih.1 _ (by omega)
      · cases ts with
        | nil => simp [Ty.HasAny]
        | cons t ts =>
          simp at ht
          rw [Ty.HasAny, not_or]
          exact ⟨ih.1 _ (by omega), ih.2 _ (by omega)⟩
  exact (key _).1 t (Nat.lt_succ_self _)

/-! ### Variables -/

/-- C57: `Type()` of a variable is its type in CDL: declared types inside it are called by their names. It
stays so after slices were read. Missing: arrays with dimensions in the old encoding of compounds, types
that are declared in other groups. -/
theorem C57_type_partial (file : Bytes) (o : Obj) (hf : file.length < 2 ^ 63) (h : FileHolds file o)
    (names : List Bytes) (path : Bytes) (hp : PathOf names path) (habs : path.head? = some 47) (g v : Obj) (n : Bytes)
    (hg : follow o names = some g) (hv : g.kids.find? (fun k => k.info.name == n) = some v) (hvar : IsVariable v)
    (cat : List (Bytes × Ty)) (hc : TypesOf g cat) (dt : DT) (t : Ty) (hdt : v.info.dt = some dt) (ht : dt.ty = some t) (hok : t.Ok) :
    ∃ o' G, OpensTo file o' ∧ (rootGroup o').getGroup path = .ok G ∧
      ∀ ord, Iteration ord → ∀ tab, Untouched tab v → G.varType ord .cdl tab n = .ok (t.write .cdl n (nameIn cat)) := by
  have hG := C39_absolute (rootGroup o) path names hp habs
  rw [lookup, show (rootGroup o).root = o from rfl, hg] at hG
  refine ⟨o, _, file_ok hf h, hG, fun ord hord tab hu => ?_⟩
  have hcat := catalogue (G := ⟨o, g, [47] ++ names.flatMap (· ++ [47])⟩) hc
  unfold Group.varType
  rw [hvar.found hv]
  simp only [Group.describe, hu.2, hdt]
  rw [describe_ok hord hcat (bad := fun _ => False) (fun p _ => has_false _) (apart_cdl hcat n) [n] ht ⟨hok, has_false _⟩]
  rw [write_outside hcat]
  intro hn
  obtain ⟨⟨m, u⟩, hm, rfl⟩ := List.mem_map.mp hn
  obtain ⟨k, d, hk, -, h2, -⟩ := typesOf_child hc hm
  rw [Obj.child] at hk
  rw [hv] at hk
  cases hk
  have := hvar.1
  rw [h2] at this
  cases this

/-- C57: `GoType()` of a variable. Missing also: types that have the same text in Go (`vague`), see
`C57_negation_vague`. -/
theorem C57_go_type_partial (file : Bytes) (o : Obj) (hf : file.length < 2 ^ 63) (h : FileHolds file o)
    (names : List Bytes) (path : Bytes) (hp : PathOf names path) (habs : path.head? = some 47) (g v : Obj) (n : Bytes)
    (hg : follow o names = some g) (hv : g.kids.find? (fun k => k.info.name == n) = some v) (hvar : IsVariable v)
    (cat : List (Bytes × Ty)) (hc : TypesOf g cat) (op : Bool) (hop : ∀ p ∈ cat, ¬ p.2.Has (vague op))
    (dt : DT) (t : Ty) (hdt : v.info.dt = some dt) (ht : dt.ty = some t) (hok : t.Ok) (hvg : ¬ t.Has (vague op)) :
    ∃ o' G, OpensTo file o' ∧ (rootGroup o').getGroup path = .ok G ∧
      ∀ ord, Iteration ord → ∀ tab, Untouched tab v → G.varType ord .go tab n = .ok (t.write .go n (nameIn cat)) := by
  have hG := C39_absolute (rootGroup o) path names hp habs
  rw [lookup, show (rootGroup o).root = o from rfl, hg] at hG
  refine ⟨o, _, file_ok hf h, hG, fun ord hord tab hu => ?_⟩
  have hcat := catalogue (G := ⟨o, g, [47] ++ names.flatMap (· ++ [47])⟩) hc
  unfold Group.varType
  rw [hvar.found hv]
  simp only [Group.describe, hu.2, hdt]
  rw [describe_ok hord hcat hop (apart_go hcat n op) [n] ht ⟨hok, hvg⟩]
  rw [write_outside hcat]
  intro hn
  obtain ⟨⟨m, u⟩, hm, rfl⟩ := List.mem_map.mp hn
  obtain ⟨k, d, hk, -, h2, -⟩ := typesOf_child hc hm
  rw [Obj.child] at hk
  rw [hv] at hk
  cases hk
  have := hvar.1
  rw [h2] at this
  cases this

/-! ### Declared types -/

theorem escape_ok {α : Type} (a : α) : escape (.ok a : Res α) = .ok a := rfl

/-- C57: `ListTypes`, `GetType` and `GetGoType` show the declared types of a group and nothing else. -/
theorem C57_declared_partial (file : Bytes) (o : Obj) (hf : file.length < 2 ^ 63) (h : FileHolds file o)
    (names : List Bytes) (path : Bytes) (hp : PathOf names path) (habs : path.head? = some 47) (g : Obj)
    (hg : follow o names = some g) (cat : List (Bytes × Ty)) (hc : TypesOf g cat) :
    ∃ o' G, OpensTo file o' ∧ (rootGroup o').getGroup path = .ok G ∧ G.listTypes = cat.map (·.1) ∧
      ∀ ord, Iteration ord →
        (∀ n t, (n, t) ∈ cat → G.getType ord n = .ok (some (t.body .cdl n (nameIn cat)))) ∧
        (∀ op, (∀ p ∈ cat, ¬ p.2.Has (vague op)) →
          ∀ n t, (n, t) ∈ cat → G.getGoType ord n = .ok (some (ascii "type " ++ n ++ ascii " " ++ t.body .go n (nameIn cat)))) ∧
        (∀ n, n ∉ cat.map (·.1) → G.getType ord n = .ok none ∧ G.getGoType ord n = .ok none) := by
  have hG := C39_absolute (rootGroup o) path names hp habs
  rw [lookup, show (rootGroup o).root = o from rfl, hg] at hG
  refine ⟨o, _, file_ok hf h, hG, ?_, fun ord hord => ⟨fun n t hm => ?_, fun op hop n t hm => ?_, fun n hn => ?_⟩⟩
  · have := congrArg (List.map Prod.fst) (catalogue (G := ⟨o, g, [47] ++ names.flatMap (· ++ [47])⟩) hc).stored
    rw [List.map_map, List.map_map] at this
    exact this
  · have hcat := catalogue (G := ⟨o, g, [47] ++ names.flatMap (· ++ [47])⟩) hc
    obtain ⟨k, d, hk, h1, h2, h3, h4, h5⟩ := typesOf_child hc hm
    simp only [Group.getType, hk, h1, h2, h3, h4, Group.describe]
    rw [describe_ok hord hcat (bad := fun _ => False) (fun p _ => has_false _) (apart_cdl hcat n) [n] h5
      ⟨(hc.plain _ hm).2.1, has_false _⟩, body_outside hcat hm]
    rfl
  · have hcat := catalogue (G := ⟨o, g, [47] ++ names.flatMap (· ++ [47])⟩) hc
    obtain ⟨k, d, hk, h1, h2, h3, h4, h5⟩ := typesOf_child hc hm
    simp only [Group.getGoType, hk, h1, h2, h3, h4, Group.describe]
    rw [describe_ok hord hcat hop (apart_go hcat n op) [n] h5 ⟨(hc.plain _ hm).2.1, hop _ hm⟩, body_outside hcat hm]
    rfl
  · cases hk : g.child n with
    | none => simp [Group.getType, Group.getGoType, hk]
    | some k =>
      rcases typesOf_other hc hn hk with h1 | h1
      · simp [Group.getType, Group.getGoType, hk, h1]
      · simp [Group.getType, Group.getGoType, hk, h1]

/-! ### Attributes -/

/-- C57: `GetType` and `GetGoType` of the attributes of the root group; `(*)` or `[]` for each dimension. -/
theorem C57_global_attribute_partial (file : Bytes) (o : Obj) (hf : file.length < 2 ^ 63) (h : FileHolds file o)
    (cat : List (Bytes × Ty)) (hc : TypesOf o cat) (a : Attr) (ha : a ∈ o.info.attrs) (hn : (o.info.attrs.map (·.name)).Nodup)
    (t : Ty) (ht : a.dt.ty = some t) (hok : t.Ok) (hna : ∀ ds u, t ≠ .array ds u)
    (m : GoMap TVal) (hm : m.any fun p => p.1 == a.name) :
    ∃ o', OpensTo file o' ∧ ∀ ord, Iteration ord →
      (rootGroup o').attrType ord .cdl m a.name = .ok (some (t.write .cdl a.name (nameIn cat) ++
        if a.dims = [1] then [] else (a.dims.map fun _ => ascii "(*)").flatten)) ∧
      ∀ op, (∀ p ∈ cat, ¬ p.2.Has (vague op)) → ¬ t.Has (vague op) →
        (rootGroup o').attrType ord .go m a.name =
          .ok (some ((if a.dims = [1] then [] else (a.dims.map fun _ => ascii "[]").flatten) ++ t.write .go a.name (nameIn cat))) := by
  refine ⟨o, file_ok hf h, fun ord hord => ?_⟩
  have hcat := catalogue (G := rootGroup o) hc
  have hfind : o.info.attrs.find? (fun x => x.name == a.name) = some a := by
    cases hs : o.info.attrs.find? (fun x => x.name == a.name) with
    | none =>
      have := List.find?_eq_none.mp hs a ha
      simp at this
    | some b =>
      have h2 := List.find?_some hs
      have h3 := List.mem_of_find?_eq_some hs
      simp only [beq_iff_eq] at h2
      rw [List.inj_on_of_nodup_map hn h3 ha h2]
  have hkey : (m.all fun p => p.1 != a.name) = false := by
    rw [List.any_eq_true] at hm
    obtain ⟨p, hp, he⟩ := hm
    rw [List.all_eq_false]
    exact ⟨p, hp, by simpa using he⟩
  have hout : outside [] (nameIn cat) = nameIn cat := by
    funext s
    cases h : nameIn cat s <;> simp [outside, h, Option.filter]
  have hcalls : Calls (nameIn cat) := hout ▸ calls_outside hcat []
  have main : ∀ (nt : Notation) (bad : Ty → Prop), (∀ p ∈ cat, ¬ p.2.Has bad) → ¬ t.Has bad → Apart nt a.name bad cat →
      (rootGroup o).attrType ord nt m a.name = .ok (some (withDims nt a.dims (t.write nt a.name (nameIn cat)))) := by
    intro nt bad h1 h2 h3
    unfold Group.attrType
    rw [hkey]
    simp only [Bool.false_eq_true, if_false]
    rw [show (rootGroup o).root.info.attrs.find? (fun x => x.name == a.name) = some a from hfind]
    simp only
    rw [describe_ok hord hcat h1 h3 [] ht ⟨hok, h2⟩, hout]
    have hne : withDims nt a.dims (t.write nt a.name (nameIn cat)) ≠ [] := by
      have := write_ne (nt := nt) (owner := a.name) (bad := bad) hcalls (t := t) ⟨hok, h2⟩
      unfold withDims
      split
      · exact this
      · cases nt <;> simp [this]
    simp only [Res.map]
    rw [if_neg hne]
    rfl
  refine ⟨?_, fun op hop hvg => ?_⟩
  · rw [main .cdl (fun _ => False) (fun p _ => has_false _) (has_false _) (apart_cdl hcat _)]
    unfold withDims
    split
    · simp
    · simp [List.flatMap]
  · rw [main .go (vague op) hop hvg (apart_go hcat _ op)]
    unfold withDims
    split
    · simp
    · simp [List.flatMap]

/-! ### Values -/

/-- The Go names of types can be computed. -/
theorem cast_ok {G : Group} {cat : List (Bytes × Ty)} (hc : TypesOf G.obj cat) {op : Bool} (hop : ∀ p ∈ cat, ¬ p.2.Has (vague op))
    {ord : List Nat → List NamedType → List NamedType} (hord : Iteration ord) {d : DT} {t : Ty} (ht : d.ty = some t) (hok : t.Ok)
    (hvg : ¬ t.Has (vague op)) : G.cast ord d = .ok () := by
  have hcat := catalogue hc
  unfold Group.cast
  rw [describe_ok hord hcat hop (apart_go hcat _ op) _ ht ⟨hok, hvg⟩]
  show (if _ then _ else _) = _
  rw [if_neg (write_ne (bad := vague op) (calls_outside hcat _) ⟨hok, hvg⟩)]
  rfl

mutual
/-- The types that can be read (C55) can be read with the names that this group gives. -/
theorem legible_cast {G : Group} {cat : List (Bytes × Ty)} (hc : TypesOf G.obj cat) {op : Bool} (hop : ∀ p ∈ cat, ¬ p.2.Has (vague op))
    {ord : List Nat → List NamedType → List NamedType} (hord : Iteration ord) : ∀ (d : DT) (t : Ty), Legible (fun _ => .ok ()) d →
    d.ty = some t → t.Ok → ¬ t.Has (vague op) → Legible (G.cast ord) d
  | .fixed .., _, _, _, _, _ => trivial
  | .float .., _, _, _, _, _ => trivial
  | .time .., _, _, _, _, _ => trivial
  | .str .., _, _, _, _, _ => trivial
  | .ref .., _, _, _, _, _ => trivial
  | .enum .., _, _, _, _, _ => trivial
  | .opaque l tag, t, _, ht, hok, hvg => cast_ok hc hop hord ht hok hvg
  | .compound l ms ts, t, hl, ht, hok, hvg => by
    have h0 := cast_ok hc hop hord ht hok hvg
    rw [DT.ty] at ht
    split at ht
    · rw [Option.map_eq_some_iff] at ht
      obtain ⟨us, hu, rfl⟩ := ht
      rw [Ty.Ok] at hok
      rw [Ty.Has, not_or] at hvg
      exact ⟨h0, hl.2.1, hl.2.2.1, hl.2.2.2.1, legible_casts hc hop hord ts us hl.2.2.2.2 hu hok.2.2.2 hvg.2⟩
    · cases ht
  | .vlen l true e, _, _, _, _, _ => trivial
  | .vlen l false e, t, hl, ht, hok, hvg => by
    have h0 := cast_ok hc hop hord ht hok hvg
    rw [DT.ty, Option.map_eq_some_iff] at ht
    obtain ⟨u, hu, rfl⟩ := ht
    rw [Ty.Ok] at hok
    rw [Ty.Has, not_or] at hvg
    exact ⟨h0, hl.2.1, legible_cast hc hop hord e u hl.2.2 hu hok hvg.2⟩
  | .array l ds e, t, hl, ht, hok, hvg => by
    rw [DT.ty, Option.map_eq_some_iff] at ht
    obtain ⟨u, hu, rfl⟩ := ht
    rw [Ty.Ok] at hok
    rw [Ty.Has, not_or] at hvg
    exact legible_cast hc hop hord e u hl hu hok.2 hvg.2
theorem legible_casts {G : Group} {cat : List (Bytes × Ty)} (hc : TypesOf G.obj cat) {op : Bool} (hop : ∀ p ∈ cat, ¬ p.2.Has (vague op))
    {ord : List Nat → List NamedType → List NamedType} (hord : Iteration ord) : ∀ (ds : List DT) (ts : List Ty),
    Legible.LegibleAll (fun _ => .ok ()) ds → tys ds = some ts → Ty.OkAll ts → ¬ Ty.HasAny (vague op) ts →
    Legible.LegibleAll (G.cast ord) ds
  | [], _, _, _, _, _ => trivial
  | d :: ds, ts, hl, ht, hok, hvg => by
    rw [tys] at ht
    split at ht
    · next x xs h1 h2 =>
      cases ht
      rw [Ty.OkAll] at hok
      rw [Ty.HasAny, not_or] at hvg
      exact ⟨legible_cast hc hop hord d x hl.1 h1 hok.1 hvg.1, legible_casts hc hop hord ds xs hl.2 h2 hok.2 hvg.2⟩
    · cases ht
end

/-- A type of netCDF-4 that Go can tell from the others. -/
def Clear (op : Bool) (d : DT) : Prop := ∃ t, d.ty = some t ∧ t.Ok ∧ ¬ t.Has (vague op)

/-- C57: with the names that the group gives to types, values, dimensions and attributes of a variable
are those of C56. -/
theorem C57_values_partial (file : Bytes) (o : Obj) (hf : file.length < 2 ^ 63) (h : FileHolds file o)
    (names : List Bytes) (path : Bytes) (hp : PathOf names path) (habs : path.head? = some 47) (g v : Obj) (n : Bytes)
    (hg : follow o names = some g) (hv : g.kids.find? (fun k => k.info.name == n) = some v) (hvar : IsVariable v)
    (cat : List (Bytes × Ty)) (hc : TypesOf g cat) (op : Bool) (hop : ∀ p ∈ cat, ¬ p.2.Has (vague op))
    (dims : List Nat) (dt : DT) (cell : List Nat → Bytes) (pat : Bytes) (val : TVal)
    (hd : v.info.dims = some dims) (hdt : v.info.dt = some dt) (hstored : FlatVar file v.info dt dims cell pat)
    (hs : Shown (heapLookup file) dt dims (rowMajor dims cell) val) (hl : Legible (fun _ => .ok ()) dt) (hcl : Clear op dt)
    (av : Attr → TVal) (scales : List Obj) (pre post : List Attr) (a : Attr)
    (hsplit : v.info.attrs = pre ++ a :: post) (hname : a.name = ascii "DIMENSION_LIST")
    (hrest : ∀ x ∈ pre ++ post, x.name ≠ ascii "DIMENSION_LIST") (hdata : a.data ≠ .none) (hsc : scales ≠ [])
    (hin : ∀ k ∈ scales, Within o k ∧ k.info.name ≠ [])
    (hav : av a = .slice (.slice (.num .u64)) (scales.map fun k => .slice (.num .u64) [.num .u64 k.info.addr]))
    (ha : AttrsShown (fun _ => .ok ()) (heapLookup file) av v.info) (hacl : ∀ a ∈ v.info.attrs, Clear op a.dt)
    (h1 : ∀ a ∈ v.info.attrs, ∀ n x, av a ≠ .compound [n] [x]) (hn : (v.info.attrs.map (·.name)).Nodup) :
    ∃ o' G, OpensTo file o' ∧ (rootGroup o').getGroup path = .ok G ∧
      ∀ ord, Iteration ord → ∀ (inflate : Bytes → Res Bytes) (fuel : Nat),
        (G.getVariableT (G.cast ord) ⟨inflate, fuel, file⟩ [] n).2 =
          .ok ⟨val, scales.map fun k => k.info.name, shownAttrs av v.info⟩ := by
  have hG := C39_absolute (rootGroup o) path names hp habs
  rw [lookup, show (rootGroup o).root = o from rfl, hg] at hG
  refine ⟨o, _, file_ok hf h, hG, fun ord hord inflate fuel => ?_⟩
  obtain ⟨t, ht, hok, hvg⟩ := hcl
  have hl' := legible_cast (G := ⟨o, g, [47] ++ names.flatMap (· ++ [47])⟩) hc hop hord dt t hl ht hok hvg
  have ha' : AttrsShown (Group.cast ⟨o, g, [47] ++ names.flatMap (· ++ [47])⟩ ord) (heapLookup file) av v.info := by
    refine ⟨ha.1, fun x hx => ⟨(ha.2 x hx).1, ?_⟩⟩
    obtain ⟨u, hu, hok', hvg'⟩ := hacl x hx
    exact legible_cast (G := ⟨o, g, [47] ++ names.flatMap (· ++ [47])⟩) hc hop hord x.dt u (ha.2 x hx).2 hu hok' hvg'
  obtain ⟨o', G', e1, e2, e3⟩ := C56_flat_partial file o hf h names path hp habs g v n hg hv hvar dims dt cell pat val hd hdt hstored hs hl' av
    (scales.map fun k => k.info.name) (.listed pre post a scales hsplit hname hrest hdata hsc hin hav) ha' h1 hn
  have := OpensTo.unique e1 (file_ok hf h)
  subst this
  rw [hG] at e2
  cases e2
  exact e3 inflate fuel

end Verif.H5
