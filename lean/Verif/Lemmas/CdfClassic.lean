import Verif.Spec.CdfFormat
import Verif.Lemmas.CdfTrip
/-!
What the reader makes of the header of a file in the classic format, whoever wrote it.
-/
namespace Verif.Cdf.Classic

/-- The type of the model. -/
def Ty.nc : Ty → NcType
  | some k => kindType k
  | none => .char

theorem nc_code (t : Ty) : t.nc.code = t.code := by
  cases t with
  | none => rfl
  | some k => cases k <;> rfl

theorem nc_size (t : Ty) : t.nc.size = t.size := by
  cases t with
  | none => rfl
  | some k => cases k <;> rfl

theorem nc_kind (t : Ty) : t.nc.kind = t := by
  cases t with
  | none => rfl
  | some k => cases k <;> rfl

theorem nc_isV5 (t : Ty) : t.nc.isV5 = t.isNew := by
  cases t with
  | none => rfl
  | some k => cases k <;> rfl

theorem size_kind (k : Kind) : Ty.size (some k) = k.size := by cases k <;> rfl

theorem number_eq {version : Nat} (hv : version = 1 ∨ version = 2 ∨ version = 5) (n : Nat) :
    number version n = encNum version n := by
  rcases hv with rfl | rfl | rfl <;> rfl

theorem limit_num {f : File} (hv : f.version = 1 ∨ f.version = 2 ∨ f.version = 5) {n : Nat}
    (h : n < f.limit) : NumOK f.version n ∧ n < 2 ^ 63 := by
  unfold File.limit at h
  unfold NumOK
  split at h
  · rename_i h5; rw [if_neg (by omega)]; omega
  · rename_i h5; rw [if_pos (by omega)]; omega

theorem name_eq {version : Nat} (hv : version = 1 ∨ version = 2 ∨ version = 5) (s : Bytes) :
    name version s = encName version s := by
  simp [name, encName, number_eq hv, padded, padding]

/-! ### Attributes -/

/-- The value in the form in which the writer would have been given it. -/
def Value.raw : Value → GoVal
  | .text s => .str s
  | .numbers k bits => .slice (.num k) (bits.map (.num k))

/-- A map with the attributes. -/
def asMap (as : List Att) : OMap GoVal :=
  { keys := as.map (·.name), values := as.map (fun a => (a.name, a.value.raw)),
    visible := as.map (·.name), hidden := [] }

theorem raw_type (v : Value) : attrType v.raw = v.ty.nc := by cases v <;> rfl

theorem raw_count (v : Value) : attrCount v.raw = v.count := by
  cases v <;> simp [Value.raw, attrCount, Value.count]

theorem raw_bytes (v : Value) : attrBytes v.raw = v.bytes := by
  cases v with
  | text s => rfl
  | numbers k bits => simp [Value.raw, attrBytes, Value.bytes, List.flatMap_map, bitsOf, size_kind]

theorem raw_unwrap (v : Value) : unwrapOne v.raw = v.go := by
  cases v with
  | text s => rfl
  | numbers k bits =>
    cases bits with
    | nil => rfl
    | cons b bs => cases bs <;> rfl

theorem encEntry_eq {version : Nat} (hv : version = 1 ∨ version = 2 ∨ version = 5) (a : Att) :
    encEntry version a.name a.value.raw = a.bytes version := by
  simp only [encEntry, encAttr, Att.bytes, raw_type, raw_count, raw_bytes, nc_code, name_eq hv,
    number_eq hv, padded, padding]

theorem pairs_get (as : List Att) (g : Value → GoVal) (hn : (as.map (·.name)).Nodup) {a : Att}
    (ha : a ∈ as) : GoMap.get (as.map (fun a => (a.name, g a.value))) a.name = some (g a.value) := by
  induction as with
  | nil => simp at ha
  | cons x as ih =>
    simp only [List.map_cons, List.nodup_cons] at hn
    simp only [List.map_cons, GoMap.get_cons]
    rcases List.mem_cons.mp ha with rfl | ha
    · simp
    · have : a.name ≠ x.name := by
        intro e
        exact hn.1 (by rw [← e]; exact List.mem_map_of_mem (f := fun x : Att => x.name) ha)
      simp [this, ih hn.2 ha]

theorem entries_asMap {as : List Att} (hn : (as.map (·.name)).Nodup) :
    entries (asMap as) = as.map (fun a => (a.name, a.value.raw)) := by
  simp only [entries, asMap, OMap.visibleKeys, OMap.get, List.map_map]
  apply List.map_congr_left
  intro a ha
  simp only [Function.comp_apply]
  rw [pairs_get as Value.raw hn ha]; rfl

theorem encAttrs_asMap {version : Nat} (hv : version = 1 ∨ version = 2 ∨ version = 5)
    {as : List Att} (hn : (as.map (·.name)).Nodup) :
    encAttrs version (some (asMap as)) = list version 12 as (Att.bytes version) := by
  unfold encAttrs list
  have hl : (asMap as).visibleKeys.length = as.length := by simp [asMap, OMap.visibleKeys]
  simp only [hl, number_eq hv, entries_asMap hn, List.flatMap_map, encEntry_eq hv, fieldAttribute]

theorem attrsOK_asMap {f : File} (hv : f.version = 1 ∨ f.version = 2 ∨ f.version = 5)
    {as : List Att} (h : AttsOK f as) : AttrsOK f.version (some (asMap as)) := by
  intro om ho
  simp only [Option.some.injEq] at ho
  subst ho
  refine ⟨h.distinct, (limit_num hv (by simpa [asMap, OMap.visibleKeys] using h.count)).1, ?_⟩
  intro k hk
  simp only [asMap, OMap.visibleKeys, List.mem_map] at hk
  obtain ⟨a, ha, rfl⟩ := hk
  have hn := h.names a ha
  refine ⟨a.value.raw, pairs_get as Value.raw h.distinct ha, hn.nul, (limit_num hv hn.len).1,
    (limit_num hv hn.len).2, ?_, ?_, ?_⟩
  · have hb := h.bits a ha
    cases hval : a.value with
    | text s => simp [Value.raw, AttrVal]
    | numbers k bits =>
      simp only [Value.raw, AttrVal]
      intro x hx
      obtain ⟨b, hb', rfl⟩ := List.mem_map.mp hx
      refine ⟨b, rfl, ?_⟩
      have := hb k bits hval b hb'
      rwa [size_kind] at this
  · rw [raw_count]; exact (limit_num hv (h.counts a ha)).1
  · rw [raw_type, nc_isV5]
    intro h5
    have := h.new a ha h5
    omega

/-- What the reader has for a list of attributes. -/
def attsBack (as : List Att) : OMap GoVal :=
  { keys := as.map (·.name), values := as.map (fun a => (a.name, a.value.go)),
    visible := as.map (·.name), hidden := [] }

theorem readBack_asMap {as : List Att} (hn : (as.map (·.name)).Nodup) :
    readBack (some (asMap as)) = attsBack as := by
  simp only [readBack, entries_asMap hn, attsBack, List.map_map, Function.comp_def, raw_unwrap]
  rfl

theorem reads_atts {ma : Nat} {f : File} (hv : f.version = 1 ∨ f.version = 2 ∨ f.version = 5)
    {as : List Att} (h : AttsOK f as)
    (hma : (list f.version 12 as (Att.bytes f.version)).length ≤ ma) :
    Reads (getAttrList ma f.version) (list f.version 12 as (Att.bytes f.version)) (attsBack as) := by
  rw [← encAttrs_asMap hv h.distinct] at hma ⊢
  rw [← readBack_asMap h.distinct]
  exact reads_getAttrList (attrsOK_asMap hv h) hma

theorem attsBack_get {as : List Att} (hn : (as.map (·.name)).Nodup) {a : Att} (ha : a ∈ as) :
    (attsBack as).get a.name = some a.value.go := pairs_get as Value.go hn ha

theorem attsBack_none {as : List Att} {k : Bytes} (hk : k ∉ as.map (·.name)) :
    (attsBack as).get k = none := by
  simp only [attsBack, OMap.get]
  rw [GoMap.get_eq_none]
  simpa [GoMap.keys, Function.comp_def] using hk

/-! ### Variables -/

/-- The dimension of the model. -/
def Dimension.dim (d : Dimension) : Dim := ⟨d.name, d.len⟩

/-- The number that the reader takes for 32 or 64 bits. -/
def signed (version n : Nat) : Nat := if version < 5 then signExt32 n else n

theorem reads_readNumber_any {version n : Nat} (hv : version = 1 ∨ version = 2 ∨ version = 5)
    (h : n < if version = 5 then 2 ^ 64 else 2 ^ 32) :
    Reads (readNumber version) (number version n) (signed version n) := by
  unfold readNumber number signed
  by_cases h5 : version = 5
  · subst h5
    rw [if_pos rfl] at h
    simpa using reads_read64 h
  · rw [if_neg h5] at h
    rw [if_pos (by omega), if_neg h5, if_pos (by omega)]
    exact Reads.bind_pure (f := signExt32) (reads_read32 h)

theorem signed_small {f : File} {n : Nat}
    (h : n < f.limit) : signed f.version n = n := by
  unfold signed signExt32
  unfold File.limit at h
  split
  · rw [if_neg (by omega)] at h; rw [if_pos h]
  · rfl

/-- What the reader keeps of a variable. -/
def File.keep (f : File) (v : Var) : VarRec :=
  ⟨v.name, v.dims, attsBack v.atts, v.ty.code,
    w64 (if f.isRecord v then f.slab v else signed f.version v.vsize : Nat), v.begin_⟩

theorem len_dim (f : File) {id : Nat} (h : id < f.dims.length) :
    ∃ d, (f.dims.map Dimension.dim)[id]? = some d ∧ d.length = f.len id ∧ d.name = f.dimName id := by
  refine ⟨f.dims[id].dim, ?_, ?_, ?_⟩
  · rw [List.getElem?_map, List.getElem?_eq_getElem h]; rfl
  · simp [File.len, h, Dimension.dim]
  · simp [File.dimName, h, Dimension.dim]

theorem hasUnlimited_eq {f : File} {v : Var} (h : ∀ id ∈ v.dims, id < f.dims.length) :
    hasUnlimited (f.dims.map Dimension.dim) v.dims = .ok (f.isRecord v) := by
  unfold File.isRecord
  cases hd : v.dims with
  | nil => rfl
  | cons id ids =>
    obtain ⟨d, h1, h2, _⟩ := len_dim f (h id (by rw [hd]; simp))
    simp only [hasUnlimited, h1, h2]

theorem mulDims_eq {f : File} (ids : List Nat) (n : Nat) (hn : n < 2 ^ 64)
    (h : ∀ id ∈ ids, id < f.dims.length) :
    mulDims (f.dims.map Dimension.dim) ids n = .ok (n * prod (ids.map f.len) % 2 ^ 64) := by
  induction ids generalizing n with
  | nil => simp only [mulDims, List.map_nil, prod, Nat.mul_one]; rw [Nat.mod_eq_of_lt hn]
  | cons id ids ih =>
    obtain ⟨d, h1, h2, _⟩ := len_dim f (h id (by simp))
    simp only [mulDims, h1, h2, List.map_cons, prod]
    rw [ih _ (Nat.mod_lt _ (by decide)) (fun x hx => h x (by simp [hx]))]
    congr 1
    rw [Nat.mod_mul_mod, Nat.mul_assoc]

theorem slab_le {f : File} {v : Var} (h : VarOK f v) (hv : f.version = 1 ∨ f.version = 2 ∨ f.version = 5)
    (hr : f.isRecord v = true) : f.slab v < 2 ^ 63 := by
  obtain ⟨h1, h2⟩ := h.record hr
  have := (limit_num hv h2).2
  unfold up4 at h1
  omega

theorem Ty.size_pos (t : Ty) : 0 < t.size := by
  rw [← nc_size]; exact NcType.size_pos _

theorem usedSize_eq {f : File} {v : Var} (h : VarOK f v)
    (hv : f.version = 1 ∨ f.version = 2 ∨ f.version = 5) :
    usedSize (f.dims.map Dimension.dim) v.dims v.ty.code (signed f.version v.vsize)
      = .ok (if f.isRecord v then f.slab v else signed f.version v.vsize,
          if f.isRecord v then v.vsize else 0) := by
  unfold usedSize
  rw [hasUnlimited_eq h.ids, Res.bind_ok]
  cases hr : f.isRecord v with
  | false => simp
  | true =>
    have hsl := slab_le h hv hr
    have he : f.slab v = prod (v.dims.tail.map f.len) * v.ty.size := by simp [File.slab, hr]
    have hp : prod (v.dims.tail.map f.len) ≤ f.slab v := by
      rw [he]; exact Nat.le_mul_of_pos_right _ v.ty.size_pos
    have ht : NcType.ofCode v.ty.code = some v.ty.nc := by rw [← nc_code, ofCode_code]
    simp only [if_true]
    rw [mulDims_eq _ _ (by decide) (fun id hid => h.ids id (List.mem_of_mem_tail hid)), Res.bind_ok]
    simp only [ht, nc_size, Nat.one_mul]
    rw [Nat.mod_eq_of_lt (a := prod _) (by omega), ← he, Nat.mod_eq_of_lt (by omega),
      signed_small (h.record hr).2]

theorem reads_var {ma : Nat} {f : File} (hf : f.OK) {v : Var} (h : VarOK f v)
    (hma : (v.bytes f.version).length ≤ ma) :
    Reads (getVar ma f.version (f.dims.map Dimension.dim)) (v.bytes f.version)
      (f.keep v, if f.isRecord v then v.vsize else 0) := by
  have hv := hf.version
  simp only [Var.bytes, List.length_append] at hma
  unfold getVar Var.bytes
  rw [name_eq hv, number_eq hv v.dims.length] at *
  refine Reads.bind (reads_readName (limit_num hv h.name.len).1 (limit_num hv h.name.len).2
    (by omega) h.name.nul) ?_
  refine Reads.bind (reads_readNumber (NumOK_small (by have := h.rank; omega))) ?_
  refine Reads.bind_nil (reads_assert (by simpa using h.rank)) ?_
  have hr := reads_repeat (p := readNumber f.version)
    (encs := v.dims.map (fun n => (number f.version n, n))) (by
      intro y hy
      obtain ⟨n, hn, rfl⟩ := List.mem_map.mp hy
      simp only [number_eq hv]
      have := h.ids n hn
      have := hf.ndims
      exact reads_readNumber (NumOK_small (by omega)))
  simp only [List.length_map, List.flatMap_map, List.map_map] at hr
  have e1 : v.dims.map ((fun x => x.2) ∘ fun n => (number f.version n, n)) = v.dims := by
    simp [Function.comp_def]
  rw [e1] at hr
  refine Reads.bind hr ?_
  refine Reads.bind (reads_atts hv h.atts (by omega)) ?_
  refine Reads.bind (reads_read32 (by rw [← nc_code]; exact NcType.code_lt _)) ?_
  refine Reads.bind (reads_readNumber_any hv h.vsize) ?_
  refine Reads.bind_nil (reads_lift (usedSize_eq h hv)) ?_
  have ho : Reads (readOffset f.version)
      (if f.version = 1 then beEnc 4 v.begin_ else beEnc 8 v.begin_) v.begin_ := by
    have hb := h.begin_
    unfold readOffset
    by_cases h1 : f.version = 1
    · rw [if_pos h1] at hb
      rw [if_pos h1, if_pos h1]
      exact reads_read32 hb
    · rw [if_neg h1] at hb
      rw [if_neg h1, if_neg h1, if_pos (by omega)]
      exact reads_read64 (by omega)
  exact Reads.bind_pure (f := fun off => ((⟨v.name, v.dims, attsBack v.atts, v.ty.code,
    w64 (if f.isRecord v then f.slab v else signed f.version v.vsize : Nat), off⟩ : VarRec),
    if f.isRecord v then v.vsize else 0)) ho

/-- The sum of the sizes of the record variables. -/
def File.sizes (f : File) (vs : List Var) : Nat := ((vs.filter f.isRecord).map (·.vsize)).sum

theorem sizes_cons (f : File) (v : Var) (vs : List Var) :
    f.sizes (v :: vs) = (if f.isRecord v then v.vsize else 0) + f.sizes vs := by
  unfold File.sizes
  cases h : f.isRecord v <;> simp [h]

theorem reads_vars {ma : Nat} {f : File} (hf : f.OK) (vs : List Var) (acc : VarsAcc)
    (h : ∀ v ∈ vs, VarOK f v) (hma : (vs.flatMap (Var.bytes f.version)).length ≤ ma)
    (hn : (vs.map (·.name)).Nodup) (hd : ∀ v ∈ vs, acc.vars.get v.name = none)
    (hr : acc.recSize < 2 ^ 64) :
    Reads (readVars ma f.version (f.dims.map Dimension.dim) vs.length acc)
      (vs.flatMap (Var.bytes f.version))
      ⟨addAll acc.vars (vs.map f.keep), (acc.recSize + f.sizes vs) % 2 ^ 64,
        acc.recVars ++ (vs.filter f.isRecord).map f.keep⟩ := by
  induction vs generalizing acc with
  | nil =>
    have : (acc.recSize + f.sizes []) % 2 ^ 64 = acc.recSize := by
      simp only [File.sizes, List.filter_nil, List.map_nil, List.sum_nil, Nat.add_zero]
      exact Nat.mod_eq_of_lt hr
    rw [this]
    simp only [List.filter_nil, List.map_nil, List.append_nil]
    exact Reads.pure _
  | cons v vs ih =>
    have hx := h v (by simp)
    simp only [List.flatMap_cons, List.length_append] at hma ⊢
    simp only [List.length_cons, readVars]
    refine Reads.bind (reads_var hf hx (by omega)) ?_
    simp only
    have hnone : acc.vars.get (f.keep v).name = none := hd v (by simp)
    rw [hnone]
    simp only [Option.isSome_none, Bool.false_eq_true, if_false]
    have hu : hasUnlimited (f.dims.map Dimension.dim) (f.keep v).dimids = .ok (f.isRecord v) :=
      hasUnlimited_eq hx.ids
    refine Reads.bind_nil (reads_lift hu) ?_
    simp only [List.map_cons, List.nodup_cons] at hn
    have := ih ⟨acc.vars.add (f.keep v).name (f.keep v),
      (acc.recSize + if f.isRecord v then v.vsize else 0) % 2 ^ 64,
      if f.isRecord v then acc.recVars ++ [f.keep v] else acc.recVars⟩
      (fun y hy => h y (by simp [hy])) (by omega) hn.2 (by
        intro y hy
        have h1 := hd y (by simp [hy])
        have h2 : y.name ≠ v.name := by
          intro e
          exact hn.1 (by rw [← e]; exact List.mem_map_of_mem (f := fun x => x.name) hy)
        simp only [OMap.get, OMap.add] at h1 ⊢
        split <;> simp [GoMap.get_set, File.keep, h2, h1]) (Nat.mod_lt _ (by decide))
    simp only at this
    have e1 : ((acc.recSize + if f.isRecord v then v.vsize else 0) % 2 ^ 64 + f.sizes vs) % 2 ^ 64
        = (acc.recSize + f.sizes (v :: vs)) % 2 ^ 64 := by
      rw [sizes_cons]; omega
    have e2 : (if f.isRecord v then acc.recVars ++ [f.keep v] else acc.recVars) ++
        (vs.filter f.isRecord).map f.keep = acc.recVars ++ ((v :: vs).filter f.isRecord).map f.keep := by
      cases hr : f.isRecord v <;> simp [hr]
    rw [e1, e2] at this
    exact this

/-! ### Records -/

theorem finishRecs_eq {f : File} (hf : f.OK) :
    ∃ r s, finishRecs ⟨addAll OMap.empty (f.vars.map f.keep), (0 + f.sizes f.vars) % 2 ^ 64,
        [] ++ (f.vars.filter f.isRecord).map f.keep⟩ = .ok (r, s) ∧
      (s = true → ∃ v, f.vars.filter f.isRecord = [v]) ∧
      (s = false → f.vars.filter f.isRecord ≠ [] → r = f.recsize) := by
  have hok : ∀ v ∈ f.vars.filter f.isRecord, v.vsize = up4 (f.slab v) ∧ v.vsize < 2 ^ 63 := by
    intro v hv
    obtain ⟨h1, h2⟩ := List.mem_filter.mp hv
    have := (hf.vars v h1).record h2
    exact ⟨this.1, (limit_num hf.version this.2).2⟩
  have hrs := hf.recsize
  unfold finishRecs File.recsize File.sizes at *
  simp only [List.nil_append, Nat.zero_add]
  match hl : f.vars.filter f.isRecord with
  | [] => exact ⟨0, false, by simp [hl], by simp, by simp [hl]⟩
  | [v] =>
    rw [hl] at hok
    obtain ⟨h1, h2⟩ := hok v (by simp)
    simp only [List.map_cons, List.map_nil, List.sum_cons, List.sum_nil, Nat.add_zero]
    have hc : (f.keep v).vType = v.ty.nc.code := (nc_code _).symm
    rw [hc, ofCode_code]
    have hr4 : f.slab v % 4 = 0 → v.vsize % 2 ^ 64 = f.slab v := by
      intro h4; unfold up4 at h1; omega
    have hs4 : v.ty.size % 4 = 0 → f.slab v % 4 = 0 := by
      intro h4; unfold File.slab; rw [Nat.mul_mod, h4]; simp
    cases hty : v.ty with
    | none => exact ⟨_, true, rfl, fun _ => ⟨v, rfl⟩, by simp⟩
    | some k =>
      cases k
      case i8 => exact ⟨_, true, rfl, fun _ => ⟨v, rfl⟩, by simp⟩
      case u8 => exact ⟨_, true, rfl, fun _ => ⟨v, rfl⟩, by simp⟩
      case i16 => exact ⟨_, true, rfl, fun _ => ⟨v, rfl⟩, by simp⟩
      case u16 => exact ⟨_, true, rfl, fun _ => ⟨v, rfl⟩, by simp⟩
      all_goals
        refine ⟨_, false, rfl, by simp, fun _ _ => ?_⟩
        exact hr4 (hs4 (by rw [hty]; rfl))
  | v :: w :: vs =>
    rw [hl] at hok hrs
    have hsum : ((v :: w :: vs).map (·.vsize)).sum
        = ((v :: w :: vs).map (fun v => up4 (f.slab v))).sum := by
      congr 1
      exact List.map_congr_left (fun x hx => (hok x hx).1)
    have h4 : ∀ l : List Var, (l.map (fun v => up4 (f.slab v))).sum % 4 = 0 := by
      intro l
      induction l with
      | nil => rfl
      | cons x l ih =>
        simp only [List.map_cons, List.sum_cons]
        have : up4 (f.slab x) % 4 = 0 := by unfold up4; omega
        omega
    have h4' := h4 (v :: w :: vs)
    simp only at hrs
    refine ⟨_, false, rfl, by simp, fun _ _ => ?_⟩
    simp only
    rw [hsum]
    generalize ((v :: w :: vs).map (fun v => up4 (f.slab v))).sum = S at *
    rw [Nat.mod_eq_of_lt (by omega)]
    unfold roundInt32
    omega

/-- The handle. -/
def File.hdr (f : File) (r : Nat) (s : Bool) : Hdr :=
  ⟨f.version, f.numrecs, r, f.dims.map Dimension.dim, (attsBack f.atts).hide ncpKey,
    addAll OMap.empty (f.vars.map f.keep), s⟩

theorem list_dims {version : Nat} (hv : version = 1 ∨ version = 2 ∨ version = 5)
    (ds : List Dimension) :
    list version 10 ds (Dimension.bytes version) = encDims version (ds.map Dimension.dim) := by
  unfold list encDims
  have : Dimension.bytes version = fun d => encDim version d.dim := funext fun d => by
    simp [Dimension.bytes, encDim, Dimension.dim, name_eq hv, number_eq hv]
  simp only [List.length_map, number_eq hv, fieldDimension, List.flatMap_map, this]

theorem reads_vars_tag {version : Nat} (hv : version = 1 ∨ version = 2 ∨ version = 5)
    (vs : List Var) (hn : NumOK version vs.length) :
    ∃ e, list version 11 vs (Var.bytes version) = e ++ vs.flatMap (Var.bytes version) ∧
      Reads (getNElems version fieldVariable) e vs.length := by
  unfold list
  split
  · rename_i hz
    have hz' : vs = [] := List.length_eq_zero_iff.mp hz
    subst hz'
    refine ⟨_, (List.append_nil _).symm, ?_⟩
    rw [number_eq hv]
    exact reads_getNElems_absent
  · refine ⟨beEnc 4 11 ++ number version vs.length, by simp, ?_⟩
    rw [number_eq hv]
    exact reads_getNElems (by decide) (by decide) hn

theorem reads_file {ma : Nat} {f : File} (hf : f.OK) (hma : f.header.length ≤ ma) :
    ∃ r s, Reads (readHeader ma) f.header (f.hdr r s) ∧
      (s = true → ∃ v, f.vars.filter f.isRecord = [v]) ∧
      (s = false → f.vars.filter f.isRecord ≠ [] → r = f.recsize) := by
  obtain ⟨r, s, hfin, h1, h2⟩ := finishRecs_eq hf
  refine ⟨r, s, ?_, h1, h2⟩
  have hv := hf.version
  simp only [File.header, List.length_append] at hma
  obtain ⟨e, he, hre⟩ := reads_vars_tag hv f.vars (limit_num hv hf.nvars).1
  rw [list_dims hv, he] at hma
  simp only [List.length_append] at hma
  unfold File.header readHeader
  rw [list_dims hv, he]
  refine Reads.bind (reads_rdN' _ (by simp [ascii])) ?_
  have ht : (ascii "CDF" ++ beEnc 1 f.version).take 3 = ascii "CDF" := by
    rw [List.take_left' (by decide)]
  have hvb : ((ascii "CDF" ++ beEnc 1 f.version).getD 3 0).toNat = f.version := by
    rcases hv with h' | h' | h' <;> rw [h'] <;> decide
  rw [ht, hvb]
  simp only [ne_eq, not_true, if_false]
  rw [if_pos hv, number_eq hv]
  refine Reads.bind (reads_readNumber (limit_num hv hf.numrecs).1) ?_
  refine Reads.bind_nil (reads_assert (by
    have := (limit_num hv hf.numrecs).2
    simp; omega)) ?_
  obtain ⟨e1, e2, hee, hr1, hr2⟩ := reads_dims (ma := ma) (version := f.version)
    (ds := f.dims.map Dimension.dim) (by
      intro d hd
      obtain ⟨x, hx, rfl⟩ := List.mem_map.mp hd
      obtain ⟨hn, hlen⟩ := hf.dims x hx
      exact ⟨hn.nul, (limit_num hv hn.len).1, (limit_num hv hn.len).2, (limit_num hv hlen).1⟩)
    (NumOK_small (by have := hf.ndims; simp; omega)) (by omega)
  rw [hee, List.append_assoc]
  unfold readLists
  refine Reads.bind hr1 ?_
  refine Reads.bind_nil (reads_assert (by have := hf.ndims; simpa using this)) ?_
  refine Reads.bind hr2 ?_
  refine Reads.bind (reads_atts hv hf.atts (by omega)) ?_
  refine Reads.bind hre ?_
  have hrv := reads_vars (ma := ma) hf f.vars ⟨OMap.empty, 0, []⟩ hf.vars (by omega) hf.names
    (fun _ _ => rfl) (by decide)
  rw [← List.append_nil (f.vars.flatMap (Var.bytes f.version))]
  refine Reads.bind hrv ?_
  refine Reads.bind_nil (reads_lift hfin) ?_
  exact Reads.pure _

end Verif.Cdf.Classic
