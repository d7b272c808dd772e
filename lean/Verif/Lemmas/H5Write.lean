import Verif.Lemmas.H5Msgs
import Verif.Spec.H5Written
/-!
Writing variables and groups, and what the reader makes of them.
-/
namespace Verif.H5

/-! ### The list of dimensions -/

/-- The value of `DIMENSION_LIST`. -/
def dimRefs (da : GoMap Nat) (dims : List Bytes) : GoVal :=
  .slice (.slice (.num .u64)) (dims.map fun d => .slice (.num .u64) [.num .u64 ((da.get d).getD 0 % 2 ^ 64)])

/-- The heap has a reference to this dimension. -/
def RefReady (H : Heap) (da : GoMap Nat) (d : Bytes) : Prop :=
  ∃ a i, da.get d = some a ∧ H.indices.get (dimRefKey d) = some i ∧ H.objAt i (leEnc 8 a)

theorem times_refs (heap : HeapFn) (H : Heap) (hh : HeapHas heap H) (da : GoMap Nat)
    (ds : List Bytes) (h : ∀ d ∈ ds, RefReady H da d) (q : Nat) :
    times (allocSeq heap (.ref 8)) ds.length
      ⟨q, ds.flatMap fun d => descriptor 1 H.addr ((H.indices.get (dimRefKey d)).getD 0)⟩ =
      .ok (ds.map fun d => .slice (.num .u64) [.num .u64 ((da.get d).getD 0 % 2 ^ 64)],
        ⟨q + 16 * ds.length, []⟩) := by
  induction ds generalizing q with
  | nil => rfl
  | cons d ds ih =>
    obtain ⟨a, i, h1, h3, h4⟩ := h d (by simp)
    have hlt := Heap.objAt_lt h4
    have hf := hh.few
    have hlook := hh.look i _ h4
    rw [if_neg (by intro h; have := congrArg List.length h; simp at this)] at hlook
    have hleaf : allocLeaf heap (.ref 8) = allocNum .u64 false := rfl
    have hnum := allocNum_ok .u64 (.num .u64 (a % 2 ^ 64)) ⟨_, rfl, Nat.mod_lt _ (by decide)⟩ 0 []
    rw [List.append_nil] at hnum
    have hstep : ∀ rest, allocSeq heap (.ref 8) ⟨q, descriptor 1 H.addr i ++ rest⟩ =
        .ok (.slice (.num .u64) [.num .u64 (a % 2 ^ 64)], ⟨q + 16, rest⟩) := by
      intro rest
      simp only [allocSeq, P.bind_apply, readDescriptor_mod _ _ _ q _ (show 1 < 2 ^ 32 by decide)
        (show i < 2 ^ 32 by omega), Nat.one_ne_zero, ↓reduceIte, hlook, P.lift, hleaf,
        onBytes, times]
      have : leEnc 8 a = numLE (.num .u64 (a % 2 ^ 64)) := leEnc8_mod a
      rw [this, hnum]
      rfl
    simp only [List.length_cons, List.flatMap_cons, List.map_cons, times, P.bind_apply, h3, h1,
      Option.getD_some, hstep, ih (fun e he => h e (by simp [he])), P.pure_apply]
    congr 3
    omega

theorem shown_refs (heap : HeapFn) (H : Heap) (hh : HeapHas heap H) (da : GoMap Nat)
    (ds : List Bytes) (h : ∀ d ∈ ds, RefReady H da d) (hne : ds ≠ []) :
    Shown heap (.vlen 16 false (.ref 8)) [ds.length]
      (ds.flatMap fun d => descriptor 1 H.addr ((H.indices.get (dimRefKey d)).getD 0)) (GoVal.lift (dimRefs da ds)) := by
  rw [dimRefs, lift_slice, List.map_map, List.flatMap_def]
  have := shown_rows heap (.vlen 16 false (.ref 8)) [] trivial
    (ds.map (GoVal.lift ∘ fun d => .slice (.num .u64) [.num .u64 ((da.get d).getD 0 % 2 ^ 64)]))
    (ds.map fun d => descriptor 1 H.addr ((H.indices.get (dimRefKey d)).getD 0)) (by simpa using hne) (by
      clear hne
      induction ds with
      | nil => exact .nil
      | cons d ds ih =>
        refine .cons ?_ (ih fun e he => h e (by simp [he]))
        obtain ⟨a, i, h1, h3, h4⟩ := h d (by simp)
        have hlt := Heap.objAt_lt h4
        have hf := hh.few
        have hlook := hh.look i _ h4
        rw [if_neg (by intro h; have := congrArg List.length h; simp at this)] at hlook
        have hm : H.addr % 2 ^ 64 < 2 ^ 64 := Nat.mod_lt _ (by decide)
        simp only [h1, h3, Option.getD_some, descriptor_eq, Function.comp, lift_slice, List.map_cons, List.map_nil, lift_num]
        exact Shown.seq (.ref 8) (H.addr % 2 ^ 64) i 1 (fun _ => leEnc 8 (a % 2 ^ 64)) (fun _ => .num .u64 (a % 2 ^ 64)) []
          (by decide) (by decide) hm (by omega) (by rw [hlook, leEnc8_mod]; simp) (fun _ _ => .ref _ (Nat.mod_lt _ (by decide))))
  rw [List.length_map] at this
  exact this

theorem dimList_attr (heap : HeapFn) (H : Heap) (hh : HeapHas heap H) (da : GoMap Nat)
    (ds : List Bytes) (h : ∀ d ∈ ds, RefReady H da d) (hne : ds ≠ []) (hl : ds.length ≤ 255) :
    (⟨12, buildAttr kDimList ((WTy.vlenSeq .ref).bytes false) (buildDataspace [ds.length])
        (ds.flatMap fun d => descriptor 1 H.addr ((H.indices.get (dimRefKey d)).getD 0))⟩ : Msg).Fits ∧
      ∃ a, AttrHolds heap a (kDimList, dimRefs da ds) ∧
        ∀ i, Plain [⟨12, buildAttr kDimList ((WTy.vlenSeq .ref).bytes false)
          (buildDataspace [ds.length])
          (ds.flatMap fun d => descriptor 1 H.addr ((H.indices.get (dimRefKey d)).getD 0))⟩] i
          { i with attrs := i.attrs ++ [a] } := by
  have hlen : (ds.flatMap fun d =>
      descriptor 1 H.addr ((H.indices.get (dimRefKey d)).getD 0)).length = 16 * ds.length := by
    clear h hne hl
    induction ds with
    | nil => rfl
    | cons d ds ih =>
      simp only [List.flatMap_cons, List.length_append, descriptor_length, ih, List.length_cons]
      omega
  have hpos : 0 < ds.length := List.length_pos_iff.2 hne
  have ht := times_refs heap H hh da ds h 0
  generalize hdata : (ds.flatMap fun d =>
      descriptor 1 H.addr ((H.indices.get (dimRefKey d)).getD 0)) = data at hlen ht ⊢
  have halloc : alloc heap (.vlen 16 false (.ref 8)) [ds.length] ⟨0, data⟩ =
      .ok (dimRefs da ds, ⟨0 + 16 * ds.length, []⟩) := by
    simp only [alloc, allocSeqs, P.bind_apply, ht, if_neg (Nat.pos_iff_ne_zero.1 hpos), P.pure_apply,
      dimRefs, nestTy, leafTy, numKind]
  have hdt : (WTy.vlenSeq .ref).dt = .vlen 16 false (.ref 8) := rfl
  have hd : attrData data (WTy.vlenSeq .ref).dt = .ok (.df data) := by
    rw [hdt]
    simp only [attrData]
    rw [if_pos (by omega)]
  refine ⟨⟨(by decide : 12 < 256), ?_⟩, ⟨kDimList, [ds.length], (WTy.vlenSeq .ref).dt, .df data⟩,
    ⟨rfl, fun _ fill => ?_, fun s hs => by simp [dimRefs] at hs, fun _ => by simp, ?_, .vlenSeq .ref, rfl, trivial, .inr trivial⟩, fun i => ?_⟩
  · have := buildAttr_length kDimList ((WTy.vlenSeq .ref).bytes false) (buildDataspace [ds.length]) data
    rw [buildDataspace_length, hlen] at this
    have e1 : kDimList.length = 14 := by decide
    have e2 : ((WTy.vlenSeq .ref).bytes false).length ≤ 64 := by decide
    simp only [List.length_cons, List.length_nil] at this
    show (buildAttr _ _ _ _).length < 65536
    omega
  · rw [hdt]
    exact attrRaw_exact heap _ _ data _ (by simp [DT.len, prod, hlen]; omega) (by omega) (.inl rfl) _ _
      halloc fill _
  · exact .data data [] (by simp) (by omega) (hdata ▸ shown_refs heap H hh da ds h hne)
  · exact plain_attr kDimList data (.vlenSeq .ref) [ds.length] (.df data) (by decide) (by decide)
      trivial (by decide) (by simp) (by simp; omega) hd i

/-! ### The buffer and the file -/

/-- Behind the superblock, the file starts with what is in the buffer. -/
def Grows (buf file : Bytes) : Prop := 48 ≤ buf.length ∧ buf.drop 48 <+: file.drop 48

theorem Grows.length {buf file : Bytes} (h : Grows buf file) (h2 : 48 < buf.length) :
    buf.length ≤ file.length := by
  have := h.2.length_le
  simp only [List.length_drop] at this
  omega

theorem Grows.mono {buf buf' file : Bytes} (h : Grows buf' file) (hp : buf <+: buf')
    (hb : 48 ≤ buf.length) : Grows buf file :=
  by
  obtain ⟨t, ht⟩ := hp
  refine ⟨hb, List.IsPrefix.trans ⟨t, ?_⟩ h.2⟩
  rw [← ht, List.drop_append_of_le_length hb]

theorem Grows.at {pre b post file : Bytes} (h : Grows (pre ++ b ++ post) file)
    (hp : 48 ≤ pre.length) : At file pre.length b := by
  obtain ⟨-, t, ht⟩ := h
  rw [List.append_assoc, List.drop_append_of_le_length hp] at ht
  refine ⟨post ++ t, ?_⟩
  have e : file.drop pre.length = (file.drop 48).drop (pre.length - 48) := by
    rw [List.drop_drop]
    congr 1
    omega
  rw [e, ← ht]
  have e2 : pre.length - 48 = (pre.drop 48).length := by simp
  simp only [List.append_assoc]
  rw [e2, List.drop_left]

theorem writePadded_prefix (buf b : Bytes) : ∃ p, writePadded buf b = buf ++ b ++ p := ⟨_, rfl⟩

theorem enc_flat_le (ms : List Msg) (hm : ∀ m ∈ ms, m.Fits) :
    (ms.flatMap Msg.enc).length ≤ ms.length * 65539 := by
  induction ms with
  | nil => simp
  | cons m ms ih =>
    have := ih (fun x hx => hm x (by simp [hx]))
    have h1 := (hm m (by simp)).2
    simp only [List.flatMap_cons, List.length_append, Msg.enc_length, List.length_cons, Nat.add_mul]
    omega

/-- Headers with fewer than 60000 messages. -/
theorem objectHeader_ok (ms : List Msg) (hm : ∀ m ∈ ms, m.Fits) (hl : ms.length < 60000) :
    ∃ hdr, objectHeader ms = .ok hdr ∧ (msgBlock ms).length + 10 < 2 ^ 32 ∧ 0 < hdr.length := by
  have h1 := enc_flat_le ms hm
  obtain ⟨_, _, _, _, h2, _⟩ := nilPad_eq (ms.flatMap Msg.enc).length
  have h3 : (msgBlock ms).length + 10 < 2 ^ 32 := by
    rw [msgBlock, List.length_append]
    omega
  obtain ⟨sum, hsum, -⟩ := checksum_lookup3 (headerBody ms) (by rw [headerBody_length]; omega)
  refine ⟨headerBody ms ++ leEnc 4 sum.toNat, ?_, by omega, ?_⟩
  · simp only [objectHeader, hsum, Res.bind_ok, Res.pure_eq]
  · rw [List.length_append, headerBody_length, leEnc_length]
    omega

/-! ### Variables -/

/-- `DIMENSION_LIST`, if there is one. -/
def dimListPair (env : Env) (v : HVar) : List (Bytes × GoVal) :=
  match env.heap with
  | none => []
  | some _ =>
    if v.isScale = false ∧ v.dims ≠ [] ∧
        v.dims.all (fun d => d ≠ [] && (env.dimAddrs.get d).isSome) = true then
      [(kDimList, dimRefs env.dimAddrs v.dims)]
    else []

/-- The object of a variable with the attributes `full`. -/
structure VarObj (heap : HeapFn) (file : Bytes) (v : HVar) (full : List (Bytes × GoVal)) (o : Obj) :
    Prop where
  name : o.info.name = v.name
  kids : o.kids = []
  grp : o.info.isGroup = false
  dims : o.info.dims = some (getDimsLimited v.val v.dims.length)
  attrs : All2 (AttrHolds heap) o.info.attrs full
  fill : ∃ f, attrFill o.info = .ok f
  flat : ∃ dt pat data, o.info.dt = some dt ∧
    FlatVar file o.info dt (getDimsLimited v.val v.dims.length)
      (cellOf dt.len (getDimsLimited v.val v.dims.length) data) pat ∧
    data.length = prod (getDimsLimited v.val v.dims.length) * dt.len ∧
    (Common v.val → ∃ s, alloc heap dt (getDimsLimited v.val v.dims.length) ⟨0, data⟩ = .ok (v.val, s)) ∧
    (Common v.val → ∀ d ds b e, getDimsLimited v.val v.dims.length = d :: ds → b ≤ e → e ≤ d →
      (b < e ∨ ¬ Sequences v.dims.length v.val) →
      ∃ r, alloc heap dt ((e - b) :: ds)
        ⟨0, (data.drop (b * (prod ds * dt.len))).take ((e - b) * (prod ds * dt.len))⟩ =
          .ok (goSlice b e v.val, r)) ∧
    Shown heap dt (getDimsLimited v.val v.dims.length) data (GoVal.lift v.val)
  value : ValueIn file heap v.dims.length (GoVal.lift v.val) o.info
  typed : ∃ t : WTy, o.info.dt = some t.dt ∧ t.Readable true ∧ t.Whole
  code : ∃ t : WTy, datatypeOf v.val v.dims.length = .ok t ∧ o.info.dt = some t.dt ∧ t.Readable true

/-- The variable can be written. -/
structure VarReady (heap : HeapFn) (env : Env) (path : List Bytes) (v : HVar) : Prop where
  enc : ∃ t dims data, VarEnc heap env.heap ((env.vlens.lookup (path, v.name)).getD []) v.val
    v.dims.length t dims data
  attrs : ∀ p ∈ v.attrs.getD [],
    AttrReady heap env.heap ((env.attrVlens.lookup (path, some v.name, p.1)).getD []) p
  few : (v.attrs.getD []).length < 59000
  refs : ∀ H, env.heap = some H → HeapHas heap H ∧
    (v.isScale = false → ∀ d ∈ v.dims, d ≠ [] → (env.dimAddrs.get d).isSome = true →
      RefReady H env.dimAddrs d)

theorem dimListMsg_ok {heap : HeapFn} {env : Env} {path : List Bytes} {v : HVar} (hbe : env.be = false)
    (hv : VarReady heap env path v) :
    (∀ m ∈ dimListMsg env v, m.Fits) ∧ (dimListMsg env v).length ≤ 1 ∧
      ∃ as, All2 (AttrHolds heap) as (dimListPair env v) ∧
        ∀ i, Plain (dimListMsg env v) i { i with attrs := i.attrs ++ as } := by
  have hnil : ∀ i : Info, Plain [] i { i with attrs := i.attrs ++ [] } := by
    intro i
    rw [List.append_nil]
    exact Plain.nil i
  cases hH : env.heap with
  | none =>
    simp only [dimListMsg, dimListPair, hH]
    exact ⟨by simp, by simp, [], All2.nil _, hnil⟩
  | some H =>
    obtain ⟨hh, href⟩ := hv.refs H hH
    simp only [dimListMsg, dimListPair, hH]
    split
    · rename_i hc
      obtain ⟨h1, h2, h3⟩ := hc
      rw [List.all_eq_true] at h3
      obtain ⟨t, dims, data, he⟩ := hv.enc
      have hlen : v.dims.length ≤ 255 := by
        have := he.fit.1
        rw [he.rank] at this
        exact this
      obtain ⟨g1, a, g2, g3⟩ := dimList_attr heap H hh env.dimAddrs v.dims (by
        intro d hd
        have := h3 d hd
        simp only [ne_eq, decide_not, Bool.and_eq_true, Bool.not_eq_eq_eq_not, Bool.not_true,
          decide_eq_false_iff_not] at this
        exact href h1 d hd this.1 this.2) h2 hlen
      rw [hbe]
      refine ⟨?_, by simp, [a], (All2.nil _).cons g2, g3⟩
      intro m hm
      rw [List.mem_singleton.1 hm]
      exact g1
    · exact ⟨by simp, by simp, [], All2.nil _, hnil⟩

theorem attrFill_dt {i : Info} {dt : DT} {pat : Bytes} (h1 : i.fillValue = none)
    (h2 : i.fillValueOld = none) (h3 : i.dt = some dt) (h4 : defaultFill dt false = .ok pat) :
    fillPattern i dt = .ok pat ∧ attrFill i = .ok pat := by
  have : fillPattern i dt = .ok pat := by simp only [fillPattern, h1, h2, h4]
  exact ⟨this, by simp only [attrFill, h3, Option.getD_some, this]⟩

/-- A variable is written and read. -/
theorem writeVar_ok (heap : HeapFn) (env : Env) (hbe : env.be = false) (path : List Bytes)
    (buf : Bytes) (v : HVar) (hv : VarReady heap env path v) (hb : 48 ≤ buf.length) :
    ∃ buf' addr, writeVar env path buf v = .ok (buf', addr) ∧ buf <+: buf' ∧ buf.length ≤ addr ∧
      addr < buf'.length ∧
      ∀ file, Grows buf' file → file.length < 2 ^ 63 →
        ∃ o, o.info.addr = addr ∧ Stored file o ∧
          VarObj heap file v (v.attrs.getD [] ++ dimListPair env v) o := by
  obtain ⟨t, dims, data, he⟩ := hv.enc
  have hsh := he.shape
  subst hsh
  obtain ⟨rest, hw⟩ := he.write
  obtain ⟨ms, a1, a2, a3, as, a4, a5⟩ := attrMsgs_ok heap env hbe path (some v.name) _ hv.attrs
  obtain ⟨d1, d2, ds, d4, d5⟩ := dimListMsg_ok hbe hv
  have hfew := hv.few
  generalize hall : ([⟨1, buildDataspace (getDimsLimited v.val v.dims.length)⟩, ⟨3, t.bytes false⟩,
    ⟨8, buildLayout buf.length data.length⟩] ++ ms ++ dimListMsg env v : List Msg) = all
  have hmsgs : varMsgs env path v buf.length data.length = .ok all := by
    simp only [varMsgs, he.ty, a1, hbe, ← hall]
  have hfit : ∀ m ∈ all, m.Fits := by
    intro m hm
    rw [← hall, List.mem_append, List.mem_append] at hm
    rcases hm with (hm | hm) | hm
    · simp only [List.mem_cons, List.not_mem_nil, or_false] at hm
      have h1 := he.fit.1
      have h2 := he.small
      rcases hm with rfl | rfl | rfl
      · refine ⟨(by decide : 1 < 256), ?_⟩
        rw [buildDataspace_length]
        omega
      · refine ⟨(by decide : 3 < 256), ?_⟩
        show (t.bytes false).length < 65536
        omega
      · exact ⟨(by decide : 8 < 256), by simp [buildLayout]⟩
    · exact a2 m hm
    · exact d1 m hm
  have hcount : all.length < 60000 := by
    rw [← hall]
    simp only [List.length_append, List.length_cons, List.length_nil]
    omega
  obtain ⟨hdr, hh1, hh2, hh3⟩ := objectHeader_ok all hfit hcount
  obtain ⟨pad, hpad⟩ := writePadded_prefix buf data
  refine ⟨writePadded buf data ++ hdr, (writePadded buf data).length, ?_, ?_, ?_, ?_, ?_⟩
  · simp only [writeVar, hbe, hw, hmsgs, hh1]
  · rw [hpad]
    exact ⟨data ++ pad ++ hdr, by simp⟩
  · rw [hpad]
    simp only [List.length_append]
    omega
  · simp only [List.length_append]
    omega
  intro file hg hlen
  have hpl : buf.length ≤ (writePadded buf data).length := by
    rw [hpad]
    simp only [List.length_append]
    omega
  have hfl := hg.length (by simp only [List.length_append]; omega)
  have hfl2 : buf.length + data.length ≤ file.length := by
    rw [hpad] at hfl
    simp only [List.length_append] at hfl
    omega
  have hat : At file (writePadded buf data).length hdr :=
    Grows.at (post := []) (by rwa [List.append_nil]) (by omega)
  have hatd : At file buf.length data :=
    Grows.at (post := pad ++ hdr) (by rw [hpad] at hg; simpa using hg) hb
  generalize haddr : (writePadded buf data).length = addr at *
  let i : Info := { name := v.name, addr := addr,
                    dims := some (getDimsLimited v.val v.dims.length), dt := some t.dt,
                    blocks := [.at buf.length data.length], attrs := as ++ ds }
  have hplain : Plain all { name := v.name, addr := addr } i := by
    rw [← hall]
    have hp1 := plain_dataspace (getDimsLimited v.val v.dims.length) { name := v.name, addr := addr } he.fit.1
      (fun d hd => Nat.lt_trans (he.fit.2 d hd) (by decide))
    have hp2 := hp1.append (plain_datatype t _ he.readable rfl)
    have hp3 := hp2.append (plain_layout buf.length data.length _ (by omega) (by omega))
    have hp4 := (hp3.append (a5 _)).append (d5 _)
    simpa using hp4
  obtain ⟨pat, hf1, hf2⟩ := he.fill
  obtain ⟨hfp, hfa⟩ := attrFill_dt (i := i) rfl rfl rfl hf1
  refine ⟨.mk i [], rfl, ?_, ?_⟩
  · refine Stored.mk i [] all [] hdr i (by simpa [linkMsgs] using hh1) hat (by show 0 < addr; omega)
      (by simpa [linkMsgs] using hfit) (by simpa [linkMsgs] using hh2) hplain (Plain.nil i) rfl (by simp)
      (by simp) (by simp)
  · exact {
      name := rfl
      kids := rfl
      grp := rfl
      dims := rfl
      attrs := a4.append d4
      fill := ⟨pat, hfa⟩
      typed := ⟨t, rfl, he.readable, he.whole⟩
      code := ⟨t, he.ty, rfl, he.readable⟩
      value := ⟨t.dt, _, buf.length, data, rfl, rfl, rfl, he.rank, rfl, rfl, rfl, rfl, rfl, hatd, he.shown⟩
      flat := by
        refine ⟨t.dt, pat, data, rfl, ?_, he.len, he.read, he.rows, he.shown⟩
        exact {
          layout := rfl
          chunk := rfl
          filters := rfl
          small := hlen
          size := by rw [← he.len]; exact he.size
          dlt := he.fit.2
          elem := he.elem
          cells := fun idx => cellOf_length _ _ _ _
          fill := fillOf_zero rfl rfl hf1
          patLen := hf2
          data := by
            refine .inl ⟨buf.length, ?_, ?_⟩
            · show [Block.at buf.length data.length] = _
              rw [he.len]
            · rw [rowMajor_cellOf _ _ _ he.len]
              exact hatd } }

end Verif.H5
