import Verif.Lemmas.CdfClassic
import Verif.Lemmas.CdfRecord
/-!
What the reader makes of the variables of a file in the classic format, whoever wrote it.
-/
namespace Verif.Cdf.Classic

theorem hdr_get {f : File} (hf : f.OK) (r : Nat) (s : Bool) {v : Var} (hv : v ∈ f.vars) :
    (f.hdr r s).vars.get v.name = some (f.keep v) := by
  have := addAll_get OMap.empty (f.vars.map f.keep) (by
    rw [List.map_map]; exact hf.names) (f.keep v) (List.mem_map_of_mem hv)
  exact this

theorem varDims_inner {f : File} (r : Nat) (s : Bool) (ids : List Nat) (k : Nat)
    (h1 : ∀ id ∈ ids, id < f.dims.length) (h2 : ∀ id ∈ ids, 0 < f.len id) :
    varDims (f.hdr r s) ids k = .ok (ids.map (fun id => (f.len id, f.dimName id)), false) := by
  apply varDims_eq _ _ _ (by simp)
  intro i hi1 hi2
  have hm := List.getElem_mem hi1
  obtain ⟨d, e1, e2, e3⟩ := len_dim f (h1 _ hm)
  simp only [List.getElem_map]
  refine ⟨?_, h2 _ hm⟩
  show (f.dims.map Dimension.dim)[ids[i]]? = _
  rw [e1, ← e2, ← e3]

/-- A single name and length. -/
def File.pair (f : File) (id : Nat) : Nat × Bytes :=
  (if f.len id = 0 then f.numrecs else f.len id, f.dimName id)

theorem varDims_all {f : File} (r : Nat) (s : Bool) {v : Var} (h : VarOK f v) :
    varDims (f.hdr r s) v.dims 0 = .ok (v.dims.map f.pair, f.isRecord v) := by
  have hids := h.ids
  have hin := h.inner
  unfold File.isRecord
  cases hd : v.dims with
  | nil => rfl
  | cons id ids =>
    rw [hd] at hids hin
    simp only [List.tail_cons] at hin
    obtain ⟨d, e1, e2, e3⟩ := len_dim f (hids id (by simp))
    have e1' : (f.hdr r s).dims[id]? = some d := e1
    have hr := varDims_inner r s ids 1 (fun x hx => hids x (by simp [hx])) hin
    simp only [varDims, e1']
    rw [if_neg (by simp), hr]
    simp only [Res.bind_ok, Res.pure_eq, Bool.or_false, e2, e3, List.map_cons]
    have : ids.map f.pair = ids.map (fun id => (f.len id, f.dimName id)) := by
      apply List.map_congr_left
      intro x hx
      have := hin x hx
      simp only [File.pair]
      rw [if_neg (by omega)]
    rw [this]
    rfl

theorem getter_eq {f : File} (hf : f.OK) (r : Nat) (s : Bool) {v : Var} (hv : v ∈ f.vars) :
    ∃ g, getVarCommon (f.hdr r s) v.name = .ok g ∧ g.vr = f.keep v ∧ g.ty = v.ty.nc ∧
      g.dimLengths = f.shape v ∧ g.dimNames = v.dims.map f.dimName ∧
      g.unlimited = f.isRecord v ∧ (f.shape v = [] → g.chunkSize = 1 ∧ g.length = 1) := by
  unfold getVarCommon
  rw [hdr_get hf r s hv]
  have hc : (f.keep v).vType = v.ty.nc.code := (nc_code _).symm
  have hdd : (f.keep v).dimids = v.dims := rfl
  simp only [hdd]
  rw [varDims_all r s (hf.vars v hv)]
  simp only [Res.bind_ok, hc, ofCode_code, Res.pure_eq]
  have h1 : (v.dims.map f.pair).map (·.1) = f.shape v := by
    simp [File.pair, File.shape, Function.comp_def]
  have h2 : (v.dims.map f.pair).map (·.2) = v.dims.map f.dimName := by
    simp [File.pair, Function.comp_def]
  rw [h1, h2]
  refine ⟨_, rfl, rfl, rfl, rfl, rfl, rfl, ?_⟩
  intro h0
  simp [h0, totalSize]

/-! ### Scalars -/

theorem getSlice_scalar {ma : Nat} {h : Hdr} {file : Bytes} {g : Getter} {pat : Bytes}
    (hd : g.dimLengths = []) (hu : g.unlimited = false) (hc : g.chunkSize = 1) (hl : g.length = 1)
    (hfill : fillPattern g.ty g.vr.attrs = .ok pat) (h63 : g.vr.begin_ + g.ty.size < 2 ^ 63)
    (hma : g.ty.size ≤ ma) (hin : g.vr.begin_ + g.ty.size ≤ file.length) :
    getSlice ma h file g 0 g.length = .ok (nestV g.ty [] (decodeElems g.ty.readKind 1
      ((file.drop g.vr.begin_).take g.ty.size))) := by
  have hrd := readData_plain (ma := ma) (h := h) (file := file) (g := g)
    (Or.inl hu) hfill (start := 0) (n := g.ty.size) (by omega) hma
  rw [Nat.add_zero, filled_full (by rw [List.length_drop]; omega)] at hrd
  unfold getSlice getSliceCap
  have hnc : g.nChunks 0 1 = 1 := by unfold Getter.nChunks; rw [hd]
  have hsd : g.sliceDims 1 = [] := by unfold Getter.sliceDims; rw [hd]
  rw [hl, if_neg (by omega)]
  have w1 : w64 1 = 1 := w64_id (by decide) (by decide)
  have w2 : w64 (w64 (0 * 1) * (g.ty.size : Int)) = 0 := by
    rw [Int.zero_mul, w64_zero, Int.zero_mul, w64_zero]
  have w3 : w64 ((g.ty.size : Int)) = (g.ty.size : Int) := w64_nat (by omega)
  simp only [hnc, hc, w1, w2, w3, Int.one_mul, hsd]
  have hrd' : readData ma h file g 0 (g.ty.size : Int) (g.ty.size : Int)
      = .ok ((file.drop g.vr.begin_).take g.ty.size) := hrd
  rw [hrd', Res.bind_ok]
  obtain ⟨cv, hcv1, hcv2⟩ := convertCap_exact g.ty []
    (decodeElems g.ty.readKind 1 ((file.drop g.vr.begin_).take g.ty.size)) (by simp)
    (by simp [decodeElems_length, prod]) (by decide) (by simp)
  have : (1 : Int).toNat = 1 := rfl
  rw [this, hcv1]
  simp only [Res.map]
  rw [hcv2]

theorem scalar_holds (ty : Ty) (b : Bytes) (hb : b.length = ty.size)
    (h7 : ty = none → ∀ c ∈ b, c.toNat < 128) :
    Holds ty [] b (nestV ty.nc [] (decodeElems ty.nc.readKind 1 b)) := by
  unfold Holds
  cases ty with
  | none =>
    simp only [and_self, if_true]
    match b, hb with
    | [c], _ =>
      have hc := h7 rfl c (by simp)
      have e1 : beDec [c] = c.toNat := by simp [beDec, leDec]
      show GoVal.str (stringOfByte (UInt8.ofNat (beDec [c]))) = _
      rw [e1, UInt8.ofNat_toNat, stringOfByte, if_pos hc]
  | some k =>
    simp only [reduceCtorEq, false_and, if_false]
    have hk : (Ty.nc (some k)).kind = some k := nc_kind _
    have hrk : (Ty.nc (some k)).readKind = k := by simp [NcType.readKind, hk]
    rw [hrk]
    have hb' : b.length = k.size := by rw [hb, size_kind]
    unfold Stored
    simp only [nestV, hk, decodeElems, List.headD_cons]
    have ht : b.take k.size = b := List.take_of_length_le (by omega)
    rw [ht]
    refine ⟨⟨_, rfl, ?_⟩, ?_⟩
    · have := beDec_lt b; rwa [hb'] at this
    · simp only [List.length_nil, leaves, List.flatMap_cons, List.flatMap_nil, List.append_nil,
        Verif.numBytes]
      have := beEnc_beDec b
      rwa [hb'] at this

theorem array_holds (ty : Ty) (shape : List Nat) (b : Bytes) (hs : shape ≠ [])
    (hb : b.length = prod shape * ty.size) :
    Holds ty shape b (nestV ty.nc shape (decodeElems ty.nc.readKind (prod shape) b)) := by
  unfold Holds
  rw [if_neg (by intro h; exact hs h.2)]
  have := nestV_stored ty.nc shape b hs (by rw [nc_size]; exact hb)
  rwa [nc_kind] at this

/-! ### Parts in one piece -/

theorem range_take (file : Bytes) (b m n : Nat) :
    (List.range n).flatMap (fun i => (file.drop (b + i * m)).take m) = (file.drop b).take (n * m) := by
  induction n with
  | zero => simp
  | succ n ih =>
    rw [List.range_succ, List.flatMap_append, ih, Nat.succ_mul, List.take_add]
    simp [List.drop_drop]

/-! ### Variables -/

/-- A `_FillValue` that the reader can use: one number of the type of the variable. -/
def Var.FillOK (v : Var) : Prop :=
  ∀ a ∈ v.atts, a.name = ascii "_FillValue" → ∃ b, a.value = .numbers (v.ty.getD .u8) [b]

theorem fill_ok {v : Var} (hn : (v.atts.map (·.name)).Nodup) (h : v.FillOK) :
    ∃ pat, fillPattern v.ty.nc (attsBack v.atts) = .ok pat := by
  unfold fillPattern
  by_cases hk : ascii "_FillValue" ∈ v.atts.map (·.name)
  · obtain ⟨a, ha, he⟩ := List.mem_map.mp hk
    have hg := attsBack_get hn ha
    rw [he] at hg
    obtain ⟨b, hb⟩ := h a ha he
    rw [hg, hb]
    have hrk : v.ty.nc.readKind = v.ty.getD .u8 := by simp [NcType.readKind, nc_kind]
    refine ⟨beEnc (v.ty.getD .u8).size b, ?_⟩
    simp [Value.go, userFill, hrk]
  · rw [attsBack_none hk]
    exact ⟨_, rfl⟩

theorem mem_sum {x : Nat} (xs : List Nat) (h : x ∈ xs) : x ≤ xs.sum := by
  induction xs with
  | nil => simp at h
  | cons y ys ih =>
    simp only [List.sum_cons]
    rcases List.mem_cons.mp h with rfl | h
    · omega
    · have := ih h; omega

theorem flatMap_len {α : Type} (xs : List α) (f : α → Bytes) (n : Nat)
    (h : ∀ x ∈ xs, (f x).length = n) : (xs.flatMap f).length = xs.length * n :=
  flatMap_length_const xs f n h

theorem prod_inner {f : File} {v : Var} (h : VarOK f v) {id : Nat} {ids : List Nat}
    (hd : v.dims = id :: ids) : ids.map (fun id => if f.len id = 0 then f.numrecs else f.len id)
      = ids.map f.len ∧ ∀ d ∈ ids.map f.len, 0 < d := by
  have hin := h.inner
  rw [hd] at hin
  simp only [List.tail_cons] at hin
  constructor
  · apply List.map_congr_left
    intro x hx
    have := hin x hx
    rw [if_neg (by omega)]
  · intro d hd'
    obtain ⟨x, hx, rfl⟩ := List.mem_map.mp hd'
    exact hin x hx

theorem getVariable_eq {ma : Nat} {f : File} {bytes : Bytes} (hf : f.Is bytes)
    (hlen : bytes.length < 2 ^ 63) (hma : bytes.length ≤ ma) (hrec : f.numrecs * 16 ≤ ma)
    {r : Nat} {s : Bool} (hs : s = true → ∃ v, f.vars.filter f.isRecord = [v])
    (hr : s = false → f.vars.filter f.isRecord ≠ [] → r = f.recsize)
    {v : Var} (hv : v ∈ f.vars) (hfill : v.FillOK)
    (hchar : v.ty = none → v.dims = [] → ∀ c ∈ f.data bytes v, c.toNat < 128)
    (hempty : v.ty = none → f.numrecs = 0 → f.isRecord v = true → v.dims.length ≤ 2) :
    ∃ w, getVariable ma (f.hdr r s) bytes v.name
        = .ok ⟨w, v.dims.map f.dimName, some (attsBack v.atts)⟩ ∧
      Holds v.ty (f.shape v) (f.data bytes v) w := by
  have hvo := hf.ok.vars v hv
  obtain ⟨g, hg, hvr, hty, hdl, hdn, hun, hsc⟩ := getter_eq hf.ok r s hv
  obtain ⟨pat, hpat⟩ := fill_ok hvo.atts.distinct hfill
  have hpat' : fillPattern g.ty g.vr.attrs = .ok pat := by rw [hty, hvr]; exact hpat
  have hbeg : g.vr.begin_ = v.begin_ := by rw [hvr]; rfl
  have hsz : g.ty.size = v.ty.size := by rw [hty, nc_size]
  have hplaces := hf.data v hv
  have hspos := v.ty.size_pos
  suffices hsuf : ∃ w, getSlice ma (f.hdr r s) bytes g 0 g.length = .ok w ∧
      Holds v.ty (f.shape v) (f.data bytes v) w by
    obtain ⟨w, h1, h2⟩ := hsuf
    refine ⟨w, ?_, h2⟩
    unfold getVariable
    unfold getSlice at h1
    rw [hg, Res.bind_ok, h1, Res.bind_ok, hdn, hvr]
    rfl
  cases hd : v.dims with
  | nil =>
    have hsh : f.shape v = [] := by simp [File.shape, hd]
    have hnr : f.isRecord v = false := by simp [File.isRecord, hd]
    have hslab : f.slab v = v.ty.size := by simp [File.slab, hnr, hd, prod]
    have hpl : f.places v = [v.begin_] := by simp [File.places, hnr]
    rw [hpl, hslab] at hplaces
    have hin := hplaces v.begin_ (by simp)
    obtain ⟨hc1, hc2⟩ := hsc hsh
    refine ⟨_, getSlice_scalar (by rw [hdl, hsh]) (by rw [hun, hnr]) hc1 hc2 hpat'
      (by omega) (by omega) (by omega), ?_⟩
    have hdata : f.data bytes v = (bytes.drop v.begin_).take v.ty.size := by
      simp [File.data, hpl, hslab]
    rw [hsh, hty, nc_size, hbeg, hdata]
    rw [hdata] at hchar
    exact scalar_holds _ _ (by rw [List.length_take, List.length_drop]; omega)
      (fun h => hchar h hd)
  | cons id ids =>
    obtain ⟨hin1, hin2⟩ := prod_inner hvo hd
    have hP := prod_pos hin2
    have hshape : f.shape v = (if f.len id = 0 then f.numrecs else f.len id) :: ids.map f.len := by
      simp only [File.shape, hd, List.map_cons, hin1]
    have hl2 : v.dims.length = ids.length + 1 := by rw [hd]; rfl
    cases hrc : f.isRecord v with
    | false =>
      have hl0 : f.len id ≠ 0 := by
        intro h0; simp [File.isRecord, hd, h0] at hrc
      rw [if_neg hl0] at hshape
      have hslab : f.slab v = f.len id * prod (ids.map f.len) * v.ty.size := by
        simp [File.slab, hrc, hd, prod]
      have hpl : f.places v = [v.begin_] := by simp [File.places, hrc]
      rw [hpl] at hplaces
      have hin := hplaces v.begin_ (by simp)
      have hle : f.len id * prod (ids.map f.len) ≤ f.slab v := by
        rw [hslab]; exact Nat.le_mul_of_pos_right _ hspos
      obtain ⟨hp1, hc, hc0, hlg, _, _⟩ := getVarCommon_dims hg (by rw [hdl, hshape]) (by omega)
      have hplain : Plain ma (f.hdr r s) g (f.len id) (ids.map f.len) pat :=
        ⟨Or.inl (by rw [hun, hrc]), by rw [hdl, hshape], hp1, hc, hc0,
          by rw [hbeg, hsz, ← hslab]; omega, hpat', by rw [hsz, ← hslab]; omega⟩
      have hgs := getSlice_plain (file := bytes) hplain 0 (f.len id) (by omega) (by omega) (by omega)
      rw [hlg]
      refine ⟨_, hgs, ?_⟩
      have hdata : f.data bytes v = (bytes.drop v.begin_).take (f.slab v) := by
        simp [File.data, hpl]
      rw [hshape, hdata]
      simp only [Nat.sub_zero, Nat.zero_mul, Nat.add_zero, hty, hbeg, nc_size]
      rw [← hslab, filled_full (by rw [List.length_drop]; omega)]
      have := array_holds v.ty (f.len id :: ids.map f.len) ((bytes.drop v.begin_).take (f.slab v))
        (by simp) (by rw [List.length_take, List.length_drop, hslab]; simp only [prod]; rw [hslab] at hin; omega)
      exact this
    | true =>
      have hl0 : f.len id = 0 := by
        simpa [File.isRecord, hd] using hrc
      rw [if_pos hl0] at hshape
      have hslab : f.slab v = prod (ids.map f.len) * v.ty.size := by
        simp [File.slab, hrc, hd]
      have hs63 := slab_le hvo hf.ok.version hrc
      have hspos' : 0 < f.slab v := by rw [hslab]; exact Nat.mul_pos hP hspos
      have hpl : f.places v = (List.range f.numrecs).map (fun i => v.begin_ + i * f.recsize) := by
        simp [File.places, hrc]
      rw [hpl] at hplaces
      have hmem : v ∈ f.vars.filter f.isRecord := List.mem_filter.mpr ⟨hv, hrc⟩
      have hne : f.vars.filter f.isRecord ≠ [] := List.ne_nil_of_mem hmem
      have hb63 : v.begin_ < 2 ^ 63 := by
        have := hvo.begin_; split at this <;> omega
      have hin : ∀ i, i < f.numrecs → v.begin_ + i * f.recsize + f.slab v ≤ bytes.length :=
        fun i hi => hplaces _ (List.mem_map.mpr ⟨i, List.mem_range.mpr hi, rfl⟩)
      -- a record is at least as large as the part of the variable
      have hrle : f.slab v ≤ f.recsize := by
        unfold File.recsize
        match hfl : f.vars.filter f.isRecord with
        | [] => rw [hfl] at hmem; simp at hmem
        | [x] => rw [hfl] at hmem; simp at hmem; rw [hmem]; exact Nat.le_refl _
        | x :: y :: zs =>
          rw [hfl] at hmem
          have : up4 (f.slab v) ≤ ((x :: y :: zs).map (fun v => up4 (f.slab v))).sum :=
            mem_sum _ (List.mem_map_of_mem (f := fun v => up4 (f.slab v)) hmem)
          have h4 : f.slab v ≤ up4 (f.slab v) := by unfold up4; omega
          exact Nat.le_trans h4 this
      have htot : f.numrecs * f.slab v ≤ bytes.length := by
        by_cases h0 : f.numrecs = 0
        · rw [h0]; omega
        · have h1 := hin (f.numrecs - 1) (by omega)
          have h2 : (f.numrecs - 1) * f.slab v ≤ (f.numrecs - 1) * f.recsize :=
            Nat.mul_le_mul_left _ hrle
          have h3 : f.numrecs * f.slab v = (f.numrecs - 1) * f.slab v + f.slab v := by
            rw [← Nat.succ_mul]; congr 1; omega
          omega
      have hassoc : f.numrecs * prod (ids.map f.len) * v.ty.size = f.numrecs * f.slab v := by
        rw [hslab, Nat.mul_assoc]
      have hle : f.numrecs * prod (ids.map f.len) ≤ f.numrecs * f.slab v := by
        rw [← hassoc]; exact Nat.le_mul_of_pos_right _ hspos
      obtain ⟨hp1, hc, hc0, hlg, _, _⟩ := getVarCommon_dims hg (by rw [hdl, hshape]) (by omega)
      have hdata : f.data bytes v = (List.range f.numrecs).flatMap (fun i =>
          (bytes.drop (v.begin_ + i * f.recsize)).take (f.slab v)) := by
        simp [File.data, hpl, List.flatMap_map]
      have hdl' : (f.data bytes v).length = f.numrecs * f.slab v := by
        rw [hdata, flatMap_len _ _ (f.slab v)]
        · simp
        · intro i hi
          have := hin i (List.mem_range.mp hi)
          rw [List.length_take, List.length_drop]; omega
      have hz : f.numrecs = 0 → (ids.map f.len).length ≤ 1 ∨ g.ty ≠ .char := by
        intro h0
        by_cases ht : v.ty = none
        · left
          have := hempty ht h0 hrc
          rw [List.length_map]; omega
        · right
          rw [hty]
          intro hc
          have := nc_kind v.ty
          rw [hc] at this
          exact ht this.symm
      have hhold : Holds v.ty (f.numrecs :: ids.map f.len) (f.data bytes v)
          (nestV v.ty.nc (f.numrecs :: ids.map f.len)
            (decodeElems v.ty.nc.readKind (f.numrecs * prod (ids.map f.len)) (f.data bytes v))) :=
        array_holds v.ty (f.numrecs :: ids.map f.len) (f.data bytes v) (by simp)
          (by rw [hdl', ← hassoc]; rfl)
      rw [hlg, hshape]
      cases hsb : s with
      | true =>
        obtain ⟨x, hx⟩ := hs hsb
        have hxv : x = v := by
          rw [hx] at hmem
          exact (List.mem_singleton.mp hmem).symm
        rw [hxv] at hx
        have hrs : f.recsize = f.slab v := by simp [File.recsize, hx]
        have hroom : v.begin_ + f.numrecs * f.slab v < 2 ^ 63 := by
          by_cases h0 : f.numrecs = 0
          · rw [h0]; omega
          · have h1 := hin (f.numrecs - 1) (by omega)
            rw [hrs] at h1
            have h3 : f.numrecs * f.slab v = (f.numrecs - 1) * f.slab v + f.slab v := by
              rw [← Nat.succ_mul]; congr 1; omega
            omega
        have hplain : Plain ma (f.hdr r true) g f.numrecs (ids.map f.len) pat :=
          ⟨Or.inr rfl, by rw [hdl, hshape], hp1, hc, hc0, by rw [hbeg, hsz, hassoc]; omega, hpat',
            by rw [hsz, hassoc]; omega⟩
        have hgs := getSlice_plain (file := bytes) hplain 0 f.numrecs (by omega) (by omega)
          (fun h0 => hz (by omega))
        refine ⟨_, hgs, ?_⟩
        have hfe : filled (bytes.drop v.begin_) pat (f.numrecs * f.slab v) = f.data bytes v := by
          rw [hdata, hrs, range_take]
          by_cases h0 : f.numrecs = 0
          · rw [h0]; simp [filled, fillStream]
          · apply filled_full
            have h1 := hin (f.numrecs - 1) (by omega)
            rw [hrs] at h1
            have h3 : f.numrecs * f.slab v = (f.numrecs - 1) * f.slab v + f.slab v := by
              rw [← Nat.succ_mul]; congr 1; omega
            rw [List.length_drop]; omega
        simp only [Nat.sub_zero, Nat.zero_mul, Nat.add_zero, hty, hbeg, nc_size]
        rw [hassoc, hfe]
        exact hhold
      | false =>
        have hre := hr hsb hne
        have hgs := getSlice_records_any (ma := ma) (h := f.hdr r false) (file := bytes) (g := g)
          (ds := ids.map f.len) (by rw [hun, hrc]) rfl (by rw [hdl, hshape]; rfl) hp1 hc hc0
          (by
            rw [hvr, hsz, ← hslab]
            simp only [File.keep, hrc, if_true]
            exact w64_nat hs63)
          f.numrecs (Nat.le_refl _)
          (by
            intro i hi
            rw [hbeg, hsz, ← hslab]
            show v.begin_ + i * r + f.slab v ≤ _
            rw [hre]; exact hin i hi)
          (by rw [hbeg]; exact hb63)
          (by
            intro i hi
            rw [hbeg]
            show v.begin_ + i * r < _
            rw [hre]
            have := hin i hi
            omega)
          (by show r < _; rw [hre]; exact hf.ok.recsize)
          (by rw [hsz]; show f.numrecs * _ * _ < _; rw [hassoc]; omega)
          hrec
          (by rw [hsz]; show f.numrecs * _ * _ ≤ _; rw [hassoc]; omega)
          hz
        refine ⟨_, hgs, ?_⟩
        rw [hty, hbeg, nc_size, ← hslab]
        have he : (f.hdr r false).recSize = f.recsize := hre
        rw [he, ← hdata]
        exact hhold

end Verif.Cdf.Classic
