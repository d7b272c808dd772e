import Verif.Spec.Formats
import Verif.Props.CdfRoundEx
import Verif.Props.H5File
/-!
C69: the same calls on writers of both formats.
-/
namespace Verif.H5
open Verif.Cdf (Call Session Fits FineCall Supported runAll addedNames lastAttributes AttrsFine)

/-! ### What one writer accepts, so does the other -/

theorem supported_rect {base : GoTy} {leaf : GoVal → Prop} (hleaf : ∀ v, leaf v → supported v = true) :
    ∀ (dims : List Nat) (v : GoVal), Rect base leaf dims v → (∀ d ∈ dims, 0 < d) → supported v = true
  | [], v, h, _ => hleaf v h
  | d :: ds, v, h, hpos => by
    obtain ⟨xs, rfl, hl, hx⟩ := h
    cases xs with
    | nil => exact absurd (hpos d List.mem_cons_self) (by simp only [List.length_nil] at hl; omega)
    | cons x xs =>
      simp only [supported, supportedHead]
      exact supported_rect hleaf ds x (hx x List.mem_cons_self) fun d hd => hpos d (List.mem_cons_of_mem _ hd)

theorem supported_of {named : Bool} {v w : GoVal} {shape : List Nat} (h : Supported named v shape w) :
    supported v = true := by
  cases h with
  | scalar k bits hb hs => rfl
  | array k dims v hne hpos ha =>
    exact supported_rect (by rintro v ⟨b, rfl, _⟩; rfl) _ _ ha hpos
  | char c hc hn => rfl
  | string s hs hn => rfl
  | strings L ds v hne hpos hL ha hrow =>
    exact supported_rect (by rintro v ⟨b, rfl, _⟩; rfl) _ _ ha hpos

theorem supported_attr {v : GoVal} (h : Cdf.AttrVal v) : supported v = true := by
  match v, h with
  | .str _, _ => rfl
  | .num _ _, _ => rfl
  | .slice (.num k) [], _ => rfl
  | .slice (.num k) (x :: xs), h =>
    obtain ⟨b, rfl, _⟩ := h x List.mem_cons_self
    rfl

theorem attrPairs_fine {attrs : Attrs} (h : AttrsFine attrs) : ∃ as, attrPairs attrs = .ok as := by
  cases attrs with
  | none => exact ⟨_, rfl⟩
  | some om =>
    refine ⟨_, if_pos ?_⟩
    rw [List.all_eq_true]
    intro k hk
    obtain ⟨v, hv, ha⟩ := (h om rfl).2 k hk
    rw [hv]
    exact supported_attr ha

theorem addVar_names {u : UniTables} {cw cw' : Cdf.Writer} {name : Bytes} {vr : Cdf.Variable}
    (h : cw.addVar u name vr = (cw', .ok ())) :
    isValidName u name = true ∧ Cdf.hasValidNames u vr.attributes = true := by
  unfold Cdf.Writer.addVar at h
  split at h
  · cases h
  rename_i h1
  split at h
  · cases h
  rename_i h2
  exact ⟨by simpa using h1, by simpa using h2⟩

theorem addAttributes_names {u : UniTables} {cw cw' : Cdf.Writer} {attrs : Attrs}
    (h : cw.addAttributes u attrs = (cw', .ok ())) : Cdf.hasValidNames u attrs = true := by
  unfold Cdf.Writer.addAttributes at h
  split at h
  · cases h
  rename_i h1
  simpa using h1

/-- What the writer of HDF5 files has after the same calls. -/
theorem same_run {u : UniTables} : ∀ (calls : List Call) (cw cw' : Cdf.Writer) (root : HGroup) (a : Attrs),
    runAll u calls cw = some cw' → (∀ c ∈ calls, FineCall c) → (addedNames calls).Nodup →
    (∀ n ∈ addedNames calls, n ∉ root.info.vars.map (·.name)) → attrPairs a = .ok root.info.attrs ∨
      (a = some OMap.empty ∧ root.info.attrs = some []) →
    let r := (calls.map sameCall).foldl (HCall.run u) root
    r.info.vars.map (·.name) = root.info.vars.map (·.name) ++ addedNames calls ∧
    (∀ v ∈ root.info.vars, v ∈ r.info.vars) ∧
    (∀ name vr, Call.addVar name vr ∈ calls → ∃ as, attrPairs vr.attributes = .ok as ∧
      ⟨name, vr.values, vr.dimensions, as, false⟩ ∈ r.info.vars) ∧
    Given (calls.foldl (fun a c => match c with | .addVar _ _ => a | .addAttributes attrs => attrs) a)
      (r.info.attrs.getD []) ∧ r.subs = root.subs
  | [], cw, cw', root, a, h, hf, hn, hd, ha => by
    refine ⟨by simp [addedNames], fun v hv => hv, fun _ _ hm => absurd hm List.not_mem_nil, ?_, rfl⟩
    rcases ha with ha | ⟨rfl, hr⟩
    · exact given_attrPairs ha
    · simp only [List.map_nil, List.foldl_nil, hr]
      exact ⟨rfl, fun p hp => by cases hp⟩
  | .addVar name vr :: cs, cw, cw', root, a, h, hf, hn, hd, ha => by
    rw [runAll] at h
    split at h
    · rename_i cw1 hs
      have hs : cw.addVar u name vr = (cw1, .ok ()) := hs
      obtain ⟨⟨shape, w, hsup⟩, -, hfa⟩ := hf _ List.mem_cons_self
      obtain ⟨as, has⟩ := attrPairs_fine hfa
      obtain ⟨hv1, hv2⟩ := addVar_names hs
      have hnew : name ∉ root.info.vars.map (·.name) := hd name (by simp [addedNames])
      have hstep : HCall.run u root (sameCall (.addVar name vr)) =
          .mk { root.info with vars := root.info.vars ++ [⟨name, vr.values, vr.dimensions, as, false⟩] } root.subs := by
        have hset : setVar root.info.vars ⟨name, vr.values, vr.dimensions, as, false⟩ =
            root.info.vars ++ [⟨name, vr.values, vr.dimensions, as, false⟩] := by
          rw [setVar, if_neg]
          intro hany
          obtain ⟨w, hw, hwn⟩ := List.any_eq_true.1 hany
          exact hnew (List.mem_map.2 ⟨w, hw, by simpa using hwn⟩)
        simp only [sameCall, HCall.run, addVarH, hv1, hv2, supported_of hsup, has, HGroup.modify, hset]
        simp
      have hcons : addedNames (.addVar name vr :: cs) = name :: addedNames cs := rfl
      rw [hcons] at hn hd
      obtain ⟨r1, r2, r3, r4, r5⟩ := same_run cs cw1 cw' (HCall.run u root (sameCall (.addVar name vr))) a h
        (fun c hc => hf c (List.mem_cons_of_mem _ hc)) (List.nodup_cons.1 hn).2 (by
          intro n hnm hmem
          rw [hstep] at hmem
          simp only [HGroup.info, List.map_append, List.map_cons, List.map_nil, List.mem_append, List.mem_cons,
            List.not_mem_nil, or_false] at hmem
          rcases hmem with hmem | rfl
          · exact hd n (List.mem_cons_of_mem _ hnm) hmem
          · exact (List.nodup_cons.1 hn).1 hnm) (by rw [hstep]; exact ha)
      rw [List.map_cons, List.foldl_cons]
      refine ⟨?_, ?_, ?_, r4, r5.trans (by rw [hstep]; rfl)⟩
      · rw [r1, hstep, hcons]
        simp [HGroup.info]
      · intro v hv
        refine r2 v ?_
        rw [hstep]
        exact List.mem_append_left _ hv
      · intro n' vr' hm
        rcases List.mem_cons.1 hm with heq | hm
        · cases heq
          refine ⟨as, has, r2 _ ?_⟩
          rw [hstep]
          exact List.mem_append_right _ List.mem_cons_self
        · exact r3 n' vr' hm
    · cases h
  | .addAttributes attrs :: cs, cw, cw', root, a, h, hf, hn, hd, ha => by
    rw [runAll] at h
    split at h
    · rename_i cw1 hs
      have hs : cw.addAttributes u attrs = (cw1, .ok ()) := hs
      have hfa : AttrsFine attrs := hf _ List.mem_cons_self
      obtain ⟨as, has⟩ := attrPairs_fine hfa
      have hv := addAttributes_names hs
      have hstep : HCall.run u root (sameCall (.addAttributes attrs)) =
          .mk { root.info with attrs := as } root.subs := by
        simp only [sameCall, HCall.run, addAttributesH, hv, has, HGroup.modify]
        simp
      have hcons : addedNames (.addAttributes attrs :: cs) = addedNames cs := rfl
      rw [hcons] at hn hd
      obtain ⟨r1, r2, r3, r4, r5⟩ := same_run cs cw1 cw' (HCall.run u root (sameCall (.addAttributes attrs))) attrs h
        (fun c hc => hf c (List.mem_cons_of_mem _ hc)) hn (by rw [hstep]; exact hd) (by rw [hstep]; exact .inl has)
      rw [List.map_cons, List.foldl_cons]
      refine ⟨?_, ?_, ?_, r4, r5.trans (by rw [hstep]; rfl)⟩
      · rw [r1, hstep, hcons]
        rfl
      · intro v hv
        refine r2 v ?_
        rw [hstep]
        exact hv
      · intro n' vr' hm
        rcases List.mem_cons.1 hm with heq | hm
        · cases heq
        · exact r3 n' vr' hm
    · cases h

/-! ### Names of dimensions -/

/-- The number of brackets of a type. -/
def brackets : GoTy → Nat
  | .slice t => brackets t + 1
  | _ => 0

theorem brackets_nest (base : GoTy) : ∀ dims : List Nat, brackets (tyNest base dims) = dims.length + brackets base
  | [] => by simp [tyNest]
  | d :: ds => by
    simp only [tyNest, brackets, brackets_nest base ds, List.length_cons]
    omega

theorem rect_goTy {base : GoTy} {leaf : GoVal → Prop} (hleaf : ∀ v, leaf v → v.ty = base) :
    ∀ (dims : List Nat) (v : GoVal), Rect base leaf dims v → v.ty = tyNest base dims
  | [], v, h => hleaf v h
  | d :: ds, v, h => by
    obtain ⟨xs, rfl, -⟩ := h
    rfl

theorem names_le {named : Bool} {v w : GoVal} {shape : List Nat} {n : Nat} (h : Supported named v shape w)
    (hv : VarAny n v) : n ≤ shape.length := by
  have h1 : brackets v.ty ≤ shape.length := by
    cases h with
    | scalar k bits hb hs => exact Nat.le_refl _
    | array k dims v hne hpos ha =>
      rw [rect_goTy (base := .num k) (by rintro v ⟨b, rfl, _⟩; rfl) _ _ ha, brackets_nest]
      exact Nat.le_refl _
    | char c hc hn => exact Nat.le_refl _
    | string s hs hn => exact Nat.zero_le _
    | strings L ds v hne hpos hL ha hrow =>
      rw [rect_goTy (base := .str) (by rintro v ⟨b, rfl, _⟩; rfl) _ _ ha, brackets_nest, List.length_append]
      exact Nat.le_add_right _ _
  refine Nat.le_trans ?_ h1
  cases hv with
  | common n v hv =>
    cases hv with
    | plain n v hv =>
      cases hv with
      | num k dims v hr hs =>
        rw [rect_goTy (base := .num k) (by rintro v ⟨b, rfl, _⟩; rfl) _ _ hr, brackets_nest]
        exact Nat.le_add_right _ _
      | str s h0 hl => exact Nat.zero_le _
    | strs dims v hr hne hs =>
      rw [rect_goTy (base := .str) (by rintro v ⟨b, rfl, _⟩; rfl) _ _ hr, brackets_nest]
      exact Nat.le_add_right _ _
    | rows k dims v hr hs hne =>
      rw [rect_goTy (base := .slice (.num k)) (by rintro v ⟨b, rfl, _⟩; rfl) _ _ hr, brackets_nest]
      exact Nat.le_add_right _ _
  | user w' dims v' h1 h2 h3 h4 h5 => cases h with
    | array k ds v hne hpos ha =>
      cases shape with
      | nil => exact absurd rfl hne
      | cons d ds => obtain ⟨xs, hx, -⟩ := ha; cases hx
    | strings L ds v hne hpos hL ha hrow =>
      cases ds with
      | nil => exact absurd rfl hne
      | cons d ds => obtain ⟨xs, hx, -⟩ := ha; cases hx

theorem prefix_of_get {a b : List Bytes} (hl : a.length ≤ b.length)
    (h : ∀ i, i < a.length → b[i]? = a[i]?) : a <+: b := by
  rw [List.prefix_iff_eq_take]
  refine List.ext_getElem? fun i => ?_
  rw [List.getElem?_take]
  split
  · rename_i hi
    exact (h i hi).symm
  · rename_i hi
    exact List.getElem?_eq_none (by omega)

/-! ### Attributes -/

theorem given_readBack {a b : Attrs} {as : List (Bytes × GoVal)} (hb : Cdf.ReadBackAs a b) (ha : Given a as) :
    Given b (as.map fun p => (p.1, oneOf p.2)) := by
  obtain ⟨hk, hv⟩ := hb
  have hkeys : as.map (·.1) = Cdf.keysOf a := by
    cases a with
    | none => cases ha; rfl
    | some om => exact ha.1
  have hval : ∀ p ∈ as, Cdf.valueOf b p.1 = some (oneOf p.2) := by
    intro p hp
    rw [hv p.1 (by rw [← hkeys]; exact List.mem_map.2 ⟨p, hp, rfl⟩)]
    cases a with
    | none => cases ha; cases hp
    | some om =>
      show (om.get p.1).map Cdf.unwrap1 = _
      rw [ha.2 p hp]
      simp only [Option.map_some, Option.some.injEq]
      unfold Cdf.unwrap1 oneOf
      rfl
  cases b with
  | none =>
    have : Cdf.keysOf a = [] := hk.symm
    rw [this] at hkeys
    have : as = [] := List.map_eq_nil_iff.1 hkeys
    subst this
    rfl
  | some om =>
    refine ⟨?_, ?_⟩
    · rw [List.map_map]
      show as.map (·.1) = _
      rw [hkeys, ← hk]
      rfl
    · intro q hq
      obtain ⟨p, hp, rfl⟩ := List.mem_map.1 hq
      exact hval p hp

theorem saysTheSame {named : Bool} {v w : GoVal} {shape : List Nat} (h : Supported named v shape w) :
    SaysTheSame w v := by
  cases h with
  | scalar k bits hb hs => exact .same _
  | array k dims v hne hpos ha => exact .same _
  | char c hc hn => exact .same _
  | string s hs hn => exact .same _
  | strings L ds v hne hpos hL ha hrow => exact .padded L ds.length v (by simpa using hne)

theorem mem_addedNames {n : Bytes} : ∀ {calls : List Call}, n ∈ addedNames calls → ∃ vr, Call.addVar n vr ∈ calls
  | .addVar name vr :: cs, h => by
    have hcons : addedNames (.addVar name vr :: cs) = name :: addedNames cs := rfl
    rw [hcons] at h
    rcases List.mem_cons.1 h with rfl | h
    · exact ⟨vr, List.mem_cons_self⟩
    · obtain ⟨vr', h'⟩ := mem_addedNames h
      exact ⟨vr', List.mem_cons_of_mem _ h'⟩
  | .addAttributes a :: cs, h => by
    have hcons : addedNames (.addAttributes a :: cs) = addedNames cs := rfl
    rw [hcons] at h
    obtain ⟨vr', h'⟩ := mem_addedNames h
    exact ⟨vr', List.mem_cons_of_mem _ h'⟩

theorem eq_of_name {vs : List HVar} (hn : (vs.map (·.name)).Nodup) {v w : HVar} (hv : v ∈ vs) (hw : w ∈ vs)
    (h : v.name = w.name) : v = w := by
  induction vs with
  | nil => cases hv
  | cons x xs ih =>
    rw [List.map_cons, List.nodup_cons] at hn
    rcases List.mem_cons.1 hv with hv | hv <;> rcases List.mem_cons.1 hw with hw | hw
    · rw [hv, hw]
    · exact absurd (List.mem_map.2 ⟨w, hw, by rw [← h, hv]⟩) hn.1
    · exact absurd (List.mem_map.2 ⟨v, hv, by rw [h, hw]⟩) hn.1
    · exact ih hn.2 hv hw

/-- The dimensions of the file are those of the calls. -/
theorem no_dims {calls : List Call} {r : HGroup} {name : Bytes}
    (hnames : r.info.vars.map (·.name) = [] ++ addedNames calls) (hnd : (addedNames calls).Nodup)
    (hv : ∀ name vr, Call.addVar name vr ∈ calls → ∃ as, attrPairs vr.attributes = .ok as ∧
      ⟨name, vr.values, vr.dimensions, as, false⟩ ∈ r.info.vars) (hs : r.subs = [])
    (h : ∀ n' vr', Call.addVar n' vr' ∈ calls → name ∉ vr'.dimensions) : name ∉ dimsOf r := by
  rw [List.nil_append] at hnames
  obtain ⟨i, subs⟩ := r
  have hs : subs = [] := hs
  subst hs
  simp only [dimsOf, dimsOfL, List.append_nil, List.mem_flatMap, not_exists, not_and]
  intro v hm
  have hm' : v.name ∈ addedNames calls := by
    rw [← hnames]
    exact List.mem_map.2 ⟨v, hm, rfl⟩
  obtain ⟨vr, hvr⟩ := mem_addedNames hm'
  obtain ⟨as, -, hin⟩ := hv _ _ hvr
  rw [eq_of_name (by rw [show i.vars.map (·.name) = _ from hnames]; exact hnd) hm hin rfl]
  exact h _ _ hvr

/-! ### C69 -/

/-- **C69.** The same successful calls on a writer of CDF files and on a writer of HDF5 files leave
two files that say the same: the same variables, with the same values, attributes and dimension
names, and the same global attributes. Arrays of strings come out of the CDF file with NUL bytes at
the end of shorter strings, and that file has names for dimensions that were given none.

Partial: the calls must be those of C01, and what they leave must be what C38 is about. A variable
with the name of a dimension, but other dimensions than that, has that dimension only in the HDF5
file (`C42_negation_…`). -/
theorem C69_formats_agree_partial (u : UniTables) (calls : List Call) (cw : Cdf.Writer)
    (h : Session u calls cw) (ma : Nat) (cfile : Bytes) (hc : cw.writeAll = .ok cfile)
    (hf : Fits ma cw cfile) (ord : Order) (hord : OrderOK ord)
    (hallowed : FileAllowed (runCalls u (calls.map sameCall))) :
    ∃ hfile, closeFile false ord (runCalls u (calls.map sameCall)) = .ok hfile ∧ (hfile.length < 2 ^ 63 →
      ∃ hd o G, Cdf.openCdf ma cfile = .ok hd ∧ OpensTo hfile o ∧ (rootGroup o).getGroup (ascii "/") = .ok G ∧
        ∀ (inflate : Bytes → Res Bytes) (fuel : Nat) (before : ReadCalls),
        hd.listVariables.Perm G.listVariables ∧
        (∃ as, G.attributes ⟨inflate, fuel, hfile⟩ = .ok as ∧ Given (some hd.attributes) as) ∧
        ∀ name vr, Call.addVar name vr ∈ calls → ∃ c x,
          Cdf.getVariable ma hd cfile name = .ok c ∧
          (G.getVariable ⟨inflate, fuel, hfile⟩ (readAll ⟨inflate, fuel, hfile⟩ o before) name).2 = .ok x ∧
          SaysTheSame c.values x.values ∧ Given c.attributes x.attrs ∧
          ((∀ n' vr', Call.addVar n' vr' ∈ calls → name ∉ vr'.dimensions) ∨ vr.dimensions = [name] →
            x.dims <+: c.dimensions)) := by
  obtain ⟨hfile, hclose, hread⟩ := C38_round_trip_partial u (calls.map sameCall) ord hord hallowed
  refine ⟨hfile, hclose, fun hl => ?_⟩
  obtain ⟨o, ho, -, hread⟩ := hread hl
  obtain ⟨hd, hopen, hlist, hvals⟩ := Cdf.C01_variable_round_trip_partial u calls cw h ma cfile hc hf
  obtain ⟨hd', hopen', hglob, hattrs⟩ := Cdf.C02_attribute_round_trip_partial u calls cw h ma cfile hc hf
  rw [hopen] at hopen'
  cases hopen'
  obtain ⟨s1, -, s3, s4, s5⟩ := same_run calls Cdf.Writer.init cw newRoot (some OMap.empty) h.run h.fine h.distinct
    (fun _ _ hm => by cases hm) (.inr ⟨rfl, rfl⟩)
  obtain ⟨G, hG, -⟩ := hread (fun _ => .panic) 0 [] [] (ascii "/") (.nil 1) rfl
  refine ⟨hd, o, G, hopen, ho, hG, fun inflate fuel before => ?_⟩
  obtain ⟨G', hG', hR⟩ := hread inflate fuel before [] (ascii "/") (.nil 1) rfl
  rw [hG] at hG'
  cases hG'
  refine ⟨?_, ⟨_, hR.attrs, given_readBack hglob s4⟩, ?_⟩
  · rw [hlist]
    refine (hR.vars.trans ?_).symm
    show ((runCalls u (calls.map sameCall)).info.vars.map (·.name)).Perm _
    rw [runCalls, s1]
    exact List.Perm.refl _
  · intro name vr hm
    obtain ⟨⟨shape, w, hsup⟩, hnames, -⟩ := h.fine _ hm
    obtain ⟨dims, attrs, hgot, hlen, hpre⟩ := hvals name vr hm shape w hsup
    obtain ⟨got, hgot', hra⟩ := hattrs name vr hm
    rw [hgot] at hgot'
    cases hgot'
    obtain ⟨as, has, hmem⟩ := s3 name vr hm
    refine ⟨_, _, hgot, hR.var _ hmem, saysTheSame hsup, given_readBack hra (given_attrPairs has), ?_⟩
    have hva : VarAny vr.dimensions.length vr.values := by
      have hg := hallowed.group
      have hmem' : (⟨name, vr.values, vr.dimensions, as, false⟩ : HVar) ∈ (runCalls u (calls.map sameCall)).info.vars := hmem
      revert hg hmem'
      generalize runCalls u (calls.map sameCall) = r
      rintro ⟨i, subs, -, hv, -⟩ hmem'
      exact (hv _ hmem').val
    have hle := names_le hsup hva
    have hgiven : vr.dimensions <+: dims :=
      prefix_of_get (by rw [hlen]; exact hle) fun i hi => hpre i (by omega) hi
    have hempty : [] ∉ vr.dimensions := fun hx => (hnames _ hx).1 rfl
    intro hcoord
    show dimsRead _ _ _ <+: dims
    unfold dimsRead
    split
    · rename_i hroot
      rcases hcoord with hno | hone
      · exact absurd hroot.2 (no_dims s1 h.distinct s3 s5 hno)
      · rw [← hone]
        exact hgiven
    · exact hgiven

/-! ### An example -/

open Verif.Cdf (u0 exCalls exArray exStrings attrMap)

def foA : HVar := ⟨ascii "a", exArray, [ascii "y", ascii "x"], some [(ascii "units", .str (ascii "mm")),
  (ascii "range", .slice (.num .u16) [.num .u16 1, .num .u16 65535])], false⟩
def foS : HVar := ⟨ascii "s", exStrings, [ascii "y"], none, false⟩
def foN : HVar := ⟨ascii "n", .num .u64 7, [], none, false⟩
def foRoot : HGroup :=
  .mk ⟨ascii "/", [foA, foS, foN], some [(ascii "title", .slice (.num .f64) [.num .f64 0])]⟩ []

theorem fo_run : runCalls u0 (exCalls.map sameCall) = foRoot := by
  have h : ∀ n ∈ [ascii "a", ascii "s", ascii "n"], isValidName u0 n = true := by decide +kernel
  have h0 : Cdf.hasValidNames u0 Cdf.exAttrs = true := by decide +kernel
  have h1 : Cdf.hasValidNames u0 (attrMap [(ascii "title", .slice (.num .f64) [.num .f64 0])]) = true := by
    decide +kernel
  have h2 : Cdf.hasValidNames u0 none = true := rfl
  have ha := h (ascii "a") (by simp)
  have hs := h (ascii "s") (by simp)
  have hn := h (ascii "n") (by simp)
  simp only [runCalls, exCalls, List.map_cons, List.map_nil, List.foldl_cons, List.foldl_nil, sameCall, HCall.run,
    addVarH, addAttributesH, ha, hs, hn, h0, h1, h2]
  rfl

theorem fo_allowed : FileAllowed (runCalls u0 (exCalls.map sameCall)) := by
  rw [fo_run]
  have hk : ∀ p : Bytes × GoVal, p.1 ∉ reservedKeys ∧ (0 : UInt8) ∉ p.1 ∧ p.1.length + valueRoom p.2 ≤ 65000 ∧
      (∀ s ∈ heapStrs p.2, ¬ ascii "__dimref:" <+: s) → AttrAny p.2 → AttrAllowed p :=
    fun p h hv => ⟨h.1, h.2.1, h.2.2.1, hv, h.2.2.2⟩
  refine ⟨⟨.mk _ _ ⟨by decide, ?_, by decide⟩ ?_ ?_ ?_ (by decide) (by simp), by decide, ?_, ?_, by decide, by decide⟩,
    .mk _ _ ?_ ?_ fun _ h => by cases h⟩
  · intro p hp
    rw [List.mem_singleton.1 hp]
    refine hk _ (by decide) (.common _ (.num .f64 [1] _ ⟨_, rfl, rfl, ?_⟩ ?_ (by decide) (by decide) (by decide)))
    · intro x hx
      rw [List.mem_singleton.1 hx]
      exact ⟨_, rfl, by decide⟩
    · exact ⟨by decide, by decide⟩
  · intro v hv
    simp only [List.mem_cons, List.not_mem_nil, or_false] at hv
    rcases hv with rfl | rfl | rfl
    · refine ⟨.common _ _ (.plain _ _ (.num .i32 [2, 3] _ ?_ ⟨by decide, by decide, by decide, by decide⟩)),
        (by decide : ∀ s ∈ heapStrs foA.val, ¬ ascii "__dimref:" <+: s), ⟨by decide, ?_, by decide⟩⟩
      · refine ⟨_, rfl, rfl, ?_⟩
        intro x hx
        simp only [List.mem_cons, List.not_mem_nil, or_false] at hx
        rcases hx with rfl | rfl <;>
        · refine ⟨_, rfl, rfl, ?_⟩
          intro y hy
          simp only [List.mem_cons, List.not_mem_nil, or_false] at hy
          rcases hy with rfl | rfl | rfl <;> exact ⟨_, rfl, by decide⟩
      · intro p hp
        rcases List.mem_cons.1 hp with rfl | hp
        · exact hk _ (by decide) (.common _ (.str _ (by decide) (by decide)))
        · rw [List.mem_singleton.1 hp]
          refine hk _ (by decide) (.common _ (.num .u16 [2] _ ⟨_, rfl, rfl, ?_⟩ ?_ (by decide) (by decide)
            (by decide)))
          · intro x hx
            simp only [List.mem_cons, List.not_mem_nil, or_false] at hx
            rcases hx with rfl | rfl <;> exact ⟨_, rfl, by decide⟩
          · exact ⟨by decide, by decide⟩
    · refine ⟨.common _ _ (.strs [2] _ ⟨_, rfl, rfl, ?_⟩ (by decide) ⟨by decide, by decide, by decide, by decide⟩),
        (by decide : ∀ s ∈ heapStrs foS.val, ¬ ascii "__dimref:" <+: s), fi_none⟩
      intro x hx
      simp only [List.mem_cons, List.not_mem_nil, or_false] at hx
      rcases hx with rfl | rfl <;> exact ⟨_, rfl, by decide, by decide⟩
    · exact ⟨.common _ _ (.plain _ _ (.num .u64 [] _ ⟨7, rfl, by decide⟩ ⟨by decide, by decide, by decide, by decide⟩)),
        (by decide : ∀ s ∈ heapStrs foN.val, ¬ ascii "__dimref:" <+: s), fi_none⟩
  · intro n hn
    exact fi_name n ((by decide : ∀ n ∈ [ascii "a", ascii "s", ascii "n"], n ≠ [] ∧ n.length ≤ 255 ∧ slash ∉ n) n hn)
  · intro v hv hm
    cases hm
  · exact (by decide : ∀ d ∈ dimsOf foRoot, d.length ≤ 255 ∧ d ∉ [])
  · exact fun v hv hd => absurd hd ((by decide : ∀ v ∈ [foA, foS, foN], v.name ∉ dimsOf foRoot) v hv)
  · intro p hp
    rw [List.mem_singleton.1 hp]
    trivial
  · intro v hv
    simp only [List.mem_cons, List.not_mem_nil, or_false] at hv
    rcases hv with rfl | rfl | rfl
    · refine ⟨trivial, fun p hp => ?_⟩
      rcases List.mem_cons.1 hp with rfl | hp
      · trivial
      · rw [List.mem_singleton.1 hp]
        trivial
    · exact ⟨trivial, fun _ h => by cases h⟩
    · exact ⟨trivial, fun _ h => by cases h⟩

/-- The hypotheses of C69 can be met: an array, strings, a number, attributes. -/
example : ∃ cw cfile, Session u0 exCalls cw ∧ cw.writeAll = .ok cfile ∧ Fits 10000 cw cfile ∧
    OrderOK (fun _ vs => vs) ∧ FileAllowed (runCalls u0 (exCalls.map sameCall)) ∧
    Call.addVar (ascii "s") ⟨exStrings, [ascii "y"], none⟩ ∈ exCalls := by
  obtain ⟨cw, cfile, h1, h2, h3⟩ := Cdf.exSession
  exact ⟨cw, cfile, h1, h2, h3, fun _ vs => List.Perm.refl vs, fo_allowed, by simp [exCalls]⟩

end Verif.H5
