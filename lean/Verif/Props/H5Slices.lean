import Verif.Lemmas.H5Slices
import Verif.Props.H5Dims
/-!
C22, C44, C50: parts of HDF5 variables, and what reading them leaves behind.
-/
namespace Verif.H5

/-- The file that was written, as far as the theorems below need it: `reads` is what holds of it. -/
private theorem sl_file (u : UniTables) (cs : List HCall) (ord : Order) (hord : OrderOK ord)
    (hallowed : FileAllowed (runCalls u cs)) :
    ∃ file, closeFile false ord (runCalls u cs) = .ok file ∧ (file.length < 2 ^ 63 →
      ∃ o, OpensTo file o ∧ ∀ (inflate : Bytes → Res Bytes) (fuel : Nat) (names : List Bytes) (path : Bytes),
        PathOf names path → path.head? = some 47 → ∀ g v, (runCalls u cs).at? names = some g → v ∈ g.info.vars →
          ∃ G h, (rootGroup o).getGroup path = .ok G ∧ G.getVarGetter ⟨inflate, fuel, file⟩ v.name = .ok h ∧
            G.root = o ∧ G.findVariable v.name = some h.obj ∧ VarIn ⟨inflate, fuel, file⟩ o v h.obj ∧
            h.dims = dimsRead (runCalls u cs) names v ∧ h.attrs = shown v.attrs ∧
            varMeta ⟨inflate, fuel, file⟩ o h.obj = .ok (h.dims, h.attrs) ∧
            (o.info.addr :: addrsBelow o).Nodup ∧
            ∀ (cut : Bytes → Prop) (calls : List ReadCall), (∀ c ∈ calls, c.Fine (runCalls u cs)) →
              (∀ c ∈ calls, ∀ n, c.Cuts n → cut n) →
              Held cut o (runReads ⟨inflate, fuel, file⟩ o calls)) := by
  obtain ⟨file, hc, h⟩ := file_reads u cs ord hord hallowed
  refine ⟨file, hc, fun hl => ?_⟩
  obtain ⟨env, root', ds, o, ho, hctx⟩ := h hl
  refine ⟨o, ho, fun inflate fuel names path hp habs g v hat hv => ?_⟩
  have c := hctx inflate fuel
  have hgrp := c.group names
  rw [hat] at hgrp
  obtain ⟨o', g', h1, h2, h3, h4⟩ := hgrp
  have hG : (rootGroup o).getGroup path = .ok { root := o, obj := o', name := slash :: dirs names } := by
    rw [C39_absolute (rootGroup o) path names hp habs, lookup]
    simp only [rootGroup, h1]
    rfl
  obtain ⟨k1, -⟩ := c.getter (G := { root := o, obj := o', name := slash :: dirs names }) hat rfl h1 h2 h3 h4
  obtain ⟨h, q1, q2, q3, q4, q5, q6⟩ := k1 v hv
  exact ⟨_, h, hG, q1, rfl, q2, q3, q4, q5, q6, c.written.nodup, fun cut calls hf hcut => c.heldAll calls hf hcut⟩

/-! ### C44, C50 -/

/-- C44 and C50, for files that were written. After any history of reading calls that stay inside
the variables, the getter of every variable has its shape, length, attributes and dimension names;
`Values` returns the value, `GetSlice(b, e)` the rows from `b` to `e` of it, and `GetSliceMD` the
box. `b > e` and bounds of the wrong number are refused. Missing: slices with `b = e` of number
sequences, for which it fails (`C44_negation_empty_sequences`), histories with slices outside of a
variable, and files outside `FileAllowed`. -/
theorem C44_written_partial (u : UniTables) (cs : List HCall) (ord : Order) (hord : OrderOK ord)
    (hallowed : FileAllowed (runCalls u cs)) :
    ∃ file, closeFile false ord (runCalls u cs) = .ok file ∧ (file.length < 2 ^ 63 →
      ∃ o, OpensTo file o ∧
        ∀ (inflate : Bytes → Res Bytes) (fuel : Nat) (before : List ReadCall),
          (∀ c ∈ before, c.Fine (runCalls u cs)) →
          ∀ (names : List Bytes) (path : Bytes), PathOf names path → path.head? = some 47 →
          ∀ g v, (runCalls u cs).at? names = some g → v ∈ g.info.vars →
            ∃ G h, (rootGroup o).getGroup path = .ok G ∧
              G.getVarGetter ⟨inflate, fuel, file⟩ v.name = .ok h ∧
              h.dims = dimsRead (runCalls u cs) names v ∧
              GetterReads ⟨inflate, fuel, file⟩ v h (runReads ⟨inflate, fuel, file⟩ o before)) := by
  obtain ⟨file, hc, h⟩ := sl_file u cs ord hord hallowed
  refine ⟨file, hc, fun hl => ?_⟩
  obtain ⟨o, ho, h⟩ := h hl
  refine ⟨o, ho, fun inflate fuel before hf names path hp habs g v hat hv => ?_⟩
  obtain ⟨G, h, q1, q2, -, -, q3, q4, q5, -, -, q6⟩ := h inflate fuel names path hp habs g v hat hv
  exact ⟨G, h, q1, q2, q4, q3.reads (q6 (fun _ => True) before hf fun _ _ _ _ => trivial) q5⟩

/-- C50. `GetSliceMD` on a variable of a written file returns the box of its value, whatever has been
read before. Missing: as in `C44_written_partial`; and scalars, for which it panics
(`C50_negation_scalar`). -/
theorem C50_box_partial (u : UniTables) (cs : List HCall) (ord : Order) (hord : OrderOK ord)
    (hallowed : FileAllowed (runCalls u cs)) :
    ∃ file, closeFile false ord (runCalls u cs) = .ok file ∧ (file.length < 2 ^ 63 →
      ∃ o, OpensTo file o ∧
        ∀ (inflate : Bytes → Res Bytes) (fuel : Nat) (before : List ReadCall),
          (∀ c ∈ before, c.Fine (runCalls u cs)) →
          ∀ (names : List Bytes) (path : Bytes), PathOf names path → path.head? = some 47 →
          ∀ g v, (runCalls u cs).at? names = some g → v ∈ g.info.vars → v.dims ≠ [] →
          ∀ rs : List (Nat × Nat), InBox rs v.extents →
            ((∀ r, rs.head? = some r → r.1 < r.2) ∨ ¬ Sequences v.dims.length v.val) →
            ∃ G h, (rootGroup o).getGroup path = .ok G ∧
              G.getVarGetter ⟨inflate, fuel, file⟩ v.name = .ok h ∧
              (h.getSliceMD ⟨inflate, fuel, file⟩ (runReads ⟨inflate, fuel, file⟩ o before)
                (rs.map fun r => (r.1 : Int)) (rs.map fun r => (r.2 : Int))).2 = .ok (boxSlice rs v.val)) := by
  obtain ⟨file, hc, h⟩ := C44_written_partial u cs ord hord hallowed
  refine ⟨file, hc, fun hl => ?_⟩
  obtain ⟨o, ho, h⟩ := h hl
  refine ⟨o, ho, fun inflate fuel before hf names path hp habs g v hat hv hd rs hb hq => ?_⟩
  obtain ⟨G, h, q1, q2, -, q3⟩ := h inflate fuel before hf names path hp habs g v hat hv
  exact ⟨G, h, q1, q2, q3.box hd rs hb hq⟩

/-! ### C22 -/

/-- C22, for HDF5 files that were written. After any history of reading calls that stay inside the
variables, `GetVariable` returns what it returns in a file just opened, if no call has asked for a
part of a variable of this name; and `Values` and `GetSlice` return what they return in a file just
opened. Missing: `GetVariable` after a slice of the same variable, for which it fails
(`C22_negation_hdf5`); empty slices of number sequences; histories with slices outside of a variable;
and files outside `FileAllowed`. -/
theorem C22_hdf5_partial (u : UniTables) (cs : List HCall) (ord : Order) (hord : OrderOK ord)
    (hallowed : FileAllowed (runCalls u cs)) :
    ∃ file, closeFile false ord (runCalls u cs) = .ok file ∧ (file.length < 2 ^ 63 →
      ∃ o, OpensTo file o ∧
        ∀ (inflate : Bytes → Res Bytes) (fuel : Nat) (before : List ReadCall),
          (∀ c ∈ before, c.Fine (runCalls u cs)) →
          ∀ (names : List Bytes) (path : Bytes), PathOf names path → path.head? = some 47 →
          ∀ g v, (runCalls u cs).at? names = some g → v ∈ g.info.vars →
            ∃ G h, (rootGroup o).getGroup path = .ok G ∧
              G.getVarGetter ⟨inflate, fuel, file⟩ v.name = .ok h ∧
              ((∀ c ∈ before, ¬ c.Cuts v.name) →
                (G.getVariable ⟨inflate, fuel, file⟩ (runReads ⟨inflate, fuel, file⟩ o before) v.name).2 =
                  (G.getVariable ⟨inflate, fuel, file⟩ [] v.name).2 ∧
                (G.getVariable ⟨inflate, fuel, file⟩ [] v.name).2.isOk = true) ∧
              (h.values ⟨inflate, fuel, file⟩ (runReads ⟨inflate, fuel, file⟩ o before)).2 =
                (h.values ⟨inflate, fuel, file⟩ []).2 ∧
              ∀ b e, RowsIn v b e → (b < e ∨ ¬ Sequences v.dims.length v.val) →
                (h.getSlice ⟨inflate, fuel, file⟩ (runReads ⟨inflate, fuel, file⟩ o before) b e).2 =
                  (h.getSlice ⟨inflate, fuel, file⟩ [] b e).2 ∧
                (h.getSlice ⟨inflate, fuel, file⟩ [] b e).2.isOk = true) := by
  obtain ⟨file, hc, h⟩ := sl_file u cs ord hord hallowed
  refine ⟨file, hc, fun hl => ?_⟩
  obtain ⟨o, ho, h⟩ := h hl
  refine ⟨o, ho, fun inflate fuel before hf names path hp habs g v hat hv => ?_⟩
  obtain ⟨G, h, q1, q2, r1, r2, q3, q4, q5, r3, -, q6⟩ := h inflate fuel names path hp habs g v hat hv
  have a1 := q3.reads (q6 (fun _ => True) before hf fun _ _ _ _ => trivial) q5
  have a2 := q3.reads (held_nil (fun _ => True) o) q5
  refine ⟨G, h, q1, q2, fun hcut => ?_, by rw [a1.values, a2.values], fun b e hbe hq => ?_⟩
  · have e2 := q3.getVariable r1 r2 r3 (held_nil (fun n => n ≠ v.name) o) (.inl (by simp))
    rw [e2, q3.getVariable r1 r2 r3 (q6 (fun n => n ≠ v.name) before hf fun c hc n hn => by
      rintro rfl
      exact hcut c hc hn) (.inl (by simp))]
    exact ⟨rfl, rfl⟩
  · obtain ⟨h1, h2, h3, h4⟩ := hbe
    by_cases hd : v.dims = []
    · have hr : v.rows = 1 := by
        have := q3.rank
        rw [hd] at this
        rw [HVar.rows, List.length_eq_zero_iff.1 this]
        rfl
      have := h4 hd
      have hb : b = 0 := by omega
      have he : e = 1 := by omega
      subst hb he
      rw [a1.scalar hd, a2.scalar hd]
      exact ⟨rfl, rfl⟩
    · obtain ⟨b', rfl⟩ := Int.eq_ofNat_of_zero_le h1
      obtain ⟨e', rfl⟩ := Int.eq_ofNat_of_zero_le (Int.le_trans h1 h2)
      rw [a1.slice hd b' e' (by omega) (by omega) (hq.imp_left fun h => by omega),
        a2.slice hd b' e' (by omega) (by omega) (hq.imp_left fun h => by omega)]
      exact ⟨rfl, rfl⟩

/-! ### Examples -/

/-- Two numbers, two sequences of numbers, and a scalar. -/
def slCalls : List HCall :=
  [.addVar [] (ascii "x") (.slice (.num .i16) [.num .i16 1, .num .i16 2]) [ascii "d"] none,
   .addVar [] (ascii "s") (.slice (.slice (.num .i8)) [.slice (.num .i8) [.num .i8 5],
     .slice (.num .i8) [.num .i8 6, .num .i8 7]]) [ascii "d"] none,
   .addVar [] (ascii "m") (.num .i8 9) [] none]

def slX : HVar := ⟨ascii "x", .slice (.num .i16) [.num .i16 1, .num .i16 2], [ascii "d"], none, false⟩
def slS : HVar := ⟨ascii "s", .slice (.slice (.num .i8)) [.slice (.num .i8) [.num .i8 5],
     .slice (.num .i8) [.num .i8 6, .num .i8 7]], [ascii "d"], none, false⟩
def slM : HVar := ⟨ascii "m", .num .i8 9, [], none, false⟩
def slRoot : HGroup := .mk { name := ascii "/", vars := [slX, slS, slM], attrs := some [] } []

theorem sl_run : runCalls fiU slCalls = slRoot := by
  obtain ⟨hx, hg, hs, hh, hm, h0, h1, h2, h3⟩ := fi_valid
  simp only [runCalls, slCalls, List.foldl_cons, List.foldl_nil]
  rw [fi_add _ _ _ _ _ _ _ hx h0 rfl rfl, fi_add _ _ _ _ _ _ _ hs h0 rfl rfl, fi_add _ _ _ _ _ _ _ hm h0 rfl rfl]
  rfl

theorem sl_allowed : FileAllowed (runCalls fiU slCalls) := by
  rw [sl_run]
  have hnum : ∀ (xs : List GoVal), (∀ x ∈ xs, ∃ b, x = .num .i8 b ∧ b < 256) → xs.length < 2 ^ 32 →
      Row .i8 (.slice (.num .i8) xs) := fun xs h hl => ⟨xs, rfl, fun y hy => h y hy, hl⟩
  refine ⟨⟨.mk _ _ ⟨by simp, by simp, by simp⟩ ?_ ?_ ?_ (by decide) (by simp), by decide, ?_, ?_, by decide, by decide⟩,
    .mk _ _ (fun _ h => by cases h) ?_ fun _ h => by cases h⟩
  · intro v hv
    simp only [List.mem_cons, List.not_mem_nil, or_false] at hv
    rcases hv with rfl | rfl | rfl
    · refine ⟨.common _ _ (.plain _ _ (.num .i16 [2] _ ⟨_, rfl, rfl, ?_⟩ ⟨by decide, by decide, by decide, by decide⟩)),
        (by decide : ∀ s ∈ heapStrs slX.val, ¬ ascii "__dimref:" <+: s), fi_none⟩
      intro x hx
      simp only [List.mem_cons, List.not_mem_nil, or_false] at hx
      rcases hx with rfl | rfl <;> exact ⟨_, rfl, by decide⟩
    · refine ⟨.common _ _ (.rows .i8 [2] _ ⟨_, rfl, rfl, ?_⟩ ⟨by decide, by decide, by decide, by decide⟩ (by decide)),
        (by decide : ∀ s ∈ heapStrs slS.val, ¬ ascii "__dimref:" <+: s), fi_none⟩
      intro x hx
      simp only [List.mem_cons, List.not_mem_nil, or_false] at hx
      rcases hx with rfl | rfl
      · exact hnum _ (by simp) (by decide)
      · exact hnum _ (by simp) (by decide)
    · exact ⟨.common _ _ (.plain _ _ (.num .i8 [] _ ⟨9, rfl, by decide⟩ ⟨by decide, by decide, by decide, by decide⟩)),
        (by decide : ∀ s ∈ heapStrs slM.val, ¬ ascii "__dimref:" <+: s), fi_none⟩
  · intro n hn
    exact fi_name n ((by decide : ∀ n ∈ [ascii "x", ascii "s", ascii "m"], n ≠ [] ∧ n.length ≤ 255 ∧ slash ∉ n) n hn)
  · intro v hv hm
    cases hm
  · exact (by decide : ∀ d ∈ dimsOf slRoot, d.length ≤ 255 ∧ d ∉ [])
  · exact fun v hv hd => absurd hd ((by decide : ∀ v ∈ [slX, slS, slM], v.name ∉ dimsOf slRoot) v hv)
  · intro v hv
    simp only [List.mem_cons, List.not_mem_nil, or_false] at hv
    rcases hv with rfl | rfl | rfl <;> exact ⟨trivial, fun _ h => by cases h⟩

theorem path_unique {a b : List Bytes} {p : Bytes} (h1 : PathOf a p) (h2 : PathOf b p) : a = b := by
  rw [← h1.split, ← h2.split]

/-- Calls before: a row of `x`, the second sequence as a box, `Values` of `x`, a slice that is
refused. -/
def slBefore : List ReadCall :=
  [.slice [47] (ascii "x") 1 2, .box [47] (ascii "s") [1] [2], .values [47] (ascii "x"),
   .slice [47] (ascii "x") 2 1, .whole [47] (ascii "x")]

theorem sl_fine : ∀ c ∈ slBefore, c.Fine (runCalls fiU slCalls) := by
  rw [sl_run]
  intro c hc
  have hx : ∀ names v, PathOf names [47] → slRoot.var? names (ascii "x") = some v → v = slX := by
    intro names v hp hv
    rw [path_unique hp (.nil 1)] at hv
    exact (Option.some.inj hv).symm
  have hs : ∀ names v, PathOf names [47] → slRoot.var? names (ascii "s") = some v → v = slS := by
    intro names v hp hv
    rw [path_unique hp (.nil 1)] at hv
    exact (Option.some.inj hv).symm
  simp only [slBefore, List.mem_cons, List.not_mem_nil, or_false] at hc
  rcases hc with rfl | rfl | rfl | rfl | rfl
  · intro names v hp hv
    rw [hx names v hp hv]
    exact .inr ⟨by decide, by decide, by decide, by decide⟩
  · rintro names v hp hv b bs ⟨⟩ e es ⟨⟩
    rw [hs names v hp hv]
    exact .inr ⟨by decide, by decide, by decide, by decide⟩
  · trivial
  · intro names v hp hv
    exact .inl (by decide)
  · trivial

/-- What the reader makes of this file; `x`, `q` and `m` are the getters. -/
structure SlFacts (s : Src) (G : Group) (x q m : HGetter) : Prop where
  small : s.file.length < 2 ^ 63
  len : x.len = 2 ∧ q.len = 2 ∧ m.shape = []
  fresh : ∃ v, (G.getVariable s [] (ascii "x")).2 = .ok v ∧
    v.values = .slice (.num .i16) [.num .i16 1, .num .i16 2]
  sticky : ∃ v, (G.getVariable s (x.getSlice s [] 1 2).1 (ascii "x")).2 = .ok v ∧
    v.values = .slice (.num .i16) [.num .i16 2]
  scalar : (m.values s []).2 = .ok (.num .i8 9)
  spoiled : (m.getSlice s [] 0 0).2 = .err .eof ∧ (m.values s (m.getSlice s [] 0 0).1).2 = .err .eof
  below : (x.getSlice s [] (-1) 1).2 = .err .corrupted ∧ (x.getSliceMD s [] [-1] [1]).2 = .err .corrupted
  empty : (q.getSlice s [] 1 1).2 = .panic
  past : (x.getSlice s [] 0 3).2 = .ok (.slice (.num .i16) [.num .i16 1, .num .i16 2, .num .i16 0])
  pastBox : (x.getSliceMD s [] [0] [3]).2 = .ok (.slice (.num .i16) [.num .i16 1, .num .i16 2, .num .i16 0])

/-- The same as a computation. -/
def slTest (s : Src) (G : Group) (x q m : HGetter) : Bool :=
  decide (s.file.length < 2 ^ 63) && decide (x.len = 2 ∧ q.len = 2 ∧ m.shape = []) &&
  (match (G.getVariable s [] (ascii "x")).2 with
    | .ok v => decide (v.values = .slice (.num .i16) [.num .i16 1, .num .i16 2])
    | _ => false) &&
  (match (G.getVariable s (x.getSlice s [] 1 2).1 (ascii "x")).2 with
    | .ok v => decide (v.values = .slice (.num .i16) [.num .i16 2])
    | _ => false) &&
  decide ((m.values s []).2 = .ok (.num .i8 9)) &&
  decide ((m.getSlice s [] 0 0).2 = .err .eof ∧ (m.values s (m.getSlice s [] 0 0).1).2 = .err .eof) &&
  decide ((x.getSlice s [] (-1) 1).2 = .err .corrupted ∧ (x.getSliceMD s [] [-1] [1]).2 = .err .corrupted) &&
  decide ((q.getSlice s [] 1 1).2 = .panic) &&
  decide ((x.getSlice s [] 0 3).2 = .ok (.slice (.num .i16) [.num .i16 1, .num .i16 2, .num .i16 0])) &&
  decide ((x.getSliceMD s [] [0] [3]).2 = .ok (.slice (.num .i16) [.num .i16 1, .num .i16 2, .num .i16 0]))

theorem SlFacts.of {s : Src} {G : Group} {x q m : HGetter} (h : slTest s G x q m = true) : SlFacts s G x q m := by
  unfold slTest at h
  simp only [Bool.and_eq_true] at h
  obtain ⟨⟨⟨⟨⟨⟨⟨⟨⟨h1, h2⟩, h3⟩, h4⟩, h5⟩, h6⟩, h0⟩, h7⟩, h8⟩, h9⟩ := h
  refine ⟨of_decide_eq_true h1, of_decide_eq_true h2, ?_, ?_, of_decide_eq_true h5, of_decide_eq_true h6, of_decide_eq_true h0, of_decide_eq_true h7,
    of_decide_eq_true h8, of_decide_eq_true h9⟩
  · split at h3
    · exact ⟨_, by assumption, of_decide_eq_true h3⟩
    · cases h3
  · split at h4
    · exact ⟨_, by assumption, of_decide_eq_true h4⟩
    · cases h4

/-- Writing, opening, and the test. -/
def slCase : Bool :=
  match closeFile false (fun _ vs => vs) slRoot with
  | .ok file =>
    match openN 10 file with
    | .ok o =>
      match (rootGroup o).getGroup [47] with
      | .ok G =>
        match G.getVarGetter ⟨fun b => .ok b, 0, file⟩ (ascii "x"),
            G.getVarGetter ⟨fun b => .ok b, 0, file⟩ (ascii "s"),
            G.getVarGetter ⟨fun b => .ok b, 0, file⟩ (ascii "m") with
        | .ok x, .ok q, .ok m => slTest ⟨fun b => .ok b, 0, file⟩ G x q m
        | _, _, _ => false
      | _ => false
    | _ => false
  | _ => false

theorem sl_case : ∃ file o G x q m, closeFile false (fun _ vs => vs) (runCalls fiU slCalls) = .ok file ∧
    OpensTo file o ∧ (rootGroup o).getGroup [47] = .ok G ∧
    G.getVarGetter ⟨fun b => .ok b, 0, file⟩ (ascii "x") = .ok x ∧
    G.getVarGetter ⟨fun b => .ok b, 0, file⟩ (ascii "s") = .ok q ∧
    G.getVarGetter ⟨fun b => .ok b, 0, file⟩ (ascii "m") = .ok m ∧
    SlFacts ⟨fun b => .ok b, 0, file⟩ G x q m := by
  have h : slCase = true := by decide +kernel
  rw [sl_run]
  unfold slCase at h
  split at h
  · split at h
    · split at h
      · split at h
        · rename_i file hc _ o ho _ G hG _ _ _ x q m hx hq hm
          exact ⟨file, o, G, x, q, m, hc, ⟨10, ho⟩, hG, hx, hq, hm, .of h⟩
        · cases h
      · cases h
    · cases h
  · cases h

-- the hypotheses hold for this file and these calls, and the file is not too long
example : FileAllowed (runCalls fiU slCalls) ∧ (∀ c ∈ slBefore, c.Fine (runCalls fiU slCalls)) ∧
    (∀ c ∈ slBefore, ¬ c.Cuts (ascii "m")) ∧ RowsIn slX 1 2 ∧ InBox [(1, 2)] slS.extents ∧
    Sequences slS.dims.length slS.val ∧
    ∃ file, closeFile false (fun _ vs => vs) (runCalls fiU slCalls) = .ok file ∧ file.length < 2 ^ 63 := by
  refine ⟨sl_allowed, sl_fine, ?_, ⟨by decide, by decide, by decide, by decide⟩, ⟨by decide, by decide, trivial⟩, ?_, ?_⟩
  · intro c hc
    simp only [slBefore, List.mem_cons, List.not_mem_nil, or_false] at hc
    rcases hc with rfl | rfl | rfl | rfl | rfl <;> simp [ReadCall.Cuts] <;> decide
  · refine ⟨.i8, [2], rfl, _, rfl, rfl, ?_⟩
    intro x hx
    simp only [List.mem_cons, List.not_mem_nil, or_false] at hx
    rcases hx with rfl | rfl
    · exact ⟨_, rfl, by simp [NumVal, Kind.size], by decide⟩
    · exact ⟨_, rfl, by simp [NumVal, Kind.size], by decide⟩
  · obtain ⟨file, _, _, _, _, _, h1, _, _, _, _, _, h2⟩ := sl_case
    exact ⟨file, h1, h2.small⟩

/-- C22 fails for HDF5 files: `GetSlice` on a getter changes what `GetVariable` returns afterwards. In
a file just opened `x` has two values, and after `GetSlice(1, 2)` it has one. And a slice of a scalar
that does not exist is an error, and so is every later read of the scalar. -/
theorem C22_negation_hdf5 :
    ∃ file o G x m, closeFile false (fun _ vs => vs) (runCalls fiU slCalls) = .ok file ∧ OpensTo file o ∧
      (rootGroup o).getGroup [47] = .ok G ∧
      G.getVarGetter ⟨fun b => .ok b, 0, file⟩ (ascii "x") = .ok x ∧
      G.getVarGetter ⟨fun b => .ok b, 0, file⟩ (ascii "m") = .ok m ∧
      (∃ v, (G.getVariable ⟨fun b => .ok b, 0, file⟩ [] (ascii "x")).2 = .ok v ∧
        v.values = .slice (.num .i16) [.num .i16 1, .num .i16 2]) ∧
      (∃ v, (G.getVariable ⟨fun b => .ok b, 0, file⟩ (x.getSlice ⟨fun b => .ok b, 0, file⟩ [] 1 2).1 (ascii "x")).2 = .ok v ∧
        v.values = .slice (.num .i16) [.num .i16 2]) ∧
      (m.values ⟨fun b => .ok b, 0, file⟩ []).2 = .ok (.num .i8 9) ∧
      (m.values ⟨fun b => .ok b, 0, file⟩ (m.getSlice ⟨fun b => .ok b, 0, file⟩ [] 0 0).1).2 = .err .eof := by
  obtain ⟨file, o, G, x, q, m, h1, h2, h3, h4, -, h5, h6⟩ := sl_case
  exact ⟨file, o, G, x, m, h1, h2, h3, h4, h5, h6.fresh, h6.sticky, h6.scalar, h6.spoiled.2⟩

/-- C44 fails for empty slices of number sequences: `GetSlice(1, 1)` panics. -/
theorem C44_negation_empty_sequences :
    ∃ file o G h, closeFile false (fun _ vs => vs) (runCalls fiU slCalls) = .ok file ∧ OpensTo file o ∧
      (rootGroup o).getGroup [47] = .ok G ∧
      G.getVarGetter ⟨fun b => .ok b, 0, file⟩ (ascii "s") = .ok h ∧ h.len = 2 ∧
      (h.getSlice ⟨fun b => .ok b, 0, file⟩ [] 1 1).2 = .panic := by
  obtain ⟨file, o, G, x, q, m, h1, h2, h3, -, h4, -, h6⟩ := sl_case
  exact ⟨file, o, G, q, h1, h2, h3, h4, h6.len.2.1, h6.empty⟩

/-- C50 fails for scalars: `GetSliceMD` without bounds panics, whatever the file and the calls
before. -/
theorem C50_negation_scalar (s : Src) (h : HGetter) (t : VTab) (hs : h.shape = []) :
    (h.getSliceMD s t [] []).2 = .panic := by
  unfold HGetter.getSliceMD
  simp [hs]

-- there are such getters
example : ∃ file o G h, closeFile false (fun _ vs => vs) (runCalls fiU slCalls) = .ok file ∧ OpensTo file o ∧
      (rootGroup o).getGroup [47] = .ok G ∧
      G.getVarGetter ⟨fun b => .ok b, 0, file⟩ (ascii "m") = .ok h ∧ h.shape = [] := by
  obtain ⟨file, o, G, x, q, m, h1, h2, h3, -, -, h4, h6⟩ := sl_case
  exact ⟨file, o, G, m, h1, h2, h3, h4, h6.len.2.2⟩

/-- C11, negation for HDF5 files: `GetSlice` past the end of a variable with two values returns three,
and `GetSliceMD` as well. -/
theorem C11_negation_hdf5 :
    ∃ file o G h, closeFile false (fun _ vs => vs) (runCalls fiU slCalls) = .ok file ∧ OpensTo file o ∧
      (rootGroup o).getGroup [47] = .ok G ∧
      G.getVarGetter ⟨fun b => .ok b, 0, file⟩ (ascii "x") = .ok h ∧ h.len = 2 ∧
      (h.getSlice ⟨fun b => .ok b, 0, file⟩ [] 0 3).2 =
        .ok (.slice (.num .i16) [.num .i16 1, .num .i16 2, .num .i16 0]) ∧
      (h.getSliceMD ⟨fun b => .ok b, 0, file⟩ [] [0] [3]).2 =
        .ok (.slice (.num .i16) [.num .i16 1, .num .i16 2, .num .i16 0]) := by
  obtain ⟨file, o, G, x, q, m, h1, h2, h3, h4, -, -, h6⟩ := sl_case
  exact ⟨file, o, G, x, h1, h2, h3, h4, h6.len.1, h6.past, h6.pastBox⟩

/-- C11 for HDF5: a slice that ends before it begins is refused, with `GetSlice` and in any dimension
of `GetSliceMD`; so is a wrong number of bounds. Missing, and false of the code: bounds outside of the
variable (`C11_negation_hdf5`). -/
theorem C11_reversed_hdf5_partial (s : Src) (h : HGetter) (t : VTab) :
    (∀ b e : Int, e < b → h.getSlice s t b e = (t, .err .invalidSlice)) ∧
    (∀ b e : List Int, b.length ≠ h.shape.length ∨ e.length ≠ h.shape.length →
      h.getSliceMD s t b e = (t, .err .dimensionality)) ∧
    (∀ b e : List Int, b.length = h.shape.length → e.length = h.shape.length →
      (∃ i, ∃ (h1 : i < b.length) (h2 : i < e.length), e[i] < b[i]) →
      h.getSliceMD s t b e = (t, .err .invalidSlice)) := by
  refine ⟨?_, ?_, ?_⟩
  · intro b e hlt
    rw [HGetter.getSlice, if_neg (by omega), if_pos hlt]
  · intro b e hne
    unfold HGetter.getSliceMD
    rw [if_pos hne]
  · intro b e h1 h2 hex
    obtain ⟨i, hi1, hi2, hlt⟩ := hex
    unfold HGetter.getSliceMD
    rw [if_neg (by omega), if_pos]
    rw [List.any_eq_true]
    refine ⟨(b[i], e[i]), ?_, by simpa using hlt⟩
    have hl : i < (b.zip e).length := by rw [List.length_zip]; omega
    have : (b.zip e)[i] = (b[i], e[i]) := by simp
    rw [← this]
    exact List.getElem_mem hl

end Verif.H5
