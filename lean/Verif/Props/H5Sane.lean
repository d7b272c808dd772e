import Verif.Lemmas.H5SaneLists
import Verif.Lemmas.H5SaneSuper
import Verif.Lemmas.H5SaneCont
import Verif.Lemmas.H5SaneHeap
import Verif.Model.H5Api
import Verif.Props.H5OthersEx
import Verif.Lemmas.H5Append
/-!
C62: whatever bytes a file consists of, when it can be opened its groups are consistent.
C63: an accepted file has no damaged header. C64: a file that is cut off is refused. C65: no file makes the
reader crash.
-/
namespace Verif.H5
open Sane Fmt

/-- The groups that can be reached from the root group by calls of `GetGroup`, with any arguments. -/
inductive Reached (o : Obj) : Group → Prop
  | root : Reached o (rootGroup o)
  | step (G H : Group) (path : Bytes) : Reached o G → G.getGroup path = .ok H → Reached o H

/-- C62. In a file that can be opened, two members of a group never have the same name, in the whole
tree of groups. -/
theorem C62_names (file : Bytes) (o : Obj) (h : OpensTo file o) : Sane (fun _ => True) o := by
  obtain ⟨n, h⟩ := h
  exact (openN_sane file n h).1.mono fun _ _ => trivial

/-- C62. No object occurs twice below the root group, however the file links its objects. -/
theorem C62_addresses (file : Bytes) (o : Obj) (h : OpensTo file o) : (allAddrs o.kids).Nodup := by
  obtain ⟨n, h⟩ := h
  exact (openN_sane file n h).2.1

theorem follow_append (o : Obj) (a b : List Bytes) :
    follow o (a ++ b) = (follow o a).bind fun o' => follow o' b := by
  induction a generalizing o with
  | nil =>
    simp only [List.nil_append, follow]
    split
    · rfl
    · rename_i hg
      cases b <;> simp [follow, hg]
  | cons n a ih =>
    simp only [List.cons_append, follow]
    split
    · split
      · exact ih _
      · rfl
    · rfl

/-- What is known of a group that was reached. -/
theorem Reached.at {o : Obj} (hg : o.info.isGroup = true) (hpl : PlainNames o) {G : Group} (h : Reached o G) :
    ∃ names, (∀ n ∈ names, n ≠ [] ∧ slash ∉ n) ∧ follow o names = some G.obj ∧ G.root = o ∧
      G.name = slash :: dirs names := by
  induction h with
  | root => exact ⟨[], by simp, by simp [follow, hg, rootGroup], rfl, rfl⟩
  | step G H path hG hH ih =>
    obtain ⟨names, h1, h2, h3, h4⟩ := ih
    obtain ⟨ns, hp⟩ := C39_every_path path
    by_cases habs : path.head? = some 47
    · rw [C39_absolute G path ns hp habs, lookup, h3] at hH
      split at hH
      · rename_i o' ho'
        cases hH
        exact ⟨ns, hp.names, ho', rfl, rfl⟩
      · cases hH
    · by_cases hne : path = []
      · subst hne
        have hpo : PlainNames G.obj := follow_below (fun o ho => ho.inv.2) h2 hpl
        have hchild : G.obj.child [] = none := by
          rw [Obj.child, List.find?_eq_none]
          intro k hk
          simpa using (hpo.inv.1 k hk).1
        have hcan : canonicalizePath [] = [] := by decide
        have hne : G.name ≠ G.name ++ [slash] := fun e => by
          have := congrArg List.length e
          simp at this
        have hgo := follow_group h2
        have hr : sgDescend (G.name ++ [slash]) (G.name.length + 1 + 2) G.obj G.name = .ok none := by
          rw [sgDescend, if_neg (by simp [hgo]), if_neg hne, if_neg (by simp), List.drop_left]
          have : (splitSlash [slash]).headD [] = [] := by decide
          rw [this, hchild]
        simp only [Group.getGroup, hcan] at hH
        simp only [List.head?_nil, reduceCtorEq, ↓reduceIte, List.append_nil, List.length_append, List.length_cons, List.length_nil,
          Nat.zero_add, hr] at hH
      · rw [C39_relative_partial G path ns hp habs hne, lookup] at hH
        split at hH
        · rename_i o' ho'
          cases hH
          refine ⟨names ++ ns, ?_, ?_, h3, ?_⟩
          · intro n hn
            rcases List.mem_append.1 hn with hn | hn
            · exact h1 n hn
            · exact hp.names n hn
          · rw [follow_append, h2]
            exact ho'
          · rw [h4, dirs_append]
            rfl
        · cases hH

theorem sgDescend_below {q : Obj → Prop} (hq : ∀ o, q o → ∀ k ∈ o.kids, q k) (groupName : Bytes)
    (fuel : Nat) : ∀ (o : Obj) (group : Bytes) (o' : Obj), q o →
      sgDescend groupName fuel o group = .ok (some o') → q o' := by
  induction fuel with
  | zero => intro o group o' _ h; cases h
  | succ fuel ih =>
    intro o group o' ho h
    rw [sgDescend] at h
    split at h
    · cases h
    split at h
    · cases h; exact ho
    split at h
    · cases h
    split at h
    · cases h
    · rename_i c hc
      exact ih c _ o' (hq o ho c (List.mem_of_find?_eq_some hc)) h

/-- What holds of the tree and of everything below holds of a group that was reached. -/
theorem Reached.inherits {q : Obj → Prop} (hq : ∀ o, q o → ∀ k ∈ o.kids, q k) {o : Obj} (ho : q o)
    {G : Group} (h : Reached o G) : q G.root ∧ q G.obj := by
  induction h with
  | root => exact ⟨ho, ho⟩
  | step G H path hG hH ih =>
    unfold Group.getGroup at hH
    simp only at hH
    split at hH
    · cases hH
    · cases hH
    · cases hH
    · rename_i o' ho'
      cases hH
      refine ⟨ih.1, ?_⟩
      split at ho'
      · exact sgDescend_below hq _ _ _ _ _ ih.1 ho'
      · exact sgDescend_below hq _ _ _ _ _ ih.2 ho'

theorem nodup_filter_map {l : List Obj} (f : Obj → Bool) (h : (l.map (·.info.name)).Nodup) :
    ((l.filter f).map (·.info.name)).Nodup :=
  h.sublist (List.Sublist.map _ List.filter_sublist)

theorem find?_name {l : List Obj} (h : (l.map (·.info.name)).Nodup) {k : Obj} (hk : k ∈ l) :
    l.find? (fun x => x.info.name == k.info.name) = some k := by
  induction l with
  | nil => simp at hk
  | cons x l ih =>
    rw [List.map_cons, List.nodup_cons] at h
    rcases List.mem_cons.1 hk with rfl | hk
    · simp
    · rw [List.find?_cons_of_neg]
      · exact ih h.2 hk
      · intro e
        refine h.1 ?_
        rw [show x.info.name = k.info.name by simpa using e]
        exact List.mem_map.2 ⟨k, hk, rfl⟩

/-- C62. In a file that can be opened, `ListDimensions` of any group has no name twice, and has the
names that `GetDimension` knows, no more and no less. -/
theorem C62_dimensions (file : Bytes) (o : Obj) (h : OpensTo file o) (G : Group) (hG : Reached o G) :
    G.listDimensions.Nodup ∧ ∀ n, n ∈ G.listDimensions ↔ G.getDimension n ≠ .ok none := by
  have hs := (hG.inherits (fun o ho => ho.inv.2.2) (C62_names file o h)).2.inv.1
  refine ⟨nodup_filter_map _ hs, fun n => ?_⟩
  have hi : n ∈ G.listDimensions ↔ ∃ k ∈ G.obj.kids, isDim k = true ∧ k.info.name = n := by
    simp only [Group.listDimensions, List.mem_map, List.mem_filter, and_assoc]
  rw [hi]
  unfold Group.getDimension
  cases hf : G.obj.kids.find? fun o => isDim o && o.info.name == n with
  | none =>
    simp only [ne_eq, not_true_eq_false, iff_false, not_exists, not_and]
    intro k hk h1 h2
    have := List.find?_eq_none.1 hf k hk
    simp [h1, h2] at this
  | some k =>
    have h1 := List.mem_of_find?_eq_some hf
    have h2 := List.find?_some hf
    simp only [Bool.and_eq_true, beq_iff_eq] at h2
    refine ⟨fun _ => ?_, fun _ => ⟨k, h1, h2.1, h2.2⟩⟩
    simp only
    split <;> simp

/-- C62, the lists of variables and of subgroups of every group of a file that can be opened. No
name is listed twice. A name that is not listed is not found, a listed one is. Missing: names that
are empty or have a slash, see `C62_negation_slash` and `C62_negation_empty`. -/
theorem C62_lists_partial (file : Bytes) (o : Obj) (h : OpensTo file o) (hp : PlainNames o)
    (G : Group) (hG : Reached o G) :
    G.listVariables.Nodup ∧
    (∀ n ∈ G.listVariables, ∃ v, G.findVariable n = some v) ∧
    (∀ s t n, n ∉ G.listVariables →
      G.getVarGetter s n = .err .notFound ∧ (G.getVariable s t n).2 = .err .notFound) ∧
    ∃ l, G.listSubgroups = .ok l ∧ l.Nodup ∧ ∀ n, slash ∉ n → (n ∈ l ↔ ∃ H, G.getGroup n = .ok H) := by
  obtain ⟨fuel, ho⟩ := h
  obtain ⟨hs, -, hgr, -⟩ := openN_sane file fuel ho
  obtain ⟨names, h1, h2, h3, h4⟩ := hG.at hgr hp
  have hn : ∀ n ∈ names, slash ∉ n := fun n hn => (h1 n hn).2
  have hso : (G.obj.kids.map (·.info.name)).Nodup :=
    (follow_below (q := Sane (Walked file)) (fun o ho => ho.inv.2.2) h2 hs).inv.1
  have hpo : PlainNames G.obj := follow_below (fun o ho => ho.inv.2) h2 hp
  have hv : G.listVariables =
      (G.obj.kids.map (·.info.name)).filter fun n => (G.findVariable n).isSome := by
    have := varDescend_on' G names [] o G.obj (by rw [List.nil_append]; exact h4) hn hs hp h2
    rw [Group.listVariables, h3]
    exact this
  have hsub : G.listSubgroups = .ok ((G.obj.kids.filter (·.info.isGroup)).map (·.info.name)) := by
    have := subDescend_on' names [] o G.obj hn hs hp h2
    rw [Group.listSubgroups, h3, h4]
    exact this
  have hmem : ∀ n v, G.findVariable n = some v → n ∈ G.listVariables := by
    intro n v hf
    rw [hv, List.mem_filter]
    refine ⟨?_, by rw [hf]; rfl⟩
    unfold Group.findVariable at hf
    split at hf
    · cases hf
    · rename_i k hk
      rw [List.mem_map]
      exact ⟨k, List.mem_of_find?_eq_some hk, by simpa using List.find?_some hk⟩
  refine ⟨?_, ?_, ?_, _, hsub, nodup_filter_map _ hso, ?_⟩
  · rw [hv]
    exact hso.sublist List.filter_sublist
  · intro n hn
    rw [hv, List.mem_filter] at hn
    exact Option.isSome_iff_exists.1 hn.2
  · intro s t n hn
    have hnone : G.findVariable n = none := by
      cases hf : G.findVariable n with
      | none => rfl
      | some v => exact absurd (hmem n v hf) hn
    simp [Group.getVarGetter, Group.getVariable, hnone]
  · intro n hsl
    by_cases hne : n = []
    · subst hne
      constructor
      · intro hm
        obtain ⟨k, hk, he⟩ := List.mem_map.1 hm
        exact absurd he (hpo.inv.1 k (List.mem_filter.1 hk).1).1
      · rintro ⟨H, hH⟩
        obtain ⟨names', k1, k2, k3, k4⟩ := (Reached.step G H [] hG hH).at hgr hp
        exfalso
        have : H.name = G.name ++ [slash] := by
          unfold Group.getGroup at hH
          have hcan : canonicalizePath [] = [] := by decide
          simp only [hcan] at hH
          split at hH
          · cases hH
          · cases hH
          · cases hH
          · cases hH
            simp
        have e : dirs names' = dirs names ++ [slash] := by
          rw [k4, h4] at this
          simpa using this
        have hpre := dirs_prefix hn (fun n hn => (k1 n hn).2) (e ▸ List.prefix_append _ _)
        obtain ⟨t, rfl⟩ := hpre
        rw [dirs_append] at e
        have e := List.append_cancel_left e
        cases t with
        | nil => simp [dirs] at e
        | cons a t =>
          have ha := (k1 a (by simp)).1
          rw [dirs_cons] at e
          cases a with
          | nil => exact ha rfl
          | cons c cs =>
            have := congrArg List.length e
            simp at this
    · have hpo1 : PathOf [n] n := by
        have := PathOf.cons 0 n [] [] hne hsl (.inl rfl) (.nil 0)
        simpa using this
      have hhead : n.head? ≠ some 47 := by
        cases n with
        | nil => simp
        | cons c cs =>
          simp only [List.head?_cons, ne_eq, Option.some.injEq]
          rintro rfl
          exact hsl (by simp)
      have hgo := follow_group h2
      rw [C39_relative_partial G n [n] hpo1 hhead hne, lookup, follow, if_pos hgo]
      constructor
      · intro hm
        obtain ⟨k, hk, he⟩ := List.mem_map.1 hm
        obtain ⟨hk1, hk2⟩ := List.mem_filter.1 hk
        subst he
        rw [find?_name hso hk1]
        simp only [follow, hk2, ↓reduceIte]
        exact ⟨_, rfl⟩
      · rintro ⟨H, hH⟩
        split at hH
        · rename_i o' ho'
          split at ho'
          · rename_i c hc
            rw [follow] at ho'
            split at ho'
            · rename_i hcg
              rw [List.mem_map]
              exact ⟨c, List.mem_filter.2 ⟨List.mem_of_find?_eq_some hc, hcg⟩,
                by simpa using List.find?_some hc⟩
            · cases ho'
          · cases ho'
        · cases hH

/-- A root group with a subgroup that has this name, of at most five bytes. -/
def oddFile (name : Bytes) : Bytes :=
  { othSuper with eof := 168 }.bytes ++
    header1 1 [(0, .link 0 false none none name 136)] ++ header1 1 [(0, .groupInfo none none)]

/-- C62 fails for a group with a slash in its name: `ListSubgroups` of the root group panics. -/
theorem C62_negation_slash :
    ((openN 20 (oddFile (ascii "a/b"))).map fun o => (rootGroup o).listSubgroups) = .ok .panic := by
  decide +kernel

/-- A root group with a variable that has this name, of at most five bytes. -/
def oddVarFile (name : Bytes) : Bytes :=
  { othSuper with eof := 240 }.bytes ++
    header1 1 [(0, .link 0 false none none name 136)] ++ header1 2 (othVarAt 232) ++ [1, 0, 0, 0, 2, 0, 0, 0]

/-- C62 fails for a variable with an empty name: it is not listed, but it is found. -/
theorem C62_negation_empty :
    ((openN 20 (oddVarFile [])).map fun o =>
      ((rootGroup o).listVariables, ((rootGroup o).findVariable []).isSome)) = .ok ([], true) := by
  decide +kernel

/-- With ordinary names the same files are as C62 says. -/
example : ((openN 20 (oddFile (ascii "a"))).map fun o => (rootGroup o).listSubgroups) =
      .ok (.ok [ascii "a"]) ∧
    ((openN 20 (oddVarFile (ascii "a"))).map fun o => (rootGroup o).listVariables) =
      .ok [ascii "a"] := by
  constructor <;> decide +kernel

/-- The hypotheses of C62 for the two files of another program in Props/H5OthersEx.lean. -/
example : OpensTo symFile symFileTree ∧ PlainNames symFileTree ∧ Reached symFileTree (rootGroup symFileTree) := by
  refine ⟨(C52_open_partial symFile symFileTree (by decide +kernel) symFile_holds).1, ?_, .root⟩
  have hx : ∀ i, PlainNames (.mk i []) := fun i => .mk i [] (by simp) (by simp)
  refine .mk _ _ ?_ ?_
  · intro k hk
    simp only [List.mem_cons, List.not_mem_nil, or_false] at hk
    rcases hk with rfl | rfl <;> decide
  · intro k hk
    simp only [List.mem_cons, List.not_mem_nil, or_false] at hk
    rcases hk with rfl | rfl <;> exact hx _

/-! ### C63 -/

/-- C63. Every object header of version 2 of an accepted file is as it was written: it is followed by
the lookup3 hash of its bytes. (Of version 1 headers there is no checksum.) -/
theorem C63_headers (file : Bytes) (o : Obj) (hf : file.length < 2 ^ 32) (h : OpensTo file o) :
    Sane (fun i => HeaderIntact file i.addr) o := by
  obtain ⟨n, h⟩ := h
  exact (openN_sane file n h).1.mono fun _ => walked_intact hf

/-- C63. The same for the blocks where an object header of version 2 goes on, and for the blocks where
those go on: they have their signature and are followed by the hash of their bytes. -/
theorem C63_continuations (file : Bytes) (o : Obj) (hf : file.length < 2 ^ 32) (h : OpensTo file o) :
    Sane (fun i => ContinuationsIntact file i.addr) o := by
  obtain ⟨n, h⟩ := h
  exact (openN_sane file n h).1.mono fun _ => walked_continuations hf

/-- A file whose root group goes on in one block and that in another. -/
def contFile : Bytes :=
  block (superNew 3 0 undefAddr 147 48) ++
    header2 head0 [(0, 0, .nil [7]), (0, 0, .continuation 84 33)] ++
    chunk2 false [(0, 0, .nil []), (0, 0, .continuation 117 30)] 1 ++
    chunk2 false [(0, 0, .linkInfo none none undefAddr undefAddr)] 0

theorem contFile_opens : ∃ o, OpensTo contFile o := by
  have h : (openN 20 contFile).map (fun _ => ()) = .ok () := by decide +kernel
  cases e : openN 20 contFile with
  | ok a => exact ⟨a, 20, e⟩
  | err a => rw [e] at h; cases h
  | panic => rw [e] at h; cases h

/-- The hypotheses of `C63_continuations` for a file with two such blocks; with one bit of the second block
flipped the file is refused. -/
example : contFile.length < 2 ^ 32 ∧ (∃ o, OpensTo contFile o) ∧
    Continues contFile (byteAt contFile (48 + 5) / 4 % 2 == 1)
      (48 + prefixLength contFile 48 + sizeBytes contFile 48)
      (leDec ((contFile.drop (48 + prefixLength contFile 48)).take (sizeBytes contFile 48))) 117 30 ∧
    (openN 20 (contFile.set 130 254)).map (fun _ => ()) = .err .assertFail :=
  ⟨by decide +kernel, contFile_opens,
    .next _ _ 84 33 _ _
      (.here _ _ _ _ [⟨0, 0, 0, [7]⟩] ⟨16, 0, 0, leEnc 8 84 ++ leEnc 8 33⟩
        (by simp [Stored.OK]) (by simp [Stored.OK]) rfl rfl (by decide) (by decide) (by decide +kernel)
        (by decide +kernel))
      (.here _ _ _ _ [⟨0, 0, 0, []⟩] ⟨16, 0, 0, leEnc 8 117 ++ leEnc 8 30⟩
        (by simp [Stored.OK]) (by simp [Stored.OK]) rfl rfl (by decide) (by decide) (by decide +kernel)
        (by decide +kernel)),
    by decide +kernel⟩

/-- C63. When the links or the attributes of an object are in a heap: the header of the heap, its root
block if it is an indirect one, the header of the B-tree and all its nodes are as they were written. -/
theorem C63_heaps (file : Bytes) (o : Obj) (hf : file.length < 2 ^ 32) (h : OpensTo file o) :
    Sane (HeapsIntact file) o := by
  obtain ⟨n, h⟩ := h
  exact (openN_sane file n h).1.mono fun _ => walked_heaps hf

/-- The hypotheses of `C63_heaps` for a file with links and attributes in heaps; with one bit of the leaf
of the B-tree flipped, which is a hash the reader does not use, the file is refused. -/
example : denseFile.length < 2 ^ 32 ∧ OpensTo denseFile denseFileTree ∧
    denseFileTree.info.link = some (81, 227) ∧ denseFileV.info.attr = some (436, 582) ∧
    numAt denseFile (227 + 16) 8 = 265 ∧
    (openN 20 (denseFile.set 272 (denseFile.getD 272 0 ^^^ 1))).map (fun _ => ()) = .err .assertFail :=
  ⟨by decide +kernel, (C52_open_partial denseFile denseFileTree (by decide +kernel) denseFile_holds).1,
    rfl, rfl, by decide +kernel, by decide +kernel⟩

/-- C63. The superblock of an accepted file has the right signature, a version from 0 to 3 and, in the
versions that have one, the right checksum. -/
theorem C63_superblock (file : Bytes) (o : Obj) (hf : file.length < 2 ^ 32) (h : OpensTo file o) :
    file.take 8 = [0x89, 0x48, 0x44, 0x46, 0x0d, 0x0a, 0x1a, 0x0a] ∧ byteAt file 8 ≤ 3 ∧
      (2 ≤ byteAt file 8 → Intact file 0 44) := by
  obtain ⟨n, h⟩ := h
  obtain ⟨-, -, -, ext, hs⟩ := openN_sane file n h
  exact readSuperblock_intact hf hs

/-- C63, the converse: a file in which the superblock is damaged behind the checksum is refused with an
error, whatever else it has. -/
theorem C63_damaged_superblock (file : Bytes) (fuel : Nat) (hf : file.length < 2 ^ 32)
    (hv : 2 ≤ byteAt file 8) (hd : ¬ Intact file 0 44) : ∃ e, openN fuel file = .err e := by
  cases hr : readSuperblock file with
  | ok r => exact absurd ((readSuperblock_intact hf hr).2.2 hv) hd
  | err e => exact ⟨e, by simp [openN, hr]⟩
  | panic => exact absurd hr (readSuperblock_safe file)

/-- The hypotheses of C63 for a file of another program: the version 2 headers of its three objects and its
superblock have checksums; with one bit of the root address flipped, the superblock is not intact. -/
example : denseFile.length < 2 ^ 32 ∧ OpensTo denseFile denseFileTree ∧
    (byteAt denseFile 48 = 79 ∧ byteAt denseFile 361 = 79 ∧ byteAt denseFile 711 = 79) ∧
    2 ≤ byteAt denseFile 8 ∧ openN 20 (denseFile.set 36 49) = .err .assertFail :=
  ⟨by decide +kernel, (C52_open_partial denseFile denseFileTree (by decide +kernel) denseFile_holds).1,
    by decide +kernel, by decide +kernel, by
      have h : readSuperblock (denseFile.set 36 49) = .err .assertFail := by decide +kernel
      simp [openN, h]⟩

/-! ### C64 -/

/-- C64. A file that is cut off is refused with an error: if the superblock says that the file has
`n` bytes or more, no shorter beginning of the file is opened, and the attempt does not crash. -/
theorem C64_truncated (file : Bytes) (n fuel : Nat) (hn : n < endOfFile file) (hl : n < file.length) :
    ∃ e, openN fuel (file.take n) = .err e := by
  cases hr : readSuperblock (file.take n) with
  | ok r =>
    exfalso
    obtain ⟨h1, h3, h2⟩ := readSuperblock_eof hr
    have hlen : (file.take n).length = n := by
      rw [List.length_take]
      omega
    rw [hlen] at h1 h2 h3
    have h8 : byteAt (file.take n) 8 = byteAt file 8 := by
      unfold byteAt
      simp only [List.getD_eq_getElem?_getD, List.getElem?_take]
      rw [if_pos (by omega)]
    have he : endOfFile (file.take n) = endOfFile file := by
      unfold endOfFile
      rw [h8, List.drop_take, List.take_take, Nat.min_eq_left]
      rw [h8] at h3
      split
      · rename_i e
        have := h3 (.inl e)
        omega
      · split
        · rename_i e
          have := h3 (.inr e)
          omega
        · omega
    omega
  | err e => exact ⟨e, by simp [openN, hr]⟩
  | panic => exact absurd hr (readSuperblock_safe _)

/-- C64. No beginning of a written file is opened, and the attempt does not crash. This is so for whatever
calls led to the file, in either byte order and for every order of the maps of the writer. -/
theorem C64_written (be : Bool) (ord : Order) (root : HGroup) (file : Bytes)
    (hc : closeFile be ord root = .ok file) (hl : file.length < 2 ^ 63) (n fuel : Nat) (hn : n < file.length) :
    ∃ e, openN fuel (file.take n) = .err e := by
  obtain ⟨body, r, h⟩ := closeFile_form hc
  have := finalizeSuperblock_end (by omega) h
  exact C64_truncated file n fuel (by omega) hn

/-- The hypotheses of C64 for files of other programs in versions 0 and 3, and for a written file. -/
example : endOfFile symFile = symFile.length ∧ endOfFile denseFile = denseFile.length ∧
    byteAt symFile 8 = 0 ∧ byteAt denseFile 8 = 3 ∧
    OpensTo symFile symFileTree ∧ OpensTo denseFile denseFileTree :=
  ⟨by decide +kernel, by decide +kernel, by decide +kernel, by decide +kernel,
    (C52_open_partial symFile symFileTree (by decide +kernel) symFile_holds).1,
    (C52_open_partial denseFile denseFileTree (by decide +kernel) denseFile_holds).1⟩

/-! ### C65 -/

/-- C65, the first part of opening a file: whatever the bytes are, reading the superblock gives the address
of the root group or an error, it does not crash. Missing: the rest of the file, see `C65_negation_loop`
and `C65_negation_padding`. -/
theorem C65_superblock_partial (file : Bytes) : readSuperblock file ≠ .panic := readSuperblock_safe file

/-- A file whose root group has a continuation block that is its own continuation. -/
def loopFile : Bytes :=
  { othSuper with eof := 136 }.bytes ++ header1 1 [(0, .continuation 112 24)]

theorem loopFile_fits : Fits1 [(0, .continuation 112 24)] := by
  intro m hm
  simp only [List.mem_cons, List.not_mem_nil, or_false] at hm
  subst hm
  exact ⟨by decide, ⟨by decide, by decide⟩, by decide, .inl (by decide)⟩

theorem loopFile_cont (fuel : Nat) (st : St) : walk loopFile fuel (.cont 112 24 1 0) st = .panic := by
  induction fuel generalizing st with
  | zero => rfl
  | succ fuel ih =>
    have := walk_cont1 loopFile [(0, .continuation 112 24)] 112 fuel st loopFile_fits (by simp)
      ⟨trivial, fun st' h => trivial⟩ (by unfold At; decide +kernel) (by decide +kernel)
    rw [show (frames1 [(0, Message.continuation 112 24)]).length = 24 by decide +kernel] at this
    rw [this]
    simp only [List.map_cons, List.map_nil, runMessages, Message.run, ih]
    rfl

/-- C65 fails for a continuation block that is its own continuation: the file is never opened and
there is no error, the program ends because the stack is full. -/
theorem C65_negation_loop (fuel : Nat) : openN fuel loopFile = .panic := by
  have hs : readSuperblock loopFile = .ok (96, invalidAddress) := by decide +kernel
  have hw : walk loopFile fuel (.header 96) {} = .panic := by
    cases fuel with
    | zero => rfl
    | succ fuel =>
      have hw := walk_header1 loopFile 1 [(0, .continuation 112 24)] 96 fuel {} loopFile_fits (by simp)
        (by decide) ⟨trivial, fun st' h => trivial⟩ (by decide +kernel) (by unfold At; decide +kernel)
        (by decide +kernel) (by decide)
      simp only [List.map_cons, List.map_nil, runMessages, Message.run, loopFile_cont] at hw
      exact hw
  simp [openN, hs, hw, invalidAddress]

/-- A file in which a link message is padded with something else than zeros. -/
def padFile : Bytes := (oddFile (ascii "a")).set 134 1

/-- C65 fails for padding that is not zero: the program ends (`logger.Fatal`). -/
theorem C65_negation_padding : openN 20 padFile = .panic := by
  have h : (openN 20 padFile).map (fun _ => ()) = .panic := by decide +kernel
  cases e : openN 20 padFile with
  | ok a => rw [e] at h; cases h
  | err a => rw [e] at h; cases h
  | panic => rfl

end Verif.H5
