import Verif.Spec.H5Names
/-!
The printers of types against the specification, for any notation whose texts tell types apart.
-/
namespace Verif.H5

/-! ### Texts -/

theorem joinWith_eq (sep : Bytes) : ∀ xs : List Bytes, joinWith sep xs = sep.intercalate xs
  | [] => by simp [joinWith]
  | [x] => by simp [joinWith]
  | x :: y :: ys => by
    rw [joinWith, joinWith_eq sep (y :: ys)]
    · simp [List.intercalate, List.intersperse]
    · simp

theorem joinWith_nil (xs : List Bytes) : joinWith [] xs = xs.flatten := by
  induction xs with
  | nil => rfl
  | cons x xs ih =>
    cases xs with
    | nil => simp [joinWith]
    | cons y ys => rw [joinWith, ih] <;> simp

theorem intDec_eq (i : Int) : intDec i = decimal i := by
  cases i with
  | ofNat n => simp [intDec, decimal]
  | negSucc n =>
    have : Int.negSucc n < 0 := Int.negSucc_lt_zero n
    simp only [intDec, decimal, if_pos this, Int.natAbs_negSucc]
    rfl

theorem valueOf_eq (len : Nat) (signed : Bool) (bits : Nat) : valueOf len signed bits = ofBits len signed bits := by
  unfold valueOf ofBits
  cases signed with
  | false => simp
  | true =>
    simp only [true_and, if_true, Int.bmod]
    have h1 : ((bits : Int) % ((256 ^ len : Nat) : Int)) = ((bits % 256 ^ len : Nat) : Int) := by simp
    rw [h1]
    generalize bits % 256 ^ len = n
    have hp : (0 : Nat) < 256 ^ len := Nat.pow_pos (by decide)
    generalize h : 256 ^ len = m at hp
    have hc : ((256 : Int) ^ len) = (m : Int) := by rw [← h]; simp
    rw [hc]
    split <;> split <;> omega

theorem enumItems_eq : ∀ (ns : List Bytes) (vs : List Int),
    List.zipWith (fun n v => ascii "\t" ++ n ++ ascii " = " ++ intDec v) ns vs = enumItems ns vs
  | [], _ => by simp [enumItems]
  | _ :: _, [] => by simp [enumItems]
  | n :: ns, v :: vs => by rw [List.zipWith_cons_cons, enumItems, enumItems_eq ns vs, intDec_eq]

theorem goMembers_eq (owner : Bytes) (ns : List Bytes) (vs : List Int) : goMembers owner ns vs = constItems owner ns vs := by
  cases ns <;> cases vs <;> first | rw [goMembers, constItems, enumItems_eq, intDec_eq] | rfl

/-- The texts of the types of the members. -/
def writeAll (nt : Notation) (owner : Bytes) (c : Ty → Option Bytes) (ts : List Ty) : List Bytes :=
  ts.map fun t => t.write nt owner c

theorem members_cdl (owner : Bytes) (c : Ty → Option Bytes) : ∀ (ns : List Bytes) (ts : List Ty),
    List.zipWith (fun n t => ascii "\t" ++ t ++ ascii " " ++ n ++ ascii ";\n") ns (writeAll .cdl owner c ts) =
      Ty.members .cdl owner c ns ts
  | [], _ => by simp [Ty.members]
  | _ :: _, [] => by simp [Ty.members, writeAll]
  | n :: ns, t :: ts => by
    have := members_cdl owner c ns ts
    simp only [writeAll] at this
    simp only [List.map_cons, List.zipWith_cons_cons, Ty.members, writeAll, this]
    rfl

theorem members_go (owner : Bytes) (c : Ty → Option Bytes) : ∀ (ns : List Bytes) (ts : List Ty),
    List.zipWith (fun n t => ascii "\t" ++ n ++ ascii " " ++ t) ns (writeAll .go owner c ts) =
      Ty.members .go owner c ns ts
  | [], _ => by simp [Ty.members]
  | _ :: _, [] => by simp [Ty.members, writeAll]
  | n :: ns, t :: ts => by
    have := members_go owner c ns ts
    simp only [writeAll] at this
    simp only [List.map_cons, List.zipWith_cons_cons, Ty.members, writeAll, this]
    rfl

theorem compound_body (nt : Notation) (owner : Bytes) (c : Ty → Option Bytes) (ns : List Bytes) (ts : List Ty) :
    compoundText nt ns (writeAll nt owner c ts) = (Ty.compound ns ts).body nt owner c := by
  cases nt
  · simp only [compoundText, Ty.body, members_cdl, joinWith_nil]
  · simp only [compoundText, Ty.body, members_go, joinWith_eq]

theorem enum_body (nt : Notation) (owner : Bytes) (c : Ty → Option Bytes) (k : Kind) (ns : List Bytes) (vs : List Int) :
    enumText nt owner (kindText nt k) ns vs = (Ty.enum k ns vs).body nt owner c := by
  cases nt
  · simp only [enumText, Ty.body, enumItems_eq, joinWith_eq]
  · simp only [enumText, Ty.body, goMembers_eq, joinWith_eq]

theorem opaque_body (nt : Notation) (owner : Bytes) (c : Ty → Option Bytes) (n : Nat) :
    opaqueText nt n = (Ty.opaque n).body nt owner c := by
  cases nt <;> simp only [opaqueText, Ty.body]

theorem seq_body (nt : Notation) (owner : Bytes) (c : Ty → Option Bytes) (t : Ty) :
    vlenText nt (t.write nt owner c) = (Ty.seq t).body nt owner c := by
  cases nt <;> simp only [vlenText, Ty.body, Ty.write]

theorem array_body (nt : Notation) (owner : Bytes) (c : Ty → Option Bytes) (t : Ty) (ds : List Nat) :
    arrayText nt (t.write nt owner c) ds = (Ty.array ds t).body nt owner c := by
  cases nt
  · simp only [arrayText, Ty.body, Ty.write, joinWith_eq]
  · simp only [arrayText, Ty.body, Ty.write, List.flatMap_def]

theorem fixedText_kind {nt : Notation} {len : Nat} {signed : Bool} {k : Kind} (h : intKind len signed = some k) :
    fixedText nt len signed = .ok (kindText nt k) := by
  unfold intKind at h
  split at h <;> first | (cases h; cases nt <;> rfl) | cases h

theorem floatText_kind {nt : Notation} {len : Nat} {be : Bool} {t : Ty} (h : (DT.float len be).ty = some t) :
    ∃ k, t = .num k ∧ floatText nt len = .ok (kindText nt k) := by
  rw [DT.ty] at h
  split at h
  · next h4 => subst h4; cases h; exact ⟨_, rfl, by cases nt <;> rfl⟩
  · split at h
    · next h8 => subst h8; cases h; exact ⟨_, rfl, by cases nt <;> rfl⟩
    · cases h

theorem kindText_ne (nt : Notation) (k : Kind) : kindText nt k ≠ [] := by
  cases nt <;> cases k <;> decide

theorem body_ne (nt : Notation) (owner : Bytes) (c : Ty → Option Bytes) (t : Ty) (hok : t.Ok) : t.body nt owner c ≠ [] := by
  cases t with
  | num k => rw [Ty.body]; exact kindText_ne nt k
  | text => rw [Ty.body]; decide
  | «opaque» n => cases nt <;> simp [Ty.body, ascii]
  | compound ns ts => cases nt <;> simp [Ty.body, ascii]
  | enum k ns vs => cases nt <;> simp [Ty.body, ascii]
  | seq t => cases nt <;> simp [Ty.body, ascii]
  | array ds t =>
    cases nt
    · simp [Ty.body, ascii]
    · rw [Ty.Ok] at hok
      cases ds with
      | nil => exact absurd rfl hok.1
      | cons d ds => simp [Ty.body, ascii]

/-! ### Names -/

/-- Without the names in `used`. -/
def outside (used : List Bytes) (c : Ty → Option Bytes) (t : Ty) : Option Bytes :=
  (c t).filter fun n => decide (n ∉ used)

theorem outside_some {used : List Bytes} {c : Ty → Option Bytes} {t : Ty} {n : Bytes} :
    outside used c t = some n ↔ c t = some n ∧ n ∉ used := by
  simp [outside, Option.filter_eq_some_iff]

theorem nameIn_some {types : List NamedType} {cat : List (Bytes × Ty)} (hc : Catalogue types cat) {t : Ty} {n : Bytes} :
    nameIn cat t = some n ↔ (n, t) ∈ cat ∧ t.declared = true := by
  unfold nameIn
  split
  · next hd =>
    constructor
    · intro h
      rw [Option.map_eq_some_iff] at h
      obtain ⟨p, hp, rfl⟩ := h
      have h1 := List.find?_some hp
      have h2 := List.mem_of_find?_eq_some hp
      have h3 : p.2 = t := of_decide_eq_true h1
      subst h3
      exact ⟨h2, hd⟩
    · rintro ⟨hm, -⟩
      rw [Option.map_eq_some_iff]
      cases hf : cat.find? fun p => decide (p.2 = t) with
      | none =>
        have := List.find?_eq_none.mp hf _ hm
        simp at this
      | some p =>
        have h0 := List.find?_some hf
        have h1 : p.2 = t := of_decide_eq_true h0
        have h2 := List.mem_of_find?_eq_some hf
        have := hc.apart p h2 (n, t) hm h1 (by rw [h1]; exact hd)
        exact ⟨p, rfl, by rw [this]⟩
  · next hd =>
    simp [hd]

theorem cat_name {types : List NamedType} {cat : List (Bytes × Ty)} (hc : Catalogue types cat) {n : Bytes} {s t : Ty}
    (h1 : (n, s) ∈ cat) (h2 : (n, t) ∈ cat) : s = t := by
  have hn := hc.names
  clear hc
  induction cat with
  | nil => cases h1
  | cons p cat ih =>
    simp only [List.map_cons, List.nodup_cons] at hn
    rcases List.mem_cons.mp h1 with h1 | h1 <;> rcases List.mem_cons.mp h2 with h2 | h2
    · rw [← h1] at h2; cases h2; rfl
    · rw [← h1] at hn
      exact absurd (List.mem_map_of_mem (f := (·.1)) h2) hn.1
    · rw [← h2] at hn
      exact absurd (List.mem_map_of_mem (f := (·.1)) h1) hn.1
    · exact ih h1 h2 hn.2

theorem cat_stored {types : List NamedType} {cat : List (Bytes × Ty)} (hc : Catalogue types cat) {n : Bytes} {d : Option DT}
    (h : (n, d) ∈ types) : ∃ t u, d = some t ∧ t.ty = some u ∧ (n, u) ∈ cat := by
  have h1 : (n, d.bind DT.ty) ∈ cat.map fun p => (p.1, some p.2) := by
    rw [← hc.stored]
    exact List.mem_map_of_mem (f := fun p : NamedType => (p.1, p.2.bind DT.ty)) h
  obtain ⟨⟨m, u⟩, hp, he⟩ := List.mem_map.mp h1
  simp only [Prod.mk.injEq] at he
  obtain ⟨rfl, he⟩ := he
  cases d with
  | none => cases he
  | some t => exact ⟨t, u, rfl, he.symm, hp⟩

theorem cat_kept {types : List NamedType} {cat : List (Bytes × Ty)} (hc : Catalogue types cat) {n : Bytes} {u : Ty}
    (h : (n, u) ∈ cat) : ∃ t, (n, some t) ∈ types ∧ t.ty = some u := by
  have h1 : (n, some u) ∈ types.map fun p => (p.1, p.2.bind DT.ty) := by
    rw [hc.stored]
    exact List.mem_map_of_mem (f := fun p : Bytes × Ty => (p.1, some p.2)) h
  obtain ⟨⟨m, d⟩, hp, he⟩ := List.mem_map.mp h1
  simp only [Prod.mk.injEq] at he
  obtain ⟨rfl, he⟩ := he
  cases d with
  | none => cases he
  | some t => exact ⟨t, hp, he⟩

/-! ### Parts -/

mutual
theorem body_congr (nt : Notation) (owner : Bytes) (c c' : Ty → Option Bytes) : ∀ (t : Ty),
    (∀ s, sizeOf s < sizeOf t → c s = c' s) → t.body nt owner c = t.body nt owner c'
  | .num k, _ => by simp only [Ty.body]
  | .text, _ => by simp only [Ty.body]
  | .opaque n, _ => by simp only [Ty.body]
  | .enum k ns vs, _ => by simp only [Ty.body]
  | .compound ns ts, h => by
    have := members_congr nt owner c c' ns ts fun s hs => h s (by simp; omega)
    simp only [Ty.body, this]
  | .seq t, h => by
    have h1 := body_congr nt owner c c' t fun s hs => h s (by simp; omega)
    have h2 := h t (by simp)
    simp only [Ty.body, h1, h2]
  | .array ds t, h => by
    have h1 := body_congr nt owner c c' t fun s hs => h s (by simp; omega)
    have h2 := h t (by simp; omega)
    simp only [Ty.body, h1, h2]
theorem members_congr (nt : Notation) (owner : Bytes) (c c' : Ty → Option Bytes) : ∀ (ns : List Bytes) (ts : List Ty),
    (∀ s, sizeOf s < sizeOf ts → c s = c' s) → Ty.members nt owner c ns ts = Ty.members nt owner c' ns ts
  | [], _, _ => by simp only [Ty.members]
  | _ :: _, [], _ => by simp only [Ty.members]
  | n :: ns, t :: ts, h => by
    have h1 := body_congr nt owner c c' t fun s hs => h s (by simp; omega)
    have h2 := h t (by simp; omega)
    have h3 := members_congr nt owner c c' ns ts fun s hs => h s (by simp; omega)
    simp only [Ty.members, h1, h2, h3]
end

/-- The types that are described: as netCDF-4 has them and with nothing bad inside. -/
def Sayable (bad : Ty → Prop) (t : Ty) : Prop := t.Ok ∧ ¬ t.Has bad

/-- All of them. -/
def SayableAll (bad : Ty → Prop) (ts : List Ty) : Prop := Ty.OkAll ts ∧ ¬ Ty.HasAny bad ts

theorem Sayable.compound {bad : Ty → Prop} {ns : List Bytes} {ts : List Ty} (h : Sayable bad (.compound ns ts)) : SayableAll bad ts := by
  obtain ⟨h1, h2⟩ := h
  rw [Ty.Ok] at h1
  rw [Ty.Has] at h2
  exact ⟨h1.2.2.2, fun h => h2 (.inr h)⟩

theorem Sayable.seq {bad : Ty → Prop} {t : Ty} (h : Sayable bad (.seq t)) : Sayable bad t := by
  obtain ⟨h1, h2⟩ := h
  rw [Ty.Ok] at h1
  rw [Ty.Has] at h2
  exact ⟨h1, fun h => h2 (.inr h)⟩

theorem Sayable.array {bad : Ty → Prop} {ds : List Nat} {t : Ty} (h : Sayable bad (.array ds t)) : Sayable bad t := by
  obtain ⟨h1, h2⟩ := h
  rw [Ty.Ok] at h1
  rw [Ty.Has] at h2
  exact ⟨h1.2, fun h => h2 (.inr h)⟩

theorem SayableAll.cons {bad : Ty → Prop} {t : Ty} {ts : List Ty} (h : SayableAll bad (t :: ts)) : Sayable bad t ∧ SayableAll bad ts := by
  obtain ⟨h1, h2⟩ := h
  rw [Ty.OkAll] at h1
  rw [Ty.HasAny] at h2
  exact ⟨⟨h1.1, fun h => h2 (.inl h)⟩, h1.2, fun h => h2 (.inr h)⟩

/-! ### The printers -/

/-- `find` gives the names of `c`. -/
def Finds (nt : Notation) (owner : Bytes) (bad : Ty → Prop) (find : List Nat → Bytes → Res Bytes) (c : Ty → Option Bytes) : Prop :=
  ∀ place t, Sayable bad t → (t.declared = true ∨ ∃ ds u, t = .array ds u) → find place (t.body nt owner c) = .ok ((c t).getD [])

/-- Names are not empty, and only declared types have them. -/
def Calls (c : Ty → Option Bytes) : Prop := ∀ t n, c t = some n → n ≠ [] ∧ t.declared = true

theorem named_eq {nt : Notation} {owner : Bytes} {bad : Ty → Prop} {find : List Nat → Bytes → Res Bytes} {c : Ty → Option Bytes}
    (hf : Finds nt owner bad find c) (hc : Calls c) (place : List Nat) {t : Ty} (hg : Sayable bad t) (hd : t.declared = true) :
    named (find place) (t.body nt owner c) = .ok (t.write nt owner c) := by
  unfold named
  rw [hf place t hg (.inl hd)]
  show Res.ok _ = _
  unfold Ty.write
  cases h : c t with
  | none => simp
  | some n => simp [(hc t n h).1]

theorem write_ne {nt : Notation} {owner : Bytes} {bad : Ty → Prop} {c : Ty → Option Bytes} (hc : Calls c) {t : Ty} (hg : Sayable bad t) :
    t.write nt owner c ≠ [] := by
  unfold Ty.write
  cases h : c t with
  | none => exact body_ne nt owner c t hg.1
  | some n => exact (hc t n h).1

theorem nonEmpty_eq {t : Bytes} (h : t ≠ []) : nonEmpty t = .ok t := by rw [nonEmpty, if_neg h]

theorem write_plain {nt : Notation} {owner : Bytes} {c : Ty → Option Bytes} (hc : Calls c) {t : Ty} (h : t.declared = false) :
    t.write nt owner c = t.body nt owner c := by
  unfold Ty.write
  cases h' : c t with
  | none => rfl
  | some n => rw [(hc t n h').2] at h; cases h

mutual
theorem typeText_eq {nt : Notation} {owner : Bytes} {bad : Ty → Prop} {find : List Nat → Bytes → Res Bytes} {c : Ty → Option Bytes}
    (hf : Finds nt owner bad find c) (hc : Calls c) : ∀ (d : DT) (place : List Nat) (t : Ty), d.ty = some t → Sayable bad t →
    typeText find nt owner place d = .ok (t.write nt owner c)
  | .fixed len signed be, place, t, h, hg => by
    rw [DT.ty, Option.map_eq_some_iff] at h
    obtain ⟨k, hk, rfl⟩ := h
    rw [typeText, fixedText_kind hk, write_plain hc rfl, Ty.body]
  | .float len be, place, t, h, hg => by
    obtain ⟨k, rfl, hk⟩ := floatText_kind (nt := nt) h
    rw [typeText, hk, write_plain hc rfl, Ty.body]
  | .time l, place, t, h, hg => by simp [DT.ty] at h
  | .str l, place, t, h, hg => by
    simp only [DT.ty, Option.some.injEq] at h
    subst h
    rw [typeText, write_plain hc rfl, Ty.body]
  | .opaque l tag, place, t, h, hg => by
    simp only [DT.ty, Option.some.injEq] at h
    subst h
    rw [typeText, opaque_body nt owner c, named_eq hf hc place hg rfl]
  | .compound l ms ts, place, t, h, hg => by
    rw [DT.ty] at h
    split at h
    · rw [Option.map_eq_some_iff] at h
      obtain ⟨us, hu, rfl⟩ := h
      rw [typeText, typeTexts_eq hf hc ts place 1 us hu hg.compound]
      show named _ _ = _
      rw [compound_body, named_eq hf hc place hg rfl]
    · cases h
  | .ref l, place, t, h, hg => by
    simp only [DT.ty, Option.some.injEq] at h
    subst h
    rw [typeText, write_plain hc rfl, Ty.body]
    cases nt <;> rfl
  | .enum l base ns vs, place, t, h, hg => by
    cases base with
    | fixed len signed be =>
      rw [DT.ty, Option.map_eq_some_iff] at h
      obtain ⟨k, hk, rfl⟩ := h
      rw [typeText, typeText, fixedText_kind hk]
      show (nonEmpty _ >>= _) = _
      rw [nonEmpty_eq (kindText_ne nt k)]
      show named _ _ = _
      have : (vs.map (valueOf len signed)) = vs.map (ofBits len signed) := List.map_congr_left fun v _ => valueOf_eq len signed v
      rw [this, enum_body nt owner c, named_eq hf hc place hg rfl]
    | _ => simp [DT.ty] at h
  | .vlen l true e, place, t, h, hg => by
    simp only [DT.ty, Option.some.injEq] at h
    subst h
    rw [typeText, write_plain hc rfl, Ty.body]
  | .vlen l false e, place, t, h, hg => by
    rw [DT.ty, Option.map_eq_some_iff] at h
    obtain ⟨u, hu, rfl⟩ := h
    rw [typeText, typeText_eq hf hc e _ u hu hg.seq]
    show (nonEmpty _ >>= _) = _
    rw [nonEmpty_eq (write_ne hc hg.seq)]
    show named _ _ = _
    rw [seq_body, named_eq hf hc place hg rfl]
  | .array l ds e, place, t, h, hg => by
    rw [DT.ty, Option.map_eq_some_iff] at h
    obtain ⟨u, hu, rfl⟩ := h
    rw [typeText, typeText_eq hf hc e _ u hu hg.array]
    show (nonEmpty _ >>= _) = _
    rw [nonEmpty_eq (write_ne hc hg.array)]
    show (find _ _ >>= _) = _
    rw [array_body, hf place _ hg (.inr ⟨ds, u, rfl⟩)]
    have h0 : c (.array ds u) = none := by
      cases h' : c (.array ds u) with
      | none => rfl
      | some n => cases (hc _ n h').2
    rw [h0, write_plain hc rfl]
    rfl
theorem typeTexts_eq {nt : Notation} {owner : Bytes} {bad : Ty → Prop} {find : List Nat → Bytes → Res Bytes} {c : Ty → Option Bytes}
    (hf : Finds nt owner bad find c) (hc : Calls c) : ∀ (ds : List DT) (place : List Nat) (i : Nat) (ts : List Ty),
    tys ds = some ts → SayableAll bad ts → typeTexts find nt owner place i ds = .ok (writeAll nt owner c ts)
  | [], place, i, ts, h, hg => by
    simp only [tys, Option.some.injEq] at h
    subst h
    rw [typeTexts]
    rfl
  | d :: ds, place, i, ts, h, hg => by
    rw [tys] at h
    split at h
    · next x xs h1 h2 =>
      cases h
      rw [typeTexts, typeText_eq hf hc d _ x h1 hg.cons.1, typeTexts_eq hf hc ds place (i + 1) xs h2 hg.cons.2]
      rfl
    · cases h
end

/-! ### The search -/

/-- Texts tell types apart, whatever names are left out. -/
def Apart (nt : Notation) (owner : Bytes) (bad : Ty → Prop) (cat : List (Bytes × Ty)) : Prop :=
  ∀ s t, Sayable bad s → Sayable bad t → ∀ U V,
    s.body nt owner (outside U (nameIn cat)) = t.body nt owner (outside V (nameIn cat)) → s = t

theorem calls_outside {types : List NamedType} {cat : List (Bytes × Ty)} (hc : Catalogue types cat) (U : List Bytes) :
    Calls (outside U (nameIn cat)) := by
  intro t n h
  obtain ⟨h1, h2⟩ := (nameIn_some hc).mp (outside_some.mp h).1
  exact ⟨(hc.plain _ h1).2.2.1.1, h2⟩

theorem sigLoop_eq {text : Nat → Bytes → DT → Res Bytes} {used : List Bytes} {sig : Bytes} {t : Ty} :
    ∀ (l : List NamedType) (i : Nat),
    (∀ p ∈ l, p.1 ∉ used → ∃ d u, p.2 = some d ∧ d.ty = some u ∧ ∀ i, ∃ s, text i p.1 d = .ok s ∧ ((s ≠ [] ∧ s = sig) ↔ u = t)) →
    (∃ n d, sigLoop text used sig i l = .ok n ∧ (n, some d) ∈ l ∧ n ∉ used ∧ d.ty = some t) ∨
    (sigLoop text used sig i l = .ok [] ∧ ∀ n d, (n, some d) ∈ l → n ∉ used → d.ty ≠ some t)
  | [], i, h => .inr ⟨rfl, fun n d h' => absurd h' (by simp)⟩
  | (n, o) :: l, i, h => by
    have ih := sigLoop_eq (text := text) (used := used) (sig := sig) (t := t) l (i + 1) fun p hp => h p (List.mem_cons_of_mem _ hp)
    simp only [sigLoop]
    by_cases hu : n ∈ used
    · rw [if_pos hu]
      rcases ih with ⟨m, d, h1, h2, h3, h4⟩ | ⟨h1, h2⟩
      · exact .inl ⟨m, d, h1, List.mem_cons_of_mem _ h2, h3, h4⟩
      · refine .inr ⟨h1, fun m d hm hn => ?_⟩
        rcases List.mem_cons.mp hm with h' | h'
        · cases h'; exact absurd hu hn
        · exact h2 m d h' hn
    · rw [if_neg hu]
      obtain ⟨d, u, rfl, hd, ht⟩ := h (n, o) List.mem_cons_self hu
      obtain ⟨s, hs, hiff⟩ := ht i
      simp only
      rw [hs]
      have hb : (do
          let s ← Res.ok s
          if s ≠ [] ∧ s = sig then pure n else sigLoop text used sig (i + 1) l) =
          if s ≠ [] ∧ s = sig then (pure n : Res Bytes) else sigLoop text used sig (i + 1) l := rfl
      rw [hb]
      by_cases hm : s ≠ [] ∧ s = sig
      · rw [if_pos hm]
        exact .inl ⟨n, d, rfl, List.mem_cons_self, hu, by rw [hd, hiff.mp hm]⟩
      · rw [if_neg hm]
        rcases ih with ⟨m, d, h1, h2, h3, h4⟩ | ⟨h1, h2⟩
        · exact .inl ⟨m, d, h1, List.mem_cons_of_mem _ h2, h3, h4⟩
        · refine .inr ⟨h1, fun m d' hm' hn => ?_⟩
          rcases List.mem_cons.mp hm' with h' | h'
          · cases h'
            rw [hd]
            intro he
            exact hm (hiff.mpr (Option.some.inj he))
          · exact h2 m d' h' hn

/-- The types whose names are not used yet. -/
def unused (cat : List (Bytes × Ty)) (U : List Bytes) : Nat := (cat.filter fun p => decide (p.1 ∉ U)).length

theorem unused_cons {cat : List (Bytes × Ty)} {U : List Bytes} {n : Bytes} {t : Ty} (h : (n, t) ∈ cat) (hn : n ∉ U) :
    unused cat (n :: U) < unused cat U := by
  unfold unused
  have hle : ∀ l : List (Bytes × Ty), (l.filter fun p => decide (p.1 ∉ n :: U)).length ≤ (l.filter fun p => decide (p.1 ∉ U)).length := by
    intro l
    induction l with
    | nil => simp
    | cons p l ih =>
      simp only [List.filter_cons, List.mem_cons, not_or]
      by_cases h1 : p.1 ∈ U
      · simp [h1]; simpa using ih
      · by_cases h2 : p.1 = n
        · simp only [h2, hn]; simp; have := ih; simp at this; omega
        · simp only [h1, h2]; simp; have := ih; simp at this; omega
  induction cat with
  | nil => cases h
  | cons p cat ih =>
    simp only [List.filter_cons]
    rcases List.mem_cons.mp h with h | h
    · subst h
      have := hle cat
      simp only [List.mem_cons, true_or, not_true, decide_false, hn, not_false_iff, decide_true, if_true, List.length_cons]
      simp at this ⊢
      omega
    · have := ih h
      by_cases h1 : p.1 ∈ U
      · simp [h1] at this ⊢; exact this
      · by_cases h2 : p.1 = n
        · simp [h2, hn] at this ⊢; omega
        · simp [h1, h2] at this ⊢; omega

theorem findSig_eq {ord : List Nat → List NamedType → List NamedType} (hord : ∀ p l, (ord p l).Perm l) {types : List NamedType}
    {cat : List (Bytes × Ty)} (hc : Catalogue types cat) {nt : Notation} {owner : Bytes} {bad : Ty → Prop}
    (hgood : ∀ p ∈ cat, ¬ p.2.Has bad) (hap : Apart nt owner bad cat) : ∀ (fuel : Nat) (U : List Bytes), unused cat U < fuel →
    Finds nt owner bad (findSig ord types nt owner fuel U) (outside U (nameIn cat))
  | 0, U, h => absurd h (by omega)
  | fuel + 1, U, h => by
    intro place t hg hk
    rw [findSig]
    have hloop := sigLoop_eq (text := fun i n t => typeText (findSig ord types nt owner fuel (n :: U)) nt owner (i :: 0 :: place) t)
      (used := U) (sig := t.body nt owner (outside U (nameIn cat))) (t := t) (ord place types) 0 (by
        rintro ⟨n, o⟩ hp hn
        obtain ⟨d, u, rfl, hd, hm⟩ := cat_stored hc ((hord place types).mem_iff.mp hp)
        refine ⟨d, u, rfl, hd, fun i => ?_⟩
        have hu : Sayable bad u := ⟨(hc.plain _ hm).2.1, hgood _ hm⟩
        have ih := findSig_eq hord hc hgood hap fuel (n :: U) (by have := unused_cons hm hn; omega)
        refine ⟨_, typeText_eq ih (calls_outside hc _) d _ u hd hu, ?_⟩
        have hw : u.write nt owner (outside (n :: U) (nameIn cat)) = u.body nt owner (outside (n :: U) (nameIn cat)) := by
          unfold Ty.write
          cases h' : outside (n :: U) (nameIn cat) u with
          | none => rfl
          | some m =>
            obtain ⟨h1, h2⟩ := outside_some.mp h'
            obtain ⟨h3, h4⟩ := (nameIn_some hc).mp h1
            have := hc.apart _ h3 _ hm rfl h4
            cases this
            exact absurd List.mem_cons_self h2
        rw [hw]
        constructor
        · rintro ⟨-, he⟩
          exact hap u t hu hg _ _ he
        · rintro rfl
          refine ⟨body_ne _ _ _ _ hu.1, body_congr nt owner _ _ u fun s hs => ?_⟩
          have : ∀ m, nameIn cat s = some m → m ≠ n := by
            rintro m h' rfl
            have := cat_name hc ((nameIn_some hc).mp h').1 hm
            subst this
            exact absurd hs (Nat.lt_irrefl _)
          cases h' : nameIn cat s with
          | none => simp [outside, h']
          | some m =>
            have := this m h'
            simp [outside, h', Option.filter, this])
    rcases hloop with ⟨n, d, h1, h2, h3, h4⟩ | ⟨h1, h2⟩
    · rw [h1]
      obtain ⟨d', u, he, hd', hm⟩ := cat_stored hc ((hord place types).mem_iff.mp h2)
      cases he
      rw [h4] at hd'
      cases hd'
      by_cases hdec : t.declared = true
      · have : outside U (nameIn cat) t = some n := outside_some.mpr ⟨(nameIn_some hc).mpr ⟨hm, hdec⟩, h3⟩
        rw [this]
        rfl
      · rcases hk with hk | ⟨ds, u, rfl⟩
        · exact absurd hk hdec
        · exact absurd rfl ((hc.plain _ hm).1 ds u)
    · rw [h1]
      cases h' : outside U (nameIn cat) t with
      | none => rfl
      | some n =>
        obtain ⟨h3, h4⟩ := outside_some.mp h'
        obtain ⟨d, hd, ht⟩ := cat_kept hc ((nameIn_some hc).mp h3).1
        exact absurd ht (h2 n d ((hord place types).mem_iff.mpr hd) h4)

end Verif.H5
