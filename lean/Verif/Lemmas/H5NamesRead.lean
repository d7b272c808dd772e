import Verif.Lemmas.H5Names
import Mathlib.Data.List.Nodup
/-!
The texts of types can be read back, so they tell types apart.
-/
namespace Verif.H5

/-! ### Pieces of text -/

/-- From some number on. -/
def Ev (p : Nat → Prop) : Prop := ∃ m, ∀ f, m ≤ f → p f

theorem Ev.succ {p : Nat → Prop} (h : Ev fun f => p (f + 1)) : Ev p := by
  obtain ⟨m, h⟩ := h
  refine ⟨m + 1, fun f hf => ?_⟩
  obtain ⟨g, rfl⟩ : ∃ g, f = g + 1 := ⟨f - 1, by omega⟩
  exact h g (by omega)

theorem Ev.and {p q : Nat → Prop} (h1 : Ev p) (h2 : Ev q) : Ev fun f => p f ∧ q f := by
  obtain ⟨m, h1⟩ := h1
  obtain ⟨n, h2⟩ := h2
  exact ⟨max m n, fun f hf => ⟨h1 f (by omega), h2 f (by omega)⟩⟩

theorem Ev.mono {p q : Nat → Prop} (h1 : Ev p) (h2 : ∀ f, p f → q f) : Ev q := by
  obtain ⟨m, h1⟩ := h1
  exact ⟨m, fun f hf => h2 f (h1 f hf)⟩

theorem Ev.of_all {p : Nat → Prop} (h : ∀ f, p f) : Ev p := ⟨0, fun f _ => h f⟩

/-- The rest behind `lit`. -/
def eat (lit s : Bytes) : Option Bytes := if lit.isPrefixOf s then some (s.drop lit.length) else none

theorem eat_append (lit r : Bytes) : eat lit (lit ++ r) = some r := by
  unfold eat
  rw [if_pos (by rw [List.isPrefixOf_iff_prefix]; exact List.prefix_append _ _)]
  simp

theorem eat_ne {a b : UInt8} (l s : Bytes) (h : a ≠ b) : eat (a :: l) (b :: s) = none := by
  simp [eat, List.isPrefixOf, h]

theorem eat_cons (a : UInt8) (l s : Bytes) : eat (a :: l) (a :: s) = eat l s := by
  simp [eat, List.isPrefixOf]

/-- A name and what follows. -/
def word (s : Bytes) : Bytes × Bytes := (s.takeWhile nameByte, s.dropWhile nameByte)

/-- No name goes on here. -/
def Sep (r : Bytes) : Prop := ∀ b ∈ r.head?, nameByte b = false

theorem span_append {q : UInt8 → Bool} {w r : Bytes} (hw : w.all q = true) (hr : ∀ b ∈ r.head?, q b = false) :
    (w ++ r).takeWhile q = w ∧ (w ++ r).dropWhile q = r := by
  induction w with
  | nil =>
    cases r with
    | nil => simp
    | cons b r =>
      have : q b = false := hr b (by simp)
      simp [List.takeWhile, List.dropWhile, this]
  | cons a w ih =>
    simp only [List.all_cons, Bool.and_eq_true] at hw
    simp [List.takeWhile, List.dropWhile, hw.1, ih hw.2]

theorem word_append {w r : Bytes} (hw : w.all nameByte = true) (hr : Sep r) : word (w ++ r) = (w, r) := by
  obtain ⟨h1, h2⟩ := span_append hw hr
  rw [word, h1, h2]

/-- A decimal digit. -/
def digit (b : UInt8) : Bool := decide (48 ≤ b) && decide (b ≤ 57)

/-- The number with these digits. -/
def undec (s : Bytes) : Nat := s.foldl (fun a b => 10 * a + (b.toNat - 48)) 0

/-- A number and what follows. -/
def natOf (s : Bytes) : Nat × Bytes := (undec (s.takeWhile digit), s.dropWhile digit)

theorem digit_ofNat {n : Nat} (h : n < 10) : digit (UInt8.ofNat (48 + n)) = true ∧ (UInt8.ofNat (48 + n)).toNat - 48 = n := by
  have : n = 0 ∨ n = 1 ∨ n = 2 ∨ n = 3 ∨ n = 4 ∨ n = 5 ∨ n = 6 ∨ n = 7 ∨ n = 8 ∨ n = 9 := by omega
  rcases this with rfl | rfl | rfl | rfl | rfl | rfl | rfl | rfl | rfl | rfl <;> decide

theorem decDigits_digits (n : Nat) : (decDigits n).all digit = true := by
  induction n using decDigits.induct with
  | case1 n h =>
    rw [decDigits, if_pos h]
    simp only [List.all_cons, List.all_nil, Bool.and_true]
    exact (digit_ofNat h).1
  | case2 n h ih =>
    rw [decDigits, if_neg h]
    simp only [List.all_append, ih, List.all_cons, List.all_nil, Bool.and_true, Bool.true_and]
    exact (digit_ofNat (Nat.mod_lt _ (by decide))).1

theorem undec_decDigits (n : Nat) : undec (decDigits n) = n := by
  induction n using decDigits.induct with
  | case1 n h =>
    rw [decDigits, if_pos h]
    simp only [undec, List.foldl_cons, List.foldl_nil, (digit_ofNat h).2]
    omega
  | case2 n h ih =>
    rw [decDigits, if_neg h]
    unfold undec at ih ⊢
    rw [List.foldl_append, ih]
    simp only [List.foldl_cons, List.foldl_nil, (digit_ofNat (Nat.mod_lt n (by decide : 0 < 10))).2]
    omega

theorem natOf_append (n : Nat) {r : Bytes} (hr : ∀ b ∈ r.head?, digit b = false) : natOf (decDigits n ++ r) = (n, r) := by
  obtain ⟨h1, h2⟩ := span_append (decDigits_digits n) hr
  rw [natOf, h1, h2, undec_decDigits]

/-- An integer and what follows. -/
def intOf (s : Bytes) : Int × Bytes :=
  match eat (ascii "-") s with
  | some s => (-((natOf s).1 : Int), (natOf s).2)
  | none => ((natOf s).1, (natOf s).2)

theorem decDigits_cons (n : Nat) : ∃ d l, decDigits n = d :: l ∧ digit d = true := by
  have h := decDigits_digits n
  cases hd : decDigits n with
  | nil =>
    rw [decDigits] at hd
    split at hd <;> simp at hd
  | cons d l =>
    rw [hd] at h
    simp only [List.all_cons, Bool.and_eq_true] at h
    exact ⟨d, l, rfl, h.1⟩

theorem intOf_append (i : Int) {r : Bytes} (hr : ∀ b ∈ r.head?, digit b = false) : intOf (decimal i ++ r) = (i, r) := by
  cases i with
  | ofNat n =>
    obtain ⟨d, l, hd, h⟩ := decDigits_cons n
    have : eat (ascii "-") (decDigits n ++ r) = none := by
      rw [hd]
      refine eat_ne [] _ ?_
      rintro rfl
      cases h
    simp only [decimal, intOf, this, natOf_append n hr]
    rfl
  | negSucc n =>
    simp only [decimal, intOf, List.append_assoc, eat_append, natOf_append (n + 1) hr]
    simp [Int.negSucc_eq]

/-- The members of an enumeration; `first` is what is between the first name and its value, `sep` and
`fin` what follows a value. -/
def readItems (sep fin : Bytes) : Nat → Bytes → Bytes → Option (List Bytes × List Int × Bytes)
  | 0, _, _ => none
  | f + 1, first, s => do
    let s ← eat (ascii "\t") s
    let n := (word s).1
    let s ← eat first (word s).2
    let v := (intOf s).1
    match eat fin (intOf s).2 with
    | some r => some ([n], [v], r)
    | none => do
      let s ← eat sep (intOf s).2
      let (ns, vs, r) ← readItems sep fin f (ascii " = ") s
      some (n :: ns, v :: vs, r)

theorem readItems_enum {sep fin : Bytes} (h1 : ∀ b ∈ fin.head?, digit b = false) (h2 : ∀ b ∈ sep.head?, digit b = false)
    (h3 : fin ≠ []) (h4 : sep ≠ []) (hne : ∀ r, eat fin (sep ++ 9 :: r) = none) : ∀ (ns : List Bytes) (vs : List Int) (n : Bytes) (v : Int) (first r : Bytes),
    ns.length = vs.length → IsName n → (∀ n ∈ ns, IsName n) → (∀ r, Sep (first ++ r)) →
    Ev fun f => readItems sep fin f first
      (sep.intercalate ((ascii "\t" ++ n ++ first ++ decimal v) :: enumItems ns vs) ++ fin ++ r) = some (n :: ns, v :: vs, r)
  | [], vs, n, v, first, r, hl, hn, hns, hf => by
    cases vs with
    | cons => simp at hl
    | nil =>
      refine Ev.succ (Ev.of_all fun f => ?_)
      have hd : ∀ b ∈ (fin ++ r).head?, digit b = false := by
        cases fin with
        | nil => exact absurd rfl h3
        | cons => simpa using h1
      have e : ([] : List Bytes) = [] := rfl
      simp only [enumItems, List.intercalate_singleton, List.append_assoc]
      simp only [readItems, eat_append, Option.bind_eq_bind, Option.bind_some, word_append hn.2 (hf _), intOf_append v hd]
  | m :: ns, vs, n, v, first, r, hl, hn, hns, hf => by
    cases vs with
    | nil => simp at hl
    | cons w vs =>
      have ih := readItems_enum h1 h2 h3 h4 hne ns vs m w (ascii " = ") r (by simpa using hl) (hns m (by simp)) (fun n h => hns n (by simp [h]))
        (fun r b hb => by
          have : b = 32 := by simpa [ascii] using hb.symm
          subst this; decide)
      refine Ev.succ (ih.mono fun f hi => ?_)
      have e : sep.intercalate ((ascii "\t" ++ n ++ first ++ decimal v) :: enumItems (m :: ns) (w :: vs)) ++ fin ++ r =
          ascii "\t" ++ (n ++ (first ++ (decimal v ++ (sep ++
            (sep.intercalate ((ascii "\t" ++ m ++ ascii " = " ++ decimal w) :: enumItems ns vs) ++ fin ++ r))))) := by
        rw [enumItems]
        simp [List.intercalate, List.intersperse]
      rw [e]
      have ht : ∃ r', sep.intercalate ((ascii "\t" ++ m ++ ascii " = " ++ decimal w) :: enumItems ns vs) ++ fin ++ r = 9 :: r' := by
        cases h : enumItems ns vs with
        | nil => simp [ascii]
        | cons => simp [List.intercalate, ascii]
      obtain ⟨r', ht⟩ := ht
      have hd : ∀ b ∈ (sep ++ (sep.intercalate ((ascii "\t" ++ m ++ ascii " = " ++ decimal w) :: enumItems ns vs) ++ fin ++ r)).head?, digit b = false := by
        cases sep with
        | nil => exact absurd rfl h4
        | cons => simpa using h2
      have hn' : eat fin (sep ++ (sep.intercalate ((ascii "\t" ++ m ++ ascii " = " ++ decimal w) :: enumItems ns vs) ++ fin ++ r)) = none := by
        rw [ht]; exact hne r'
      simp only [readItems, eat_append, Option.bind_eq_bind, Option.bind_some, word_append hn.2 (hf _), intOf_append v hd, hn', hi]

/-! ### CDL -/

/-- The kinds of numbers. -/
def kinds : List Kind := [.i8, .i16, .i32, .i64, .u8, .u16, .u32, .u64, .f32, .f64]

/-- The kind of this name. -/
def kindNamed (nt : Notation) (w : Bytes) : Option Kind := kinds.find? fun k => kindText nt k = w

theorem kindNamed_text (nt : Notation) (k : Kind) : kindNamed nt (kindText nt k) = some k := by
  cases nt <;> cases k <;> decide

theorem kindNamed_none {nt : Notation} {w : Bytes} (h : w ∉ typeWords) : kindNamed nt w = none := by
  unfold kindNamed
  rw [List.find?_eq_none]
  intro k hk
  simp only [decide_eq_true_eq]
  rintro rfl
  apply h
  clear h hk
  cases nt <;> cases k <;> decide

theorem kindText_word (nt : Notation) (k : Kind) : (kindText nt k).all nameByte = true ∧ kindText nt k ≠ ascii "compound" ∧
    kindText nt k ≠ ascii "opaque" ∧ kindText nt k ≠ ascii "string" ∧ kindText nt k ≠ ascii "struct" := by
  cases nt <;> cases k <;> decide

/-- The dimensions of an array. -/
def readDims : Nat → Bytes → Option (List Nat × Bytes)
  | 0, _ => none
  | f + 1, s =>
    match eat (ascii ")") (natOf s).2 with
    | some r => some ([(natOf s).1], r)
    | none => do
      let s' ← eat (ascii ",") (natOf s).2
      let (ds, r) ← readDims f s'
      some ((natOf s).1 :: ds, r)

theorem readDims_eq : ∀ (ds : List Nat) (r : Bytes), ds ≠ [] →
    Ev fun f => readDims f ((ascii ",").intercalate (ds.map decDigits) ++ ascii ")" ++ r) = some (ds, r)
  | [], r, h => absurd rfl h
  | [d], r, _ => by
    refine Ev.succ (Ev.of_all fun f => ?_)
    have hd : ∀ b ∈ (ascii ")" ++ r).head?, digit b = false := by
      intro b hb
      have : b = 41 := by simpa [ascii] using hb.symm
      subst this; decide
    simp only [List.map_cons, List.map_nil, List.intercalate_singleton, List.append_assoc, readDims, natOf_append d hd, eat_append]
  | d :: e :: ds, r, _ => by
    refine Ev.succ ((readDims_eq (e :: ds) r (by simp)).mono fun f hf => ?_)
    have e1 : (ascii ",").intercalate ((d :: e :: ds).map decDigits) ++ ascii ")" ++ r =
        decDigits d ++ (ascii "," ++ ((ascii ",").intercalate ((e :: ds).map decDigits) ++ ascii ")" ++ r)) := by
      simp [List.intercalate, List.intersperse]
    rw [e1]
    generalize (ascii ",").intercalate ((e :: ds).map decDigits) ++ ascii ")" ++ r = s at hf
    have hd : ∀ b ∈ (ascii "," ++ s).head?, digit b = false := by
      intro b hb
      have : b = 44 := by simpa [ascii] using hb.symm
      subst this; decide
    have h2 : eat (ascii ")") (ascii "," ++ s) = none := eat_ne [] s (by decide)
    simp only [readDims, natOf_append d hd, h2, eat_append, hf, Option.bind_eq_bind, Option.bind_some]

/-- What follows a type: `(*)` or dimensions. -/
def readSuffix : Nat → Ty → Bytes → Option (Ty × Bytes)
  | 0, _, _ => none
  | f + 1, t, s =>
    match eat (ascii "(*)") s with
    | some r => readSuffix f (.seq t) r
    | none =>
      match eat (ascii "(") s with
      | some r => do
        let (ds, r) ← readDims f r
        readSuffix f (.array ds t) r
      | none => some (t, s)

/-- The members of a compound. -/
def readMembersCdl (rd : Bytes → Option (Ty × Bytes)) : Nat → Bytes → Option (List Bytes × List Ty × Bytes)
  | 0, _ => none
  | f + 1, s =>
    match eat (ascii "\t") s with
    | none => do
      let r ← eat (ascii "}") s
      some ([], [], r)
    | some s => do
      let (t, s) ← rd s
      let s ← eat (ascii " ") s
      let n := (word s).1
      let s ← eat (ascii ";\n") (word s).2
      let (ns, ts, r) ← readMembersCdl rd f s
      some (n :: ns, t :: ts, r)

/-- A reader of types in CDL; `env` are the types with names. -/
def readCdl (env : Bytes → Option Ty) : Nat → Bytes → Option (Ty × Bytes)
  | 0, _ => none
  | f + 1, s =>
    let w := (word s).1
    let r := (word s).2
    if w = ascii "compound" then do
      let r ← eat (ascii " {\n") r
      let (ns, ts, r) ← readMembersCdl (readCdl env f) f r
      readSuffix f (.compound ns ts) r
    else if w = ascii "opaque" then do
      let r ← eat (ascii "(") r
      let n := (natOf r).1
      let r ← eat (ascii ")") (natOf r).2
      readSuffix f (.opaque n) r
    else if w = ascii "string" then readSuffix f .text r
    else
      match kindNamed .cdl w with
      | some k =>
        match eat (ascii " enum {\n") r with
        | some r => do
          let (ns, vs, r) ← readItems (ascii ",\n") (ascii "\n}") f (ascii " = ") r
          readSuffix f (.enum k ns vs) r
        | none => readSuffix f (.num k) r
      | none => do
        let t ← env w
        readSuffix f t r

/-- The names that `c` gives are in `env`. -/
def Known (env : Bytes → Option Ty) (c : Ty → Option Bytes) : Prop :=
  ∀ t n, c t = some n → env n = some t ∧ IsName n ∧ n ∉ typeWords

theorem sep_byte {b : UInt8} (h : nameByte b = false) (r : Bytes) : Sep (b :: r) := by
  intro x hx
  have : x = b := by simpa using hx.symm
  rw [this]; exact h

theorem enum_word {n : Bytes} (hn : IsName n) (r : Bytes) : eat (ascii " enum {\n") (ascii " " ++ n ++ ascii ";\n" ++ r) = none := by
  have e : eat (ascii " enum {\n") (ascii " " ++ n ++ ascii ";\n" ++ r) = eat (ascii "enum {\n") (n ++ (ascii ";\n" ++ r)) := by
    have h1 : ascii " enum {\n" = 32 :: ascii "enum {\n" := by decide
    have h2 : ascii " " ++ n ++ ascii ";\n" ++ r = 32 :: (n ++ (ascii ";\n" ++ r)) := by simp [ascii]
    rw [h1, h2, eat_cons]
  rw [e]
  unfold eat
  rw [if_neg]
  intro h
  rw [List.isPrefixOf_iff_prefix] at h
  obtain ⟨q, hq⟩ := h
  have h1 : word (n ++ (ascii ";\n" ++ r)) = (n, ascii ";\n" ++ r) := word_append hn.2 (sep_byte (b := 59) (by decide) _)
  rw [← hq] at h1
  have h2 : word (ascii "enum {\n" ++ q) = (ascii "enum", ascii " {\n" ++ q) := by
    have : ascii "enum {\n" ++ q = ascii "enum" ++ (ascii " {\n" ++ q) := by
      rw [← List.append_assoc]; congr 1
    rw [this]
    exact word_append (by decide) (sep_byte (b := 32) (by decide) _)
  rw [h2] at h1
  simp [ascii] at h1

mutual
theorem readCdl_body {env : Bytes → Option Ty} {c : Ty → Option Bytes} (hk : Known env c) (owner : Bytes) : ∀ (t : Ty), t.Ok →
    ∀ (r : Bytes) (x : Ty × Bytes), Sep r → eat (ascii " enum {\n") r = none → (Ev fun f => readSuffix f t r = some x) →
    Ev fun f => readCdl env f (t.body .cdl owner c ++ r) = some x := by
  intro t hok r x hs he hx
  cases t with
  | num k =>
    refine Ev.succ (hx.mono fun f hf => ?_)
    obtain ⟨h1, h2, h3, h4, -⟩ := kindText_word .cdl k
    simp only [Ty.body, readCdl, word_append h1 hs, if_neg h2, if_neg h3, if_neg h4, kindNamed_text, he]
    exact hf
  | text =>
    refine Ev.succ (hx.mono fun f hf => ?_)
    have h1 : word (ascii "string" ++ r) = (ascii "string", r) := word_append (by decide) hs
    simp only [Ty.body, readCdl, h1]
    rw [if_neg (by decide), if_neg (by decide)]
    simpa using hf
  | «opaque» n =>
    refine Ev.succ (hx.mono fun f hf => ?_)
    have h1 : word (ascii "opaque" ++ (ascii "(" ++ (decDigits n ++ (ascii ")" ++ r)))) =
        (ascii "opaque", ascii "(" ++ (decDigits n ++ (ascii ")" ++ r))) :=
      word_append (by decide) (sep_byte (b := 40) (by decide) _)
    have e : (Ty.opaque n).body .cdl owner c ++ r = ascii "opaque" ++ (ascii "(" ++ (decDigits n ++ (ascii ")" ++ r))) := by
      simp only [Ty.body, List.append_assoc]
      rw [← List.append_assoc (ascii "opaque")]
      congr 1
    have hd : ∀ b ∈ (ascii ")" ++ r).head?, digit b = false := by
      intro b hb
      have : b = 41 := by simpa [ascii] using hb.symm
      subst this; decide
    rw [e]
    simp only [readCdl, h1]
    rw [if_neg (by decide)]
    simp only [if_true, eat_append, Option.bind_eq_bind, Option.bind_some, natOf_append n hd]
    exact hf
  | compound ns ts =>
    rw [Ty.Ok] at hok
    obtain ⟨m, hm⟩ := readMembersCdl_eq hk owner ns ts hok.1 hok.2.2.1 hok.2.2.2 r
    have hm' : Ev fun f => readMembersCdl (readCdl env f) f ((Ty.members .cdl owner c ns ts).flatten ++ ascii "}" ++ r) = some (ns, ts, r) :=
      ⟨m, fun f h => hm f f h h⟩
    refine Ev.succ ((hm'.and hx).mono fun f ⟨h2, h3⟩ => ?_)
    have e : (Ty.compound ns ts).body .cdl owner c ++ r =
        ascii "compound" ++ (ascii " {\n" ++ ((Ty.members .cdl owner c ns ts).flatten ++ ascii "}" ++ r)) := by
      simp only [Ty.body, List.append_assoc]
      rw [← List.append_assoc (ascii "compound")]
      congr 1
    have h1 : word (ascii "compound" ++ (ascii " {\n" ++ ((Ty.members .cdl owner c ns ts).flatten ++ ascii "}" ++ r))) =
        (ascii "compound", ascii " {\n" ++ ((Ty.members .cdl owner c ns ts).flatten ++ ascii "}" ++ r)) :=
      word_append (by decide) (sep_byte (b := 32) (by decide) _)
    rw [e]
    simp only [readCdl, h1, if_true, eat_append, Option.bind_eq_bind, Option.bind_some, h2]
    exact h3
  | enum k ns vs =>
    rw [Ty.Ok] at hok
    obtain ⟨n, ns, rfl⟩ := List.exists_cons_of_ne_nil hok.2.1
    cases vs with
    | nil => simp at hok
    | cons v vs =>
      have hi := readItems_enum (sep := ascii ",\n") (fin := ascii "\n}") (by decide) (by decide) (by decide) (by decide)
        (fun r => eat_ne _ _ (by decide)) ns vs n v (ascii " = ") r (by simpa using hok.1) (hok.2.2 n (by simp))
        (fun n h => hok.2.2 n (by simp [h])) (fun r => sep_byte (b := 32) (by decide) _)
      refine Ev.succ ((hi.and hx).mono fun f ⟨h2, h3⟩ => ?_)
      have e : (Ty.enum k (n :: ns) (v :: vs)).body .cdl owner c ++ r = kindText .cdl k ++ (ascii " enum {\n" ++
          ((ascii ",\n").intercalate ((ascii "\t" ++ n ++ ascii " = " ++ decimal v) :: enumItems ns vs) ++ ascii "\n}" ++ r)) := by
        simp only [Ty.body, List.append_assoc, enumItems]
      obtain ⟨k1, k2, k3, k4, -⟩ := kindText_word .cdl k
      rw [e]
      have hs' : Sep (ascii " enum {\n" ++
          ((ascii ",\n").intercalate ((ascii "\t" ++ n ++ ascii " = " ++ decimal v) :: enumItems ns vs) ++ ascii "\n}" ++ r)) :=
        sep_byte (b := 32) (by decide) _
      have hw := word_append k1 hs'
      simp only [readCdl, hw, if_neg k2, if_neg k3, if_neg k4, kindNamed_text, eat_append, Option.bind_eq_bind, Option.bind_some, h2]
      exact h3
  | seq t =>
    rw [Ty.Ok] at hok
    have e : (Ty.seq t).body .cdl owner c ++ r = t.write .cdl owner c ++ (ascii "(*)" ++ r) := by
      simp only [Ty.body, Ty.write, List.append_assoc]
    rw [e]
    refine readCdl_write hk owner t hok (ascii "(*)" ++ r) x (sep_byte (b := 40) (by decide) _) (eat_ne _ _ (by decide)) ?_
    refine Ev.succ (hx.mono fun f hf => ?_)
    simp only [readSuffix, eat_append]
    exact hf
  | array ds t =>
    rw [Ty.Ok] at hok
    have e : (Ty.array ds t).body .cdl owner c ++ r =
        t.write .cdl owner c ++ (ascii "(" ++ ((ascii ",").intercalate (ds.map decDigits) ++ ascii ")" ++ r)) := by
      simp only [Ty.body, Ty.write, List.append_assoc]
    rw [e]
    refine readCdl_write hk owner t hok.2 _ x (sep_byte (b := 40) (by decide) _) (eat_ne _ _ (by decide)) ?_
    refine Ev.succ (((readDims_eq ds r hok.1).and hx).mono fun f ⟨h1, h2⟩ => ?_)
    have hstar : eat (ascii "(*)") (ascii "(" ++ ((ascii ",").intercalate (ds.map decDigits) ++ ascii ")" ++ r)) = none := by
      cases ds with
      | nil => exact absurd rfl hok.1
      | cons d ds =>
        obtain ⟨x, l, hd, hx⟩ := decDigits_cons d
        have : ∃ q, (ascii ",").intercalate ((d :: ds).map decDigits) ++ ascii ")" ++ r = x :: q := by
          cases ds with
          | nil => simp [hd]
          | cons => simp [List.intercalate, List.intersperse, hd]
        obtain ⟨q, hq⟩ := this
        rw [hq]
        have h1 : ascii "(*)" = 40 :: 42 :: [41] := by decide
        have h2 : ascii "(" ++ x :: q = 40 :: x :: q := by simp [ascii]
        rw [h1, h2, eat_cons]
        refine eat_ne _ _ ?_
        rintro rfl
        cases hx
    simp only [readSuffix, hstar, eat_append, h1, Option.bind_eq_bind, Option.bind_some]
    exact h2
termination_by t => (sizeOf t, 0)
theorem readCdl_write {env : Bytes → Option Ty} {c : Ty → Option Bytes} (hk : Known env c) (owner : Bytes) : ∀ (t : Ty), t.Ok →
    ∀ (r : Bytes) (x : Ty × Bytes), Sep r → eat (ascii " enum {\n") r = none → (Ev fun f => readSuffix f t r = some x) →
    Ev fun f => readCdl env f (t.write .cdl owner c ++ r) = some x := by
  intro t hok r x hs he hx
  cases hc : c t with
  | some n =>
    obtain ⟨h1, h2, h3⟩ := hk t n hc
    have hw : t.write .cdl owner c = n := by simp [Ty.write, hc]
    rw [hw]
    refine Ev.succ (hx.mono fun f hf => ?_)
    have n1 : n ≠ ascii "compound" := by rintro rfl; exact h3 (by decide)
    have n2 : n ≠ ascii "opaque" := by rintro rfl; exact h3 (by decide)
    have n3 : n ≠ ascii "string" := by rintro rfl; exact h3 (by decide)
    simp only [readCdl, word_append h2.2 hs, if_neg n1, if_neg n2, if_neg n3, kindNamed_none h3, h1, Option.bind_eq_bind, Option.bind_some]
    exact hf
  | none =>
    have hw : t.write .cdl owner c = t.body .cdl owner c := by simp [Ty.write, hc]
    rw [hw]
    exact readCdl_body hk owner t hok r x hs he hx
termination_by t => (sizeOf t, 1)
theorem readMembersCdl_eq {env : Bytes → Option Ty} {c : Ty → Option Bytes} (hk : Known env c) (owner : Bytes) : ∀ (ns : List Bytes) (ts : List Ty),
    ns.length = ts.length → (∀ n ∈ ns, IsName n) → Ty.OkAll ts → ∀ r : Bytes,
    ∃ m, ∀ f g, m ≤ f → m ≤ g → readMembersCdl (readCdl env f) g ((Ty.members .cdl owner c ns ts).flatten ++ ascii "}" ++ r) = some (ns, ts, r) := by
  intro ns ts hl hn hok r
  cases ns with
  | nil =>
    cases ts with
    | cons => simp at hl
    | nil =>
      refine ⟨1, fun f g _ hg => ?_⟩
      obtain ⟨g, rfl⟩ : ∃ h, g = h + 1 := ⟨g - 1, by omega⟩
      have : eat (ascii "\t") (ascii "}" ++ r) = none := eat_ne _ _ (by decide)
      simp only [Ty.members, List.flatten_nil, List.nil_append, readMembersCdl, this, eat_append, Option.bind_eq_bind, Option.bind_some]
  | cons n ns =>
    cases ts with
    | nil => simp at hl
    | cons t ts =>
      rw [Ty.OkAll] at hok
      obtain ⟨m1, h1⟩ := readMembersCdl_eq hk owner ns ts (by simpa using hl) (fun n h => hn n (by simp [h])) hok.2 r
      have e : (Ty.members .cdl owner c (n :: ns) (t :: ts)).flatten ++ ascii "}" ++ r =
          ascii "\t" ++ (t.write .cdl owner c ++ (ascii " " ++ (n ++ (ascii ";\n" ++ ((Ty.members .cdl owner c ns ts).flatten ++ ascii "}" ++ r))))) := by
        simp only [Ty.members, List.flatten_cons, List.append_assoc, Ty.write]
      rw [e]
      generalize (Ty.members .cdl owner c ns ts).flatten ++ ascii "}" ++ r = s at h1
      obtain ⟨m2, h2⟩ := readCdl_write hk owner t hok.1 (ascii " " ++ (n ++ (ascii ";\n" ++ s))) (t, ascii " " ++ (n ++ (ascii ";\n" ++ s)))
        (sep_byte (b := 32) (by decide) _)
        (by have := enum_word (hn n (by simp)) s; simpa only [List.append_assoc] using this)
        (Ev.succ (Ev.of_all fun f => by
          have a1 : eat (ascii "(*)") (ascii " " ++ (n ++ (ascii ";\n" ++ s))) = none := eat_ne _ _ (by decide)
          have a2 : eat (ascii "(") (ascii " " ++ (n ++ (ascii ";\n" ++ s))) = none := eat_ne _ _ (by decide)
          simp only [readSuffix, a1, a2]))
      refine ⟨max m1 m2 + 1, fun f g hf hg => ?_⟩
      obtain ⟨g, rfl⟩ : ∃ h, g = h + 1 := ⟨g - 1, by omega⟩
      have hs' : Sep (ascii ";\n" ++ s) := sep_byte (b := 59) (by decide) _
      have hw := word_append (hn n (by simp)).2 hs'
      simp only [readMembersCdl, eat_append, h2 f (by omega), hw, h1 f g (by omega) (by omega), Option.bind_eq_bind, Option.bind_some]
termination_by ns ts => (sizeOf ts, 0)
end

/-- The types with names. -/
def envOf (cat : List (Bytes × Ty)) (n : Bytes) : Option Ty := (cat.find? fun p => p.1 = n).map (·.2)

theorem known_outside {types : List NamedType} {cat : List (Bytes × Ty)} (hc : Catalogue types cat) (U : List Bytes) :
    Known (envOf cat) (outside U (nameIn cat)) := by
  intro t n h
  obtain ⟨h1, h2⟩ := (nameIn_some hc).mp (outside_some.mp h).1
  refine ⟨?_, (hc.plain _ h1).2.2⟩
  unfold envOf
  cases hf : cat.find? (fun p => p.1 = n) with
  | none =>
    have := List.find?_eq_none.mp hf _ h1
    simp at this
  | some q =>
    have hq := List.find?_some hf
    have hm := List.mem_of_find?_eq_some hf
    simp only [decide_eq_true_eq] at hq
    have : q = (n, t) := List.inj_on_of_nodup_map hc.names hm h1 hq
    rw [this]; rfl

/-- Different types have different texts in CDL. -/
theorem apart_cdl {types : List NamedType} {cat : List (Bytes × Ty)} (hc : Catalogue types cat) (owner : Bytes) :
    Apart .cdl owner (fun _ => False) cat := by
  intro s t hs ht U V h
  have hr : ∀ (t : Ty) (U : List Bytes), t.Ok → Ev fun f => readCdl (envOf cat) f (t.body .cdl owner (outside U (nameIn cat))) = some (t, []) := by
    intro t U ht
    have := readCdl_body (known_outside hc U) owner t ht [] (t, []) (by intro b hb; cases hb) (by decide)
      (Ev.succ (Ev.of_all fun f => by
        have a1 : eat (ascii "(*)") [] = none := by decide
        have a2 : eat (ascii "(") [] = none := by decide
        simp only [readSuffix, a1, a2]))
    simpa only [List.append_nil] using this
  obtain ⟨m, hm⟩ := (hr s U hs.1).and (hr t V ht.1)
  obtain ⟨h1, h2⟩ := hm m (Nat.le_refl _)
  rw [h, h2] at h1
  simpa using h1.symm

/-! ### Go -/

/-- The members of a struct. -/
def readMembersGo (rd : Bytes → Option (Ty × Bytes)) : Nat → Bytes → Option (List Bytes × List Ty × Bytes)
  | 0, _ => none
  | f + 1, s => do
    let s ← eat (ascii "\t") s
    let n := (word s).1
    let s ← eat (ascii " ") (word s).2
    let (t, s) ← rd s
    let s ← eat (ascii "\n") s
    match eat (ascii "}\n") s with
    | some r => some ([n], [t], r)
    | none => do
      let (ns, ts, r) ← readMembersGo rd f s
      some (n :: ns, t :: ts, r)

/-- An array, or an opaque type if `op` says so. -/
def wrap (op : Bool) (d : Nat) : Ty → Ty
  | .array ds t => .array (d :: ds) t
  | .num .u8 => if op then .opaque d else .array [d] (.num .u8)
  | t => .array [d] t

/-- A reader of types in Go; `env` are the types with names. -/
def readGo (env : Bytes → Option Ty) (owner : Bytes) (op : Bool) : Nat → Bytes → Option (Ty × Bytes)
  | 0, _ => none
  | f + 1, s =>
    match eat (ascii "[]") s with
    | some r => do
      let (t, r) ← readGo env owner op f r
      some (.seq t, r)
    | none =>
      match eat (ascii "[") s with
      | some r => do
        let d := (natOf r).1
        let r ← eat (ascii "]") (natOf r).2
        let (t, r) ← readGo env owner op f r
        some (wrap op d t, r)
      | none =>
        let w := (word s).1
        let r := (word s).2
        if w = ascii "struct" then do
          let r ← eat (ascii " {\n") r
          let (ns, ts, r) ← readMembersGo (readGo env owner op f) f r
          some (.compound ns ts, r)
        else if w = ascii "string" then some (.text, r)
        else
          match kindNamed .go w with
          | some k =>
            match eat (ascii "\nconst (\n") r with
            | some r => do
              let (ns, vs, r) ← readItems (ascii "\n") (ascii "\n)\n") f (ascii " " ++ owner ++ ascii " = ") r
              some (.enum k ns vs, r)
            | none => some (.num k, r)
          | none => do
            let t ← env w
            some (t, r)

theorem word_start {w : Bytes} (hw : IsName w) (l r : Bytes) : eat (91 :: l) (w ++ r) = none := by
  obtain ⟨h1, h2⟩ := hw
  cases w with
  | nil => exact absurd rfl h1
  | cons b w =>
    refine eat_ne _ _ ?_
    rintro rfl
    simp only [List.all_cons, Bool.and_eq_true] at h2
    exact absurd h2.1 (by decide)

/-- A type that Go writes without brackets. -/
theorem readGo_dims {env : Bytes → Option Ty} {owner : Bytes} {op : Bool} {e : Ty} {T r : Bytes} (h1 : ∀ ds t, e ≠ .array ds t)
    (h2 : op = true → e ≠ .num .u8) (h : Ev fun f => readGo env owner op f (T ++ r) = some (e, r)) : ∀ ds : List Nat, ds ≠ [] →
    Ev fun f => readGo env owner op f ((ds.map fun d => ascii "[" ++ decDigits d ++ ascii "]").flatten ++ (T ++ r)) = some (.array ds e, r)
  | [], hd => absurd rfl hd
  | d :: ds, _ => by
    have key : ∀ (s : Bytes) (t : Ty), (Ev fun f => readGo env owner op f s = some (t, r)) →
        Ev fun f => readGo env owner op f (ascii "[" ++ decDigits d ++ ascii "]" ++ s) = some (wrap op d t, r) := by
      intro s t hs
      refine Ev.succ (hs.mono fun f hf => ?_)
      have e1 : eat (ascii "[]") (ascii "[" ++ (decDigits d ++ (ascii "]" ++ s))) = none := by
        obtain ⟨x, l, hx, hdig⟩ := decDigits_cons d
        have h1 : ascii "[]" = 91 :: 93 :: [] := by decide
        have h2 : ascii "[" ++ (decDigits d ++ (ascii "]" ++ s)) = 91 :: x :: (l ++ (ascii "]" ++ s)) := by rw [hx]; simp [ascii]
        rw [h1, h2, eat_cons]
        refine eat_ne _ _ ?_
        rintro rfl
        cases hdig
      have hdg : ∀ b ∈ (ascii "]" ++ s).head?, digit b = false := by
        intro b hb
        have : b = 93 := by simpa [ascii] using hb.symm
        subst this; decide
      simp only [List.append_assoc, readGo, e1, eat_append, natOf_append d hdg, Option.bind_eq_bind, Option.bind_some, hf]
    cases ds with
    | nil =>
      have := key _ _ h
      have hw : wrap op d e = .array [d] e := by
        cases e with
        | array ds t => exact absurd rfl (h1 ds t)
        | num k =>
          cases k with
          | u8 =>
            cases op with
            | true => exact absurd rfl (h2 rfl)
            | false => rfl
          | _ => rfl
        | _ => rfl
      rw [hw] at this
      simpa using this
    | cons d' ds =>
      have := key _ _ (readGo_dims h1 h2 h (d' :: ds) (by simp))
      simpa [wrap] using this

mutual
theorem readGo_body {env : Bytes → Option Ty} {c : Ty → Option Bytes} (hk : Known env c) (owner : Bytes) (op : Bool) : ∀ (t : Ty), t.Ok →
    ¬ t.Has (vague op) → ∀ r : Bytes, Sep r → eat (ascii "\nconst (\n") r = none →
    Ev fun f => readGo env owner op f (t.body .go owner c ++ r) = some (t, r) := by
  intro t hok hv r hs he
  cases t with
  | num k =>
    refine Ev.succ (Ev.of_all fun f => ?_)
    obtain ⟨h1, -, -, h2, h3⟩ := kindText_word .go k
    have a1 : eat (ascii "[]") (kindText .go k ++ r) = none := word_start ⟨kindText_ne .go k, h1⟩ _ _
    have a2 : eat (ascii "[") (kindText .go k ++ r) = none := word_start ⟨kindText_ne .go k, h1⟩ _ _
    simp only [Ty.body, readGo, a1, a2, word_append h1 hs, if_neg h2, if_neg h3, kindNamed_text, he]
  | text =>
    refine Ev.succ (Ev.of_all fun f => ?_)
    have a1 : eat (ascii "[]") (ascii "string" ++ r) = none := eat_ne _ _ (by decide)
    have a2 : eat (ascii "[") (ascii "string" ++ r) = none := eat_ne _ _ (by decide)
    have h1 : word (ascii "string" ++ r) = (ascii "string", r) := word_append (by decide) hs
    simp only [Ty.body, readGo, a1, a2, h1]
    rw [if_neg (by decide)]
    simp
  | «opaque» n =>
    have hop : op = true := by
      cases op with
      | true => rfl
      | false => exact absurd (by simp [Ty.Has, vague]) hv
    subst hop
    have h1 : (kindText .go .u8).all nameByte = true := by decide
    have a1 : eat (ascii "[]") (kindText .go .u8 ++ r) = none := word_start ⟨by decide, h1⟩ _ _
    have a2 : eat (ascii "[") (kindText .go .u8 ++ r) = none := word_start ⟨by decide, h1⟩ _ _
    refine Ev.succ (Ev.succ (Ev.of_all fun f => ?_))
    have e : (Ty.opaque n).body .go owner c ++ r = ascii "[" ++ (decDigits n ++ (ascii "]" ++ (kindText .go .u8 ++ r))) := by
      have : ascii "]uint8" = ascii "]" ++ kindText .go .u8 := by decide
      simp only [Ty.body, List.append_assoc, this]
    have hdg : ∀ b ∈ (ascii "]" ++ (kindText .go .u8 ++ r)).head?, digit b = false := by
      intro b hb
      have : b = 93 := by simpa [ascii] using hb.symm
      subst this; decide
    have e1 : eat (ascii "[]") (ascii "[" ++ (decDigits n ++ (ascii "]" ++ (kindText .go .u8 ++ r)))) = none := by
      obtain ⟨x, l, hx, hdig⟩ := decDigits_cons n
      have h1 : ascii "[]" = 91 :: 93 :: [] := by decide
      have h2 : ascii "[" ++ (decDigits n ++ (ascii "]" ++ (kindText .go .u8 ++ r))) = 91 :: x :: (l ++ (ascii "]" ++ (kindText .go .u8 ++ r))) := by
        rw [hx]; simp [ascii]
      rw [h1, h2, eat_cons]
      refine eat_ne _ _ ?_
      rintro rfl
      cases hdig
    have hin : readGo env owner true (f + 1) (kindText .go .u8 ++ r) = some (.num .u8, r) := by
      obtain ⟨h1, -, -, h2, h3⟩ := kindText_word .go .u8
      simp only [readGo, a1, a2, word_append h1 hs, if_neg h2, if_neg h3, kindNamed_text, he]
    rw [e, readGo]
    simp only [e1, eat_append, natOf_append n hdg, Option.bind_eq_bind, Option.bind_some, hin]
    rfl
  | compound ns ts =>
    rw [Ty.Ok] at hok
    have hv' : ¬ Ty.HasAny (vague op) ts := fun h => hv (by rw [Ty.Has]; exact Or.inr h)
    obtain ⟨m, hm⟩ := readMembersGo_eq hk owner op ns ts hok.1 hok.2.1 hok.2.2.1 hok.2.2.2 hv' r
    have hm' : Ev fun f => readMembersGo (readGo env owner op f) f ((ascii "\n").intercalate (Ty.members .go owner c ns ts) ++ ascii "\n}\n" ++ r) = some (ns, ts, r) :=
      ⟨m, fun f h => hm f f h h⟩
    refine Ev.succ (hm'.mono fun f h2 => ?_)
    have e : (Ty.compound ns ts).body .go owner c ++ r =
        ascii "struct" ++ (ascii " {\n" ++ ((ascii "\n").intercalate (Ty.members .go owner c ns ts) ++ ascii "\n}\n" ++ r)) := by
      simp only [Ty.body, List.append_assoc]
      rw [← List.append_assoc (ascii "struct")]
      congr 1
    have h1 : word (ascii "struct" ++ (ascii " {\n" ++ ((ascii "\n").intercalate (Ty.members .go owner c ns ts) ++ ascii "\n}\n" ++ r))) =
        (ascii "struct", ascii " {\n" ++ ((ascii "\n").intercalate (Ty.members .go owner c ns ts) ++ ascii "\n}\n" ++ r)) :=
      word_append (by decide) (sep_byte (b := 32) (by decide) _)
    have a1 : ∀ s, eat (ascii "[]") (ascii "struct" ++ s) = none := fun s => eat_ne _ _ (by decide)
    have a2 : ∀ s, eat (ascii "[") (ascii "struct" ++ s) = none := fun s => eat_ne _ _ (by decide)
    rw [e]
    simp only [readGo, a1, a2, h1, if_true, eat_append, Option.bind_eq_bind, Option.bind_some, h2]
  | enum k ns vs =>
    rw [Ty.Ok] at hok
    obtain ⟨n, ns, rfl⟩ := List.exists_cons_of_ne_nil hok.2.1
    cases vs with
    | nil => simp at hok
    | cons v vs =>
      have hi := readItems_enum (sep := ascii "\n") (fin := ascii "\n)\n") (by decide) (by decide) (by decide) (by decide)
        (fun r => by
          have h1 : ascii "\n)\n" = 10 :: 41 :: [10] := by decide
          have h2 : ascii "\n" ++ 9 :: r = 10 :: 9 :: r := by simp [ascii]
          rw [h1, h2, eat_cons]
          exact eat_ne _ _ (by decide)) ns vs n v (ascii " " ++ owner ++ ascii " = ") r (by simpa using hok.1) (hok.2.2 n (by simp))
        (fun n h => hok.2.2 n (by simp [h])) (fun r => by simp only [List.append_assoc]; exact sep_byte (b := 32) (by decide) _)
      refine Ev.succ (hi.mono fun f h2 => ?_)
      have e : (Ty.enum k (n :: ns) (v :: vs)).body .go owner c ++ r = kindText .go k ++ (ascii "\nconst (\n" ++
          ((ascii "\n").intercalate ((ascii "\t" ++ n ++ (ascii " " ++ owner ++ ascii " = ") ++ decimal v) :: enumItems ns vs) ++ ascii "\n)\n" ++ r)) := by
        simp only [Ty.body, List.append_assoc, constItems]
      obtain ⟨k1, -, -, k2, k3⟩ := kindText_word .go k
      rw [e]
      generalize hg : (ascii "\n").intercalate ((ascii "\t" ++ n ++ (ascii " " ++ owner ++ ascii " = ") ++ decimal v) :: enumItems ns vs) ++ ascii "\n)\n" ++ r = s at h2
      have hs' : Sep (ascii "\nconst (\n" ++ s) := sep_byte (b := 10) (by decide) _
      have a1 : eat (ascii "[]") (kindText .go k ++ (ascii "\nconst (\n" ++ s)) = none := word_start ⟨kindText_ne .go k, k1⟩ _ _
      have a2 : eat (ascii "[") (kindText .go k ++ (ascii "\nconst (\n" ++ s)) = none := word_start ⟨kindText_ne .go k, k1⟩ _ _
      simp only [readGo, a1, a2, word_append k1 hs', if_neg k2, if_neg k3, kindNamed_text, eat_append, Option.bind_eq_bind, Option.bind_some, h2]
  | seq t =>
    rw [Ty.Ok] at hok
    have hv' : ¬ t.Has (vague op) := fun h => hv (by rw [Ty.Has]; exact Or.inr h)
    have e : (Ty.seq t).body .go owner c ++ r = ascii "[]" ++ (t.write .go owner c ++ r) := by
      simp only [Ty.body, Ty.write, List.append_assoc]
    rw [e]
    refine Ev.succ ((readGo_write hk owner op t hok hv' r hs he).mono fun f hf => ?_)
    simp only [readGo, eat_append, hf, Option.bind_eq_bind, Option.bind_some]
  | array ds t =>
    rw [Ty.Ok] at hok
    have hv' : ¬ t.Has (vague op) := fun h => hv (by rw [Ty.Has]; exact Or.inr h)
    have hv0 : ¬ vague op (.array ds t) := fun h => hv (by rw [Ty.Has]; exact Or.inl h)
    have e : (Ty.array ds t).body .go owner c ++ r =
        (ds.map fun d => ascii "[" ++ decDigits d ++ ascii "]").flatten ++ (t.write .go owner c ++ r) := by
      simp only [Ty.body, Ty.write, List.append_assoc]
    rw [e]
    refine readGo_dims (e := t) ?_ ?_ (readGo_write hk owner op t hok.2 hv' r hs he) ds hok.1
    · rintro ds' t' rfl
      exact hv0 trivial
    · rintro rfl rfl
      exact hv0 rfl
termination_by t => (sizeOf t, 0)
theorem readGo_write {env : Bytes → Option Ty} {c : Ty → Option Bytes} (hk : Known env c) (owner : Bytes) (op : Bool) : ∀ (t : Ty), t.Ok →
    ¬ t.Has (vague op) → ∀ r : Bytes, Sep r → eat (ascii "\nconst (\n") r = none →
    Ev fun f => readGo env owner op f (t.write .go owner c ++ r) = some (t, r) := by
  intro t hok hv r hs he
  cases hc : c t with
  | some n =>
    obtain ⟨h1, h2, h3⟩ := hk t n hc
    have hw : t.write .go owner c = n := by simp [Ty.write, hc]
    rw [hw]
    refine Ev.succ (Ev.of_all fun f => ?_)
    have n1 : n ≠ ascii "struct" := by rintro rfl; exact h3 (by decide)
    have n3 : n ≠ ascii "string" := by rintro rfl; exact h3 (by decide)
    have a1 : eat (ascii "[]") (n ++ r) = none := word_start h2 _ _
    have a2 : eat (ascii "[") (n ++ r) = none := word_start h2 _ _
    simp only [readGo, a1, a2, word_append h2.2 hs, if_neg n1, if_neg n3, kindNamed_none h3, h1, Option.bind_eq_bind, Option.bind_some]
  | none =>
    have hw : t.write .go owner c = t.body .go owner c := by simp [Ty.write, hc]
    rw [hw]
    exact readGo_body hk owner op t hok hv r hs he
termination_by t => (sizeOf t, 1)
theorem readMembersGo_eq {env : Bytes → Option Ty} {c : Ty → Option Bytes} (hk : Known env c) (owner : Bytes) (op : Bool) : ∀ (ns : List Bytes) (ts : List Ty),
    ns.length = ts.length → ns ≠ [] → (∀ n ∈ ns, IsName n) → Ty.OkAll ts → ¬ Ty.HasAny (vague op) ts → ∀ r : Bytes,
    ∃ m, ∀ f g, m ≤ f → m ≤ g →
      readMembersGo (readGo env owner op f) g ((ascii "\n").intercalate (Ty.members .go owner c ns ts) ++ ascii "\n}\n" ++ r) = some (ns, ts, r) := by
  intro ns ts hl h0 hn hok hv r
  cases ns with
  | nil => exact absurd rfl h0
  | cons n ns =>
    cases ts with
    | nil => simp at hl
    | cons t ts =>
      rw [Ty.OkAll] at hok
      have hvt : ¬ t.Has (vague op) := fun h => hv (by rw [Ty.HasAny]; exact Or.inl h)
      have hvs : ¬ Ty.HasAny (vague op) ts := fun h => hv (by rw [Ty.HasAny]; exact Or.inr h)
      have hs' : ∀ s, Sep (ascii " " ++ s) := fun s => sep_byte (b := 32) (by decide) _
      have hsn : ∀ s, Sep (ascii "\n" ++ s) := fun s => sep_byte (b := 10) (by decide) _
      cases ns with
      | nil =>
        cases ts with
        | cons => simp at hl
        | nil =>
          have e : (ascii "\n").intercalate (Ty.members .go owner c [n] [t]) ++ ascii "\n}\n" ++ r =
              ascii "\t" ++ (n ++ (ascii " " ++ (t.write .go owner c ++ (ascii "\n" ++ (ascii "}\n" ++ r))))) := by
            have : ascii "\n}\n" = ascii "\n" ++ ascii "}\n" := by decide
            simp only [Ty.members, List.intercalate_singleton, List.append_assoc, Ty.write, this]
          rw [e]
          obtain ⟨m, h2⟩ := readGo_write hk owner op t hok.1 hvt (ascii "\n" ++ (ascii "}\n" ++ r)) (hsn _) (by
            have h1 : ascii "\nconst (\n" = 10 :: ascii "const (\n" := by decide
            have h2 : ascii "\n" ++ (ascii "}\n" ++ r) = 10 :: (ascii "}\n" ++ r) := by simp [ascii]
            rw [h1, h2, eat_cons]
            exact eat_ne _ _ (by decide))
          refine ⟨m + 1, fun f g hf hg => ?_⟩
          obtain ⟨g, rfl⟩ : ∃ h, g = h + 1 := ⟨g - 1, by omega⟩
          simp only [readMembersGo, eat_append, word_append (hn n (by simp)).2 (hs' _), h2 f (by omega), Option.bind_eq_bind, Option.bind_some]
      | cons n' ns =>
        cases ts with
        | nil => simp at hl
        | cons t' ts =>
          obtain ⟨m1, h1⟩ := readMembersGo_eq hk owner op (n' :: ns) (t' :: ts) (by simpa using hl) (by simp) (fun n h => hn n (by simp [h])) hok.2 hvs r
          have e : (ascii "\n").intercalate (Ty.members .go owner c (n :: n' :: ns) (t :: t' :: ts)) ++ ascii "\n}\n" ++ r =
              ascii "\t" ++ (n ++ (ascii " " ++ (t.write .go owner c ++ (ascii "\n" ++
                ((ascii "\n").intercalate (Ty.members .go owner c (n' :: ns) (t' :: ts)) ++ ascii "\n}\n" ++ r))))) := by
            simp [Ty.members, List.intercalate, List.intersperse, Ty.write]
          have hb : ∃ q, (ascii "\n").intercalate (Ty.members .go owner c (n' :: ns) (t' :: ts)) ++ ascii "\n}\n" ++ r = 9 :: q := by
            rw [Ty.members]
            cases Ty.members .go owner c ns ts with
            | nil => simp [ascii]
            | cons => simp [List.intercalate, ascii]
          rw [e]
          generalize (ascii "\n").intercalate (Ty.members .go owner c (n' :: ns) (t' :: ts)) ++ ascii "\n}\n" ++ r = s at h1 hb
          obtain ⟨q, rfl⟩ := hb
          obtain ⟨m2, h2⟩ := readGo_write hk owner op t hok.1 hvt (ascii "\n" ++ 9 :: q) (hsn _) (by
            have h1 : ascii "\nconst (\n" = 10 :: ascii "const (\n" := by decide
            have h2 : ascii "\n" ++ 9 :: q = 10 :: 9 :: q := by simp [ascii]
            rw [h1, h2, eat_cons]
            exact eat_ne _ _ (by decide))
          have hne : eat (ascii "}\n") (9 :: q) = none := eat_ne _ _ (by decide)
          refine ⟨max m1 m2 + 1, fun f g hf hg => ?_⟩
          obtain ⟨g, rfl⟩ : ∃ h, g = h + 1 := ⟨g - 1, by omega⟩
          simp only [readMembersGo, eat_append, word_append (hn n (by simp)).2 (hs' _), h2 f (by omega), hne, h1 f g (by omega) (by omega),
            Option.bind_eq_bind, Option.bind_some]
termination_by ns ts => (sizeOf ts, 0)
end

/-- Different types have different texts in Go, but for `vague` ones. -/
theorem apart_go {types : List NamedType} {cat : List (Bytes × Ty)} (hc : Catalogue types cat) (owner : Bytes) (op : Bool) :
    Apart .go owner (vague op) cat := by
  intro s t hs ht U V h
  have hr : ∀ (t : Ty) (U : List Bytes), Sayable (vague op) t →
      Ev fun f => readGo (envOf cat) owner op f (t.body .go owner (outside U (nameIn cat))) = some (t, []) := by
    intro t U ht
    have := readGo_body (known_outside hc U) owner op t ht.1 ht.2 [] (by intro b hb; cases hb) (by decide)
    simpa only [List.append_nil] using this
  obtain ⟨m, hm⟩ := (hr s U hs).and (hr t V ht)
  obtain ⟨h1, h2⟩ := hm m (Nat.le_refl _)
  rw [h, h2] at h1
  simpa using h1.symm

end Verif.H5
