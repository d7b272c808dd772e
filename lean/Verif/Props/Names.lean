import Verif.Model.Names
/-!
C07: name validation.
-/
namespace Verif

theorem decodeRune_ascii (b : UInt8) (rest : Bytes) (h : b.toNat < 128) :
    decodeRune b rest = (b.toNat, 0) := by
  simp [decodeRune, h]

theorem runes_cons (b : UInt8) (rest : Bytes) :
    runes (b :: rest) = (decodeRune b rest).1 :: runes (rest.drop (decodeRune b rest).2) := by
  rw [runes]

/-- The bytes a multi-byte rune uses after its first byte are all 0x80 or above. -/
theorem decodeRune_tail (b0 : UInt8) (rest : Bytes) :
    ∀ x ∈ rest.take (decodeRune b0 rest).2, 128 ≤ x.toNat := by
  unfold decodeRune
  simp only
  split
  · simp
  · split
    · split
      · split
        · rename_i h
          simp [inRange] at h
          simp
          omega
        · simp
      · simp
    · have hlo : 128 ≤ (if b0.toNat = 0xE0 then 0xA0 else 0x80) := by split <;> omega
      have hlo' : 128 ≤ (if b0.toNat = 0xF0 then 0x90 else 0x80) := by split <;> omega
      generalize (if b0.toNat = 0xE0 then 0xA0 else 0x80) = lo at hlo
      generalize (if b0.toNat = 0xED then 0x9F else 0xBF) = hi
      generalize (if b0.toNat = 0xF0 then 0x90 else 0x80) = lo' at hlo'
      generalize (if b0.toNat = 0xF4 then 0x8F else 0xBF) = hi'
      split
      · split
        · split
          · rename_i h
            simp [inRange] at h
            simp
            omega
          · simp
        · simp
      · split
        · split
          · split
            · rename_i h
              simp [inRange] at h
              simp
              omega
            · simp
          · simp
        · simp

/-- Every ASCII byte of a string shows up as a rune of its own. -/
theorem ascii_mem_runes (s : Bytes) (b : UInt8) (hb : b.toNat < 128) (h : b ∈ s) :
    b.toNat ∈ runes s := by
  induction hs : s.length using Nat.strongRecOn generalizing s with
  | ind n ih =>
    cases s with
    | nil => simp at h
    | cons c rest =>
      rw [runes_cons]
      rcases List.mem_cons.mp h with rfl | h
      · simp [decodeRune_ascii b rest hb]
      · apply List.mem_cons_of_mem
        apply ih (rest.drop (decodeRune c rest).2).length
        · simp at hs ⊢; omega
        · have : b ∈ rest.take (decodeRune c rest).2 ++ rest.drop (decodeRune c rest).2 := by
            rw [List.take_append_drop]; exact h
          rcases List.mem_append.mp this with h1 | h1
          · have := decodeRune_tail c rest b h1
            omega
          · exact h1
        · rfl

theorem runes_ascii (s : Bytes) (h : ∀ b ∈ s, b.toNat < 128) : runes s = s.map UInt8.toNat := by
  induction s with
  | nil => simp [runes]
  | cons b rest ih =>
    rw [runes_cons, decodeRune_ascii b rest (h b (by simp))]
    simp [ih (fun b hb => h b (by simp [hb]))]

/-- **C07 (soundness).** For every byte string and every choice of the non-ASCII Unicode tables, an
accepted name is non-empty and contains no NUL, no ASCII control character and no slash. -/
theorem C07_accepted_is_safe (u : UniTables) (name : Bytes) (h : isValidName u name = true) :
    name ≠ [] ∧ ∀ b ∈ name, b.toNat ≠ 0 ∧ 32 ≤ b.toNat ∧ b.toNat ≠ 127 ∧ b.toNat ≠ 47 := by
  simp only [isValidName, Bool.and_eq_true] at h
  obtain ⟨hp, _⟩ := h
  constructor
  · rintro rfl
    simp [runes, matchPattern] at hp
  · intro b hb
    by_cases hlt : b.toNat < 128
    · have hm := ascii_mem_runes name b hlt hb
      generalize runes name = rs at hp hm
      cases rs with
      | nil => simp [matchPattern] at hp
      | cons r rs =>
        simp only [matchPattern, Bool.and_eq_true, Bool.or_eq_true, List.all_eq_true] at hp
        rcases List.mem_cons.mp hm with h1 | h1
        · rw [← h1] at hp
          have := hp.1
          simp [UniTables.letter, UniTables.number, hlt] at this
          omega
        · have := hp.2 _ h1
          simp [UniTables.control, hlt] at this
          omega
    · omega

/-- **C07 (completeness on plain names).** A name of ASCII letters, digits and underscores that
does not begin with an underscore is accepted. -/
theorem C07_plain_names_accepted (u : UniTables) (b : UInt8) (rest : Bytes)
    (h0 : (65 ≤ b.toNat ∧ b.toNat ≤ 90) ∨ (97 ≤ b.toNat ∧ b.toNat ≤ 122) ∨
      (48 ≤ b.toNat ∧ b.toNat ≤ 57))
    (hr : ∀ c ∈ rest, (65 ≤ c.toNat ∧ c.toNat ≤ 90) ∨ (97 ≤ c.toNat ∧ c.toNat ≤ 122) ∨
      (48 ≤ c.toNat ∧ c.toNat ≤ 57) ∨ c.toNat = 95) :
    isValidName u (b :: rest) = true := by
  have hall : ∀ c ∈ b :: rest, c.toNat < 128 := by
    intro c hc
    rcases List.mem_cons.mp hc with rfl | hc
    · omega
    · have := hr c hc; omega
  have hb : b.toNat < 128 := by omega
  simp only [isValidName, runes_ascii _ hall, List.map_cons, matchPattern, Bool.and_eq_true]
  refine ⟨⟨?_, ?_⟩, ?_⟩
  · simp [UniTables.letter, UniTables.number, hb]; omega
  · simp only [List.all_eq_true, List.mem_map]
    rintro x ⟨c, hc, rfl⟩
    have := hr c hc
    have hc' : c.toNat < 128 := by omega
    simp [UniTables.control, hc']
    omega
  · simp only [matchAntiPattern, ← List.map_cons, List.getLast?_map]
    have hne : (b :: rest).getLast? = some ((b :: rest).getLast (by simp)) :=
      List.getLast?_eq_some_getLast (by simp)
    rw [hne]
    generalize hx : (b :: rest).getLast (by simp) = x
    have hxm : x ∈ b :: rest := hx ▸ List.getLast_mem _
    have hxn : x.toNat ≠ 32 := by
      rcases List.mem_cons.mp hxm with rfl | hm
      · omega
      · have := hr x hm; omega
    simp [UniTables.space, hall x hxm, hxn]

/-- **C07 (rejections).** A name of ASCII bytes that ends with a space is refused. -/
theorem C07_rejected_trailing_space (u : UniTables) (s : Bytes) (h : ∀ b ∈ s, b.toNat < 128) :
    isValidName u (s ++ [32]) = false := by
  have hall : ∀ c ∈ s ++ [32], c.toNat < 128 := by
    intro c hc
    rcases List.mem_append.mp hc with hc | hc
    · exact h c hc
    · simp at hc; subst hc; decide
  simp [isValidName, runes_ascii _ hall, matchAntiPattern, UniTables.space]

/-- **C07 (rejections).** The empty name is refused. -/
theorem C07_rejected_empty (u : UniTables) : isValidName u [] = false := by
  simp [isValidName, runes, matchPattern]

/-- **C07 (rejections).** Names that begin with an underscore are refused, so `_FillValue` and
`_NCProperties` can not be written by a user. -/
theorem C07_rejected_underscore (u : UniTables) (s : Bytes) : isValidName u (95 :: s) = false := by
  simp [isValidName, runes_cons, decodeRune_ascii 95 s (by decide), matchPattern,
    UniTables.letter, UniTables.number]

/-- "temp_1" meets the hypotheses of the acceptance theorem. -/
example (u : UniTables) : isValidName u [116, 101, 109, 112, 95, 49] = true :=
  C07_plain_names_accepted u 116 _ (by decide) (by decide)

end Verif
