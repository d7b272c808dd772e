import Verif.Model.Fill
/-!
C14: the fill stream does not depend on how it is read.
-/
namespace Verif

/-- Specification: `n` bytes of the endless repetition of `rep`, beginning at position `s`. -/
def cyc (rep : Bytes) (s n : Nat) : Bytes :=
  (List.range n).map (fun i => rep.getD ((s + i) % rep.length) 0)

@[simp] theorem cyc_length (rep : Bytes) (s n : Nat) : (cyc rep s n).length = n := by simp [cyc]

theorem cyc_append (rep : Bytes) (s m n : Nat) :
    cyc rep s (m + n) = cyc rep s m ++ cyc rep (s + m) n := by
  simp only [cyc, List.range_add, List.map_append, List.map_map]
  congr 1
  apply List.map_congr_left
  intro i _
  simp [Function.comp, Nat.add_assoc]

theorem cyc_mod (rep : Bytes) (s n : Nat) : cyc rep (s % rep.length) n = cyc rep s n := by
  simp [cyc]

theorem cyc_self (rep : Bytes) : cyc rep 0 rep.length = rep := by
  apply List.ext_getElem
  · simp
  · intro i h1 h2
    simp only [cyc_length] at h1
    simp [cyc, Nat.mod_eq_of_lt h1]
    rw [List.getElem?_eq_getElem h1]
    rfl

theorem fast_spec (rep : Bytes) (n : Nat) (h : 0 < rep.length) :
    (FillReader.fast rep n).2 < rep.length ∧
    (FillReader.fast rep n).2 ≤ n ∧
    (n - (FillReader.fast rep n).2) % rep.length = 0 ∧
    (FillReader.fast rep n).1 = cyc rep 0 (n - (FillReader.fast rep n).2) := by
  induction n using Nat.strongRecOn with
  | ind n ih =>
    unfold FillReader.fast
    by_cases hn : rep.length ≤ n
    · rw [dif_pos ⟨hn, h⟩]
      have := ih (n - rep.length) (by omega)
      generalize FillReader.fast rep (n - rep.length) = r at this ⊢
      obtain ⟨h1, h2, h3, h4⟩ := this
      simp only
      have e : n - r.2 = rep.length + (n - rep.length - r.2) := by omega
      refine ⟨h1, by omega, ?_, ?_⟩
      · rw [e, Nat.add_mod_left, h3]
      · rw [h4, e, cyc_append, cyc_self, Nat.zero_add]
        congr 1
        rw [← cyc_mod rep rep.length, Nat.mod_self]
    · rw [dif_neg (by omega)]
      simp [cyc]
      omega

theorem slow_spec (rep : Bytes) (n ri : Nat) :
    FillReader.slow rep n ri = (cyc rep ri n, ri + n) := by
  induction n generalizing ri with
  | zero => simp [FillReader.slow, cyc]
  | succ n ih =>
    have : cyc rep ri (n + 1) = rep.getD (ri % rep.length) 0 :: cyc rep (ri + 1) n := by
      rw [Nat.add_comm n 1, cyc_append]
      simp [cyc]
    simp [FillReader.slow, ih, this]
    omega

theorem read_spec (r : FillReader) (n : Nat) (h : 0 < r.repeat_.length)
    (hr : r.repeatIndex < r.repeat_.length) :
    r.read n = .ok (cyc r.repeat_ r.repeatIndex n,
      { r with repeatIndex := (r.repeatIndex + n) % r.repeat_.length }) := by
  unfold FillReader.read
  rw [if_neg (by omega)]
  by_cases h0 : r.repeatIndex = 0
  · have fs := fast_spec r.repeat_ n h
    generalize FillReader.fast r.repeat_ n = f at fs
    obtain ⟨h1, h2, h3, h4⟩ := fs
    simp only [h0, if_true, slow_spec]
    congr 2
    · rw [h4]
      have hn : n = (n - f.2) + f.2 := by omega
      conv => rhs; rw [hn, cyc_append]
      congr 1
      rw [← cyc_mod r.repeat_ (0 + (n - f.2)), Nat.zero_add, h3]
    · congr 1
      have hn : 0 + n = f.2 + (n - f.2) := by omega
      rw [hn, Nat.add_mod f.2, h3]
      simp
  · simp [h0, slow_spec]

/-- **C14.** For every non-empty pattern and every sequence of read sizes, the bytes delivered are
the repetition of the pattern: byte `i` of what was delivered is byte `i mod length` of the
pattern. -/
theorem C14_fill_chunking (rep : Bytes) (h : rep ≠ []) (sizes : List Nat) :
    ∃ out, (FillReader.new rep).readAll sizes = .ok out ∧ out.length = sizes.sum ∧
      ∀ i, i < sizes.sum → out[i]? = rep[i % rep.length]? := by
  have hl : 0 < rep.length := List.length_pos_iff.mpr h
  have gen : ∀ (sizes : List Nat) (ri : Nat), ri < rep.length →
      FillReader.readAll ⟨rep, ri⟩ sizes = .ok (cyc rep ri sizes.sum) := by
    intro sizes
    induction sizes with
    | nil => intro ri _; simp [FillReader.readAll, cyc]
    | cons n ns ih =>
      intro ri hri
      have hr := read_spec ⟨rep, ri⟩ n hl hri
      simp only [FillReader.readAll, hr, Res.bind_ok, Res.pure_eq]
      rw [ih _ (Nat.mod_lt _ hl)]
      simp only [Res.bind_ok, Res.pure_eq, List.sum_cons]
      rw [cyc_append, cyc_mod]
  refine ⟨_, gen sizes 0 hl, by simp, ?_⟩
  intro i hi
  have hm : i % rep.length < rep.length := Nat.mod_lt _ hl
  simp [cyc, hi, List.getElem?_eq_getElem hm]

/-- The stream used by the readers is the one the fill reader delivers. -/
theorem C14_fillStream (rep : Bytes) (h : rep ≠ []) (sizes : List Nat) :
    (FillReader.new rep).readAll sizes = .ok (fillStream rep sizes.sum) := by
  obtain ⟨out, h1, h2, h3⟩ := C14_fill_chunking rep h sizes
  rw [h1]
  congr 1
  have hl : 0 < rep.length := List.length_pos_iff.mpr h
  apply List.ext_getElem?
  intro i
  by_cases hi : i < sizes.sum
  · rw [h3 i hi]
    have hm : i % rep.length < rep.length := Nat.mod_lt _ hl
    simp [fillStream, hi, List.getElem?_eq_getElem hm]
  · rw [List.getElem?_eq_none (by omega), List.getElem?_eq_none (by simp [fillStream]; omega)]

/-- An empty pattern is outside the property: the Go loop does not terminate. -/
theorem C14_empty_pattern (n : Nat) : (FillReader.new []).read n = .panic := by
  simp [FillReader.read, FillReader.new]

example : (FillReader.new [1, 2, 3]).readAll [2, 7, 0, 1]
    = .ok [1, 2, 3, 1, 2, 3, 1, 2, 3, 1] := by
  rw [C14_fillStream _ (by decide)]; decide

end Verif
