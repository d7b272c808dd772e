import Verif.Model.CdfIO
import Verif.Props.CdfSlice
/-!
C22: reads do not change later reads (CDF).
-/
namespace Verif.Cdf

/-- The answer as a function of the file. -/
def answer (ma : Nat) (h : Hdr) (file : Bytes) : ReadOp → ReadOut
  | .getVariable name => .var (getVariable ma h file name)
  | .values name => .val (do let g ← getVarCommon h name; values ma h file g)
  | .getSlice name b e => .val (do let g ← getVarCommon h name; getSlice ma h file g b e)
  | .getSliceMD name b e => .val (do let g ← getVarCommon h name; getSliceMD ma h file g b e)

theorem seek_cases (d : Dev) (off : Int) :
    (d.seekTo off = .err .other ∧ seekFrom d.data off = .err .other) ∨
    (d.seekTo off = .ok ⟨d.data, off.toNat⟩ ∧ seekFrom d.data off = .ok (d.data.drop off.toNat)) := by
  unfold Dev.seekTo seekFrom
  by_cases h : off < 0
  · left; rw [if_pos h, if_pos h]; exact ⟨rfl, rfl⟩
  · right; rw [if_neg h, if_neg h]; exact ⟨rfl, rfl⟩

theorem readMultiIO_eq (vsize : Int) (ahead : Nat → Nat) (rs : List (Option Int)) (n : Nat)
    (d : Dev) : (readMultiIO vsize ahead rs n d).1 = readMulti d.data vsize rs n ∧
      (readMultiIO vsize ahead rs n d).2.data = d.data := by
  induction rs generalizing n d with
  | nil => cases n <;> simp [readMultiIO, readMulti]
  | cons r rs ih =>
    cases n with
    | zero => simp [readMultiIO, readMulti]
    | succ n =>
      cases r with
      | none => simp [readMultiIO, readMulti]
      | some off =>
        unfold readMultiIO readMulti
        split
        · exact ih (n + 1) d
        · rcases seek_cases d off with ⟨e1, e2⟩ | ⟨e1, e2⟩
          · rw [e1, e2]; exact ⟨rfl, rfl⟩
          · rw [e1, e2]
            simp only [Dev.read, Res.bind_ok, List.take_take]
            have hmin : min vsize.toNat (n + 1) = min (n + 1) vsize.toNat := Nat.min_comm _ _
            rw [hmin]
            generalize hb : List.take (min (n + 1) vsize.toNat) (List.drop off.toNat d.data) = b
            generalize hd : ({ data := d.data, pos := off.toNat + b.length + ahead rs.length } : Dev) = d2
            have hd2 : d2.data = d.data := by rw [← hd]
            obtain ⟨h1, h2⟩ := ih (n + 1 - b.length) d2
            generalize readMultiIO vsize ahead rs (n + 1 - b.length) d2 = res at *
            obtain ⟨r, d3⟩ := res
            simp only at h1 h2
            rw [hd2] at h1 h2
            rw [← h1]
            cases r <;> exact ⟨rfl, h2⟩

/-- The part of `readData` behind the seek. -/
def readTail (ma : Nat) (size n : Int) (fp : Res Bytes) (s : Bytes) : Res Bytes := do
  let pat ← fp
  if n < 0 ∨ n > ma then (.panic : Res Bytes)
  else if size < n then .err .eof
  else
    let b := s.take n.toNat
    pure (b ++ fillStream pat (n.toNat - b.length))

theorem readTail_eq (ma : Nat) (size n : Int) (a : Nat) (fp : Res Bytes) (d : Dev) :
    (readTailIO ma size n a fp d).1 = readTail ma size n fp (d.data.drop d.pos) ∧
    (readTailIO ma size n a fp d).2.data = d.data := by
  unfold readTailIO readTail
  cases fp with
  | err e => exact ⟨rfl, rfl⟩
  | panic => exact ⟨rfl, rfl⟩
  | ok pat =>
    simp only [Res.bind_ok]
    by_cases h2 : n < 0 ∨ n > ma
    · simp only [if_pos h2, and_self]
    · by_cases h3 : size < n
      · simp only [if_neg h2, if_pos h3, and_self]
      · simp only [if_neg h2, if_neg h3, Dev.read]
        exact ⟨rfl, trivial⟩

theorem readPlainIO_eq (ma : Nat) (size n : Int) (a : Nat) (fp : Res Bytes) (off : Int) (d : Dev) :
    (readPlainIO ma size n a fp off d).1 =
      (seekFrom d.data off >>= readTail ma size n fp) ∧
    (readPlainIO ma size n a fp off d).2.data = d.data := by
  unfold readPlainIO
  rcases seek_cases d off with ⟨e1, e2⟩ | ⟨e1, e2⟩
  · rw [e1, e2]; exact ⟨rfl, rfl⟩
  · rw [e1, e2]; exact readTail_eq ma size n a fp ⟨d.data, off.toNat⟩

theorem readData_def (ma : Nat) (h : Hdr) (file : Bytes) (g : Getter) (start size n : Int) :
    readData ma h file g start size n =
      if g.unlimited = true ∧ h.special = false then
        if h.numRecs * 16 > ma then .panic
        else if n < 0 ∨ n > ma then .panic
        else
          readMulti file g.vr.vsize
            (recordReaders (w64 g.vr.begin_) g.vr.vsize (w64 h.recSize) h.numRecs 0 start size)
            n.toNat
      else
        seekFrom file (w64 (w64 g.vr.begin_ + start)) >>=
          readTail ma size n (fillPattern g.ty g.vr.attrs) := by rfl

theorem readDataIO_eq (ma : Nat) (h : Hdr) (g : Getter) (start size n : Int) (ahead : Nat → Nat)
    (d : Dev) : (readDataIO ma h g start size n ahead d).1 = readData ma h d.data g start size n ∧
      (readDataIO ma h g start size n ahead d).2.data = d.data := by
  rw [readData_def]
  unfold readDataIO
  by_cases hc : g.unlimited = true ∧ h.special = false
  · rw [if_pos hc, if_pos hc]
    by_cases h1 : h.numRecs * 16 > ma
    · rw [if_pos h1, if_pos h1]; exact ⟨rfl, rfl⟩
    · rw [if_neg h1, if_neg h1]
      by_cases h2 : n < 0 ∨ n > ma
      · rw [if_pos h2, if_pos h2]; exact ⟨rfl, rfl⟩
      · rw [if_neg h2, if_neg h2]
        exact readMultiIO_eq _ _ _ _ _
  · rw [if_neg hc, if_neg hc]
    exact readPlainIO_eq ma size n (ahead 0) (fillPattern g.ty g.vr.attrs)
      (w64 (w64 g.vr.begin_ + start)) d

theorem getSliceCapIO_eq (ma : Nat) (h : Hdr) (g : Getter) (b e : Int) (ahead : Nat → Nat)
    (d : Dev) : (getSliceCapIO ma h g b e ahead d).1 = getSliceCap ma h d.data g b e ∧
      (getSliceCapIO ma h g b e ahead d).2.data = d.data := by
  unfold getSliceCapIO getSliceCap
  split
  · exact ⟨rfl, rfl⟩
  · simp only
    generalize w64 (g.nChunks b e * g.chunkSize) = sl
    obtain ⟨h1, h2⟩ := readDataIO_eq ma h g (w64 (w64 (b * g.chunkSize) * g.ty.size))
      (w64 (sl * g.ty.size)) (sl * g.ty.size) ahead d
    rw [← h1]
    generalize readDataIO ma h g (w64 (w64 (b * g.chunkSize) * g.ty.size))
      (w64 (sl * g.ty.size)) (sl * g.ty.size) ahead d = res at *
    obtain ⟨r, d3⟩ := res
    cases r <;> exact ⟨rfl, h2⟩

theorem getSliceMDIO_eq (ma : Nat) (h : Hdr) (g : Getter) (b e : List Int) (ahead : Nat → Nat)
    (d : Dev) : (getSliceMDIO ma h g b e ahead d).1 = getSliceMD ma h d.data g b e ∧
      (getSliceMDIO ma h g b e ahead d).2.data = d.data := by
  unfold getSliceMDIO getSliceMD
  split
  · exact ⟨rfl, rfl⟩
  · split
    · exact ⟨rfl, rfl⟩
    · cases b with
      | nil => exact ⟨rfl, rfl⟩
      | cons b0 bs =>
        cases e with
        | nil => exact ⟨rfl, rfl⟩
        | cons e0 es =>
          simp only
          obtain ⟨h1, h2⟩ := getSliceCapIO_eq ma h g b0 e0 ahead d
          rw [← h1]
          cases (getSliceCapIO ma h g b0 e0 ahead d).1 <;> exact ⟨rfl, h2⟩

theorem runOp_eq (ma : Nat) (h : Hdr) (op : ReadOp) (ahead : Nat → Nat) (d : Dev) :
    (runOp ma h op ahead d).1 = answer ma h d.data op ∧ (runOp ma h op ahead d).2.data = d.data := by
  cases op with
  | getVariable name =>
    simp only [runOp, answer, getVariable]
    cases getVarCommon h name with
    | err e => exact ⟨rfl, rfl⟩
    | panic => exact ⟨rfl, rfl⟩
    | ok g =>
      simp only [Res.bind_ok, getSlice]
      obtain ⟨h1, h2⟩ := getSliceCapIO_eq ma h g 0 g.length ahead d
      rw [← h1]
      generalize getSliceCapIO ma h g 0 g.length ahead d = res at *
      obtain ⟨r, d3⟩ := res
      cases r <;> exact ⟨rfl, h2⟩
  | values name =>
    simp only [runOp, answer, values]
    cases getVarCommon h name with
    | err e => exact ⟨rfl, rfl⟩
    | panic => exact ⟨rfl, rfl⟩
    | ok g =>
      simp only [Res.bind_ok, getSlice]
      obtain ⟨h1, h2⟩ := getSliceCapIO_eq ma h g 0 g.length ahead d
      exact ⟨by rw [h1], h2⟩
  | getSlice name b e =>
    simp only [runOp, answer]
    cases getVarCommon h name with
    | err e => exact ⟨rfl, rfl⟩
    | panic => exact ⟨rfl, rfl⟩
    | ok g =>
      simp only [Res.bind_ok, getSlice]
      obtain ⟨h1, h2⟩ := getSliceCapIO_eq ma h g b e ahead d
      exact ⟨by rw [h1], h2⟩
  | getSliceMD name b e =>
    simp only [runOp, answer]
    cases getVarCommon h name with
    | err e => exact ⟨rfl, rfl⟩
    | panic => exact ⟨rfl, rfl⟩
    | ok g =>
      simp only [Res.bind_ok]
      obtain ⟨h1, h2⟩ := getSliceMDIO_eq ma h g b e ahead d
      exact ⟨by rw [h1], h2⟩

/-- **C22** (CDF). Whatever calls were made before on the shared handle, in whatever position they
and the read-ahead of `bufio` left it: the results of a sequence of reads are, call by call, the
function `answer` of the file contents and the arguments alone, and the file is not changed. -/
theorem C22_history_independent (ma : Nat) (h : Hdr) (ops : List (ReadOp × (Nat → Nat))) (d : Dev) :
    (runOps ma h ops d).1 = ops.map (fun o => answer ma h d.data o.1) ∧
    (runOps ma h ops d).2.data = d.data := by
  induction ops generalizing d with
  | nil => exact ⟨rfl, rfl⟩
  | cons o ops ih =>
    obtain ⟨op, ahead⟩ := o
    simp only [runOps]
    obtain ⟨h1, h2⟩ := runOp_eq ma h op ahead d
    generalize runOp ma h op ahead d = res at *
    obtain ⟨r, d1⟩ := res
    simp only at h1 h2 ⊢
    obtain ⟨h3, h4⟩ := ih d1
    exact ⟨by rw [h3, h1, h2]; rfl, by rw [h4, h2]⟩

/-- The same call gives the same result before and after any other calls. -/
theorem C22_repeatable (ma : Nat) (h : Hdr) (op : ReadOp) (a1 a2 : Nat → Nat)
    (others : List (ReadOp × (Nat → Nat))) (d : Dev) :
    (runOps ma h ((op, a1) :: others ++ [(op, a2)]) d).1.getLast?
      = (runOps ma h [(op, a1)] d).1.getLast? := by
  rw [(C22_history_independent ma h _ d).1, (C22_history_independent ma h _ d).1]
  simp only [List.map_append, List.map_cons, List.map_nil]
  rw [List.getLast?_append]
  simp

-- two overlapping slices and the whole of the example file, from a wild position
example : ∃ h, openCdf 100 (fileInt 2) = .ok h ∧
    (runOps 100 h [(.getSlice (ascii "v") 1 2, fun _ => 3), (.values (ascii "v"), fun _ => 0)]
      ⟨fileInt 2, 77⟩).1.length = 2 ∧
    answer 100 h (fileInt 2) (.getSlice (ascii "v") 1 2) = .val (.ok (.slice (.num .i32) [.num .i32 20])) := by
  obtain ⟨h, g, h1, h2, h3⟩ := witness 100 (fileInt 2) "v" (fun h g =>
    decide (getSlice 100 h (fileInt 2) g 1 2 = .ok (.slice (.num .i32) [.num .i32 20])))
    (by decide +kernel)
  have h3 := of_decide_eq_true h3
  refine ⟨h, h1, by rw [(C22_history_independent _ _ _ _).1]; rfl, ?_⟩
  simp only [answer, h2, Res.bind_ok, h3]

end Verif.Cdf
