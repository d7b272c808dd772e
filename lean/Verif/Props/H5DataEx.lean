import Verif.Lemmas.H5Elem
import Verif.Lemmas.H5Flat
/-!
Concrete stored variables: they meet the hypotheses of the theorems on the data of variables.
-/
namespace Verif.H5

/-- No compressed data. -/
def noInflate : Bytes → Res Bytes := fun _ => .err .unsupported

/-- There are no heaps. -/
def noHeap : Nat → Nat → Res (Option Bytes) := fun _ _ => .ok none

/-! ### A 3×4 array in chunks of 2×2, one of which is not stored -/

def sqCell : List Nat → Bytes
  | [r, c] => if 2 ≤ r ∧ c < 2 then [0] else [UInt8.ofNat (10 * r + c + 1)]
  | _ => [0]

def sqVal : List Nat → GoVal
  | [r, c] => if 2 ≤ r ∧ c < 2 then .num .u8 0 else .num .u8 (10 * r + c + 1)
  | _ => .num .u8 0

def sqLeaf1 : Index := .leaf [⟨4, 0, [0, 0], 376⟩, ⟨4, 0, [0, 2], 380⟩] ⟨0, 0, [2, 2]⟩
def sqLeaf2 : Index := .leaf [⟨4, 0, [2, 2], 384⟩] ⟨0, 0, [4, 0]⟩

/-- Two levels. -/
def sqIndex : Index := .node 1 (.cons ⟨4, 0, [0, 0]⟩ 144 sqLeaf1 (.cons ⟨4, 0, [2, 2]⟩ 280 sqLeaf2 (.last ⟨0, 0, [4, 0]⟩)))

def sqRoot : Bytes := nodeHead 1 2 (2 ^ 64 - 1) (2 ^ 64 - 1) ++
  (Kids.cons ⟨4, 0, [0, 0]⟩ 144 sqLeaf1 (.cons ⟨4, 0, [2, 2]⟩ 280 sqLeaf2 (.last ⟨0, 0, [4, 0]⟩))).bytes

def sqBytes1 : Bytes := nodeHead 0 2 (2 ^ 64 - 1) 280 ++
  ([⟨4, 0, [0, 0], 376⟩, ⟨4, 0, [0, 2], 380⟩].flatMap chunkBytes ++ keyBytes ⟨0, 0, [2, 2]⟩)

def sqBytes2 : Bytes := nodeHead 0 1 144 (2 ^ 64 - 1) ++
  ([⟨4, 0, [2, 2], 384⟩].flatMap chunkBytes ++ keyBytes ⟨0, 0, [4, 0]⟩)

def sqFile : Bytes := List.replicate 8 0 ++ sqRoot ++ sqBytes1 ++ sqBytes2 ++ [1, 2, 11, 12] ++ [3, 4, 13, 14] ++ [23, 24, 33, 34]

def sqInfo : Info := { layout := [2, 2], chunk := some (8, 1, 4, 3) }

theorem sqVar : StoredVar noInflate sqFile sqInfo (.fixed 1 false false) [3, 4] sqCell [0] sqIndex 8 where
  geo := { len := rfl, ne := by simp, lay := by simp [sqInfo], dlt := by simp, llt := by simp [sqInfo], dt := by decide
           chunk := by decide +kernel, size := by decide +kernel }
  small := by decide +kernel
  rank := by decide
  chunk := by decide +kernel
  addr0 := by decide
  stored := by
    simp only [sqIndex, sqLeaf1, sqLeaf2, Index.Stored, Kids.Stored, Siblings, KeyOK, ChunkOK]
    refine ⟨by decide, by decide, by decide, ⟨2 ^ 64 - 1, 2 ^ 64 - 1, by decide, ?_⟩, by decide, by decide,
      ⟨by decide, by decide, by decide, 2 ^ 64 - 1, 280, by decide, ?_⟩, by decide, by decide,
      ⟨by decide, by decide, by decide, 144, 2 ^ 64 - 1, by decide, ?_⟩, by decide⟩ <;> (unfold At; decide +kernel)
  sorted := by
    simp [sqIndex, sqLeaf1, sqLeaf2, Index.Sorted, Kids.Sorted, Index.chunks, Kids.first, InRange, lexLe, lexLt]
  aligned := by
    simp only [sqIndex, sqLeaf1, sqLeaf2, Index.keys, Kids.keys, List.mem_cons, List.mem_append, List.not_mem_nil, or_false]
    rintro k (rfl | rfl | (rfl | rfl | rfl))
    · exact ⟨[0, 0], rfl, rfl⟩
    · exact ⟨[1, 1], rfl, rfl⟩
    · exact ⟨[1, 1], rfl, rfl⟩
    · exact ⟨[2, 0], rfl, rfl⟩
    · exact ⟨[2, 0], rfl, rfl⟩
  keys := by
    simp [sqIndex, sqLeaf1, sqLeaf2, Index.keys, Kids.keys, rowIndex, prod, DT.len]
  distinct := by simp [sqIndex, sqLeaf1, sqLeaf2, Index.chunks, Kids.chunks]
  cells := by
    intro idx
    unfold sqCell
    split
    · split <;> rfl
    · rfl
  fill := .zero _ rfl rfl (by simp)
  patLen := by decide
  holds := by
    simp only [sqIndex, sqLeaf1, sqLeaf2, Index.chunks, Kids.chunks, List.mem_cons, List.mem_append, List.not_mem_nil, or_false]
    rintro k ((rfl | rfl) | rfl)
    · exact ⟨[0, 0], by simp [InRange, gridShape, sqInfo], rfl, [], by decide +kernel⟩
    · exact ⟨[0, 1], by simp [InRange, gridShape, sqInfo], rfl, [], by decide +kernel⟩
    · exact ⟨[1, 1], by simp [InRange, gridShape, sqInfo], rfl, [], by decide +kernel⟩
  missing := by
    intro c hc
    have hc := mem_indices.mpr hc
    have : c = [0, 0] ∨ c = [0, 1] ∨ c = [1, 0] ∨ c = [1, 1] := by
      simpa [indices, gridShape, sqInfo, List.range, List.range.loop] using hc
    rcases this with rfl | rfl | rfl | rfl
    · intro hn; exact absurd rfl (hn ⟨4, 0, [0, 0], 376⟩ (by decide +kernel))
    · intro hn; exact absurd rfl (hn ⟨4, 0, [0, 2], 380⟩ (by decide +kernel))
    · intro _; decide +kernel
    · intro hn; exact absurd rfl (hn ⟨4, 0, [2, 2], 384⟩ (by decide +kernel))

theorem u8_bytes {n : Nat} (h : n < 256) : ([UInt8.ofNat n] : Bytes) = numBytes false .u8 n := by
  show [UInt8.ofNat n] = leEnc 1 n
  rw [leEnc, leEnc, Nat.mod_eq_of_lt h]

theorem sqElems : ∀ idx, InRange [3, 4] idx → ElemOf noHeap (.fixed 1 false false) (sqCell idx) (sqVal idx) := by
  intro idx h
  match idx, h with
  | [r, c], h =>
    simp only [InRange, and_true] at h
    by_cases hc : 2 ≤ r ∧ c < 2
    · simp only [sqCell, sqVal, if_pos hc]
      exact .num .u8 false 0 (by decide)
    · simp only [sqCell, sqVal, if_neg hc]
      rw [u8_bytes (by omega)]
      exact .num .u8 false (10 * r + c + 1) (by show _ < 256 ^ 1; omega)

/-! ### A 3×2 array in chunks of 1×2; the one in the middle is not stored -/

def rowCell : List Nat → Bytes
  | [r, c] => if r = 1 then [9] else [UInt8.ofNat (2 * r + c + 1)]
  | _ => [9]

def rowVal : List Nat → GoVal
  | [r, c] => if r = 1 then .num .u8 9 else .num .u8 (2 * r + c + 1)
  | _ => .num .u8 9

def rowLeaf1 : Index := .leaf [⟨2, 0, [0, 0], 336⟩] ⟨0, 0, [2, 0]⟩
def rowLeaf2 : Index := .leaf [⟨2, 0, [2, 0], 338⟩] ⟨0, 0, [3, 0]⟩

def rowIndexTree : Index := .node 1 (.cons ⟨2, 0, [0, 0]⟩ 144 rowLeaf1 (.cons ⟨2, 0, [2, 0]⟩ 240 rowLeaf2 (.last ⟨0, 0, [3, 0]⟩)))

def rowFile : Bytes := List.replicate 8 0 ++
  (nodeHead 1 2 (2 ^ 64 - 1) (2 ^ 64 - 1) ++
    (Kids.cons ⟨2, 0, [0, 0]⟩ 144 rowLeaf1 (.cons ⟨2, 0, [2, 0]⟩ 240 rowLeaf2 (.last ⟨0, 0, [3, 0]⟩))).bytes) ++
  (nodeHead 0 1 (2 ^ 64 - 1) 240 ++ ([⟨2, 0, [0, 0], 336⟩].flatMap chunkBytes ++ keyBytes ⟨0, 0, [2, 0]⟩)) ++
  (nodeHead 0 1 144 (2 ^ 64 - 1) ++ ([⟨2, 0, [2, 0], 338⟩].flatMap chunkBytes ++ keyBytes ⟨0, 0, [3, 0]⟩)) ++
  [1, 2] ++ [5, 6]

def rowInfo : Info := { layout := [1, 2], chunk := some (8, 1, 2, 3), fillValue := some (.value [9]) }

theorem rowVar : StoredVar noInflate rowFile rowInfo (.fixed 1 false false) [3, 2] rowCell [9] rowIndexTree 8 where
  geo := { len := rfl, ne := by simp, lay := by simp [rowInfo], dlt := by simp, llt := by simp [rowInfo], dt := by decide
           chunk := by decide +kernel, size := by decide +kernel }
  small := by decide +kernel
  rank := by decide
  chunk := by decide +kernel
  addr0 := by decide
  stored := by
    simp only [rowIndexTree, rowLeaf1, rowLeaf2, Index.Stored, Kids.Stored, Siblings, KeyOK, ChunkOK]
    refine ⟨by decide, by decide, by decide, ⟨2 ^ 64 - 1, 2 ^ 64 - 1, by decide, ?_⟩, by decide, by decide,
      ⟨by decide, by decide, by decide, 2 ^ 64 - 1, 240, by decide, ?_⟩, by decide, by decide,
      ⟨by decide, by decide, by decide, 144, 2 ^ 64 - 1, by decide, ?_⟩, by decide⟩ <;> (unfold At; decide +kernel)
  sorted := by
    simp [rowIndexTree, rowLeaf1, rowLeaf2, Index.Sorted, Kids.Sorted, Index.chunks, Kids.first, InRange, lexLe, lexLt]
  aligned := by
    simp only [rowIndexTree, rowLeaf1, rowLeaf2, Index.keys, Kids.keys, List.mem_cons, List.mem_append, List.not_mem_nil, or_false]
    rintro k (rfl | rfl | (rfl | rfl | rfl))
    · exact ⟨[0, 0], rfl, rfl⟩
    · exact ⟨[2, 0], rfl, rfl⟩
    · exact ⟨[2, 0], rfl, rfl⟩
    · exact ⟨[3, 0], rfl, rfl⟩
    · exact ⟨[3, 0], rfl, rfl⟩
  keys := by
    simp [rowIndexTree, rowLeaf1, rowLeaf2, Index.keys, Kids.keys, rowIndex, prod, DT.len]
  distinct := by simp [rowIndexTree, rowLeaf1, rowLeaf2, Index.chunks, Kids.chunks]
  cells := by
    intro idx
    unfold rowCell
    split
    · split <;> rfl
    · rfl
  fill := .given _ _ rfl (by simp)
  patLen := by decide
  holds := by
    simp only [rowIndexTree, rowLeaf1, rowLeaf2, Index.chunks, Kids.chunks, List.mem_cons, List.mem_append, List.not_mem_nil, or_false]
    rintro k (rfl | rfl)
    · exact ⟨[0, 0], by simp [InRange, gridShape, rowInfo], rfl, [], by decide +kernel⟩
    · exact ⟨[2, 0], by simp [InRange, gridShape, rowInfo], rfl, [], by decide +kernel⟩
  missing := by
    intro c hc
    have hc := mem_indices.mpr hc
    have : c = [0, 0] ∨ c = [1, 0] ∨ c = [2, 0] := by
      simpa [indices, gridShape, rowInfo, List.range, List.range.loop] using hc
    rcases this with rfl | rfl | rfl
    · intro hn; exact absurd rfl (hn ⟨2, 0, [0, 0], 336⟩ (by decide +kernel))
    · intro _; decide +kernel
    · intro hn; exact absurd rfl (hn ⟨2, 0, [2, 0], 338⟩ (by decide +kernel))

theorem rowElems : ∀ idx, InRange [3, 2] idx → ElemOf noHeap (.fixed 1 false false) (rowCell idx) (rowVal idx) := by
  intro idx h
  match idx, h with
  | [r, c], h =>
    simp only [InRange, and_true] at h
    by_cases hc : r = 1
    · simp only [rowCell, rowVal, if_pos hc]
      exact .num .u8 false 9 (by decide)
    · simp only [rowCell, rowVal, if_neg hc]
      rw [u8_bytes (by omega)]
      exact .num .u8 false (2 * r + c + 1) (by show _ < 256 ^ 1; omega)

/-! ### A 2×2×1 array in chunks of 2×1×1 -/

def badCell : List Nat → Bytes := fun idx => [UInt8.ofNat (rowIndex [2, 2, 1] idx)]

def badVal : List Nat → GoVal := fun idx => .num .u8 (rowIndex [2, 2, 1] idx)

def badIndex : Index := .leaf [⟨2, 0, [0, 0, 0], 168⟩, ⟨2, 0, [0, 1, 0], 170⟩] ⟨0, 0, [2, 0, 0]⟩

def badFile : Bytes := List.replicate 8 0 ++ (nodeHead 0 2 (2 ^ 64 - 1) (2 ^ 64 - 1) ++
  ([⟨2, 0, [0, 0, 0], 168⟩, ⟨2, 0, [0, 1, 0], 170⟩].flatMap chunkBytes ++ keyBytes ⟨0, 0, [2, 0, 0]⟩)) ++ [0, 2] ++ [1, 3]

def badInfo : Info := { layout := [2, 1, 1], chunk := some (8, 1, 2, 4) }

theorem badVar : StoredVar noInflate badFile badInfo (.fixed 1 false false) [2, 2, 1] badCell [0] badIndex 8 where
  geo := { len := rfl, ne := by simp, lay := by simp [badInfo], dlt := by simp, llt := by simp [badInfo], dt := by decide
           chunk := by decide +kernel, size := by decide +kernel }
  small := by decide +kernel
  rank := by decide
  chunk := by decide +kernel
  addr0 := by decide
  stored := by
    simp only [badIndex, Index.Stored, Siblings, KeyOK, ChunkOK]
    refine ⟨by decide, by decide, by decide, 2 ^ 64 - 1, 2 ^ 64 - 1, by decide, ?_⟩
    unfold At
    decide +kernel
  sorted := by simp [badIndex, Index.Sorted]
  aligned := by
    simp only [badIndex, Index.keys, List.mem_cons, List.not_mem_nil, or_false]
    rintro k rfl
    exact ⟨[1, 0, 0], rfl, rfl⟩
  keys := by simp [badIndex, Index.keys, rowIndex, prod, DT.len]
  distinct := by simp [badIndex, Index.chunks]
  cells := fun _ => rfl
  fill := .zero _ rfl rfl (by simp)
  patLen := by decide
  holds := by
    simp only [badIndex, Index.chunks, List.mem_cons, List.not_mem_nil, or_false]
    rintro k (rfl | rfl)
    · exact ⟨[0, 0, 0], by simp [InRange, gridShape, badInfo], rfl, [], by decide +kernel⟩
    · exact ⟨[0, 1, 0], by simp [InRange, gridShape, badInfo], rfl, [], by decide +kernel⟩
  missing := by
    intro c hc
    have hc := mem_indices.mpr hc
    have : c = [0, 0, 0] ∨ c = [0, 1, 0] := by
      simpa [indices, gridShape, badInfo, List.range, List.range.loop] using hc
    rcases this with rfl | rfl
    · intro hn; exact absurd rfl (hn ⟨2, 0, [0, 0, 0], 168⟩ (by decide +kernel))
    · intro hn; exact absurd rfl (hn ⟨2, 0, [0, 1, 0], 170⟩ (by decide +kernel))

theorem badElems : ∀ idx, InRange [2, 2, 1] idx → ElemOf noHeap (.fixed 1 false false) (badCell idx) (badVal idx) := by
  intro idx h
  have h1 : rowIndex [2, 2, 1] idx < 4 := rowIndex_lt h
  unfold badCell
  rw [u8_bytes (by omega)]
  exact .num .u8 false _ (by show _ < 256 ^ 1; omega)

end Verif.H5
