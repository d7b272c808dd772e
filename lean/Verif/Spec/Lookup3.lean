import Verif.Base.Bytes
/-!
Specification of the checksum of HDF5 metadata: Bob Jenkins' lookup3 (`hashlittle` with an initial
value of 0) of a byte string of fewer than 2^32 bytes. The data is cut into blocks of 12 bytes, the
last one (of 1 to 12 bytes) filled up with zeros; each block is added to the state as three
little-endian words; all blocks but the last are followed by the mixing rounds, the last one by
the final rounds.
-/
namespace Verif.Lookup3

/-- The three words of the state. -/
abbrev State := BitVec 32 × BitVec 32 × BitVec 32

/-- One mixing round; the roles of the words rotate from round to round. -/
def mixRound (s : State) (k : Nat) : State :=
  (s.2.1, s.2.2 + s.2.1, (s.1 - s.2.2) ^^^ s.2.2.rotateLeft k)

/-- The six mixing rounds. -/
def mixing (s : State) : State := [4, 6, 8, 16, 19, 4].foldl mixRound s

/-- One final round. -/
def finalRound (s : State) (k : Nat) : State :=
  (s.2.1, (s.2.2 ^^^ s.2.1) - s.2.1.rotateLeft k, s.1)

/-- The seven final rounds; the result is the word changed last. -/
def finishing (s : State) : BitVec 32 := ([14, 11, 25, 16, 4, 14, 24].foldl finalRound s).2.1

/-- The `i`-th little-endian word of a block of 12 bytes. -/
def word (block : Bytes) (i : Nat) : BitVec 32 := BitVec.ofNat 32 (leDec ((block.drop (4 * i)).take 4))

/-- Add a block to the state. -/
def addBlock (s : State) (block : Bytes) : State :=
  (s.1 + word block 0, s.2.1 + word block 1, s.2.2 + word block 2)

/-- Process the data. -/
def run (s : State) (data : Bytes) : BitVec 32 :=
  if 12 < data.length then run (mixing (addBlock s (data.take 12))) (data.drop 12)
  else if data.length = 0 then s.2.2
  else finishing (addBlock s (data ++ List.replicate (12 - data.length) 0))
termination_by data.length
decreasing_by simp; omega

/-- The checksum. -/
def hash (data : Bytes) : BitVec 32 :=
  let a := 0xdeadbeef#32 + BitVec.ofNat 32 data.length
  run (a, a, a) data

end Verif.Lookup3
