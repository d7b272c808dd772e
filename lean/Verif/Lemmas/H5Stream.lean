import Verif.Spec.H5Stream
import Verif.Model.H5Data
import Verif.Lemmas.H5Base
import Verif.Lemmas.CdfSlice
/-!
Joining segments gives the stream.
-/
namespace Verif.H5

/-! ### Streams -/

theorem IsStream.unique {ps : List Piece} {f : Nat → UInt8} {a b : Nat} {x y : Bytes}
    (hx : IsStream ps f a b x) (hy : IsStream ps f a b y) : x = y := by
  apply List.ext_getElem?
  intro k
  by_cases hk : k < b - a
  · obtain ⟨h1, h2⟩ := hx.2 (a + k) (by omega) (by omega)
    obtain ⟨h3, h4⟩ := hy.2 (a + k) (by omega) (by omega)
    simp only [Nat.add_sub_cancel_left] at h1 h2 h3 h4
    by_cases hc : ∃ s ∈ ps, s.Covers (a + k)
    · obtain ⟨s, hs, hc⟩ := hc
      rw [h1 s hs hc, h3 s hs hc]
    · have hc' : ∀ s ∈ ps, ¬ s.Covers (a + k) := fun s hs h => hc ⟨s, hs, h⟩
      rw [h2 hc', h4 hc']
  · rw [List.getElem?_eq_none (by rw [hx.1]; omega), List.getElem?_eq_none (by rw [hy.1]; omega)]

theorem IsStream.congr {ps qs : List Piece} {f : Nat → UInt8} {a b : Nat} {x : Bytes}
    (h : IsStream ps f a b x)
    (hm : ∀ s p, a ≤ p → p < b → s.Covers p → (s ∈ ps ↔ s ∈ qs)) : IsStream qs f a b x := by
  refine ⟨h.1, fun p h1 h2 => ⟨fun s hs hc => ?_, fun hn => ?_⟩⟩
  · exact (h.2 p h1 h2).1 s ((hm s p h1 h2 hc).mpr hs) hc
  · exact (h.2 p h1 h2).2 fun s hs hc => hn s ((hm s p h1 h2 hc).mp hs) hc

theorem IsStream.nil (ps : List Piece) (f : Nat → UInt8) (a : Nat) : IsStream ps f a a [] :=
  ⟨by simp, fun p h1 h2 => by omega⟩

theorem IsStream.append {ps : List Piece} {f : Nat → UInt8} {a b c : Nat} {x y : Bytes}
    (hx : IsStream ps f a b x) (hy : IsStream ps f b c y) (h1 : a ≤ b) (h2 : b ≤ c) :
    IsStream ps f a c (x ++ y) := by
  have hxl := hx.1
  have hyl := hy.1
  refine ⟨by simp only [List.length_append]; omega, fun p h3 h4 => ?_⟩
  by_cases hp : p < b
  · rw [List.getElem?_append_left (by omega)]
    exact hx.2 p h3 hp
  · rw [List.getElem?_append_right (by omega), show p - a - x.length = p - b from by omega]
    exact hy.2 p (by omega) h4

theorem IsStream.sub {ps : List Piece} {f : Nat → UInt8} {a b c d : Nat} {x : Bytes}
    (hx : IsStream ps f a b x) (h1 : a ≤ c) (h3 : d ≤ b) :
    IsStream ps f c d ((x.drop (c - a)).take (d - c)) := by
  have hxl := hx.1
  refine ⟨by simp only [List.length_take, List.length_drop]; omega, fun p h4 h5 => ?_⟩
  rw [List.getElem?_take_of_lt (by omega), List.getElem?_drop,
    show c - a + (p - c) = p - a from by omega]
  exact hx.2 p (by omega) (by omega)

theorem IsStream.take {ps : List Piece} {f : Nat → UInt8} {a b d : Nat} {x : Bytes}
    (hx : IsStream ps f a b x) (h3 : d ≤ b) : IsStream ps f a d (x.take (d - a)) := by
  simpa using hx.sub (c := a) (d := d) (by omega) h3

theorem fillStream_getElem? {pat : Bytes} {n k : Nat} (h : k < n) :
    (fillStream pat n)[k]? = some (pat.getD (k % pat.length) 0) := by
  simp [fillStream, h]

theorem IsStream.fill {ps : List Piece} {pat : Bytes} {a b : Nat} (hd : pat.length ∣ a)
    (hn : ∀ p, a ≤ p → p < b → ∀ s ∈ ps, ¬ s.Covers p) :
    IsStream ps (patByte pat) a b (fillStream pat (b - a)) := by
  refine ⟨by simp [fillStream], fun p h1 h2 => ⟨fun s hs hc => absurd hc (hn p h1 h2 s hs), fun _ => ?_⟩⟩
  rw [fillStream_getElem? (by omega), patByte]
  obtain ⟨c, rfl⟩ := hd
  have : p = p - pat.length * c + pat.length * c := by omega
  conv => rhs; rw [this, Nat.add_mul_mod_self_left]

theorem IsStream.piece {ps : List Piece} {f : Nat → UInt8} {a b : Nat} {s : Piece} (hs : s ∈ ps)
    (hd : ∀ t ∈ ps, ∀ p, s.Covers p → t.Covers p → s = t)
    (h1 : s.offset ≤ a) (h2 : b ≤ s.offset + s.data.length) :
    IsStream ps f a b ((s.data.drop (a - s.offset)).take (b - a)) := by
  refine ⟨by simp only [List.length_take, List.length_drop]; omega, fun p h3 h4 => ?_⟩
  have hc : s.Covers p := ⟨by omega, by omega⟩
  refine ⟨fun t ht htc => ?_, fun hn => absurd hc (hn s hs)⟩
  obtain rfl := hd t ht p hc htc
  rw [List.getElem?_take_of_lt (by omega), List.getElem?_drop,
    show a - s.offset + (p - a) = p - s.offset from by omega]

theorem Apart.not_both {s t : Piece} (h : s.Apart t) (p : Nat) : s.Covers p → t.Covers p → False := by
  intro ⟨h1, h2⟩ ⟨h3, h4⟩
  rcases h with h | h <;> omega

theorem apart_unique {ps : List Piece} (h : ps.Pairwise Piece.Apart) :
    ∀ s ∈ ps, ∀ t ∈ ps, ∀ p, s.Covers p → t.Covers p → s = t := by
  induction ps with
  | nil => simp
  | cons x xs ih =>
    rw [List.pairwise_cons] at h
    intro s hs t ht p hsc htc
    rcases List.mem_cons.mp hs with rfl | hs'
    · rcases List.mem_cons.mp ht with rfl | ht'
      · rfl
      · exact (Apart.not_both (h.1 t ht') p hsc htc).elim
    · rcases List.mem_cons.mp ht with rfl | ht'
      · exact (Apart.not_both (h.1 s hs') p htc hsc).elim
      · exact ih h.2 s hs' t ht' p hsc htc

/-! ### Joining -/

/-- The segment has the bytes of a part of one of the pieces. -/
def FromPiece (ps : List Piece) (s : Seg) : Prop :=
  ∃ q ∈ ps, q.offset ≤ s.offset ∧ s.offset + s.length ≤ q.offset + q.data.length ∧
    s.b.take s.length = (q.data.drop (s.offset - q.offset)).take s.length

theorem joinSegs_ok {i : Info} {dt : DT} {pat : Bytes} (hpat : fillPattern i dt = .ok pat)
    {ps : List Piece} (hd : ps.Pairwise Piece.Apart) {last : Nat} (hl : last < 2 ^ 64) :
    ∀ (segs : List Seg) (off : Nat),
      segs.Pairwise (fun s t => s.offset + s.length ≤ t.offset) →
      (∀ s ∈ segs, off ≤ s.offset ∧ s.offset + s.length ≤ last ∧ pat.length ∣ s.offset ∧
        pat.length ∣ s.length ∧ FromPiece ps s) →
      (∀ p, off ≤ p → p < last → ∀ q ∈ ps, q.Covers p →
        ∃ s ∈ segs, s.offset ≤ p ∧ p < s.offset + s.length) →
      pat.length ∣ off → off ≤ last →
      ∃ b e, joinSegs i dt off segs = .ok (b, e) ∧ off ≤ e ∧ e ≤ last ∧ pat.length ∣ e ∧
        IsStream ps (patByte pat) off e b ∧
        ∀ p, e ≤ p → p < last → ∀ q ∈ ps, ¬ q.Covers p := by
  intro segs
  induction segs with
  | nil =>
    intro off _ _ hc ha ho
    refine ⟨[], off, rfl, Nat.le_refl _, ho, ha, IsStream.nil _ _ _, fun p h1 h2 q hq hqc => ?_⟩
    obtain ⟨s, hs, _⟩ := hc p h1 h2 q hq hqc
    simp at hs
  | cons s ss ih =>
    intro off hp hs hc ha ho
    rw [List.pairwise_cons] at hp
    obtain ⟨h1, h2, h3, h4, q, hq, hq1, hq2, hq3⟩ := hs s List.mem_cons_self
    have hae : pat.length ∣ s.offset + s.length := Nat.dvd_add h3 h4
    obtain ⟨b, e, hb, he1, he2, he3, he4, he5⟩ := ih (s.offset + s.length) hp.2
      (fun t ht => by
        obtain ⟨_, ht2, ht3, ht4, ht5⟩ := hs t (List.mem_cons_of_mem _ ht)
        exact ⟨hp.1 t ht, ht2, ht3, ht4, ht5⟩)
      (fun p hp1 hp2 r hr hrc => by
        obtain ⟨t, ht, ht1, ht2⟩ := hc p (by omega) hp2 r hr hrc
        rcases List.mem_cons.mp ht with rfl | ht
        · omega
        · exact ⟨t, ht, ht1, ht2⟩)
      hae h2
    have hhole : IsStream ps (patByte pat) off s.offset (fillStream pat (s.offset - off)) := by
      refine IsStream.fill ha fun p hp1 hp2 r hr hrc => ?_
      obtain ⟨t, ht, ht1, _⟩ := hc p hp1 (by omega) r hr hrc
      rcases List.mem_cons.mp ht with rfl | ht
      · omega
      · have := hp.1 t ht
        omega
    have hmid : IsStream ps (patByte pat) s.offset (s.offset + s.length) (s.b.take s.length) := by
      have := IsStream.piece (ps := ps) (f := patByte pat) (a := s.offset) (b := s.offset + s.length)
        hq (apart_unique hd q hq) hq1 hq2
      rw [Nat.add_sub_cancel_left, ← hq3] at this
      exact this
    have hmod : (s.offset + s.length) % 2 ^ 64 = s.offset + s.length := Nat.mod_eq_of_lt (by omega)
    refine ⟨fillStream pat (s.offset - off) ++ s.b.take s.length ++ b, e, ?_, by omega, he2, he3,
      (hhole.append hmid h1 (by omega)).append he4 (by omega) he1, he5⟩
    unfold joinSegs
    by_cases hlt : off < s.offset
    · simp only [if_pos hlt, fillBytes, hpat, Res.map, Res.bind_ok, hmod, hb, Res.pure_eq]
      rw [show ((s.offset : Int) - (off : Int)).toNat = s.offset - off from by omega]
    · have heq : off = s.offset := by omega
      subst heq
      simp only [Nat.lt_irrefl, ↓reduceIte, Res.pure_eq, Res.bind_ok, hmod, hb, Nat.sub_self]
      rfl

/-! ### Sorting -/

theorem insertSeg_perm (x : Seg) (l : List Seg) : (insertSeg x l).Perm (x :: l) := by
  induction l with
  | nil => exact List.Perm.refl _
  | cons y ys ih =>
    unfold insertSeg
    split
    · exact List.Perm.refl _
    · exact (List.Perm.cons y ih).trans (List.Perm.swap x y ys)

theorem sortSegs_perm (l : List Seg) : (sortSegs l).Perm l := by
  induction l with
  | nil => exact List.Perm.refl _
  | cons x xs ih => exact (insertSeg_perm x _).trans (ih.cons x)

theorem insertSeg_sorted (x : Seg) (l : List Seg) (h : l.Pairwise (fun s t => s.offset ≤ t.offset)) :
    (insertSeg x l).Pairwise (fun s t => s.offset ≤ t.offset) := by
  induction l with
  | nil => exact List.pairwise_singleton _ _
  | cons y ys ih =>
    unfold insertSeg
    split
    · rename_i hxy
      refine List.pairwise_cons.mpr ⟨fun z hz => ?_, h⟩
      rcases List.mem_cons.mp hz with rfl | hz
      · exact hxy
      · exact Nat.le_trans hxy ((List.pairwise_cons.mp h).1 z hz)
    · rename_i hxy
      refine List.pairwise_cons.mpr ⟨fun z hz => ?_, ih (List.pairwise_cons.mp h).2⟩
      rcases List.mem_cons.mp ((insertSeg_perm x ys).mem_iff.mp hz) with rfl | hz
      · omega
      · exact (List.pairwise_cons.mp h).1 z hz

theorem sortSegs_sorted (l : List Seg) : (sortSegs l).Pairwise (fun s t => s.offset ≤ t.offset) := by
  induction l with
  | nil => exact List.Pairwise.nil
  | cons x xs ih => exact insertSeg_sorted x _ ih

/-- Segments that do not overlap. -/
def Seg.Apart (s t : Seg) : Prop := s.offset + s.length ≤ t.offset ∨ t.offset + t.length ≤ s.offset

theorem sortSegs_apart {l : List Seg} (h : l.Pairwise Seg.Apart)
    (hn : (∀ s ∈ l, 0 < s.length) ∨ (∀ s ∈ l, s.length = 0)) :
    (sortSegs l).Pairwise (fun s t => s.offset + s.length ≤ t.offset) := by
  have h1 : (sortSegs l).Pairwise Seg.Apart :=
    ((sortSegs_perm l).pairwise_iff (fun {a b} hab => Or.symm hab)).mpr h
  have h2 := sortSegs_sorted l
  have hmem : ∀ s ∈ sortSegs l, s ∈ l := fun s hs => (sortSegs_perm l).mem_iff.mp hs
  have h3 := List.pairwise_and_iff.mpr ⟨h1, h2⟩
  refine List.Pairwise.imp_of_mem (fun {s t} hs ht hst => ?_) h3
  rcases hst.1 with h | h
  · exact h
  · have := hst.2
    rcases hn with hn | hn
    · have := hn t (hmem t ht)
      omega
    · have := hn t (hmem t ht)
      have := hn s (hmem s hs)
      omega

/-! ### The segments of the blocks -/

/-- The block gives the bytes `data`, and any part of them. -/
def BlockReads (inflate : Bytes → Res Bytes) (file : Bytes) (filters : List (Nat × List Nat)) (v : DBlock)
    (data : Bytes) : Prop :=
  v.dsLength = data.length ∧ ∀ sb se, sb + se ≤ data.length →
    ∃ b, blockBytes inflate file filters v sb se = .ok b ∧
      b.take (data.length - (sb + se)) = (data.drop sb).take (data.length - (sb + se))

/-- The pieces the blocks stand for. -/
inductive Place (inflate : Bytes → Res Bytes) (file : Bytes) (i : Info) (dims : List Nat)
    (dtLen : Nat) : Nat → List DBlock → List Piece → Prop
  | nil (off) : Place inflate file i dims dtLen off [] []
  | cons (off : Nat) (v : DBlock) (vs : List DBlock) (s : Piece) (ss : List Piece)
      (hseq : i.layout = [] → s.offset = off)
      (hflat : i.layout ≠ [] → flatOffset v.offsets dims i.layout dtLen = .ok s.offset)
      (hr : BlockReads inflate file i.filters v s.data)
      (h : Place inflate file i dims dtLen (s.offset + s.data.length) vs ss) :
      Place inflate file i dims dtLen off (v :: vs) (s :: ss)

theorem u64_sub {a b : Nat} (h : b ≤ a) (ha : a < 2 ^ 64) : u64 ((a : Int) - (b : Int)) = a - b := by
  unfold u64
  rw [Int.emod_eq_of_lt (by omega) (by omega)]
  omega

theorem u64_nat {a : Nat} (ha : a < 2 ^ 64) : u64 (a : Int) = a := by
  unfold u64
  rw [Int.emod_eq_of_lt (by omega) (by omega)]
  omega

theorem recordSegs_ok {inflate : Bytes → Res Bytes} {file : Bytes} {i : Info} {dims : List Nat}
    {dtLen first last k : Nat} (hf : first ≤ last) (hl : last < 2 ^ 63) (hk1 : k ∣ first) (hk2 : k ∣ last) :
    ∀ {off : Nat} {vs : List DBlock} {ps : List Piece}, Place inflate file i dims dtLen off vs ps →
      ps.Pairwise Piece.Apart → ps.Pairwise (fun a b => last ≤ a.offset → last ≤ b.offset) →
      (∀ s ∈ ps, s.data ≠ [] ∧ s.offset + s.data.length < 2 ^ 63 ∧ k ∣ s.offset ∧ k ∣ s.data.length) →
      ∃ segs, recordSegs inflate file i dims dtLen first last off vs = .ok segs ∧
        segs.Pairwise Seg.Apart ∧
        (∀ s ∈ segs, (first < last → 0 < s.length) ∧ first ≤ s.offset ∧ s.offset + s.length ≤ last ∧ k ∣ s.offset ∧
          k ∣ s.length ∧ FromPiece ps s) ∧
        (∀ p, first ≤ p → p < last → ∀ q ∈ ps, q.Covers p →
          ∃ s ∈ segs, s.offset ≤ p ∧ p < s.offset + s.length) := by
  intro off vs ps hpl
  induction hpl with
  | nil off => intro _ _ _; exact ⟨[], rfl, by simp, by simp, by simp⟩
  | cons off v vs s ss hseq hflat hr hrest ih =>
    intro hap hstop hall
    rw [List.pairwise_cons] at hap hstop
    obtain ⟨hne, hend, hks, hkl⟩ := hall s List.mem_cons_self
    obtain ⟨segs, hsegs, hsa, hsb, hsc⟩ := ih hap.2 hstop.2 (fun t ht => hall t (List.mem_cons_of_mem _ ht))
    have hlen : 0 < s.data.length := List.length_pos_iff.mpr hne
    have hds : v.dsLength = s.data.length := hr.1
    have hoff : blockOffset i dims dtLen off v = .ok s.offset := by
      unfold blockOffset
      split
      · rename_i h; rw [hseq h]
      · rename_i h; exact hflat h
    have hnext : (if i.layout = [] then (s.offset + s.data.length) % 2 ^ 64 else s.offset) =
        (if i.layout = [] then (s.offset + s.data.length) else s.offset) := by
      rw [Nat.mod_eq_of_lt (by omega)]
    have hrec : recordSegs inflate file i dims dtLen first last
        (if i.layout = [] then (s.offset + s.data.length) % 2 ^ 64 else s.offset) vs = .ok segs := by
      rw [hnext]
      split
      · exact hsegs
      · rename_i h
        rw [← hsegs]
        cases vs with
        | nil => rfl
        | cons w ws => unfold recordSegs; simp only [blockOffset, if_neg h]
    unfold recordSegs
    simp only [hoff, Res.bind_ok, hds, hrec]
    rw [Nat.mod_eq_of_lt (a := s.offset + s.data.length) (by omega)]
    by_cases h1 : s.offset + s.data.length ≤ first
    · rw [if_pos h1]
      refine ⟨segs, rfl, hsa, fun t ht => ?_, fun p hp1 hp2 q hq hqc => ?_⟩
      · obtain ⟨a1, a2, a3, a4, a5, q, hq, a6⟩ := hsb t ht
        exact ⟨a1, a2, a3, a4, a5, q, List.mem_cons_of_mem _ hq, a6⟩
      · rcases List.mem_cons.mp hq with rfl | hq
        · have := hqc.2; omega
        · exact hsc p hp1 hp2 q hq hqc
    · rw [if_neg h1]
      by_cases h2 : last ≤ s.offset
      · rw [if_pos h2]
        refine ⟨[], rfl, by simp, by simp, fun p hp1 hp2 q hq hqc => ?_⟩
        have : last ≤ q.offset := by
          rcases List.mem_cons.mp hq with rfl | hq
          · exact h2
          · exact hstop.1 q hq h2
        have := hqc.1
        omega
      · rw [if_neg h2]
        generalize hsbv : (if s.offset ≤ first ∧ first < s.offset + s.data.length then first - s.offset else 0) = sb
        generalize hsev : (if last < s.offset + s.data.length then s.offset + s.data.length - last else 0) = se
        have hsb' : s.offset + sb = max s.offset first := by
          rw [← hsbv]; split <;> omega
        have hse' : s.offset + s.data.length = se + min (s.offset + s.data.length) last := by
          rw [← hsev]; split <;> omega
        have hksb : k ∣ sb := by
          rw [← hsbv]; split
          · exact Nat.dvd_sub hk1 hks
          · exact Nat.dvd_zero k
        have hkse : k ∣ se := by
          rw [← hsev]; split
          · exact Nat.dvd_sub (Nat.dvd_add hks hkl) hk2
          · exact Nat.dvd_zero k
        obtain ⟨b, hb1, hb2⟩ := hr.2 sb se (by omega)
        simp only [hb1, Res.bind_ok, Res.pure_eq]
        have hu : u64 ((s.data.length : Int) - ((sb : Int) + (se : Int))) = s.data.length - (sb + se) := by
          rw [← Int.natCast_add, u64_sub (by omega) (by omega)]
        refine ⟨_, rfl, List.pairwise_cons.mpr ⟨fun t ht => ?_, hsa⟩, fun t ht => ?_,
          fun p hp1 hp2 q hq hqc => ?_⟩
        · obtain ⟨_, _, _, _, _, q, hq, hq1, hq2, _⟩ := hsb t ht
          have hA := hap.1 q hq
          simp only [Seg.Apart, hu]
          rcases hA with hA | hA
          · left; omega
          · right; omega
        · rcases List.mem_cons.mp ht with rfl | ht
          · simp only [hu]
            refine ⟨by omega, by omega, by omega, Nat.dvd_add hks hksb,
              Nat.dvd_sub hkl (Nat.dvd_add hksb hkse), s, List.mem_cons_self, by simp, by simp; omega, ?_⟩
            simp only [hu, Nat.add_sub_cancel_left]
            exact hb2
          · obtain ⟨a1, a2, a3, a4, a5, q, hq, a6⟩ := hsb t ht
            exact ⟨a1, a2, a3, a4, a5, q, List.mem_cons_of_mem _ hq, a6⟩
        · rcases List.mem_cons.mp hq with rfl | hq
          · refine ⟨_, List.mem_cons_self, ?_, ?_⟩
            · have := hqc.1; simp only []; omega
            · have := hqc.2; simp only [hu]; omega
          · obtain ⟨t, ht, ht1⟩ := hsc p hp1 hp2 q hq hqc
            exact ⟨t, List.mem_cons_of_mem _ ht, ht1⟩

/-! ### Blocks that can be read -/

theorem fletcher_read_prefix {fl fl' : Fletcher} {len give : Nat} {b : Bytes}
    (h : fl.read len give = .ok (b, fl')) : b <+: fl.src := by
  unfold Fletcher.read at h
  simp only at h
  split at h
  · simp only [Res.ok.injEq, Prod.mk.injEq] at h
    rw [← h.1]
    exact List.take_prefix _ _
  · simp at h
  · simp at h

theorem fletcherAll_prefix {b b' : Bytes} {size : Nat} (h : fletcherAll b size = .ok b') : b' <+: b := by
  unfold fletcherAll at h
  split at h
  · simp at h
  · simp at h
  · rename_i fl hfl
    have hsrc : fl.src = b := by
      unfold fletcher32Reader at hfl
      split at hfl
      · simp only [Res.ok.injEq] at hfl
        rw [← hfl]
      · simp at hfl
    split at h
    · simp at h
    · cases hr : fl.read (size - 4) (size - 4) with
      | ok x =>
        obtain ⟨b1, fl1⟩ := x
        rw [hr] at h
        simp only [Res.map, Res.ok.injEq] at h
        rw [← h, ← hsrc]
        exact fletcher_read_prefix hr
      | err e => rw [hr] at h; simp [Res.map] at h
      | panic => rw [hr] at h; simp [Res.map] at h

theorem undoFilters_prefix {inflate : Bytes → Res Bytes} {mask : Nat} :
    ∀ {l : List (Nat × (Nat × List Nat) × Nat)} {b b' : Bytes} {n n' : Nat},
      (∀ x ∈ l, (mask / 2 ^ x.1 % 2 == 1 || x.2.1.1 == 3) = true) →
      undoFilters inflate mask l (b, n) = .ok (b', n') → b' <+: b := by
  intro l
  induction l with
  | nil =>
    intro b b' n n' _ h
    simp only [undoFilters, Res.ok.injEq, Prod.mk.injEq] at h
    rw [h.1]
    exact List.prefix_refl _
  | cons x xs ih =>
    obtain ⟨j, f, target⟩ := x
    intro b b' n n' hall h
    have hx := hall _ List.mem_cons_self
    have hxs := fun y hy => hall y (List.mem_cons_of_mem _ hy)
    simp only [Bool.or_eq_true, beq_iff_eq] at hx
    unfold undoFilters at h
    split at h
    · exact ih hxs h
    · rename_i h1
      rw [if_pos (hx.resolve_left h1)] at h
      split at h
      · simp at h
      · simp at h
      · rename_i b1 hb1
        exact (ih hxs h).trans (fletcherAll_prefix hb1)

theorem mem_zip_zip {α β : Type} {xs : List Nat} {ys : List α} {zs : List β} {a : Nat} {b : α} {c : β}
    (h : (a, b, c) ∈ xs.zip (ys.zip zs)) : (a, b) ∈ xs.zip ys := by
  induction xs generalizing ys zs with
  | nil => simp at h
  | cons x xs ih =>
    cases ys with
    | nil => simp at h
    | cons y ys =>
      cases zs with
      | nil => simp at h
      | cons z zs =>
        simp only [List.zip_cons_cons, List.mem_cons, Prod.mk.injEq] at h ⊢
        rcases h with ⟨h1, h2, _⟩ | h
        · exact .inl ⟨h1, h2⟩
        · exact .inr (ih h)

theorem pipeline_all {filters : List (Nat × List Nat)} {v : DBlock} (h : canSeek filters v.mask = true) :
    ∀ x ∈ pipeline filters v, (v.mask / 2 ^ x.1 % 2 == 1 || x.2.1.1 == 3) = true := by
  intro x hx
  obtain ⟨j, f, t⟩ := x
  unfold pipeline at hx
  rw [List.mem_reverse] at hx
  exact List.all_eq_true.mp h (j, f) (mem_zip_zip hx)

theorem drop_take_take {α : Type} (b : List α) {n sb m : Nat} (h : sb + m ≤ n) :
    (b.drop sb).take m = ((b.take n).drop sb).take m := by
  apply List.ext_getElem?
  intro k
  by_cases hk : k < m
  · rw [List.getElem?_take_of_lt hk, List.getElem?_take_of_lt hk, List.getElem?_drop, List.getElem?_drop,
      List.getElem?_take_of_lt (by omega)]
  · rw [List.getElem?_take_eq_none (by omega), List.getElem?_take_eq_none (by omega)]

/-- A block that can be read can be read from any position to any position. -/
theorem reads_of_full {inflate : Bytes → Res Bytes} {file : Bytes} {filters : List (Nat × List Nat)}
    {v : DBlock} {b : Bytes} (hf : file.length < 2 ^ 63) (hfull : blockBytes inflate file filters v 0 0 = .ok b)
    (hraw : (∃ r, v.src = .raw r) → filters = []) (hlen : v.dsLength ≤ b.length) (hv : v.dsLength < 2 ^ 63) :
    BlockReads inflate file filters v (b.take v.dsLength) := by
  have hl : (b.take v.dsLength).length = v.dsLength := by rw [List.length_take]; omega
  refine ⟨hl.symm, fun sb se hs => ?_⟩
  rw [hl] at hs ⊢
  unfold blockBytes at hfull ⊢
  cases hsrc : v.src with
  | raw r =>
    have hfil := hraw ⟨r, hsrc⟩
    subst hfil
    simp only [hsrc] at hfull ⊢
    have hk0 : i64 (u64 ((v.dsLength : Int) - ((0 : Nat) : Int))) = v.dsLength := by
      rw [u64_sub (by omega) (by omega), Nat.sub_zero, i64_of_lt (by omega)]
    have hk : i64 (u64 ((v.dsLength : Int) - (se : Int))) = (v.dsLength - se : Nat) := by
      rw [u64_sub (by omega) (by omega), i64_of_lt (by omega)]
    rw [hk0] at hfull
    rw [hk]
    by_cases hc : ((v.dsLength : Int) < 0 ∨ (r.length : Int) < v.dsLength)
    · rw [if_pos hc] at hfull; simp at hfull
    · rw [if_neg hc] at hfull
      rw [if_neg (by omega)]
      have hp : pipeline [] v = [] := rfl
      simp only [hp, undoFilters, Res.bind_ok, Int.toNat_natCast, Nat.not_lt_zero, ↓reduceIte, Res.pure_eq,
        List.drop_zero, Res.ok.injEq] at hfull ⊢
      have hrl : ¬ (r.take (v.dsLength - se)).length < sb := by
        rw [List.length_take]; omega
      rw [if_neg hrl]
      refine ⟨_, rfl, ?_⟩
      subst hfull
      rw [List.take_take, Nat.min_self, ← drop_take_take r (by omega), ← drop_take_take r (by omega)]
  | «at» addr len =>
    simp only [hsrc] at hfull ⊢
    cases hns : newSeek file addr (i64 len) with
    | err e => rw [hns] at hfull; simp at hfull
    | panic => rw [hns] at hfull; simp at hfull
    | ok s =>
      rw [hns] at hfull
      simp only [Res.bind_ok, Nat.lt_irrefl, false_and, ↓reduceIte] at hfull ⊢
      cases hu : undoFilters inflate v.mask (pipeline filters v) (s.rem, len) with
      | err e => rw [hu] at hfull; simp at hfull
      | panic => rw [hu] at hfull; simp at hfull
      | ok x =>
        obtain ⟨b1, n1⟩ := x
        rw [hu] at hfull
        simp only [Res.bind_ok, Nat.not_lt_zero, ↓reduceIte, List.drop_zero, Res.pure_eq, Res.ok.injEq] at hfull ⊢
        subst hfull
        by_cases hc : 0 < sb ∧ canSeek filters v.mask = true
        · rw [if_pos hc]
          have hpre := undoFilters_prefix (pipeline_all hc.2) hu
          have hrem : s.rem <+: file.drop addr ∧ (s.rem ≠ [] → addr < 2 ^ 63) := by
            unfold newSeek at hns
            split at hns
            · simp only [Res.ok.injEq] at hns
              rw [← hns]
              split
              · exact ⟨List.nil_prefix, fun h => absurd rfl h⟩
              · rename_i h
                refine ⟨List.take_prefix _ _, fun hne => ?_⟩
                apply Classical.byContradiction
                intro hge
                apply hne
                rw [List.drop_eq_nil_of_le (by omega), List.take_nil]
            · simp at hns
          have hbne : b1 ≠ [] := by intro e; rw [e] at hlen; simp at hlen; omega
          have haddr : addr < 2 ^ 63 := hrem.2 (fun e => hbne (by rw [e] at hpre; exact List.prefix_nil.mp hpre))
          have hb1 : b1 <+: file.drop addr := hpre.trans hrem.1
          have hb1l : b1.length ≤ file.length - addr := by
            have := hb1.length_le; rwa [List.length_drop] at this
          have hb1t : b1 = (file.drop addr).take b1.length := List.prefix_iff_eq_take.mp hb1
          have hsz : i64 (u64 ((v.dsLength : Int) - ((sb : Int) + (se : Int)))) = (v.dsLength - (sb + se) : Nat) := by
            rw [← Int.natCast_add, u64_sub (by omega) (by omega), i64_of_lt (by omega)]
          rw [hsz, Nat.mod_eq_of_lt (by omega)]
          have hpos : 0 < v.dsLength - (sb + se) ∨ v.dsLength - (sb + se) = 0 := by omega
          rcases hpos with hpos | hpos
          · rw [newSeek_block _ _ _ hf (by omega) hpos]
            refine ⟨_, rfl, ?_⟩
            simp only [List.take_take, Nat.min_self]
            rw [← drop_take_take b1 (by omega)]
            conv => rhs; rw [hb1t]
            rw [← drop_take_take (file.drop addr) (by omega), List.drop_drop]
          · rw [hpos]
            have : newSeek file (addr + sb) ((0 : Nat) : Int) = .ok ⟨0, (file.drop (addr + sb)).take (file.length - (addr + sb))⟩ := by
              unfold newSeek
              rw [i64_of_lt (by omega), wrap64_of (by omega) (by omega)]
              rw [if_pos (by omega)]
              simp only [Int.natCast_zero, ↓reduceIte]
              rw [if_neg (by omega)]
              rw [show ((file.length : Int) - ((addr + sb : Nat) : Int)).toNat = file.length - (addr + sb) from by omega]
            rw [this]
            exact ⟨_, rfl, by simp⟩
        · rw [if_neg hc]
          rw [if_neg (by omega)]
          exact ⟨_, rfl, drop_take_take b1 (by omega)⟩

/-! ### The bytes of a variable -/

theorem recordFrom_ok {inflate : Bytes → Res Bytes} {file : Bytes} {i : Info} {dt : DT} {dims : List Nat}
    {first last : Nat} {blocks : List DBlock} {ps : List Piece} {pat : Bytes}
    (hpat : fillPattern i dt = .ok pat) (hf : first ≤ last) (hl : last < 2 ^ 63)
    (hk1 : pat.length ∣ first) (hk2 : pat.length ∣ last)
    (hpl : Place inflate file i dims dt.len 0 blocks ps) (hap : ps.Pairwise Piece.Apart)
    (hst : ps.Pairwise (fun a b => last ≤ a.offset → last ≤ b.offset))
    (hall : ∀ s ∈ ps, s.data ≠ [] ∧ s.offset + s.data.length < 2 ^ 63 ∧ pat.length ∣ s.offset ∧
      pat.length ∣ s.data.length) :
    ∃ b e, recordFrom inflate file i dt dims first last (last - first) blocks = .ok b ∧
      first ≤ e ∧ e ≤ last ∧ pat.length ∣ e ∧ IsStream ps (patByte pat) first e b ∧
      (∀ p, e ≤ p → p < last → ∀ q ∈ ps, ¬ q.Covers p) ∧ (first = 0 → e = last) := by
  unfold recordFrom
  by_cases hb : blocks = []
  · subst hb
    cases hpl
    refine ⟨fillStream pat (last - first), last, ?_, hf, Nat.le_refl _, hk2,
      IsStream.fill hk1 (by simp), fun p h1 h2 => by omega, fun _ => rfl⟩
    simp only [↓reduceIte, fillBytes, hpat, Res.map]
    rw [i64_of_lt (by omega), Int.toNat_natCast]
  · rw [if_neg hb]
    obtain ⟨segs, h1, h2, h3, h4⟩ := recordSegs_ok hf hl hk1 hk2 hpl hap hst hall
    have hperm := fun s => (sortSegs_perm segs).mem_iff (a := s)
    obtain ⟨b, e, g1, g2, g3, g4, g5, g6⟩ := joinSegs_ok hpat hap (last := last) (by omega) (sortSegs segs) first
      (sortSegs_apart h2 (by
        by_cases hlt : first < last
        · exact .inl fun s hs => (h3 s hs).1 hlt
        · exact .inr fun s hs => by have := h3 s hs; omega))
      (fun s hs => by
        obtain ⟨_, a2, a3, a4, a5, a6⟩ := h3 s ((hperm s).mp hs)
        exact ⟨a2, a3, a4, a5, a6⟩)
      (fun p hp1 hp2 q hq hqc => by
        obtain ⟨s, hs, hs1⟩ := h4 p hp1 hp2 q hq hqc
        exact ⟨s, (hperm s).mpr hs, hs1⟩)
      hk1 hf
    have hbl := g5.1
    simp only [h1, Res.bind_ok, g1]
    by_cases hlt : e < last - first
    · refine ⟨b ++ fillStream pat (last - first - e), last - first, ?_, by omega, by omega, Nat.dvd_sub hk2 hk1, ?_,
        fun p hp1 hp2 => g6 p (by omega) hp2, by omega⟩
      · simp only [hlt, ↓reduceIte, fillBytes, hpat, Res.map, Res.bind_ok, Res.pure_eq]
        rw [if_neg (by omega), show (((last - first : Nat) : Int) - (e : Int)).toNat = last - first - e from by omega]
        rw [List.take_of_length_le (by simp only [List.length_append, fillStream, List.length_map, List.length_range]; omega)]
      · exact g5.append (IsStream.fill g4 fun p hp1 hp2 => g6 p hp1 (by omega)) g2 (by omega)
    · refine ⟨b, e, ?_, g2, g3, g4, g5, g6, by omega⟩
      simp only [hlt, ↓reduceIte, Res.pure_eq, Res.bind_ok, List.append_nil]
      rw [if_neg (by omega), List.take_of_length_le (by omega)]

/-- The range of bytes of a slice of rows, or of everything. -/
def rangeOf (dims : List Nat) (sz : Nat) : Sl → Nat × Nat
  | none => (0, sz)
  | some (x, y) => (x.toNat * (sz / dims.headD 1), y.toNat * (sz / dims.headD 1))

/-- The slice is a range of rows. -/
def SliceOK (dims : List Nat) : Sl → Prop
  | none => True
  | some (x, y) => ∃ d ds, dims = d :: ds ∧ 0 < d ∧ 0 ≤ x ∧ x ≤ y ∧ y ≤ d

theorem byteRange_ok {dims : List Nat} {sz : Nat} {sl : Sl} (hs : SliceOK dims sl) (hsz : sz < 2 ^ 63)
    (hd : ∀ d ∈ dims, d < 2 ^ 63) :
    byteRange dims sz false sl =
        ((rangeOf dims sz sl).1, (rangeOf dims sz sl).2, (rangeOf dims sz sl).2 - (rangeOf dims sz sl).1) ∧
      (rangeOf dims sz sl).1 ≤ (rangeOf dims sz sl).2 ∧ (rangeOf dims sz sl).2 ≤ sz := by
  cases sl with
  | none => simp [byteRange, rangeOf]
  | some xy =>
    obtain ⟨x, y⟩ := xy
    obtain ⟨d, ds, rfl, h0, h1, h2, h3⟩ := hs
    have hd' := hd d List.mem_cons_self
    have hx : u64 x = x.toNat := by
      have := u64_nat (a := x.toNat) (by omega)
      rwa [Int.toNat_of_nonneg h1] at this
    have hy : u64 y = y.toNat := by
      have := u64_nat (a := y.toNat) (by omega)
      rwa [Int.toNat_of_nonneg (by omega)] at this
    have hle : y.toNat * (sz / d) ≤ sz :=
      Nat.le_trans (Nat.mul_le_mul_right _ (by omega)) (Nat.mul_div_le sz d)
    have hle2 : x.toNat * (sz / d) ≤ y.toNat * (sz / d) := Nat.mul_le_mul_right _ (by omega)
    simp only [byteRange, rangeOf, List.headD_cons, hx, hy, h0, and_self, ↓reduceIte]
    rw [Nat.mod_eq_of_lt (by omega), Nat.mod_eq_of_lt (by omega), u64_sub hle2 (by omega)]
    exact ⟨rfl, hle2, hle⟩

/-- The bytes of a variable whose chunks, if any, are in the order of its elements. -/
theorem dataBytes_ok {inflate : Bytes → Res Bytes} {fuel : Nat} {file : Bytes} {i : Info} {dt : DT} {dims : List Nat}
    {cached blocks : List DBlock} {ps : List Piece} {pat : Bytes} {sz : Nat} {sl : Sl}
    (hsz : calcAttrSize dims i.layout dt.len = .ok sz) (hsz1 : sz < 2 ^ 63) (hsz0 : 0 < sz)
    (hlay : needsLayoutReader dims i.layout = .ok false)
    (hsl : SliceOK dims sl) (hd : ∀ d ∈ dims, d < 2 ^ 63)
    (hpat : fillPattern i dt = .ok pat)
    (hk1 : pat.length ∣ (rangeOf dims sz sl).1) (hk2 : pat.length ∣ (rangeOf dims sz sl).2)
    (hb : blocksOf fuel file i dims (rangeOf dims sz sl).1 (rangeOf dims sz sl).2 cached = .ok blocks)
    (hpl : Place inflate file i dims dt.len 0 blocks ps) (hap : ps.Pairwise Piece.Apart)
    (hst : ps.Pairwise (fun a b => (rangeOf dims sz sl).2 ≤ a.offset → (rangeOf dims sz sl).2 ≤ b.offset))
    (hall : ∀ s ∈ ps, s.data ≠ [] ∧ s.offset + s.data.length < 2 ^ 63 ∧ pat.length ∣ s.offset ∧
      pat.length ∣ s.data.length) :
    ∃ b, dataBytes inflate fuel file i dt dims cached sl = .ok (b, blocks) ∧
      IsStream ps (patByte pat) (rangeOf dims sz sl).1 (rangeOf dims sz sl).2 b := by
  obtain ⟨hr1, hr2, hr3⟩ := byteRange_ok (sl := sl) hsl hsz1 hd
  generalize hfi : (rangeOf dims sz sl).1 = first at *
  generalize hla : (rangeOf dims sz sl).2 = last at *
  obtain ⟨b, e, h1, h2, h3, h4, h5, h6, h7⟩ := recordFrom_ok hpat hr2 (by omega) hk1 hk2 hpl hap hst hall
  have hbl := h5.1
  have hrec : recordBytes inflate fuel file i dt dims cached sl = .ok (b, last - first, blocks) := by
    unfold recordBytes
    simp only [hsz, Res.bind_ok, hlay, hr1, hb, h1, Res.pure_eq]
    rw [if_neg (by omega)]
  unfold dataBytes
  simp only [hsz, hrec, hlay, Res.bind_ok, Bool.false_eq_true, ↓reduceIte, Res.pure_eq]
  -- the bytes after the last fill
  have hfill : ∃ b', ((if last - first < sz then (fillBytes i dt (sz - b.length)).map (b ++ ·) else Res.ok b) = .ok b') ∧
      IsStream ps (patByte pat) first last (b'.take (last - first)) := by
    by_cases hlt : last - first < sz
    · refine ⟨b ++ fillStream pat (sz - b.length), ?_, ?_⟩
      · rw [if_pos hlt]
        simp only [fillBytes, hpat, Res.map]
        rw [show ((sz : Int) - (b.length : Int)).toNat = sz - b.length from by omega]
      · have hst : IsStream ps (patByte pat) first last (b ++ fillStream pat (last - e)) :=
          h5.append (IsStream.fill h4 h6) h2 h3
        have : (b ++ fillStream pat (sz - b.length)).take (last - first) = b ++ fillStream pat (last - e) := by
          rw [List.take_append, List.take_of_length_le (by omega)]
          congr 1
          rw [show last - first - b.length = last - e from by omega]
          rw [fillStream, fillStream, ← List.map_take, List.take_range]
          rw [Nat.min_eq_left (by omega)]
        rw [this]
        exact hst
    · rw [if_neg hlt]
      refine ⟨b, rfl, ?_⟩
      have : e = last := h7 (by omega)
      subst this
      rw [List.take_of_length_le (by omega)]
      exact h5
  obtain ⟨b', hb', hst'⟩ := hfill
  cases sl with
  | none =>
    simp only [rangeOf] at hfi hla
    subst hfi hla
    have : ¬ sz - 0 < sz := by omega
    rw [if_neg this] at hb' ⊢
    simp only [Res.ok.injEq] at hb'
    subst hb'
    exact ⟨_, rfl, by simpa using hst'⟩
  | some xy =>
    obtain ⟨x, y⟩ := xy
    obtain ⟨d, ds, rfl, g0, g1, g2, g3⟩ := hsl
    simp only [rangeOf, List.headD_cons] at hfi hla
    have hcut : sz / d * (y - x).toNat = last - first := by
      rw [← hfi, ← hla, ← Nat.sub_mul, Nat.mul_comm, show (y - x).toNat = y.toNat - x.toNat from by omega]
    obtain ⟨d', rfl⟩ : ∃ d', d = d' + 1 := ⟨d - 1, by omega⟩
    refine ⟨b'.take (last - first), ?_, hst'⟩
    by_cases hlt : last - first < sz
    · rw [if_pos hlt] at hb' ⊢
      cases hfb : (fillBytes i dt (sz - b.length)).map (b ++ ·) with
      | err _ => rw [hfb] at hb'; simp at hb'
      | panic => rw [hfb] at hb'; simp at hb'
      | ok z =>
        rw [hfb] at hb'
        simp only [Res.ok.injEq] at hb'
        subst hb'
        simp only [Res.bind_ok, Int.not_lt.mpr g2, ↓reduceIte, hcut]
    · rw [if_neg hlt] at hb' ⊢
      simp only [Res.ok.injEq] at hb'
      subst hb'
      simp only [Int.not_lt.mpr g2, ↓reduceIte, hcut]

end Verif.H5
