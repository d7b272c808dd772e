import Verif.Lemmas.CdfParse
import Verif.Spec.CdfHeader
/-!
The size of records in an accepted file.
-/
namespace Verif.Cdf

theorem rdN_bytes {n : Nat} {s s' b : Bytes} (h : rdN n s = .ok (b, s')) : s = b ++ s' := by
  unfold rdN at h
  split at h
  · simp only [Res.ok.injEq, Prod.mk.injEq] at h
    rw [← h.1, ← h.2, List.take_append_drop]
  · cases h

theorem read32_bytes {s s' : Bytes} {n : Nat} (h : read32 s = .ok (n, s')) : s = beEnc 4 n ++ s' := by
  obtain ⟨b, s1, h1, h2⟩ := P.bind_eq_ok h
  have := P.pure_eq_ok h2
  simp only [Prod.mk.injEq] at this
  obtain ⟨rfl, rfl⟩ := this
  have e := beEnc_beDec b
  rw [rdN_length h1] at e
  rw [e]; exact rdN_bytes h1

theorem read64_bytes {s s' : Bytes} {n : Nat} (h : read64 s = .ok (n, s')) : s = beEnc 8 n ++ s' := by
  obtain ⟨b, s1, h1, h2⟩ := P.bind_eq_ok h
  have := P.pure_eq_ok h2
  simp only [Prod.mk.injEq] at this
  obtain ⟨rfl, rfl⟩ := this
  have e := beEnc_beDec b
  rw [rdN_length h1] at e
  rw [e]; exact rdN_bytes h1

theorem beEnc_mod {k n m : Nat} (h : n % 256 ^ k = m % 256 ^ k) : beEnc k n = beEnc k m := by
  have h1 := beEnc_beDec (beEnc k n)
  have h2 := beEnc_beDec (beEnc k m)
  rw [beEnc_length, beDec_beEnc] at h1 h2
  rw [← h1, ← h2, h]

theorem readNumber_bytes {v : Nat} (hv : v = 1 ∨ v = 2 ∨ v = 5) {s s' : Bytes} {n : Nat}
    (h : readNumber v s = .ok (n, s')) : s = numBytes v n ++ s' := by
  unfold readNumber at h
  unfold numBytes
  split at h
  · rename_i hlt
    rw [if_neg (by omega)]
    obtain ⟨m, s1, h1, h2⟩ := P.bind_eq_ok h
    have := P.pure_eq_ok h2
    simp only [Prod.mk.injEq] at this
    obtain ⟨rfl, rfl⟩ := this
    rw [read32_bytes h1]
    congr 1
    have := read32_lt h1
    apply beEnc_mod
    unfold signExt32
    split <;> omega
  · rw [if_pos (by omega)]
    exact read64_bytes h

theorem readOffset_bytes {v : Nat} {s s' : Bytes} {n : Nat}
    (h : readOffset v s = .ok (n, s')) : s = offBytes v n ++ s' := by
  unfold readOffset at h
  unfold offBytes
  split at h
  · rw [if_pos (by assumption)]; exact read32_bytes h
  · rw [if_neg (by assumption)]
    split at h
    · exact read64_bytes h
    · cases h

theorem Good.prefix {α : Type} {p : P α} (hp : Good p) {s s' : Bytes} {a : α}
    (h : p s = .ok (a, s')) : ∃ pre, s = pre ++ s' := by
  obtain ⟨pre, h1, _⟩ := hp _ _ _ h
  exact ⟨pre, h1⟩

theorem getVar_bytes {ma ver : Nat} (hv : ver = 1 ∨ ver = 2 ∨ ver = 5) {dims : List Dim}
    {s s' : Bytes} {v : VarRec} {add : Nat} (h : getVar ma ver dims s = .ok ((v, add), s')) :
    ∃ e : VarEntry, e.var = v ∧ s = e.bytes ver ++ s' ∧
      add = if e.isRecord dims then e.vsize else 0 := by
  unfold getVar at h
  obtain ⟨name, s1, h1, h⟩ := P.bind_eq_ok h
  obtain ⟨nD, s2, h2, h⟩ := P.bind_eq_ok h
  obtain ⟨_, s3, h3, h⟩ := P.bind_eq_ok h
  obtain ⟨ids, s4, h4, h⟩ := P.bind_eq_ok h
  obtain ⟨attrs, s5, h5, h⟩ := P.bind_eq_ok h
  obtain ⟨vt, s6, h6, h⟩ := P.bind_eq_ok h
  obtain ⟨vs, s7, h7, h⟩ := P.bind_eq_ok h
  obtain ⟨⟨u, a⟩, s8, h8, h⟩ := P.bind_eq_ok h
  obtain ⟨off, s9, h9, h⟩ := P.bind_eq_ok h
  have := P.pure_eq_ok h
  simp only [Prod.mk.injEq] at this
  obtain ⟨⟨rfl, rfl⟩, rfl⟩ := this
  obtain ⟨p1, q1⟩ := (good_readName ma ver).prefix h1
  obtain ⟨p2, q2⟩ := (good_readNumber ver).prefix h2
  have q3 := (P.assert_eq_ok h3).2
  simp only at q3
  obtain ⟨p4, q4⟩ := (Good.repeat (good_readNumber ver) _).prefix h4
  obtain ⟨p5, q5⟩ := (good_getAttrList ma ver).prefix h5
  obtain ⟨p6, q6⟩ := good_read32.prefix h6
  have q7 := readNumber_bytes hv h7
  obtain ⟨hu, q8⟩ := P.lift_eq_ok h8
  have q9 := readOffset_bytes h9
  refine ⟨⟨p1 ++ p2 ++ p4 ++ p5 ++ p6, vs, _⟩, rfl, ?_, ?_⟩
  · unfold VarEntry.bytes
    rw [q1, q2, ← q3, q4, q5, q6, q7, ← q8, q9]
    simp only [List.append_assoc]
  · unfold usedSize at hu
    unfold VarEntry.isRecord
    simp only
    cases ids with
    | nil =>
      simp only [hasUnlimited, Res.bind_ok, Bool.false_eq_true, ↓reduceIte, Res.ok.injEq, Prod.mk.injEq] at hu
      simp [hu.2]
    | cons id ids =>
      simp only [hasUnlimited] at hu ⊢
      rcases Option.eq_none_or_eq_some (dims[id]?) with hd | ⟨d, hd⟩
      · rw [hd] at hu; cases hu
      · rw [hd] at hu
        simp only [Res.bind_ok] at hu
        simp only [hd, Option.any_some]
        cases hz : (d.length == 0) with
        | false =>
          rw [hz] at hu
          simp only [Bool.false_eq_true, ↓reduceIte, Res.ok.injEq, Prod.mk.injEq] at hu
          simp [hu.2]
        | true =>
          rw [hz] at hu
          simp only [↓reduceIte] at hu
          rw [Res.bind_eq_ok] at hu
          obtain ⟨n, _, hu⟩ := hu
          split at hu
          · cases hu
          · simp only [Res.ok.injEq, Prod.mk.injEq] at hu
            simp [hu.2]

/-- The sum of the stored sizes. -/
def vsizes (es : List VarEntry) : Nat := (es.map (·.vsize)).sum

theorem readVars_bytes {ma ver : Nat} (hv : ver = 1 ∨ ver = 2 ∨ ver = 5) {dims : List Dim} {n : Nat}
    {acc acc' : VarsAcc} {s s' : Bytes}
    (h : readVars ma ver dims n acc s = .ok (acc', s')) (hh : acc.vars.hidden = [])
    (hr : acc.recSize < 2 ^ 64) :
    ∃ es : List VarEntry, s = es.flatMap (·.bytes ver) ++ s' ∧
      acc'.vars.visible = acc.vars.visible ++ es.map (·.var.name) ∧
      (∀ e ∈ es, acc'.vars.get e.var.name = some e.var) ∧
      (∀ k v, acc.vars.get k = some v → acc'.vars.get k = some v) ∧
      acc'.recSize = (acc.recSize + vsizes (es.filter (·.isRecord dims))) % 2 ^ 64 ∧
      acc'.recVars = acc.recVars ++ (es.filter (·.isRecord dims)).map (·.var) := by
  induction n generalizing acc s with
  | zero =>
    have := P.pure_eq_ok h
    simp only [Prod.mk.injEq] at this
    obtain ⟨rfl, rfl⟩ := this
    exact ⟨[], by simp, by simp, by simp, by simp, by simp [vsizes]; omega, by simp⟩
  | succ n ih =>
    unfold readVars at h
    obtain ⟨⟨v, add⟩, s1, h1, h⟩ := P.bind_eq_ok h
    simp only at h
    split at h
    · cases h
    · rename_i hnew
      obtain ⟨u, s2, h2, h'⟩ := P.bind_eq_ok h
      obtain ⟨e, rfl, he, ha⟩ := getVar_bytes hv h1
      obtain ⟨hu, rfl⟩ := P.lift_eq_ok h2
      have hu' : u = e.isRecord dims := by
        unfold VarEntry.isRecord
        cases hi : e.var.dimids with
        | nil => rw [hi] at hu; simpa [hasUnlimited] using hu.symm
        | cons id ids =>
          rw [hi] at hu
          simp only [hasUnlimited] at hu
          rcases Option.eq_none_or_eq_some (dims[id]?) with hd | ⟨d, hd⟩
          · rw [hd] at hu; cases hu
          · rw [hd] at hu; simp only [hd, Option.any_some]; simpa using hu.symm
      have hnone : acc.vars.get e.var.name = none := by simpa using hnew
      have hget : ∀ k, (acc.vars.add e.var.name e.var).get k = if k = e.var.name then some e.var
          else acc.vars.get k := by
        intro k
        unfold OMap.add OMap.get
        split <;> exact GoMap.get_set _ _ _ _
      have hvis : (acc.vars.add e.var.name e.var).visible = acc.vars.visible ++ [e.var.name] := by
        unfold OMap.add; rw [hh]; simp
      have hhid : (acc.vars.add e.var.name e.var).hidden = [] := by
        unfold OMap.add; rw [hh]; simp
      obtain ⟨es, a1, a2, a3, a4, a5, a6⟩ := ih h' hhid (Nat.mod_lt _ (by decide))
      refine ⟨e :: es, ?_, ?_, ?_, ?_, ?_, ?_⟩
      · rw [he, a1]; simp
      · rw [a2, hvis]; simp
      · intro x hx
        rcases List.mem_cons.mp hx with rfl | hx
        · exact a4 _ _ (by rw [hget]; simp)
        · exact a3 x hx
      · intro k w hk
        refine a4 k w ?_
        rw [hget]
        split
        · rename_i hkk
          rw [hkk, hnone] at hk; cases hk
        · exact hk
      · rw [a5]
        simp only [ha, List.filter_cons]
        cases e.isRecord dims <;> simp [vsizes, Nat.add_assoc]
      · rw [a6, hu']
        simp only [List.filter_cons]
        cases e.isRecord dims <;> simp

end Verif.Cdf
