import Verif.Lemmas.H5ApiRead
/-!
Finding groups in a file that was written, and listing what they hold.
-/
namespace Verif.H5

/-- Names that can be told apart. -/
inductive Tidy : HGroup → Prop
  | mk (i : GInfo) (subs : List HGroup) : (i.vars.map (·.name) ++ subs.map (·.name)).Nodup →
      (∀ v ∈ i.vars, v.name ≠ []) → (∀ s ∈ subs, s.name ≠ [] ∧ slash ∉ s.name) →
      (∀ s ∈ subs, Tidy s) → Tidy (.mk i subs)

theorem Tidy.inv {g : HGroup} (h : Tidy g) : (g.info.vars.map (·.name) ++ g.subs.map (·.name)).Nodup ∧
    (∀ v ∈ g.info.vars, v.name ≠ []) ∧ (∀ s ∈ g.subs, s.name ≠ [] ∧ slash ∉ s.name) ∧
    ∀ s ∈ g.subs, Tidy s := by
  cases h with
  | mk i subs h1 h2 h3 h4 => exact ⟨h1, h2, h3, h4⟩

/-! ### The members of a group -/

/-- The members of an object are its variables and its subgroups. -/
structure Members (heap : HeapFn) (file : Bytes) (env : Env) (g : HGroup) (o : Obj) (vs ss : List Obj) :
    Prop where
  kids : o.kids = vs ++ ss
  info : GroupInfoOK heap g.info.attrs o.info
  vars : All2 (VarAt heap file env) vs g.info.vars
  subs : All2 (fun s h => s.info.name = h.name ∧ GroupObj heap file env h s) ss g.subs

theorem Members.names {heap : HeapFn} {file : Bytes} {env : Env} {g : HGroup} {o : Obj} {vs ss : List Obj}
    (h : Members heap file env g o vs ss) :
    o.kids.map (·.info.name) = g.info.vars.map (·.name) ++ g.subs.map (·.name) := by
  rw [h.kids, List.map_append, h.vars.map_eq (g := (·.name)) (fun _ _ h => h.obj.name),
    h.subs.map_eq (g := (·.name)) (fun _ _ h => h.1)]

theorem find_nodup {α : Type} (f : α → Bytes) (l : List α) (h : (l.map f).Nodup) {x : α} (hx : x ∈ l) :
    l.find? (fun y => f y == f x) = some x := by
  induction l with
  | nil => simp at hx
  | cons u l ih =>
    rw [List.map_cons, List.nodup_cons] at h
    rw [List.mem_cons] at hx
    rw [List.find?_cons]
    rcases hx with rfl | hx
    · simp
    · have : f u ≠ f x := fun e => h.1 (e ▸ List.mem_map_of_mem hx)
      have hb : (f u == f x) = false := by simpa using this
      rw [hb]
      exact ih h.2 hx

theorem find_not_mem {α : Type} (f : α → Bytes) (l : List α) (n : Bytes) (h : n ∉ l.map f) :
    l.find? (fun y => f y == n) = none := by
  rw [List.find?_eq_none]
  intro x hx he
  exact h (List.mem_map.2 ⟨x, hx, by simpa using he⟩)

theorem Members.child {heap : HeapFn} {file : Bytes} {env : Env} {g : HGroup} {o : Obj} {vs ss : List Obj}
    (h : Members heap file env g o vs ss) (ht : Tidy g) :
    (∀ v ∈ g.info.vars, ∃ k ∈ vs, VarAt heap file env k v ∧ o.child v.name = some k) ∧
    (∀ s ∈ g.subs, ∃ k ∈ ss, GroupObj heap file env s k ∧ k.info.name = s.name ∧ o.child s.name = some k) ∧
    (∀ n, n ∉ g.info.vars.map (·.name) ++ g.subs.map (·.name) → o.child n = none) := by
  have hnd : (o.kids.map (·.info.name)).Nodup := by
    rw [h.names]
    exact ht.inv.1
  refine ⟨?_, ?_, ?_⟩
  · intro v hv
    obtain ⟨k, hk, hva⟩ := h.vars.right hv
    refine ⟨k, hk, hva, ?_⟩
    have := find_nodup (fun (k : Obj) => k.info.name) o.kids hnd (x := k) (by rw [h.kids]; simp [hk])
    rw [Obj.child, ← hva.obj.name]
    exact this
  · intro s hs
    obtain ⟨k, hk, hn, hg⟩ := h.subs.right hs
    refine ⟨k, hk, hg, hn, ?_⟩
    have := find_nodup (fun (k : Obj) => k.info.name) o.kids hnd (x := k) (by rw [h.kids]; simp [hk])
    rw [Obj.child, ← hn]
    exact this
  · intro n hn
    rw [← h.names] at hn
    exact find_not_mem (fun (k : Obj) => k.info.name) o.kids n hn

theorem GroupObj.members {heap : HeapFn} {file : Bytes} {env : Env} {g : HGroup} {o : Obj}
    (h : GroupObj heap file env g o) : ∃ vs ss, Members heap file env g o vs ss := by
  obtain ⟨vs, ss, h1, h2, h3, h4⟩ := h.inv
  exact ⟨vs, ss, h1, h2, h3, h4⟩

/-! ### Paths -/

theorem at_cons (g : HGroup) (n : Bytes) (p : List Bytes) :
    g.at? (n :: p) = (g.subs.find? (·.name == n)).bind (·.at? p) := by
  cases g with
  | mk i subs =>
    simp only [HGroup.at?, HGroup.subs]
    cases subs.find? (·.name == n) <;> rfl

/-- The groups in the file are those that were written. -/
theorem follow_at {heap : HeapFn} {file : Bytes} {env : Env} (p : List Bytes) {g : HGroup} {o : Obj}
    (h : GroupObj heap file env g o) (ht : Tidy g) :
    match g.at? p with
    | none => follow o p = none
    | some g' => ∃ o', follow o p = some o' ∧ GroupObj heap file env g' o' ∧ Tidy g' := by
  induction p generalizing g o with
  | nil =>
    obtain ⟨vs, ss, hm⟩ := h.members
    simp only [HGroup.at?, follow, hm.info.grp, if_true]
    exact ⟨o, rfl, h, ht⟩
  | cons n p ih =>
    obtain ⟨vs, ss, hm⟩ := h.members
    obtain ⟨c1, c2, c3⟩ := hm.child ht
    have hf : follow o (n :: p) = (o.child n).bind (follow · p) := by
      rw [follow, hm.info.grp, if_pos rfl, Obj.child]
      cases o.kids.find? (fun k => k.info.name == n) <;> rfl
    rw [hf, at_cons]
    cases hs : g.subs.find? (·.name == n) with
    | some s =>
      have hmem := List.mem_of_find?_eq_some hs
      have hname : s.name = n := by simpa using List.find?_some hs
      obtain ⟨k, hk, hg, hkn, hc⟩ := c2 s hmem
      rw [hname] at hc
      rw [hc]
      exact ih hg (ht.inv.2.2.2 s hmem)
    | none =>
      simp only [Option.bind_none]
      have hns : n ∉ g.subs.map (·.name) := by
        intro hm
        obtain ⟨s, hsm, he⟩ := List.mem_map.1 hm
        have := List.find?_eq_none.1 hs s hsm
        simp [he] at this
      by_cases hv : n ∈ g.info.vars.map (·.name)
      · obtain ⟨v, hvm, rfl⟩ := List.mem_map.1 hv
        obtain ⟨k, hk, hva, hc⟩ := c1 v hvm
        rw [hc, Option.bind_some]
        cases p <;> simp [follow, hva.obj.grp]
      · rw [c3 n (by rw [List.mem_append, not_or]; exact ⟨hv, hns⟩)]
        rfl

/-! ### Paths as strings -/

theorem dirs_cons (n : Bytes) (p : List Bytes) : dirs (n :: p) = n ++ slash :: dirs p := by
  simp [dirs]

theorem dirs_append (p q : List Bytes) : dirs (p ++ q) = dirs p ++ dirs q := by
  simp [dirs]

theorem name_prefix {a b : Bytes} {s t : Bytes} (ha : slash ∉ a) (hb : slash ∉ b)
    (h : a ++ slash :: s = b ++ slash :: t) : a = b ∧ s = t := by
  induction a generalizing b with
  | nil =>
    cases b with
    | nil => simpa using h
    | cons c b =>
      simp only [List.nil_append, List.cons_append, List.cons.injEq] at h
      simp only [List.mem_cons, not_or] at hb
      exact absurd h.1 hb.1
  | cons c a ih =>
    cases b with
    | nil =>
      simp only [List.nil_append, List.cons_append, List.cons.injEq] at h
      simp only [List.mem_cons, not_or] at ha
      exact absurd h.1.symm ha.1
    | cons d b =>
      simp only [List.cons_append, List.cons.injEq] at h
      simp only [List.mem_cons, not_or] at ha hb
      obtain ⟨h1, h2⟩ := ih ha.2 hb.2 h.2
      exact ⟨by rw [h.1, h1], h2⟩

theorem dirs_prefix {p q : List Bytes} (hp : ∀ n ∈ p, slash ∉ n) (hq : ∀ n ∈ q, slash ∉ n)
    (h : dirs p <+: dirs q) : p <+: q := by
  induction p generalizing q with
  | nil => exact List.nil_prefix
  | cons a p ih =>
    cases q with
    | nil =>
      have := h.length_le
      rw [dirs_cons] at this
      simp [dirs] at this
    | cons b q =>
      obtain ⟨t, ht⟩ := h
      rw [dirs_cons, dirs_cons, List.append_assoc, List.cons_append] at ht
      obtain ⟨h1, h2⟩ := name_prefix (hp a (by simp)) (hq b (by simp)) ht
      subst h1
      exact List.prefix_cons_inj a |>.2
        (ih (fun n hn => hp n (by simp [hn])) (fun n hn => hq n (by simp [hn])) ⟨t, h2⟩)

theorem dirs_inj {p q : List Bytes} (hp : ∀ n ∈ p, slash ∉ n) (hq : ∀ n ∈ q, slash ∉ n)
    (h : dirs p = dirs q) : p = q := by
  have h1 := dirs_prefix hp hq (h ▸ List.prefix_refl _)
  have h2 := dirs_prefix hq hp (h ▸ List.prefix_refl _)
  exact h1.eq_of_length (Nat.le_antisymm h1.length_le h2.length_le)

/-! ### ListVariables -/

theorem varDescendL_append (G : Group) (xs ys : List Obj) (group : Bytes) :
    varDescendL G (xs ++ ys) group = varDescendL G xs group ++ varDescendL G ys group := by
  induction xs with
  | nil => rfl
  | cons x xs ih =>
    cases x
    rw [List.cons_append, varDescendL, varDescendL, ih]
    simp only [List.append_assoc]

theorem varDescend_kids (G : Group) (o : Obj) (group : Bytes) :
    varDescend G o group = varDescendL G o.kids group := by
  cases o
  rfl

/-- In another group, members without members of their own are not listed. -/
theorem varDescendL_leaves (G : Group) (xs : List Obj) (group : Bytes) (hg : group ≠ G.name)
    (h : ∀ x ∈ xs, x.kids = []) : varDescendL G xs group = [] := by
  induction xs with
  | nil => rfl
  | cons x xs ih =>
    have hx := h x (by simp)
    cases x with
    | mk i kids =>
    simp only [Obj.kids] at hx
    subst hx
    rw [varDescendL, if_neg (fun e => hg e.1), ih (fun y hy => h y (by simp [hy]))]
    rfl

theorem varDescendL_other (G : Group) (xs : List Obj) (group : Bytes) (hg : group ≠ G.name)
    (h : ∀ x ∈ xs, varDescend G x (group ++ x.info.name ++ [slash]) = []) :
    varDescendL G xs group = [] := by
  induction xs with
  | nil => rfl
  | cons x xs ih =>
    have hx := h x (by simp)
    cases x with
    | mk i kids =>
    rw [varDescendL, if_neg (fun e => hg e.1), ih (fun y hy => h y (by simp [hy])), List.append_nil]
    exact hx

/-- Nothing is listed in groups that are not on the way. -/
theorem varDescend_off {heap : HeapFn} {file : Bytes} {env : Env} (G : Group) (names : List Bytes)
    (hG : G.name = slash :: dirs names) (hn : ∀ n ∈ names, slash ∉ n) {g : HGroup} {o : Obj}
    (h : GroupObj heap file env g o) : Tidy g → ∀ p : List Bytes, (∀ n ∈ p, slash ∉ n) → ¬ p <+: names →
      varDescend G o (slash :: dirs p) = [] := by
  induction h with
  | mk i subs oi vs ss h1 h2 h3 h4 h5 ih =>
    intro ht p hp hnp
    have hg : slash :: dirs p ≠ G.name := by
      rw [hG]
      intro e
      simp only [List.cons.injEq, true_and] at e
      exact hnp (dirs_inj hp hn e ▸ List.prefix_refl _)
    rw [varDescend_kids, Obj.kids, varDescendL_append, varDescendL_leaves G vs _ hg (fun x hx => by
      obtain ⟨v, _, hv⟩ := h2.left hx
      exact hv.obj.kids), List.nil_append]
    refine varDescendL_other G ss _ hg ?_
    intro k hk
    obtain ⟨n, hlt, he⟩ := List.getElem_of_mem hk
    have hz : (k, subs[n]'(by omega)) ∈ ss.zip subs := by
      rw [List.mem_iff_getElem]
      exact ⟨n, by simp; omega, by simp [he]⟩
    have hname := h4 _ hz
    simp only at hname
    have hs := ht.inv.2.2.1 subs[n] (List.getElem_mem _)
    have := ih _ hz (ht.inv.2.2.2 _ (List.getElem_mem _)) (p ++ [k.info.name]) (by
      intro m hm
      rw [List.mem_append, List.mem_singleton] at hm
      rcases hm with hm | rfl
      · exact hp m hm
      · rw [hname]
        exact hs.2) (fun hpre => hnp ((List.prefix_append _ _).trans hpre))
    simpa [dirs_append, dirs] using this

theorem varDescendL_self (G : Group) (xs : List Obj) (h : ∀ x ∈ xs, x.info.name ≠ []) :
    varDescendL G xs G.name = (xs.map (·.info.name)).filter fun n => (G.findVariable n).isSome := by
  induction xs with
  | nil => rfl
  | cons x xs ih =>
    have hx := h x (by simp)
    cases x with
    | mk i kids =>
    rw [varDescendL, if_pos ⟨rfl, hx⟩, ih (fun y hy => h y (by simp [hy])), List.map_cons, List.filter_cons]
    have hi : (Obj.mk i kids).info.name = i.name := rfl
    rw [hi]
    by_cases hv : (G.findVariable i.name).isSome = true
    · rw [if_pos hv, if_pos hv]
      rfl
    · rw [if_neg hv, if_neg hv]
      rfl

theorem varDescendL_pick (G : Group) (ss : List Obj) (group : Bytes) (hg : group ≠ G.name)
    (k : Obj) (hk : k ∈ ss) (hnd : (ss.map (·.info.name)).Nodup)
    (h : ∀ x ∈ ss, x.info.name ≠ k.info.name → varDescend G x (group ++ x.info.name ++ [slash]) = []) :
    varDescendL G ss group = varDescend G k (group ++ k.info.name ++ [slash]) := by
  induction ss with
  | nil => simp at hk
  | cons x ss ih =>
    rw [List.map_cons, List.nodup_cons] at hnd
    have hstep : varDescendL G (x :: ss) group =
        varDescend G x (group ++ x.info.name ++ [slash]) ++ varDescendL G ss group := by
      cases x with
      | mk i kids =>
        rw [varDescendL, if_neg (fun e => hg e.1)]
        rfl
    rw [hstep]
    rcases List.mem_cons.1 hk with rfl | hk
    · rw [varDescendL_other G ss group hg, List.append_nil]
      intro y hy
      refine h y (by simp [hy]) (fun e => hnd.1 ?_)
      rw [← e]
      exact List.mem_map.2 ⟨y, hy, rfl⟩
    · rw [h x (by simp) (fun e => hnd.1 (e ▸ List.mem_map.2 ⟨k, hk, rfl⟩)), List.nil_append]
      exact ih hk hnd.2 (fun y hy => h y (by simp [hy]))

/-- The variables that are listed are those of the group. -/
theorem varDescend_on {heap : HeapFn} {file : Bytes} {env : Env} (G : Group) (q : List Bytes) :
    ∀ (p : List Bytes) (g : HGroup) (o o' : Obj), G.name = slash :: dirs (p ++ q) →
      (∀ n ∈ p ++ q, slash ∉ n) → GroupObj heap file env g o → Tidy g → follow o q = some o' →
      (∀ x ∈ o'.kids, x.info.name ≠ []) →
      varDescend G o (slash :: dirs p) =
        (o'.kids.map (·.info.name)).filter fun n => (G.findVariable n).isSome := by
  induction q with
  | nil =>
    intro p g o o' hG hn hgo ht hf hne
    obtain ⟨vs, ss, hm⟩ := hgo.members
    simp only [follow, hm.info.grp, if_true, Option.some.injEq] at hf
    subst hf
    rw [List.append_nil] at hG
    rw [← hG, varDescend_kids]
    exact varDescendL_self G _ hne
  | cons n q ih =>
    intro p g o o' hG hn hgo ht hf hne
    obtain ⟨vs, ss, hm⟩ := hgo.members
    obtain ⟨c1, c2, c3⟩ := hm.child ht
    have hps : ∀ m ∈ p, slash ∉ m := fun m hm => hn m (by simp [hm])
    have hg : slash :: dirs p ≠ G.name := by
      rw [hG]
      intro e
      simp only [List.cons.injEq, true_and] at e
      have := congrArg List.length (dirs_inj hps hn e)
      simp at this
    rw [follow, hm.info.grp, if_pos rfl] at hf
    have hfind : ∃ k ∈ ss, k.info.name = n ∧ follow k q = some o' := by
      split at hf
      · rename_i c hc
        have hcm := List.mem_of_find?_eq_some hc
        have hcn : c.info.name = n := by simpa using List.find?_some hc
        rw [hm.kids, List.mem_append] at hcm
        rcases hcm with hcm | hcm
        · obtain ⟨v, _, hv⟩ := hm.vars.left hcm
          cases q <;> simp [follow, hv.obj.grp] at hf
        · exact ⟨c, hcm, hcn, hf⟩
      · cases hf
    obtain ⟨k, hk, hkn, hfk⟩ := hfind
    have hsn : ss.map (·.info.name) = g.subs.map (·.name) := hm.subs.map_eq (fun _ _ h => h.1)
    rw [varDescend_kids, hm.kids, varDescendL_append, varDescendL_leaves G vs _ hg (fun x hx => by
      obtain ⟨v, _, hv⟩ := hm.vars.left hx
      exact hv.obj.kids), List.nil_append]
    rw [varDescendL_pick G ss _ hg k hk (hsn ▸ (List.nodup_append.1 ht.inv.1).2.1)]
    · obtain ⟨s, hs, hsk, hgk⟩ := hm.subs.left hk
      have := ih (p ++ [k.info.name]) s k o' (by rw [hG, hkn]; simp) (by
        rw [hkn]
        simpa using hn) hgk (ht.inv.2.2.2 s hs) hfk hne
      rw [← this]
      simp [dirs_append, dirs]
    · intro x hx hxk
      obtain ⟨s, hs, hsx, hgx⟩ := hm.subs.left hx
      have hsl := ht.inv.2.2.1 s hs
      have := varDescend_off G (p ++ n :: q) hG hn hgx (ht.inv.2.2.2 s hs) (p ++ [x.info.name]) (by
        intro m hm
        rw [List.mem_append, List.mem_singleton] at hm
        rcases hm with hm | rfl
        · exact hps m hm
        · rw [hsx]
          exact hsl.2) (by
        rintro ⟨t, ht⟩
        rw [List.append_assoc] at ht
        have := List.append_cancel_left ht
        simp only [List.singleton_append, List.cons.injEq] at this
        exact hxk (this.1.trans hkn.symm))
      simpa [dirs_append, dirs] using this

/-! ### ListSubgroups -/

theorem subDescendL_none (groupName : Bytes) (xs : List Obj) (group : Bytes)
    (h : ∀ x ∈ xs, subDescend groupName x (group ++ x.info.name ++ [slash]) = .ok []) :
    subDescendL groupName xs group = .ok [] := by
  induction xs with
  | nil => rfl
  | cons x xs ih =>
    have hx := h x (by simp)
    cases x with
    | mk i kids =>
    simp only [Obj.info] at hx
    rw [subDescendL, hx, ih (fun y hy => h y (by simp [hy]))]
    rfl

theorem subDescendL_append (groupName : Bytes) (xs ys : List Obj) (group : Bytes)
    (h : subDescendL groupName xs group = .ok []) :
    subDescendL groupName (xs ++ ys) group = subDescendL groupName ys group := by
  induction xs with
  | nil => rfl
  | cons x xs ih =>
    cases x with
    | mk i kids =>
    rw [List.cons_append, subDescendL]
    rw [subDescendL] at h
    split at h
    · cases h
    · cases h
    · split at h
      · cases h
      · cases h
      · rename_i ns hns ms hms
        simp only [Res.ok.injEq, List.append_eq_nil_iff] at h
        rw [h.2] at hms
        rw [ih hms, h.1]
        cases subDescendL groupName ys group <;> rfl

theorem subDescend_var (groupName group : Bytes) (o : Obj) (h : o.info.isGroup = false) :
    subDescend groupName o group = .ok [] := by
  obtain ⟨i, kids⟩ := o
  have h' : i.isGroup = false := h
  rw [subDescend, if_pos h']

theorem prefix_of_dirs {names p : List Bytes} (hn : ∀ n ∈ names, slash ∉ n) (hp : ∀ n ∈ p, slash ∉ n)
    (h : ¬ names <+: p) : (slash :: dirs names).isPrefixOf (slash :: dirs p) = false := by
  rw [← Bool.not_eq_true, List.isPrefixOf_iff_prefix]
  intro hpre
  rw [List.cons_prefix_cons] at hpre
  exact h (dirs_prefix hn hp hpre.2)

theorem subDescend_kids (groupName : Bytes) (o : Obj) (group : Bytes) (hg : o.info.isGroup = true)
    (h : ¬ (group ≠ groupName ∧ groupName.isPrefixOf group = true)) :
    subDescend groupName o group = subDescendL groupName o.kids group := by
  obtain ⟨i, kids⟩ := o
  have hg' : i.isGroup = true := hg
  rw [subDescend, if_neg (by simp [hg']), if_neg h]
  rfl

theorem subDescend_off {heap : HeapFn} {file : Bytes} {env : Env} (names : List Bytes)
    (hn : ∀ n ∈ names, slash ∉ n) {g : HGroup} {o : Obj}
    (h : GroupObj heap file env g o) : Tidy g → ∀ p : List Bytes, (∀ n ∈ p, slash ∉ n) → ¬ p <+: names →
      ¬ names <+: p → subDescend (slash :: dirs names) o (slash :: dirs p) = .ok [] := by
  induction h with
  | mk i subs oi vs ss h1 h2 h3 h4 h5 ih =>
    intro ht p hp hnp hpn
    rw [subDescend_kids _ (.mk oi (vs ++ ss)) _ h1.grp (by rw [prefix_of_dirs hn hp hpn]; simp), Obj.kids]
    rw [subDescendL_append _ vs ss _ (subDescendL_none _ _ _ (fun x hx => by
      obtain ⟨v, _, hv⟩ := h2.left hx
      exact subDescend_var _ _ _ hv.obj.grp))]
    refine subDescendL_none _ _ _ ?_
    intro k hk
    obtain ⟨n, hlt, he⟩ := List.getElem_of_mem hk
    have hz : (k, subs[n]'(by omega)) ∈ ss.zip subs := by
      rw [List.mem_iff_getElem]
      exact ⟨n, by simp; omega, by simp [he]⟩
    have hname := h4 _ hz
    simp only at hname
    have hs := ht.inv.2.2.1 subs[n] (List.getElem_mem _)
    have := ih _ hz (ht.inv.2.2.2 _ (List.getElem_mem _)) (p ++ [k.info.name]) (by
      intro m hm
      rw [List.mem_append, List.mem_singleton] at hm
      rcases hm with hm | rfl
      · exact hp m hm
      · rw [hname]
        exact hs.2) (fun hpre => hnp ((List.prefix_append _ _).trans hpre)) (by
      intro hpre
      rcases List.prefix_concat_iff.1 hpre with h | h
      · rw [h] at hnp
        exact hnp (List.prefix_append _ _)
      · exact hpn h)
    simpa [dirs_append, dirs] using this

theorem subDescend_child (names : List Bytes) (hn : ∀ n ∈ names, slash ∉ n) (o : Obj) (hg : o.info.isGroup = true)
    (hs : slash ∉ o.info.name) :
    subDescend (slash :: dirs names) o (slash :: dirs names ++ o.info.name ++ [slash]) = .ok [o.info.name] := by
  cases o with
  | mk i kids =>
  simp only [Obj.info] at hg hs ⊢
  have hne : slash :: dirs names ++ i.name ++ [slash] ≠ slash :: dirs names := by
    intro e
    have := congrArg List.length e
    simp at this
  have hpre : (slash :: dirs names).isPrefixOf (slash :: dirs names ++ i.name ++ [slash]) = true := by
    rw [List.isPrefixOf_iff_prefix, List.append_assoc]
    exact List.prefix_append _ _
  have htail : ((slash :: dirs names ++ i.name ++ [slash]).drop (slash :: dirs names).length).dropLast = i.name := by
    rw [List.append_assoc, List.drop_left, List.dropLast_concat]
  rw [subDescend, if_neg (by simp [hg]), if_pos ⟨hne, hpre⟩]
  simp only [htail]
  rw [if_neg (by simpa using hs)]

theorem subDescendL_self (names : List Bytes) (hn : ∀ n ∈ names, slash ∉ n) (xs : List Obj)
    (h : ∀ x ∈ xs, x.info.isGroup = true ∧ slash ∉ x.info.name) :
    subDescendL (slash :: dirs names) xs (slash :: dirs names) = .ok (xs.map (·.info.name)) := by
  induction xs with
  | nil => rfl
  | cons x xs ih =>
    obtain ⟨h1, h2⟩ := h x (by simp)
    have hc := subDescend_child names hn x h1 h2
    cases x with
    | mk i kids =>
    simp only [Obj.info] at hc
    rw [subDescendL, hc, ih (fun y hy => h y (by simp [hy]))]
    rfl

theorem subDescendL_pick (groupName : Bytes) (ss : List Obj) (group : Bytes)
    (k : Obj) (hk : k ∈ ss) (hnd : (ss.map (·.info.name)).Nodup)
    (h : ∀ x ∈ ss, x.info.name ≠ k.info.name → subDescend groupName x (group ++ x.info.name ++ [slash]) = .ok []) :
    subDescendL groupName ss group = subDescend groupName k (group ++ k.info.name ++ [slash]) := by
  induction ss with
  | nil => simp at hk
  | cons x ss ih =>
    rw [List.map_cons, List.nodup_cons] at hnd
    rcases List.mem_cons.1 hk with rfl | hk
    · have hrest := subDescendL_none groupName ss group (fun y hy => h y (by simp [hy]) (fun e => hnd.1 (by
        rw [← e]
        exact List.mem_map.2 ⟨y, hy, rfl⟩)))
      cases k with
      | mk i kids =>
      rw [subDescendL, hrest]
      simp only [Obj.info]
      cases subDescend groupName (.mk i kids) (group ++ i.name ++ [slash]) with
      | ok ns => simp
      | err e => rfl
      | panic => rfl
    · have hx := h x (by simp) (fun e => hnd.1 (e ▸ List.mem_map.2 ⟨k, hk, rfl⟩))
      rw [← ih hk hnd.2 (fun y hy => h y (by simp [hy]))]
      cases x with
      | mk i kids =>
      simp only [Obj.info] at hx
      rw [subDescendL, hx]
      simp only [List.nil_append]
      cases subDescendL groupName ss group <;> rfl

/-- The subgroups that are listed are those of the group. -/
theorem subDescend_on {heap : HeapFn} {file : Bytes} {env : Env} (q : List Bytes) :
    ∀ (p : List Bytes) (g g' : HGroup) (o o' : Obj),
      (∀ n ∈ p ++ q, slash ∉ n) → GroupObj heap file env g o → Tidy g → follow o q = some o' →
      GroupObj heap file env g' o' → Tidy g' →
      subDescend (slash :: dirs (p ++ q)) o (slash :: dirs p) = .ok (g'.subs.map (·.name)) := by
  induction q with
  | nil =>
    intro p g g' o o' hn hgo ht hf hgo' ht'
    obtain ⟨vs, ss, hm⟩ := hgo.members
    simp only [follow, hm.info.grp, if_true, Option.some.injEq] at hf
    subst hf
    obtain ⟨vs, ss, hm⟩ := hgo'.members
    rw [List.append_nil] at hn ⊢
    rw [subDescend_kids _ _ _ hm.info.grp (by simp), hm.kids,
      subDescendL_append _ vs ss _ (subDescendL_none _ _ _ (fun x hx => by
        obtain ⟨v, _, hv⟩ := hm.vars.left hx
        exact subDescend_var _ _ _ hv.obj.grp)),
      subDescendL_self p hn ss (fun x hx => by
        obtain ⟨s, hs, hsx, hgx⟩ := hm.subs.left hx
        obtain ⟨_, _, hmx⟩ := hgx.members
        exact ⟨hmx.info.grp, hsx ▸ (ht'.inv.2.2.1 s hs).2⟩),
      hm.subs.map_eq (g := (·.name)) (fun _ _ h => h.1)]
  | cons n q ih =>
    intro p g g' o o' hn hgo ht hf hgo' ht'
    obtain ⟨vs, ss, hm⟩ := hgo.members
    have hps : ∀ m ∈ p, slash ∉ m := fun m hm => hn m (by simp [hm])
    rw [follow, hm.info.grp, if_pos rfl] at hf
    have hfind : ∃ k ∈ ss, k.info.name = n ∧ follow k q = some o' := by
      split at hf
      · rename_i c hc
        have hcm := List.mem_of_find?_eq_some hc
        have hcn : c.info.name = n := by simpa using List.find?_some hc
        rw [hm.kids, List.mem_append] at hcm
        rcases hcm with hcm | hcm
        · obtain ⟨v, _, hv⟩ := hm.vars.left hcm
          cases q <;> simp [follow, hv.obj.grp] at hf
        · exact ⟨c, hcm, hcn, hf⟩
      · cases hf
    obtain ⟨k, hk, hkn, hfk⟩ := hfind
    have hsn : ss.map (·.info.name) = g.subs.map (·.name) := hm.subs.map_eq (fun _ _ h => h.1)
    have hnp : ¬ p ++ n :: q <+: p := by
      intro h
      have := h.length_le
      simp at this
      omega
    rw [subDescend_kids _ _ _ hm.info.grp (by rw [prefix_of_dirs hn hps hnp]; simp), hm.kids,
      subDescendL_append _ vs ss _ (subDescendL_none _ _ _ (fun x hx => by
        obtain ⟨v, _, hv⟩ := hm.vars.left hx
        exact subDescend_var _ _ _ hv.obj.grp)),
      subDescendL_pick _ ss _ k hk (hsn ▸ (List.nodup_append.1 ht.inv.1).2.1)]
    · obtain ⟨s, hs, hsk, hgk⟩ := hm.subs.left hk
      have := ih (p ++ [k.info.name]) s g' k o' (by
        rw [hkn]
        simpa using hn) hgk (ht.inv.2.2.2 s hs) hfk hgo' ht'
      rw [← this]
      simp [dirs_append, dirs, hkn]
    · intro x hx hxk
      obtain ⟨s, hs, hsx, hgx⟩ := hm.subs.left hx
      have hsl := ht.inv.2.2.1 s hs
      have hpx : ∀ m ∈ p ++ [x.info.name], slash ∉ m := by
        intro m hm
        rw [List.mem_append, List.mem_singleton] at hm
        rcases hm with hm | rfl
        · exact hps m hm
        · rw [hsx]
          exact hsl.2
      have hne : ∀ a b, p ++ [x.info.name] ++ a = p ++ n :: b → False := by
        intro a b ht
        rw [List.append_assoc] at ht
        have := List.append_cancel_left ht
        simp only [List.singleton_append, List.cons.injEq] at this
        exact hxk (this.1.trans hkn.symm)
      have := subDescend_off (p ++ n :: q) hn hgx (ht.inv.2.2.2 s hs) (p ++ [x.info.name]) hpx
        (by rintro ⟨t, ht⟩; exact hne t q ht)
        (by
          rintro ⟨t, ht⟩
          rw [List.append_assoc] at ht
          exact hne [] (q ++ t) (by simpa using ht.symm))
      simpa [dirs_append, dirs] using this

end Verif.H5
