import Verif.Editor.ShelfSpec
import Verif.Editor.TemplateEdit
/-
C130: the list of templates in the diagram editor.
-/
namespace Verif.Editor
variable {T D : Type}

/-! ### Objects -/

def look (l : List (Name × T)) (n : Name) : Option T := (l.find? fun p => p.1 == n).map (·.2)

theorem look_nil (n : Name) : look ([] : List (Name × T)) n = none := rfl

theorem look_cons (p : Name × T) (l : List (Name × T)) (n : Name) :
    look (p :: l) n = if p.1 = n then some p.2 else look l n := by
  unfold look
  rw [List.find?_cons]
  by_cases h : p.1 = n
  · simp [h]
  · have : (p.1 == n) = false := by simpa using h
    simp [this, h]

theorem look_none {l : List (Name × T)} {n : Name} : look l n = none ↔ n ∉ l.map (·.1) := by
  induction l with
  | nil => simp [look_nil]
  | cons p l ih =>
    rw [look_cons, List.map_cons, List.mem_cons]
    by_cases h : p.1 = n
    · simp [h]
    · rw [if_neg h, ih]
      constructor
      · rintro hn (rfl | hm)
        · exact h rfl
        · exact hn hm
      · exact fun hn hm => hn (Or.inr hm)

theorem look_put (l : List (Name × T)) (n m : Name) (t : T) :
    look (put l n t) m = if n = m then some t else look l m := by
  induction l with
  | nil => rw [put, look_cons, look_nil]
  | cons p l ih =>
    unfold put
    by_cases h : p.1 = n
    · rw [if_pos h, look_cons, look_cons, h]
      split <;> simp_all
    · rw [if_neg h, look_cons, ih, look_cons]
      by_cases hp : p.1 = m
      · rw [if_pos hp, if_pos hp, if_neg]
        exact fun e => h (hp.trans e.symm)
      · rw [if_neg hp, if_neg hp]

theorem put_new {l : List (Name × T)} {n : Name} (t : T) (h : n ∉ l.map (·.1)) :
    put l n t = l ++ [(n, t)] := by
  induction l with
  | nil => rfl
  | cons p l ih =>
    rw [List.map_cons, List.mem_cons] at h
    unfold put
    rw [if_neg (fun e => h (Or.inl e.symm)), ih (fun e => h (Or.inr e))]
    rfl

theorem put_keys {l : List (Name × T)} {n : Name} (t : T) (h : n ∈ l.map (·.1)) :
    (put l n t).map (·.1) = l.map (·.1) := by
  induction l with
  | nil => simp at h
  | cons p l ih =>
    unfold put
    by_cases hp : p.1 = n
    · rw [if_pos hp]; simp [hp]
    · rw [if_neg hp, List.map_cons, List.map_cons, ih]
      rw [List.map_cons, List.mem_cons] at h
      exact h.resolve_left fun e => hp e.symm

theorem put_nodup {l : List (Name × T)} {n : Name} (t : T) (h : (l.map (·.1)).Nodup) :
    ((put l n t).map (·.1)).Nodup := by
  by_cases hn : n ∈ l.map (·.1)
  · rw [put_keys t hn]; exact h
  · rw [put_new t hn, List.map_append]
    refine List.nodup_append.2 ⟨h, by simp, ?_⟩
    intro a ha b hb e
    simp at hb
    subst hb; subst e
    exact hn ha

theorem relabel_nodup (a b : Name) (l acc : List (Name × T)) (h : (acc.map (·.1)).Nodup) :
    ((relabel a b acc l).map (·.1)).Nodup := by
  induction l generalizing acc with
  | nil => exact h
  | cons p l ih => exact ih _ (put_nodup _ h)

/-- If the new names differ, the loop changes the names and nothing else. -/
theorem relabel_map (a b : Name) (l acc : List (Name × T))
    (h : (acc.map (·.1) ++ l.map fun p => swap a b p.1).Nodup) :
    relabel a b acc l = acc ++ l.map fun p => (swap a b p.1, p.2) := by
  induction l generalizing acc with
  | nil => simp [relabel]
  | cons p l ih =>
    have hn : swap a b p.1 ∉ acc.map (·.1) := by
      intro hm
      exact (List.nodup_append.1 h).2.2 _ hm _ List.mem_cons_self rfl
    have e : put acc (if p.1 = a then b else p.1) p.2 = acc ++ [(swap a b p.1, p.2)] := put_new _ hn
    rw [relabel, e, ih]
    · simp
    · simpa using h

theorem swap_nodup {a b : Name} {l : List Name} (h : l.Nodup) (hb : b ∉ l ∨ b = a) :
    (l.map (swap a b)).Nodup := by
  refine List.pairwise_map.2 (List.Pairwise.imp_of_mem ?_ h)
  intro x y hx hy hxy e
  apply hxy
  unfold swap at e
  split at e <;> split at e
  · simp_all
  · rcases hb with hb | hb
    · exact absurd (e ▸ hy) hb
    · simp_all
  · rcases hb with hb | hb
    · exact absurd (e ▸ hx) hb
    · simp_all
  · exact e

theorem newName_spec (taken : List Name) : ∃ n, newName taken = some n ∧ n ∉ taken ∧
    ("new_template" ∉ taken → n = "new_template") := by
  unfold newName
  by_cases hp : "new_template" ∈ taken
  · rw [if_pos (by simpa using hp)]
    have ht := tryNumbers_spec "new_template" "_" taken taken.length 1
    cases hc : tryNumbers "new_template" "_" taken taken.length 1 with
    | some c => rw [hc] at ht; exact ⟨c, rfl, ht.1, fun h => absurd hp h⟩
    | none =>
      rw [hc] at ht
      exfalso
      let all := "new_template" :: (List.range' 1 taken.length).map
        fun i => "new_template" ++ "_" ++ Nat.repr i
      have hnd : all.Nodup := by
        refine List.nodup_cons.2 ⟨?_, ?_⟩
        · intro h
          obtain ⟨i, _, e⟩ := List.mem_map.1 h
          exact numbered_ne e
        · exact List.Pairwise.map _ (R := (· ≠ ·)) (fun a b hab e => hab (numbered_inj e))
            List.nodup_range'
      have hsub : all ⊆ taken := by
        intro x hx
        rcases List.mem_cons.1 hx with rfl | hx
        · exact hp
        · obtain ⟨i, hi, rfl⟩ := List.mem_map.1 hx
          rw [List.mem_range'_1] at hi
          exact ht i hi.1 hi.2
      have := hnd.length_le_of_subset hsub
      simp only [all, List.length_cons, List.length_map, List.length_range'] at this
      omega
  · rw [if_neg (by simpa using hp)]
    exact ⟨_, rfl, hp, fun _ => rfl⟩

/-! ### What holds in every state -/

/-- Names are unique, and a template that is edited is in the list. -/
structure Shelf.Ok (s : Shelf T D) : Prop where
  nodup : s.keys.Nodup
  editing : ∀ id, s.mode = some id → id ∈ s.keys

theorem find_key {l : List (Name × T)} {id : Name} {p : Name × T}
    (h : l.find? (fun p => p.1 == id) = some p) : id ∈ l.map (·.1) := by
  have hp : p.1 = id := by simpa using List.find?_some h
  exact List.mem_map.2 ⟨p, List.mem_of_find?_eq_some h, hp⟩

theorem field?_some {s : Shelf T D} {id : Name} (h : s.field? = some id) :
    s.mode = none ∧ s.target = some id ∧ id ∈ s.keys := by
  unfold Shelf.field? at h
  split at h
  · rename_i id' hm ht
    split at h
    · rename_i hc
      cases h
      exact ⟨hm, ht, by simpa using hc⟩
    · cases h
  · cases h

theorem field?_of {s : Shelf T D} {id : Name} (hm : s.mode = none) (ht : s.target = some id)
    (hk : id ∈ s.keys) : s.field? = some id := by
  unfold Shelf.field?
  rw [hm, ht]
  simp [hk]

theorem Shelf.Ok.step {k : Kit T D} {s : Shelf T D} (h : s.Ok) {a : Act T D} (ha : a.Fair) :
    (s.step k a).Ok := by
  cases a with
  | add =>
    simp only [Shelf.step]
    split
    · exact h
    · rename_i hm
      split
      · exact ⟨put_nodup _ h.nodup, fun id e => by simp_all⟩
      · exact h
  | startRename id =>
    simp only [Shelf.step]
    split
    · exact ⟨h.nodup, h.editing⟩
    · exact h
  | type_ x =>
    simp only [Shelf.step]
    split
    · exact ⟨h.nodup, h.editing⟩
    · exact h
  | submit =>
    simp only [Shelf.step]
    split
    · rename_i id hf
      refine ⟨relabel_nodup _ _ _ _ (by simp), fun id' e => ?_⟩
      rw [(field?_some hf).1] at e
      cases e
    · exact h
  | delete id =>
    simp only [Shelf.step]
    split
    · rename_i hm
      refine ⟨?_, fun id' e => by simp_all⟩
      exact (List.filter_sublist.map _).nodup h.nodup
    · exact h
  | edit id =>
    simp only [Shelf.step]
    split
    · exact h
    · split
      · rename_i p hp
        split
        · refine ⟨h.nodup, fun id' e => ?_⟩
          cases e
          exact find_key hp
        · exact h
      · exact h
  | draw d => exact ⟨h.nodup, h.editing⟩
  | save =>
    simp only [Shelf.step]
    split
    · split
      · exact ⟨put_nodup _ h.nodup, fun _ e => by cases e⟩
      · exact h
    · exact h
  | load l d =>
    simp only [Shelf.step]
    split
    · refine ⟨ha, fun id e => ?_⟩
      rename_i hm
      simp_all
    · exact h

theorem Shelf.Reached.ok {k : Kit T D} {s : Shelf T D} (h : s.Reached k) : s.Ok := by
  induction h with
  | start d e => exact ⟨List.nodup_nil, fun _ h => by cases h⟩
  | step s a _ ha ih => exact ih.step ha

/-! ### C130 -/

/-- C130: the button to add a template adds an empty one at the end under a name that no other has, and
the others stay. -/
theorem C130_add (k : Kit T D) (s : Shelf T D) (hm : s.mode = none) :
    ∃ n, n ∉ s.keys ∧ (s.step k .add).templates = s.templates ++ [(n, k.blank)] ∧
      ("new_template" ∉ s.keys → n = "new_template") ∧
      (s.step k .add).field? = some n ∧ (s.step k .add).newId = n ∧
      (s.step k .add).shown = s.shown := by
  obtain ⟨n, hn, hf, hb⟩ := newName_spec s.keys
  have e : s.step k .add =
      ⟨s.templates ++ [(n, k.blank)], some n, n, s.shown, s.saved, s.mode⟩ := by
    simp only [Shelf.step, hm, hn, Option.isSome_none, Bool.false_eq_true, if_false]
    rw [put_new _ hf]
  refine ⟨n, hf, by rw [e], hb, ?_, by rw [e], by rw [e]⟩
  rw [e]
  exact field?_of hm rfl (by simp [Shelf.keys])

/-- C130: the button to delete a template removes it, and the others stay in their order. -/
theorem C130_delete (k : Kit T D) (s : Shelf T D) (id : Name) (hm : s.mode = none) :
    (s.step k (.delete id)).at_ id = none ∧
    (∀ n, n ≠ id → (s.step k (.delete id)).at_ n = s.at_ n) ∧
    (s.step k (.delete id)).keys = s.keys.filter (· ≠ id) ∧
    (s.step k (.delete id)).shown = s.shown := by
  have e : (s.step k (.delete id)).templates = s.templates.filter fun p => p.1 != id := by
    simp [Shelf.step, hm]
  have hl : ∀ (l : List (Name × T)) n, look (l.filter fun p => p.1 != id) n =
      if n = id then none else look l n := by
    intro l n
    induction l with
    | nil => simp [look_nil]
    | cons p l ih =>
      rw [List.filter_cons]
      by_cases hp : p.1 = id
      · have : (p.1 != id) = false := by simpa using hp
        rw [this, if_neg (by simp), ih, look_cons]
        split
        · rfl
        · rename_i hn
          rw [if_neg]
          exact fun e => hn (e.symm.trans hp)
      · have : (p.1 != id) = true := by simpa using hp
        rw [if_pos this, look_cons, ih, look_cons]
        by_cases hn : p.1 = n
        · rw [if_pos hn, if_pos hn, if_neg]
          exact fun e => hp (hn.trans e)
        · rw [if_neg hn, if_neg hn]
  refine ⟨?_, fun n hn => ?_, ?_, by simp [Shelf.step, hm]⟩
  · show look (s.step k (.delete id)).templates id = none
    rw [e, hl, if_pos rfl]
  · show look (s.step k (.delete id)).templates n = look s.templates n
    rw [e, hl, if_neg hn]
  · unfold Shelf.keys
    rw [e, List.filter_map]
    congr 1
    apply List.filter_congr
    intro p _
    by_cases hp : p.1 = id <;> simp [hp]

theorem look_swap {l : List (Name × T)} {a b : Name} (hb : b ∉ l.map (·.1) ∨ b = a) (n : Name) :
    look (l.map fun p => (swap a b p.1, p.2)) n =
      if n = b then look l a else if n = a then none else look l n := by
  induction l with
  | nil => simp [look_nil]
  | cons p l ih =>
    have hb' : b ∉ l.map (·.1) ∨ b = a := hb.imp_left fun h hm => h (by simp_all)
    rw [List.map_cons, look_cons, ih hb', look_cons, look_cons]
    have hpb : p.1 = b → b = a := by
      intro e
      rcases hb with h | h
      · exact absurd (by simp [e]) h
      · exact h
    unfold swap
    by_cases hp : p.1 = a
    · simp only [hp, if_true]
      by_cases hn : n = b
      · simp [hn]
      · rw [if_neg (fun e => hn e.symm), if_neg hn, if_neg hn]
        by_cases hna : n = a
        · simp [hna]
        · rw [if_neg hna, if_neg hna, if_neg (fun e => hna e.symm)]
    · simp only [hp, if_false]
      by_cases hn : n = b
      · subst hn
        rw [if_neg (fun e => hp (e.trans (hpb e))), if_pos rfl, if_pos rfl]
      · rw [if_neg hn, if_neg hn]
        by_cases hna : n = a
        · subst hna
          simp [hp]
        · rw [if_neg hna, if_neg hna]

/-- C130, for names that are free: a template that is renamed is found under its new name, the others
stay, and the order stays. Names that are taken are missing; for them it is false
(`C130_taken_violated`). -/
theorem C130_rename_partial (k : Kit T D) (s : Shelf T D) (h : s.Reached k) (a : Name)
    (hf : s.field? = some a) (hb : s.newId ∉ s.keys ∨ s.newId = a) :
    s.Renamed (s.step k .submit) a s.newId ∧ (s.step k .submit).shown = s.shown ∧
      (s.step k .submit).field? = none := by
  have hnd := h.ok.nodup
  have e : s.step k .submit =
      ⟨s.templates.map fun p => (swap a s.newId p.1, p.2), none, "", s.shown, s.saved, s.mode⟩ := by
    simp only [Shelf.step, hf]
    rw [relabel_map]
    · rfl
    · have := swap_nodup hnd hb
      simpa [Shelf.keys, Function.comp_def] using this
  rw [e]
  refine ⟨⟨?_, fun hab => ?_, fun n hna hnb => ?_, ?_⟩, rfl, ?_⟩
  · show look (s.templates.map fun p => (swap a s.newId p.1, p.2)) _ = look s.templates a
    rw [look_swap hb, if_pos rfl]
  · show look (s.templates.map fun p => (swap a s.newId p.1, p.2)) _ = none
    rw [look_swap hb, if_neg hab, if_pos rfl]
  · show look (s.templates.map fun p => (swap a s.newId p.1, p.2)) _ = look s.templates n
    rw [look_swap hb, if_neg hnb, if_neg hna]
  · simp [Shelf.keys]
  · unfold Shelf.field?
    simp


/-- C130, for names that are free: whoever presses the button to rename a template, enters something any
number of times and submits it, has renamed that template to what was entered last; and has changed
nothing if nothing was entered, whatever was entered for other templates before. -/
theorem C130_rename_steps_partial (k : Kit T D) (s : Shelf T D) (h : s.Reached k) (a : Name)
    (hm : s.mode = none) (ha : a ∈ s.keys) (xs : List Name)
    (hb : (a :: xs).getLast (by simp) ∉ s.keys ∨ (a :: xs).getLast (by simp) = a) :
    s.Renamed (s.run k (.startRename a :: xs.map .type_ ++ [.submit])) a
        ((a :: xs).getLast (by simp)) ∧
      (s.run k (.startRename a :: xs.map .type_ ++ [.submit])).shown = s.shown := by
  have h0 : s.step k (.startRename a) = ⟨s.templates, some a, a, s.shown, s.saved, s.mode⟩ := by
    simp [Shelf.step, hm, ha]
  have key : ∀ (xs : List Name) (x : Name),
      Shelf.run k ⟨s.templates, some a, x, s.shown, s.saved, s.mode⟩ (xs.map .type_) =
        ⟨s.templates, some a, (x :: xs).getLast (by simp), s.shown, s.saved, s.mode⟩ := by
    intro xs
    induction xs with
    | nil => intro x; rfl
    | cons y xs ih =>
      intro x
      have hf : (Shelf.mk s.templates (some a) x s.shown s.saved s.mode).field? = some a :=
        field?_of hm rfl ha
      have e : (Shelf.mk s.templates (some a) x s.shown s.saved s.mode).step k (.type_ y) =
          ⟨s.templates, some a, y, s.shown, s.saved, s.mode⟩ := by
        simp only [Shelf.step, hf]
      rw [List.map_cons, Shelf.run, List.foldl_cons, e]
      exact (ih y).trans (by simp)
  have hr : ∀ xs : List Name, (s.run k (.startRename a :: xs.map .type_)).Reached k := by
    intro xs
    have : ∀ (l : List (Act T D)) (u : Shelf T D), (∀ b ∈ l, b.Fair) → u.Reached k →
        (u.run k l).Reached k := by
      intro l
      induction l with
      | nil => exact fun _ _ hu => hu
      | cons b l ih =>
        exact fun u hl hu => ih _ (fun c hc => hl c (List.mem_cons_of_mem _ hc))
          (.step _ _ hu (hl b List.mem_cons_self))
    refine this _ _ ?_ h
    intro b hb
    rcases List.mem_cons.1 hb with rfl | hb
    · trivial
    · obtain ⟨x, _, rfl⟩ := List.mem_map.1 hb
      trivial
  have e1 : s.run k (.startRename a :: xs.map .type_) =
      ⟨s.templates, some a, (a :: xs).getLast (by simp), s.shown, s.saved, s.mode⟩ := by
    rw [Shelf.run, List.foldl_cons, h0]
    exact key xs a
  have e2 : s.run k (.startRename a :: xs.map .type_ ++ [.submit]) =
      (s.run k (.startRename a :: xs.map .type_)).step k .submit := by
    rw [Shelf.run, List.foldl_append]; rfl
  have := C130_rename_partial k _ (hr xs) a (by rw [e1]; exact field?_of hm rfl ha)
    (by rw [e1]; exact hb)
  rw [← e2, e1] at this
  exact ⟨this.1, this.2.1⟩

/-- C130: while a template is edited the list stays as it is, whatever is done; when it is saved its name
stands for what was drawn, the others and the order stay, and the editor shows the diagram as it was
before. -/
theorem C130_save (k : Kit T D) (s : Shelf T D) (h : s.Reached k) (id : Name) (hm : s.mode = none)
    (l : List (Act T D)) (hl : Act.save ∉ l) (t : T)
    (he : (s.step k (.edit id)).mode = some id)
    (ht : k.closes (((s.step k (.edit id)).run k l).shown) = some t) :
    let s' := ((s.step k (.edit id)).run k l).step k .save
    ((s.step k (.edit id)).run k l).templates = s.templates ∧
    s'.mode = none ∧ s'.shown = s.shown ∧ s'.at_ id = some t ∧
    (∀ n, n ≠ id → s'.at_ n = s.at_ n) ∧ s'.keys = s.keys := by
  have hk : id ∈ s.keys := by
    have := (h.ok.step (k := k) (a := .edit id) trivial).editing id he
    have e : (s.step k (.edit id)).templates = s.templates := by
      simp only [Shelf.step, hm]
      split
      · rfl
      · split
        · split <;> rfl
        · rfl
    rwa [Shelf.keys, e] at this
  have h1 : (s.step k (.edit id)).templates = s.templates ∧
      (s.step k (.edit id)).saved = s.shown := by
    revert he
    simp only [Shelf.step, hm, Option.isSome_none, Bool.false_eq_true, if_false]
    split
    · split
      · intro _; exact ⟨rfl, rfl⟩
      · intro e; rw [hm] at e; cases e
    · intro e; rw [hm] at e; cases e
  have hrun : ∀ (l : List (Act T D)) (u : Shelf T D), Act.save ∉ l → u.mode = some id →
      (u.run k l).templates = u.templates ∧ (u.run k l).saved = u.saved ∧
        (u.run k l).mode = some id := by
    intro l
    induction l with
    | nil => intro u _ hu; exact ⟨rfl, rfl, hu⟩
    | cons a l ih =>
      intro u hu hmu
      rw [List.mem_cons, not_or] at hu
      have hs : (u.step k a).templates = u.templates ∧ (u.step k a).saved = u.saved ∧
          (u.step k a).mode = some id := by
        have hfd : u.field? = none := by unfold Shelf.field?; rw [hmu]
        cases a with
        | save => exact absurd rfl hu.1
        | draw d => exact ⟨rfl, rfl, hmu⟩
        | _ => simp [Shelf.step, hmu, hfd]
      obtain ⟨a1, a2, a3⟩ := ih (u.step k a) hu.2 hs.2.2
      exact ⟨a1.trans hs.1, a2.trans hs.2.1, a3⟩
  obtain ⟨r1, r2, r3⟩ := hrun l _ hl he
  intro s'
  have e : s' = ⟨put s.templates id t, ((s.step k (.edit id)).run k l).target,
      ((s.step k (.edit id)).run k l).newId, s.shown, s.shown, none⟩ := by
    simp only [s', Shelf.step.eq_8, r3, ht]
    rw [r1, h1.1, r2, h1.2]
  refine ⟨r1.trans h1.1, by rw [e], by rw [e], ?_, fun n hn => ?_, ?_⟩
  · show look s'.templates id = _
    rw [e, look_put, if_pos rfl]
  · show look s'.templates n = look s.templates n
    rw [e, look_put, if_neg (fun x => hn x.symm)]
  · rw [e]
    exact put_keys t hk

/-! ### Where it is false -/

theorem look_append (l m : List (Name × T)) (n : Name) :
    look (l ++ m) n = (look l n).or (look m n) := by
  induction l with
  | nil => rfl
  | cons p l ih =>
    rw [List.cons_append, look_cons, ih, look_cons]
    split <;> rfl

/-- The last of the entries that get a name is the one that keeps it. -/
theorem relabel_look (a b : Name) (l acc : List (Name × T)) (n : Name) :
    look (relabel a b acc l) n =
      (look (l.map fun p => (swap a b p.1, p.2)).reverse n).or (look acc n) := by
  induction l generalizing acc with
  | nil => rfl
  | cons p l ih =>
    rw [relabel, ih, look_put, List.map_cons, List.reverse_cons, look_append, look_cons, look_nil]
    show _ = ((look _ n).or (if swap a b p.1 = n then _ else _)).or _
    unfold swap
    cases look (l.map fun p => (if p.1 = a then b else p.1, p.2)).reverse n with
    | some t => rfl
    | none => split <;> split <;> rfl

theorem look_some {l : List (Name × T)} (h : (l.map (·.1)).Nodup) {n : Name} {t : T} :
    look l n = some t ↔ (n, t) ∈ l := by
  induction l with
  | nil => simp [look_nil]
  | cons p l ih =>
    rw [List.map_cons, List.nodup_cons] at h
    rw [look_cons, List.mem_cons]
    split
    · rename_i hp
      constructor
      · intro e; cases e; left; rw [← hp]
      · rintro (e | e)
        · rw [← e]
        · exact absurd (List.mem_map.2 ⟨_, e, hp.symm⟩) h.1
    · rename_i hp
      rw [ih h.2]
      constructor
      · exact Or.inr
      · rintro (e | e)
        · rw [← e] at hp; exact absurd rfl hp
        · exact e

theorem look_reverse {l : List (Name × T)} (h : (l.map (·.1)).Nodup) (n : Name) :
    look l.reverse n = look l n := by
  have h' : (l.reverse.map (·.1)).Nodup := by
    rw [List.map_reverse]; exact (List.reverse_perm _).nodup_iff.2 h
  apply Option.ext
  intro t
  rw [look_some h, look_some h', List.mem_reverse]

theorem swap_same {l : List (Name × T)} {a : Name} (b : Name) (h : a ∉ l.map (·.1)) :
    (l.map fun p => (swap a b p.1, p.2)) = l := by
  conv => rhs; rw [← List.map_id l]
  apply List.map_congr_left
  intro p hp
  unfold swap
  rw [if_neg (fun e => h (List.mem_map.2 ⟨p, hp, e⟩))]
  rfl

/-- C130 is false of names that are taken: of two templates one is lost without a message. It is the one
that is renamed if it is before the other, and the other if not. -/
theorem C130_taken_violated (k : Kit T D) (s : Shelf T D) (h : s.Reached k) (a : Name)
    (hf : s.field? = some a) (hab : s.newId ≠ a) (x y : List (Name × T)) (t u : T)
    (hl : s.templates = x ++ (a, t) :: y) (hu : s.at_ s.newId = some u) :
    (s.step k .submit).at_ s.newId = (if s.newId ∈ y.map (·.1) then some u else some t) ∧
    (s.step k .submit).at_ a = none ∧
    ∀ n, n ≠ a → n ≠ s.newId → (s.step k .submit).at_ n = s.at_ n := by
  have hnd : (s.templates.map (·.1)).Nodup := h.ok.nodup
  rw [hl, List.map_append, List.map_cons, List.nodup_append] at hnd
  obtain ⟨hx, hay, hd⟩ := hnd
  rw [List.nodup_cons] at hay
  have hax : a ∉ x.map (·.1) := fun hm => hd a hm a List.mem_cons_self rfl
  have e : (s.step k .submit).templates = relabel a s.newId [] s.templates := by
    simp only [Shelf.step, hf]
  have hlook : ∀ n, look (s.step k .submit).templates n =
      ((look y n).or (look [(s.newId, t)] n)).or (look x n) := by
    intro n
    rw [e, relabel_look, hl, List.map_append, List.map_cons, swap_same _ hax, swap_same _ hay.1,
      look_nil, Option.or_none]
    simp only [List.reverse_append, List.reverse_cons, look_append]
    rw [look_reverse hx, look_reverse hay.2]
    simp [swap]
  have hs : ∀ n, look s.templates n = (look x n).or (look ((a, t) :: y) n) := by
    intro n; rw [hl, look_append]
  have hxy : ∀ n, n ∈ y.map (·.1) → look x n = none := fun n hn =>
    look_none.2 fun hm => hd n hm n (List.mem_cons_of_mem _ hn) rfl
  refine ⟨?_, ?_, fun n hna hnb => ?_⟩
  · show look (s.step k .submit).templates _ = _
    rw [hlook]
    change look s.templates s.newId = some u at hu
    rw [hs, look_cons, if_neg hab.symm] at hu
    split
    · rename_i hm
      rw [hxy _ hm, Option.none_or] at hu
      rw [hu]; rfl
    · rename_i hm
      rw [look_none.2 hm, look_cons, if_pos rfl]; rfl
  · show look (s.step k .submit).templates _ = _
    rw [hlook, look_none.2 hay.1, look_none.2 hax, look_cons, if_neg hab, look_nil]; rfl
  · show look (s.step k .submit).templates _ = look s.templates n
    rw [hlook, hs, look_cons, look_cons, look_nil, if_neg hnb.symm, if_neg hna.symm, Option.or_none]
    by_cases hm : n ∈ y.map (·.1)
    · rw [hxy _ hm, Option.or_none, Option.none_or]
    · rw [look_none.2 hm, Option.or_none, Option.none_or]

/-- C130 is false of sections: they keep the old name when a template is renamed, so the ones that used it
have none. -/
theorem C130_sections_violated (k : Kit T D) (s : Shelf T D) (h : s.Reached k) (a : Name)
    (hf : s.field? = some a) (hb : s.newId ∉ s.keys) (hs : a ∈ k.sections s.shown) :
    a ∈ k.sections (s.step k .submit).shown ∧ (s.at_ a).isSome ∧ (s.step k .submit).at_ a = none := by
  have hr := C130_rename_partial k s h a hf (Or.inl hb)
  have ha := (field?_some hf).2.2
  refine ⟨by rw [hr.2.1]; exact hs, ?_, hr.1.2.1 fun e => hb (e ▸ ha)⟩
  cases hn : s.at_ a with
  | some _ => rfl
  | none => exact absurd ha (look_none.1 hn)

/-- The full claim about renaming: a template gets its new name if that is free, no template is lost in any
case, and sections go on to find their templates. -/
def C130_full (k : Kit T D) : Prop :=
  ∀ s : Shelf T D, s.Reached k → ∀ a, s.field? = some a →
    (s.newId ∉ s.keys → s.Renamed (s.step k .submit) a s.newId) ∧
    (∀ n t, s.at_ n = some t → ∃ m, (s.step k .submit).at_ m = some t) ∧
    ∀ n ∈ k.sections (s.step k .submit).shown, n ∈ k.sections s.shown →
      (s.at_ n).isSome → ((s.step k .submit).at_ n).isSome

/-- Templates are numbers, and what is drawn is the number of a template or the names of sections. -/
def toyKit : Kit Nat (Nat × List Name) := ⟨fun t => some (t, []), fun d => some d.1, 0, (·.2)⟩

/-- Three templates are loaded from a file, and one is about to be renamed. -/
def shelf (a b : Name) : Shelf Nat (Nat × List Name) :=
  Shelf.run toyKit ⟨[], none, "", (0, []), (0, []), none⟩
    [.load [("dock", 1), ("lift", 2), ("door", 3)] (0, ["lift"]), .startRename a, .type_ b]

theorem shelf_reached (a b : Name) : (shelf a b).Reached toyKit :=
  .step _ (.type_ b) (.step _ (.startRename a) (.step _ (.load _ _) (.start _ _)
    (show List.Nodup ["dock", "lift", "door"] by decide)) trivial) trivial

/-- Whoever renames `lift` to `door` loses `lift`, and whoever renames it to `dock` loses `dock`. -/
theorem C130_violated : ¬ C130_full toyKit ∧
    ((shelf "lift" "door").step toyKit .submit).templates = [("dock", 1), ("door", 3)] ∧
    ((shelf "lift" "dock").step toyKit .submit).templates = [("dock", 2), ("door", 3)] := by
  refine ⟨fun h => ?_, by decide +kernel, by decide +kernel⟩
  obtain ⟨m, hm⟩ := (h _ (shelf_reached "lift" "door") "lift" (by decide +kernel)).2.1 "lift" 2
    (by decide +kernel)
  have e : ((shelf "lift" "door").step toyKit .submit).templates = [("dock", 1), ("door", 3)] := by
    decide +kernel
  change look ((shelf "lift" "door").step toyKit .submit).templates m = some 2 at hm
  rw [e, look_cons, look_cons, look_nil] at hm
  split at hm
  · cases hm
  · split at hm <;> cases hm

/-- The hypotheses of the theorems are met: a free name, a taken one, and a section that uses the
template. -/
example : (shelf "lift" "hoist").field? = some "lift" ∧
    (shelf "lift" "hoist").newId ∉ (shelf "lift" "hoist").keys ∧
    "lift" ∈ toyKit.sections (shelf "lift" "hoist").shown ∧
    ((shelf "lift" "hoist").step toyKit .submit).templates =
      [("dock", 1), ("hoist", 2), ("door", 3)] ∧
    (shelf "lift" "door").templates = [("dock", 1)] ++ ("lift", 2) :: [("door", 3)] ∧
    (shelf "lift" "door").at_ "door" = some 3 := by decide +kernel

/-- One is renamed in steps, after another was about to be. -/
example : ((shelf "lift" "x").run toyKit
      (.startRename "door" :: ["g", "ga", "gate"].map .type_ ++ [.submit])).templates =
        [("dock", 1), ("lift", 2), ("gate", 3)] ∧
    ((shelf "lift" "x").run toyKit (.startRename "door" :: [].map .type_ ++ [.submit])).templates =
        [("dock", 1), ("lift", 2), ("door", 3)] := by decide +kernel

/-- A template is edited, drawn anew and saved, and templates are added and deleted. -/
example : (((shelf "lift" "x").step toyKit (.edit "lift")).mode = some "lift") ∧
    (((shelf "lift" "x").step toyKit (.edit "lift")).run toyKit
      [.draw (7, []), .add, .delete "dock", .save]).templates =
        [("dock", 1), ("lift", 7), ("door", 3)] ∧
    ((shelf "lift" "x").run toyKit [.add, .add, .delete "dock"]).templates =
      [("lift", 2), ("door", 3), ("new_template", 0), ("new_template_1", 0)] := by decide +kernel

end Verif.Editor
