import Verif.File.Spec

/-
What is written is read back.
-/
set_option linter.unusedSimpArgs false
namespace Verif.File

variable {α : Type}

theorem field_append (a b : List (String × Json)) (k : String) (h : ∀ p ∈ b, p.1 ≠ k) :
    field (a ++ b) k = field a k := by
  unfold field
  have : b.filter (·.1 == k) = [] := by
    rw [List.filter_eq_nil_iff]
    intro p hp; simpa using h p hp
  rw [List.filter_append, this, List.append_nil]

theorem field_skip (a b : List (String × Json)) (k : String) (h : ∀ p ∈ a, p.1 ≠ k) :
    field (a ++ b) k = field b k := by
  unfold field
  have : a.filter (·.1 == k) = [] := by
    rw [List.filter_eq_nil_iff]
    intro p hp; simpa using h p hp
  rw [List.filter_append, this, List.nil_append]

theorem fields_keys (t : Tracing) : ∀ p ∈ t.fields, p.1 = "display_text" ∨ p.1 = "trace" := by
  intro p hp
  unfold Tracing.fields at hp
  rcases List.mem_append.mp hp with hp | hp
  · split at hp
    · cases hp
    · rw [List.mem_singleton.mp hp]; exact Or.inl rfl
  · split at hp
    · cases hp
    · rw [List.mem_singleton.mp hp]; exact Or.inr rfl

theorem field_tracing (a : List (String × Json)) (t : Tracing) (k : String)
    (h1 : "display_text" ≠ k) (h2 : "trace" ≠ k) : field (a ++ t.fields) k = field a k := by
  apply field_append
  intro p hp
  rcases fields_keys t p hp with e | e <;> rw [e] <;> assumption

theorem readUnit_toggle (v : Toggle) : readUnit Toggle.names v.write = some v := by
  cases v <;> rfl

theorem readNullable_toggle (v : Toggle) :
    readNullable (readUnit Toggle.names) v.write = some (some v) := by
  cases v <;> rfl

theorem readNullable_str (v : String) : readNullable readStr (.str v) = some (some v) := rfl

theorem readTracing_fields (a : List (String × Json)) (t : Tracing)
    (h : ∀ p ∈ a, p.1 ≠ "display_text" ∧ p.1 ≠ "trace") : readTracing (a ++ t.fields) = some t := by
  unfold readTracing opt
  rw [field_skip a _ _ (fun p hp => (h p hp).1), field_skip a _ _ (fun p hp => (h p hp).2)]
  obtain ⟨d, tr⟩ := t
  cases d <;> cases tr <;>
    simp [Tracing.fields, field, readNullable_str, readNullable_toggle]

theorem readNext_write (n : Next) (h : n.Clear) : readNext n.write = some n := by
  cases n with
  | name s => rfl
  | builtin b => cases b <;> rfl
  | inside n o =>
    have : readBuiltinNext (.obj [(n, .str o)]) = none := by
      unfold readBuiltinNext req field
      by_cases e : n = "builtin"
      · have h1 := h e .terminate
        have h2 := h e .dispose
        have h3 := h e .cancel
        simp only [Builtin.name] at h1 h2 h3
        simp [e, readUnit, Builtin.names, List.lookup, beq_eq_false_iff_ne.mpr h1,
          beq_eq_false_iff_ne.mpr h2, beq_eq_false_iff_ne.mpr h3]
      · simp [e]
    unfold readNext Next.write
    rw [this]
    rfl

theorem next_notNull (n : Next) : n.write ≠ .null := by
  cases n <;> simp [Next.write]

theorem readNullable_next (e : Option Next) (h : ∀ x, e = some x → x.Clear) :
    readNullable readNext (writeOption Next.write e) = some e := by
  cases e with
  | none => rfl
  | some n =>
    have h1 := readNext_write n (h n rfl)
    unfold writeOption readNullable
    split
    · rename_i hn; exact absurd hn (next_notNull n)
    · rw [h1]; rfl

theorem mapM_write (read : Json → Option α) (write : α → Json) : ∀ l : List α,
    (∀ x ∈ l, read (write x) = some x) → (l.map write).mapM read = some l := by
  intro l
  induction l with
  | nil => intro _; rfl
  | cons x l ih =>
    intro h
    rw [List.map_cons, List.mapM_cons, h x (by simp), ih (fun y hy => h y (by simp [hy]))]
    rfl

theorem readList_write (read : Json → Option α) (write : α → Json) (l : List α)
    (h : ∀ x ∈ l, read (write x) = some x) : readList read (writeList write l) = some l :=
  mapM_write read write l h

theorem insert_new (m : List (String × α)) (k : String) (v : α) (h : ∀ p ∈ m, p.1 ≠ k) :
    insert m k v = m ++ [(k, v)] := by
  unfold insert
  rw [if_neg]
  intro ha
  obtain ⟨p, hp, e⟩ := List.any_eq_true.mp ha
  exact h p hp (by simpa using e)

theorem readEntries_write (read : Json → Option α) (write : α → Json) :
    ∀ (m acc : List (String × α)), ((acc ++ m).map (·.1)).Nodup →
      (∀ p ∈ m, read (write p.2) = some p.2) →
      readEntries read (m.map (fun p => (p.1, write p.2))) acc = some (acc ++ m) := by
  intro m
  induction m with
  | nil => intro acc _ _; simp [readEntries]
  | cons p m ih =>
    intro acc hn h
    rw [List.map_cons, readEntries, h p (by simp)]
    show readEntries read _ (insert acc p.1 p.2) = _
    rw [insert_new, ih]
    · simp
    · simpa using hn
    · intro q hq; exact h q (by simp [hq])
    · intro q hq e
      rw [List.map_append, List.nodup_append] at hn
      exact hn.2.2 q.1 (List.mem_map.mpr ⟨q, hq, rfl⟩) p.1 (by simp) e

theorem readMap_write (read : Json → Option α) (write : α → Json) (m : List (String × α))
    (hn : (m.map (·.1)).Nodup) (h : ∀ p ∈ m, read (write p.2) = some p.2) :
    readMap read (writeMap write m) = some m := by
  have := readEntries_write read write m [] (by simpa using hn) h
  simpa [readMap, writeMap] using this

theorem readMap_next (m : List (String × Next)) (h : MapOf Next.Clear m) :
    readMap readNext (writeMap Next.write m) = some m :=
  readMap_write _ _ m h.1 fun p hp => readNext_write _ (h.2 p hp)

theorem readList_next (l : List Next) (h : ∀ n ∈ l, Next.Clear n) :
    readList readNext (writeList Next.write l) = some l :=
  readList_write _ _ l fun n hn => readNext_write n (h n hn)

theorem readSelection_write (s : Selection) (h : s.Clear) : readSelection s.write = some s := by
  unfold readSelection Selection.write
  cases s with
  | dict m => dsimp only; rw [readMap_next m h]; rfl
  | array l =>
    dsimp only
    rw [readList_next l h]; rfl

theorem readRetention_write (r : Retention) : readRetention r.write = some r := by
  cases r <;> rfl

theorem readIdent_write (i : Ident) : readIdent i.write = some i := by
  cases i <;> rfl

theorem writeOps_map : ∀ l : List (String × Op), writeOps l = l.map (fun p => (p.1, p.2.write)) := by
  intro l
  induction l with
  | nil => rfl
  | cons p l ih => rw [writeOps, ih, List.map_cons, writeEntry]

theorem depthEntries_mem : ∀ (m : List (String × Json)) (p : String × Json), p ∈ m →
    p.2.depth ≤ depthEntries m := by
  intro m
  induction m with
  | nil => intro p hp; cases hp
  | cons q m ih =>
    intro p hp
    rw [depthEntries]
    rcases List.mem_cons.mp hp with rfl | hp
    · obtain ⟨k, j⟩ := p
      rw [depthEntry]; exact Nat.le_max_left _ _
    · exact Nat.le_trans (ih p hp) (Nat.le_max_right _ _)

theorem readOps_write (n : Nat) (ops : List (String × Op)) (hn : (ops.map (·.1)).Nodup)
    (hd : depthEntries (writeOps ops) ≤ n)
    (ih : ∀ p ∈ ops, p.2.write.depth ≤ n → readOp n p.2.write = some p.2) :
    readMap (readOp n) (.obj (writeOps ops)) = some ops := by
  rw [writeOps_map] at hd ⊢
  refine readMap_write (readOp n) Op.write ops hn fun p hp => ih p hp ?_
  exact Nat.le_trans (depthEntries_mem _ (p.1, p.2.write) (List.mem_map.mpr ⟨p, hp, rfl⟩)) hd

theorem req_tracing (a : List (String × Json)) (t : Tracing) (k : String) (read : Json → Option α)
    (h1 : "display_text" ≠ k) (h2 : "trace" ≠ k) : req (a ++ t.fields) k read = req a k read := by
  unfold req; rw [field_tracing a t k h1 h2]

theorem opt_tracing (a : List (String × Json)) (t : Tracing) (k : String) (read : Json → Option α)
    (d : α) (h1 : "display_text" ≠ k) (h2 : "trace" ≠ k) :
    opt (a ++ t.fields) k read d = opt a k read d := by
  unfold opt; rw [field_tracing a t k h1 h2]

/-- The object of an operation with trace settings. -/
theorem readOp_tracing (n : Nat) (a : List (String × Json)) (t : Tracing) :
    readOp (n + 1) (.obj (a ++ t.fields)) =
      (req a "type" readStr).bind (readFields (readOp n) (a ++ t.fields)) := by
  show (req (a ++ t.fields) "type" readStr).bind _ = _
  rw [req_tracing] <;> decide

theorem writeOption_bool (b : Option Bool) :
    readNullable readBool (writeOption Json.bool b) = some b := by
  cases b <;> rfl

theorem readSettings_write (r : Retention) : readSettings (writeSettings r) = some r := by
  cases r <;> rfl

theorem readList_ident (l : List Ident) : readList readIdent (writeList Ident.write l) = some l :=
  readList_write _ _ l fun i _ => readIdent_write i

theorem readList_str (l : List String) : readList readStr (writeList Json.str l) = some l :=
  readList_write _ _ l fun _ _ => rfl

theorem isNull_eq {c : Json} (h : c.isNull = true) : c = .null := by
  cases c <;> simp_all [Json.isNull]

theorem readOp_write : ∀ (n : Nat) (o : Op), o.Clear → o.write.depth ≤ n →
    readOp n o.write = some o := by
  intro n
  induction n with
  | zero =>
    intro o _ hd
    exfalso
    cases o <;> simp [Op.write, Json.depth] at hd
  | succ n ih =>
    intro o h hd
    cases h with
    | @node b c x s t h1 h2 =>
      rw [Op.write, readOp_tracing]
      have e : readTracing ([("type", Json.str "node"), ("builder", .str b)] ++
          skipIf c.isNull "config" c ++ [("next", x.write)] ++
          skipIf s.isEmpty "stream_out" (writeMap Next.write s) ++ t.fields) = some t := by
        apply readTracing_fields
        cases c.isNull <;> cases s.isEmpty <;> simp [skipIf]
      have e1 := readNext_write x h1
      have e2 := readMap_next s h2
      unfold readFields
      rw [e]
      simp only [opt_tracing, req_tracing, ne_eq, reduceCtorEq, not_false_eq_true, String.reduceEq]
      cases hc : c.isNull <;> cases hs : s.isEmpty
      · simp [skipIf, req, opt, field, readStr, readJson, e1, e2]
      · have := List.isEmpty_iff.mp hs
        simp [skipIf, req, opt, field, readStr, readJson, e1, this]
      · have := isNull_eq hc
        simp [skipIf, req, opt, field, readStr, readJson, e1, e2, this]
      · have := List.isEmpty_iff.mp hs
        have := isNull_eq hc
        simp [skipIf, req, opt, field, readStr, readJson, e1, *]
    | @sect p c m t h1 =>
      rw [Op.write, readOp_tracing]
      have e := readTracing_fields [("type", Json.str "section"), p.field, ("config", c),
        ("connect", writeMap Next.write m)] t (by cases p <;> simp [Provider.field])
      have e1 := readMap_next m h1
      unfold readFields
      rw [e]
      simp only [opt_tracing, req_tracing, ne_eq, reduceCtorEq, not_false_eq_true, String.reduceEq]
      cases p <;>
        simp [req, opt, field, readStr, readJson, e1, Provider.field, readProvider]
    | @scope s x ops m y u h1 h2 h3 h4 h5 h6 =>
      have e1 := readNext_write s h1
      have e2 := readNullable_next x h2
      have e3 : readMap (readOp n) (.obj (writeOps ops)) = some ops := by
        refine readOps_write n ops h3 ?_ fun p hp => ih p.2 (h4 p hp)
        have := depthEntries_mem _ ("ops", Json.obj (writeOps ops))
          (show _ ∈ [("type", Json.str "scope"),
            ("start", s.write), ("on_implicit_error", writeOption Next.write x),
            ("ops", .obj (writeOps ops)), ("stream_out", writeMap Next.write m),
            ("next", y.write), ("settings", writeScopeSettings u)] by simp)
        rw [Op.write, Json.depth] at hd
        rw [Json.depth] at this
        omega
      have e4 := readMap_next m h5
      have e5 := readNext_write y h6
      have e6 : readScopeSettings (writeScopeSettings u) = some u := rfl
      rw [Op.write, readOp]
      simp [readFields, req, opt, field, readStr, e1, e2, e3, e4, e5, e6]
    | streamOut => rfl
    | @forkClone l t h1 =>
      rw [Op.write, readOp_tracing]
      have e := readTracing_fields [("type", Json.str "fork_clone"), ("next", writeList Next.write l)]
        t (by simp)
      have e1 := readList_next l h1
      unfold readFields
      rw [e]
      simp only [opt_tracing, req_tracing, ne_eq, reduceCtorEq, not_false_eq_true, String.reduceEq]
      simp [req, opt, field, readStr, readJson, e1]
    | @unzip l t h1 =>
      rw [Op.write, readOp_tracing]
      have e := readTracing_fields [("type", Json.str "unzip"), ("next", writeList Next.write l)]
        t (by simp)
      have e1 := readList_next l h1
      unfold readFields
      rw [e]
      simp only [opt_tracing, req_tracing, ne_eq, reduceCtorEq, not_false_eq_true, String.reduceEq]
      simp [req, opt, field, readStr, readJson, e1]
    | @forkResult a b t h1 h2 =>
      rw [Op.write, readOp_tracing]
      have e := readTracing_fields [("type", Json.str "fork_result"), ("ok", a.write),
        ("err", b.write)]
        t (by simp)
      have e1 := readNext_write a h1
      have e2 := readNext_write b h2
      unfold readFields
      rw [e]
      simp only [opt_tracing, req_tracing, ne_eq, reduceCtorEq, not_false_eq_true, String.reduceEq]
      simp [req, opt, field, readStr, readJson, e1, e2]
    | @split l m r t h1 h2 h3 =>
      rw [Op.write, readOp_tracing]
      have e : readTracing ([("type", Json.str "split")] ++
          skipIf l.isEmpty "sequential" (writeList Next.write l) ++
          skipIf m.isEmpty "keyed" (writeMap Next.write m) ++
          skipIf r.isNone "remaining" (writeOption Next.write r) ++ t.fields) = some t := by
        apply readTracing_fields
        cases l.isEmpty <;> cases m.isEmpty <;> cases r.isNone <;> simp [skipIf]
      have e1 := readList_next l h1
      have e2 := readMap_next m h2
      have e3 := readNullable_next r h3
      unfold readFields
      rw [e]
      simp only [opt_tracing, req_tracing, ne_eq, reduceCtorEq, not_false_eq_true, String.reduceEq]
      cases hl : l.isEmpty <;> cases hm : m.isEmpty <;> cases hr : r.isNone <;>
        (try have := List.isEmpty_iff.mp hl) <;> (try have := List.isEmpty_iff.mp hm) <;>
        (try have := Option.isNone_iff_eq_none.mp hr) <;>
        (try subst l) <;> (try subst m) <;> (try subst r) <;>
        simp [skipIf, req, opt, field, readStr, e1, e2, e3]
    | @join x b c z h1 h2 =>
      have e1 := readNext_write x h1
      have e2 := readSelection_write b h2
      have e3 := readList_ident c
      rw [Op.write, readOp]
      cases z <;> cases hc : c.isEmpty <;> (try have := List.isEmpty_iff.mp hc) <;>
        (try subst c) <;>
        simp [skipIf, readFields, req, opt, field, readStr, readBool, e1, e2, e3]
    | @transform c x oe t h1 h2 =>
      rw [Op.write, readOp_tracing]
      have e := readTracing_fields [("type", Json.str "transform"), ("cel", .str c),
        ("next", x.write), ("on_error", writeOption Next.write oe)]
        t (by simp)
      have e1 := readNext_write x h1
      have e2 := readNullable_next oe h2
      unfold readFields
      rw [e]
      simp only [opt_tracing, req_tracing, ne_eq, reduceCtorEq, not_false_eq_true, String.reduceEq]
      simp [req, opt, field, readStr, readJson, e1, e2]
    | @buffer r b t =>
      rw [Op.write, readOp_tracing]
      have e := readTracing_fields [("type", Json.str "buffer"),
        ("settings", writeSettings r), ("serialize", writeOption Json.bool b)]
        t (by simp)
      have e1 := readSettings_write r
      have e2 := writeOption_bool b
      unfold readFields
      rw [e]
      simp only [opt_tracing, req_tracing, ne_eq, reduceCtorEq, not_false_eq_true, String.reduceEq]
      simp [req, opt, field, readStr, readJson, e1, e2]
    | @bufferAccess x b t h1 h2 =>
      rw [Op.write, readOp_tracing]
      have e := readTracing_fields [("type", Json.str "buffer_access"), ("next", x.write),
        ("buffers", b.write)]
        t (by simp)
      have e1 := readNext_write x h1
      have e2 := readSelection_write b h2
      unfold readFields
      rw [e]
      simp only [opt_tracing, req_tracing, ne_eq, reduceCtorEq, not_false_eq_true, String.reduceEq]
      simp [req, opt, field, readStr, readJson, e1, e2]
    | @listen x b h1 h2 =>
      have e1 := readNext_write x h1
      have e2 := readSelection_write b h2
      rw [Op.write, readOp]
      simp [readFields, req, opt, field, readStr, e1, e2]

end Verif.File
