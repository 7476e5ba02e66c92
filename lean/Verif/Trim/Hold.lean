import Verif.Trim.Span

/-
What a trim does with the messages that it holds.
-/
namespace Verif.Trim

/-! ### Association lists -/

theorem lookup_filter_ne {A : Type} {l : List (Nat × A)} {i j : Nat} (h : i ≠ j) :
    (l.filter fun a => a.1 ≠ j).lookup i = l.lookup i := by
  induction l with
  | nil => rfl
  | cons a l ih =>
    obtain ⟨k, v⟩ := a
    rw [List.filter_cons]
    by_cases hk : k = j
    · have hb : (i == k) = false := by simp [hk, h]
      rw [if_neg (by simp [hk]), ih, List.lookup_cons, hb]
    · rw [if_pos (by simp [hk]), List.lookup_cons, List.lookup_cons, ih]

theorem lookup_filter_self {A : Type} (l : List (Nat × A)) (i : Nat) :
    (l.filter fun a => a.1 ≠ i).lookup i = none := by
  induction l with
  | nil => rfl
  | cons a l ih =>
    obtain ⟨k, v⟩ := a
    rw [List.filter_cons]
    by_cases hk : k = i
    · rw [if_neg (by simp [hk]), ih]
    · have hb : (i == k) = false := by simp; exact fun e => hk e.symm
      rw [if_pos (by simp [hk]), List.lookup_cons, hb, ih]

theorem lookup_cons_self {A : Type} (i : Nat) (a : A) (l : List (Nat × A)) :
    ((i, a) :: l).lookup i = some a := by simp

theorem lookup_cons_ne {A : Type} {i j : Nat} (h : i ≠ j) (a : A) (l : List (Nat × A)) :
    ((j, a) :: l).lookup i = l.lookup i := by
  have hb : (i == j) = false := by simp [h]
  simp [List.lookup_cons, hb]

theorem lookup_mem {A : Type} {l : List (Nat × A)} {i : Nat} {a : A} (h : l.lookup i = some a) :
    (i, a) ∈ l := by
  induction l with
  | nil => simp at h
  | cons b l ih =>
    obtain ⟨k, v⟩ := b
    by_cases hk : i = k
    · subst hk
      simp at h
      simp [h]
    · rw [lookup_cons_ne hk] at h
      exact .tail _ (ih h)

theorem perm_lookup {A : Type} {l : List (Nat × A)} (hn : (l.map (·.1)).Nodup) {i : Nat} {a : A}
    (h : l.lookup i = some a) : l.Perm ((i, a) :: l.filter fun x => x.1 ≠ i) := by
  induction l with
  | nil => simp at h
  | cons b l ih =>
    obtain ⟨k, v⟩ := b
    rw [List.map_cons, List.nodup_cons] at hn
    by_cases hk : i = k
    · subst hk
      simp at h
      subst h
      have : (l.filter fun x => x.1 ≠ i) = l := by
        rw [List.filter_eq_self]
        intro x hx
        simp only [ne_eq, decide_eq_true_eq]
        rintro rfl
        exact hn.1 (List.mem_map.2 ⟨x, hx, rfl⟩)
      rw [List.filter_cons, if_neg (by simp), this]
    · rw [lookup_cons_ne hk] at h
      have hk' : ¬ k = i := fun e => hk e.symm
      rw [List.filter_cons, if_pos (by simpa using hk')]
      exact ((ih hn.2 h).cons _).trans (List.Perm.swap _ _ _)

theorem perm_filter {A : Type} (p : A → Bool) (l : List A) :
    l.Perm ((l.filter fun a => !p a) ++ l.filter p) := by
  induction l with
  | nil => exact .refl _
  | cons a l ih =>
    by_cases h : p a = true
    · simp only [List.filter_cons, h, Bool.not_true, if_true]
      exact (ih.cons a).trans List.perm_middle.symm
    · simp only [List.filter_cons, h, Bool.not_false, if_true]
      exact ih.cons a

/-! ### A trim that works -/

/-- The operations of the trim are known and all of them report back. -/
structure Good (c : Config) (ns : List Nat) : Prop where
  known : calculateNodes c.net c.entry c.branches = some (.ok ns)
  any : ns ≠ []
  other : c.self ∉ ns
  all : ∀ n ∈ ns, c.cleanable n = true

theorem foldl_clean {c : Config} {ns : List Nat} (id session : Nat) (ho : c.self ∉ ns)
    (ha : ∀ n ∈ ns, c.cleanable n = true) : ∀ st : State,
    ns.foldl (fun st n => st.cleanNode c id session n) st =
      { st with cleaning := st.cleaning ++ ns.map fun n => (id, n, session) } := by
  induction ns with
  | nil => intro st; simp
  | cons n ns ih =>
    intro st
    have h1 : n ≠ c.self := fun e => ho (by simp [e])
    have h2 : st.cleanNode c id session n =
        { st with cleaning := st.cleaning ++ [(id, n, session)] } := by
      simp [State.cleanNode, h1, ha n (.head _)]
    rw [List.foldl_cons, h2, ih (fun h => ho (.tail _ h)) (fun m hm => ha m (.tail _ hm))]
    simp

theorem told_snoc (c : Config) (ops : List Op) (op : Op) (i n s : Nat) :
    Told c (ops ++ [op]) i n s ↔
      Told c ops i n s ∨ (op = .report i n ∧ (i, n, s) ∈ (run c ops).cleaning) := by
  constructor
  · rintro ⟨pre, post, he, hm⟩
    rcases List.eq_nil_or_concat post with rfl | ⟨post', x, rfl⟩
    · have := List.append_inj' he rfl
      obtain ⟨rfl, h2⟩ := this
      simp at h2
      exact .inr ⟨h2, hm⟩
    · rw [List.concat_eq_append, ← List.cons_append, ← List.append_assoc] at he
      obtain ⟨rfl, -⟩ := List.append_inj' he rfl
      exact .inl ⟨pre, post', rfl, hm⟩
  · rintro (⟨pre, post, rfl, hm⟩ | ⟨rfl, hm⟩)
    · exact ⟨pre, post ++ [op], by simp, hm⟩
    · exact ⟨ops, [], rfl, hm⟩

theorem Told.more {c : Config} {ops : List Op} {i n s : Nat} (h : Told c ops i n s) (op : Op) :
    Told c (ops ++ [op]) i n s := (told_snoc c ops op i n s).2 (.inl h)

theorem run_snoc (c : Config) (ops : List Op) (op : Op) :
    run c (ops ++ [op]) = (run c ops).step c op := by
  simp [run, List.foldl_append]

/-- What holds of a trim that works. `ops` is what happened so far. -/
structure Held (c : Config) (ns : List Nat) (ops : List Op) (st : State) : Prop where
  nodes : st.nodes = none ∨ st.nodes = some (.ok ns)
  fresh : ∀ h ∈ st.holding, h.1 < st.next
  nodup : (st.holding.map (·.1)).Nodup
  owed : ∀ h ∈ st.holding, h.1 ∈ st.finished.map (·.1) ∨
    ∃ l, st.awaiting.lookup h.1 = some l ∧ l ≠ [] ∧ ∀ n ∈ l, ∃ s, (h.1, n, s) ∈ st.cleaning
  reported : ∀ id l, st.awaiting.lookup id = some l → ∀ n ∈ ns, n ∈ l ∨ ∃ s, Told c ops id n s
  finished : ∀ id ∈ st.finished.map (·.1), ∀ n ∈ ns, ∃ s, Told c ops id n s

theorem held_init (c : Config) (ns : List Nat) : Held c ns [] {} := by
  constructor <;> simp

theorem Held.more {c : Config} {ns : List Nat} {ops : List Op} {st : State}
    (h : Held c ns ops st) (op : Op) : Held c ns (ops ++ [op]) st :=
  ⟨h.nodes, h.fresh, h.nodup, h.owed,
   fun id l hl n hn => (h.reported id l hl n hn).imp_right fun ⟨s, h⟩ => ⟨s, h.more op⟩,
   fun id hi n hn => (h.finished id hi n hn).imp fun _ h => h.more op⟩

/-- The state after a message was taken. -/
def State.taken (st : State) (rest : List (Nat × Nat)) (session data : Nat) (ns : List Nat) :
    State :=
  { st with inputs := rest,
            nodes := some (.ok ns),
            next := st.next + 1,
            holding := (st.next, session, data) :: st.holding,
            awaiting := (st.next, ns) :: st.awaiting,
            cleaning := st.cleaning ++ ns.map fun n => (st.next, n, session) }

theorem execute_good {c : Config} {ns : List Nat} (g : Good c ns) {st : State}
    (hn : st.nodes = none ∨ st.nodes = some (.ok ns)) :
    (st.inputs = [] ∧ st.execute c = st) ∨
    ∃ s d rest, st.inputs = (s, d) :: rest ∧ st.execute c = st.taken rest s d ns := by
  cases hi : st.inputs with
  | nil => exact .inl ⟨rfl, by simp [State.execute, hi]⟩
  | cons a rest =>
    obtain ⟨s, d⟩ := a
    refine .inr ⟨s, d, rest, rfl, ?_⟩
    unfold State.execute
    simp only [hi]
    rcases hn with hn | hn
    · simp only [hn, g.known, State.trim]
      rw [foldl_clean _ _ g.other g.all]
      rfl
    · simp only [hn, State.trim]
      rw [foldl_clean _ _ g.other g.all]
      simp [State.taken]

theorem notify_cases (st : State) (id node session : Nat) :
    (st.awaiting.lookup id = none ∧ st.notify id node session = st) ∨
    ∃ l, st.awaiting.lookup id = some l ∧
      (((l.filter fun n => n ≠ node) = [] ∧ st.notify id node session =
        { st with awaiting := st.awaiting.filter fun a => a.1 ≠ id,
                  finished := st.finished ++ [(id, session)] }) ∨
      ((l.filter fun n => n ≠ node) ≠ [] ∧ st.notify id node session =
        { st with awaiting := (id, l.filter fun n => n ≠ node) ::
                    st.awaiting.filter fun a => a.1 ≠ id })) := by
  unfold State.notify
  cases hl : st.awaiting.lookup id with
  | none => exact .inl ⟨rfl, rfl⟩
  | some l =>
    refine .inr ⟨l, rfl, ?_⟩
    dsimp only
    cases hf : l.filter fun n => n ≠ node with
    | nil => exact .inl ⟨rfl, by simp⟩
    | cons a r => exact .inr ⟨by simp, by simp⟩

theorem Held.report {c : Config} {ns : List Nat} {ops : List Op} {st : State}
    (h : Held c ns ops st) (hr : st = run c ops) (id node : Nat) :
    Held c ns (ops ++ [.report id node]) (st.report id node) := by
  unfold State.report
  cases hk : st.cleaning.find? fun k => k.1 = id && k.2.1 = node with
  | none => exact h.more _
  | some k =>
    dsimp only
    have hkey := List.find?_some hk
    have hk1 : k.1 = id ∧ k.2.1 = node := by simpa using hkey
    obtain ⟨kid, knode, ks⟩ := k
    obtain ⟨rfl, rfl⟩ := hk1
    have hm := h.more (.report kid knode)
    have htold : Told c (ops ++ [.report kid knode]) kid knode ks :=
      (told_snoc _ _ _ _ _ _).2 (.inr ⟨rfl, hr ▸ List.mem_of_find?_eq_some hk⟩)
    have herase : ∀ i n s, (i, n, s) ∈ st.cleaning → (i ≠ kid ∨ n ≠ knode) →
        (i, n, s) ∈ st.cleaning.erase (kid, knode, ks) := by
      intro i n s hmem hne
      refine (List.mem_erase_of_ne ?_).2 hmem
      intro e
      cases e
      rcases hne with hne | hne <;> exact hne rfl
    rcases notify_cases { st with cleaning := st.cleaning.erase (kid, knode, ks) }
      kid knode ks with ⟨hl, he⟩ | ⟨l, hl, ⟨hf, he⟩ | ⟨hf, he⟩⟩
    · rw [he]
      have hl : st.awaiting.lookup kid = none := hl
      refine ⟨hm.nodes, hm.fresh, hm.nodup, ?_, hm.reported, hm.finished⟩
      intro q hq
      rcases hm.owed q hq with ho | ⟨l, h1, h2, h3⟩
      · exact .inl ho
      · refine .inr ⟨l, h1, h2, ?_⟩
        intro n hn
        obtain ⟨s, hs⟩ := h3 n hn
        refine ⟨s, herase _ _ _ hs (.inl ?_)⟩
        intro e
        rw [e, hl] at h1
        cases h1
    · rw [he]
      have hl : st.awaiting.lookup kid = some l := hl
      refine ⟨hm.nodes, hm.fresh, hm.nodup, ?_, ?_, ?_⟩
      · intro q hq
        by_cases e : q.1 = kid
        · left; simp [e]
        · rcases hm.owed q hq with ho | ⟨l', h1, h2, h3⟩
          · left
            show q.1 ∈ (st.finished ++ [(kid, ks)]).map (·.1)
            rw [List.map_append]
            exact List.mem_append.2 (.inl ho)
          · refine .inr ⟨l', ?_, h2, ?_⟩
            · show (st.awaiting.filter fun a => a.1 ≠ kid).lookup q.1 = _
              rw [lookup_filter_ne e]; exact h1
            · intro n hn
              obtain ⟨s, hs⟩ := h3 n hn
              exact ⟨s, herase _ _ _ hs (.inl e)⟩
      · intro i l' hl' n hn
        by_cases e : i = kid
        · subst e
          have : (st.awaiting.filter fun a => a.1 ≠ i).lookup i = some l' := hl'
          rw [lookup_filter_self] at this
          cases this
        · refine hm.reported i l' ?_ n hn
          have : (st.awaiting.filter fun a => a.1 ≠ kid).lookup i = some l' := hl'
          rwa [lookup_filter_ne e] at this
      · intro i hi n hn
        have hi : i ∈ (st.finished ++ [(kid, ks)]).map (·.1) := hi
        rw [List.map_append] at hi
        rcases List.mem_append.1 hi with hi | hi
        · exact hm.finished i hi n hn
        · simp at hi
          subst hi
          rcases h.reported i l hl n hn with hnl | ⟨s, hr⟩
          · by_cases e : n = knode
            · subst e; exact ⟨_, htold⟩
            · have : n ∈ l.filter fun n => n ≠ knode := by simp [hnl, e]
              rw [hf] at this
              cases this
          · exact ⟨s, hr.more _⟩
    · rw [he]
      have hl : st.awaiting.lookup kid = some l := hl
      refine ⟨hm.nodes, hm.fresh, hm.nodup, ?_, ?_, hm.finished⟩
      · intro q hq
        rcases hm.owed q hq with ho | ⟨l', h1, h2, h3⟩
        · exact .inl ho
        · by_cases e : q.1 = kid
          · refine .inr ⟨l.filter fun n => n ≠ knode, ?_, hf, ?_⟩
            · rw [e]; exact lookup_cons_self _ _ _
            · intro n hn
              rw [e, hl] at h1
              cases h1
              have hn : n ∈ l ∧ n ≠ knode := by simpa using hn
              obtain ⟨s, hs⟩ := h3 n hn.1
              exact ⟨s, herase _ _ _ hs (.inr hn.2)⟩
          · refine .inr ⟨l', ?_, h2, ?_⟩
            · show ((kid, _) :: st.awaiting.filter fun a => a.1 ≠ kid).lookup q.1 = _
              rw [lookup_cons_ne e, lookup_filter_ne e]; exact h1
            · intro n hn
              obtain ⟨s, hs⟩ := h3 n hn
              exact ⟨s, herase _ _ _ hs (.inl e)⟩
      · intro i l' hl' n hn
        have hl' : ((kid, l.filter fun n => n ≠ knode) ::
          st.awaiting.filter fun a => a.1 ≠ kid).lookup i = some l' := hl'
        by_cases e : i = kid
        · subst e
          rw [lookup_cons_self] at hl'
          cases hl'
          rcases h.reported i l hl n hn with hnl | ⟨s, hr⟩
          · by_cases e : n = knode
            · subst e; exact .inr ⟨_, htold⟩
            · left; simp [hnl, e]
          · exact .inr ⟨s, hr.more _⟩
        · rw [lookup_cons_ne e, lookup_filter_ne e] at hl'
          exact hm.reported i l' hl' n hn

theorem finish_cases (st : State) :
    (st.finished = [] ∧ st.finish = st) ∨
    ∃ id s rest, st.finished = (id, s) :: rest ∧
      ((st.holding.lookup id = none ∧ st.finish =
        { st with finished := rest, awaiting := st.awaiting.filter fun a => a.1 ≠ id }) ∨
      ∃ m nodes, st.holding.lookup id = some m ∧ st.finish =
        { st with finished := rest,
                  awaiting := st.awaiting.filter fun a => a.1 ≠ id,
                  holding := st.holding.filter fun h => h.1 ≠ id,
                  disposals := st.disposals ++ [(s, nodes)],
                  out := st.out ++ [m] }) := by
  unfold State.finish
  cases hf : st.finished with
  | nil => exact .inl ⟨rfl, rfl⟩
  | cons a rest =>
    obtain ⟨id, s⟩ := a
    refine .inr ⟨id, s, rest, rfl, ?_⟩
    dsimp only
    cases hl : st.holding.lookup id with
    | none => exact .inl ⟨rfl, rfl⟩
    | some m => exact .inr ⟨m, _, rfl, rfl⟩

theorem Held.finish {c : Config} {ns : List Nat} {ops : List Op} {st : State}
    (h : Held c ns ops st) : Held c ns (ops ++ [.finish]) st.finish := by
  have hm := h.more .finish
  rcases finish_cases st with ⟨hf, he⟩ | ⟨id, s, rest, hf, ⟨hl, he⟩ | ⟨m, nodes, hl, he⟩⟩
  · rw [he]; exact hm
  · rw [he]
    have hne : ∀ q ∈ st.holding, q.1 ≠ id := by
      intro q hq e
      have : ∀ l : List (Nat × Nat × Nat), q ∈ l → l.lookup id ≠ none := by
        intro l hq
        induction l with
        | nil => simp at hq
        | cons a l ih =>
          by_cases ha : id = a.1
          · obtain ⟨k, v⟩ := a
            subst ha
            simp
          · obtain ⟨k, v⟩ := a
            rw [lookup_cons_ne ha]
            rcases List.mem_cons.1 hq with rfl | hq
            · exact absurd e.symm ha
            · exact ih hq
      exact this _ hq hl
    refine ⟨hm.nodes, hm.fresh, hm.nodup, ?_, ?_, ?_⟩
    · intro q hq
      have e := hne q hq
      rcases hm.owed q hq with ho | ⟨l, h1, h2, h3⟩
      · left
        rw [hf, List.map_cons] at ho
        rcases List.mem_cons.1 ho with ho | ho
        · exact absurd ho e
        · exact ho
      · refine .inr ⟨l, ?_, h2, h3⟩
        show (st.awaiting.filter fun a => a.1 ≠ id).lookup q.1 = _
        rw [lookup_filter_ne e]; exact h1
    · intro i l' hl' n hn
      have hl' : (st.awaiting.filter fun a => a.1 ≠ id).lookup i = some l' := hl'
      by_cases e : i = id
      · subst e; rw [lookup_filter_self] at hl'; cases hl'
      · rw [lookup_filter_ne e] at hl'
        exact hm.reported i l' hl' n hn
    · intro i hi n hn
      exact hm.finished i (by rw [hf]; exact .tail _ hi) n hn
  · rw [he]
    refine ⟨hm.nodes, ?_, ?_, ?_, ?_, ?_⟩
    · intro q hq
      exact hm.fresh q (List.mem_filter.1 hq).1
    · exact hm.nodup.sublist (List.filter_sublist.map _)
    · intro q hq
      have hq : q ∈ st.holding.filter fun h => h.1 ≠ id := hq
      rw [List.mem_filter] at hq
      have e : q.1 ≠ id := by simpa using hq.2
      rcases hm.owed q hq.1 with ho | ⟨l, h1, h2, h3⟩
      · left
        rw [hf, List.map_cons] at ho
        rcases List.mem_cons.1 ho with ho | ho
        · exact absurd ho e
        · exact ho
      · refine .inr ⟨l, ?_, h2, h3⟩
        show (st.awaiting.filter fun a => a.1 ≠ id).lookup q.1 = _
        rw [lookup_filter_ne e]; exact h1
    · intro i l' hl' n hn
      have hl' : (st.awaiting.filter fun a => a.1 ≠ id).lookup i = some l' := hl'
      by_cases e : i = id
      · subst e; rw [lookup_filter_self] at hl'; cases hl'
      · rw [lookup_filter_ne e] at hl'
        exact hm.reported i l' hl' n hn
    · intro i hi n hn
      exact hm.finished i (by rw [hf]; exact .tail _ hi) n hn

theorem Held.execute {c : Config} {ns : List Nat} (g : Good c ns) {ops : List Op} {st : State}
    (h : Held c ns ops st) : Held c ns (ops ++ [.execute]) (st.execute c) := by
  have hm := h.more .execute
  rcases execute_good g h.nodes with ⟨-, he⟩ | ⟨s, d, rest, -, he⟩
  · rw [he]; exact hm
  · rw [he]
    refine ⟨.inr rfl, ?_, ?_, ?_, ?_, hm.finished⟩
    · intro q hq
      rcases List.mem_cons.1 hq with rfl | hq
      · exact Nat.lt_succ_self _
      · exact Nat.lt_succ_of_lt (hm.fresh q hq)
    · show ((st.next, s, d) :: st.holding |>.map (·.1)).Nodup
      rw [List.map_cons, List.nodup_cons]
      refine ⟨?_, hm.nodup⟩
      intro hc
      obtain ⟨q, hq, e⟩ := List.mem_map.1 hc
      have := hm.fresh q hq
      have e : q.1 = st.next := e
      omega
    · intro q hq
      rcases List.mem_cons.1 hq with rfl | hq
      · refine .inr ⟨ns, lookup_cons_self _ _ _, g.any, ?_⟩
        intro n hn
        refine ⟨s, List.mem_append.2 (.inr (List.mem_map.2 ⟨n, hn, rfl⟩))⟩
      · have hlt := hm.fresh q hq
        rcases hm.owed q hq with ho | ⟨l, h1, h2, h3⟩
        · exact .inl ho
        · refine .inr ⟨l, ?_, h2, ?_⟩
          · show ((st.next, ns) :: st.awaiting).lookup q.1 = _
            rw [lookup_cons_ne (by omega)]; exact h1
          · intro n hn
            obtain ⟨s', hs⟩ := h3 n hn
            exact ⟨s', List.mem_append.2 (.inl hs)⟩
    · intro i l hl n hn
      have hl : ((st.next, ns) :: st.awaiting).lookup i = some l := hl
      by_cases e : i = st.next
      · subst e
        rw [lookup_cons_self] at hl
        cases hl
        exact .inl hn
      · rw [lookup_cons_ne e] at hl
        exact hm.reported i l hl n hn

theorem Held.step {c : Config} {ns : List Nat} (g : Good c ns) {ops : List Op} {st : State}
    (h : Held c ns ops st) (hr : st = run c ops) (op : Op) :
    Held c ns (ops ++ [op]) (st.step c op) := by
  have hm := h.more op
  cases op with
  | input s d => exact ⟨hm.nodes, hm.fresh, hm.nodup, hm.owed, hm.reported, hm.finished⟩
  | execute => exact h.execute g
  | report id node => exact h.report hr id node
  | finish => exact h.finish
  | clean s =>
    refine ⟨hm.nodes, fun q hq => hm.fresh q (List.mem_filter.1 hq).1,
      hm.nodup.sublist (List.filter_sublist.map _),
      fun q hq => hm.owed q (List.mem_filter.1 hq).1, hm.reported, hm.finished⟩

theorem held_run {c : Config} {ns : List Nat} (g : Good c ns) (ops : List Op) :
    Held c ns ops (run c ops) := by
  have : ∀ r : List Op, Held c ns r.reverse (run c r.reverse) := by
    intro r
    induction r with
    | nil => exact held_init c ns
    | cons op r ih =>
      rw [List.reverse_cons, run_snoc]
      exact ih.step g rfl op
  have h := this ops.reverse
  rwa [List.reverse_reverse] at h

/-- Cleanups are of the session of the message that is held for them. -/
structure Sess (c : Config) (ops : List Op) (st : State) : Prop where
  cleaning : ∀ k ∈ st.cleaning, k.1 < st.next
  told : ∀ i n s, Told c ops i n s → i < st.next
  same : ∀ h ∈ st.holding, ∀ k ∈ st.cleaning, k.1 = h.1 → k.2.2 = h.2.1
  was : ∀ h ∈ st.holding, ∀ n s, Told c ops h.1 n s → s = h.2.1

theorem sess_init (c : Config) : Sess c [] {} := by
  refine ⟨by simp, ?_, by simp, by simp⟩
  rintro i n s ⟨pre, post, h, -⟩
  cases pre <;> cases h

/-- Steps that begin no cleanup and take no message. -/
theorem Sess.less {c : Config} {ops : List Op} {st st' : State} (h : Sess c ops st)
    (hr : st = run c ops) (op : Op) (hn : st'.next = st.next)
    (hc : ∀ k ∈ st'.cleaning, k ∈ st.cleaning) (hh : ∀ q ∈ st'.holding, q ∈ st.holding) :
    Sess c (ops ++ [op]) st' := by
  refine ⟨fun k hk => hn ▸ h.cleaning k (hc k hk), ?_, fun q hq k hk => h.same q (hh q hq) k
    (hc k hk), ?_⟩
  · intro i n s ht
    rw [hn]
    rcases (told_snoc _ _ _ _ _ _).1 ht with ht | ⟨-, hm⟩
    · exact h.told i n s ht
    · rw [← hr] at hm
      exact h.cleaning _ hm
  · intro q hq n s ht
    rcases (told_snoc _ _ _ _ _ _).1 ht with ht | ⟨-, hm⟩
    · exact h.was q (hh q hq) n s ht
    · rw [← hr] at hm
      exact h.same q (hh q hq) _ hm rfl

theorem Sess.step {c : Config} {ns : List Nat} (g : Good c ns) {ops : List Op} {st : State}
    (h : Sess c ops st) (hl : Held c ns ops st) (hr : st = run c ops) (op : Op) :
    Sess c (ops ++ [op]) (st.step c op) := by
  cases op with
  | input s d => exact h.less hr _ rfl (fun _ h => h) (fun _ h => h)
  | execute =>
    show Sess c _ (st.execute c)
    rcases execute_good g hl.nodes with ⟨-, he⟩ | ⟨s, d, rest, -, he⟩
    · rw [he]; exact h.less hr _ rfl (fun _ h => h) (fun _ h => h)
    · rw [he]
      have ht : ∀ i n s', Told c (ops ++ [.execute]) i n s' → Told c ops i n s' := by
        intro i n s' ht
        rcases (told_snoc _ _ _ _ _ _).1 ht with ht | ⟨e, -⟩
        · exact ht
        · cases e
      refine ⟨?_, fun i n s' hi => Nat.lt_succ_of_lt (h.told i n s' (ht _ _ _ hi)), ?_, ?_⟩
      · intro k hk
        rcases List.mem_append.1 hk with hk | hk
        · exact Nat.lt_succ_of_lt (h.cleaning k hk)
        · obtain ⟨n, -, rfl⟩ := List.mem_map.1 hk
          exact Nat.lt_succ_self _
      · intro q hq k hk e
        rcases List.mem_append.1 hk with hk | hk
        · rcases List.mem_cons.1 hq with rfl | hq
          · have := h.cleaning k hk
            have e : k.1 = st.next := e
            omega
          · exact h.same q hq k hk e
        · obtain ⟨n, -, rfl⟩ := List.mem_map.1 hk
          rcases List.mem_cons.1 hq with rfl | hq
          · rfl
          · have := hl.fresh q hq
            have e : st.next = q.1 := e
            omega
      · intro q hq n s' hi
        have hi := ht _ _ _ hi
        rcases List.mem_cons.1 hq with rfl | hq
        · have := h.told _ _ _ hi
          exact absurd this (Nat.lt_irrefl _)
        · exact h.was q hq n s' hi
  | report id node =>
    show Sess c _ (st.report id node)
    unfold State.report
    cases hk : st.cleaning.find? fun k => k.1 = id && k.2.1 = node with
    | none => exact h.less hr _ rfl (fun _ h => h) (fun _ h => h)
    | some k =>
      dsimp only
      have he : ∀ q ∈ st.cleaning.erase k, q ∈ st.cleaning := fun q hq => List.mem_of_mem_erase hq
      rcases notify_cases { st with cleaning := st.cleaning.erase k } id node k.2.2 with
        ⟨-, e⟩ | ⟨l, -, ⟨-, e⟩ | ⟨-, e⟩⟩ <;> rw [e] <;>
        exact h.less hr _ rfl he (fun _ h => h)
  | finish =>
    show Sess c _ st.finish
    rcases finish_cases st with ⟨hf, he⟩ | ⟨id, s, rest, hf, ⟨hl, he⟩ | ⟨m, nodes, hl, he⟩⟩
    · rw [he]; exact h.less hr _ rfl (fun _ h => h) (fun _ h => h)
    · rw [he]; exact h.less hr _ rfl (fun _ h => h) (fun _ h => h)
    · rw [he]; exact h.less hr _ rfl (fun _ h => h) (fun q h => (List.mem_filter.1 h).1)
  | clean s => exact h.less hr _ rfl (fun _ h => h) (fun q h => (List.mem_filter.1 h).1)

theorem sess_run {c : Config} {ns : List Nat} (g : Good c ns) (ops : List Op) :
    Sess c ops (run c ops) := by
  have : ∀ r : List Op, Sess c r.reverse (run c r.reverse) := by
    intro r
    induction r with
    | nil => exact sess_init c
    | cons op r ih =>
      rw [List.reverse_cons, run_snoc]
      exact ih.step g (held_run g _) rfl op
  have h := this ops.reverse
  rwa [List.reverse_reverse] at h

/-! ### Every message is somewhere -/

/-- Where the messages of a trim are. -/
def State.here (st : State) : List (Nat × Nat) := st.inputs ++ (st.holding.map (·.2) ++ st.out)

theorem ledger_step {c : Config} {ns : List Nat} (g : Good c ns) {ops : List Op} {st : State}
    (h : Held c ns ops st) (op : Op) :
    ((st.step c op).here ++ dropped c st [op]).Perm (st.here ++ entered [op]) := by
  cases op with
  | input s d =>
    show ((st.inputs ++ [(s, d)]) ++ (st.holding.map (·.2) ++ st.out) ++ [] : List (Nat × Nat)).Perm
      (st.inputs ++ (st.holding.map (·.2) ++ st.out) ++ [(s, d)])
    rw [List.append_nil, List.append_assoc, List.append_assoc]
    exact List.Perm.append_left _ List.perm_append_comm
  | execute =>
    show ((st.execute c).here ++ []).Perm (st.here ++ [])
    rw [List.append_nil, List.append_nil]
    rcases execute_good g h.nodes with ⟨-, he⟩ | ⟨s, d, rest, hi, he⟩
    · rw [he]
    · rw [he]
      show (rest ++ ((s, d) :: st.holding.map (·.2) ++ st.out)).Perm
        (st.inputs ++ (st.holding.map (·.2) ++ st.out))
      rw [hi, List.cons_append, List.cons_append]
      exact List.perm_middle
  | report id node =>
    have e : (st.report id node).here = st.here := by
      unfold State.report
      cases st.cleaning.find? fun k => k.1 = id && k.2.1 = node with
      | none => rfl
      | some k =>
        dsimp only
        rcases notify_cases { st with cleaning := st.cleaning.erase k } id node k.2.2 with
          ⟨-, he⟩ | ⟨l, -, ⟨-, he⟩ | ⟨-, he⟩⟩ <;> rw [he] <;> rfl
    show ((st.report id node).here ++ []).Perm (st.here ++ [])
    rw [e]
  | finish =>
    show (st.finish.here ++ []).Perm (st.here ++ [])
    rw [List.append_nil, List.append_nil]
    rcases finish_cases st with ⟨hf, he⟩ | ⟨id, s, rest, hf, ⟨hl, he⟩ | ⟨m, nodes, hl, he⟩⟩
    · rw [he]
    · rw [he]; exact .refl _
    · rw [he]
      have hp := (perm_lookup h.nodup hl).map (·.2)
      show (st.inputs ++ ((st.holding.filter fun h => h.1 ≠ id).map (·.2) ++
        (st.out ++ [m]))).Perm (st.inputs ++ (st.holding.map (·.2) ++ st.out))
      refine List.Perm.append_left _ ?_
      refine List.Perm.trans ?_ (hp.symm.append_right _)
      rw [← List.append_assoc]
      refine List.perm_append_comm.trans ?_
      exact .refl _
  | clean s =>
    have h1 := perm_filter (fun i : Nat × Nat => decide (i.1 = s)) st.inputs
    have h2 := (perm_filter (fun q : Nat × Nat × Nat => decide (q.2.1 = s)) st.holding).map (fun x : Nat × Nat × Nat => x.2)
    have e1 : (fun i : Nat × Nat => !decide (i.1 = s)) = fun i => decide (i.1 ≠ s) := by
      funext i; simp
    have e2 : (fun q : Nat × Nat × Nat => !decide (q.2.1 = s)) = fun q => decide (q.2.1 ≠ s) := by
      funext i; simp
    rw [e1] at h1
    rw [e2, List.map_append] at h2
    show ((List.filter (fun i : Nat × Nat => decide (i.1 ≠ s)) st.inputs ++
      ((List.filter (fun h : Nat × Nat × Nat => decide (h.2.1 ≠ s)) st.holding).map (fun x : Nat × Nat × Nat => x.2) ++
        st.out)) ++
      ((List.filter (fun i : Nat × Nat => decide (i.1 = s)) st.inputs ++
        (List.filter (fun h : Nat × Nat × Nat => decide (h.2.1 = s)) st.holding).map (fun x : Nat × Nat × Nat => x.2)) ++
        [])).Perm
      ((st.inputs ++ (st.holding.map (fun x : Nat × Nat × Nat => x.2) ++ st.out)) ++ [])
    rw [List.append_nil, List.append_nil]
    generalize List.filter (fun i : Nat × Nat => decide (i.1 ≠ s)) st.inputs = a at h1 ⊢
    generalize List.filter (fun i : Nat × Nat => decide (i.1 = s)) st.inputs = b at h1 ⊢
    generalize (List.filter (fun h : Nat × Nat × Nat => decide (h.2.1 ≠ s)) st.holding).map
      (fun x : Nat × Nat × Nat => x.2) = x at h2 ⊢
    generalize (List.filter (fun h : Nat × Nat × Nat => decide (h.2.1 = s)) st.holding).map
      (fun x : Nat × Nat × Nat => x.2) = y at h2 ⊢
    have h3 := (h1.append (h2.append_right st.out)).symm
    refine List.Perm.trans ?_ h3
    have p1 : ((a ++ (x ++ st.out)) ++ (b ++ y)).Perm (a ++ (b ++ (y ++ (x ++ st.out)))) := by
      rw [List.append_assoc]
      refine List.Perm.append_left _ ?_
      refine List.perm_append_comm.trans ?_
      rw [List.append_assoc]
    refine p1.trans ?_
    rw [List.append_assoc]
    refine List.Perm.append_left _ (List.Perm.append_left _ ?_)
    rw [← List.append_assoc]
    exact List.perm_append_comm.append_right _

theorem dropped_cons (c : Config) (st : State) (op : Op) (ops : List Op) :
    dropped c st (op :: ops) = dropped c st [op] ++ dropped c (st.step c op) ops := by
  cases op <;> simp [dropped]

theorem entered_cons (op : Op) (ops : List Op) :
    entered (op :: ops) = entered [op] ++ entered ops := by
  cases op <;> simp [entered]

theorem ledger_run {c : Config} {ns : List Nat} (g : Good c ns) (ops : List Op) :
    ((run c ops).here ++ dropped c {} ops).Perm (entered ops) := by
  have : ∀ ops past : List Op,
      ((run c (past ++ ops)).here ++ dropped c (run c past) ops).Perm
        ((run c past).here ++ entered ops) := by
    intro ops
    induction ops with
    | nil => intro past; rw [List.append_nil]; exact .refl _
    | cons op ops ih =>
      intro past
      have h1 := ledger_step g (held_run g past) op
      have h2 := ih (past ++ [op])
      rw [run_snoc, List.append_assoc, List.singleton_append] at h2
      rw [dropped_cons, entered_cons]
      refine List.Perm.trans (l₂ := ((run c (past ++ op :: ops)).here ++
        dropped c ((run c past).step c op) ops) ++ dropped c (run c past) [op]) ?_ ?_
      · rw [List.append_assoc]
        exact List.Perm.append_left _ List.perm_append_comm
      refine (h2.append_right _).trans ?_
      refine List.Perm.trans (l₂ := (((run c past).step c op).here ++
        dropped c (run c past) [op]) ++ entered ops) ?_ ?_
      · rw [List.append_assoc, List.append_assoc]
        exact List.Perm.append_left _ List.perm_append_comm
      refine (h1.append_right _).trans ?_
      rw [List.append_assoc]
  exact this ops []

/-! ### A trim that cannot work -/

/-- What keeps a trim from ever sending anything on: there is nothing to trim, the trim itself
is among the operations, or an entity among them cannot be cleaned. -/
def Hopeless (c : Config) (ns : List Nat) : Prop :=
  ns = [] ∨ c.self ∈ ns ∨ ∃ n ∈ ns, c.cleanable n = false

/-- Nothing was sent on and nothing will be. -/
structure Silent (c : Config) (ns : List Nat) (st : State) : Prop where
  nodes : st.nodes = none ∨ st.nodes = some (.ok ns)
  out : st.out = []
  why : (ns = [] ∧ st.finished = [] ∧ st.cleaning = []) ∨
    (c.self ∈ ns ∧ st.holding = []) ∨
    ∃ n ∈ ns, n ≠ c.self ∧ c.cleanable n = false ∧ st.finished = [] ∧
      (∀ a ∈ st.awaiting, n ∈ a.2) ∧ ∀ k ∈ st.cleaning, k.2.1 ≠ n

/-- An entity that does not report is still awaited. -/
def Awaits (n : Nat) (st : State) : Prop :=
  st.finished = [] ∧ (∀ a ∈ st.awaiting, n ∈ a.2) ∧ ∀ k ∈ st.cleaning, k.2.1 ≠ n

theorem Awaits.notify {n : Nat} {st : State} (h : Awaits n st) {node : Nat} (hn : node ≠ n)
    (id session : Nat) : Awaits n (st.notify id node session) := by
  obtain ⟨h1, h2, h3⟩ := h
  rcases notify_cases st id node session with ⟨-, he⟩ | ⟨l, hl, ⟨hf, he⟩ | ⟨-, he⟩⟩
  · rw [he]; exact ⟨h1, h2, h3⟩
  · exfalso
    have : n ∈ l.filter fun m => m ≠ node := by
      have := h2 _ (lookup_mem hl)
      simpa [this] using fun e => hn (Eq.symm e)
    rw [hf] at this
    cases this
  · rw [he]
    refine ⟨h1, ?_, h3⟩
    intro a ha
    rcases List.mem_cons.1 ha with rfl | ha
    · have := h2 _ (lookup_mem hl)
      simpa [this] using fun e => hn (Eq.symm e)
    · exact h2 a (List.mem_filter.1 ha).1

theorem cleanNode_fields (c : Config) (st : State) (id s n : Nat) :
    (st.cleanNode c id s n).out = st.out ∧ (st.cleanNode c id s n).nodes = st.nodes ∧
    ((st.cleanNode c id s n).holding = st.holding ∨
      (st.cleanNode c id s n).holding = st.holding.filter fun h => h.2.1 ≠ s) ∧
    (n = c.self → (st.cleanNode c id s n).holding = st.holding.filter fun h => h.2.1 ≠ s) := by
  unfold State.cleanNode
  split
  · rcases notify_cases (st.clean s) id n s with ⟨-, he⟩ | ⟨l, -, ⟨-, he⟩ | ⟨-, he⟩⟩ <;>
      rw [he] <;> exact ⟨rfl, rfl, .inr rfl, fun _ => rfl⟩
  · next h =>
    split
    · exact ⟨rfl, rfl, .inl rfl, fun e => absurd e h⟩
    · exact ⟨rfl, rfl, .inl rfl, fun e => absurd e h⟩

theorem foldl_fields (c : Config) (id s : Nat) (ns : List Nat) : ∀ st : State,
    (ns.foldl (fun st n => st.cleanNode c id s n) st).out = st.out ∧
    (ns.foldl (fun st n => st.cleanNode c id s n) st).nodes = st.nodes ∧
    ((∀ h ∈ st.holding, h.2.1 = s) → c.self ∈ ns →
      (ns.foldl (fun st n => st.cleanNode c id s n) st).holding = []) := by
  induction ns with
  | nil => intro st; exact ⟨rfl, rfl, fun _ h => by simp at h⟩
  | cons n ns ih =>
    intro st
    rw [List.foldl_cons]
    obtain ⟨h1, h2, h3, h4⟩ := cleanNode_fields c st id s n
    obtain ⟨i1, i2, i3⟩ := ih (st.cleanNode c id s n)
    refine ⟨i1.trans h1, i2.trans h2, ?_⟩
    intro hs hm
    by_cases e : n = c.self
    · have hnil : (st.cleanNode c id s n).holding = [] := by
        rw [h4 e, List.filter_eq_nil_iff]
        intro q hq
        simp [hs q hq]
      have keep : ∀ (l : List Nat) (st : State), st.holding = [] →
          (l.foldl (fun st n => st.cleanNode c id s n) st).holding = [] := by
        intro l
        induction l with
        | nil => intro st h; exact h
        | cons m l ihl =>
          intro st h
          rw [List.foldl_cons]
          refine ihl _ ?_
          rcases (cleanNode_fields c st id s m).2.2.1 with hh | hh <;> rw [hh, h] <;> rfl
      exact keep ns _ hnil
    · refine i3 ?_ ?_
      · intro q hq
        rcases h3 with hh | hh
        · rw [hh] at hq; exact hs q hq
        · rw [hh] at hq; exact hs q (List.mem_filter.1 hq).1
      · rcases List.mem_cons.1 hm with h | h
        · exact absurd h.symm e
        · exact h

theorem foldl_awaits {c : Config} {n : Nat} (hs : n ≠ c.self) (hc : c.cleanable n = false)
    (id s : Nat) (ns : List Nat) : ∀ st : State, Awaits n st →
    Awaits n (ns.foldl (fun st n => st.cleanNode c id s n) st) := by
  induction ns with
  | nil => intro st h; exact h
  | cons m ns ih =>
    intro st h
    rw [List.foldl_cons]
    refine ih _ ?_
    unfold State.cleanNode
    split
    · next e => exact Awaits.notify (st := st.clean s) h (fun e' => hs (e'.symm.trans e)) _ _
    · split
      · next hm =>
        refine ⟨h.1, h.2.1, ?_⟩
        intro k hk
        rcases List.mem_append.1 hk with hk | hk
        · exact h.2.2 k hk
        · simp at hk
          subst hk
          show m ≠ n
          rintro rfl
          rw [hc] at hm; cases hm
      · exact h

theorem Silent.execute {c : Config} {ns : List Nat}
    (hc : calculateNodes c.net c.entry c.branches = some (.ok ns)) {st : State}
    (h : Silent c ns st) : Silent c ns (st.execute c) := by
  cases hi : st.inputs with
  | nil =>
    have : st.execute c = st := by simp [State.execute, hi]
    rw [this]; exact h
  | cons a rest =>
    obtain ⟨s, d⟩ := a
    let st1 : State := { st with inputs := rest, nodes := some (.ok ns), next := st.next + 1,
                                 holding := (st.next, s, d) :: st.holding,
                                 awaiting := (st.next, ns) :: st.awaiting }
    have he : st.execute c =
        ns.foldl (fun st' n => st'.cleanNode c st.next s n) st1 := by
      unfold State.execute
      simp only [hi]
      rcases h.nodes with hn | hn
      · simp only [hn, hc, State.trim]
        rfl
      · have e1 : st1 = { st with inputs := rest, next := st.next + 1,
                                  holding := (st.next, s, d) :: st.holding,
                                  awaiting := (st.next, ns) :: st.awaiting } := by
          simp only [st1, ← hn]
        rw [e1]
        simp only [hn, State.trim]
    rw [he]
    obtain ⟨f1, f2, f3⟩ := foldl_fields c st.next s ns st1
    refine ⟨.inr f2, f1.trans h.out, ?_⟩
    rcases h.why with ⟨rfl, w1, w2⟩ | ⟨w1, w2⟩ | ⟨n, hn, hs, hcl, hw⟩
    · exact .inl ⟨rfl, w1, w2⟩
    · refine .inr (.inl ⟨w1, f3 ?_ w1⟩)
      intro q hq
      have hq : q ∈ (st.next, s, d) :: st.holding := hq
      rw [w2] at hq
      simp at hq
      rw [hq]
    · refine .inr (.inr ⟨n, hn, hs, hcl, ?_⟩)
      refine foldl_awaits hs hcl _ _ ns st1 ⟨hw.1, ?_, hw.2.2⟩
      intro a ha
      rcases List.mem_cons.1 ha with rfl | ha
      · exact hn
      · exact hw.2.1 a ha

theorem Silent.step {c : Config} {ns : List Nat}
    (hc : calculateNodes c.net c.entry c.branches = some (.ok ns)) {st : State}
    (h : Silent c ns st) (op : Op) : Silent c ns (st.step c op) := by
  cases op with
  | input s d => exact ⟨h.nodes, h.out, h.why⟩
  | execute => exact h.execute hc
  | report id node =>
    show Silent c ns (st.report id node)
    unfold State.report
    cases hk : st.cleaning.find? fun k => k.1 = id && k.2.1 = node with
    | none => exact h
    | some k =>
      dsimp only
      have hmem := List.mem_of_find?_eq_some hk
      have hkey : k.1 = id ∧ k.2.1 = node := by simpa using List.find?_some hk
      have hf : ∀ st' : State, (st'.notify id node k.2.2).out = st'.out ∧
          (st'.notify id node k.2.2).nodes = st'.nodes ∧
          (st'.notify id node k.2.2).holding = st'.holding := by
        intro st'
        rcases notify_cases st' id node k.2.2 with ⟨-, he⟩ | ⟨l, -, ⟨-, he⟩ | ⟨-, he⟩⟩ <;>
          rw [he] <;> exact ⟨rfl, rfl, rfl⟩
      obtain ⟨f1, f2, f3⟩ := hf { st with cleaning := st.cleaning.erase k }
      refine ⟨by rw [f2]; exact h.nodes, f1.trans h.out, ?_⟩
      rcases h.why with ⟨-, -, w⟩ | ⟨w1, w2⟩ | ⟨n, hn, hs, hcl, hw⟩
      · rw [w] at hmem; cases hmem
      · exact .inr (.inl ⟨w1, f3.trans w2⟩)
      · refine .inr (.inr ⟨n, hn, hs, hcl, ?_⟩)
        have h0 : Awaits n { st with cleaning := st.cleaning.erase k } :=
          ⟨hw.1, hw.2.1, fun k' hk' => hw.2.2 k' (List.mem_of_mem_erase hk')⟩
        refine h0.notify ?_ _ _
        rw [← hkey.2]
        exact hw.2.2 k hmem
  | finish =>
    show Silent c ns st.finish
    rcases finish_cases st with ⟨hf, he⟩ | ⟨id, s, rest, hf, ⟨hl, he⟩ | ⟨m, nodes, hl, he⟩⟩
    · rw [he]; exact h
    · rw [he]
      refine ⟨h.nodes, h.out, ?_⟩
      rcases h.why with ⟨-, w, -⟩ | w | ⟨n, hn, hs, hcl, hw⟩
      · rw [w] at hf; cases hf
      · exact .inr (.inl w)
      · rw [hw.1] at hf; cases hf
    · exfalso
      rcases h.why with ⟨-, w, -⟩ | ⟨-, w⟩ | ⟨n, hn, hs, hcl, hw⟩
      · rw [w] at hf; cases hf
      · rw [w] at hl; cases hl
      · rw [hw.1] at hf; cases hf
  | clean s =>
    refine ⟨h.nodes, h.out, ?_⟩
    rcases h.why with w | ⟨w1, w2⟩ | w
    · exact .inl w
    · refine .inr (.inl ⟨w1, ?_⟩)
      show st.holding.filter _ = []
      rw [w2]; rfl
    · exact .inr (.inr w)

theorem silent_init {c : Config} {ns : List Nat} (h : Hopeless c ns) : Silent c ns {} := by
  refine ⟨.inl rfl, rfl, ?_⟩
  rcases h with h | h | ⟨n, hn, hc⟩
  · exact .inl ⟨h, rfl, rfl⟩
  · exact .inr (.inl ⟨h, rfl⟩)
  · by_cases hs : n = c.self
    · exact .inr (.inl ⟨hs ▸ hn, rfl⟩)
    · exact .inr (.inr ⟨n, hn, hs, hc, rfl, by simp, by simp⟩)

theorem silent_run {c : Config} {ns : List Nat}
    (hc : calculateNodes c.net c.entry c.branches = some (.ok ns)) (h : Hopeless c ns)
    (ops : List Op) : Silent c ns (run c ops) := by
  have : ∀ (ops : List Op) (st : State), Silent c ns st →
      Silent c ns (ops.foldl (State.step c) st) := by
    intro ops
    induction ops with
    | nil => intro st h; exact h
    | cons op ops ih => intro st h; exact ih _ (h.step hc op)
  exact this ops _ (silent_init h)

/-! ### A trim with an invalid branch -/

/-- Nothing is held when the branches are invalid. -/
structure Refused (st : State) (e : Invalid) : Prop where
  nodes : st.nodes = none ∨ st.nodes = some (.error e)
  out : st.out = []
  holding : st.holding = []
  finished : st.finished = []
  cleaning : st.cleaning = []

theorem Refused.step {c : Config} {e : Invalid}
    (hc : calculateNodes c.net c.entry c.branches = some (.error e)) {st : State}
    (h : Refused st e) (op : Op) :
    Refused (st.step c op) e ∧
    (((st.step c op).inputs ++ dropped c st [op]).map (fun x : Nat × Nat => x.1) ++ (st.step c op).cancelled).Perm
      ((st.inputs ++ entered [op]).map (fun x : Nat × Nat => x.1) ++ st.cancelled) := by
  cases op with
  | input s d =>
    refine ⟨⟨h.nodes, h.out, h.holding, h.finished, h.cleaning⟩, ?_⟩
    show ((st.inputs ++ [(s, d)] ++ []).map (fun x : Nat × Nat => x.1) ++ st.cancelled).Perm
      ((st.inputs ++ [(s, d)]).map (fun x : Nat × Nat => x.1) ++ st.cancelled)
    rw [List.append_nil]
  | execute =>
    show Refused (st.execute c) e ∧ (((st.execute c).inputs ++ []).map (fun x : Nat × Nat => x.1) ++
      (st.execute c).cancelled).Perm ((st.inputs ++ []).map (fun x : Nat × Nat => x.1) ++ st.cancelled)
    rw [List.append_nil, List.append_nil]
    cases hi : st.inputs with
    | nil =>
      have : st.execute c = st := by simp [State.execute, hi]
      rw [this, hi]
      exact ⟨h, .refl _⟩
    | cons a rest =>
      obtain ⟨s, d⟩ := a
      have he : st.execute c = { st with inputs := rest, nodes := some (.error e),
                                         cancelled := st.cancelled ++ [s] } := by
        unfold State.execute
        simp only [hi]
        rcases h.nodes with hn | hn
        · simp only [hn, hc]
        · simp only [hn]
      rw [he]
      refine ⟨⟨.inr rfl, h.out, h.holding, h.finished, h.cleaning⟩, ?_⟩
      show (rest.map (fun x : Nat × Nat => x.1) ++ (st.cancelled ++ [s])).Perm
        (((s, d) :: rest).map (fun x : Nat × Nat => x.1) ++ st.cancelled)
      rw [List.map_cons, ← List.append_assoc]
      exact List.perm_append_comm
  | report id node =>
    have : st.step c (.report id node) = st := by
      simp [State.step, State.report, h.cleaning]
    rw [this]
    exact ⟨h, .refl _⟩
  | finish =>
    have : st.step c .finish = st := by simp [State.step, State.finish, h.finished]
    rw [this]
    exact ⟨h, .refl _⟩
  | clean s =>
    refine ⟨⟨h.nodes, h.out, ?_, h.finished, h.cleaning⟩, ?_⟩
    · show st.holding.filter _ = []
      rw [h.holding]; rfl
    · have h1 := perm_filter (fun i : Nat × Nat => decide (i.1 = s)) st.inputs
      have e1 : (fun i : Nat × Nat => !decide (i.1 = s)) = fun i => decide (i.1 ≠ s) := by
        funext i; simp
      rw [e1] at h1
      show ((List.filter (fun i : Nat × Nat => decide (i.1 ≠ s)) st.inputs ++
        ((List.filter (fun i : Nat × Nat => decide (i.1 = s)) st.inputs ++
          (List.filter (fun h : Nat × Nat × Nat => decide (h.2.1 = s)) st.holding).map (fun x : Nat × Nat × Nat => x.2)) ++
          [])).map (fun x : Nat × Nat => x.1) ++ st.cancelled).Perm
        ((st.inputs ++ []).map (fun x : Nat × Nat => x.1) ++ st.cancelled)
      rw [h.holding]
      simp only [List.filter_nil, List.map_nil, List.append_nil]
      exact (h1.symm.map _).append_right _

theorem refused_fold {c : Config} {e : Invalid}
    (hc : calculateNodes c.net c.entry c.branches = some (.error e)) (ops : List Op) :
    ∀ {st : State}, Refused st e →
      Refused (ops.foldl (State.step c) st) e ∧
      (((ops.foldl (State.step c) st).inputs ++ dropped c st ops).map (fun x : Nat × Nat => x.1) ++
        (ops.foldl (State.step c) st).cancelled).Perm
        ((st.inputs ++ entered ops).map (·.1) ++ st.cancelled) := by
  induction ops with
  | nil => intro st h; exact ⟨h, .refl _⟩
  | cons op ops ih =>
    intro st h
    obtain ⟨h1, p1⟩ := h.step hc op
    obtain ⟨h2, p2⟩ := ih h1
    refine ⟨h2, ?_⟩
    rw [List.foldl_cons, dropped_cons, entered_cons]
    generalize ops.foldl (State.step c) (st.step c op) = st2 at p2 ⊢
    simp only [List.map_append] at p1 p2 ⊢
    generalize (dropped c st [op]).map (·.1) = x at p1 ⊢
    generalize (dropped c (st.step c op) ops).map (·.1) = y at p2 ⊢
    generalize (entered [op]).map (·.1) = z at p1 ⊢
    generalize (entered ops).map (·.1) = v at p2 ⊢
    generalize st2.inputs.map (·.1) = i2 at p2 ⊢
    generalize (st.step c op).inputs.map (·.1) = i1 at p1 p2
    generalize st.inputs.map (·.1) = i0 at p1 ⊢
    refine List.Perm.trans (l₂ := (i2 ++ y ++ st2.cancelled) ++ x) ?_ ?_
    · simp only [List.append_assoc]
      refine List.Perm.append_left _ ?_
      rw [← List.append_assoc y]
      exact List.perm_append_comm
    refine (p2.append_right _).trans ?_
    refine List.Perm.trans (l₂ := (i1 ++ x ++ (st.step c op).cancelled) ++ v) ?_ ?_
    · simp only [List.append_assoc]
      refine List.Perm.append_left _ ?_
      refine List.perm_append_comm.trans ?_
      rw [List.append_assoc]
      refine (List.perm_append_comm).trans ?_
      rw [List.append_assoc]
      exact List.Perm.append_left _ List.perm_append_comm
    refine (p1.append_right _).trans ?_
    simp only [List.append_assoc]
    exact List.Perm.append_left _ (List.Perm.append_left _ List.perm_append_comm)

end Verif.Trim
