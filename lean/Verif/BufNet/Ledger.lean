import Verif.BufNet.Runs

/-
The account of the values of a buffer along a run, used by Verif.BufNet.Props.
-/
set_option linter.unusedSectionVars false
set_option linter.unusedSimpArgs false
namespace Verif.BufNet

open Verif.Buffer (Storage Retention)

variable {B L S T : Type} [DecidableEq B] [DecidableEq L] [DecidableEq S]

theorem sentTo_append (b : B) (s : S) (h h' : List (Hist B L S T)) :
    sentTo b s (h ++ h') = sentTo b s h ++ sentTo b s h' := by
  simp [sentTo, List.filterMap_append]

theorem takenFrom_append (b : B) (s : S) (h h' : List (Hist B L S T)) :
    takenFrom b s (h ++ h') = takenFrom b s h ++ takenFrom b s h' := by
  simp [takenFrom, List.flatMap_append]

theorem messages_append (l : L) (s : S) (h h' : List (Hist B L S T)) :
    messages l s (h ++ h') = messages l s h ++ messages l s h' := by
  simp [messages, List.filterMap_append]

theorem wakes_append (h h' : List (Hist B L S T)) : wakes (h ++ h') = wakes h ++ wakes h' := by
  simp [wakes, List.filterMap_append]

theorem wakeAll_sent (b : B) (s : S) (st : St B L S T) (ls : List L) (b' : B) (s' : S) :
    sentTo b' s' (wakeAll b s st ls).2 = [] := by
  rw [wakeAll_hist]; split
  · simp [sentTo, List.filterMap_map, List.filterMap_eq_nil_iff]
  · rfl

theorem wakeAll_takenFrom (b : B) (s : S) (st : St B L S T) (ls : List L) (b' : B) (s' : S) :
    takenFrom b' s' (wakeAll b s st ls).2 = [] := by
  rw [wakeAll_hist]; split
  · simp [takenFrom]
  · rfl

theorem wakeAll_messages (b : B) (s : S) (st : St B L S T) (ls : List L) (l : L) (s' : S) :
    messages l s' (wakeAll b s st ls).2 = [] := by
  rw [wakeAll_hist]; split
  · simp [messages, List.filterMap_map, List.filterMap_eq_nil_iff]
  · rfl

theorem wakeAll_wakes (b : B) (s : S) (st : St B L S T) (ls : List L) :
    wakes (wakeAll b s st ls).2 = if st.active s then ls.map (b, ·, s) else [] := by
  rw [wakeAll_hist]; split
  · simp only [wakes, List.filterMap_map]
    induction ls with
    | nil => rfl
    | cons l ls ih => simp [ih]
  · rfl

theorem wakeAll_content (b : B) (s : S) (st : St B L S T) (ls : List L) (b' : B) (s' : S) :
    content (wakeAll b s st ls).1 b' s' = content st b' s' := by
  simp only [content, (wakeAll_buf b s st ls).1]

theorem wakeAll_arriving (b : B) (s : S) (st : St B L S T) (ls : List L) (b' : B) (s' : S) :
    arriving (wakeAll b s st ls).1 b' s' = arriving st b' s' := by
  simp only [arriving, (wakeAll_buf b s st ls).1]

/-- What `execBuf` does to the values. -/
theorem execBuf_ledger (st : St B L S T) (b b' : B) (s' : S) :
    (content (execBuf st b).1 b' s' ++ arriving (execBuf st b).1 b' s').Sublist
        (content st b' s' ++ arriving st b' s') ∧
      ((st.buf b).store.retention = .keepAll →
        content (execBuf st b).1 b' s' ++ arriving (execBuf st b).1 b' s' =
          content st b' s' ++ arriving st b' s') ∧
      sentTo b' s' (execBuf st b).2 = [] ∧ takenFrom b' s' (execBuf st b).2 = [] := by
  unfold execBuf
  cases hin : (st.buf b).input with
  | nil => exact ⟨List.Sublist.refl _, fun _ => rfl, rfl, rfl⟩
  | cons c rest =>
    obtain ⟨s, v⟩ := c
    simp only
    generalize hst1 : setBuf st b
      { st.buf b with input := rest, store := ((st.buf b).store.forcePush s v).1 } = st1
    have key : (content st1 b' s' ++ arriving st1 b' s').Sublist
          (content st b' s' ++ arriving st b' s') ∧
        ((st.buf b).store.retention = .keepAll →
          content st1 b' s' ++ arriving st1 b' s' = content st b' s' ++ arriving st b' s') := by
      subst hst1
      by_cases hb : b' = b
      · subst hb
        by_cases hs : s = s'
        · subst hs
          have h1 : arriving st b' s = v :: arriving (setBuf st b' { st.buf b' with
              input := rest, store := ((st.buf b').store.forcePush s v).1 }) b' s := by
            simp [arriving, hin, setBuf]
          have h2 := forcePush_sublist (st.buf b').store s v
          rw [h1]
          constructor
          · have := h2.append (List.Sublist.refl (arriving (setBuf st b' { st.buf b' with
              input := rest, store := ((st.buf b').store.forcePush s v).1 }) b' s))
            simpa [content, setBuf] using this
          · intro hk
            have := forcePush_keepAll (st.buf b').store s v hk
            simp [content, setBuf, this]
        · have h1 : arriving (setBuf st b' { st.buf b' with
              input := rest, store := ((st.buf b').store.forcePush s v).1 }) b' s' =
              arriving st b' s' := by
            simp [arriving, hin, setBuf, hs]
          have h2 : content (setBuf st b' { st.buf b' with
              input := rest, store := ((st.buf b').store.forcePush s v).1 }) b' s' =
              content st b' s' := by
            simp [content, setBuf, forcePush_iter_other _ _ _ _ (Ne.symm hs)]
          rw [h1, h2]
          exact ⟨List.Sublist.refl _, fun _ => rfl⟩
      · have h1 : arriving (setBuf st b { st.buf b with
              input := rest, store := ((st.buf b).store.forcePush s v).1 }) b' s' =
              arriving st b' s' := by simp [arriving, setBuf, hb]
        have h2 : content (setBuf st b { st.buf b with
              input := rest, store := ((st.buf b).store.forcePush s v).1 }) b' s' =
              content st b' s' := by simp [content, setBuf, hb]
        rw [h1, h2]
        exact ⟨List.Sublist.refl _, fun _ => rfl⟩
    split
    · exact ⟨key.1, key.2, rfl, rfl⟩
    · rw [wakeAll_content, wakeAll_arriving, wakeAll_sent, wakeAll_takenFrom]
      exact ⟨key.1, key.2, rfl, rfl⟩

theorem taken_arriving {s : S} {st st' : St B L S T} (h : Taken s st st') (b : B) (s' : S) :
    arriving st' b s' = arriving st b s' := by simp only [arriving, h.input]

/-- What `execLis` does to the values. -/
theorem execLis_ledger (st : St B L S T) (l : L) (b : B) (s : S) :
    (takenFrom b s (execLis st l).2 ++
        (content (execLis st l).1 b s ++ arriving (execLis st l).1 b s)).Sublist
        (content st b s ++ arriving st b s) ∧
      ((∀ bufs, (st.lis l).kind = .join bufs → (bufs.map (·.1)).Nodup) →
        takenFrom b s (execLis st l).2 ++
          (content (execLis st l).1 b s ++ arriving (execLis st l).1 b s) =
          content st b s ++ arriving st b s) ∧
      sentTo b s (execLis st l).2 = [] := by
  rcases execLis_cases st l with ⟨-, he⟩ | ⟨s1, rest, hp, ⟨hk, he⟩ | ⟨bufs, hk, h'⟩⟩
  · rw [he]; exact ⟨List.Sublist.refl _, fun _ => rfl, rfl⟩
  · rw [he]; exact ⟨List.Sublist.refl _, fun _ => rfl, rfl⟩
  · generalize hst1 : setLis st l { st.lis l with pending := rest } = st1 at h'
    have hc1 : ∀ b s, content st1 b s = content st b s := by intros; subst hst1; rfl
    have ha1 : ∀ b s, arriving st1 b s = arriving st b s := by intros; subst hst1; rfl
    rcases h' with ⟨-, he⟩ | ⟨-, hne, ⟨items, hi, he⟩ | ⟨hi, he⟩⟩
    · rw [he]
      refine ⟨?_, fun _ => ?_, rfl⟩
      · simp [takenFrom, hc1, ha1]
      · simp [takenFrom, hc1, ha1]
    · have ht := fetch_taken s1 st1 bufs
      have hl := fetch_ledger s1 st1 (fetch s1 st1 bufs).1 bufs items
        (by rw [← hi]) b
      have heq : takenFrom b s (execLis st l).2 ++
          (content (execLis st l).1 b s ++ arriving (execLis st l).1 b s) =
          content st b s ++ arriving st b s := by
        rw [he, taken_arriving ht, ha1]
        by_cases hs : s1 = s
        · subst hs
          simp only [takenFrom, List.flatMap_cons, List.flatMap_nil, List.append_nil, if_true]
          rw [← List.append_assoc, ← hl, hc1]
        · rw [ht.other b s (Ne.symm hs), hc1]
          simp [takenFrom, hs]
      refine ⟨by rw [heq]; exact List.Sublist.refl _, fun _ => heq, by rw [he]; rfl⟩
    · have ht := fetch_taken s1 st1 bufs
      rw [he]
      refine ⟨?_, fun hnd => ?_, rfl⟩
      · simp only [taken_arriving ht, ha1]
        have : (content (fetch s1 st1 bufs).1 b s).Sublist (content st b s) := by
          by_cases hs : s1 = s
          · subst hs; rw [← hc1]; exact (fetch_suffix s1 st1 bufs b).sublist
          · rw [ht.other b s (Ne.symm hs), hc1]; exact List.Sublist.refl _
        simpa [takenFrom] using this.append (List.Sublist.refl (arriving st b s))
      · exfalso
        obtain ⟨items, h1, -⟩ := fetch_ok s1 st1 bufs (hnd bufs hk)
          (fun p hp => by rw [hc1]; exact hne p hp)
        rw [h1] at hi; cases hi

theorem setBuf_gate_values (st : St B L S T) (b : B) (g : S → Option Gate) (b' : B) (s' : S) :
    content (setBuf st b { st.buf b with gate := g }) b' s' = content st b' s' ∧
      arriving (setBuf st b { st.buf b with gate := g }) b' s' = arriving st b' s' := by
  by_cases h : b' = b
  · subst h; simp [content, arriving, setBuf]
  · simp [content, arriving, setBuf, h]

theorem notifyUpdate_values (st : St B L S T) (b : B) (s : S) (a : Option L) (b' : B) (s' : S) :
    content (notifyUpdate st b s a).1 b' s' = content st b' s' ∧
      arriving (notifyUpdate st b s a).1 b' s' = arriving st b' s' ∧
      sentTo b' s' (notifyUpdate st b s a).2 = [] ∧
      takenFrom b' s' (notifyUpdate st b s a).2 = [] := by
  unfold notifyUpdate; split
  · exact ⟨rfl, rfl, rfl, rfl⟩
  · exact ⟨wakeAll_content _ _ _ _ _ _, wakeAll_arriving _ _ _ _ _ _, wakeAll_sent _ _ _ _ _ _,
      wakeAll_takenFrom _ _ _ _ _ _⟩

theorem step_ledger (st : St B L S T) (e : Ev B L S T) (b : B) (s : S) (he : keyOn b e = false) :
    (takenFrom b s (step st e).2 ++ (content (step st e).1 b s ++ arriving (step st e).1 b s)).Sublist
        (content st b s ++ arriving st b s ++ sentTo b s (step st e).2) ∧
      ((st.buf b).store.retention = .keepAll →
        (∀ l bufs, (st.lis l).kind = .join bufs → (bufs.map (·.1)).Nodup) →
        takenFrom b s (step st e).2 ++
          (content (step st e).1 b s ++ arriving (step st e).1 b s) =
          content st b s ++ arriving st b s ++ sentTo b s (step st e).2) := by
  have trivialCase : ∀ (st' : St B L S T) (h : List (Hist B L S T)),
      content st' b s = content st b s → arriving st' b s = arriving st b s →
      sentTo b s h = [] → takenFrom b s h = [] →
      (takenFrom b s h ++ (content st' b s ++ arriving st' b s)).Sublist
          (content st b s ++ arriving st b s ++ sentTo b s h) ∧
        ((st.buf b).store.retention = .keepAll →
          (∀ l bufs, (st.lis l).kind = .join bufs → (bufs.map (·.1)).Nodup) →
          takenFrom b s h ++ (content st' b s ++ arriving st' b s) =
            content st b s ++ arriving st b s ++ sentTo b s h) := by
    intro st' h h1 h2 h3 h4
    rw [h1, h2, h3, h4]; simp
  cases e with
  | send b' s' v =>
    simp only [step, send]
    split
    · have h1 : content (setBuf { st with roster := st.roster ++ [.buf b'] } b'
          { st.buf b' with input := (st.buf b').input ++ [(s', v)] }) b s = content st b s := by
        by_cases hb : b = b'
        · subst hb; simp [content, setBuf]
        · simp [content, setBuf, hb]
      have h2 : arriving (setBuf { st with roster := st.roster ++ [.buf b'] } b'
          { st.buf b' with input := (st.buf b').input ++ [(s', v)] }) b s =
          arriving st b s ++ sentTo b s [Hist.sent (L := L) b' s' v] := by
        by_cases hb : b = b'
        · subst hb
          by_cases hs : s' = s
          · simp [arriving, setBuf, sentTo, hs]
          · simp [arriving, setBuf, sentTo, hs]
        · simp [arriving, setBuf, hb, sentTo, Ne.symm hb]
      rw [h1, h2]
      simp [takenFrom]
    · exact trivialCase _ _ rfl rfl rfl rfl
  | exec =>
    simp only [step, exec]
    split
    · exact trivialCase _ _ rfl rfl rfl rfl
    · rename_i b' rest hr
      obtain ⟨h1, h2, h3, h4⟩ := execBuf_ledger { st with roster := rest } b' b s
      rw [h3, h4]
      refine ⟨by simpa [content, arriving] using h1, fun hk _ => ?_⟩
      by_cases hb : b' = b
      · subst hb
        simpa [content, arriving] using h2 hk
      · have hc : content (execBuf { st with roster := rest } b').1 b s ++
            arriving (execBuf { st with roster := rest } b').1 b s =
            content st b s ++ arriving st b s := by
          unfold execBuf
          split
          · rfl
          · simp only
            split
            · simp [content, arriving, setBuf, Ne.symm hb]
            · rw [wakeAll_content, wakeAll_arriving]
              simp [content, arriving, setBuf, Ne.symm hb]
        simpa using hc
    · rename_i l rest hr
      obtain ⟨h1, h2, h3⟩ := execLis_ledger { st with roster := rest } l b s
      rw [h3]
      refine ⟨by simpa [content, arriving] using h1, fun _ hd => ?_⟩
      simpa [content, arriving] using h2 (hd l)
  | gate b' s' g =>
    simp only [step, gateAction]
    split
    · exact trivialCase _ _ (setBuf_gate_values _ _ _ _ _).1 (setBuf_gate_values _ _ _ _ _).2 rfl rfl
    · split
      · exact trivialCase _ _
          ((wakeAll_content _ _ _ _ _ _).trans (setBuf_gate_values _ _ _ _ _).1)
          ((wakeAll_arriving _ _ _ _ _ _).trans (setBuf_gate_values _ _ _ _ _).2)
          (wakeAll_sent _ _ _ _ _ _) (wakeAll_takenFrom _ _ _ _ _ _)
      · exact trivialCase _ _ (setBuf_gate_values _ _ _ _ _).1 (setBuf_gate_values _ _ _ _ _).2
          rfl rfl
  | keyAccess b' s' a ops p =>
    have hb : b ≠ b' := by
      intro h; subst h; simp [keyOn] at he
    simp only [step, keyAccess]
    have h1 : ∀ n, content (setBuf st b' n) b s = content st b s := by
      intro n; simp [content, setBuf, hb]
    have h2 : ∀ n, arriving (setBuf st b' n) b s = arriving st b s := by
      intro n; simp [arriving, setBuf, hb]
    split
    · obtain ⟨n1, n2, n3, n4⟩ := notifyUpdate_values (setBuf st b' { st.buf b' with
        store := (Buffer.run (st.buf b').store (ops.map fun o => (s', o))).1 }) b' s' a b s
      exact trivialCase _ _ (n1.trans (h1 _)) (n2.trans (h2 _)) n3 n4
    · exact trivialCase _ _ (h1 _) (h2 _) rfl rfl
  | keyGate b' s' a g =>
    simp only [step, keyGate]
    split
    · exact trivialCase _ _ rfl rfl rfl rfl
    · split
      · obtain ⟨n1, n2, n3, n4⟩ := notifyUpdate_values (setBuf st b' { st.buf b' with
          gate := fun x => if x = s' then some g else (st.buf b').gate x }) b' s' a b s
        exact trivialCase _ _ (n1.trans (setBuf_gate_values _ _ _ _ _).1)
          (n2.trans (setBuf_gate_values _ _ _ _ _).2) n3 n4
      · exact trivialCase _ _ (setBuf_gate_values _ _ _ _ _).1 (setBuf_gate_values _ _ _ _ _).2
          rfl rfl
  | ending s' => exact trivialCase _ _ rfl rfl rfl rfl

theorem run_ledger {ret : B → Retention} {listeners : B → List L} {kind : L → Kind B}
    {st : St B L S T} (hst : Static ret listeners kind st) (evs : List (Ev B L S T)) (b : B) (s : S)
    (he : ∀ e ∈ evs, keyOn b e = false) :
    (takenFrom b s (run st evs).2 ++
        (content (run st evs).1 b s ++ arriving (run st evs).1 b s)).Sublist
        (content st b s ++ arriving st b s ++ sentTo b s (run st evs).2) ∧
      (ret b = .keepAll → (∀ l bufs, kind l = .join bufs → (bufs.map (·.1)).Nodup) →
        takenFrom b s (run st evs).2 ++
          (content (run st evs).1 b s ++ arriving (run st evs).1 b s) =
          content st b s ++ arriving st b s ++ sentTo b s (run st evs).2) := by
  induction evs generalizing st with
  | nil => simp [run, takenFrom, sentTo]
  | cons e evs ih =>
    obtain ⟨i1, i2⟩ := ih (static_step hst e) (fun x hx => he x (by simp [hx]))
    obtain ⟨s1, s2⟩ := step_ledger st e b s (he e (by simp))
    simp only [run, takenFrom_append, sentTo_append]
    constructor
    · have h1 := (List.Sublist.refl (takenFrom b s (step st e).2)).append i1
      have h2 := s1.append (List.Sublist.refl (sentTo b s (run (step st e).1 evs).2))
      simp only [List.append_assoc] at h1 h2 ⊢
      exact h1.trans h2
    · intro hk hd
      have h1 := i2 hk hd
      have h2 := s2 (by rw [hst.ret]; exact hk) (fun l bufs h => hd l bufs (by rw [← hst.kind]; exact h))
      rw [List.append_assoc, h1, ← List.append_assoc, ← List.append_assoc] at *
      rw [List.append_assoc] at h2
      rw [List.append_assoc (takenFrom b s (step st e).2), h2]
      simp

/-! ### The shape of joined messages -/

theorem fetch_shape (s : S) (st st' : St B L S T) (bufs : List (B × Mode))
    (items : List (B × Mode × T)) (h : fetch s st bufs = (st', some items)) :
    items.map (fun i => (i.1, i.2.1)) = bufs := by
  induction bufs generalizing st items with
  | nil => cases h; rfl
  | cons p bufs ih =>
    obtain ⟨b', m⟩ := p
    cases m with
    | pull =>
      simp only [fetch] at h
      cases hp : ((st.buf b').store.pull s).2 with
      | none => rw [hp] at h; simp at h
      | some v =>
        rw [hp] at h
        simp only at h
        generalize hr : fetch s (setBuf st b' { st.buf b' with
          store := ((st.buf b').store.pull s).1 }) bufs = r at h
        obtain ⟨st2, o⟩ := r
        cases o with
        | none => simp at h
        | some its =>
          simp only [Option.map_some, Prod.mk.injEq, Option.some.injEq] at h
          obtain ⟨rfl, rfl⟩ := h
          simp [ih _ _ hr]
    | clone =>
      simp only [fetch] at h
      cases hp : (st.buf b').store.oldest s with
      | none => rw [hp] at h; simp at h
      | some v =>
        rw [hp] at h
        simp only at h
        generalize hr : fetch s st bufs = r at h
        obtain ⟨st2, o⟩ := r
        cases o with
        | none => simp at h
        | some its =>
          simp only [Option.map_some, Prod.mk.injEq, Option.some.injEq] at h
          obtain ⟨rfl, rfl⟩ := h
          simp [ih _ _ hr]

theorem execBuf_noJoined (st : St B L S T) (b : B) (l : L) (s : S) (items : List (B × Mode × T)) :
    Hist.joined l s items ∉ (execBuf st b).2 := by
  unfold execBuf; split
  · simp
  · simp only; split
    · simp
    · rw [wakeAll_hist]; split <;> simp

theorem wakeAll_noJoined (b : B) (s' : S) (st : St B L S T) (ls : List L) (l : L) (s : S)
    (items : List (B × Mode × T)) : Hist.joined l s items ∉ (wakeAll b s' st ls).2 := by
  rw [wakeAll_hist]; split <;> simp

theorem step_shape (st : St B L S T) (e : Ev B L S T) (l : L) (s : S)
    (items : List (B × Mode × T)) (h : Hist.joined l s items ∈ (step st e).2) :
    ∃ bufs, (st.lis l).kind = .join bufs ∧ items.map (fun i => (i.1, i.2.1)) = bufs := by
  cases e with
  | send b s' v => simp only [step, send] at h; split at h <;> simp at h
  | exec =>
    simp only [step, exec] at h
    split at h
    · simp at h
    · exact absurd h (execBuf_noJoined _ _ _ _ _)
    · rename_i l' rest hr
      rcases execLis_cases { st with roster := rest } l' with
        ⟨-, he⟩ | ⟨s1, rest, hp, ⟨hk, he⟩ | ⟨bufs, hk, h'⟩⟩
      · rw [he] at h; simp at h
      · rw [he] at h; simp at h
      · rcases h' with ⟨-, he⟩ | ⟨-, hne, ⟨items', hi, he⟩ | ⟨hi, he⟩⟩
        · rw [he] at h; simp at h
        · rw [he] at h
          simp only [List.mem_singleton, Hist.joined.injEq] at h
          obtain ⟨rfl, rfl, rfl⟩ := h
          refine ⟨bufs, hk, ?_⟩
          generalize hf : fetch s _ bufs = r at hi
          obtain ⟨st2, o⟩ := r
          subst hi
          exact fetch_shape s _ st2 bufs items hf
        · rw [he] at h; simp at h
  | gate b s' g =>
    simp only [step, gateAction] at h
    split at h
    · simp at h
    · split at h
      · exact absurd h (wakeAll_noJoined _ _ _ _ _ _ _)
      · simp at h
  | keyAccess b s' a ops p =>
    simp only [step, keyAccess, notifyUpdate] at h
    split at h
    · split at h
      · simp at h
      · exact absurd h (wakeAll_noJoined _ _ _ _ _ _ _)
    · simp at h
  | keyGate b s' a g =>
    simp only [step, keyGate, notifyUpdate] at h
    split at h
    · simp at h
    · split at h
      · split at h
        · simp at h
        · exact absurd h (wakeAll_noJoined _ _ _ _ _ _ _)
      · simp at h
  | ending s' => simp [step] at h

theorem run_shape {ret : B → Retention} {listeners : B → List L} {kind : L → Kind B}
    {st : St B L S T} (hst : Static ret listeners kind st) (evs : List (Ev B L S T)) (l : L) (s : S)
    (items : List (B × Mode × T)) (h : Hist.joined l s items ∈ (run st evs).2) :
    ∃ bufs, kind l = .join bufs ∧ items.map (fun i => (i.1, i.2.1)) = bufs := by
  induction evs generalizing st with
  | nil => simp [run] at h
  | cons e evs ih =>
    simp only [run, List.mem_append] at h
    rcases h with h | h
    · obtain ⟨bufs, h1, h2⟩ := step_shape st e l s items h
      exact ⟨bufs, by rw [← hst.kind]; exact h1, h2⟩
    · exact ih (static_step hst e) h

/-- The part of a message that was pulled from `b`. -/
def pulledPart (b : B) (items : List (B × Mode × T)) : List T :=
  items.filterMap fun i => if i.1 = b ∧ i.2.1 = .pull then some i.2.2 else none

theorem pulledPart_notMem (b : B) (items : List (B × Mode × T))
    (h : (b, Mode.pull) ∉ items.map (fun i => (i.1, i.2.1))) : pulledPart b items = [] := by
  unfold pulledPart
  rw [List.filterMap_eq_nil_iff]
  intro i hi
  rw [if_neg]
  intro hc
  apply h
  rw [List.mem_map]
  exact ⟨i, hi, by rw [← hc.1, ← hc.2]⟩

theorem pulledPart_single (b : B) (items : List (B × Mode × T)) (v : T)
    (hnd : (items.map (·.1)).Nodup) (h : (b, Mode.pull, v) ∈ items) : pulledPart b items = [v] := by
  induction items with
  | nil => cases h
  | cons i items ih =>
    simp only [List.map_cons, List.nodup_cons] at hnd
    rcases List.mem_cons.1 h with rfl | h
    · simp only [pulledPart, List.filterMap_cons, and_self, if_true]
      congr 1
      exact pulledPart_notMem b items (fun hm => by
        obtain ⟨j, hj, he⟩ := List.mem_map.1 hm
        have hjb : j.1 = b := congrArg Prod.fst he
        simp only at hnd
        rw [← hjb] at hnd
        exact hnd.1 (List.mem_map_of_mem (f := fun i : B × Mode × T => i.1) hj))
    · have hne : i.1 ≠ b := by
        intro he
        apply hnd.1
        rw [he]
        exact List.mem_map_of_mem (f := fun i : B × Mode × T => i.1) h
      have := ih hnd.2 h
      simp only [pulledPart, List.filterMap_cons, hne, false_and, if_false] at this ⊢
      exact this

theorem flatMap_single {α β : Type} (ms : List α) (f : α → List β) (k : Nat) (m : α) (v : β)
    (hs : ∀ m ∈ ms, ∃ v, f m = [v]) (hm : ms[k]? = some m) (hv : f m = [v]) :
    (ms.flatMap f)[k]? = some v := by
  induction ms generalizing k with
  | nil => simp at hm
  | cons a ms ih =>
    obtain ⟨w, hw⟩ := hs a (by simp)
    simp only [List.flatMap_cons, hw, List.cons_append, List.nil_append]
    cases k with
    | zero =>
      simp only [List.getElem?_cons_zero, Option.some.injEq] at hm ⊢
      subst hm
      rw [hw] at hv; cases hv; rfl
    | succ k =>
      simp only [List.getElem?_cons_succ] at hm ⊢
      exact ih k (fun x hx => hs x (by simp [hx])) hm

/-- If `l` alone pulls from `b`, what is taken from `b` are the parts of its messages. -/
theorem takenFrom_exclusive (b : B) (s : S) (l : L) (h : List (Hist B L S T))
    (hx : ∀ l' items, Hist.joined l' s items ∈ h → l' ≠ l →
      (b, Mode.pull) ∉ items.map (fun i => (i.1, i.2.1))) :
    takenFrom b s h = (messages l s h).flatMap (pulledPart b) := by
  induction h with
  | nil => rfl
  | cons a h ih =>
    have hi := ih (fun l' items hm => hx l' items (by simp [hm]))
    have e1 : takenFrom b s (a :: h) = takenFrom b s [a] ++ takenFrom b s h :=
      takenFrom_append b s [a] h
    have e2 : messages l s (a :: h) = messages l s [a] ++ messages l s h :=
      messages_append l s [a] h
    rw [e1, e2, List.flatMap_append, hi]
    congr 1
    cases a with
    | joined l' s' items =>
      by_cases hs : s' = s
      · subst hs
        by_cases hl : l' = l
        · subst hl; simp [takenFrom, messages, pulledPart]
        · have := pulledPart_notMem b items (hx l' items (by simp) hl)
          unfold pulledPart at this
          simp only [takenFrom, List.flatMap_cons, List.flatMap_nil, List.append_nil, if_true, this]
          simp [messages, hl]
      · simp [takenFrom, messages, hs]
    | _ => rfl

end Verif.BufNet
