import Verif.BufNet.Lemmas

/-
Invariants of runs, used by Verif.BufNet.Props.
-/
set_option linter.unusedSectionVars false
set_option linter.unusedSimpArgs false
namespace Verif.BufNet

open Verif.Buffer (Storage Retention)

variable {B L S T : Type} [DecidableEq B] [DecidableEq L] [DecidableEq S]

/-! ### Projections of `wakeAll` -/

theorem wakeAll_kind (b : B) (s : S) (st : St B L S T) (ls : List L) (l : L) :
    ((wakeAll b s st ls).1.lis l).kind = (st.lis l).kind := by
  cases h : st.active s with
  | false => rw [wakeAll_inactive _ _ _ _ h]
  | true => rw [wakeAll_active _ _ _ _ h]

theorem wakeAll_pending (b : B) (s : S) (st : St B L S T) (ls : List L) (l : L) :
    ((wakeAll b s st ls).1.lis l).pending =
      (st.lis l).pending ++ List.replicate (if st.active s then ls.count l else 0) s := by
  cases h : st.active s with
  | false => rw [wakeAll_inactive _ _ _ _ h]; simp
  | true => rw [wakeAll_active _ _ _ _ h]; simp

theorem wakeAll_roster (b : B) (s : S) (st : St B L S T) (ls : List L) :
    (wakeAll b s st ls).1.roster = st.roster ++ if st.active s then ls.map .lis else [] := by
  cases h : st.active s with
  | false => rw [wakeAll_inactive _ _ _ _ h]; simp
  | true => rw [wakeAll_active _ _ _ _ h]; simp

theorem wakeAll_hist (b : B) (s : S) (st : St B L S T) (ls : List L) :
    (wakeAll b s st ls).2 = if st.active s then ls.map (.woke b · s) else [] := by
  cases h : st.active s with
  | false => rw [wakeAll_inactive _ _ _ _ h]; simp
  | true => rw [wakeAll_active _ _ _ _ h]; simp

theorem count_map_lis (ls : List L) (l : L) :
    (ls.map (Target.lis (B := B))).count (.lis l) = ls.count l := by
  induction ls with
  | nil => rfl
  | cons x ls ih =>
    simp only [List.map_cons, List.count_cons, ih]
    by_cases h : x = l <;> simp [h]

theorem count_map_buf (ls : List L) (b : B) :
    (ls.map (Target.lis (B := B))).count (.buf b) = 0 := by
  rw [List.count_eq_zero]; simp

/-! ### What never changes -/

/-- The wiring of the workflow. -/
structure Static (ret : B → Retention) (listeners : B → List L) (kind : L → Kind B)
    (st : St B L S T) : Prop where
  ret : ∀ b, (st.buf b).store.retention = ret b
  listeners : ∀ b, (st.buf b).listeners = listeners b
  kind : ∀ l, (st.lis l).kind = kind l

theorem static_init (ret : B → Retention) (listeners : B → List L) (kind : L → Kind B) :
    Static ret listeners kind (init ret listeners kind : St B L S T) :=
  ⟨fun _ => rfl, fun _ => rfl, fun _ => rfl⟩

theorem Static.of_wakeAll {ret : B → Retention} {listeners : B → List L} {kind : L → Kind B}
    {st : St B L S T} (h : Static ret listeners kind st) (b : B) (s : S) (ls : List L) :
    Static ret listeners kind (wakeAll b s st ls).1 := by
  have hb := (wakeAll_buf b s st ls).1
  exact ⟨fun x => by rw [hb]; exact h.ret x, fun x => by rw [hb]; exact h.listeners x,
    fun l => by rw [wakeAll_kind]; exact h.kind l⟩

theorem Static.of_setBuf {ret : B → Retention} {listeners : B → List L} {kind : L → Kind B}
    {st : St B L S T} (h : Static ret listeners kind st) (b : B) (n : BufNode L S T)
    (h1 : n.store.retention = (st.buf b).store.retention)
    (h2 : n.listeners = (st.buf b).listeners) :
    Static ret listeners kind (setBuf st b n) := by
  refine ⟨fun x => ?_, fun x => ?_, h.kind⟩
  · by_cases hx : x = b
    · subst hx; simp [setBuf, h1, h.ret]
    · simp [setBuf, hx, h.ret]
  · by_cases hx : x = b
    · subst hx; simp [setBuf, h2, h.listeners]
    · simp [setBuf, hx, h.listeners]

theorem Static.of_pending {ret : B → Retention} {listeners : B → List L} {kind : L → Kind B}
    {st : St B L S T} (h : Static ret listeners kind st) (l : L) (p : List S) :
    Static ret listeners kind (setLis st l { st.lis l with pending := p }) := by
  refine ⟨h.ret, h.listeners, fun x => ?_⟩
  by_cases hx : x = l
  · subst hx; simp [setLis, h.kind]
  · simp [setLis, hx, h.kind]

theorem Static.of_taken {ret : B → Retention} {listeners : B → List L} {kind : L → Kind B}
    {s : S} {st st' : St B L S T} (h : Static ret listeners kind st) (ht : Taken s st st') :
    Static ret listeners kind st' :=
  ⟨fun x => by rw [ht.retention]; exact h.ret x, fun x => by rw [ht.listeners]; exact h.listeners x,
    fun l => by rw [ht.lis]; exact h.kind l⟩

theorem Static.of_roster {ret : B → Retention} {listeners : B → List L} {kind : L → Kind B}
    {st : St B L S T} (h : Static ret listeners kind st) (r : List (Target B L)) :
    Static ret listeners kind { st with roster := r } := ⟨h.ret, h.listeners, h.kind⟩

theorem static_execBuf {ret : B → Retention} {listeners : B → List L} {kind : L → Kind B}
    {st : St B L S T} (h : Static ret listeners kind st) (b : B) :
    Static ret listeners kind (execBuf st b).1 := by
  unfold execBuf
  split
  · exact h
  · rename_i s v rest hin
    simp only
    have h1 := h.of_setBuf b { st.buf b with
      input := rest, store := ((st.buf b).store.forcePush s v).1 }
      (forcePush_retention _ _ _) rfl
    split
    · exact h1
    · exact h1.of_wakeAll _ _ _

/-- The part of `execLis` after the input was taken. -/
theorem execLis_cases (st : St B L S T) (l : L) :
    ((st.lis l).pending = [] ∧ execLis st l = (st, [])) ∨
    ∃ s rest, (st.lis l).pending = s :: rest ∧
      ((st.lis l).kind = .listen ∧
          execLis st l = (setLis st l { st.lis l with pending := rest }, [.listened l s]) ∨
        ∃ bufs, (st.lis l).kind = .join bufs ∧
          (((bufs = [] ∨ ∃ p ∈ bufs, content st p.1 s = []) ∧
              execLis st l = (setLis st l { st.lis l with pending := rest }, [])) ∨
            (bufs ≠ [] ∧ (∀ p ∈ bufs, content st p.1 s ≠ []) ∧
              ((∃ items, (fetch s (setLis st l { st.lis l with pending := rest }) bufs).2 =
                    some items ∧
                  execLis st l =
                    ((fetch s (setLis st l { st.lis l with pending := rest }) bufs).1,
                      [.joined l s items])) ∨
                ((fetch s (setLis st l { st.lis l with pending := rest }) bufs).2 = none ∧
                  execLis st l =
                    ((fetch s (setLis st l { st.lis l with pending := rest }) bufs).1,
                      [.broken l])))))) := by
  unfold execLis
  cases hp : (st.lis l).pending with
  | nil => left; exact ⟨rfl, rfl⟩
  | cons s rest =>
    right
    refine ⟨s, rest, rfl, ?_⟩
    cases hk : (st.lis l).kind with
    | listen => left; exact ⟨rfl, by simp⟩
    | join bufs =>
      right
      refine ⟨bufs, rfl, ?_⟩
      simp only
      generalize hst1 : setLis st l { pending := rest, kind := (st.lis l).kind } = st1
      have hcont : ∀ b, content st1 b s = content st b s := by
        intro b; rw [← hst1]; rfl
      by_cases hc : bufferedCount st1 s bufs < 1
      · left
        rw [if_pos hc]
        refine ⟨?_, rfl⟩
        by_cases hb : bufs = []
        · exact .inl hb
        · right
          rcases Classical.em (∃ p ∈ bufs, content st p.1 s = []) with h | h
          · exact h
          · exfalso
            refine (bufferedCount_pos st1 s bufs).2 ⟨hb, ?_⟩ hc
            intro p hpm he
            exact h ⟨p, hpm, by rw [← hcont]; exact he⟩
      · right
        rw [if_neg hc]
        have := (bufferedCount_pos st1 s bufs).1 hc
        refine ⟨this.1, fun p hpm => by rw [← hcont]; exact this.2 p hpm, ?_⟩
        generalize fetch s st1 bufs = r
        obtain ⟨st2, o⟩ := r
        cases o with
        | some items => left; exact ⟨items, rfl, rfl⟩
        | none => right; exact ⟨rfl, rfl⟩

theorem static_execLis {ret : B → Retention} {listeners : B → List L} {kind : L → Kind B}
    {st : St B L S T} (h : Static ret listeners kind st) (l : L) :
    Static ret listeners kind (execLis st l).1 := by
  rcases execLis_cases st l with ⟨-, he⟩ | ⟨s, rest, hp, ⟨hk, he⟩ | ⟨bufs, hk, h'⟩⟩
  · rw [he]; exact h
  · rw [he]; exact h.of_pending l rest
  · rcases h' with ⟨-, he⟩ | ⟨-, -, ⟨items, -, he⟩ | ⟨-, he⟩⟩
    · rw [he]; exact h.of_pending l rest
    · rw [he]; exact (h.of_pending l rest).of_taken (fetch_taken _ _ _)
    · rw [he]; exact (h.of_pending l rest).of_taken (fetch_taken _ _ _)

theorem keyStore_retention (b : Storage S T) (s : S) (ops : List (Buffer.Op T)) :
    (Buffer.run b (ops.map fun o => (s, o))).1.retention = b.retention :=
  Buffer.run_retention _ _

theorem static_notifyUpdate {ret : B → Retention} {listeners : B → List L} {kind : L → Kind B}
    {st : St B L S T} (h : Static ret listeners kind st) (b : B) (s : S) (a : Option L) :
    Static ret listeners kind (notifyUpdate st b s a).1 := by
  unfold notifyUpdate; split
  · exact h
  · exact h.of_wakeAll _ _ _

theorem static_step {ret : B → Retention} {listeners : B → List L} {kind : L → Kind B}
    {st : St B L S T} (h : Static ret listeners kind st) (e : Ev B L S T) :
    Static ret listeners kind (step st e).1 := by
  cases e with
  | send b s v =>
    simp only [step, send]; split
    · exact (h.of_roster _).of_setBuf b _ rfl rfl
    · exact h
  | exec =>
    simp only [step, exec]
    split
    · exact h
    · exact static_execBuf (h.of_roster _) _
    · exact static_execLis (h.of_roster _) _
  | gate b s g =>
    simp only [step, gateAction]
    split
    · exact h.of_setBuf b _ rfl rfl
    · split
      · refine Static.of_wakeAll ?_ _ _ _
        exact h.of_setBuf b { st.buf b with gate := fun x => if x = s then some g else (st.buf b).gate x } rfl rfl
      · exact h.of_setBuf b _ rfl rfl
  | keyAccess b s a ops p =>
    simp only [step, keyAccess]
    have h1 := h.of_setBuf b { st.buf b with
      store := (Buffer.run (st.buf b).store (ops.map fun o => (s, o))).1 }
      (keyStore_retention _ _ _) rfl
    split
    · exact static_notifyUpdate h1 _ _ _
    · exact h1
  | keyGate b s a g =>
    simp only [step, keyGate]
    split
    · exact h
    · split
      · refine static_notifyUpdate ?_ _ _ _
        exact h.of_setBuf b { st.buf b with gate := fun x => if x = s then some g else (st.buf b).gate x } rfl rfl
      · exact h.of_setBuf b _ rfl rfl
  | ending s => exact ⟨h.ret, h.listeners, h.kind⟩

theorem static_run {ret : B → Retention} {listeners : B → List L} {kind : L → Kind B}
    {st : St B L S T} (h : Static ret listeners kind st) (evs : List (Ev B L S T)) :
    Static ret listeners kind (run st evs).1 := by
  induction evs generalizing st with
  | nil => exact h
  | cons e evs ih => exact ih (static_step h e)

/-! ### The schedule has one entry for each pending input -/

structure Counted (st : St B L S T) : Prop where
  buf : ∀ b, (st.buf b).input.length = st.roster.count (.buf b)
  lis : ∀ l, (st.lis l).pending.length = st.roster.count (.lis l)

theorem counted_init (ret : B → Retention) (listeners : B → List L) (kind : L → Kind B) :
    Counted (init ret listeners kind : St B L S T) := ⟨fun _ => rfl, fun _ => rfl⟩

theorem Counted.of_wakeAll {st : St B L S T} (h : Counted st) (b : B) (s : S) (ls : List L) :
    Counted (wakeAll b s st ls).1 := by
  have hb := (wakeAll_buf b s st ls).1
  refine ⟨fun x => ?_, fun l => ?_⟩
  · rw [hb, h.buf, wakeAll_roster, List.count_append]
    split <;> simp [count_map_buf]
  · rw [wakeAll_pending, List.length_append, h.lis, wakeAll_roster, List.count_append]
    split <;> simp [count_map_lis]

theorem Counted.of_setBuf {st : St B L S T} (h : Counted st) (b : B) (n : BufNode L S T)
    (h1 : n.input = (st.buf b).input) : Counted (setBuf st b n) := by
  refine ⟨fun x => ?_, h.lis⟩
  by_cases hx : x = b
  · subst hx; simp [setBuf, h1, h.buf]
  · simp [setBuf, hx, h.buf]

theorem Counted.of_taken {s : S} {st st' : St B L S T} (h : Counted st) (ht : Taken s st st') :
    Counted st' :=
  ⟨fun b => by rw [ht.input, ht.roster]; exact h.buf b,
    fun l => by rw [ht.lis, ht.roster]; exact h.lis l⟩

theorem counted_step {st : St B L S T} (h : Counted st) (e : Ev B L S T) :
    Counted (step st e).1 := by
  cases e with
  | send b s v =>
    simp only [step, send]; split
    · refine ⟨fun x => ?_, fun l => ?_⟩
      · by_cases hx : x = b
        · subst hx; simp [setBuf, h.buf, List.count_append]
        · simp [setBuf, hx, h.buf, List.count_append, List.count_cons, Ne.symm hx]
      · simp [setBuf, h.lis, List.count_append, List.count_cons]
    · exact h
  | exec =>
    simp only [step, exec]
    split
    · exact h
    · rename_i b rest hr
      unfold execBuf
      simp only
      have hb := h.buf
      have hl := h.lis
      rw [hr] at hb hl
      cases hin : (st.buf b).input with
      | nil =>
        have := hb b
        rw [hin] at this; simp at this
      | cons c ins =>
        obtain ⟨s, v⟩ := c
        have h1 : Counted (setBuf { st with roster := rest } b
            { st.buf b with input := ins, store := ((st.buf b).store.forcePush s v).1 }) := by
          refine ⟨fun x => ?_, fun l => ?_⟩
          · have := hb x
            by_cases hx : x = b
            · subst hx; simp [setBuf, hin] at this ⊢; omega
            · simpa [setBuf, hx, List.count_cons, Ne.symm hx] using this
          · have := hl l
            simpa [setBuf, List.count_cons] using this
        simp only
        split
        · exact h1
        · exact h1.of_wakeAll _ _ _
    · rename_i l rest hr
      have hb := h.buf
      have hl := h.lis
      rw [hr] at hb hl
      have key : ∀ s p, (st.lis l).pending = s :: p →
          Counted (setLis { st with roster := rest } l { st.lis l with pending := p }) := by
        intro s p hp
        refine ⟨fun x => ?_, fun x => ?_⟩
        · have := hb x
          simpa [setLis, List.count_cons] using this
        · have := hl x
          by_cases hx : x = l
          · subst hx; simp [setLis, hp] at this ⊢; omega
          · simpa [setLis, hx, List.count_cons, Ne.symm hx] using this
      rcases execLis_cases { st with roster := rest } l with
        ⟨hp, he⟩ | ⟨s, p, hp, ⟨hk, he⟩ | ⟨bufs, hk, h'⟩⟩
      · have := hl l
        simp only at hp
        rw [hp] at this; simp at this
      · rw [he]; exact key s p hp
      · rcases h' with ⟨-, he⟩ | ⟨-, -, ⟨items, -, he⟩ | ⟨-, he⟩⟩
        · rw [he]; exact key s p hp
        · rw [he]; exact (key s p hp).of_taken (fetch_taken _ _ _)
        · rw [he]; exact (key s p hp).of_taken (fetch_taken _ _ _)
  | gate b s g =>
    simp only [step, gateAction]
    split
    · exact h.of_setBuf b _ rfl
    · split
      · refine Counted.of_wakeAll ?_ _ _ _
        exact h.of_setBuf b { st.buf b with gate := fun x => if x = s then some g else (st.buf b).gate x } rfl
      · exact h.of_setBuf b _ rfl
  | keyAccess b s a ops p =>
    simp only [step, keyAccess, notifyUpdate]
    have h1 := h.of_setBuf b { st.buf b with
      store := (Buffer.run (st.buf b).store (ops.map fun o => (s, o))).1 } rfl
    split
    · split
      · exact h1
      · exact h1.of_wakeAll _ _ _
    · exact h1
  | keyGate b s a g =>
    simp only [step, keyGate, notifyUpdate]
    split
    · exact h
    · split
      · split
        · exact h.of_setBuf b _ rfl
        · refine Counted.of_wakeAll ?_ _ _ _
          exact h.of_setBuf b { st.buf b with gate := fun x => if x = s then some g else (st.buf b).gate x } rfl
      · exact h.of_setBuf b _ rfl
  | ending s => exact ⟨h.buf, h.lis⟩

theorem counted_run {st : St B L S T} (h : Counted st) (evs : List (Ev B L S T)) :
    Counted (run st evs).1 := by
  induction evs generalizing st with
  | nil => exact h
  | cons e evs ih => exact ih (counted_step h e)

/-! ### Sessions only end -/

theorem active_step (st : St B L S T) (e : Ev B L S T) (s : S)
    (h : (step st e).1.active s = true) : st.active s = true := by
  cases e with
  | send b s' v => simp only [step, send] at h; split at h <;> exact h
  | exec =>
    simp only [step, exec] at h
    split at h
    · exact h
    · unfold execBuf at h
      split at h
      · exact h
      · simp only at h
        split at h
        · exact h
        · rw [(wakeAll_buf _ _ _ _).2] at h; exact h
    · rename_i l rest hr
      rcases execLis_cases { st with roster := rest } l with
        ⟨-, he⟩ | ⟨s', p, hp, ⟨hk, he⟩ | ⟨bufs, hk, h'⟩⟩
      · rw [he] at h; exact h
      · rw [he] at h; exact h
      · rcases h' with ⟨-, he⟩ | ⟨-, -, ⟨items, -, he⟩ | ⟨-, he⟩⟩
        · rw [he] at h; exact h
        · rw [he] at h; rw [(fetch_taken _ _ _).active] at h; exact h
        · rw [he] at h; rw [(fetch_taken _ _ _).active] at h; exact h
  | gate b s' g =>
    simp only [step, gateAction] at h
    split at h
    · exact h
    · split at h
      · rw [(wakeAll_buf _ _ _ _).2] at h; exact h
      · exact h
  | keyAccess b s' a ops p =>
    simp only [step, keyAccess, notifyUpdate] at h
    split at h
    · split at h
      · exact h
      · rw [(wakeAll_buf _ _ _ _).2] at h; exact h
    · exact h
  | keyGate b s' a g =>
    simp only [step, keyGate, notifyUpdate] at h
    split at h
    · exact h
    · split at h
      · split at h
        · exact h
        · rw [(wakeAll_buf _ _ _ _).2] at h; exact h
      · exact h
  | ending s' =>
    simp only [step] at h
    split at h
    · simp at h
    · exact h

theorem active_run (st : St B L S T) (evs : List (Ev B L S T)) (s : S)
    (h : (run st evs).1.active s = true) : st.active s = true := by
  induction evs generalizing st with
  | nil => exact h
  | cons e evs ih => exact active_step st e s (ih _ h)

end Verif.BufNet
