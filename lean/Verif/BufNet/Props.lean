import Verif.BufNet.Joins

/-
Property theorems C15 to C18, C48, C53 and C54: buffers, gates, joins and keys.
-/
set_option linter.unusedSectionVars false
namespace Verif.BufNet

open Verif.Buffer (Storage Retention)

variable {B L S T : Type} [DecidableEq B] [DecidableEq L] [DecidableEq S]

/-! ### C15 -/

/-- **C15**, one execution of a join of distinct buffers, in any state: it sends a message
exactly if every joined buffer holds a value of the session; the message consists of the
oldest value of each buffer, in the order of the buffers; a pulled buffer loses that value
and nothing else, a cloned one keeps it; other sessions are not touched. -/
theorem C15_join_fires (st : St B L S T) (l : L) (rest : List (Target B L)) (s : S) (p : List S)
    (bufs : List (B × Mode)) (hr : st.roster = .lis l :: rest)
    (hp : (st.lis l).pending = s :: p) (hk : (st.lis l).kind = .join bufs) (hb : bufs ≠ [])
    (hnd : (bufs.map (·.1)).Nodup) :
    ((∃ q ∈ bufs, content st q.1 s = []) → (exec st).2 = [] ∧
      ∀ b s', content (exec st).1 b s' = content st b s') ∧
    ((∀ q ∈ bufs, content st q.1 s ≠ []) → ∃ items, (exec st).2 = [.joined l s items] ∧
      items.map (fun i => (i.1, i.2.1)) = bufs ∧
      (∀ i ∈ items, (content st i.1 s).head? = some i.2.2) ∧
      (∀ b, content (exec st).1 b s =
        if (b, Mode.pull) ∈ bufs then (content st b s).tail else content st b s) ∧
      ∀ b s', s' ≠ s → content (exec st).1 b s' = content st b s') := by
  have hexec : exec st = execLis { st with roster := rest } l := by simp [exec, hr]
  rw [hexec]
  rcases execLis_cases { st with roster := rest } l with ⟨hp', -⟩ | ⟨s1, p1, hp', h'⟩
  · simp only at hp'; rw [hp] at hp'; cases hp'
  · simp only at hp'; rw [hp] at hp'; cases hp'
    rcases h' with ⟨hk', -⟩ | ⟨bufs', hk', h'⟩
    · simp only at hk'; rw [hk] at hk'; cases hk'
    · simp only at hk'; rw [hk] at hk'; cases hk'
      generalize hst1 : setLis ({ st with roster := rest } : St B L S T) l
        { st.lis l with pending := p } = st1 at h'
      have hc : ∀ b s, content st1 b s = content st b s := by intros; subst hst1; rfl
      rcases h' with ⟨he0, he⟩ | ⟨-, hne, h'⟩
      · rw [he]
        refine ⟨fun _ => ⟨rfl, fun b s' => hc b s'⟩, fun hall => ?_⟩
        exfalso
        rcases he0 with he0 | ⟨q, hq, hq0⟩
        · exact hb he0
        · exact hall q hq hq0
      · refine ⟨fun ⟨q, hq, hq0⟩ => absurd hq0 (hne q hq), fun _ => ?_⟩
        obtain ⟨items, h1, h2, h3, h4⟩ := fetch_ok s st1 bufs hnd
          (fun q hq => by rw [hc]; exact hne q hq)
        rcases h' with ⟨items', hi, he⟩ | ⟨hi, -⟩
        · rw [h1] at hi; cases hi
          rw [he]
          refine ⟨items, rfl, h2, ?_, ?_, ?_⟩
          · intro i hi; rw [← hc]; exact h3 i hi
          · intro b; rw [← hc]; exact h4 b
          · intro b s' hs; rw [← hc]; exact (fetch_taken _ _ _).other b s' hs
        · rw [h1] at hi; cases hi

/-- A join of a pulled and a cloned buffer about to fire. -/
example : ∃ (st : St Nat Nat Nat Nat) (rest : List (Target Nat Nat)) (p : List Nat)
    (bufs : List (Nat × Mode)), st.roster = .lis 7 :: rest ∧ (st.lis 7).pending = 0 :: p ∧
    (st.lis 7).kind = .join bufs ∧ (bufs.map (·.1)).Nodup ∧ (∀ q ∈ bufs, content st q.1 0 ≠ []) ∧
    (exec st).2 = [.joined 7 0 [(1, .pull, 10), (2, .clone, 20)]] ∧
    content (exec st).1 1 0 = [11] ∧ content (exec st).1 2 0 = [20] :=
  ⟨(run (init (fun _ => .keepAll) (fun b => if b = 1 ∨ b = 2 then [7] else [])
      (fun _ => .join [(1, .pull), (2, .clone)]))
      [.send 1 0 10, .exec, .exec, .send 1 0 11, .exec, .exec, .send 2 0 20, .exec]).1,
    [], [], [(1, .pull), (2, .clone)], by decide, by decide, by decide, by decide, by decide,
    by decide, by decide, by decide⟩

/-- **C15**, order: in every run on an unlimited buffer `b` that is not edited by key, the
values accepted for a session are, in order: those taken by joins, those still held, those
on their way in. Several joins may share the buffer; gates may open and close. -/
theorem C15_in_order (ret : B → Retention) (listeners : B → List L) (kind : L → Kind B)
    (hw : Wired listeners kind) (evs : List (Ev B L S T)) (b : B) (s : S)
    (hall : ret b = .keepAll) (hkey : ∀ e ∈ evs, keyOn b e = false) :
    sentTo b s (run (init ret listeners kind) evs).2 =
      takenFrom b s (run (init ret listeners kind) evs).2 ++
        (content (run (init ret listeners kind) evs).1 b s ++
          arriving (run (init ret listeners kind) evs).1 b s) := by
  have := (run_ledger (static_init ret listeners kind) evs b s hkey).2 hall hw.distinct
  rw [this]
  simp [content, arriving, init, Storage.new, Storage.iter]

/-- **C15**, order with a limited buffer: what joins take, what is held and what is on its
way in is a subsequence of what was accepted, in the same order. -/
theorem C15_in_order_limited (ret : B → Retention) (listeners : B → List L) (kind : L → Kind B)
    (evs : List (Ev B L S T)) (b : B) (s : S) (hkey : ∀ e ∈ evs, keyOn b e = false) :
    (takenFrom b s (run (init ret listeners kind) evs).2 ++
        (content (run (init ret listeners kind) evs).1 b s ++
          arriving (run (init ret listeners kind) evs).1 b s)).Sublist
      (sentTo b s (run (init ret listeners kind) evs).2) := by
  have := (run_ledger (static_init ret listeners kind) evs b s hkey).1
  simpa [content, arriving, init, Storage.new, Storage.iter] using this

/-- **C15**, lock-step: in every run, if join `l` alone pulls from the unlimited buffer
`b`, the `k`-th message of `l` for a session carries the `k`-th value accepted by `b` for
that session. -/
theorem C15_lockstep (ret : B → Retention) (listeners : B → List L) (kind : L → Kind B)
    (hw : Wired listeners kind) (evs : List (Ev B L S T)) (b : B) (s : S) (l : L)
    (hall : ret b = .keepAll) (hkey : ∀ e ∈ evs, keyOn b e = false)
    (hex : ∀ l' bufs', kind l' = .join bufs' → (b, Mode.pull) ∈ bufs' → l' = l)
    (k : Nat) (items : List (B × Mode × T))
    (hm : (messages l s (run (init ret listeners kind) evs).2)[k]? = some items) (v : T)
    (hv : (b, Mode.pull, v) ∈ items) :
    (sentTo b s (run (init ret listeners kind) evs).2)[k]? = some v := by
  generalize hr : run (init ret listeners kind) evs = r at hm ⊢
  have horder := C15_in_order ret listeners kind hw evs b s hall hkey
  rw [hr] at horder
  have hshape : ∀ l s items, Hist.joined l s items ∈ r.2 →
      ∃ bufs, kind l = .join bufs ∧ items.map (fun i => (i.1, i.2.1)) = bufs := by
    intro l s items h
    rw [← hr] at h
    exact run_shape (static_init ret listeners kind) evs l s items h
  have hmem : ∀ its, its ∈ messages l s r.2 → Hist.joined l s its ∈ r.2 := by
    intro its hi
    simp only [messages, List.mem_filterMap] at hi
    obtain ⟨a, ha, hi⟩ := hi
    cases a with
    | joined l' s' its' =>
      simp only at hi
      split at hi
      · rename_i hc
        obtain ⟨rfl, rfl⟩ := hc
        cases hi; exact ha
      · cases hi
    | _ => simp at hi
  have hfst : ∀ (its : List (B × Mode × T)) (bufs : List (B × Mode)),
      its.map (fun i => (i.1, i.2.1)) = bufs → its.map (·.1) = bufs.map (·.1) := by
    intro its bufs h
    rw [← h, List.map_map]; rfl
  have htaken := takenFrom_exclusive b s l r.2 (by
    intro l' its hj hne hc
    obtain ⟨bufs, hk, hb⟩ := hshape l' s its hj
    exact hne (hex l' bufs hk (hb ▸ hc)))
  have hi := List.mem_of_getElem? hm
  obtain ⟨bufs, hk, hb⟩ := hshape l s items (hmem items hi)
  have hbm : (b, Mode.pull) ∈ bufs := by
    rw [← hb]
    exact List.mem_map_of_mem (f := fun i : B × Mode × T => (i.1, i.2.1)) hv
  have hsingle : ∀ m ∈ messages l s r.2, ∃ v, pulledPart b m = [v] := by
    intro m hmm
    obtain ⟨bufs', hk', hb'⟩ := hshape l s m (hmem m hmm)
    rw [hk] at hk'; cases hk'
    rw [← hb'] at hbm
    obtain ⟨i, him, he⟩ := List.mem_map.1 hbm
    obtain ⟨i1, i2, i3⟩ := i
    simp only [Prod.mk.injEq] at he
    obtain ⟨rfl, rfl⟩ := he
    exact ⟨i3, pulledPart_single i1 m i3
      (by rw [hfst m bufs hb']; exact hw.distinct l bufs hk) him⟩
  have hthis := pulledPart_single b items v
    (by rw [hfst items bufs hb]; exact hw.distinct l bufs hk) hv
  have := flatMap_single (messages l s r.2) (pulledPart b) k items v hsingle hm hthis
  rw [horder, htaken]
  rw [List.getElem?_append_left (by
    rcases Nat.lt_or_ge k ((messages l s r.2).flatMap (pulledPart b)).length with h | h
    · exact h
    · rw [List.getElem?_eq_none h] at this; cases this)]
  exact this

/-- A workflow with buffers 1 and 2 joined by 7 and a listener 8 on buffer 1. -/
def twoBuffers : Nat → List Nat := fun b =>
  if b = 1 then [7, 8] else if b = 2 then [7] else []
def joinAndListen : Nat → Kind Nat := fun l =>
  if l = 7 then .join [(1, .pull), (2, .pull)] else .listen

theorem wired_twoBuffers : Wired twoBuffers joinAndListen := by
  refine ⟨?_, ?_, ?_⟩
  · intro l bufs h
    simp only [joinAndListen] at h
    split at h
    · cases h; rename_i hl; subst hl; simp [twoBuffers]
    · cases h
  · intro l bufs h
    simp only [joinAndListen] at h
    split at h
    · cases h; decide
    · cases h
  · intro b; simp only [twoBuffers]
    split
    · decide
    · split <;> decide

/-- Two sessions interleaved: each gets its own messages in lock-step. -/
example :
    let r := run (init (fun _ => .keepAll) twoBuffers joinAndListen : St Nat Nat Nat Nat)
      ([.send 1 0 10, .send 1 0 11, .send 2 5 90, .send 2 0 20, .send 2 0 21] ++
        List.replicate 20 .exec)
    messages 7 0 r.2 = [[(1, .pull, 10), (2, .pull, 20)], [(1, .pull, 11), (2, .pull, 21)]] ∧
    messages 7 5 r.2 = [] ∧ sentTo 1 0 r.2 = [10, 11] := by
  decide

/-! ### C16 -/

/-- **C16**, as stated: in every run — any retention, pulling or cloning, any gate
operations, any use of keys handed out by others — if the schedule is empty and every
joined buffer is open and holds a value of an active session, then the join has fired
for that session. -/
theorem C16_join_fired (ret : B → Retention) (listeners : B → List L) (kind : L → Kind B)
    (hw : Wired listeners kind) (evs : List (Ev B L S T)) (l : L) (bufs : List (B × Mode)) (s : S)
    (hk : kind l = .join bufs) (hb : bufs ≠ []) (hby : ∀ e ∈ evs, notBy l e)
    (hidle : (run (init ret listeners kind) evs).1.roster = [])
    (ha : (run (init ret listeners kind) evs).1.active s = true)
    (hfull : ∀ p ∈ bufs, content (run (init ret listeners kind) evs).1 p.1 s ≠ [] ∧
      gateView (run (init ret listeners kind) evs).1 p.1 s = .open) :
    messages l s (run (init ret listeners kind) evs).2 ≠ [] := by
  have key : ∀ (evs : List (Ev B L S T)) (st : St B L S T), Static ret listeners kind st →
      Alert l bufs s st → (∀ e ∈ evs, notBy l e) → (run st evs).1.active s = true →
      Alert l bufs s (run st evs).1 ∨ messages l s (run st evs).2 ≠ [] := by
    intro evs
    induction evs with
    | nil => intro st _ h _ _; exact .inl h
    | cons e evs ih =>
      intro st hst h hby ha
      simp only [run, messages_append]
      rcases alert_step hst hk hb (hw.distinct l bufs hk) (hw.listens l bufs hk)
        (active_run st (e :: evs) s ha) h e (hby e (by simp)) with h' | h'
      · rcases ih _ (static_step hst e) h' (fun x hx => hby x (by simp [hx])) ha with h'' | h''
        · exact .inl h''
        · right; simp [h'']
      · right; simp [h']
  rcases key evs _ (static_init ret listeners kind) (fun hr => by
      cases bufs with
      | nil => exact absurd rfl hb
      | cons p bufs =>
        have := (hr p (by simp)).1
        simp [content, init, Storage.new, Storage.iter] at this) hby ha with h | h
  · exfalso
    have hm := h (fun p hp => ⟨(hfull p hp).1, by
      have := (hfull p hp).2
      unfold gateView at this
      simp [isClosed, this]⟩)
    have hc := (counted_run (counted_init ret listeners kind) evs).lis l
    rw [hidle] at hc
    have hp0 := List.eq_nil_of_length_eq_zero (show _ = 0 by simpa using hc)
    rw [hp0] at hm
    cases hm
  · exact h

/-- **C16**, stronger for joins that pull: in every run in which the gates of the joined
buffers stay open for the session and each access by key adds at most one value, once the
schedule is empty no complete set of values is left: some joined buffer is empty. The
retention of the buffers and other joins sharing them are arbitrary. -/
theorem C16_no_set_left (ret : B → Retention) (listeners : B → List L) (kind : L → Kind B)
    (hw : Wired listeners kind) (evs : List (Ev B L S T)) (l : L) (bufs : List (B × Mode)) (s : S)
    (hk : kind l = .join bufs) (hb : bufs ≠ []) (hpull : ∀ p ∈ bufs, p.2 = .pull)
    (hopen : ∀ e ∈ evs, keepsOpen bufs s e) (hby : ∀ e ∈ evs, notBy l e)
    (hone : ∀ e ∈ evs, addsOne e)
    (hidle : (run (init ret listeners kind) evs).1.roster = [])
    (ha : (run (init ret listeners kind) evs).1.active s = true) :
    ∃ p ∈ bufs, content (run (init ret listeners kind) evs).1 p.1 s = [] := by
  have h := enough_run (static_init ret listeners kind) hk hb (hw.distinct l bufs hk) hpull
    (hw.listens l bufs hk) (s := s) (T := T) (fun p _ => rfl)
    (fun n hn => by
      cases bufs with
      | nil => exact absurd rfl hb
      | cons p bufs => simpa [content, init, Storage.new, Storage.iter] using hn p (by simp))
    evs hopen hby hone ha
  have hc := (counted_run (counted_init ret listeners kind) evs).lis l
  rw [hidle] at hc
  have hp0 := List.eq_nil_of_length_eq_zero (show _ = 0 by simpa using hc)
  rcases Classical.em (∃ p ∈ bufs, content (run (init ret listeners kind) evs).1 p.1 s = [])
    with hx | hx
  · exact hx
  · exfalso
    have := h 1 (fun p hp => by
      have hne : content (run (init ret listeners kind) evs).1 p.1 s ≠ [] := fun he => hx ⟨p, hp, he⟩
      exact List.length_pos_iff.2 hne)
    rw [hp0] at this
    simp at this

/-- An idle run in which the join fired twice, with a third value left alone. -/
example :
    let evs : List (Ev Nat Nat Nat Nat) :=
      [.send 1 0 10, .send 1 0 11, .send 2 0 20, .keyAccess 2 0 (some 8) [.push 21] false,
        .send 1 0 12] ++ List.replicate 20 .exec
    let r := run (init (fun _ => .keepAll) twoBuffers joinAndListen) evs
    r.1.roster = [] ∧ r.1.active 0 = true ∧ messages 7 0 r.2 = [[(1, .pull, 10), (2, .pull, 20)]] ∧
      content r.1 1 0 = [11, 12] ∧ content r.1 2 0 = [] := by
  decide

/-! ### C53 -/

/-- The full statement of C53: `C16_no_set_left` without restrictions on gates and on the
number of values added in one access by key, the gates being open in the end. -/
def C53_full : Prop :=
  ∀ (ret : Nat → Retention) (listeners : Nat → List Nat) (kind : Nat → Kind Nat),
    Wired listeners kind → ∀ (evs : List (Ev Nat Nat Nat Nat)) (l : Nat)
    (bufs : List (Nat × Mode)) (s : Nat), kind l = .join bufs → bufs ≠ [] →
    (∀ p ∈ bufs, p.2 = .pull) → (∀ e ∈ evs, notBy l e) →
    (run (init ret listeners kind) evs).1.roster = [] →
    (run (init ret listeners kind) evs).1.active s = true →
    (∀ p ∈ bufs, gateView (run (init ret listeners kind) evs).1 p.1 s = .open) →
    ∃ p ∈ bufs, content (run (init ret listeners kind) evs).1 p.1 s = []

/-- **C53** for runs in which gates stay open and each access by key adds at most one
value. Missing: a gate that opens, or one access that adds several values, wakes the join
once although several sets may be complete, see `C53_gate_violated` and
`C53_key_violated`. -/
theorem C53_catch_up_partial (ret : B → Retention) (listeners : B → List L) (kind : L → Kind B)
    (hw : Wired listeners kind) (evs : List (Ev B L S T)) (l : L) (bufs : List (B × Mode)) (s : S)
    (hk : kind l = .join bufs) (hb : bufs ≠ []) (hpull : ∀ p ∈ bufs, p.2 = .pull)
    (hopen : ∀ e ∈ evs, keepsOpen bufs s e) (hby : ∀ e ∈ evs, notBy l e)
    (hone : ∀ e ∈ evs, addsOne e)
    (hidle : (run (init ret listeners kind) evs).1.roster = [])
    (ha : (run (init ret listeners kind) evs).1.active s = true) :
    ∃ p ∈ bufs, content (run (init ret listeners kind) evs).1 p.1 s = [] :=
  C16_no_set_left ret listeners kind hw evs l bufs s hk hb hpull hopen hby hone hidle ha

/-- **C53** is false: two values arrive in each buffer while the gate of one of them is
closed; when it opens the join runs once and leaves a complete set behind. -/
theorem C53_gate_violated : ¬ C53_full := by
  intro h
  have := h (fun _ => .keepAll) twoBuffers joinAndListen wired_twoBuffers
    ([.gate 2 0 .closed, .send 1 0 10, .send 1 0 11] ++ List.replicate 10 .exec ++
      [.send 2 0 20, .send 2 0 21] ++ List.replicate 10 .exec ++
      [.gate 2 0 .open] ++ List.replicate 10 .exec) 7 [(1, .pull), (2, .pull)] 0 rfl (by simp)
    (by simp) (by simp [notBy]) (by decide) (by decide) (by decide)
  revert this
  decide

/-- **C53** is false also with open gates: two values pushed through a key in one access. -/
theorem C53_key_violated : ¬ C53_full := by
  intro h
  have := h (fun _ => .keepAll) twoBuffers joinAndListen wired_twoBuffers
    ([.send 1 0 10, .send 1 0 11] ++ List.replicate 10 .exec ++
      [.send 2 0 20] ++ List.replicate 10 .exec ++ [.send 1 0 12] ++ List.replicate 10 .exec ++
      [.keyAccess 2 0 (some 8) [.push 21, .push 22] false] ++ List.replicate 10 .exec)
    7 [(1, .pull), (2, .pull)] 0 rfl (by simp)
    (by simp) (by simp [notBy]) (by decide) (by decide) (by decide)
  revert this
  decide

/-! ### C54 -/

/-- The full statement of C54: a join, even one that names a buffer several times, never
fails when each of its buffers holds a value; if it does not fire it takes nothing. -/
def C54_full : Prop :=
  ∀ (st : St Nat Nat Nat Nat) (l : Nat) (rest : List (Target Nat Nat)) (s : Nat) (p : List Nat)
    (bufs : List (Nat × Mode)), st.roster = .lis l :: rest → (st.lis l).pending = s :: p →
    (st.lis l).kind = .join bufs →
    (∃ items, (exec st).2 = [.joined l s items]) ∨
      ((exec st).2 = [] ∧ ∀ b s', content (exec st).1 b s' = content st b s')

theorem fetch_enough (s : S) (st : St B L S T) (bufs : List (B × Mode))
    (hen : ∀ b, (bufs.map (·.1)).count b ≤ (content st b s).length) :
    ∃ items, (fetch s st bufs).2 = some items := by
  induction bufs generalizing st with
  | nil => exact ⟨[], rfl⟩
  | cons q bufs ih =>
    obtain ⟨b, m⟩ := q
    have hb := hen b
    simp only [List.map_cons, List.count_cons_self] at hb
    obtain ⟨v, tl, hv⟩ : ∃ v tl, content st b s = v :: tl := by
      cases hc : content st b s with
      | nil => rw [hc] at hb; simp at hb
      | cons v tl => exact ⟨v, tl, rfl⟩
    have hv' : (st.buf b).store.iter s = v :: tl := hv
    cases m with
    | pull =>
      have hp : ((st.buf b).store.pull s).2 = some v := by rw [pull_snd, hv']; rfl
      obtain ⟨items, hi⟩ := ih (setBuf st b { st.buf b with
          store := ((st.buf b).store.pull s).1 }) (by
        intro x
        have := hen x
        rw [content_pull]
        by_cases hx : x = b
        · subst hx
          simp only [List.map_cons, List.count_cons_self] at this
          simp only [if_true, List.length_tail]; omega
        · simp only [List.map_cons, List.count_cons_of_ne (Ne.symm hx)] at this
          simp only [hx, if_false]; exact this)
      exact ⟨(b, .pull, v) :: items, by simp [fetch, hp, hi]⟩
    | clone =>
      have hp : (st.buf b).store.oldest s = some v := by rw [oldest_eq, hv']; rfl
      obtain ⟨items, hi⟩ := ih st (by
        intro x
        have := hen x
        simp only [List.map_cons, List.count_cons] at this; omega)
      exact ⟨(b, .clone, v) :: items, by simp [fetch, hp, hi]⟩

/-- **C54** when each buffer holds at least as many values as the join names it: the join
fires, and what it pulled from each buffer, in order, was at its front. Missing: fewer
values than occurrences, see `C54_same_buffer_violated`. -/
theorem C54_repeated_buffer_partial (st : St B L S T) (l : L) (rest : List (Target B L)) (s : S)
    (p : List S) (bufs : List (B × Mode)) (hr : st.roster = .lis l :: rest)
    (hp : (st.lis l).pending = s :: p) (hk : (st.lis l).kind = .join bufs) (hb : bufs ≠ [])
    (hen : ∀ b, (bufs.map (·.1)).count b ≤ (content st b s).length) :
    ∃ items, (exec st).2 = [.joined l s items] ∧
      items.map (fun i => (i.1, i.2.1)) = bufs ∧
      ∀ b, content st b s = takenFrom b s (exec st).2 ++ content (exec st).1 b s := by
  have hexec : exec st = execLis { st with roster := rest } l := by simp [exec, hr]
  rw [hexec]
  rcases execLis_cases { st with roster := rest } l with ⟨hp', -⟩ | ⟨s1, p1, hp', h'⟩
  · simp only at hp'; rw [hp] at hp'; cases hp'
  · simp only at hp'; rw [hp] at hp'; cases hp'
    rcases h' with ⟨hk', -⟩ | ⟨bufs', hk', h'⟩
    · simp only at hk'; rw [hk] at hk'; cases hk'
    · simp only at hk'; rw [hk] at hk'; cases hk'
      generalize hst1 : setLis ({ st with roster := rest } : St B L S T) l
        { st.lis l with pending := p } = st1 at h'
      have hc : ∀ b s, content st1 b s = content st b s := by intros; subst hst1; rfl
      obtain ⟨items, hi⟩ := fetch_enough s st1 bufs (fun b => by rw [hc]; exact hen b)
      rcases h' with ⟨he0, he⟩ | ⟨-, hne, ⟨items', hi', he⟩ | ⟨hi', -⟩⟩
      · exfalso
        rcases he0 with he0 | ⟨q, hq, hq0⟩
        · exact hb he0
        · have := hen q.1
          rw [show content st q.1 s = [] from hq0] at this
          have h1 : 0 < (bufs.map (·.1)).count q.1 :=
            List.count_pos_iff.2 (List.mem_map_of_mem (f := fun p : B × Mode => p.1) hq)
          simp only [List.length_nil] at this
          omega
      · rw [hi] at hi'; cases hi'
        have hf : fetch s st1 bufs = ((fetch s st1 bufs).1, some items) := by rw [← hi]
        rw [he]
        refine ⟨items, rfl, fetch_shape s st1 _ bufs items hf, fun b => ?_⟩
        have := fetch_ledger s st1 _ bufs items hf b
        rw [hc] at this
        simpa [takenFrom] using this
      · rw [hi] at hi'; cases hi'

/-- **C54** is false: joining a buffer with itself, the buffer holding one value, the join
takes that value, fails, and sends nothing. -/
theorem C54_same_buffer_violated : ¬ C54_full := by
  intro h
  have := h (run (init (fun _ => .keepAll) (fun b => if b = 1 then [7] else [])
    (fun _ => .join [(1, .pull), (1, .pull)])) [.send 1 0 10, .exec]).1 7 [] 0 []
    [(1, .pull), (1, .pull)] (by decide) (by decide) (by decide)
  have hx : (exec (run (init (fun _ => .keepAll) (fun b => if b = 1 then [7] else [])
    (fun _ => .join [(1, .pull), (1, .pull)]) : St Nat Nat Nat Nat) [.send 1 0 10, .exec]).1).2 =
    [.broken 7] := by decide
  rw [hx] at this
  rcases this with ⟨items, hi⟩ | ⟨hi, -⟩
  · simp at hi
  · cases hi

/-- Two values suffice for the same join. -/
example :
    let st := (run (init (fun _ => .keepAll) (fun b => if b = 1 then [7] else [])
      (fun _ => .join [(1, .pull), (1, .pull)]) : St Nat Nat Nat Nat)
      [.send 1 0 10, .send 1 0 11, .exec, .exec]).1
    (exec st).2 = [.joined 7 0 [(1, .pull, 10), (1, .pull, 11)]] := by
  decide

/-! ### C17 -/

theorem wakes_of_notify (st : St B L S T) (b : B) (s : S) (ls : List L) (b' : B) (s' : S) (l : L)
    (h : (b', l, s') ∈ wakes (wakeAll b s st ls).2) : b' = b ∧ s' = s := by
  rw [wakeAll_wakes] at h
  split at h
  · simp only [List.mem_map, Prod.mk.injEq] at h
    obtain ⟨_, _, h1, _, h2⟩ := h
    exact ⟨h1.symm, h2.symm⟩
  · cases h

theorem step_silent (st : St B L S T) (e : Ev B L S T) (b : B) (s : S)
    (hc : isClosed (st.buf b) s = true) (he : opens b s e = false) (l : L) :
    (b, l, s) ∉ wakes (step st e).2 := by
  intro h
  cases e with
  | send b' s' v => simp only [step, send] at h; split at h <;> simp [wakes] at h
  | exec =>
    simp only [step, exec] at h
    split at h
    · simp [wakes] at h
    · rename_i b' rest hr
      unfold execBuf at h
      split at h
      · simp [wakes] at h
      · rename_i s' v ins hin
        simp only at h
        split at h
        · simp [wakes] at h
        · rename_i hcl
          obtain ⟨rfl, rfl⟩ := wakes_of_notify _ _ _ _ _ _ _ h
          exact hcl hc
    · rename_i l' rest hr
      rcases execLis_cases { st with roster := rest } l' with
        ⟨-, he⟩ | ⟨s1, p1, hp, ⟨hk, he⟩ | ⟨bufs, hk, h'⟩⟩
      · rw [he] at h; simp [wakes] at h
      · rw [he] at h; simp [wakes] at h
      · rcases h' with ⟨-, he⟩ | ⟨-, hne, ⟨items, hi, he⟩ | ⟨hi, he⟩⟩ <;>
          (rw [he] at h; simp [wakes] at h)
  | gate b' s' g =>
    simp only [step, gateAction] at h
    split at h
    · simp [wakes] at h
    · split at h
      · rename_i hg
        subst hg
        obtain ⟨rfl, rfl⟩ := wakes_of_notify _ _ _ _ _ _ _ h
        simp [opens] at he
      · simp [wakes] at h
  | keyAccess b' s' a ops p =>
    simp only [step, keyAccess, notifyUpdate] at h
    split at h
    · split at h
      · simp [wakes] at h
      · rename_i hcl
        obtain ⟨rfl, rfl⟩ := wakes_of_notify _ _ _ _ _ _ _ h
        apply hcl
        simpa [isClosed, setBuf] using hc
    · simp [wakes] at h
  | keyGate b' s' a g =>
    simp only [step, keyGate, notifyUpdate] at h
    split at h
    · simp [wakes] at h
    · split at h
      · split at h
        · simp [wakes] at h
        · rename_i hg _
          obtain ⟨rfl, rfl⟩ := wakes_of_notify _ _ _ _ _ _ _ h
          rw [hg.1] at he
          simp [opens] at he
      · simp [wakes] at h
  | ending s' => simp [step, wakes] at h

theorem isClosed_iff (st : St B L S T) (b : B) (s : S) :
    isClosed (st.buf b) s = true ↔ gateView st b s = .closed := by
  unfold isClosed gateView
  simp

/-- **C17**, closed: from any state in which the gate of `b` is closed for `s`, in every
run that does not open it, `b` wakes no listener for `s`, and the gate stays closed. -/
theorem C17_closed_silent (st : St B L S T) (b : B) (s : S) (hc : gateView st b s = .closed)
    (evs : List (Ev B L S T)) (he : ∀ e ∈ evs, opens b s e = false) :
    (∀ l, (b, l, s) ∉ wakes (run st evs).2) ∧ gateView (run st evs).1 b s = .closed := by
  induction evs generalizing st with
  | nil => exact ⟨by simp [run, wakes], hc⟩
  | cons e evs ih =>
    rw [← isClosed_iff] at hc
    have h1 := step_silent st e b s hc (he e (by simp))
    have h2 : isClosed ((step st e).1.buf b) s = true := by
      rcases step_gate st e b s with h | ⟨h, -⟩ | ⟨-, h⟩
      · rw [h]; exact hc
      · exact h
      · rw [he e (by simp)] at h; cases h
    obtain ⟨h3, h4⟩ := ih (step st e).1 ((isClosed_iff _ _ _).1 h2) (fun x hx => he x (by simp [hx]))
    refine ⟨fun l => ?_, h4⟩
    simp only [run, wakes_append, List.mem_append, not_or]
    exact ⟨h1 l, h3 l⟩

/-- **C17**, data: whatever gates do, once the schedule is empty every value accepted by
an unlimited buffer was taken by a join or is held, in order. -/
theorem C17_data_kept (ret : B → Retention) (listeners : B → List L) (kind : L → Kind B)
    (hw : Wired listeners kind) (evs : List (Ev B L S T)) (b : B) (s : S)
    (hall : ret b = .keepAll) (hkey : ∀ e ∈ evs, keyOn b e = false)
    (hidle : (run (init ret listeners kind) evs).1.roster = []) :
    takenFrom b s (run (init ret listeners kind) evs).2 ++
      content (run (init ret listeners kind) evs).1 b s =
      sentTo b s (run (init ret listeners kind) evs).2 := by
  rw [C15_in_order ret listeners kind hw evs b s hall hkey]
  have hc := (counted_run (counted_init ret listeners kind) evs).buf b
  rw [hidle] at hc
  have := List.eq_nil_of_length_eq_zero (show _ = 0 by simpa using hc)
  simp [arriving, this]

/-- **C17**, opening: opening a closed gate wakes every listener, in an active session. -/
theorem C17_open_wakes (st : St B L S T) (b : B) (s : S) (hc : gateView st b s = .closed)
    (ha : st.active s = true) :
    wakes (step st (.gate b s .open)).2 = (st.buf b).listeners.map (b, ·, s) ∧
    gateView (step st (.gate b s .open)).1 b s = .open := by
  have hg : ((st.buf b).gate s).getD .open = .closed := hc
  simp only [step, gateAction, hg, reduceCtorEq, if_false, if_true]
  rw [wakeAll_wakes]
  refine ⟨by simp [setBuf, ha], ?_⟩
  unfold gateView
  rw [(wakeAll_buf _ _ _ _).1]
  simp [setBuf]

/-- **C17**, a gate operation repeated has no effect. -/
theorem C17_repeat (st : St B L S T) (b : B) (s : S) (g : Gate) :
    step (step st (.gate b s g)).1 (.gate b s g) = ((step st (.gate b s g)).1, []) := by
  have key : ∀ st' : St B L S T, (st'.buf b).gate s = some g →
      step st' (.gate b s g) = (st', []) := by
    intro st' h
    simp only [step, gateAction, h, Option.getD_some, if_true, Prod.mk.injEq, and_true]
    have hfun : (fun x => if x = s then some g else (st'.buf b).gate x) = (st'.buf b).gate := by
      funext x
      by_cases hx : x = s
      · subst hx; simp [h]
      · simp [hx]
    rw [hfun]
    unfold setBuf
    congr 1
    funext x
    by_cases hx : x = b
    · subst hx; simp
    · simp [hx]
  apply key
  simp only [step, gateAction]
  split
  · rename_i hg; simp [setBuf, hg]
  · split
    · rw [(wakeAll_buf _ _ _ _).1]; simp [setBuf]
    · simp [setBuf]

/-- The last gate operation of `evs` on `b` and `s`, `g` if there is none. -/
def lastGate (b : B) (s : S) (g : Gate) : List (Ev B L S T) → Gate
  | [] => g
  | .gate b' s' g' :: evs => lastGate b s (if b' = b ∧ s' = s then g' else g) evs
  | _ :: evs => lastGate b s g evs

/-- **C17**, sessions: in every run without gate changes by key on `b` and `s`, the gate
is what the last gate operation on exactly this buffer and session made it; nothing else
affects it. -/
theorem C17_gates_independent (ret : B → Retention) (listeners : B → List L) (kind : L → Kind B)
    (evs : List (Ev B L S T)) (b : B) (s : S) (hkey : ∀ a g, Ev.keyGate b s a g ∉ evs) :
    gateView (run (init ret listeners kind) evs).1 b s = lastGate b s .open evs := by
  have key : ∀ (evs : List (Ev B L S T)) (st : St B L S T), (∀ a g, Ev.keyGate b s a g ∉ evs) →
      gateView (run st evs).1 b s = lastGate b s (gateView st b s) evs := by
    intro evs
    induction evs with
    | nil => intro st _; rfl
    | cons e evs ih =>
      intro st hk
      simp only [run]
      rw [ih _ (fun a g hm => hk a g (by simp [hm]))]
      have hview : ∀ st' : St B L S T, isClosed (st'.buf b) s = isClosed (st.buf b) s →
          gateView st' b s = gateView st b s := by
        intro st' h
        cases hx : gateView st b s with
        | closed =>
          rw [← isClosed_iff] at hx ⊢
          rw [h]; exact hx
        | «open» =>
          cases hy : gateView st' b s with
          | «open» => rfl
          | closed =>
            rw [← isClosed_iff, h, isClosed_iff, hx] at hy
            cases hy
      have hother : (∀ g, e ≠ .gate b s g) → gateView (step st e).1 b s = gateView st b s := by
        intro hne
        rcases step_gate st e b s with h | ⟨-, h⟩ | ⟨-, h⟩
        · exact hview _ h
        · rcases h with h | ⟨a, h⟩
          · exact absurd h (hne _)
          · exact absurd (by simp [h]) (hk a .closed)
        · cases e with
          | gate b' s' g =>
            cases g with
            | closed => simp [opens] at h
            | «open» =>
              simp only [opens, decide_eq_true_eq] at h
              obtain ⟨rfl, rfl⟩ := h
              exact absurd rfl (hne _)
          | keyGate b' s' a g =>
            cases g with
            | closed => simp [opens] at h
            | «open» =>
              simp only [opens, decide_eq_true_eq] at h
              obtain ⟨rfl, rfl⟩ := h
              exact absurd (by simp) (hk a .open)
          | _ => simp [opens] at h
      cases e with
      | gate b' s' g =>
        simp only [lastGate]
        by_cases hbs : b' = b ∧ s' = s
        · obtain ⟨rfl, rfl⟩ := hbs
          simp only [and_self, if_true]
          congr 1
          unfold gateView
          simp only [step, gateAction]
          split
          · rename_i hg; simp [setBuf, hg]
          · split
            · rw [(wakeAll_buf _ _ _ _).1]; simp [setBuf]
            · simp [setBuf]
        · rw [if_neg hbs, hother (by
            intro g' he
            simp only [Ev.gate.injEq] at he
            exact hbs ⟨he.1, he.2.1⟩)]
      | send b' s' v => exact congrArg (fun g => lastGate b s g evs) (hother (by simp))
      | exec => exact congrArg (fun g => lastGate b s g evs) (hother (by simp))
      | keyAccess b' s' a ops p => exact congrArg (fun g => lastGate b s g evs) (hother (by simp))
      | keyGate b' s' a g => exact congrArg (fun g => lastGate b s g evs) (hother (by simp))
      | ending s' => exact congrArg (fun g => lastGate b s g evs) (hother (by simp))
  exact key evs (init ret listeners kind) hkey

/-- A gate closed for session 0 withholds its notifications, not those of session 5;
opening it wakes both listeners. -/
example :
    let r1 := run (init (fun _ => .keepAll) twoBuffers joinAndListen : St Nat Nat Nat Nat)
      [.gate 1 0 .closed, .send 1 0 10, .send 1 5 50, .exec, .exec]
    let r2 := run r1.1 [.gate 1 0 .open]
    wakes r1.2 = [(1, 7, 5), (1, 8, 5)] ∧ content r1.1 1 0 = [10] ∧
      gateView r1.1 1 0 = .closed ∧ wakes r2.2 = [(1, 7, 0), (1, 8, 0)] := by
  decide

/-! ### C18 -/

/-- The full statement of C18: whatever happened before, after closing the gate through
a key it reads as closed. -/
def C18_full : Prop :=
  ∀ (evs : List (Ev Nat Nat Nat Nat)) (b s : Nat) (a : Option Nat),
    gateView (run (init (fun _ => .keepAll) twoBuffers joinAndListen)
      (evs ++ [.keyGate b s a .closed])).1 b s = .closed

theorem run_append (st : St B L S T) (e e' : List (Ev B L S T)) :
    run st (e ++ e') = ((run (run st e).1 e').1, (run st e).2 ++ (run (run st e).1 e').2) := by
  induction e generalizing st with
  | nil => simp [run]
  | cons x e ih => simp [run, ih]

/-- Whether the gate map of a buffer has an entry. -/
theorem gate_entry_step (st : St B L S T) (e : Ev B L S T) (b : B) (s : S) :
    ((step st e).1.buf b).gate s ≠ none ↔ (st.buf b).gate s ≠ none ∨ ∃ g, e = .gate b s g := by
  have other : ∀ st' : St B L S T, (∀ g, e ≠ .gate b s g) →
      (((st'.buf b).gate s ≠ none) ↔ (st.buf b).gate s ≠ none) →
      (((st'.buf b).gate s ≠ none) ↔ (st.buf b).gate s ≠ none ∨ ∃ g, e = .gate b s g) := by
    intro st' hne h
    rw [h]
    constructor
    · exact .inl
    · rintro (h | ⟨g, hg⟩)
      · exact h
      · exact absurd hg (hne g)
  have setg : ∀ b' s' (v : Gate), ((setBuf st b' { st.buf b' with
        gate := fun x => if x = s' then some v else (st.buf b').gate x }).buf b).gate s =
        if b = b' ∧ s = s' then some v else (st.buf b).gate s := by
    intro b' s' v
    by_cases hb : b = b'
    · subst hb; by_cases hs : s = s' <;> simp [setBuf, hs]
    · simp [setBuf, hb]
  cases e with
  | send b' s' v =>
    refine other _ (by simp) ?_
    simp only [step, send]; split
    · rw [show ((setBuf ({ st with roster := st.roster ++ [.buf b'] } : St B L S T) b'
        { st.buf b' with input := (st.buf b').input ++ [(s', v)] }).buf b).gate =
        (st.buf b).gate by by_cases hx : b = b' <;> simp [setBuf, hx]]
    · rfl
  | exec =>
    refine other _ (by simp) ?_
    simp only [step, exec]; split
    · rfl
    · rw [execBuf_gate]
    · rw [execLis_gate]
  | gate b' s' g =>
    simp only [step, gateAction]
    split
    · rw [setg]
      by_cases hbs : b = b' ∧ s = s'
      · obtain ⟨rfl, rfl⟩ := hbs; simp
      · rw [if_neg hbs]
        simp only [Ev.gate.injEq]
        constructor
        · exact .inl
        · rintro (h | ⟨g', h1, h2, -⟩)
          · exact h
          · exact absurd ⟨h1.symm, h2.symm⟩ hbs
    · have hh : (((setBuf st b' { st.buf b' with
          gate := fun x => if x = s' then some g else (st.buf b').gate x }).buf b).gate s ≠ none) ↔
          (st.buf b).gate s ≠ none ∨ ∃ g', (Ev.gate b' s' g : Ev B L S T) = .gate b s g' := by
        rw [setg]
        by_cases hbs : b = b' ∧ s = s'
        · obtain ⟨rfl, rfl⟩ := hbs; simp
        · rw [if_neg hbs]
          simp only [Ev.gate.injEq]
          constructor
          · exact .inl
          · rintro (h | ⟨g', h1, h2, -⟩)
            · exact h
            · exact absurd ⟨h1.symm, h2.symm⟩ hbs
      split
      · rw [(wakeAll_buf _ _ _ _).1]; exact hh
      · exact hh
  | keyAccess b' s' a ops p =>
    refine other _ (by simp) ?_
    simp only [step, keyAccess, notifyUpdate]
    have : ((setBuf st b' { st.buf b' with
        store := (Buffer.run (st.buf b').store (ops.map fun o => (s', o))).1 }).buf b).gate =
        (st.buf b).gate := by by_cases hx : b = b' <;> simp [setBuf, hx]
    split
    · split
      · rw [this]
      · rw [(wakeAll_buf _ _ _ _).1, this]
    · rw [this]
  | keyGate b' s' a g =>
    refine other _ (by simp) ?_
    simp only [step, keyGate, notifyUpdate]
    split
    · rfl
    · rename_i cur hcur
      have : (((setBuf st b' { st.buf b' with
          gate := fun x => if x = s' then some g else (st.buf b').gate x }).buf b).gate s ≠ none) ↔
          (st.buf b).gate s ≠ none := by
        rw [setg]
        by_cases hbs : b = b' ∧ s = s'
        · obtain ⟨rfl, rfl⟩ := hbs; simp [hcur]
        · rw [if_neg hbs]
      split
      · split
        · exact this
        · rw [(wakeAll_buf _ _ _ _).1]; exact this
      · exact this
  | ending s' => exact other _ (by simp) Iff.rfl

theorem gate_entry_run (st : St B L S T) (evs : List (Ev B L S T)) (b : B) (s : S) :
    ((run st evs).1.buf b).gate s ≠ none ↔
      (st.buf b).gate s ≠ none ∨ ∃ g, Ev.gate b s g ∈ evs := by
  induction evs generalizing st with
  | nil => simp [run]
  | cons e evs ih =>
    simp only [run]
    rw [ih, gate_entry_step]
    constructor
    · rintro ((h | ⟨g, h⟩) | ⟨g, h⟩)
      · exact .inl h
      · exact .inr ⟨g, by simp [h]⟩
      · exact .inr ⟨g, by simp [h]⟩
    · rintro (h | ⟨g, h⟩)
      · exact .inl (.inl h)
      · rcases List.mem_cons.1 h with h | h
        · exact .inl (.inr ⟨g, h.symm⟩)
        · exact .inr ⟨g, h⟩

/-- **C18** for sessions in which a gate operation of the workflow has acted on the buffer
before: the gate reads as closed, and until it is opened the buffer wakes no listener
for the session. Missing: sessions without such a gate operation, see
`C18_never_touched_violated` and `C18_never_touched_ignored`. -/
theorem C18_key_closes_partial (ret : B → Retention) (listeners : B → List L) (kind : L → Kind B)
    (evs evs' : List (Ev B L S T)) (b : B) (s : S) (a : Option L)
    (htouched : ∃ g, Ev.gate b s g ∈ evs) (hstay : ∀ e ∈ evs', opens b s e = false) :
    let before := (run (init ret listeners kind) (evs ++ [.keyGate b s a .closed])).1
    gateView before b s = .closed ∧ (∀ l, (b, l, s) ∉ wakes (run before evs').2) ∧
      gateView (run before evs').1 b s = .closed := by
  intro before
  have hv : gateView before b s = .closed := by
    have hent := (gate_entry_run (init ret listeners kind) evs b s).2 (.inr htouched)
    simp only [before, run_append, run, step, keyGate]
    cases hg : ((run (init ret listeners kind) evs).1.buf b).gate s with
    | none => exact absurd hg hent
    | some cur => simp [gateView, setBuf]
  exact ⟨hv, C17_closed_silent before b s hv evs' hstay⟩

/-- Where no gate operation has acted in the session, opening or closing the gate through
a key does nothing at all, in every run. -/
theorem C18_never_touched_ignored (ret : B → Retention) (listeners : B → List L)
    (kind : L → Kind B) (evs : List (Ev B L S T)) (b : B) (s : S) (a : Option L) (g : Gate)
    (hnot : ∀ g', Ev.gate b s g' ∉ evs) :
    step (run (init ret listeners kind) evs).1 (.keyGate b s a g) =
      ((run (init ret listeners kind) evs).1, []) := by
  have : ((run (init ret listeners kind) evs).1.buf b).gate s = none := by
    rcases Classical.em (((run (init ret listeners kind) evs).1.buf b).gate s = none) with h | h
    · exact h
    · rcases (gate_entry_run _ evs b s).1 h with h | ⟨g', h⟩
      · exact absurd rfl h
      · exact absurd h (hnot g')
  simp only [step, keyGate, this]

/-- **C18** is false in a session in which no gate operation ran. -/
theorem C18_never_touched_violated : ¬ C18_full := by
  intro h
  have := h [.send 1 0 10, .exec] 1 0 (some 8)
  revert this
  decide

example :
    let evs : List (Ev Nat Nat Nat Nat) := [.gate 1 0 .open, .send 1 0 10, .exec]
    let r := run (init (fun _ => .keepAll) twoBuffers joinAndListen)
      (evs ++ [.keyGate 1 0 (some 8) .closed])
    (∃ g, Ev.gate 1 0 g ∈ evs) ∧ gateView r.1 1 0 = .closed ∧
      wakes (run r.1 [.send 1 0 11, .exec, .exec, .exec]).2 = [] :=
  ⟨⟨.open, by simp⟩, by decide, by decide⟩

/-! ### C48 -/

theorem marks_eq (o : Buffer.Op T) : marks o = mutating o := by
  cases o <;> rfl

/-- **C48**: using a key on an open buffer of an active session wakes each listener of the
buffer exactly once — except the accessor the key came from, if the access still has it —
when a mutating method or `pulse` was called, and none otherwise. No other buffer wakes
anything. -/
theorem C48_modified_wakes_once (st : St B L S T) (b : B) (s : S) (a : Option L)
    (ops : List (Buffer.Op T)) (pulse : Bool) (hopen : gateView st b s = .open)
    (ha : st.active s = true) (hnd : (st.buf b).listeners.Nodup) (b' : B) (l : L) (s' : S) :
    wakeCount b' l s' (step st (.keyAccess b s a ops pulse)).2 =
      if b' = b ∧ s' = s ∧ l ∈ (st.buf b).listeners ∧ a ≠ some l ∧
        (pulse = true ∨ ∃ o ∈ ops, mutating o = true) then 1 else 0 := by
  have hcount : ∀ ls : List L, wakeCount b' l s' (ls.map (Hist.woke (T := T) b · s)) =
      if b' = b ∧ s' = s then ls.count l else 0 := by
    intro ls
    induction ls with
    | nil => simp [wakeCount]
    | cons x ls ih =>
      simp only [wakeCount, List.map_cons, List.filter_cons] at ih ⊢
      by_cases hb : b' = b ∧ s' = s
      · obtain ⟨rfl, rfl⟩ := hb
        by_cases hx : x = l
        · subst hx; simp at ih ⊢; exact ih
        · simp [hx] at ih ⊢; exact ih
      · have : ¬ (b = b' ∧ x = l ∧ s = s') := fun h => hb ⟨h.1.symm, h.2.2.symm⟩
        simp only [this, decide_false, Bool.false_eq_true, if_false, hb] at ih ⊢
        exact ih
  have hcl : isClosed ((setBuf st b { st.buf b with
      store := (Buffer.run (st.buf b).store (ops.map fun o => (s, o))).1 }).buf b) s = false := by
    have : isClosed (st.buf b) s = false := by
      cases h : isClosed (st.buf b) s with
      | false => rfl
      | true => rw [isClosed_iff, hopen] at h; cases h
    simpa [isClosed, setBuf] using this
  simp only [step, keyAccess]
  by_cases hm : (pulse || ops.any marks) = true
  · have hm' : pulse = true ∨ ∃ o ∈ ops, mutating o = true := by
      simpa [Bool.or_eq_true, List.any_eq_true, marks_eq] using hm
    simp only [hm, if_true, notifyUpdate, hcl, Bool.false_eq_true, if_false, hm', and_true]
    rw [wakeAll_hist]
    simp only [setBuf, if_true, ha]
    rw [hcount]
    by_cases hbs : b' = b ∧ s' = s
    · obtain ⟨rfl, rfl⟩ := hbs
      simp only [and_self, if_true, true_and]
      by_cases hl : l ∈ (st.buf b').listeners ∧ a ≠ some l
      · rw [if_pos hl]
        have hmem : l ∈ (st.buf b').listeners.filter fun x => !(decide (a = some x)) := by
          simp [List.mem_filter, hl.1, hl.2]
        have h1 := List.nodup_iff_count.1 (hnd.filter (fun x => !(decide (a = some x)))) l
        have h2 := List.count_pos_iff.2 hmem
        omega
      · rw [if_neg hl, List.count_eq_zero]
        intro hmem
        simp only [List.mem_filter] at hmem
        exact hl ⟨hmem.1, by simpa using hmem.2⟩
    · rw [if_neg hbs, if_neg (fun h => hbs ⟨h.1, h.2.1⟩)]
  · have hm' : ¬ (pulse = true ∨ ∃ o ∈ ops, mutating o = true) := by
      intro h
      exact hm (by simpa [Bool.or_eq_true, List.any_eq_true, marks_eq] using h)
    simp only [hm, Bool.false_eq_true, if_false, hm', and_false]
    rfl

/-- **C48**: reading through a key changes nothing and wakes nobody, in any state. -/
theorem C48_reading_silent (st : St B L S T) (b : B) (s : S) (a : Option L)
    (ops : List (Buffer.Op T)) (hread : ∀ o ∈ ops, mutating o = false) (b' : B) (s' : S) :
    (step st (.keyAccess b s a ops false)).2 = [] ∧
      content (step st (.keyAccess b s a ops false)).1 b' s' = content st b' s' := by
  have hany : ops.any marks = false := by
    rw [List.any_eq_false]
    intro o ho h
    rw [marks_eq, hread o ho] at h; cases h
  simp only [step, keyAccess, hany, Bool.or_self, Bool.false_eq_true, if_false, true_and]
  rw [run_unmarked _ _ _ hany]
  by_cases hb : b' = b
  · subst hb; simp [content, setBuf]
  · simp [content, setBuf, hb]

/-- **C48**, in terms of the content: an access through a key that changed what the open
buffer holds woke every other listener once. -/
theorem C48_changed_wakes (st : St B L S T) (b : B) (s : S) (a : Option L)
    (ops : List (Buffer.Op T)) (pulse : Bool) (hopen : gateView st b s = .open)
    (ha : st.active s = true) (hnd : (st.buf b).listeners.Nodup)
    (hch : content (step st (.keyAccess b s a ops pulse)).1 b s ≠ content st b s)
    (l : L) (hl : l ∈ (st.buf b).listeners) (hla : a ≠ some l) :
    wakeCount b l s (step st (.keyAccess b s a ops pulse)).2 = 1 := by
  rw [C48_modified_wakes_once st b s a ops pulse hopen ha hnd]
  rw [if_pos]
  refine ⟨rfl, rfl, hl, hla, ?_⟩
  cases pulse with
  | true => exact .inl rfl
  | false =>
    right
    rcases Classical.em (∃ o ∈ ops, mutating o = true) with h | h
    · exact h
    · exact absurd (C48_reading_silent st b s a ops (fun o ho => by
        cases hm : mutating o with
        | false => rfl
        | true => exact absurd ⟨o, ho, hm⟩ h) b s).2 hch

theorem ended_step (st : St B L S T) (e : Ev B L S T) (s : S) (ha : st.active s = false) :
    (∀ b, sentTo b s (step st e).2 = []) ∧ (∀ b l, (b, l, s) ∉ wakes (step st e).2) := by
  have hw : ∀ (st' : St B L S T) b' s' ls, st'.active = st.active →
      (∀ b, sentTo b s (wakeAll b' s' st' ls).2 = []) ∧
      (∀ b l, (b, l, s) ∉ wakes (wakeAll b' s' st' ls).2) := by
    intro st' b' s' ls hact
    refine ⟨fun b => wakeAll_sent _ _ _ _ _ _, fun b l h => ?_⟩
    have := wakes_of_notify _ _ _ _ _ _ _ h
    obtain ⟨rfl, rfl⟩ := this
    rw [wakeAll_wakes, hact, ha] at h
    simp at h
  cases e with
  | send b' s' v =>
    simp only [step, send]
    split
    · rename_i h
      refine ⟨fun b => ?_, fun b l => by simp [wakes]⟩
      have : s' ≠ s := fun he => by rw [he, ha] at h; cases h
      simp [sentTo, this]
    · simp [sentTo, wakes]
  | exec =>
    simp only [step, exec]
    split
    · simp [sentTo, wakes]
    · rename_i b' rest hr
      unfold execBuf
      split
      · simp [sentTo, wakes]
      · simp only
        split
        · simp [sentTo, wakes]
        · exact hw _ _ _ _ rfl
    · rename_i l' rest hr
      rcases execLis_cases { st with roster := rest } l' with
        ⟨-, he⟩ | ⟨s1, p1, hp, ⟨hk, he⟩ | ⟨bufs, hk, h'⟩⟩
      · rw [he]; simp [sentTo, wakes]
      · rw [he]; simp [sentTo, wakes]
      · rcases h' with ⟨-, he⟩ | ⟨-, hne, ⟨items, hi, he⟩ | ⟨hi, he⟩⟩ <;>
          (rw [he]; simp [sentTo, wakes])
  | gate b' s' g =>
    simp only [step, gateAction]
    split
    · simp [sentTo, wakes]
    · split
      · exact hw _ _ _ _ rfl
      · simp [sentTo, wakes]
  | keyAccess b' s' a ops p =>
    simp only [step, keyAccess, notifyUpdate]
    split
    · split
      · simp [sentTo, wakes]
      · exact hw _ _ _ _ rfl
    · simp [sentTo, wakes]
  | keyGate b' s' a g =>
    simp only [step, keyGate, notifyUpdate]
    split
    · simp [sentTo, wakes]
    · split
      · split
        · simp [sentTo, wakes]
        · exact hw _ _ _ _ rfl
      · simp [sentTo, wakes]
  | ending s' => simp [step, sentTo, wakes]

/-- **C48**, sessions that have ended: in every run from a state in which the session is
not active, no buffer accepts a value for it and no listener is woken for it. -/
theorem C48_ended_session_silent (st : St B L S T) (s : S) (ha : st.active s = false)
    (evs : List (Ev B L S T)) :
    (∀ b, sentTo b s (run st evs).2 = []) ∧ (∀ b l, (b, l, s) ∉ wakes (run st evs).2) := by
  induction evs generalizing st with
  | nil => simp [run, sentTo, wakes]
  | cons e evs ih =>
    have h1 := ended_step st e s ha
    have h2 := ih (step st e).1 (by
      cases h : (step st e).1.active s with
      | false => rfl
      | true => rw [active_step st e s h] at ha; cases ha)
    simp only [run, wakes_append, sentTo_append, List.append_eq_nil_iff, List.mem_append, not_or]
    exact ⟨fun b => ⟨h1.1 b, h2.1 b⟩, fun b l => ⟨h1.2 b l, h2.2 b l⟩⟩

example :
    let r := run (init (fun _ => .keepAll) twoBuffers joinAndListen : St Nat Nat Nat Nat)
      [.send 1 0 10, .exec, .ending 0]
    r.1.active 0 = false ∧ wakes (run r.1 [.send 1 0 11, .exec, .exec, .send 1 5 5, .exec]).2 =
      [(1, 7, 5), (1, 8, 5)] := by
  decide

/-- A woken listener is scheduled and runs: between any two states of a run the schedule
holds exactly one entry for each notification. -/
theorem C48_notified_scheduled (ret : B → Retention) (listeners : B → List L)
    (kind : L → Kind B) (evs : List (Ev B L S T)) (l : L) :
    ((run (init ret listeners kind) evs).1.lis l).pending.length =
      (run (init ret listeners kind) evs).1.roster.count (.lis l) :=
  (counted_run (counted_init ret listeners kind) evs).lis l

/-- The key of listener 8 wakes the join 7 but not 8 itself, unless loops are allowed. -/
example :
    let st := (run (init (fun _ => .keepAll) twoBuffers joinAndListen : St Nat Nat Nat Nat)
      [.send 1 0 10, .exec]).1
    wakes (step st (.keyAccess 1 0 (some 8) [.push 5, .readAll] false)).2 = [(1, 7, 0)] ∧
    wakes (step st (.keyAccess 1 0 none [.pull] false)).2 = [(1, 7, 0), (1, 8, 0)] ∧
    wakes (step st (.keyAccess 1 0 none [.readAll] false)).2 = [] := by
  decide

end Verif.BufNet
