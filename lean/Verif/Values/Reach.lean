import Verif.Values.Told
import Verif.Flow.Props

/-
In a workflow without races at its joins everything that the graph computes can still be computed,
as long as the session runs.
-/
namespace Verif.Values

open Flow (Wired)
open Buffer (Retention)

variable {α : Type}

/-- A session that runs, with what holds of it. -/
structure Good (w : Work α) (x : α) (s : State α) : Prop where
  sound : Sound w x s
  told : Told w x s
  active : s.status = .active

/-- `s'` can follow `s`. -/
def Goes (w : Work α) (s s' : State α) : Prop := ∃ es, (∀ e, e ∈ es → Kept e) ∧ run w s es = s'

theorem Goes.refl (w : Work α) (s : State α) : Goes w s s := ⟨[], by simp, rfl⟩

theorem Goes.trans {w : Work α} {s s' s'' : State α} (h : Goes w s s') (h' : Goes w s' s'') :
    Goes w s s'' := by
  obtain ⟨es, h1, rfl⟩ := h
  obtain ⟨es', h2, rfl⟩ := h'
  refine ⟨es ++ es', fun e he => ?_, by simp [run, List.foldl_append]⟩
  rcases List.mem_append.1 he with he | he
  · exact h1 e he
  · exact h2 e he

theorem Goes.one {w : Work α} (s : State α) {e : Ev} (he : Kept e) : Goes w s (step w s e) :=
  ⟨[e], by simpa using he, rfl⟩

/-- The buffers have room. -/
def Roomy (w : Work α) : Prop := ∀ b r, w.ops.lookup b = some (.buffer r) → capacity r ≠ some 0

/-- The buffer has a value, or a join has pulled it. -/
def Has (w : Work α) (x : α) (s : State α) (b : Nat) : Prop := s.held b ≠ [] ∨ Pulled w x s b

theorem Goes.keeps {w : Work α} (hw : Wired w.net) {x : α} (hroom : Roomy w) {s s' : State α}
    (h : Goes w s s') (hso : Sound w x s) :
    (∀ p, p ∈ s.log → p ∈ s'.log) ∧ ∀ b, Has w x s b → Has w x s' b := by
  obtain ⟨es, he, rfl⟩ := h
  induction es generalizing s with
  | nil => exact ⟨fun _ h => h, fun _ h => h⟩
  | cons e es ih =>
    obtain ⟨ps, P, hm⟩ := moves_step hw hroom hso e (he e List.mem_cons_self)
    obtain ⟨h1, h2⟩ := ih (s := step w s e) (hso.step hw e)
      (fun e' he' => he e' (List.mem_cons_of_mem _ he'))
    refine ⟨fun p hp => h1 p (hm.grows p hp), fun b hb => h2 b ?_⟩
    rcases hb with hb | hb
    · exact hm.held b hb
    · exact Or.inr (hb.mono hm.grows)

/-- A session of `Flow` follows. -/
theorem Goes.flat {w : Work α} (hw : Wired w.net) {x : α} {s s' : State α} (h : Goes w s s')
    (hso : Sound w x s) : ∃ fes, Flow.run w.net s.flat fes = s'.flat := by
  obtain ⟨es, hk, rfl⟩ := h
  induction es generalizing s with
  | nil => exact ⟨[], rfl⟩
  | cons e es ih =>
    obtain ⟨fes, hf⟩ := ih (s := step w s e) (hso.step hw e)
      (fun e' he' => hk e' (List.mem_cons_of_mem _ he'))
    refine ⟨flatEv w s e :: fes, ?_⟩
    show Flow.run w.net (Flow.step w.net s.flat (flatEv w s e)) fes = _
    rw [← flat_step hw s hso.fits e]
    exact hf

/-! ### Events that do not end the session -/

theorem execute_active {w : Work α} (hw : Wired w.net) {s : State α} (ha : s.status = .active)
    {n : Nat} {k : Kind α} (v : α) (hk : w.ops.lookup n = some k) (h1 : k ≠ .cancel)
    (h2 : k ≠ .terminate) : (execute w s n v k).status = .active := by
  have passes : k.passes = true → (execute w s n v k).status = .active := by
    intro hp
    obtain ⟨ps, h, _⟩ := execute_passed hw s v hk hp
    rw [h.status]
    exact ha
  cases k with
  | node async f t ss items =>
    cases async with
    | false => exact passes rfl
    | true => exact ha
  | buffer r => exact ha
  | join bs t pack => exact ha
  | cancel => exact absurd rfl h1
  | terminate => exact absurd rfl h2
  | _ => exact passes rfl

theorem fire_active {w : Work α} (hw : Wired w.net) {s : State α} (ha : s.status = .active)
    {n : Nat} {bs : List (Nat × Bool)} {t : Nat} {pack : List α → α}
    (hk : w.ops.lookup n = some (.join bs t pack)) : (fire w s bs t pack).status = .active := by
  unfold fire
  split
  · rename_i hr
    obtain ⟨⟨vs, hd⟩, hf⟩ := fetch_some s.held bs (Wired.distinct hw hk) (by
      intro b hb he
      unfold ready at hr
      rw [Bool.and_eq_true, List.all_eq_true] at hr
      have := hr.2 b hb
      simp [he] at this)
    rw [hf]
    simp only
    rw [(give_passed _ (Wired.exists hw hk (by simp [Kind.shape, Flow.Kind.targets]))).status]
    exact ha
  · exact ha

/-- Only the operations that end a session, and the checks of the scope, end it. -/
theorem step_active {w : Work α} (hw : Wired w.net) {s : State α} (ha : s.status = .active)
    (e : Ev) (hc : e ≠ .check) (hn : ∀ n k, e = .exec n → w.ops.lookup n = some k →
      s.pending n = [] ∨ (k ≠ .cancel ∧ k ≠ .terminate)) : (step w s e).status = .active := by
  unfold step
  rw [if_neg (fun h => h ha)]
  cases e with
  | exec n =>
    simp only
    cases hk : w.ops.lookup n with
    | none => exact ha
    | some k =>
      have other : (match s.pending n with
          | [] => s
          | v :: vs => execute w { s with pending := put s.pending n vs } n v k).status =
            .active := by
        cases hp : s.pending n with
        | nil => exact ha
        | cons v vs =>
          rcases hn n k rfl hk with h | ⟨h1, h2⟩
          · rw [hp] at h; cases h
          · exact execute_active hw (s := { s with pending := put s.pending n vs }) ha v hk h1 h2
      cases k with
      | join bs t pack =>
        simp only
        split
        · exact ha
        · exact fire_active hw (s := { s with wakes := Flow.drop s.wakes n }) ha hk
      | _ => exact other
  | item n j i =>
    simp only
    split
    · rename_i f t ss items hk
      split
      · rename_i job m hj hm
        split
        · rw [(give_passed _ (Wired.exists hw hk
            (List.mem_cons_of_mem _ (List.mem_of_getElem? hm)))).status]
          exact ha
        · exact ha
      · exact ha
    · exact ha
  | finish n j =>
    simp only
    split
    · rename_i f t ss items hk
      split
      · rename_i job hj
        split
        · have : (give w { s with tasks := put s.tasks n ((s.tasks n).eraseIdx j) }
              (t, job.response)).status = .active := by
            rw [(give_passed _ (Wired.exists hw hk
              (by simp [Kind.shape, Flow.Kind.targets]))).status]
            exact ha
          split
          · exact this
          · exact this
        · exact ha
      · exact ha
    · exact ha
  | lose n j =>
    simp only
    split
    · split
      · exact ha
      · exact ha
    · exact ha
  | check => exact absurd rfl hc

theorem Good.step {w : Work α} (hw : Wired w.net) {x : α} (hroom : Roomy w) {s : State α}
    (h : Good w x s) {e : Ev} (he : Kept e) (ha : (step w s e).status = .active) :
    Good w x (step w s e) := by
  obtain ⟨ps, P, hm⟩ := moves_step hw hroom h.sound e he
  exact ⟨h.sound.step hw e, h.told.moves hm, ha⟩

/-! ### Working off -/

theorem execute_pending {w : Work α} (hw : Wired w.net) (s : State α) {n : Nat} {k : Kind α}
    (v : α) (hk : w.ops.lookup n = some k) :
    ∃ l, (execute w s n v k).pending n = s.pending n ++ l := by
  have passes : k.passes = true → ∃ l, (execute w s n v k).pending n = s.pending n ++ l := by
    intro hp
    obtain ⟨ps, h, _⟩ := execute_passed hw s v hk hp
    obtain ⟨l, hl, _⟩ := h.pending n
    exact ⟨l, hl⟩
  cases k with
  | node async f t ss items =>
    cases async with
    | false => exact passes rfl
    | true => exact ⟨[], by simp [execute]⟩
  | buffer r => exact ⟨[], by simp [execute, notify]⟩
  | join bs t pack => exact ⟨[], by simp [execute]⟩
  | cancel => exact ⟨[], by simp [execute]⟩
  | terminate => exact ⟨[], by simp [execute]⟩
  | _ => exact passes rfl

theorem step_exec {w : Work α} {s : State α} (ha : s.status = .active) {n : Nat} {k : Kind α}
    {v : α} {vs : List α} (hk : w.ops.lookup n = some k) (hj : ∀ bs t pack, k ≠ .join bs t pack)
    (hp : s.pending n = v :: vs) :
    step w s (.exec n) = execute w { s with pending := put s.pending n vs } n v k := by
  unfold step
  rw [if_neg (fun h => h ha)]
  simp only [hk]
  cases k with
  | join bs t pack => exact absurd rfl (hj bs t pack)
  | _ => simp only [hp]

/-- An operation can be made to take all messages up to a given one. -/
theorem drain {w : Work α} (hw : Wired w.net) {x : α} (hroom : Roomy w) {n : Nat} {k : Kind α}
    (hk : w.ops.lookup n = some k) (hj : ∀ bs t pack, k ≠ .join bs t pack) (hc : k ≠ .cancel)
    (ht : k ≠ .terminate) (l : List α) (v : α) (l' : List α) (s : State α) (h : Good w x s)
    (hp : s.pending n = l ++ v :: l') :
    ∃ s', Goes w s s' ∧ Good w x s' ∧ (Sent s' k v ∨ Runs s' n k v) ∧
      ∀ r, k = .buffer r → s'.held n ≠ [] := by
  have good : Good w x (step w s (.exec n)) :=
    h.step hw hroom (e := .exec n) trivial (step_active hw h.active _ (by simp)
      (fun n' k' he hk' => by cases he; rw [hk] at hk'; cases hk'; exact Or.inr ⟨hc, ht⟩))
  induction l generalizing s l' with
  | nil =>
    refine ⟨_, Goes.one s (e := .exec n) trivial, good, ?_⟩
    rw [step_exec h.active hk hj hp]
    obtain ⟨ps, hm⟩ := moves_exec hw (x := x) hroom hp hk hj
    refine ⟨hm.takenSent n v k ⟨rfl, rfl⟩ hk, ?_⟩
    rintro r rfl
    exact hm.takenStored n v r ⟨rfl, rfl⟩ hk
  | cons a l ih =>
    have hst := step_exec h.active hk hj (show s.pending n = a :: (l ++ v :: l') from hp)
    obtain ⟨l'', hl⟩ := execute_pending hw { s with pending := put s.pending n (l ++ v :: l') } a hk
    have hp' : (step w s (.exec n)).pending n = l ++ v :: (l' ++ l'') := by
      rw [hst, hl]
      simp only [put_self]
      simp
    obtain ⟨s', h1, h2⟩ := ih (l' ++ l'') (step w s (.exec n)) good hp'
      (good.step hw hroom (e := .exec n) trivial (step_active hw good.active _ (by simp)
        (fun n' k' he hk' => by cases he; rw [hk] at hk'; cases hk'; exact Or.inr ⟨hc, ht⟩)))
    exact ⟨s', (Goes.one s (e := .exec n) trivial).trans h1, h2⟩

theorem sum_set {β : Type} (f : β → Nat) (l : List β) (j : Nat) (a b : β) (h : l[j]? = some a) :
    ((l.set j b).map f).sum + f a = (l.map f).sum + f b := by
  induction l generalizing j with
  | nil => simp at h
  | cons c l ih =>
    cases j with
    | zero =>
      simp only [List.getElem?_cons_zero, Option.some.injEq] at h
      subst h
      simp only [List.set_cons_zero, List.map_cons, List.sum_cons]
      omega
    | succ j =>
      have := ih j h
      simp only [List.set_cons_succ, List.map_cons, List.sum_cons]
      omega

theorem sum_erase {β : Type} (f : β → Nat) (l : List β) (j : Nat) (a : β) (h : l[j]? = some a) :
    ((l.eraseIdx j).map f).sum + f a = (l.map f).sum := by
  induction l generalizing j with
  | nil => simp at h
  | cons c l ih =>
    cases j with
    | zero =>
      simp only [List.getElem?_cons_zero, Option.some.injEq] at h
      subst h
      simp only [List.eraseIdx_cons_zero, List.map_cons, List.sum_cons]
      omega
    | succ j =>
      have := ih j h
      simp only [List.eraseIdx_cons_succ, List.map_cons, List.sum_cons]
      omega

/-- What a task has to do. -/
def Job.size (job : Job α) : Nat := (job.left.map List.length).sum + 1

/-- What the tasks of a node have to do. -/
def load (s : State α) (n : Nat) : Nat := ((s.tasks n).map Job.size).sum

/-- A task can be made to send all that it sends. -/
theorem work {w : Work α} (hw : Wired w.net) {x : α} (hroom : Roomy w) {n : Nat} {k : Kind α}
    (hk : w.ops.lookup n = some k) (v : α) (m : Nat) (s : State α) (h : Good w x s)
    (hr : Runs s n k v) (hm : load s n ≤ m) :
    ∃ s', Goes w s s' ∧ Good w x s' ∧ Sent s' k v := by
  induction m generalizing s with
  | zero =>
    obtain ⟨f, t, ss, items, _, job, h2, _⟩ := hr
    obtain ⟨j, hlt, hj⟩ := List.mem_iff_getElem.1 h2
    have := sum_erase Job.size (s.tasks n) j job (by rw [List.getElem?_eq_getElem hlt, hj])
    unfold load at hm
    unfold Job.size at this hm
    omega
  | succ m ih =>
    have hr' := hr
    obtain ⟨f, t, ss, items, rfl, job, h2, h3, h4⟩ := hr
    obtain ⟨j, hlt, hj⟩ := List.mem_iff_getElem.1 h2
    have hj : (s.tasks n)[j]? = some job := by rw [List.getElem?_eq_getElem hlt, hj]
    have next : ∀ e, Kept e → (step w s e).status = .active →
        (∃ ps P, Moves w x s (step w s e) ps P) → load (step w s e) n < load s n →
        ∃ s', Goes w s s' ∧ Good w x s' ∧ Sent s' (.node true f t ss items) v := by
      intro e he ha ⟨ps, P, hmv⟩ hlt
      have hg := h.step hw hroom he ha
      rcases hmv.runs n _ v hk hr' with h5 | h5
      · obtain ⟨s', h6, h7⟩ := ih _ hg h5 (by omega)
        exact ⟨s', (Goes.one s he).trans h6, h7⟩
      · exact ⟨_, Goes.one s he, hg, h5⟩
    cases hs : job.sent ss with
    | true =>
      have hfin : step w s (.finish n j) =
          if ss.isEmpty then
            give w { s with tasks := put s.tasks n ((s.tasks n).eraseIdx j) } (t, job.response)
          else dispose
            (give w { s with tasks := put s.tasks n ((s.tasks n).eraseIdx j) }
              (t, job.response)) := by
        unfold step
        rw [if_neg (show ¬ s.status ≠ .active from fun h' => h' h.active)]
        simp only [hk, hj, hs, if_true]
      refine next (.finish n j) trivial (step_active hw h.active _ (by simp) (by simp))
        (moves_step hw hroom h.sound _ trivial) ?_
      have ht : (step w s (.finish n j)).tasks = put s.tasks n ((s.tasks n).eraseIdx j) := by
        rw [hfin]
        have := (give_passed (w := w) ({ s with
            tasks := put s.tasks n ((s.tasks n).eraseIdx j) } : State α) (p := (t, job.response))
          (Wired.exists hw hk (by simp [Kind.shape, Flow.Kind.targets]))).tasks
        split
        · exact this
        · exact this
      unfold load
      rw [ht, put_self]
      have := sum_erase Job.size (s.tasks n) j job hj
      have : 0 < job.size := by unfold Job.size; omega
      omega
    | false =>
      obtain ⟨i, mi, u, us, hi, hl⟩ : ∃ i mi u us, ss[i]? = some mi ∧
          job.left[i]? = some (u :: us) := by
        unfold Job.sent at hs
        rw [List.all_eq_false] at hs
        obtain ⟨l, hl, hne⟩ := hs
        obtain ⟨i, hi⟩ := List.getElem?_of_mem hl
        rw [List.getElem?_take] at hi
        split at hi
        · rename_i hlt
          cases l with
          | nil => simp at hne
          | cons u us => exact ⟨i, ss[i], u, us, List.getElem?_eq_getElem hlt, hi⟩
        · cases hi
      have hitem : step w s (.item n j i) = give w { s with
          tasks := put s.tasks n ((s.tasks n).set j ⟨job.left.set i us, job.response⟩) } (mi, u) := by
        unfold step
        rw [if_neg (show ¬ s.status ≠ .active from fun h' => h' h.active)]
        simp only [hk, hj, hi, hl]
      refine next (.item n j i) trivial (step_active hw h.active _ (by simp) (by simp))
        (moves_step hw hroom h.sound _ trivial) ?_
      have ht : (step w s (.item n j i)).tasks =
          put s.tasks n ((s.tasks n).set j ⟨job.left.set i us, job.response⟩) := by
        rw [hitem]
        exact (give_passed (w := w) ({ s with
            tasks := put s.tasks n ((s.tasks n).set j ⟨job.left.set i us, job.response⟩) } : State α)
          (p := (mi, u))
          (Wired.exists hw hk (List.mem_cons_of_mem _ (List.mem_of_getElem? hi)))).tasks
      unfold load
      rw [ht, put_self]
      have h5 := sum_set Job.size (s.tasks n) j job ⟨job.left.set i us, job.response⟩ hj
      have h6 := sum_set List.length job.left i (u :: us) us hl
      have h7 : Job.size ⟨job.left.set i us, job.response⟩ < job.size := by
        unfold Job.size
        simp only [List.length_cons] at h6
        simp only
        omega
      omega

/-- Whatever is sent on for a message that was given can be given too. -/
theorem deliver {w : Work α} (hw : Wired w.net) {x : α} (hroom : Roomy w) {n : Nat} {v : α}
    {k : Kind α} (hk : w.ops.lookup n = some k) {m : Nat} {u : α} (hs : Sends k v m u)
    (s : State α) (h : Good w x s) (hl : (n, v) ∈ s.log) :
    ∃ s', Goes w s s' ∧ Good w x s' ∧ (m, u) ∈ s'.log := by
  have fromRuns : ∀ s1, Good w x s1 → Runs s1 n k v →
      ∃ s', Goes w s1 s' ∧ Good w x s' ∧ (m, u) ∈ s'.log := by
    intro s1 hg hr
    obtain ⟨s', h1, h2, h3⟩ := work hw hroom hk v _ s1 hg hr (Nat.le_refl _)
    exact ⟨s', h1, h2, h3 m u hs⟩
  rcases h.told.sent n v k hl hk with h1 | h1 | h1
  · obtain ⟨l, l', hp⟩ := List.append_of_mem h1
    obtain ⟨s1, h2, h3, h4, _⟩ := drain hw hroom hk (by rintro bs t pack rfl; cases hs)
      (by rintro rfl; cases hs) (by rintro rfl; cases hs) l v l' s h hp
    rcases h4 with h4 | h4
    · exact ⟨s1, h2, h3, h4 m u hs⟩
    · obtain ⟨s', h5, h6⟩ := fromRuns s1 h3 h4
      exact ⟨s', h2.trans h5, h6⟩
  · exact ⟨s, Goes.refl w s, h, h1 m u hs⟩
  · exact fromRuns s h h1

/-- A value that a buffer was given can be put into it. -/
theorem store {w : Work α} (hw : Wired w.net) {x : α} (hroom : Roomy w) {b : Nat} {v : α}
    {r : Retention} (hk : w.ops.lookup b = some (.buffer r)) (s : State α) (h : Good w x s)
    (hl : (b, v) ∈ s.log) : ∃ s', Goes w s s' ∧ Good w x s' ∧ Has w x s' b := by
  rcases h.told.stored b v r hl hk with h1 | h1
  · obtain ⟨l, l', hp⟩ := List.append_of_mem h1
    obtain ⟨s1, h2, h3, _, h4⟩ := drain hw hroom hk (by simp) (by simp) (by simp) l v l' s h hp
    exact ⟨s1, h2, h3, Or.inl (h4 r rfl)⟩
  · exact ⟨s, Goes.refl w s, h, h1⟩

/-- Everything that the graph computes can be computed. -/
theorem reach {w : Work α} (hw : Wired w.net) {x : α} (ho : Orderly w x) {n : Nat} {v : α}
    (hc : Comes w x n v) : ∀ s, Good w x s → ∃ s', Goes w s s' ∧ Good w x s' ∧ (n, v) ∈ s'.log := by
  have hroom : Roomy w := ho.room
  induction hc with
  | entry => exact fun s h => ⟨s, Goes.refl w s, h, h.told.begun⟩
  | send n v k m u _ hk hs ih =>
    intro s h
    obtain ⟨s1, h1, h2, h3⟩ := ih s h
    obtain ⟨s2, h4, h5⟩ := deliver hw hroom hk hs s1 h2 h3
    exact ⟨s2, h1.trans h4, h5⟩
  | join j bs t pack vs hk hne hlen hcs ih =>
    have all : ∀ m, ∀ s, Good w x s → ∃ s', Goes w s s' ∧ Good w x s' ∧
        ∀ (i : Nat) (b : Nat × Bool) (v : α), i < m → bs[i]? = some b → vs[i]? = some v →
          Has w x s' b.1 := by
      intro m
      induction m with
      | zero =>
        intro s h
        exact ⟨s, Goes.refl w s, h, fun i b v hi => absurd hi (Nat.not_lt_zero i)⟩
      | succ m ihm =>
        intro s h
        obtain ⟨s1, h1, h2, h3⟩ := ihm s h
        by_cases hm : m < bs.length
        · have hbm := List.getElem?_eq_getElem hm
          have hvm := List.getElem?_eq_getElem (l := vs) (i := m) (by omega)
          obtain ⟨s2, h4, h5, h6⟩ := ih m _ _ hbm hvm s1 h2
          obtain ⟨cap, hb⟩ := (hw.joins j bs t (List.mem_map.2 ⟨_, Flow.mem_of_lookup hk, rfl⟩)).2.2
            bs[m] (List.getElem_mem hm)
          obtain ⟨k', hk', hsh⟩ := mem_net hb
          obtain ⟨r, rfl⟩ : ∃ r, k' = .buffer r := by
            cases k' <;> simp only [Kind.shape] at hsh <;> first | exact ⟨_, rfl⟩ | cases hsh
          obtain ⟨s3, h7, h8, h9⟩ := store hw hroom (Wired.lookup hw hk') s2 h5 h6
          refine ⟨s3, h1.trans (h4.trans h7), h8, ?_⟩
          intro i b v hi hb' hv'
          by_cases him : i = m
          · subst him
            rw [hbm] at hb'
            cases hb'
            exact h9
          · exact ((h4.trans h7).keeps hw hroom h2.sound).2 _ (h3 i b v (by omega) hb' hv')
        · refine ⟨s1, h1, h2, fun i b v hi hb' hv' => h3 i b v ?_ hb' hv'⟩
          have := (List.getElem?_eq_some_iff.1 hb').1
          omega
    have unique : ∀ vs' : List α, vs'.length = bs.length →
        (∀ (i : Nat) (b : Nat × Bool) (v : α), bs[i]? = some b → vs'[i]? = some v →
          Comes w x b.1 v) → vs' = vs := by
      intro vs' hlen' hcs'
      apply List.ext_getElem? 
      intro i
      by_cases hi : i < bs.length
      · have hb := List.getElem?_eq_getElem hi
        have h1 := List.getElem?_eq_getElem (l := vs') (i := i) (by omega)
        have h2 := List.getElem?_eq_getElem (l := vs) (i := i) (by omega)
        rw [h1, h2]
        exact congrArg some (ho.one _ _ _
          ⟨j, bs, t, pack, hk, List.mem_map_of_mem (List.getElem_mem hi)⟩
          (hcs' i _ _ hb h1) (hcs i _ _ hb h2))
      · rw [List.getElem?_eq_none (by omega), List.getElem?_eq_none (by omega)]
    intro s h
    obtain ⟨s1, h1, h2, h3⟩ := all bs.length s h
    have done : ∀ s', Fired w x s' bs t pack → (t, pack vs) ∈ s'.log := by
      rintro s' ⟨vs', h4, h5, h6⟩
      rw [← unique vs' h4 h5]
      exact h6
    by_cases hf : Fired w x s1 bs t pack
    · exact ⟨s1, h1, h2, done s1 hf⟩
    · have hr : ready s1 bs = true := by
        unfold ready
        rw [Bool.and_eq_true, List.all_eq_true]
        refine ⟨by cases bs with | nil => exact absurd rfl hne | cons _ _ => rfl, ?_⟩
        intro b hb
        obtain ⟨i, hi⟩ := List.getElem?_of_mem hb
        have hlt := (List.getElem?_eq_some_iff.1 hi).1
        rcases h3 i b _ hlt hi (List.getElem?_eq_getElem (l := vs) (i := i) (by omega)) with h4 | h4
        · cases hh : s1.held b.1 with
          | nil => exact absurd hh h4
          | cons _ _ => rfl
        · obtain ⟨j', bs', t', pack', h5, h6, h7⟩ := h4
          have hjj : j' = j := ho.own j' bs' t' pack' j bs t pack b.1 h5 hk h6
            (List.mem_map_of_mem hb)
          subst hjj
          rw [hk] at h5
          cases h5
          exact absurd h7 hf
      have hwk : s1.wakes j ≠ 0 := (h2.told.armed j bs t pack hk hr).resolve_right hf
      have hst : step w s1 (.exec j) = fire w { s1 with wakes := Flow.drop s1.wakes j } bs t pack := by
        unfold step
        rw [if_neg (show ¬ s1.status ≠ .active from fun h' => h' h2.active)]
        simp only [hk]
        rw [if_neg hwk]
      have hact : (step w s1 (.exec j)).status = .active := by
        rw [hst]
        exact fire_active hw (s := { s1 with wakes := Flow.drop s1.wakes j }) h2.active hk
      refine ⟨_, h1.trans (Goes.one s1 (e := .exec j) trivial), h2.step hw hroom trivial hact, ?_⟩
      apply done
      obtain ⟨ps, _, hfire⟩ := moves_fire hw h2.sound hk
      rw [hst]
      exact hfire hr

theorem Wired.terminal_op {w : Work α} (hw : Wired w.net) :
    w.ops.lookup w.terminal = some .terminate := by
  obtain ⟨k, hk, hsh⟩ := mem_net ((hw.terminal w.terminal).2 rfl)
  have : k = .terminate := by
    cases k <;> simp only [Kind.shape] at hsh <;> first | rfl | cases hsh
  subst this
  exact Wired.lookup hw hk

/-- A session that runs can still terminate if the graph computes a response. -/
theorem terminates {w : Work α} (hw : Wired w.net) {x : α} (ho : Orderly w x) {v : α}
    (hc : Comes w x w.terminal v) (s : State α) (h : Good w x s) :
    ∃ s', Goes w s s' ∧ s'.status = .terminated := by
  obtain ⟨s1, h1, h2, h3⟩ := reach hw ho hc s h
  have hk := Wired.terminal_op hw
  rcases h2.told.ended _ _ h3 hk with h4 | h4
  · cases hp : s1.pending w.terminal with
    | nil => rw [hp] at h4; simp at h4
    | cons u us =>
      refine ⟨_, h1.trans (Goes.one s1 (e := .exec w.terminal) trivial), ?_⟩
      rw [step_exec h2.active hk (by simp) hp]
      rfl
  · exact absurd h2.active h4

/-- A session in which nothing is left to do does not change. -/
theorem rest_final {w : Work α} {s : State α} (h : Rests s) (es : List Ev) : run w s es = s := by
  obtain ⟨h1, h2, h3, h4⟩ := h
  induction es with
  | nil => rfl
  | cons e es ih =>
    have hs : step w s e = s := by
      unfold step
      split
      · rfl
      · cases e with
        | exec n =>
          simp only
          split
          · rfl
          · rw [if_pos (h2 n)]
          · simp [h1 n]
        | item n j i =>
          simp only
          split
          · simp [h3 n]
          · rfl
        | finish n j =>
          simp only
          split
          · simp [h3 n]
          · rfl
        | lose n j =>
          simp only
          split
          · simp [h3 n]
          · rfl
        | check =>
          simp only
    show run w (step w s e) es = s
    rw [hs]
    exact ih

theorem Told.received {w : Work α} (hw : Wired w.net) (x : α) : Told w x (received w x) := by
  have hp := give_passed (p := (w.entry, x)) (blank : State α) (Wired.entry_exists hw)
  have hmem : ∀ n v, (n, v) ∈ (Values.received w x).log → (n, v) = (w.entry, x) := by
    intro n v h
    rcases (hp.log _).1 h with h | h
    · simpa using h
    · simp [blank] at h
  refine ⟨(hp.log _).2 (Or.inl (by simp)), ?_, ?_, ?_, ?_⟩
  · intro n v k hl hk
    cases hmem n v hl
    by_cases hu : k.shape = .unused
    · refine Or.inr (Or.inl ?_)
      intro m u hs
      cases hs <;> simp [Kind.shape] at hu
    · exact Or.inl (hp.fresh (w.entry, x) (by simp) k hk hu)
  · intro n v r hl hk
    cases hmem n v hl
    exact Or.inl (hp.fresh (w.entry, x) (by simp) _ hk (by simp [Kind.shape]))
  · intro n v hl hk
    cases hmem n v hl
    exact Or.inl (hp.fresh (w.entry, x) (by simp) _ hk (by simp [Kind.shape]))
  · intro j bs t pack _ hr
    rw [ready_congr (s := (blank : State α)) (s' := Values.received w x) hp.held] at hr
    unfold ready at hr
    rw [Bool.and_eq_true, List.all_eq_true] at hr
    cases bs with
    | nil => simp at hr
    | cons b bs => exact absurd (hr.2 b List.mem_cons_self) (by simp [blank])

theorem no_gates (w : Work α) : Flow.GatesOnlyClose w.net := by
  intro n bs t h
  obtain ⟨k, _, hk⟩ := mem_net h
  exact shape_gate hk.symm

theorem no_gates' (w : Work α) : Flow.JoinsUngated w.net := by
  intro n o bs t h
  obtain ⟨k, _, hk⟩ := mem_net h
  exact absurd hk.symm shape_gate

theorem flat_open (w : Work α) (s : State α) : Flow.JoinsOpen w.net s.flat := fun _ _ => rfl

/-- What holds of a session while and after it runs. -/
structure Fair (w : Work α) (x : α) (s : State α) : Prop where
  sound : Sound w x s
  told : Told w x s
  uncancelled : s.status ≠ .cancelled

theorem Fair.good {w : Work α} {x : α} {s : State α} (h : Fair w x s) (ha : s.status = .active) :
    Good w x s := ⟨h.sound, h.told, ha⟩

theorem Fair.step {w : Work α} (hw : Wired w.net) (hl : Flow.NoLoopIntoJoin w.net) {x : α}
    (ho : Orderly w x) (hu : Uncancelled w x) {v : α} (hc : Comes w x w.terminal v) {s : State α}
    (h : Fair w x s) (e : Ev) (he : Kept e) : Fair w x (step w s e) := by
  by_cases ha : s.status = .active
  · obtain ⟨ps, P, hm⟩ := moves_step hw ho.room h.sound e he
    refine ⟨h.sound.step hw e, h.told.moves hm, ?_⟩
    intro hst
    by_cases hch : e = .check
    · subst hch
      obtain ⟨s', h1, h2⟩ := terminates hw ho hc s (h.good ha)
      obtain ⟨fes, hf⟩ := h1.flat hw h.sound
      have hfl := flat_step hw s h.sound.fits .check
      refine Flow.C79_no_early_cancel_partial w.net hw hl (no_gates w) (no_gates' w) s.flat
        (flat_open w s) ha ?_ fes ?_
      · show (Flow.step w.net s.flat (flatEv w s .check)).status = .cancelled
        rw [← hfl]
        exact hst
      · rw [hf]
        exact h2
    · by_cases hex : ∃ n k, e = .exec n ∧ w.ops.lookup n = some k ∧ s.pending n ≠ [] ∧
          (k.shape = .cancel ∨ k.shape = .terminate)
      · obtain ⟨n, k, rfl, hk, hp, hkk⟩ := hex
        cases hp' : s.pending n with
        | nil => exact hp hp'
        | cons u us =>
          rcases hkk with hkk | hkk
          · have : k = .cancel := by
              cases k <;> simp only [Kind.shape] at hkk <;> first | rfl | cases hkk
            subst this
            exact hu n u hk (h.sound.pending n u (by rw [hp']; exact List.mem_cons_self))
          · have : k = .terminate := by
              cases k <;> simp only [Kind.shape] at hkk <;> first | rfl | cases hkk
            subst this
            rw [step_exec ha hk (by simp) hp'] at hst
            simp [execute] at hst
      · have := step_active hw ha e hch (fun n k hen hk => by
          by_cases hp : s.pending n = []
          · exact Or.inl hp
          · refine Or.inr ⟨?_, ?_⟩
            · rintro rfl; exact hex ⟨n, _, hen, hk, hp, Or.inl rfl⟩
            · rintro rfl; exact hex ⟨n, _, hen, hk, hp, Or.inr rfl⟩)
        rw [hst] at this
        cases this
  · have : Values.step w s e = s := by
      unfold Values.step
      rw [if_pos ha]
    rw [this]
    exact h

theorem Fair.start {w : Work α} (hw : Wired w.net) (hl : Flow.NoLoopIntoJoin w.net) {x : α}
    (ho : Orderly w x) {v : α} (hc : Comes w x w.terminal v) : Fair w x (Values.start w x) := by
  have hact := received_active hw x
  have hmv : Moves w x (received w x) (Values.start w x) [] Nothing := by
    unfold Values.start Values.validate
    split <;> exact .same rfl rfl rfl rfl rfl (fun h => absurd hact h)
  refine ⟨.start hw x, (Told.received hw x).moves hmv, ?_⟩
  intro hst
  obtain ⟨s', h1, h2⟩ := terminates hw ho hc (received w x)
    ⟨.received hw x, .received hw x, hact⟩
  obtain ⟨fes, hf⟩ := h1.flat hw (Sound.received hw x)
  rw [flat_received] at hf
  refine Flow.C79_start_partial w.net hw hl (no_gates w) (no_gates' w) ?_ fes ?_
  · rw [← flat_start w x]
    exact hst
  · rw [hf]
    exact h2

theorem Fair.run {w : Work α} (hw : Wired w.net) (hl : Flow.NoLoopIntoJoin w.net) {x : α}
    (ho : Orderly w x) (hu : Uncancelled w x) {v : α} (hc : Comes w x w.terminal v)
    (es : List Ev) (he : ∀ e, e ∈ es → Kept e) {s : State α} (h : Fair w x s) :
    Fair w x (run w s es) := by
  induction es generalizing s with
  | nil => exact h
  | cons e es ih =>
    exact ih (fun e' he' => he e' (List.mem_cons_of_mem _ he'))
      (h.step hw hl ho hu hc e (he e List.mem_cons_self))

end Verif.Values
