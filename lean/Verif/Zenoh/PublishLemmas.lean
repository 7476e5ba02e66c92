import Verif.Zenoh.PublishSpec

/-! Lemmas for C107 and C108. -/
set_option linter.unusedSectionVars false
set_option linter.unusedSimpArgs false

namespace Verif.Zenoh.Publish

variable {M B E : Type}

theorem starts_append (l l' : List (Log B E)) : starts (l ++ l') = starts l ++ starts l' := by
  induction l with
  | nil => rfl
  | cons x l ih => cases x <;> simp [starts, ih]

theorem count_filter_ne {α : Type} (l : List (α × Nat)) (t u : Nat) :
    ((l.filter (·.2 ≠ t)).map (·.2)).count u = if u = t then 0 else (l.map (·.2)).count u := by
  induction l with
  | nil => simp
  | cons x l ih =>
    obtain ⟨a, n⟩ := x
    by_cases hn : n = t
    · subst hn
      simp only [List.filter_cons, ne_eq, not_true_eq_false, decide_false, Bool.false_eq_true,
        if_false, List.map_cons, List.count_cons]
      simp only [ne_eq] at ih
      rw [ih]
      by_cases hu : u = n
      · simp [hu]
      · simp [hu, Ne.symm hu]
    · simp only [List.filter_cons, ne_eq, hn, not_false_eq_true, decide_true, if_true,
        List.map_cons, List.count_cons]
      simp only [ne_eq] at ih
      rw [ih]
      by_cases hu : u = t
      · subst hu; simp [hn]
      · simp [hu]

/-- How often a ticket occurs. -/
def tally (s : St M B E) (t : Nat) : Nat :=
  (s.encoding.map (·.2)).count t + (s.queue.map (·.2)).count t + s.busy.toList.count t +
    (s.answers.map (·.1)).count t + s.lost.count t

/-- What holds of a node at any time. -/
structure Inv (enc : M → Except String B) (s : St M B E) : Prop where
  /-- every ticket is in exactly one place -/
  sum : ∀ t, tally s t = if t < s.arrived.length then 1 else 0
  pend : ∀ x ∈ s.encoding, s.arrived[x.2]? = some x.1
  queued : ∀ x ∈ s.queue, ∃ m, s.arrived[x.2]? = some m ∧
    (x.1 = .unencoded m ∨ ∃ b, x.1 = .encoded b ∧ enc m = .ok b)
  begun : ∀ x ∈ starts s.log, ∃ m, s.arrived[x.1]? = some m ∧ enc m = .ok x.2
  once : ∀ t, ((starts s.log).map (·.1)).count t ≤
    s.busy.toList.count t + (s.answers.map (·.1)).count t
  busy : ∀ t, s.busy = some t → ∃ b, (t, b) ∈ starts s.log
  apart : Apart s.log
  idle : s.alive = true → s.busy = none → ∀ l, Apart l → Apart (s.log ++ l)
  work : ∀ t, s.busy = some t → ∀ r l, Apart l → Apart (s.log ++ .finish t r :: l)
  right : ∀ x ∈ s.answers, ∃ m, s.arrived[x.1]? = some m ∧ RightAnswer enc s x.1 m x.2
  done : ∀ t r, Log.finish t r ∈ s.log → ∃ r', (t, r') ∈ s.answers ∧ (r = .ok () → r' = .ok ())
  put : s.publisher = some (.ok ()) → ∀ x ∈ s.answers, x.2 ≠ .error .dropped →
    ∀ m b, s.arrived[x.1]? = some m → enc m = .ok b → (x.1, b) ∈ starts s.log
  blank : s.publisher ≠ some (.ok ()) → s.log = []
  made : ∀ e, s.publisher = some (.error e) → ∃ e', e = .zenoh e'
  dead : s.alive = false → s.queue = [] ∧ s.busy = none

theorem Inv.init (enc : M → Except String B) (o : Ordering) :
    Inv enc (St.init o : St M B E) := by
  constructor <;> simp [St.init, tally, starts, Apart.nil]

variable {enc : M → Except String B} {s : St M B E}

theorem Inv.nodup (h : Inv enc s) {t : Nat} {m : M} (he : (m, t) ∈ s.encoding) :
    (s.queue.map (·.2)).count t = 0 ∧ s.busy ≠ some t ∧ (s.answers.map (·.1)).count t = 0 ∧
    s.lost.count t = 0 ∧ (s.encoding.map (·.2)).count t = 1 ∧ t < s.arrived.length := by
  have h1 := h.sum t
  have h2 : 0 < (s.encoding.map (·.2)).count t :=
    List.count_pos_iff.2 (List.mem_map.2 ⟨(m, t), he, rfl⟩)
  unfold tally at h1
  split at h1
  · refine ⟨by omega, ?_, by omega, by omega, by omega, by assumption⟩
    intro hb
    rw [hb] at h1
    simp at h1
    omega
  · omega

theorem rightAnswer_mono {s s' : St M B E} {t : Nat} {m : M} {r : Except (Error E) Unit}
    (hl : ∀ x, x ∈ s.log → x ∈ s'.log) (ha : s.alive = false → s'.alive = false)
    (hp : ∀ e, s.publisher = some (.error e) → s'.publisher = some (.error e))
    (h : RightAnswer enc s t m r) : RightAnswer enc s' t m r := by
  unfold RightAnswer at *
  split at h
  · exact hl _ h
  · exact h
  · exact ha h
  · exact h.imp (hl _) (hp _)

/-- Sending, or answering that the job is gone. The ticket has just been taken out of its place. -/
theorem Inv.move (h : Inv enc s) (f : St M B E)
    (hst : f.ordering = s.ordering ∧ f.arrived = s.arrived ∧ f.publisher = s.publisher ∧
      f.busy = s.busy ∧ f.alive = s.alive ∧ f.log = s.log)
    (ht : ∀ t, tally f t = tally s t)
    (he : ∀ x ∈ f.encoding, x ∈ s.encoding)
    (hq : ∀ x ∈ f.queue, x ∈ s.queue ∨ (s.alive = true ∧ ∃ m, s.arrived[x.2]? = some m ∧
      (x.1 = .unencoded m ∨ ∃ b, x.1 = .encoded b ∧ enc m = .ok b)))
    (ha : ∀ x ∈ f.answers, x ∈ s.answers ∨ ∃ m, s.arrived[x.1]? = some m ∧
      RightAnswer enc s x.1 m x.2 ∧ (s.publisher = some (.ok ()) → x.2 ≠ .error .dropped →
        ∀ b, enc m ≠ .ok b))
    (hm : ∀ x ∈ s.answers, x ∈ f.answers) (hc : ∀ t, (s.answers.map (·.1)).count t ≤
      (f.answers.map (·.1)).count t) : Inv enc f := by
  obtain ⟨e1, e2, e3, e4, e5, e6⟩ := hst
  constructor
  · intro t; rw [ht, e2]; exact h.sum t
  · intro x hx; rw [e2]; exact h.pend x (he x hx)
  · intro x hx
    rw [e2]
    rcases hq x hx with h' | ⟨_, h'⟩
    · exact h.queued x h'
    · exact h'
  · rw [e6, e2]; exact h.begun
  · intro t; rw [e6, e4]; exact Nat.le_trans (h.once t) (Nat.add_le_add_left (hc t) _)
  · rw [e6, e4]; exact h.busy
  · rw [e6]; exact h.apart
  · rw [e6, e5, e4]; exact h.idle
  · rw [e6, e4]; exact h.work
  · intro x hx
    rw [e2]
    rcases ha x hx with h' | ⟨m, h1, h2, _⟩
    · obtain ⟨m, h1, h2⟩ := h.right x h'
      exact ⟨m, h1, rightAnswer_mono (by simp [e6]) (by simp [e5]) (by simp [e3]) h2⟩
    · exact ⟨m, h1, rightAnswer_mono (by simp [e6]) (by simp [e5]) (by simp [e3]) h2⟩
  · intro t r hr
    rw [e6] at hr
    obtain ⟨r', h1, h2⟩ := h.done t r hr
    exact ⟨r', hm _ h1, h2⟩
  · intro hp x hx hd m b h1 h2
    rw [e3] at hp
    rw [e2] at h1
    rw [e6]
    rcases ha x hx with h' | ⟨m', h1', _, h3⟩
    · exact h.put hp x h' hd m b h1 h2
    · rw [h1] at h1'
      cases h1'
      exact absurd h2 (h3 hp hd b)
  · rw [e3, e6]; exact h.blank
  · rw [e3]; exact h.made
  · intro hd
    rw [e5] at hd
    obtain ⟨h1, h2⟩ := h.dead hd
    rw [e4]
    refine ⟨?_, h2⟩
    apply List.eq_nil_iff_forall_not_mem.2
    intro x hx
    rcases hq x hx with h' | ⟨h', _⟩
    · rw [h1] at h'; cases h'
    · rw [hd] at h'; cases h'

theorem getElem?_snoc {α : Type} (l : List α) (a : α) (n : Nat) (x : α) (h : l[n]? = some x) :
    (l ++ [a])[n]? = some x := by
  rw [List.getElem?_append_left]
  · exact h
  · exact (List.getElem?_eq_some_iff.1 h).1

/-- A new message, of which nothing has been done yet: it is put into one of the places. -/
theorem Inv.add (h : Inv enc s) (m : M) (f : St M B E)
    (hst : f.ordering = s.ordering ∧ f.arrived = s.arrived ++ [m] ∧ f.publisher = s.publisher ∧
      f.busy = s.busy ∧ f.alive = s.alive ∧ f.log = s.log ∧ f.lost = s.lost)
    (hp : (f.encoding = s.encoding ++ [(m, s.arrived.length)] ∧ f.queue = s.queue ∧
        f.answers = s.answers) ∨
      (f.encoding = s.encoding ∧ s.alive = true ∧
        f.queue = s.queue ++ [(.unencoded m, s.arrived.length)] ∧ f.answers = s.answers) ∨
      (f.encoding = s.encoding ∧ s.alive = false ∧ f.queue = s.queue ∧
        f.answers = s.answers ++ [(s.arrived.length, .error .dropped)])) : Inv enc f := by
  obtain ⟨e1, e2, e3, e4, e5, e6, e7⟩ := hst
  have hnew : (s.arrived ++ [m])[s.arrived.length]? = some m := by simp
  have hans : ∀ x ∈ f.answers, x ∈ s.answers ∨
      (s.alive = false ∧ x = (s.arrived.length, .error .dropped)) := by
    intro x hx
    rcases hp with ⟨_, _, e⟩ | ⟨_, _, _, e⟩ | ⟨_, e', _, e⟩
    · rw [e] at hx; exact .inl hx
    · rw [e] at hx; exact .inl hx
    · rw [e] at hx
      simp only [List.mem_append, List.mem_singleton] at hx
      exact hx.imp id fun h => ⟨e', h⟩
  have hmono : ∀ x ∈ s.answers, x ∈ f.answers := by
    intro x hx
    rcases hp with ⟨_, _, e⟩ | ⟨_, _, _, e⟩ | ⟨_, e', _, e⟩ <;> rw [e]
    · exact hx
    · exact hx
    · exact List.mem_append_left _ hx
  constructor
  · intro t
    have ht := h.sum t
    unfold tally at ht ⊢
    rw [e2, e4, e7]
    simp only [List.length_append, List.length_singleton]
    have : (if t < s.arrived.length + 1 then 1 else 0) =
        (if t < s.arrived.length then 1 else 0) + (if t = s.arrived.length then 1 else 0) := by
      by_cases h1 : t < s.arrived.length
      · rw [if_pos h1, if_pos (by omega), if_neg (by omega)]
      · by_cases h2 : t = s.arrived.length
        · rw [if_neg h1, if_pos (by omega), if_pos h2]
        · rw [if_neg h1, if_neg (by omega), if_neg h2]
    rw [this]
    have hc : ([s.arrived.length] : List Nat).count t =
        if t = s.arrived.length then 1 else 0 := by
      rw [List.count_singleton]; simp only [beq_iff_eq, @eq_comm _ t]
    rcases hp with ⟨a, b, c⟩ | ⟨a, _, b, c⟩ | ⟨a, _, b, c⟩ <;> rw [a, b, c] <;>
      simp only [List.map_append, List.map_cons, List.map_nil, List.count_append, hc] <;> omega
  · intro x hx
    rw [e2]
    rcases hp with ⟨a, _, _⟩ | ⟨a, _, _, _⟩ | ⟨a, _, _, _⟩
    · rw [a] at hx
      simp only [List.mem_append, List.mem_singleton] at hx
      rcases hx with hx | hx
      · exact getElem?_snoc _ _ _ _ (h.pend x hx)
      · subst hx; exact hnew
    · rw [a] at hx; exact getElem?_snoc _ _ _ _ (h.pend x hx)
    · rw [a] at hx; exact getElem?_snoc _ _ _ _ (h.pend x hx)
  · intro x hx
    rw [e2]
    have old : x ∈ s.queue → ∃ m', (s.arrived ++ [m])[x.2]? = some m' ∧
        (x.1 = .unencoded m' ∨ ∃ b, x.1 = .encoded b ∧ enc m' = .ok b) := by
      intro hx
      obtain ⟨m', h1, h2⟩ := h.queued x hx
      exact ⟨m', getElem?_snoc _ _ _ _ h1, h2⟩
    rcases hp with ⟨_, b, _⟩ | ⟨_, _, b, _⟩ | ⟨_, _, b, _⟩
    · rw [b] at hx; exact old hx
    · rw [b] at hx
      simp only [List.mem_append, List.mem_singleton] at hx
      rcases hx with hx | hx
      · exact old hx
      · subst hx; exact ⟨m, hnew, .inl rfl⟩
    · rw [b] at hx; exact old hx
  · intro x hx
    rw [e6] at hx
    rw [e2]
    obtain ⟨m', h1, h2⟩ := h.begun x hx
    exact ⟨m', getElem?_snoc _ _ _ _ h1, h2⟩
  · intro t
    rw [e6, e4]
    refine Nat.le_trans (h.once t) (Nat.add_le_add_left ?_ _)
    rcases hp with ⟨_, _, e⟩ | ⟨_, _, _, e⟩ | ⟨_, e', _, e⟩ <;> rw [e]
    · exact Nat.le_refl _
    · exact Nat.le_refl _
    · simp only [List.map_append, List.count_append]; omega
  · rw [e6, e4]; exact h.busy
  · rw [e6]; exact h.apart
  · rw [e6, e5, e4]; exact h.idle
  · rw [e6, e4]; exact h.work
  · intro x hx
    rw [e2]
    rcases hans x hx with h' | ⟨hd, h'⟩
    · obtain ⟨m', h1, h2⟩ := h.right x h'
      exact ⟨m', getElem?_snoc _ _ _ _ h1,
        rightAnswer_mono (by simp [e6]) (by simp [e5]) (by simp [e3]) h2⟩
    · subst h'
      exact ⟨m, hnew, e5.trans hd⟩
  · intro t r hr
    rw [e6] at hr
    obtain ⟨r', h1, h2⟩ := h.done t r hr
    exact ⟨r', hmono _ h1, h2⟩
  · intro hpub x hx hd m' b h1 h2
    rw [e3] at hpub
    rw [e6]
    rcases hans x hx with h' | ⟨_, h'⟩
    · obtain ⟨m'', h3, _⟩ := h.right x h'
      have h4 := getElem?_snoc _ m _ _ h3
      rw [e2] at h1
      rw [h1] at h4
      cases h4
      exact h.put hpub x h' hd m' b h3 h2
    · subst h'; exact absurd rfl hd
  · rw [e3, e6]; exact h.blank
  · rw [e3]; exact h.made
  · intro hd
    rw [e5] at hd
    obtain ⟨h1, h2⟩ := h.dead hd
    rw [e4]
    refine ⟨?_, h2⟩
    rcases hp with ⟨_, b, _⟩ | ⟨_, ha, _, _⟩ | ⟨_, _, b, _⟩
    · rw [b]; exact h1
    · rw [hd] at ha; cases ha
    · rw [b]; exact h1

theorem Inv.arrive (h : Inv enc s) (m : M) : Inv enc (s.arrive m) := by
  unfold St.arrive St.send St.answer
  cases ho : s.ordering with
  | strict =>
    simp only
    cases ha : s.alive with
    | true =>
      simp only [if_true]
      exact h.add m _ (by simp [ho, ha]) (.inr (.inl ⟨rfl, ha, rfl, rfl⟩))
    | false =>
      simp only [Bool.false_eq_true, if_false]
      exact h.add m _ (by simp [ho, ha]) (.inr (.inr ⟨rfl, ha, rfl, rfl⟩))
  | loose => exact h.add m _ (by simp [ho]) (.inl ⟨rfl, rfl, rfl⟩)

theorem count_one (t u : Nat) : ([t] : List Nat).count u = if u = t then 1 else 0 := by
  rw [List.count_singleton]; simp only [beq_iff_eq, @eq_comm _ u]

theorem Inv.encode (h : Inv enc s) (t : Nat) : Inv enc (s.encode enc t) := by
  unfold St.encode
  split
  · exact h
  · rename_i m t' hf
    have hmem := List.mem_of_find?_eq_some hf
    have ht := List.find?_some hf
    simp only [decide_eq_true_eq] at ht
    subst ht
    have hd := h.nodup hmem
    have hm := h.pend _ hmem
    have hsum : ∀ (f : St M B E) u, f.encoding = s.encoding.filter (·.2 ≠ t') → f.busy = s.busy →
        f.lost = s.lost →
        (f.queue.map (·.2)).count u + (f.answers.map (·.1)).count u =
          (s.queue.map (·.2)).count u + (s.answers.map (·.1)).count u +
            (if u = t' then 1 else 0) → tally f u = tally s u := by
      intro f u e1 e2 e3 e4
      unfold tally
      rw [e1, e2, e3, count_filter_ne]
      by_cases hu : u = t'
      · subst hu
        rw [if_pos rfl, hd.2.2.2.2.1]
        rw [if_pos rfl] at e4
        omega
      · rw [if_neg hu]
        rw [if_neg hu] at e4
        omega
    simp only
    cases he : enc m with
    | ok b =>
      simp only [St.send, St.answer]
      cases ha : s.alive with
      | true =>
        simp only [if_true]
        refine h.move _ (by simp [ha]) ?_ ?_ ?_ ?_ ?_ ?_
        · intro u
          refine hsum _ u rfl rfl rfl ?_
          simp only [List.map_append, List.count_append, List.map_cons, List.map_nil, count_one]
          omega
        · intro x hx; exact (List.mem_filter.1 hx).1
        · intro x hx
          simp only [List.mem_append, List.mem_singleton] at hx
          exact hx.imp id fun e => by subst e; exact ⟨ha, m, hm, .inr ⟨b, rfl, he⟩⟩
        · intro x hx; exact .inl hx
        · intro x hx; exact hx
        · intro u; exact Nat.le_refl _
      | false =>
        simp only [Bool.false_eq_true, if_false]
        refine h.move _ (by simp [ha]) ?_ ?_ ?_ ?_ ?_ ?_
        · intro u
          refine hsum _ u rfl rfl rfl ?_
          simp only [List.map_append, List.count_append, List.map_cons, List.map_nil, count_one]
          omega
        · intro x hx; exact (List.mem_filter.1 hx).1
        · intro x hx; exact .inl hx
        · intro x hx
          simp only [List.mem_append, List.mem_singleton] at hx
          refine hx.imp id fun e => ?_
          subst e
          exact ⟨m, hm, ha, fun _ h => absurd rfl h⟩
        · intro x hx; exact List.mem_append_left _ hx
        · intro u; simp only [List.map_append, List.count_append]; omega
    | error e =>
      simp only [St.answer]
      refine h.move _ (by simp) ?_ ?_ ?_ ?_ ?_ ?_
      · intro u
        refine hsum _ u rfl rfl rfl ?_
        simp only [List.map_append, List.count_append, List.map_cons, List.map_nil, count_one]
        omega
      · intro x hx; exact (List.mem_filter.1 hx).1
      · intro x hx; exact .inl hx
      · intro x hx
        simp only [List.mem_append, List.mem_singleton] at hx
        refine hx.imp id fun e' => ?_
        subst e'
        exact ⟨m, hm, he, fun _ _ b hb => by rw [he] at hb; cases hb⟩
      · intro x hx; exact List.mem_append_left _ hx
      · intro u; simp only [List.map_append, List.count_append]; omega

theorem Inv.abandon (h : Inv enc s) (t : Nat) : Inv enc (step enc s (.abandon t)) := by
  unfold step
  simp only
  split
  · exact h
  · rename_i x hf
    obtain ⟨m, t'⟩ := x
    have hmem := List.mem_of_find?_eq_some hf
    have ht := List.find?_some hf
    simp only [decide_eq_true_eq] at ht
    subst ht
    have hd := h.nodup hmem
    refine h.move _ (by simp) ?_ ?_ ?_ ?_ ?_ ?_
    · intro u
      unfold tally
      simp only [count_filter_ne, List.count_append, count_one]
      by_cases hu : u = t'
      · subst hu
        rw [if_pos rfl, if_pos rfl, hd.2.2.2.2.1]
        omega
      · rw [if_neg hu, if_neg hu]
        omega
    · intro x hx; exact (List.mem_filter.1 hx).1
    · intro x hx; exact .inl hx
    · intro x hx; exact .inl hx
    · intro x hx; exact hx
    · intro u; exact Nat.le_refl _

theorem Inv.created (h : Inv enc s) (r : Except E Unit) : Inv enc (step enc s (.created r)) := by
  unfold step
  simp only
  split
  · rename_i hc
    simp only [Bool.and_eq_true, Option.isNone_iff_eq_none] at hc
    have hl : s.log = [] := h.blank (by rw [hc.2]; nofun)
    have hnp : ∀ x ∈ s.answers, ∀ m b, s.arrived[x.1]? = some m → enc m = .ok b →
        x.2 = .error .dropped := by
      intro x hx m b h1 h2
      obtain ⟨m', h3, h4⟩ := h.right x hx
      rw [h1] at h3
      cases h3
      obtain ⟨t, r⟩ := x
      match r, h4 with
      | .ok (), h4 => simp [RightAnswer, hl] at h4
      | .error (.encoding e), h4 => simp [RightAnswer, h2] at h4
      | .error .dropped, _ => rfl
      | .error (.zenoh e), h4 => simp [RightAnswer, hl, hc.2] at h4
    constructor
    · exact h.sum
    · exact h.pend
    · exact h.queued
    · exact h.begun
    · exact h.once
    · exact h.busy
    · exact h.apart
    · exact h.idle
    · exact h.work
    · intro x hx
      obtain ⟨m, h1, h2⟩ := h.right x hx
      exact ⟨m, h1, rightAnswer_mono (s := s) (fun _ h => h) (fun h => h) (fun _ h' => by rw [hc.2] at h'; cases h') h2⟩
    · exact h.done
    · intro _ x hx hd m b h1 h2
      exact absurd (hnp x hx m b h1 h2) hd
    · intro _; exact hl
    · intro e he
      match r, he with
      | .ok (), he => cases he
      | .error e', he => cases he; exact ⟨e', rfl⟩
    · exact h.dead
  · exact h

/-- The first item of the channel has been taken and answered. -/
theorem Inv.take_answer (h : Inv enc s) {p : Payload M B} {t : Nat}
    {rest : List (Payload M B × Nat)} (hq : s.queue = (p, t) :: rest) (r : Except (Error E) Unit)
    (hr : ∃ m, s.arrived[t]? = some m ∧ RightAnswer enc s t m r ∧
      (s.publisher = some (.ok ()) → r ≠ .error .dropped → ∀ b, enc m ≠ .ok b)) :
    Inv enc { s with queue := rest, answers := s.answers ++ [(t, r)] } := by
  refine h.move _ (by simp) ?_ ?_ ?_ ?_ ?_ ?_
  · intro u
    unfold tally
    simp only [hq, List.map_cons, List.count_cons, List.map_append, List.count_append, List.map_nil,
      List.count_nil]
    omega
  · intro x hx; exact hx
  · intro x hx; left; rw [hq]; exact List.mem_cons_of_mem _ hx
  · intro x hx
    simp only [List.mem_append, List.mem_singleton] at hx
    exact hx.imp id fun e => by subst e; exact hr
  · intro x hx; exact List.mem_append_left _ hx
  · intro u; simp only [List.map_append, List.count_append]; omega

theorem Inv.take (h : Inv enc s) : Inv enc (s.take enc) := by
  unfold St.take
  split
  · rename_i hc
    simp only [Bool.and_eq_true, Option.isNone_iff_eq_none] at hc
    split
    · exact h
    · exact h
    · rename_i e p t rest hp hq
      obtain ⟨e', he⟩ := h.made e hp
      subst he
      obtain ⟨m, hm, _⟩ := h.queued (p, t) (by rw [hq]; exact List.mem_cons_self ..)
      exact h.take_answer hq _ ⟨m, hm, .inr hp, fun h' => by rw [hp] at h'; cases h'⟩
    · rename_i p t rest hp hq
      obtain ⟨m, hm, hpm⟩ := h.queued (p, t) (by rw [hq]; exact List.mem_cons_self ..)
      simp only
      split
      · rename_i e he
        have : ∃ e', e = .encoding e' ∧ enc m = .error e' := by
          rcases hpm with hpm | ⟨b, hpm, _⟩
          · simp only at hpm
            subst hpm
            simp only [Payload.encode] at he
            split at he
            · cases he
            · cases he; exact ⟨_, rfl, by assumption⟩
          · simp only at hpm
            subst hpm
            cases he
        obtain ⟨e', h1, h2⟩ := this
        subst h1
        exact h.take_answer hq _ ⟨m, hm, h2, fun _ _ b hb => by rw [h2] at hb; cases hb⟩
      · rename_i b he
        have henc : enc m = .ok b := by
          rcases hpm with hpm | ⟨b', hpm, h'⟩
          · simp only at hpm
            subst hpm
            simp only [Payload.encode] at he
            split at he
            · cases he; assumption
            · cases he
          · simp only at hpm
            subst hpm
            cases he
            exact h'
        have hcnt : (s.answers.map (·.1)).count t = 0 ∧ s.lost.count t = 0 := by
          have h1 := h.sum t
          unfold tally at h1
          rw [hq] at h1
          simp only [List.map_cons, List.count_cons_self] at h1
          split at h1 <;> omega
        have hst : starts (s.log ++ [.start t b]) = starts s.log ++ [(t, b)] := by
          rw [starts_append]; rfl
        constructor
        · intro u
          have h1 := h.sum u
          rw [← h1]
          unfold tally
          simp only [hq, hc.2, List.map_cons, List.count_cons, Option.toList_some,
            Option.toList_none, List.count_nil]
          omega
        · exact h.pend
        · intro x hx
          exact h.queued x (by rw [hq]; exact List.mem_cons_of_mem _ hx)
        · intro x hx
          rw [hst] at hx
          simp only [List.mem_append, List.mem_singleton] at hx
          rcases hx with hx | hx
          · exact h.begun x hx
          · subst hx; exact ⟨m, hm, henc⟩
        · intro u
          have h1 := h.once u
          simp only [hst, hc.2, List.map_append, List.map_cons, List.map_nil, List.count_append,
            Option.toList_some, Option.toList_none, List.count_nil] at h1 ⊢
          omega
        · intro u hu
          simp only [Option.some.injEq] at hu
          subst hu
          exact ⟨b, by rw [hst]; simp⟩
        · exact h.idle hc.1 hc.2 _ (.last t b)
        · intro _ hb; cases hb
        · intro u hu r l hl
          simp only [Option.some.injEq] at hu
          subst hu
          simp only [List.append_assoc, List.cons_append, List.nil_append]
          exact h.idle hc.1 hc.2 _ (.cons _ _ _ _ hl)
        · intro x hx
          obtain ⟨m', h1, h2⟩ := h.right x hx
          exact ⟨m', h1, rightAnswer_mono (fun _ h => List.mem_append_left _ h) (fun h => h)
            (fun _ h => h) h2⟩
        · intro u r hr
          simp only [List.mem_append, List.mem_singleton, reduceCtorEq, or_false] at hr
          exact h.done u r hr
        · intro hpub x hx hd m' b' h1 h2
          rw [hst]
          exact List.mem_append_left _ (h.put hpub x hx hd m' b' h1 h2)
        · intro h'; exact absurd hp h'
        · exact h.made
        · intro hd
          rw [show s.alive = true from hc.1] at hd
          cases hd
  · exact h

theorem Inv.finished (h : Inv enc s) (r : Except E Unit) : Inv enc (s.finished r) := by
  unfold St.finished
  split
  · exact h
  · rename_i t hb
    simp only [St.answer]
    generalize hans : mapErr r = a
    have hst : starts (s.log ++ [.finish t r]) = starts s.log := by
      rw [starts_append]; simp [starts]
    obtain ⟨b, hbm⟩ := h.busy t hb
    obtain ⟨m, hm, he⟩ := h.begun _ hbm
    have ham : ∀ (f : St M B E), f.log = s.log ++ [.finish t r] → RightAnswer enc f t m a := by
      intro f hf
      subst hans
      cases r with
      | ok u => simp only [mapErr, RightAnswer, hf]; simp
      | error e => simp only [mapErr, RightAnswer, hf]; simp
    have hlt : t < s.arrived.length := (List.getElem?_eq_some_iff.1 hm).1
    constructor
    · intro u
      have h1 := h.sum u
      rw [← h1]
      unfold tally
      simp only [hb, List.map_append, List.map_cons, List.map_nil, List.count_append,
        Option.toList_some, Option.toList_none, List.count_nil]
      omega
    · exact h.pend
    · exact h.queued
    · rw [hst]; exact h.begun
    · intro u
      have h1 := h.once u
      simp only [hst, hb, List.map_append, List.map_cons, List.map_nil, List.count_append,
        Option.toList_some, Option.toList_none, List.count_nil] at h1 ⊢
      omega
    · intro _ h'; cases h'
    · exact h.work t hb r [] .nil
    · intro _ _ l hl
      simp only [List.append_assoc, List.cons_append, List.nil_append]
      exact h.work t hb r l hl
    · intro _ h'; cases h'
    · intro x hx
      simp only [List.mem_append, List.mem_singleton] at hx
      rcases hx with hx | hx
      · obtain ⟨m', h1, h2⟩ := h.right x hx
        exact ⟨m', h1, rightAnswer_mono (fun _ h => List.mem_append_left _ h) (fun h => h)
          (fun _ h => h) h2⟩
      · subst hx; exact ⟨m, hm, ham _ rfl⟩
    · intro u r' hr
      simp only [List.mem_append, List.mem_singleton, Log.finish.injEq] at hr
      rcases hr with hr | ⟨h1, h2⟩
      · obtain ⟨r'', h1, h2⟩ := h.done u r' hr
        exact ⟨r'', List.mem_append_left _ h1, h2⟩
      · subst h1; subst h2
        refine ⟨a, by simp, ?_⟩
        intro h'; subst h'; rw [← hans]; rfl
    · intro hpub x hx hd m' b' h1 h2
      rw [hst]
      simp only [List.mem_append, List.mem_singleton] at hx
      rcases hx with hx | hx
      · exact h.put hpub x hx hd m' b' h1 h2
      · subst hx
        simp only at h1
        rw [hm] at h1
        cases h1
        rw [he] at h2
        cases h2
        exact hbm
    · intro h'
      have := h.blank h'
      rw [this] at hbm
      cases hbm
    · exact h.made
    · intro hd
      exact ⟨(h.dead hd).1, rfl⟩

theorem Inv.drop (h : Inv enc s) : Inv enc s.drop := by
  unfold St.drop
  have hmap : ∀ l : List Nat, (l.map fun t => ((t, .error .dropped) :
      Nat × Except (Error E) Unit)).map (·.1) = l := by
    intro l; induction l with
    | nil => rfl
    | cons a l ih => simp only [List.map_cons, ih]
  have hin : ∀ t ∈ s.busy.toList ++ s.queue.map (·.2), ∃ m, s.arrived[t]? = some m := by
    intro t ht
    simp only [List.mem_append, Option.mem_toList, List.mem_map] at ht
    rcases ht with ht | ⟨x, hx, rfl⟩
    · obtain ⟨b, hb⟩ := h.busy t ht
      obtain ⟨m, hm, _⟩ := h.begun _ hb
      exact ⟨m, hm⟩
    · obtain ⟨m, hm, _⟩ := h.queued x hx
      exact ⟨m, hm⟩
  constructor
  · intro u
    have h1 := h.sum u
    rw [← h1]
    unfold tally
    simp only [List.map_append, hmap, List.count_append, List.map_nil, Option.toList_none,
      List.count_nil]
    omega
  · exact h.pend
  · nofun
  · exact h.begun
  · intro u
    have h1 := h.once u
    simp only [List.map_append, hmap, List.count_append, Option.toList_none, List.count_nil] at h1 ⊢
    omega
  · nofun
  · exact h.apart
  · nofun
  · nofun
  · intro x hx
    simp only [List.mem_append, List.mem_map] at hx
    rcases hx with hx | ⟨t, ht, rfl⟩
    · obtain ⟨m', h1, h2⟩ := h.right x hx
      exact ⟨m', h1, rightAnswer_mono (s := s) (fun _ h => h) (fun _ => rfl) (fun _ h => h) h2⟩
    · obtain ⟨m, hm⟩ := hin t (by simpa using ht)
      exact ⟨m, hm, rfl⟩
  · intro u r hr
    obtain ⟨r', h1, h2⟩ := h.done u r hr
    exact ⟨r', List.mem_append_left _ h1, h2⟩
  · intro hpub x hx hd m b h1 h2
    simp only [List.mem_append, List.mem_map] at hx
    rcases hx with hx | ⟨t, _, rfl⟩
    · exact h.put hpub x hx hd m b h1 h2
    · exact absurd rfl hd
  · exact h.blank
  · exact h.made
  · exact fun _ => ⟨rfl, rfl⟩

theorem Inv.step (h : Inv enc s) (v : Ev M E) : Inv enc (step enc s v) := by
  cases v with
  | arrive m => exact h.arrive m
  | encode t => exact h.encode t
  | abandon t => exact h.abandon t
  | created r => exact h.created r
  | take => exact h.take
  | finished r => exact h.finished r
  | drop => exact h.drop

theorem Inv.run (h : Inv enc s) (vs : List (Ev M E)) : Inv enc (run enc s vs) := by
  induction vs generalizing s with
  | nil => exact h
  | cons v vs ih => exact ih (h.step v)

end Verif.Zenoh.Publish
