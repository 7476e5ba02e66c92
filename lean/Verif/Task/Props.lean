import Verif.Task.Notify
/-
C49: the tasks of a node.

In `run {} es` the node begins without tasks and `es` is any sequence of events: tasks
start, become ready, are stopped (pre-empted), despawned, cleaned up with their session,
and cancellations complete in any order.
-/
set_option linter.unusedSimpArgs false
namespace Verif.Task

/-- How often something was observed. -/
def times (v : Node) (r : Rec) : Nat := v.log.count r

theorem count_own {id : Nat} {r : Rec} (h : about id r = true) (l : List Rec) :
    l.count r = (l.filter (about id)).count r := by
  rw [List.count_filter h]

/-- The history of a task of a run is one of these. -/
theorem history (es : List Ev) (id s : Nat) (b : Bool)
    (h : .started id s b ∈ (run {} es).log) :
    (run {} es).log.filter (about id) = [.started id s b] ∨
    (run {} es).log.filter (about id) =
      [.started id s b, .ended id, .responded id] ++ unblocks id b ∨
    (run {} es).log.filter (about id) =
      [.started id s b, .ended id] ++ unblocks id b ++ [.disposed id] ∨
    ((run {} es).log.filter (about id) = [.started id s b, .ended id] ++ unblocks id b ∧
      ∃ c, StartedBefore (run {} es).log id s c) := by
  have hi := run_inv es fresh_inv
  generalize run {} es = v at *
  have hm : Rec.started id s b ∈ v.log.filter (about id) := by simp [h, about]
  have hid : id < v.next := by
    apply Nat.lt_of_not_le
    intro hle
    have := (hi.new id hle).1.2.2.2
    simp only [Verif.Task.ownL] at this
    rw [this] at hm
    cases hm
  obtain ⟨s', b', hp⟩ := hi.old id hid
  have hu : ∀ {x}, x ∈ unblocks id b' → x = .unblocked id := fun h => mem_unblocks h
  have key : ∀ {L : List Rec}, v.log.filter (about id) = .started id s' b' :: L →
      (∀ x ∈ L, ∀ i t c, x ≠ .started i t c) → s = s' ∧ b = b' := by
    intro L hL hno
    rw [hL] at hm
    rcases List.mem_cons.mp hm with hm | hm
    · cases hm; exact ⟨rfl, rfl⟩
    · exact absurd rfl (hno _ hm _ _ _)
  have hnou : ∀ x ∈ unblocks id b', ∀ i t c, x ≠ Rec.started i t c := by
    intro x hx i t c e; rw [hu hx] at e; cases e
  cases hp with
  | running hP => obtain ⟨rfl, rfl⟩ := key hP.2.2.2 (by simp); exact .inl hP.2.2.2
  | cleaning c hP hb => obtain ⟨rfl, rfl⟩ := key hP.2.2.2 (by simp); exact .inl hP.2.2.2
  | cleaningBare c x E hE hP hb hs => obtain ⟨rfl, rfl⟩ := key hP.2.2.2 (by simp); exact .inl hP.2.2.2
  | stopping x E hE hP hs => obtain ⟨rfl, rfl⟩ := key hP.2.2.2 (by simp); exact .inl hP.2.2.2
  | ghost c hP hb => obtain ⟨rfl, rfl⟩ := key hP.2.2.2 (by simp); exact .inl hP.2.2.2
  | responded hP =>
    obtain ⟨rfl, rfl⟩ := key (L := [Rec.ended id, Rec.responded id] ++ unblocks id b') hP.2.2.2 (by
      intro x hx
      simp only [List.cons_append, List.nil_append, List.mem_cons] at hx
      rcases hx with rfl | rfl | hx
      · intros; simp
      · intros; simp
      · exact hnou x hx)
    exact .inr (.inl hP.2.2.2)
  | disposed hP =>
    obtain ⟨rfl, rfl⟩ := key (L := [Rec.ended id] ++ unblocks id b' ++ [Rec.disposed id]) hP.2.2.2 (by
      intro x hx
      simp only [List.cons_append, List.nil_append, List.mem_cons, List.mem_append,
        List.not_mem_nil, or_false] at hx
      rcases hx with rfl | hx | rfl
      · intros; simp
      · exact hnou x hx
      · intros; simp)
    exact .inr (.inr (.inl hP.2.2.2))
  | cleaned c hP hb =>
    obtain ⟨rfl, rfl⟩ := key (L := [Rec.ended id] ++ unblocks id b') hP.2.2.2 (by
      intro x hx
      simp only [List.cons_append, List.nil_append, List.mem_cons] at hx
      rcases hx with rfl | hx
      · intros; simp
      · exact hnou x hx)
    exact .inr (.inr (.inr ⟨hP.2.2.2, c, hb⟩))

/-- **C49**, one outcome: in every run a task sends at most one response, is reported as
disposed at most once, and never both. Its future ends at most once, and its blocker is
released exactly when its future has ended, if it has one, and never otherwise. -/
theorem C49_one_outcome (es : List Ev) (id s : Nat) (b : Bool)
    (h : .started id s b ∈ (run {} es).log) :
    times (run {} es) (.responded id) + times (run {} es) (.disposed id) ≤ 1 ∧
    times (run {} es) (.ended id) ≤ 1 ∧
    times (run {} es) (.unblocked id) = if b then times (run {} es) (.ended id) else 0 := by
  have hr := count_own (id := id) (r := .responded id) (by simp [about]) (run {} es).log
  have hd := count_own (id := id) (r := .disposed id) (by simp [about]) (run {} es).log
  have he := count_own (id := id) (r := .ended id) (by simp [about]) (run {} es).log
  have hu := count_own (id := id) (r := .unblocked id) (by simp [about]) (run {} es).log
  unfold times
  rw [hr, hd, he, hu]
  rcases history es id s b h with h | h | h | ⟨h, _⟩ <;> rw [h] <;> cases b <;>
    simp [unblocks, List.count_cons]

/-- **C49**, nothing is silent: a task whose future is over has sent its response or was
reported as disposed, unless its session was cleaned up after it had started. A task
that sent its response or was disposed of is over. -/
theorem C49_reported (es : List Ev) (id s : Nat) (b : Bool)
    (h : .started id s b ∈ (run {} es).log) :
    ((.responded id ∈ (run {} es).log ∨ .disposed id ∈ (run {} es).log) → Ended (run {} es).log id) ∧
    (Ended (run {} es).log id → .responded id ∈ (run {} es).log ∨ .disposed id ∈ (run {} es).log ∨
      ∃ c, StartedBefore (run {} es).log id s c) := by
  have hmem : ∀ r, about id r = true → (r ∈ (run {} es).log ↔ r ∈ (run {} es).log.filter (about id)) := by
    intro r hr; simp [hr]
  unfold Ended
  rw [hmem (.responded id) (by simp [about]), hmem (.disposed id) (by simp [about]),
    hmem (.ended id) (by simp [about])]
  rcases history es id s b h with h | h | h | ⟨h, hc⟩
  · rw [h]; simp
  · rw [h]; simp
  · rw [h]; simp
  · rw [h]
    refine ⟨by simp, fun _ => .inr (.inr hc)⟩

/-- **C49**, progress: when no cancellation is under way, every task is over or can still
become ready, and then it sends its response. -/
theorem C49_ends (es : List Ev) (id s : Nat) (b : Bool) (h : .started id s b ∈ (run {} es).log)
    (hc : (run {} es).closures = []) :
    Ended (run {} es).log id ∨ Rec.responded id ∈ (run {} (es ++ [.ready id])).log := by
  have hi := run_inv es fresh_inv
  have hrun : run {} (es ++ [.ready id]) = (run {} es).ready id := by
    simp [run, List.foldl_append, step]
  rw [hrun]
  generalize run {} es = v at *
  have hm : Rec.started id s b ∈ Verif.Task.ownL id v.log := by simp [h, about]
  have hid : id < v.next := by
    apply Nat.lt_of_not_le
    intro hle
    rw [(hi.new id hle).1.2.2.2] at hm
    cases hm
  obtain ⟨s', b', hp⟩ := hi.old id hid
  have hcl : ∀ {x}, own Closure.id id v.closures ≠ [x] := by
    intro x he; rw [hc] at he; cases he
  have hend : ∀ {L}, Verif.Task.ownL id v.log = L → .ended id ∈ L → Ended v.log id := by
    intro L hL hx
    rw [← hL] at hx
    exact (List.mem_filter.mp hx).1
  cases hp with
  | running hP =>
    right
    unfold Node.ready
    simp only [find_ent hP.1, List.head?_cons, Option.isSome_none, Bool.false_eq_true, if_false, if_true]
    rw [cleanupTask_quiet]
    · simp
    · intro e he op hop
      simp only at he
      rw [own_map (by intro x; split <;> rfl), hP.1] at he
      simp only [List.map_cons, List.map_nil, if_true, List.mem_singleton] at he
      subst he
      simp only [Option.some.injEq] at hop
      subst hop
      rfl
  | cleaning c hP hb => exact absurd hP.2.2.1 hcl
  | cleaningBare c x E hE hP hb hs => exact absurd hP.2.2.1 hcl
  | stopping x E hE hP hs => exact absurd hP.2.2.1 hcl
  | ghost c hP hb => exact absurd hP.2.2.1 hcl
  | responded hP => exact .inl (hend hP.2.2.2 (by simp))
  | disposed hP => exact .inl (hend hP.2.2.2 (by simp))
  | cleaned c hP hb => exact .inl (hend hP.2.2.2 (by simp))

/-- Three tasks: one sends its response, one is stopped, one is cleaned up. -/
def demo : List Ev :=
  [.start 1 true, .start 1 false, .start 2 true, .ready 0, .stop 1, .clean 7 2, .done 0, .done 0]

example : .started 0 1 true ∈ (run {} demo).log ∧ .started 1 1 false ∈ (run {} demo).log ∧
    .started 2 2 true ∈ (run {} demo).log ∧ (run {} demo).closures = [] := by decide
example : Rec.responded 0 ∈ (run {} demo).log ∧ Rec.disposed 1 ∈ (run {} demo).log ∧
    Rec.unblocked 2 ∈ (run {} demo).log ∧ Rec.notified 7 ∈ (run {} demo).log := by decide

/-- **C49**, cleanup (partial): if no two cleanups of the node are for the same session,
then whenever the node reports that a cleanup has finished, each task of that session that
had started before the cleanup began is over. It reports each cleanup at most once, and
only cleanups that were begun.

Missing for the full claim: two cleanups of one session, see `C49_overlap_violated`. -/
theorem C49_cleanup_partial (es : List Ev) (hno : NoOverlap (run {} es).log) :
    (∀ l1 l2 c, (run {} es).log = l1 ++ .notified c :: l2 →
      ∀ id s, StartedBefore l1 id s c → .ended id ∈ l1) ∧
    (∀ c, times (run {} es) (.notified c) ≤ 1) ∧
    (∀ c, .notified c ∈ (run {} es).log → ∃ s, .begun c s ∈ (run {} es).log) := by
  have h := run_safe es fresh_inv fresh_safe hno
  refine ⟨h.note, h.once, ?_⟩
  intro c hc
  obtain ⟨⟨s, hs⟩, _⟩ := h.fin c hc
  exact ⟨s, mem_begunOf.mp hs⟩

/-- Two tasks of one session are cleaned up. -/
def demoClean : List Ev := [.start 1 true, .start 1 false, .start 2 true, .clean 7 1, .done 1, .done 0]

example : NoOverlap (run {} demoClean).log := by unfold NoOverlap; decide
example : (run {} demoClean).log =
    ([.started 0 1 true, .started 1 1 false, .started 2 2 true, .begun 7 1, .ended 1, .ended 0,
      .unblocked 0] : List Rec) ++ .notified 7 :: [] ∧
    StartedBefore [.started 0 1 true, .started 1 1 false, .started 2 2 true, .begun 7 1, .ended 1,
      .ended 0, .unblocked 0] 1 1 7 :=
  ⟨by decide, [.started 0 1 true, .started 1 1 false, .started 2 2 true],
    [.ended 1, .ended 0, .unblocked 0], rfl, false, by decide⟩

/-- **C49** fails when a session is cleaned up twice, as happens when a scope ends while
one of its trim operations is at work: the second cleanup is reported although the future
of the task has not ended. -/
theorem C49_overlap_violated : ∃ es id s c, StartedBefore (run {} es).log id s c ∧
    .notified c ∈ (run {} es).log ∧ .ended id ∉ (run {} es).log ∧
    ((begunOf (run {} es).log).map (·.1)).Nodup := by
  refine ⟨[.start 1 true, .clean 7 1, .clean 8 1], 0, 1, 8, ⟨[.started 0 1 true, .begun 7 1],
    [.notified 8], by decide, true, by decide⟩, by decide, by decide, by decide⟩

/-- **C49**, the end of a cleanup (partial): each cleanup under its own identifier is
reported once all cancellations are complete, if, when it began, no task of the session
was being stopped.

Missing for the full claim: tasks that are being stopped, see `C49_violated`. -/
theorem C49_cleanup_finishes_partial (es : List Ev) (c s : Nat)
    (hid : ((begunOf (run {} es).log).map (·.1)).Nodup) (hb : .begun c s ∈ (run {} es).log)
    (hn : NoneStopping (run {} es).log c s) (hc : (run {} es).closures = []) :
    .notified c ∈ (run {} es).log := by
  have h := run_live es fresh_inv (fun a ha => by cases ha) (fun c s hm => by cases hm) hid
  rcases (h c s (mem_begunOf.mpr hb) hn).1 with h | ⟨cl, hcl, _⟩
  · exact h
  · rw [hc] at hcl; cases hcl

example : .begun 7 1 ∈ (run {} demoClean).log ∧ (run {} demoClean).closures = [] := by decide
example : NoneStopping (run {} demoClean).log 7 1 := by
  intro l1 l2 he id b _ hst
  have : Rec.stopping id ∈ (run {} demoClean).log := by rw [he]; exact List.mem_append_left _ hst
  have h2 : (run {} demoClean).log.all (fun r => match r with | .stopping _ => false | _ => true) = true := by
    decide
  have := List.all_eq_true.mp h2 _ this
  simp at this

/-- **C49** fails for stopped tasks: if the session is cleaned up while a pre-empted task
is still being cancelled, then the node never reports that the cleanup has finished:
nothing is under way any more, the task is over, and no further completed cancellation
can help. The scope of the session waits for ever. -/
theorem C49_violated : ∃ es c s, .begun c s ∈ (run {} es).log ∧ NoOverlap (run {} es).log ∧
    (run {} es).closures = [] ∧ (run {} es).ents = [] ∧ (run {} es).active = [] ∧
    .notified c ∉ (run {} es).log := by
  refine ⟨[.start 1 true, .stop 0, .clean 7 1, .done 0], 7, 1, ?_⟩
  unfold NoOverlap
  decide

end Verif.Task
