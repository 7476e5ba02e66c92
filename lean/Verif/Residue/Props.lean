import Verif.Residue.Lemmas

/-
C104: cleaning up a session leaves nothing of it behind.
C105: the cancellation of an unreachable workflow lists the disposals of its session.

The end of a session `s` is: the scope cleans all its operations (`cleanAll s`), other things
happen, the scope clears its buffers (`clear s`), other things happen. What happens before is
arbitrary.
-/
set_option linter.unusedVariables false

namespace Verif.Residue

variable {V D : Type}

/-- After any history and the end of session `s` no operation has a message, a key, a collection,
a held message, an injected request or a stored message of the session. The disposals are gone too
except at blocking and async maps, splits, listeners and accesses, where they stay as they were,
and the entry for the gate of a buffer stays as it was. Missing to the claim: those two. -/
theorem C104_end_partial (c : List Nat) (hc : c.Nodup) (kind : Nat → Kind) (s : Nat)
    (before mid after : List (Ev V D)) (hm : ∀ v ∈ mid, Quiet s v) (ha : ∀ v ∈ after, Quiet s v)
    (n : Nat) (hn : n ∈ c) :
    let w0 := run (World.init c kind) before
    let w := run (World.init c kind) (before ++ .cleanAll s :: mid ++ .clear s :: after)
    Emptied (w.node n) s ∧
    (w.node n).disposals s = (if (kind n).forgetful then (w0.node n).disposals s else []) ∧
    (w.node n).gate s = (w0.node n).gate s := by
  intro w0 w
  have hi : Inv w0 := (Inv.init c hc kind).run before
  have hc0 : w0.contents = c := run_contents _ _
  have hk0 : (w0.node n).kind = kind n := run_kind (World.init c kind) hc before n
  have e1 : ((step w0 (.cleanAll s)).node n) = (w0.node n).clean true s := by
    simp only [step]
    rw [cleanAll_node w0 hi.nodup, if_pos (by rw [hc0]; exact hn)]
  have i1 := hi.step (.cleanAll s)
  have h1 : Idle ((step w0 (.cleanAll s)).node n) s := by
    rw [e1]; exact clean_idle (hi.shape n) s
  obtain ⟨q1, q2, q3, q4⟩ := run_quiet i1.nodup h1 mid hm
  let w2 := run (step w0 (.cleanAll s)) mid
  have i2 : Inv w2 := i1.run mid
  have hc2 : w2.contents = c := by
    rw [← hc0]; exact (run_contents _ _).trans (step_contents _ _)
  have e2 : (step w2 (.clear s)).node n = (w2.node n).drop s := by
    simp only [step]
    rw [clear_node w2 i2.nodup, if_pos (by rw [hc2]; exact hn)]
  have i3 := i2.step (.clear s)
  have h3 : Idle ((step w2 (.clear s)).node n) s := by
    rw [e2]; unfold Node.drop; split
    · exact { q1 with }
    · exact q1
  obtain ⟨r1, r2, r3, r4⟩ := run_quiet i3.nodup h3 after ha
  have ew : w = run (step w2 (.clear s)) after := by
    show run _ _ = _
    simp only [run, List.foldl_append, List.foldl_cons]
    rfl
  rw [ew]
  refine ⟨⟨r1.inputs, r1.keys, r1.batch, r1.held, r1.injected, ?_⟩, ?_, ?_⟩
  · rw [r3, e2]
    unfold Node.drop
    split
    · simp
    · rename_i hb
      exact (i2.shape n).stored hb s
  · rw [r2, e2]
    have : ((w2.node n).drop s).disposals = (w2.node n).disposals := by
      unfold Node.drop; split <;> rfl
    rw [this]
    show ((run (step w0 (.cleanAll s)) mid).node n).disposals s = _
    rw [q2, e1, clean_disposals (hi.shape n), hk0]
  · rw [r4, e2]
    have : ((w2.node n).drop s).gate = (w2.node n).gate := by
      unfold Node.drop; split <;> rfl
    rw [this]
    show ((run (step w0 (.cleanAll s)) mid).node n).gate s = _
    rw [q4, e1, clean_gate]

/-- After the end of a session nothing of it is left at any other operation: services, callbacks,
forks, filters, branching, spread, gates, cancels, joins, collections, trims and injections. -/
theorem C104_bare_partial (c : List Nat) (hc : c.Nodup) (kind : Nat → Kind) (s : Nat)
    (before mid after : List (Ev V D)) (hm : ∀ v ∈ mid, Quiet s v) (ha : ∀ v ∈ after, Quiet s v)
    (n : Nat) (hn : n ∈ c) (hk : (kind n).forgetful = false) (hb : kind n ≠ .buffer) :
    Bare ((run (World.init c kind)
      (before ++ .cleanAll s :: mid ++ .clear s :: after)).node n) s := by
  obtain ⟨h, hd, hg⟩ := C104_end_partial c hc kind s before mid after hm ha n hn
  refine ⟨h.inputs, ?_, h.keys, h.batch, h.held, h.injected, h.stored, ?_⟩
  · rw [hd, hk]; simp
  · rw [hg]
    refine (((Inv.init c hc kind).run before).shape n).gate ?_ s
    rw [run_kind _ hc]
    exact hb

/-- Cleaning and clearing session `s` changes nothing of another session, whoever cleans. -/
theorem C104_others (w : World V D) (hw : w.contents.Nodup) (s t : Nat) (h : t ≠ s) (n m : Nat) :
    Same ((step w (.cleanAll s)).node m) (w.node m) t ∧
    Same ((step w (.clear s)).node m) (w.node m) t ∧
    Same ((step w (.trimmed n s)).node m) (w.node m) t := by
  refine ⟨?_, ?_, ?_⟩
  · rw [step_node w hw]
    split
    · exact clean_same _ _ _ _ h
    · exact Same.refl _ _
  · rw [step_node w hw]
    split
    · simp only [local_, Node.drop]
      split
      · exact { Same.refl (w.node m) t with stored := upd_ne _ _ h }
      · exact Same.refl _ _
    · exact Same.refl _ _
  · rw [step_node w hw]
    split
    · exact clean_same _ _ _ _ h
    · exact Same.refl _ _

/-- Cleanup by somebody else than the scope takes the messages of the session and keeps the
disposals and the keys. -/
theorem C104_trimmed (x : Node V D) (s : Nat) :
    (∀ i ∈ (x.clean false s).inputs, i.1 ≠ s) ∧ (x.clean false s).disposals = x.disposals ∧
    (x.clean false s).keys = x.keys := by
  refine ⟨?_, ?_, ?_⟩ <;> unfold Node.clean <;> split <;>
    simp [Node.cleanInputs, Node.cleanDisposals, Node.cleanKeys]

/-- The claim is false: the disposals at a map, a split, a listener or an access are there for
ever, whatever happens later. -/
theorem C104_forgotten (w : World V D) (hw : w.contents.Nodup) (n s : Nat)
    (hk : ((w.node n).kind).forgetful = true) (evs : List (Ev V D)) :
    (w.node n).disposals s <+: ((run w evs).node n).disposals s := by
  induction evs generalizing w with
  | nil => exact List.prefix_refl _
  | cons v vs ih =>
    refine List.IsPrefix.trans ?_ (ih (step w v) (by rw [step_contents]; exact hw)
      (by rw [step_kind w hw]; exact hk))
    rw [step_node w hw]
    split
    · exact local_forgetful hk _ _ _
    · exact List.prefix_refl _

/-- So is an entry for the gate of a buffer. -/
theorem C104_gates (w : World V D) (hw : w.contents.Nodup) (n s : Nat)
    (hg : ((w.node n).gate s).isSome) (evs : List (Ev V D)) :
    (((run w evs).node n).gate s).isSome := by
  induction evs generalizing w with
  | nil => exact hg
  | cons v vs ih =>
    refine ih (step w v) (by rw [step_contents]; exact hw) ?_
    rw [step_node w hw]
    split
    · exact local_gate _ _ _ hg
    · exact hg

/-- So is every entity that a trim spawns for its cleanup. -/
theorem C104_helpers (w : World V D) (evs : List (Ev V D)) : w.helpers <+: (run w evs).helpers := by
  induction evs generalizing w with
  | nil => exact List.prefix_refl _
  | cons v vs ih => exact (step_helpers w v).trans (ih (step w v))

/-- A workflow with one operation, which runs `k` sessions, each with one disposal. -/
def sessions (d : D) (k : Nat) : List (Ev V D) :=
  (List.range k).flatMap fun s => [.emit 0 s d, .cleanAll s, .clear s]

/-- What is left of past sessions grows without bound: for every number `k` a workflow that
consists of one split has run `k` sessions, all have ended, and it has a disposal of each. -/
theorem C104_grows (d : D) (k : Nat) :
    ∀ s, s < k →
      ((run (World.init [0] fun _ => .split : World V D) (sessions d k)).node 0).disposals s ≠ [] := by
  induction k with
  | zero => intro s hs; omega
  | succ k ih =>
    intro s hs
    let w := run (World.init [0] fun _ => .split : World V D) (sessions d k)
    have hw : w.contents.Nodup := by rw [run_contents]; simp [World.init]
    have hk : ((w.node 0).kind) = .split := run_kind _ (by simp [World.init]) _ _
    have e : run (World.init [0] fun _ => .split : World V D) (sessions d (k + 1)) =
        run w [.emit 0 k d, .cleanAll k, .clear k] := by
      simp only [w, run, sessions, List.range_succ, List.flatMap_append, List.foldl_append]
      rfl
    rw [e]
    by_cases h : s = k
    · subst h
      intro hn
      have h1 : ((step w (.emit 0 s d)).node 0).disposals s ≠ [] := by
        simp [step, hk, Kind.emits, Node.emit]
      have h2 := C104_forgotten (step w (.emit 0 s d)) (by rw [step_contents]; exact hw) 0 s
        (by rw [step_kind w hw, hk]; rfl) [.cleanAll s, .clear s]
      have h3 : run (step w (.emit 0 s d)) [.cleanAll s, .clear s] =
        run w [.emit 0 s d, .cleanAll s, .clear s] := rfl
      rw [h3, hn] at h2
      exact h1 (List.prefix_nil.1 h2)
    · intro hn
      have h2 := C104_forgotten w hw 0 s (by rw [hk]; rfl)
        [.emit 0 k d, .cleanAll k, .clear k]
      rw [hn] at h2
      exact ih s (by omega) (List.prefix_nil.1 h2)

/-- A session with a message in a collection, a key, a held message and a disposal of a branching,
which ends while another session is running. -/
def demo : List (Ev Nat String) :=
  [.give 0 7 1, .exec 0 false, .give 1 7 2, .exec 1 false, .give 2 7 3, .exec 2 false,
   .give 3 7 4, .emit 3 7 "x", .give 3 8 5, .emit 3 8 "y", .give 4 7 6, .exec 4 false]

def demoKind : Nat → Kind
  | 0 => .collect
  | 1 => .listen
  | 2 => .trim
  | 3 => .branching
  | _ => .buffer

-- before the end the session is everywhere, after it nowhere, and the other session is as it was
example :
    let w := run (World.init [0, 1, 2, 3, 4] demoKind) demo
    (w.node 0).batch 7 = [1] ∧ (w.node 1).keys 7 = true ∧ (w.node 2).held = [(2, 7, 3)] ∧
    (w.node 3).inputs = [(7, 4), (8, 5)] ∧ (w.node 3).disposals 7 = ["x"] ∧
    (w.node 4).stored 7 = [6] := by decide

example :
    let w := run (World.init [0, 1, 2, 3, 4] demoKind)
      (demo ++ .cleanAll 7 :: [.give 0 8 9] ++ .clear 7 :: [.exec 0 false])
    (w.node 0).batch 7 = [] ∧ (w.node 1).keys 7 = false ∧ (w.node 2).held = [] ∧
    (w.node 3).inputs = [(8, 5)] ∧ (w.node 3).disposals 7 = [] ∧ (w.node 4).stored 7 = [] ∧
    (w.node 3).disposals 8 = ["y"] ∧ (w.node 0).batch 8 = [9] := by decide

example : Bare ((run (World.init [0, 1, 2, 3, 4] demoKind)
      (demo ++ .cleanAll 7 :: [.give 0 8 9] ++ .clear 7 :: [.exec 0 false])).node 3) 7 :=
  C104_bare_partial _ (by decide) _ _ _ _ _ (by simp [Quiet]) (by simp [Quiet]) 3 (by decide)
    (by decide) (by decide)

/-! ### C105 -/

/-- As long as the scope has not cleaned session `s`, the disposals that a cancellation lists,
together with those of the injected requests that are running, are those that were emitted in the
session, each as often as it was emitted, whatever other sessions do and whatever trims clean
except injections. Missing to the claim: those of injected requests. -/
theorem C105_listing_partial (c : List Nat) (hc : c.Nodup) (kind : Nat → Kind) (s : Nat)
    (evs : List (Ev V D)) (hin : Within c evs) (hcl : ∀ v ∈ evs, v ≠ .cleanAll s)
    (ht : ∀ n, Ev.trimmed n s ∈ evs → kind n ≠ .injection) :
    let w := run (World.init c kind) evs
    (w.listing s ++ w.open s).Perm (emitted (World.init c kind) s evs) := by
  intro w
  have h := run_all (Inv.init (V := V) (D := D) c hc kind) s evs hin hcl ht
  have h0 : ((World.init c kind : World V D).contents.flatMap
      fun n => ((World.init c kind : World V D).node n).all s) = [] := by
    simp [World.init, Node.new, Node.all]
  rw [h0, List.nil_append] at h
  have hw : w.contents = c := run_contents _ _
  have := total_perm w s
  rw [hw] at this
  exact this.symm.trans h

/-- Without injections a cancellation lists exactly what was emitted in the session. -/
theorem C105_exact_partial (c : List Nat) (hc : c.Nodup) (kind : Nat → Kind)
    (hk : ∀ n ∈ c, kind n ≠ .injection) (s : Nat) (evs : List (Ev V D)) (hin : Within c evs)
    (hcl : ∀ v ∈ evs, v ≠ .cleanAll s) :
    ((run (World.init c kind) evs).listing s).Perm (emitted (World.init c kind) s evs) := by
  have h := C105_listing_partial c hc kind s evs hin hcl
    (fun n hn => hk n (hin _ hn))
  have ho : (run (World.init c kind) evs).open s = [] := by
    unfold World.open
    rw [List.flatMap_eq_nil_iff]
    intro n hn
    rw [run_contents] at hn
    have hi := ((Inv.init (V := V) (D := D) c hc kind).run evs).shape n
    rw [hi.injected (by rw [run_kind _ hc]; exact hk n hn)]
    rfl
  simpa [ho] using h

/-- A trim takes nothing from the list, not even by cleaning an injection. -/
theorem C105_trim (w : World V D) (hw : w.contents.Nodup) (n t s : Nat) :
    (step w (.trimmed n t)).listing s = w.listing s := by
  unfold World.listing
  rw [step_contents]
  congr 1
  funext m
  rw [step_node w hw]
  split
  · simp only [local_]
    rw [(C104_trimmed (w.node m) t).2.1]
  · rfl

/-- The claim is false for injected requests: the disposal of one that is running is not listed,
and it is lost if a trim cleans the injection. -/
theorem C105_violated :
    let evs : List (Ev Nat String) := [.give 0 7 1, .exec 0 false, .emitTask 0 0 "x"]
    let w0 : World Nat String := World.init [0] fun _ => .injection
    emitted w0 7 evs = ["x"] ∧ (run w0 evs).listing 7 = [] ∧ (run w0 evs).open 7 = ["x"] ∧
    (run w0 (evs ++ [.finish 0 0])).listing 7 = ["x"] ∧
    (run w0 (evs ++ [.trimmed 0 7, .finish 0 0])).listing 7 = [] := by decide

-- three operations and two sessions
example :
    let evs : List (Ev Nat String) :=
      [.emit 0 7 "a", .emit 1 7 "b", .emit 0 8 "c", .trimmed 1 7, .emit 0 7 "d", .cleanAll 8]
    let w0 : World Nat String :=
      World.init [0, 1] fun n => if n = 0 then .branching else .blockingMap
    emitted w0 7 evs = ["a", "b", "d"] ∧ (run w0 evs).listing 7 = ["a", "d", "b"] ∧
    Within [0, 1] evs ∧ ∀ v ∈ evs, v ≠ .cleanAll 7 := by
  refine ⟨by decide, by decide, by simp [Within], by simp⟩

end Verif.Residue
