import Verif.Grpc.Lemmas

/-!
C113: a call of a gRPC node passes on the messages of the server once and in order (one of them if
the method is not server streaming); it succeeds only when the server has finished; a cancellation
and, from some point on, the timeout end it.
-/
set_option linter.unusedSectionVars false

namespace Verif.Grpc

variable {M C E : Type} (cfg : Config)

/-- What has come out is a first part of what the server has sent; at most one message if the method
is not server streaming. -/
theorem C113_out (vs : List (Ev M C E)) :
    (∃ rest, (Call.run cfg {} vs).arrived = (Call.run cfg {} vs).outs.map .ok ++ rest) ∧
    (cfg.streaming = false → (Call.run cfg {} vs).outs.length ≤ 1) := by
  have h := Inv.run (cfg := cfg) vs
  refine ⟨?_, fun hs => (h.one hs).1⟩
  obtain ⟨t, h1, h2 | ⟨_, e, h2⟩⟩ := h.out
  · exact ⟨_, by rw [h1, h2]⟩
  · exact ⟨[.error e] ++ (Call.run cfg {} vs).inbox, by rw [h1, h2]; simp⟩

/-- How a call ends: with success only if the stream was over and all of it has come out, or one
message has come out for a method that is not server streaming; with an error only if the outside
gave that error; with the timeout only if there is one and it has passed; and cancelled only with
the message of a cancellation. -/
theorem C113_result (vs : List (Ev M C E)) (r : Except (Why C E) Unit)
    (hr : (Call.run cfg {} vs).phase = .done r) : Justified cfg (Call.run cfg {} vs) vs r := by
  have h := Inv.run (cfg := cfg) vs
  have hj := h.just r hr
  match r, hj with
  | .ok (), .inl ⟨h1, h2⟩ => exact .inl ⟨h1, h.clos h2⟩
  | .ok (), .inr h2 => exact .inr h2
  | .error (.failed e), h1 => exact h1
  | .error .timedOut, h1 => exact h1
  | .error (.cancelled c), h1 => exact h1

/-- A poll goes on until the call is over or waits for something that has not happened. -/
theorem C113_poll (vs : List (Ev M C E)) (orders : List Bool) :
    Over ((Call.run cfg {} vs).step cfg (.poll orders)) ∨
      Waiting cfg ((Call.run cfg {} vs).step cfg (.poll orders)) :=
  ((Inv.run vs).poll orders).2

/-- A poll only moves forward. -/
theorem loop_forward (n : Nat) (orders : List Bool) (s : Call M C E) (hs : s.signals ≠ [])
    (hp : Cancellable s ∨ Over s) :
    (Cancellable (s.loop cfg n orders) ∨ Over (s.loop cfg n orders)) ∧
      (s.loop cfg n orders).signals ≠ [] := by
  induction n generalizing orders s with
  | zero => exact ⟨hp, hs⟩
  | succ n ih =>
    rw [Call.loop]
    have hw : ∀ s', s.turn cfg (orders.headD false) = .wait s' → s' = s := by
      intro s' h
      unfold Call.turn Call.idle at h
      repeat' split at h
      all_goals first | cases h; rfl | cases h
    have ha : ∀ s', s.turn cfg (orders.headD false) = .again s' →
        s'.signals = s.signals ∧ s'.phase = .receiving := by
      intro s' h
      unfold Call.turn Call.idle at h
      rcases hp with (hp | hp) | ⟨r, hp⟩ <;> rw [hp] at h <;> simp only at h
      · repeat' split at h
        all_goals first | (cases h; exact ⟨rfl, rfl⟩) | cases h
      · repeat' split at h
        all_goals first | (cases h; exact ⟨rfl, rfl⟩) | (cases h; exact ⟨rfl, hp⟩) | cases h
      · cases h
    have ho : ∀ s' r, s.turn cfg (orders.headD false) = .over s' r → s'.signals = s.signals := by
      intro s' r h
      unfold Call.turn Call.idle at h
      repeat' split at h
      all_goals first | (cases h; rfl) | cases h
    split
    · rename_i s' h
      obtain ⟨h1, h2⟩ := ha s' h
      exact ih _ s' (by rw [h1]; exact hs) (.inl (.inr h2))
    · rename_i s' h
      rw [hw s' h]
      exact ⟨hp, hs⟩
    · rename_i s' r h
      exact ⟨.inr ⟨r, rfl⟩, by simp only; rw [ho s' r h]; exact hs⟩

/-- The canceller is out from the time that the server is called. -/
theorem C113_canceller (vs : List (Ev M C E)) (h : Cancellable (Call.run cfg {} vs)) :
    (Call.run cfg {} vs).canceller = true := by
  have hturn : ∀ (s s' : Call M C E) b, (Cancellable s → s.canceller = true) →
      (s.turn cfg b = .again s' ∨ s.turn cfg b = .wait s') →
      Cancellable s' → s'.canceller = true := by
    intro s s' b hs h
    unfold Call.turn Call.idle at h
    repeat' split at h
    all_goals
      rcases h with h | h <;> first
        | (cases h; done)
        | (cases h; exact hs)
        | (cases h; exact fun _ => rfl)
        | (cases h; exact fun _ => hs (.inl (by assumption)))
        | (cases h; rintro (h | h) <;> cases h)
  have hloop : ∀ n orders (s : Call M C E), (Cancellable s → s.canceller = true) →
      Cancellable (s.loop cfg n orders) → (s.loop cfg n orders).canceller = true := by
    intro n
    induction n with
    | zero => intro _ s hs; exact hs
    | succ n ih =>
      intro orders s hs
      rw [Call.loop]
      split
      · rename_i s' e; exact ih _ s' (hturn s s' _ hs (.inl e))
      · rename_i s' e; exact hturn s s' _ hs (.inr e)
      · rintro (h | h) <;> cases h
  have hstep : ∀ (s : Call M C E) v, (Cancellable s → s.canceller = true) →
      Cancellable (s.step cfg v) → (s.step cfg v).canceller = true := by
    intro s v hs
    cases v with
    | poll orders => exact hloop _ _ s hs
    | message m => simp only [Call.step]; split <;> exact hs
    | deadline => simp only [Call.step]; split <;> exact hs
    | cancel c => simp only [Call.step]; split <;> exact hs
    | connect r => exact hs
    | ready1 r => exact hs
    | ready2 r => exact hs
    | respond r => exact hs
    | close => exact hs
  have hrun : ∀ (vs : List (Ev M C E)) (s : Call M C E), (Cancellable s → s.canceller = true) →
      Cancellable (s.run cfg vs) → (s.run cfg vs).canceller = true := by
    intro vs
    induction vs with
    | nil => intro s hs; exact hs
    | cons v vs ih => intro s hs; exact ih _ (hstep s v hs)
  exact hrun vs {} (by rintro (h | h) <;> cases h) h

/-- A cancellation ends the call at the next poll, in whatever order the races are polled. -/
theorem C113_cancel (vs : List (Ev M C E)) (c : C) (orders : List Bool)
    (hp : Cancellable (Call.run cfg {} vs)) :
    Over ((Call.run cfg {} vs).run cfg [.cancel c, .poll orders]) := by
  have hc := C113_canceller cfg vs hp
  have hrun : (Call.run cfg {} vs).run cfg [.cancel c, .poll orders] =
      (Call.run cfg {} (vs ++ [.cancel c])).step cfg (.poll orders) := by
    simp [Call.run, List.foldl_append]
  have hs : (Call.run cfg {} (vs ++ [.cancel c])).signals ≠ [] := by
    have : Call.run cfg {} (vs ++ [.cancel c]) = (Call.run cfg {} vs).step cfg (.cancel c) := by
      simp [Call.run, List.foldl_append]
    rw [this]
    simp [Call.step, hc]
  have hp' : Cancellable (Call.run cfg {} (vs ++ [.cancel c])) := by
    have : Call.run cfg {} (vs ++ [.cancel c]) = (Call.run cfg {} vs).step cfg (.cancel c) := by
      simp [Call.run, List.foldl_append]
    rw [this]
    simp only [Call.step]
    split <;> exact hp
  have hpoll := C113_poll cfg (vs ++ [.cancel c]) orders
  have hf := loop_forward cfg ((Call.run cfg {} (vs ++ [.cancel c])).inbox.length + 5) orders _ hs
    (.inl hp')
  rw [hrun]
  rcases hpoll with h | h
  · exact h
  · exfalso
    generalize Call.run cfg {} (vs ++ [.cancel c]) = s at *
    change _ ∧ (s.step cfg (.poll orders)).signals ≠ [] at hf
    change (Cancellable (s.step cfg (.poll orders)) ∨ Over (s.step cfg (.poll orders))) ∧ _ at hf
    obtain ⟨(h1 | h1) | ⟨r, h1⟩, h2⟩ := hf
    · simp only [Waiting, h1] at h
      exact h2 h.2.1
    · simp only [Waiting, h1] at h
      exact h2 h.2.2.1
    · simp only [Waiting, h1] at h

/-- The timeout ends a call that waits under it, at the next poll, if nothing has come meanwhile.
What is missing is the time before: see `C113_unlimited`. -/
theorem C113_timeout_partial (vs : List (Ev M C E)) (orders : List Bool) (ht : cfg.timeout = true)
    (hp : (Call.run cfg {} vs).phase = .second ∨ Cancellable (Call.run cfg {} vs))
    (hw : Waiting cfg (Call.run cfg {} vs)) :
    ((Call.run cfg {} vs).run cfg [.deadline, .poll orders]).phase = .done (.error .timedOut) := by
  generalize Call.run cfg {} vs = s at *
  obtain hp | hp | hp := hp <;> simp only [Waiting, hp] at hw
  · simp [Call.run, Call.step, hp, Call.poll, Call.loop, Call.turn, hw, ht]
  · simp [Call.run, Call.step, hp, Call.poll, Call.loop, Call.turn, Call.idle, hw, ht]
  · simp [Call.run, Call.step, hp, Call.poll, Call.loop, Call.turn, Call.idle, hw, ht]

/-- While the connection is made, and while the client is waited for the first time, neither the
timeout nor a cancellation has an effect, whatever the configuration: the call does not end, and
there is no canceller. -/
theorem C113_unlimited (vs : List (Ev M C E))
    (h : (∀ r, Ev.connect r ∉ vs) ∨ ((∀ e, Ev.connect (.error e) ∉ vs) ∧ ∀ r, Ev.ready1 r ∉ vs)) :
    ((Call.run cfg {} vs).phase = .connecting ∨ (Call.run cfg {} vs).phase = .first) ∧
    (Call.run cfg {} vs).canceller = false := by
  have hinv : ∀ (vs : List (Ev M C E)) (s : Call M C E),
      ((∀ r, Ev.connect r ∉ vs) ∨ ((∀ e, Ev.connect (.error e) ∉ vs) ∧ ∀ r, Ev.ready1 r ∉ vs)) →
      (((∀ r, Ev.connect r ∉ vs) ∧ s.connected = none ∧ s.phase = .connecting) ∨
        ((∀ e, Ev.connect (.error e) ∉ vs) ∧ (∀ r, Ev.ready1 r ∉ vs) ∧ s.ready1 = none ∧
        (∀ e, s.connected ≠ some (.error e)) ∧ (s.phase = .connecting ∨ s.phase = .first))) →
      s.canceller = false →
      ((s.run cfg vs).phase = .connecting ∨ (s.run cfg vs).phase = .first) ∧
        (s.run cfg vs).canceller = false := by
    intro vs
    induction vs with
    | nil =>
      intro s _ h1 h2
      rcases h1 with h1 | h1
      · exact ⟨.inl h1.2.2, h2⟩
      · exact ⟨h1.2.2.2.2, h2⟩
    | cons v vs ih =>
      intro s hv h1 h2
      simp only [List.mem_cons, not_or] at hv h1
      suffices hx : (((∀ r, Ev.connect r ∉ vs) ∧ (s.step cfg v).connected = none ∧
          (s.step cfg v).phase = .connecting) ∨
          ((∀ e, Ev.connect (.error e) ∉ vs) ∧ (∀ r, Ev.ready1 r ∉ vs) ∧
          (s.step cfg v).ready1 = none ∧ (∀ e, (s.step cfg v).connected ≠ some (.error e)) ∧
          ((s.step cfg v).phase = .connecting ∨ (s.step cfg v).phase = .first))) ∧
          (s.step cfg v).canceller = false by
        refine ih _ ?_ hx.1 hx.2
        rcases hv with hv | hv
        · exact .inl fun r => (hv r).2
        · exact .inr ⟨fun e => (hv.1 e).2, fun r => (hv.2 r).2⟩
      rcases h1 with ⟨h1, h3, h4⟩ | ⟨h1, h3, h4, h5, h6⟩
      · have hv' : ∀ r, v ≠ .connect r := fun r => fun e => (h1 r).1 e.symm
        have h1' : ∀ r, Ev.connect r ∉ vs := fun r => (h1 r).2
        cases v with
        | connect r => exact absurd rfl (hv' r)
        | poll orders =>
          have : s.step cfg (.poll orders) = s := by
            simp [Call.step, Call.poll, Call.loop, Call.turn, h4, h3]
          rw [this]
          exact ⟨.inl ⟨h1', h3, h4⟩, h2⟩
        | message m =>
          simp only [Call.step]
          split <;> exact ⟨.inl ⟨h1', h3, h4⟩, h2⟩
        | deadline =>
          simp only [Call.step, h4]
          exact ⟨.inl ⟨h1', h3, trivial⟩, h2⟩
        | cancel c =>
          simp only [Call.step, h2]
          exact ⟨.inl ⟨h1', h3, h4⟩, by simp [h2]⟩
        | ready1 r => exact ⟨.inl ⟨h1', h3, h4⟩, h2⟩
        | ready2 r => exact ⟨.inl ⟨h1', h3, h4⟩, h2⟩
        | respond r => exact ⟨.inl ⟨h1', h3, h4⟩, h2⟩
        | close => exact ⟨.inl ⟨h1', h3, h4⟩, h2⟩
      · have h1' : ∀ e, Ev.connect (.error e) ∉ vs := fun r => (h1 r).2
        have h3' : ∀ r, Ev.ready1 r ∉ vs := fun r => (h3 r).2
        have hv' : ∀ r, v ≠ .ready1 r := fun r => fun e => (h3 r).1 e.symm
        cases v with
        | ready1 r => exact absurd rfl (hv' r)
        | connect r =>
          refine ⟨.inr ⟨h1', h3', h4, ?_, h6⟩, h2⟩
          intro e he
          simp only [Call.step] at he
          exact orElse_mem (P := fun r => r ≠ .error e) he (fun r hr hre => h5 e (by rw [hr, hre]))
            (fun hre => (h1 e).1 (by rw [hre])) rfl
        | poll orders =>
          have : (s.step cfg (.poll orders)).ready1 = none ∧
              (s.step cfg (.poll orders)).connected = s.connected ∧
              ((s.step cfg (.poll orders)).phase = .connecting ∨
                (s.step cfg (.poll orders)).phase = .first) ∧
              (s.step cfg (.poll orders)).canceller = false := by
            rcases h6 with h6 | h6
            · cases hc : s.connected with
              | none => simp [Call.step, Call.poll, Call.loop, Call.turn, h6, hc, h4, h2]
              | some r =>
                cases r with
                | error e => exact absurd hc (h5 e)
                | ok u => cases u; simp [Call.step, Call.poll, Call.loop, Call.turn, h6, hc, h4, h2]
            · simp [Call.step, Call.poll, Call.loop, Call.turn, h6, h4, h2]
          exact ⟨.inr ⟨h1', h3', this.1, by rw [this.2.1]; exact h5, this.2.2.1⟩, this.2.2.2⟩
        | message m =>
          simp only [Call.step]
          split <;> exact ⟨.inr ⟨h1', h3', h4, h5, h6⟩, h2⟩
        | deadline =>
          have : s.step cfg .deadline = s := by
            rcases h6 with h6 | h6 <;> simp [Call.step, h6]
          rw [this]
          exact ⟨.inr ⟨h1', h3', h4, h5, h6⟩, h2⟩
        | cancel c =>
          have : s.step cfg (.cancel c) = s := by simp [Call.step, h2]
          rw [this]
          exact ⟨.inr ⟨h1', h3', h4, h5, h6⟩, h2⟩
        | ready2 r => exact ⟨.inr ⟨h1', h3', h4, h5, h6⟩, h2⟩
        | respond r => exact ⟨.inr ⟨h1', h3', h4, h5, h6⟩, h2⟩
        | close => exact ⟨.inr ⟨h1', h3', h4, h5, h6⟩, h2⟩
  refine hinv vs {} h ?_ rfl
  rcases h with h | h
  · exact .inl ⟨h, rfl, rfl⟩
  · exact .inr ⟨h.1, h.2, rfl, nofun, .inl rfl⟩

/-- The timeout does not always end a call: here it has passed (again and again) while the client
was waited for. -/
theorem C113_timeout_violated :
    let s : Call Nat String String := Call.run ⟨true, true⟩ {}
      [.connect (.ok ()), .poll [], .deadline, .poll [], .deadline, .poll []]
    (s.phase matches .first) ∧ s.canceller = false := by decide

/-- A call with two messages of which the second comes while the first is passed on, and the same
cancelled, late and unary. -/
example :
    let start : List (Ev Nat String String) := [.connect (.ok ()), .ready1 (.ok ()), .ready2 (.ok ()),
      .respond (.ok ()), .poll [], .message (.ok 7), .poll [true], .message (.ok 8)]
    let s := Call.run ⟨true, true⟩ {} start
    (s.phase matches .receiving) ∧ s.outs = [7] ∧ s.canceller = true ∧
    (s.run ⟨true, true⟩ [.close, .poll []]).outs = [7, 8] ∧
    ((s.run ⟨true, true⟩ [.close, .poll []]).phase matches .done (.ok ())) ∧
    ((s.run ⟨true, true⟩ [.cancel "stop", .poll []]).phase
      matches .done (.error (.cancelled "stop"))) ∧
    (s.run ⟨true, true⟩ [.cancel "stop", .poll []]).outs = [7, 8] ∧
    (s.run ⟨true, true⟩ [.cancel "stop", .poll [true]]).outs = [7] ∧
    ((s.run ⟨true, true⟩ [.poll [], .deadline, .poll [true]]).phase
      matches .done (.error .timedOut)) ∧
    (Call.run ⟨true, false⟩ {} start).outs = [7] ∧
    ((Call.run ⟨true, false⟩ {} start).phase matches .done (.ok ())) := by decide

end Verif.Grpc
