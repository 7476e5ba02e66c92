import Verif.Many.Spec
import Verif.Many.Steps

/-
Helper lemmas for C117: whole runs.
-/
namespace Verif.Many

open Flow (Net Kind Status State Choice Wired)

/-- From a state in which session `x` is where `s` is, whatever happens in the workflow leads `x`
to where its own events lead it alone. -/
theorem at_run {net : Net} (hw : Wired net) (x : Nat) (es : List Ev) :
    ∀ {W : Multi} {s : State}, At W x s → At (run net W es) x (Flow.run net s (mine net x W es)) := by
  induction es with
  | nil => exact fun h => h
  | cons e es ih =>
    intro W s h
    have hx : W.status x ≠ none := by rw [h.1]; simp
    have h1 := ih (at_step hw h e)
    have e1 : mine net x W (e :: es) =
        (concerns x W e).toList ++ mine net x (step net W e) es := by
      simp only [mine]
      rw [if_neg hx]
    rw [e1]
    show At (run net (step net W e) es) x _
    rw [Flow.run, List.foldl_append]
    exact h1

theorem fresh_at {net : Net} (hw : Wired net) (x : Nat) (es : List Ev) :
    ∀ {W : Multi}, Fresh net W → W.status x = none → (run net W es).status x ≠ none →
      At (run net W es) x (Flow.run net (Flow.start net) (mine net x W es)) := by
  induction es with
  | nil => exact fun _ h h' => absurd h h'
  | cons e es ih =>
    intro W hf hx hend
    have e1 : mine net x W (e :: es) = mine net x (step net W e) es := by
      simp only [mine]
      rw [if_pos hx, List.nil_append]
    rw [e1]
    by_cases hs : (step net W e).status x = none
    · exact ih (fresh_step hw hf e) hs hend
    · have hstart : e = .start x := by
        rcases step_cases hw W e with ⟨y, e', hc, hsim⟩ | ⟨_, h | ⟨y, rfl, hy⟩ | ⟨y, rfl⟩⟩
        · exfalso
          by_cases hyx : x = y
          · subst hyx
            rw [unborn hf hx (by rw [hc x, if_pos rfl])] at hs
            exact hs hx
          · rw [(hsim.others x hyx).2] at hs
            exact hs hx
        · rw [h] at hs; exact absurd hx hs
        · by_cases hyx : x = y
          · rw [hyx]
          · have he : step net W (.start y) = begin net W y := by
              simp only [step]; rw [if_pos hy]
            rw [he, (begin_apart hw W y x hyx).2] at hs
            exact absurd hx hs
        · rw [(clean_self net W y).1] at hs
          exact absurd hx hs
      subst hstart
      have he : step net W (.start x) = begin net W x := by
        simp only [step]; rw [if_pos hx]
      have hb := begin_spec hw hf hx
      refine at_run hw x es ?_
      rw [he]
      exact ⟨hb.2.2.1, fun _ => hb.2.1⟩

/-! ### A session is not held up by the others -/

/-- Messages that wait are not lost or overtaken. -/
def Grows (W W' : Multi) : Prop := ∀ n, ∃ more, W'.queue n = W.queue n ++ more

theorem Grows.rfl' (W : Multi) : Grows W W := fun _ => ⟨[], by simp⟩

theorem Grows.same {W W' : Multi} (h : W'.queue = W.queue) : Grows W W' :=
  fun n => ⟨[], by simp [h]⟩

theorem Grows.trans {W W' W'' : Multi} (h1 : Grows W W') (h2 : Grows W' W'') : Grows W W'' := by
  intro n
  obtain ⟨m1, e1⟩ := h1 n
  obtain ⟨m2, e2⟩ := h2 n
  exact ⟨m1 ++ m2, by rw [e2, e1, List.append_assoc]⟩

theorem Grows.give {net : Net} (x : Nat) (W : Multi) (m : Nat) : Grows W (give net x W m) := by
  unfold Many.give
  split
  · exact Grows.same rfl
  · exact Grows.rfl' W
  · split
    · intro n
      by_cases h : n = m
      · subst h; exact ⟨[x], by simp [setAt]⟩
      · exact ⟨[], by simp [setAt, h]⟩
    · exact Grows.rfl' W

theorem Grows.giveAll {net : Net} (x : Nat) (ms : List Nat) :
    ∀ W : Multi, Grows W (giveAll net x W ms) := by
  induction ms with
  | nil => exact Grows.rfl'
  | cons m ms ih => exact fun W => (Grows.give x W m).trans (ih _)

theorem Grows.actGate {net : Net} (x : Nat) (o : Bool) (W : Multi) (b : Nat) :
    Grows W (actGate net x o W b) := by
  unfold Many.actGate
  simp only
  split
  · exact Grows.trans (W' := setGate W x b o) (Grows.same rfl) (Grows.giveAll x _ _)
  · exact Grows.same rfl

theorem Grows.actGates {net : Net} (x : Nat) (o : Bool) (bs : List Nat) :
    ∀ W : Multi, Grows W (bs.foldl (Many.actGate net x o) W) := by
  induction bs with
  | nil => exact Grows.rfl'
  | cons b bs ih => exact fun W => (Grows.actGate x o W b).trans (ih _)

theorem Grows.finish (W : Multi) (x : Nat) (st : Status) : Grows W (W.finish x st) := by
  unfold Multi.finish
  split
  · exact Grows.same rfl
  · exact Grows.rfl' W

theorem Grows.execute {net : Net} (W : Multi) (x n : Nat) (c : Choice) (k : Kind) :
    Grows W (execute net W x n c k) := by
  cases k with
  | node async t ss =>
    unfold Many.execute
    cases async with
    | true => exact Grows.same rfl
    | false =>
      simp only [Bool.false_eq_true, if_false]
      refine Grows.trans (W' := if Flow.misses ss c then
        dispose (Many.giveAll net x W (Flow.copies ss c)) x
        else Many.giveAll net x W (Flow.copies ss c)) ?_ (Grows.give x _ t)
      split
      · exact (Grows.giveAll x _ W).trans (Grows.same rfl)
      · exact Grows.giveAll x _ W
  | fork ts => exact Grows.giveAll x ts W
  | branch a b =>
    simp only [Many.execute]
    split
    · exact (Grows.give x W a).trans (Grows.same rfl)
    · exact Grows.trans (W' := dispose W x) (Grows.same rfl) (Grows.give x _ b)
  | filter t =>
    simp only [Many.execute]
    split
    · exact Grows.same rfl
    · exact Grows.give x W t
  | spread t =>
    simp only [Many.execute]
    split
    · exact (Grows.giveAll x _ W).trans (Grows.same rfl)
    · exact Grows.giveAll x _ W
  | split ts =>
    simp only [Many.execute]
    split
    · exact (Grows.giveAll x _ W).trans (Grows.same rfl)
    · exact Grows.giveAll x _ W
  | buffer cap =>
    simp only [Many.execute]
    split
    · exact Grows.trans (W' := { W with held := _ }) (Grows.same rfl) (Grows.giveAll x _ _)
    · exact Grows.same rfl
  | join bs t =>
    simp only [Many.execute]
    split
    · exact Grows.trans (W' := { W with held := _ }) (Grows.same rfl) (Grows.give x _ t)
    · exact Grows.rfl' W
  | scope t ss => exact Grows.same rfl
  | access l bs t =>
    exact Grows.trans (W' := { W with keys := _, made := _ }) (Grows.same rfl) (Grows.give x _ t)
  | gate o bs t =>
    simp only [Many.execute]
    split
    · exact (Grows.actGates x o bs W).trans (Grows.give x _ t)
    · exact ((Grows.actGates x o bs W).trans (Grows.give x _ t)).trans (Grows.same rfl)
  | cancel => exact Grows.finish W x _
  | terminate => exact Grows.finish W x _
  | unused => exact Grows.rfl' W

theorem reach_exec {net : Net} (hw : Wired net) {x n : Nat} {k : Kind}
    (hk : net.ops.lookup n = some k) (c : Choice) (pre : List Nat) :
    ∀ {W : Multi} {post : List Nat} {s : State}, At W x s → x ∉ pre →
      W.queue n = pre ++ x :: post →
      ∃ es, At (run net W es) x (Flow.step net s (.exec n c)) := by
  induction pre with
  | nil =>
    intro W post s hat _ hq
    have hq : W.queue n = x :: post := hq
    refine ⟨[.exec n c], ?_⟩
    have := at_step hw hat (.exec n c)
    simp only [concerns, hq, List.head?_cons, if_true] at this
    exact this
  | cons y pre ih =>
    intro W post s hat hnot hq
    have hq : W.queue n = y :: (pre ++ x :: post) := hq
    have hxy : x ≠ y := fun h => hnot (by rw [h]; exact List.mem_cons_self)
    have h1 := at_step hw hat (.exec n [])
    have hc : concerns x W (.exec n []) = none := by
      simp only [concerns, hq, List.head?_cons, Option.some.injEq, if_neg (Ne.symm hxy)]
    rw [hc] at h1
    have hstep : step net W (.exec n []) =
        execute net { W with queue := setAt W.queue n (pre ++ x :: post) } y n [] k := by
      simp only [step, hk, hq]
    obtain ⟨more, hm⟩ := Grows.execute (net := net)
      { W with queue := setAt W.queue n (pre ++ x :: post) } y n [] k n
    rw [← hstep] at hm
    have hm : (step net W (.exec n [])).queue n = pre ++ x :: (post ++ more) := by
      rw [hm]; simp [setAt]
    obtain ⟨es, hes⟩ := ih (s := s) h1 (fun h => hnot (List.mem_cons_of_mem _ h)) hm
    exact ⟨.exec n [] :: es, hes⟩

theorem validate_disposed (net : Net) (W : Multi) (x : Nat) :
    (validate net W x).1.disposed = W.disposed := by
  unfold validate
  split
  · rfl
  · unfold Multi.finish; simp only; split <;> rfl
  · rfl

theorem reach_check {net : Net} (hw : Wired net) {x : Nat} (pre : List Nat) :
    ∀ {W : Multi} {post : List Nat} {s : State}, At W x s → x ∉ pre →
      W.disposed = pre ++ x :: post →
      ∃ es, At (run net W es) x (Flow.step net s .check) := by
  induction pre with
  | nil =>
    intro W post s hat _ hq
    have hq : W.disposed = x :: post := hq
    refine ⟨[.check], ?_⟩
    have := at_step hw hat .check
    simp only [concerns, hq, List.head?_cons, if_true] at this
    exact this
  | cons y pre ih =>
    intro W post s hat hnot hq
    have hq : W.disposed = y :: (pre ++ x :: post) := hq
    have hxy : x ≠ y := fun h => hnot (by rw [h]; exact List.mem_cons_self)
    have h1 := at_step hw hat .check
    have hc : concerns x W .check = none := by
      simp only [concerns, hq, List.head?_cons, Option.some.injEq, if_neg (Ne.symm hxy)]
    rw [hc] at h1
    have hm : (step net W .check).disposed = pre ++ x :: post := by
      simp only [step, hq]
      rw [validate_disposed]
    obtain ⟨es, hes⟩ := ih (s := s) h1 (fun h => hnot (List.mem_cons_of_mem _ h)) hm
    exact ⟨.check :: es, hes⟩

theorem mem_split {x : Nat} {l : List Nat} (h : x ∈ l) :
    ∃ pre post, l = pre ++ x :: post ∧ x ∉ pre := by
  induction l with
  | nil => cases h
  | cons y l ih =>
    by_cases hy : x = y
    · exact ⟨[], l, by rw [hy]; rfl, by simp⟩
    · rcases List.mem_cons.mp h with h | h
      · exact absurd h hy
      · obtain ⟨pre, post, e, hn⟩ := ih h
        exact ⟨y :: pre, post, by rw [e]; rfl, by
          intro hm
          rcases List.mem_cons.mp hm with h | h
          · exact hy h
          · exact hn h⟩

theorem reach_step {net : Net} (hw : Wired net) {x : Nat} {W : Multi} {s : State} (hat : At W x s)
    (e : Flow.Ev) : ∃ es, At (run net W es) x (Flow.step net s e) := by
  by_cases ha : s.status = .active
  · have hof := hat.2 ha
    have one : ∀ e' : Ev, concerns x W e' = some e →
        ∃ es, At (run net W es) x (Flow.step net s e) := by
      intro e' h
      refine ⟨[e'], ?_⟩
      have := at_step hw hat e'
      rw [h] at this
      exact this
    cases e with
    | exec n c =>
      cases hk : net.ops.lookup n with
      | none =>
        refine ⟨[], ?_⟩
        have : Flow.step net s (.exec n c) = s := by
          unfold Flow.step
          rw [if_neg (fun h => h ha)]
          simp only [hk]
        rw [this]
        exact hat
      | some k =>
        by_cases hp : x ∈ W.queue n
        · obtain ⟨pre, post, e, hn⟩ := mem_split hp
          exact reach_exec hw hk c pre hat hn e
        · refine ⟨[], ?_⟩
          have h0 : s.pending n = 0 := by
            rw [← hof]; exact List.count_eq_zero.mpr hp
          have : Flow.step net s (.exec n c) = s := by
            unfold Flow.step
            rw [if_neg (fun h => h ha)]
            simp only [hk, h0, if_true]
          rw [this]
          exact hat
    | check =>
      by_cases hp : x ∈ W.disposed
      · obtain ⟨pre, post, e, hn⟩ := mem_split hp
        exact reach_check hw pre hat hn e
      · refine ⟨[], ?_⟩
        have h0 : s.checks = 0 := by
          rw [← hof]; exact List.count_eq_zero.mpr hp
        have : Flow.step net s .check = s := by
          unfold Flow.step
          rw [if_neg (fun h => h ha)]
          simp only [h0, if_true]
        rw [this]
        exact hat
    | item n i => exact one (.item x n i) (by simp [concerns])
    | finish n => exact one (.finish x n) (by simp [concerns])
    | lose n => exact one (.lose x n) (by simp [concerns])
    | innerCancel n => exact one (.innerCancel x n) (by simp [concerns])
    | touch n b sub add l => exact one (.touch x n b sub add l) (by simp [concerns])
    | turn n b o l => exact one (.turn x n b o l) (by simp [concerns])
    | release n => exact one (.release x n) (by simp [concerns])
    | letGo n => exact one (.letGo x n) (by simp [concerns])
    | gone n => exact one (.gone x n) (by simp [concerns])
  · exact ⟨[], by rw [Flow.step_ended e ha]; exact hat⟩

theorem reach_run {net : Net} (hw : Wired net) {x : Nat} (fs : List Flow.Ev) :
    ∀ {W : Multi} {s : State}, At W x s → ∃ es, At (run net W es) x (Flow.run net s fs) := by
  induction fs with
  | nil => exact fun h => ⟨[], h⟩
  | cons f fs ih =>
    intro W s h
    obtain ⟨es, hes⟩ := reach_step hw h f
    obtain ⟨es', hes'⟩ := ih hes
    refine ⟨es ++ es', ?_⟩
    rw [run, List.foldl_append]
    exact hes'

theorem mine_calm {net : Net} {x : Nat} (es : List Ev) :
    ∀ {W : Multi}, (∀ e, e ∈ es → Calm net e) →
      ∀ e', e' ∈ mine net x W es → Flow.Calm net e' := by
  induction es with
  | nil => intro W _ e' h; simp [mine] at h
  | cons e es ih =>
    intro W hc e' h
    simp only [mine, List.mem_append] at h
    rcases h with h | h
    · split at h
      · cases h
      · have h : concerns x W e = some e' := by simpa [Option.mem_toList] using h
        have he := hc e List.mem_cons_self
        cases e <;> simp only [concerns] at h <;> try (split at h)
        all_goals first
          | cases h
          | skip
        all_goals first
          | trivial
          | exact he
    · exact ih (fun e he => hc e (List.mem_cons_of_mem _ he)) e' h

end Verif.Many
