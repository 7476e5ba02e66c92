import Verif.Inject.Spec

/- Helper lemmas: bookkeeping of tasks and finish nodes. -/
namespace Verif.Inject

/-- What the cleanup of a task leaves alone. -/
structure Same (st st' : State) : Prop where
  inputs : st'.inputs = st.inputs
  list : st'.list = st.list
  waiting : st'.waiting = st.waiting
  next : st'.next = st.next
  inactive : st'.inactive = st.inactive
  out : st'.out = st.out
  awaiting : st'.awaiting = st.awaiting
  asked : st'.asked = st.asked
  notified : st'.notified = st.notified
  broken : st'.broken = st.broken
  working : List.Sublist st'.working st.working

theorem Same.refl (st : State) : Same st st :=
  ⟨rfl, rfl, rfl, rfl, rfl, rfl, rfl, rfl, rfl, rfl, List.Sublist.refl _⟩

theorem Same.trans {a b c : State} (h : Same a b) (k : Same b c) : Same a c :=
  ⟨k.inputs.trans h.inputs, k.list.trans h.list, k.waiting.trans h.waiting, k.next.trans h.next,
    k.inactive.trans h.inactive, k.out.trans h.out, k.awaiting.trans h.awaiting,
    k.asked.trans h.asked, k.notified.trans h.notified, k.broken.trans h.broken,
    k.working.trans h.working⟩

theorem same_notifyCleaned (st : State) (id t : Nat) : Same st (st.notifyCleaned id t) := by
  unfold State.notifyCleaned
  split
  · exact Same.refl st
  · simp only
    split <;> exact ⟨rfl, rfl, rfl, rfl, rfl, rfl, rfl, rfl, rfl, rfl, List.Sublist.refl _⟩

theorem same_cleaned (st : State) (id t : Nat) : Same st (st.cleaned id t) := by
  unfold State.cleaned
  split
  · exact Same.trans (b := { st with working := st.working.filter fun w => w.task ≠ t })
      ⟨rfl, rfl, rfl, rfl, rfl, rfl, rfl, rfl, rfl, rfl, List.filter_sublist⟩
      (same_notifyCleaned _ _ _)
  · exact Same.refl st

theorem same_fold (id : Nat) (ns : List Nat) : ∀ st : State,
    Same st (ns.foldl (fun st n => st.cleaned id n) st) := by
  induction ns with
  | nil => intro st; exact Same.refl st
  | cons n ns ih => intro st; exact (same_cleaned st id n).trans (ih _)

structure Inv (st : State) : Prop where
  tf : ∀ w, w ∈ st.working → w.task = w.finish + 1
  ltW : ∀ w, w ∈ st.working → w.finish < st.next
  ltQ : ∀ q, q ∈ st.waiting → q.1 < st.next
  ltL : ∀ i, i ∈ st.list → i.finish < st.next
  ndW : (st.working.map (·.finish)).Nodup
  ndQ : (st.waiting.map (·.1)).Nodup
  dis : ∀ w, w ∈ st.working → ∀ q, q ∈ st.waiting → w.finish ≠ q.1

/-- The session has not been touched by cleanups. -/
structure Good (st : State) (s : Nat) : Prop where
  active : s ∉ st.inactive
  work : ∀ w, w ∈ st.working → w.session = s → ∃ i, i ∈ st.list ∧ i.finish = w.finish ∧ i.session = s
  wait : ∀ q, q ∈ st.waiting → q.2.1 = s → ∃ i, i ∈ st.list ∧ i.finish = q.1 ∧ i.session = s

theorem inv_init : Inv {} := by
  constructor <;> simp

theorem good_init (s : Nat) : Good {} s := by
  constructor <;> simp

/-- Dropping work keeps the bookkeeping. -/
theorem Inv.less {st st' : State} (i : Inv st) (hw : List.Sublist st'.working st.working)
    (hq : List.Sublist st'.waiting st.waiting) (hl : List.Sublist st'.list st.list)
    (hn : st'.next = st.next) : Inv st' where
  tf := fun w h => i.tf w (hw.subset h)
  ltW := fun w h => hn ▸ i.ltW w (hw.subset h)
  ltQ := fun q h => hn ▸ i.ltQ q (hq.subset h)
  ltL := fun q h => hn ▸ i.ltL q (hl.subset h)
  ndW := i.ndW.sublist (hw.map _)
  ndQ := i.ndQ.sublist (hq.map _)
  dis := fun w h q h' => i.dis w (hw.subset h) q (hq.subset h')

theorem Inv.same {st st' : State} (i : Inv st) (h : Same st st') : Inv st' :=
  i.less h.working (h.waiting ▸ List.Sublist.refl _) (h.list ▸ List.Sublist.refl _) h.next

theorem Good.less {st st' : State} {s : Nat} (g : Good st s)
    (hw : List.Sublist st'.working st.working)
    (hq : List.Sublist st'.waiting st.waiting) (hl : st'.list = st.list)
    (hi : st'.inactive = st.inactive) : Good st' s where
  active := hi ▸ g.active
  work := fun w h e => hl ▸ g.work w (hw.subset h) e
  wait := fun q h e => hl ▸ g.wait q (hq.subset h) e

/-- The state of a cleanup before the tasks are told. -/
def begun (st : State) (session id : Nat) : State :=
  { st with
    inputs := st.inputs.filter fun i => i.1 ≠ session
    list := st.list.filter fun i => i.session ≠ session
    contents := (st.contents.filter fun c => c.1 ≠ id) ++
      [(id, (st.list.filter fun i => i.session = session).map (·.task))]
    awaiting := (st.awaiting.filter fun i => i ≠ id) ++ [id]
    asked := st.asked ++
      ((st.list.filter fun i => i.session = session).map (·.task)).map fun n => (id, n) }

theorem cleanup_eq (st : State) (session id : Nat) (now : List Nat) :
    st.cleanup session id now =
      if ((st.list.filter fun i => i.session = session).map (·.task)).isEmpty then
        { st with
          inputs := st.inputs.filter fun i => i.1 ≠ session
          list := st.list.filter fun i => i.session ≠ session
          notified := st.notified ++ [id] }
      else (((st.list.filter fun i => i.session = session).map (·.task)).filter fun n => n ∈ now).foldl
        (fun st n => st.cleaned id n) (begun st session id) := rfl

theorem cleanup_parts (st : State) (session id : Nat) (now : List Nat) :
    (st.cleanup session id now).inputs = (st.inputs.filter fun i => i.1 ≠ session) ∧
    (st.cleanup session id now).list = (st.list.filter fun i => i.session ≠ session) ∧
    (st.cleanup session id now).waiting = st.waiting ∧
    (st.cleanup session id now).next = st.next ∧
    (st.cleanup session id now).inactive = st.inactive ∧
    (st.cleanup session id now).out = st.out ∧
    List.Sublist (st.cleanup session id now).working st.working := by
  rw [cleanup_eq]
  split
  · exact ⟨rfl, rfl, rfl, rfl, rfl, rfl, List.Sublist.refl _⟩
  · have h := same_fold id
      (((st.list.filter fun i => i.session = session).map (·.task)).filter fun n => n ∈ now)
      (begun st session id)
    exact ⟨h.inputs, h.list, h.waiting, h.next, h.inactive, h.out, h.working⟩

theorem finalize_parts (st : State) : st.finalize.inputs = st.inputs ∧
    st.finalize.list = st.list ∧ st.finalize.waiting = st.waiting ∧
    st.finalize.next = st.next ∧ st.finalize.inactive = st.inactive ∧
    st.finalize.out = st.out ∧ st.finalize.working = st.working := by
  unfold State.finalize
  split
  · exact ⟨rfl, rfl, rfl, rfl, rfl, rfl, rfl⟩
  · simp only
    split <;> exact ⟨rfl, rfl, rfl, rfl, rfl, rfl, rfl⟩

theorem find_mem {α : Type} {p : α → Bool} {xs : List α} {x : α} (h : xs.find? p = some x) :
    x ∈ xs ∧ p x = true := ⟨List.mem_of_find?_eq_some h, List.find?_some h⟩

theorem nodup_key {α : Type} {f : α → Nat} {xs : List α} (h : (xs.map f).Nodup) {x y : α}
    (hx : x ∈ xs) (hy : y ∈ xs) (e : f x = f y) : x = y := by
  induction xs with
  | nil => cases hx
  | cons a xs ih =>
    simp only [List.map_cons, List.nodup_cons, List.mem_map, not_exists, not_and] at h
    rcases List.mem_cons.1 hx with hx' | hx'
    · rcases List.mem_cons.1 hy with hy' | hy'
      · rw [hx', hy']
      · exact absurd (hx' ▸ e.symm) (h.1 y hy')
    · rcases List.mem_cons.1 hy with hy' | hy'
      · exact absurd (hy' ▸ e) (h.1 x hx')
      · exact ih h.2 hx' hy'

theorem nodup_snoc {α : Type} {xs : List α} {x : α} (h : xs.Nodup) (hx : x ∉ xs) :
    (xs ++ [x]).Nodup := by
  rw [List.nodup_append]
  refine ⟨h, by simp, ?_⟩
  intro a ha b hb e
  simp at hb
  exact hx (hb ▸ e ▸ ha)

/-- The two outcomes of an answer. -/
theorem respond_cases (st : State) (t d : Nat) :
    (st.working.find? (fun w => w.task = t) = none ∧ st.respond t d = st) ∨
    ∃ w, w ∈ st.working ∧ w.task = t ∧
      ((w.session ∈ st.inactive ∧
          st.respond t d = { st with working := st.working.filter fun w => w.task ≠ t }) ∨
       (w.session ∉ st.inactive ∧ st.respond t d =
          { st with working := st.working.filter fun w => w.task ≠ t
                    waiting := st.waiting ++ [(w.finish, w.session, d)] })) := by
  cases hf : st.working.find? fun w => w.task = t with
  | none => exact .inl ⟨rfl, by simp [State.respond, hf]⟩
  | some w =>
    obtain ⟨hm, ht⟩ := find_mem hf
    refine .inr ⟨w, hm, by simpa using ht, ?_⟩
    by_cases ha : w.session ∈ st.inactive
    · exact .inl ⟨ha, by simp [State.respond, hf, ha]⟩
    · exact .inr ⟨ha, by simp [State.respond, hf, ha]⟩

/-- The outcomes of a finish node. -/
theorem finish_cases (st : State) (f : Nat) :
    (st.finish f = st) ∨
    ∃ s d, (f, s, d) ∈ st.waiting ∧
      (((∀ i, i ∈ st.list → i.finish ≠ f) ∧ st.finish f =
          { st with waiting := st.waiting.filter fun w => w.1 ≠ f, broken := st.broken + 1 }) ∨
       (s ∈ st.inactive ∧ st.finish f =
          { st with waiting := st.waiting.filter fun w => w.1 ≠ f
                    list := st.list.filter fun i => i.finish ≠ f }) ∨
       (s ∉ st.inactive ∧ st.finish f =
          { st with waiting := st.waiting.filter fun w => w.1 ≠ f
                    list := st.list.filter fun i => i.finish ≠ f
                    out := st.out ++ [(s, d)] })) := by
  cases hf : st.waiting.find? fun w => w.1 = f with
  | none => exact .inl (by simp [State.finish, hf])
  | some q =>
    obtain ⟨g, s, d⟩ := q
    obtain ⟨hm, hg⟩ := find_mem hf
    simp only [decide_eq_true_eq] at hg
    subst hg
    refine .inr ⟨s, d, hm, ?_⟩
    cases hl : st.list.find? fun i => i.finish = g with
    | none =>
      left
      refine ⟨?_, by simp [State.finish, hf, hl]⟩
      intro i hi e
      rw [List.find?_eq_none] at hl
      exact hl i hi (by simpa using e)
    | some i =>
      right
      by_cases ha : s ∈ st.inactive
      · exact .inl ⟨ha, by simp [State.finish, hf, hl, ha]⟩
      · exact .inr ⟨ha, by simp [State.finish, hf, hl, ha]⟩

theorem step_inv {st : State} (i : Inv st) (op : Op) : Inv (st.step op) := by
  cases op with
  | input s r =>
    simp only [State.step]
    split
    · exact i
    · exact i.less (List.Sublist.refl _) (List.Sublist.refl _) (List.Sublist.refl _) rfl
  | execute =>
    show Inv st.execute
    unfold State.execute
    split
    · exact i
    · constructor
      · intro w hw
        rcases List.mem_append.1 hw with hw | hw
        · exact i.tf w hw
        · simp at hw; subst hw; rfl
      · intro w hw
        rcases List.mem_append.1 hw with hw | hw
        · have := i.ltW w hw; show w.finish < st.next + 2; omega
        · simp at hw; subst hw; show st.next < st.next + 2; omega
      · intro q hq
        have := i.ltQ q hq; show q.1 < st.next + 2; omega
      · intro j hj
        rcases List.mem_append.1 hj with hj | hj
        · have := i.ltL j hj; show j.finish < st.next + 2; omega
        · simp at hj; subst hj; show st.next < st.next + 2; omega
      · simp only [List.map_append, List.map_cons, List.map_nil]
        apply nodup_snoc i.ndW
        intro hm
        obtain ⟨w, hw, e⟩ := List.mem_map.1 hm
        have := i.ltW w hw; omega
      · exact i.ndQ
      · intro w hw q hq
        rcases List.mem_append.1 hw with hw | hw
        · exact i.dis w hw q hq
        · simp at hw; subst hw
          have := i.ltQ q hq
          intro e; simp only at e; omega
  | respond t d =>
    show Inv (st.respond t d)
    rcases respond_cases st t d with ⟨_, e⟩ | ⟨w, hw, ht, ⟨_, e⟩ | ⟨_, e⟩⟩
    · rw [e]; exact i
    · rw [e]; exact i.less List.filter_sublist (List.Sublist.refl _) (List.Sublist.refl _) rfl
    · rw [e]
      constructor
      · intro v hv; exact i.tf v (List.mem_filter.1 hv).1
      · intro v hv; exact i.ltW v (List.mem_filter.1 hv).1
      · intro q hq
        rcases List.mem_append.1 hq with hq | hq
        · exact i.ltQ q hq
        · simp at hq; subst hq; exact i.ltW w hw
      · exact i.ltL
      · exact i.ndW.sublist (List.filter_sublist.map _)
      · simp only [List.map_append, List.map_cons, List.map_nil]
        apply nodup_snoc i.ndQ
        intro hm
        obtain ⟨q, hq, e⟩ := List.mem_map.1 hm
        exact i.dis w hw q hq e.symm
      · intro v hv q hq
        obtain ⟨hv1, hv2⟩ := List.mem_filter.1 hv
        rcases List.mem_append.1 hq with hq | hq
        · exact i.dis v hv1 q hq
        · simp at hq; subst hq
          intro e
          have := nodup_key i.ndW hv1 hw e
          subst this
          simp [ht] at hv2
  | dispose t =>
    exact i.less List.filter_sublist (List.Sublist.refl _) (List.Sublist.refl _) rfl
  | finish f =>
    show Inv (st.finish f)
    rcases finish_cases st f with e | ⟨s, d, hq, ⟨_, e⟩ | ⟨_, e⟩ | ⟨_, e⟩⟩
    · rw [e]; exact i
    · rw [e]; exact i.less (List.Sublist.refl _) List.filter_sublist (List.Sublist.refl _) rfl
    · rw [e]; exact i.less (List.Sublist.refl _) List.filter_sublist List.filter_sublist rfl
    · rw [e]; exact i.less (List.Sublist.refl _) List.filter_sublist List.filter_sublist rfl
  | cleanup s id now =>
    obtain ⟨_, h2, h3, h4, _, _, h7⟩ := cleanup_parts st s id now
    exact i.less h7 (h3 ▸ List.Sublist.refl _) (h2 ▸ List.filter_sublist) h4
  | cleaned id t => exact i.same (same_cleaned st id t)
  | finalize =>
    obtain ⟨_, h2, h3, h4, _, _, h7⟩ := finalize_parts st
    exact i.less (h7 ▸ List.Sublist.refl _) (h3 ▸ List.Sublist.refl _) (h2 ▸ List.Sublist.refl _) h4
  | stop s => exact i.less (List.Sublist.refl _) (List.Sublist.refl _) (List.Sublist.refl _) rfl

theorem step_good {st : State} (i : Inv st) {s : Nat} (g : Good st s) (op : Op)
    (h1 : ∀ id now, op ≠ .cleanup s id now) (h2 : op ≠ .stop s) : Good (st.step op) s := by
  cases op with
  | input s r =>
    simp only [State.step]
    split
    · exact g
    · exact g.less (List.Sublist.refl _) (List.Sublist.refl _) rfl rfl
  | execute =>
    show Good st.execute s
    unfold State.execute
    split
    · exact g
    · constructor
      · exact g.active
      · intro w hw e
        rcases List.mem_append.1 hw with hw | hw
        · obtain ⟨j, hj, hr⟩ := g.work w hw e
          exact ⟨j, by simp [hj], hr⟩
        · simp at hw; subst hw
          exact ⟨⟨_, st.next + 1, st.next⟩, by simp, rfl, e⟩
      · intro q hq e
        obtain ⟨j, hj, hr⟩ := g.wait q hq e
        exact ⟨j, by simp [hj], hr⟩
  | respond t d =>
    show Good (st.respond t d) s
    rcases respond_cases st t d with ⟨_, e⟩ | ⟨w, hw, ht, ⟨_, e⟩ | ⟨_, e⟩⟩
    · rw [e]; exact g
    · rw [e]; exact g.less List.filter_sublist (List.Sublist.refl _) rfl rfl
    · rw [e]
      constructor
      · exact g.active
      · intro v hv e; exact g.work v (List.mem_filter.1 hv).1 e
      · intro q hq e
        rcases List.mem_append.1 hq with hq | hq
        · exact g.wait q hq e
        · simp at hq; subst hq; exact g.work w hw e
  | dispose t => exact g.less List.filter_sublist (List.Sublist.refl _) rfl rfl
  | finish f =>
    show Good (st.finish f) s
    have key : ∀ s' d, (f, s', d) ∈ st.waiting → ∀ st' : State, st'.inactive = st.inactive →
        st'.working = st.working → st'.waiting = st.waiting.filter (fun w => w.1 ≠ f) →
        st'.list = st.list.filter (fun i => i.finish ≠ f) → Good st' s := by
      intro s' d hq st' e1 e2 e3 e4
      constructor
      · exact e1 ▸ g.active
      · intro w hw e
        rw [e2] at hw
        obtain ⟨j, hj, hf, hr⟩ := g.work w hw e
        refine ⟨j, ?_, hf, hr⟩
        rw [e4, List.mem_filter]
        refine ⟨hj, ?_⟩
        have := i.dis w hw _ hq
        simp only [ne_eq] at this
        simp [hf, this]
      · intro q hq' e
        rw [e3, List.mem_filter] at hq'
        obtain ⟨j, hj, hf, hr⟩ := g.wait q hq'.1 e
        refine ⟨j, ?_, hf, hr⟩
        rw [e4, List.mem_filter]
        exact ⟨hj, by simpa [hf] using hq'.2⟩
    rcases finish_cases st f with e | ⟨s', d, hq, ⟨hno, e⟩ | ⟨_, e⟩ | ⟨_, e⟩⟩
    · rw [e]; exact g
    · rw [e]; exact g.less (List.Sublist.refl _) List.filter_sublist rfl rfl
    · rw [e]; exact key s' d hq _ rfl rfl rfl rfl
    · rw [e]; exact key s' d hq _ rfl rfl rfl rfl
  | cleanup s' id now =>
    obtain ⟨_, e2, e3, _, e5, _, e7⟩ := cleanup_parts st s' id now
    have hne : s' ≠ s := by rintro rfl; exact h1 id now rfl
    have keep : ∀ j : Injected, j ∈ st.list → j.session = s →
        j ∈ (st.cleanup s' id now).list := by
      intro j hj hs
      rw [e2, List.mem_filter]
      have : s ≠ s' := fun e => hne e.symm
      exact ⟨hj, by simp [hs, this]⟩
    constructor
    · show s ∉ (st.cleanup s' id now).inactive
      rw [e5]; exact g.active
    · intro w hw e
      obtain ⟨j, hj, hf, hr⟩ := g.work w (e7.subset hw) e
      exact ⟨j, keep j hj hr, hf, hr⟩
    · intro q hq e
      change q ∈ (st.cleanup s' id now).waiting at hq
      rw [e3] at hq
      obtain ⟨j, hj, hf, hr⟩ := g.wait q hq e
      exact ⟨j, keep j hj hr, hf, hr⟩
  | cleaned id t =>
    have h := same_cleaned st id t
    exact g.less h.working (h.waiting ▸ List.Sublist.refl _) h.list h.inactive
  | finalize =>
    obtain ⟨_, e2, e3, _, e5, _, e7⟩ := finalize_parts st
    exact g.less (e7 ▸ List.Sublist.refl _) (e3 ▸ List.Sublist.refl _) e2 e5
  | stop s' =>
    constructor
    · show s ∉ st.inactive ++ [s']
      simp only [List.mem_append, List.mem_singleton, not_or]
      exact ⟨g.active, fun e => h2 (by rw [e])⟩
    · exact g.work
    · exact g.wait

/-- Removing the one element with a key. -/
theorem countP_filter_key {α : Type} {f : α → Nat} {xs : List α} (h : (xs.map f).Nodup) {x : α}
    (hx : x ∈ xs) (p : α → Bool) :
    (xs.filter fun y => f y ≠ f x).countP p + (if p x then 1 else 0) = xs.countP p := by
  induction xs with
  | nil => cases hx
  | cons a xs ih =>
    simp only [List.map_cons, List.nodup_cons, List.mem_map, not_exists, not_and] at h
    rcases List.mem_cons.1 hx with hx' | hx'
    · subst hx'
      have e : (xs.filter fun y => f y ≠ f x) = xs := by
        rw [List.filter_eq_self]
        intro y hy; simpa using h.1 y hy
      rw [List.filter_cons_of_neg (by simp), e, List.countP_cons]
    · have hne : f a ≠ f x := fun e => h.1 x hx' e.symm
      rw [List.filter_cons_of_pos (by simpa using hne), List.countP_cons, List.countP_cons,
        ← ih h.2 hx']
      omega

theorem countP_filter_le {α : Type} (p q : α → Bool) (xs : List α) :
    (xs.filter q).countP p ≤ xs.countP p := List.filter_sublist.countP_le

/-- Answers of the session with the response that the last operation produced. -/
def fresh (st : State) : Op → List Answer
  | .respond t d =>
    ((st.working.filter fun w => w.task = t ∧ w.session ∉ st.inactive).map fun w =>
      (⟨w.session, w.request, d⟩ : Answer)).take 1
  | _ => []

theorem answersFrom_cons (st : State) (op : Op) (ops : List Op) :
    answersFrom st (op :: ops) = fresh st op ++ answersFrom (st.step op) ops := by
  cases op <;> rfl

/-- What the answer of a task is. -/
theorem fresh_respond {st : State} (i : Inv st) {t d : Nat} {w : Work} (hw : w ∈ st.working)
    (ht : w.task = t) : fresh st (.respond t d) =
      if w.session ∈ st.inactive then [] else [⟨w.session, w.request, d⟩] := by
  have key : ∀ v, v ∈ st.working → v.task = t → v = w := by
    intro v hv e
    apply nodup_key i.ndW hv hw
    have := i.tf v hv
    have := i.tf w hw
    omega
  simp only [fresh]
  split
  · next ha =>
    have : (st.working.filter fun w => w.task = t ∧ w.session ∉ st.inactive) = [] := by
      rw [List.filter_eq_nil_iff]
      intro v hv
      simp only [decide_eq_true_eq, not_and]
      intro e
      rw [key v hv e]
      simpa using ha
    rw [this]; rfl
  · next ha =>
    have hm : w ∈ st.working.filter fun w => w.task = t ∧ w.session ∉ st.inactive := by
      rw [List.mem_filter]; exact ⟨hw, by simp [ht, ha]⟩
    have hall : ∀ v, v ∈ (st.working.filter fun w => w.task = t ∧ w.session ∉ st.inactive) →
        v = w := by
      intro v hv
      rw [List.mem_filter] at hv
      simp only [decide_eq_true_eq] at hv
      exact key v hv.1 hv.2.1
    cases hl : st.working.filter fun w => w.task = t ∧ w.session ∉ st.inactive with
    | nil => rw [hl] at hm; cases hm
    | cons v vs =>
      have := hall v (by rw [hl]; simp)
      subst this
      rfl

theorem fresh_none {st : State} {t d : Nat}
    (h : st.working.find? (fun w => w.task = t) = none) : fresh st (.respond t d) = [] := by
  simp only [fresh]
  rw [List.find?_eq_none] at h
  have : (st.working.filter fun w => w.task = t ∧ w.session ∉ st.inactive) = [] := by
    rw [List.filter_eq_nil_iff]
    intro v hv
    have := h v hv
    simp only [decide_eq_true_eq] at this ⊢
    exact fun e => this e.1
  rw [this]; rfl

/-- Responses of session `s` with value `d` that wait or were passed on. -/
def moved (st : State) (s d : Nat) : Nat :=
  st.out.countP (fun o => o.1 = s && o.2 = d) +
    st.waiting.countP fun q => q.2.1 = s && q.2.2 = d

def hits (as : List Answer) (s d : Nat) : Nat :=
  as.countP fun a => a.session = s && a.data = d

theorem step_moved {st : State} (i : Inv st) (op : Op) (s d : Nat) :
    moved (st.step op) s d ≤ moved st s d + hits (fresh st op) s d ∧
    (Good st s → moved (st.step op) s d = moved st s d + hits (fresh st op) s d) := by
  have same : ∀ st' : State, st'.out = st.out → st'.waiting = st.waiting →
      moved st' s d ≤ moved st s d + hits [] s d ∧
      (Good st s → moved st' s d = moved st s d + hits [] s d) := by
    intro st' e1 e2
    simp [moved, hits, e1, e2]
  cases op with
  | input s r =>
    simp only [State.step]
    split <;> exact same _ rfl rfl
  | execute =>
    show moved st.execute s d ≤ _ ∧ (_ → moved st.execute s d = _)
    unfold State.execute
    split <;> exact same _ rfl rfl
  | respond t e =>
    show moved (st.respond t e) s d ≤ _ ∧ (_ → moved (st.respond t e) s d = _)
    rcases respond_cases st t e with ⟨hn, h⟩ | ⟨w, hw, ht, ⟨ha, h⟩ | ⟨ha, h⟩⟩
    · rw [h, fresh_none hn]; exact same _ rfl rfl
    · rw [h, fresh_respond i hw ht, if_pos ha]; exact same _ rfl rfl
    · rw [h, fresh_respond i hw ht, if_neg ha]
      simp only [moved, hits, List.countP_append, List.countP_singleton]
      omega
  | dispose t => exact same _ rfl rfl
  | finish f =>
    show moved (st.finish f) s d ≤ moved st s d + hits [] s d ∧
      (_ → moved (st.finish f) s d = moved st s d + hits [] s d)
    rcases finish_cases st f with h | ⟨s', d', hq, ⟨hno, h⟩ | ⟨ha, h⟩ | ⟨ha, h⟩⟩
    · rw [h]; exact same _ rfl rfl
    · have hc := countP_filter_key i.ndQ hq (fun q => decide (q.2.1 = s) && decide (q.2.2 = d))
      simp only at hc
      rw [h]
      simp only [moved, hits, List.countP_nil]
      refine ⟨by omega, ?_⟩
      intro g
      have : ¬ (decide (s' = s) && decide (d' = d)) = true := by
        intro e
        simp only [Bool.and_eq_true, decide_eq_true_eq] at e
        obtain ⟨j, hj, hf, _⟩ := g.wait _ hq e.1
        exact hno j hj hf
      rw [if_neg this] at hc
      omega
    · have hc := countP_filter_key i.ndQ hq (fun q => decide (q.2.1 = s) && decide (q.2.2 = d))
      simp only at hc
      rw [h]
      simp only [moved, hits, List.countP_nil]
      refine ⟨by omega, ?_⟩
      intro g
      have : ¬ (decide (s' = s) && decide (d' = d)) = true := by
        intro e
        simp only [Bool.and_eq_true, decide_eq_true_eq] at e
        exact g.active (e.1 ▸ ha)
      rw [if_neg this] at hc
      omega
    · have hc := countP_filter_key i.ndQ hq (fun q => decide (q.2.1 = s) && decide (q.2.2 = d))
      simp only at hc
      rw [h]
      simp only [moved, hits, List.countP_nil, List.countP_append, List.countP_singleton]
      omega
  | cleanup s' id now =>
    obtain ⟨_, _, e3, _, _, e6, _⟩ := cleanup_parts st s' id now
    exact same _ e6 e3
  | cleaned id t =>
    have h := same_cleaned st id t
    exact same _ h.out h.waiting
  | finalize =>
    obtain ⟨_, _, e3, _, _, e6, _⟩ := finalize_parts st
    exact same _ e6 e3
  | stop s' => exact same _ rfl rfl

theorem fold_moved (s d : Nat) : ∀ (ops : List Op) (st : State), Inv st →
    moved (ops.foldl State.step st) s d ≤ moved st s d + hits (answersFrom st ops) s d ∧
    (Good st s → Undisturbed s ops →
      moved (ops.foldl State.step st) s d = moved st s d + hits (answersFrom st ops) s d) := by
  intro ops
  induction ops with
  | nil => intro st i; simp [answersFrom, hits]
  | cons op ops ih =>
    intro st i
    obtain ⟨a, b⟩ := step_moved i op s d
    obtain ⟨a', b'⟩ := ih _ (step_inv i op)
    rw [answersFrom_cons]
    have e : hits (fresh st op ++ answersFrom (st.step op) ops) s d =
        hits (fresh st op) s d + hits (answersFrom (st.step op) ops) s d := by
      simp [hits, List.countP_append]
    rw [e, List.foldl_cons]
    refine ⟨by omega, ?_⟩
    intro g hu
    have := b g
    have := b' (step_good i g op (fun id now h => hu.1 id now (by simp [h]))
      (fun h => hu.2 (by simp [h]))) ⟨fun id now hm => hu.1 id now (by simp [hm]),
        fun hm => hu.2 (by simp [hm])⟩
    omega

/-- Requests of session `s` with value `r` that wait or are with a service. -/
def open_ (st : State) (s r : Nat) : Nat :=
  st.inputs.countP (fun o => o.1 = s && o.2 = r) +
    st.working.countP fun w => w.session = s && w.request = r

def served (as : List Answer) (s r : Nat) : Nat :=
  as.countP fun a => a.session = s && a.request = r

def arrival (st : State) : Op → List (Nat × Nat)
  | .input s r => if s ∈ st.inactive then [] else [(s, r)]
  | _ => []

theorem givenFrom_cons (st : State) (op : Op) (ops : List Op) :
    givenFrom st (op :: ops) = arrival st op ++ givenFrom (st.step op) ops := by
  cases op <;> rfl

def asks (gs : List (Nat × Nat)) (s r : Nat) : Nat := gs.countP fun g => g.1 = s && g.2 = r

theorem step_open {st : State} (i : Inv st) (op : Op) (s r : Nat) :
    open_ (st.step op) s r + served (fresh st op) s r ≤ open_ st s r + asks (arrival st op) s r := by
  have less : ∀ st' : State, List.Sublist st'.inputs st.inputs →
      List.Sublist st'.working st.working →
      open_ st' s r + served [] s r ≤ open_ st s r + asks [] s r := by
    intro st' e1 e2
    have h1 := e1.countP_le (p := fun o => decide (o.1 = s) && decide (o.2 = r))
    have h2 := e2.countP_le (p := fun w => decide (w.session = s) && decide (w.request = r))
    simp only [open_, served, asks, List.countP_nil]
    omega
  have sw : ∀ t, List.Sublist (st.working.filter fun w => decide (w.task ≠ t)) st.working :=
    fun t => List.filter_sublist
  cases op with
  | input s' r' =>
    simp only [State.step, arrival, fresh]
    split
    · exact less _ (List.Sublist.refl _) (List.Sublist.refl _)
    · simp only [open_, served, asks, List.countP_nil, List.countP_append, List.countP_singleton]
      omega
  | execute =>
    show open_ st.execute s r + served [] s r ≤ _ + asks [] s r
    unfold State.execute
    split
    · simp [served, asks]
    · next s' r' rest he =>
      simp only [open_, served, asks, List.countP_nil, List.countP_append, List.countP_singleton,
        he, List.countP_cons]
      omega
  | respond t e =>
    show open_ (st.respond t e) s r + _ ≤ open_ st s r + asks [] s r
    rcases respond_cases st t e with ⟨hn, h⟩ | ⟨w, hw, ht, ⟨ha, h⟩ | ⟨ha, h⟩⟩
    · rw [h, fresh_none hn]; exact less _ (List.Sublist.refl _) (List.Sublist.refl _)
    · rw [h, fresh_respond i hw ht, if_pos ha]; exact less _ (List.Sublist.refl _) (sw t)
    · rw [h, fresh_respond i hw ht, if_neg ha]
      have hnd : (st.working.map (·.task)).Nodup := by
        have : st.working.map (·.task) = (st.working.map (·.finish)).map (· + 1) := by
          rw [List.map_map]
          apply List.map_congr_left
          intro v hv
          exact i.tf v hv
        rw [this]
        exact List.Pairwise.map _ (by intro a b hab e; simp at e; exact hab e) i.ndW
      have hc := countP_filter_key hnd hw fun v => decide (v.session = s) && decide (v.request = r)
      simp only [ht] at hc
      simp only [open_, served, asks, List.countP_nil, List.countP_singleton]
      omega
  | dispose t => exact less _ (List.Sublist.refl _) (sw t)
  | finish f =>
    show open_ (st.finish f) s r + served [] s r ≤ _ + asks [] s r
    rcases finish_cases st f with h | ⟨s', d', hq, ⟨hno, h⟩ | ⟨ha, h⟩ | ⟨ha, h⟩⟩ <;> rw [h] <;>
      exact less _ (List.Sublist.refl _) (List.Sublist.refl _)
  | cleanup s' id now =>
    obtain ⟨e1, _, _, _, _, _, e7⟩ := cleanup_parts st s' id now
    exact less _ (e1 ▸ List.filter_sublist) e7
  | cleaned id t =>
    have h := same_cleaned st id t
    exact less _ (h.inputs ▸ List.Sublist.refl _) h.working
  | finalize =>
    obtain ⟨e1, _, _, _, _, _, e7⟩ := finalize_parts st
    exact less _ (e1 ▸ List.Sublist.refl _) (e7 ▸ List.Sublist.refl _)
  | stop s' => exact less _ (List.Sublist.refl _) (List.Sublist.refl _)

theorem fold_open (s r : Nat) : ∀ (ops : List Op) (st : State), Inv st →
    open_ (ops.foldl State.step st) s r + served (answersFrom st ops) s r ≤
      open_ st s r + asks (givenFrom st ops) s r := by
  intro ops
  induction ops with
  | nil => intro st i; simp [answersFrom, givenFrom, served, asks]
  | cons op ops ih =>
    intro st i
    have a := step_open i op s r
    have a' := ih _ (step_inv i op)
    rw [answersFrom_cons, givenFrom_cons]
    have e : served (fresh st op ++ answersFrom (st.step op) ops) s r =
        served (fresh st op) s r + served (answersFrom (st.step op) ops) s r := by
      simp [served, List.countP_append]
    have e' : asks (arrival st op ++ givenFrom (st.step op) ops) s r =
        asks (arrival st op) s r + asks (givenFrom (st.step op) ops) s r := by
      simp [asks, List.countP_append]
    rw [e, e', List.foldl_cons]
    omega

end Verif.Inject
