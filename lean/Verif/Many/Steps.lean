import Verif.Many.Lemmas

/-
Helper lemmas for C117: one event, and the state in which a session begins.
-/
namespace Verif.Many

open Flow (Net Kind Status State Choice Wired)

/-- The event is one of session `x` and does to it what `e'` does to a session alone. -/
def Own (net : Net) (W : Multi) (e : Ev) (x : Nat) (e' : Flow.Ev) : Prop :=
  (∀ y, concerns y W e = if y = x then some e' else none) ∧
    Sim x W (step net W e) (Flow.step net (W.of x) e')

theorem Sim.of_step {net : Net} {x : Nat} {W W' : Multi} {e : Flow.Ev} {body : State}
    (h : Flow.step net (W.of x) e = if (W.of x).status ≠ .active then W.of x else body)
    (h1 : Sim x W W' body) : Sim x W W' (Flow.step net (W.of x) e) := by
  refine ⟨h1.others, fun ha => ?_, h1.ended, h1.confirmed⟩
  rw [h, if_neg (fun h' => h' (of_active ha))]
  exact h1.self ha

theorem contains_iff (l : List Nat) (x : Nat) : l.contains x = true ↔ l.count x ≠ 0 := by
  rw [contains_count]
  simp only [decide_eq_true_eq]
  omega

theorem Sim.ite_task {x n : Nat} {W A : Multi} {s : State}
    (h : Sim x W A s) :
    Sim x W (if (W.tasks n).contains x then A else W)
      (if (W.of x).tasks n = 0 then W.of x else s) := by
  by_cases ht : (W.of x).tasks n = 0
  · rw [if_pos ht, if_neg (by rw [contains_iff]; exact fun h => h ht)]
    exact Sim.rfl' x W
  · rw [if_neg ht, if_pos ((contains_iff _ _).mpr ht)]
    exact h

theorem Sim.ite {x : Nat} {W A B : Multi} {s s' : State} {c c' : Prop} [Decidable c]
    [Decidable c'] (hc : c ↔ c') (h : c → Sim x W A s) (h' : ¬ c → Sim x W B s') :
    Sim x W (if c then A else B) (if c' then s else s') := by
  by_cases hp : c
  · rw [if_pos hp, if_pos (hc.mp hp)]
    exact h hp
  · rw [if_neg hp, if_neg (fun h => hp (hc.mpr h))]
    exact h' hp

theorem own_item {net : Net} (hw : Wired net) (W : Multi) (x n i : Nat) :
    Own net W (.item x n i) x (.item n i) := by
  refine ⟨fun y => by simp only [concerns, eq_comm], Sim.of_step rfl ?_⟩
  have key : ∀ ss : List Nat, (∀ m, m ∈ ss → m ∈ net.ops.map (·.1)) →
      Sim x W (if (W.tasks n).contains x then
          match ss[i]? with
          | none => W
          | some m => give net x W m
        else W)
        (if (W.of x).tasks n = 0 then W.of x else
          match ss[i]? with
          | none => W.of x
          | some m => Flow.give net (W.of x) m) := by
    intro ss hss
    refine Sim.ite_task ?_
    cases hm : ss[i]? with
    | none => exact Sim.rfl' x W
    | some m => exact Sim.give x W (hss m (List.mem_of_getElem? hm))
  unfold step
  simp only
  split
  · rename_i t ss hk
    rw [hk]
    exact key ss fun m hm => hw.targets _ _ (Flow.mem_of_lookup hk) m
      (by simp only [Kind.targets]; exact List.mem_cons_of_mem _ hm)
  · rename_i t ss hk
    rw [hk]
    exact key ss fun m hm => hw.targets _ _ (Flow.mem_of_lookup hk) m
      (by simp only [Kind.targets]; exact List.mem_cons_of_mem _ hm)
  · rename_i h1 h2
    split
    · rename_i hk; exact absurd hk (h1 _ _)
    · rename_i hk; exact absurd hk (h2 _ _)
    · exact Sim.rfl' x W

theorem own_finish {net : Net} (hw : Wired net) (W : Multi) (x n : Nat) :
    Own net W (.finish x n) x (.finish n) := by
  refine ⟨fun y => by simp only [concerns, eq_comm], Sim.of_step rfl ?_⟩
  unfold step
  simp only
  split
  · rename_i t ss hk
    have ht : t ∈ net.ops.map (·.1) := hw.targets _ _ (Flow.mem_of_lookup hk) t
      (by simp [Kind.targets])
    have h1 : Sim x W (give net x (endTask W x n) t)
        (Flow.give net { W.of x with tasks := Flow.drop (W.of x).tasks n } t) :=
      Sim.trans (g := fun s => Flow.give net s t) (Sim.endTask x n W)
        (fun ha => of_active ha) (Sim.give x _ ht)
    rw [hk]
    refine Sim.ite_task ?_
    refine Sim.ite Iff.rfl (fun _ => h1) (fun _ => ?_)
    refine Sim.trans (g := Flow.dispose) h1 (fun ha => ?_) (Sim.dispose x _)
    exact give_keep ht (of_active ha)
  · rename_i t ss hk
    have ht : t ∈ net.ops.map (·.1) := hw.targets _ _ (Flow.mem_of_lookup hk) t
      (by simp [Kind.targets])
    rw [hk]
    refine Sim.ite_task ?_
    exact Sim.trans (g := fun s => Flow.give net s t) (Sim.endTask x n W)
        (fun ha => of_active ha) (Sim.give x _ ht)
  · rename_i h1 h2
    split
    · rename_i hk; exact absurd hk (h1 _ _)
    · rename_i hk; exact absurd hk (h2 _ _)
    · exact Sim.rfl' x W

theorem own_lose {net : Net} (W : Multi) (x n : Nat) :
    Own net W (.lose x n) x (.lose n) := by
  refine ⟨fun y => by simp only [concerns, eq_comm], Sim.of_step rfl ?_⟩
  unfold step
  simp only
  split
  · rename_i t ss hk
    rw [hk]
    refine Sim.ite_task ?_
    exact Sim.trans (g := Flow.dispose) (Sim.endTask x n W) (fun ha => of_active ha)
      (Sim.dispose x _)
  · rename_i h1
    split
    · rename_i hk; exact absurd hk (h1 _ _)
    · exact Sim.rfl' x W

theorem own_innerCancel {net : Net} (W : Multi) (x n : Nat) :
    Own net W (.innerCancel x n) x (.innerCancel n) := by
  refine ⟨fun y => by simp only [concerns, eq_comm], Sim.of_step rfl ?_⟩
  unfold step
  simp only
  split
  · rename_i t ss hk
    rw [hk]
    refine Sim.ite_task ?_
    refine Sim.ite Iff.rfl (fun _ => ?_) (fun _ => ?_)
    · exact Sim.trans (g := Flow.dispose) (Sim.endTask x n W) (fun ha => of_active ha)
        (Sim.dispose x _)
    · exact Sim.trans (g := fun s => { s with failures := s.failures + 1 }) (Sim.endTask x n W)
        (fun ha => of_active ha) (Sim.fail x (endTask W x n))
  · rename_i h1
    split
    · rename_i hk; exact absurd hk (h1 _ _)
    · exact Sim.rfl' x W

theorem hasKey_of (net : Net) (W : Multi) (x n b : Nat) :
    hasKey net W x n b = Flow.hasKey net (W.of x) n b := rfl

theorem own_touch {net : Net} (W : Multi) (x n b sub add : Nat) (loops : Bool) :
    Own net W (.touch x n b sub add loops) x (.touch n b sub add loops) := by
  refine ⟨fun y => by simp only [concerns, eq_comm], Sim.of_step rfl ?_⟩
  unfold step
  simp only
  split
  · rename_i cap hk
    rw [hk, hasKey_of]
    refine Sim.ite Iff.rfl (fun _ => ?_) (fun _ => Sim.rfl' x W)
    exact Sim.trans (g := fun s => Flow.wake net s n b loops)
      (Sim.held x W fun m => if m = b then Flow.pushes cap add (W.held m x - sub) else W.held m x)
      (fun ha => of_active ha) (Sim.wake x _ n b loops)
  · rename_i h1
    split
    · rename_i hk; exact absurd hk (h1 _)
    · exact Sim.rfl' x W

theorem own_turn {net : Net} (W : Multi) (x n b : Nat) (opens loops : Bool) :
    Own net W (.turn x n b opens loops) x (.turn n b opens loops) := by
  refine ⟨fun y => by simp only [concerns, eq_comm], Sim.of_step rfl ?_⟩
  unfold step
  simp only
  rw [hasKey_of]
  refine Sim.ite Iff.rfl (fun _ => ?_) (fun _ => Sim.rfl' x W)
  have e : W.gates b x = (W.of x).gates b := rfl
  rw [e]
  cases (W.of x).gates b with
  | none => exact Sim.rfl' x W
  | some now =>
    simp only
    refine Sim.ite Iff.rfl (fun _ => ?_) (fun _ => Sim.setGate x W b opens)
    exact Sim.trans (g := fun s => Flow.wake net s n b loops) (Sim.setGate x W b opens)
      (fun ha => of_active ha) (Sim.wake x _ n b loops)

theorem Sim.dropKey (x n : Nat) (W : Multi) :
    Sim x W (dropKey W x n) { W.of x with keys := Flow.drop (W.of x).keys n } := by
  refine ⟨fun y hy => ⟨?_, rfl⟩, fun ha => ⟨?_, ?_⟩, fun _ => rfl, rfl⟩
  · simp [Multi.of, Many.dropKey, part, hy]
  · simp only [Multi.of, Many.dropKey, part, if_true]
    rfl
  · simp [Multi.of, Many.dropKey, ha]

theorem Sim.dropping (x : Nat) (W : Multi) (g : Nat → Nat) :
    Sim x W { W with dropping := part W.dropping x g } { W.of x with dropping := g } := by
  refine ⟨fun y hy => ⟨?_, rfl⟩, fun ha => ⟨?_, ?_⟩, fun _ => rfl, rfl⟩
  · simp [Multi.of, part, hy]
  · simp [Multi.of, part]
  · simp [Multi.of, ha]

theorem own_release {net : Net} (W : Multi) (x n : Nat) :
    Own net W (.release x n) x (.release n) := by
  refine ⟨fun y => by simp only [concerns, eq_comm], Sim.of_step rfl ?_⟩
  refine Sim.ite Iff.rfl (fun _ => Sim.rfl' x W) (fun _ => ?_)
  exact Sim.trans (g := Flow.dispose) (Sim.dropKey x n W) (fun ha => of_active ha)
    (Sim.dispose x _)

theorem own_letGo {net : Net} (W : Multi) (x n : Nat) :
    Own net W (.letGo x n) x (.letGo n) := by
  refine ⟨fun y => by simp only [concerns, eq_comm], Sim.of_step rfl ?_⟩
  refine Sim.ite Iff.rfl (fun _ => Sim.rfl' x W) (fun _ => ?_)
  refine Sim.trans (g := Flow.dispose) (s := { W.of x with
      keys := Flow.drop (W.of x).keys n, dropping := Flow.bump (W.of x).dropping n })
    ?_ (fun ha => of_active ha) (Sim.dispose x _)
  exact Sim.trans (g := fun s => { s with dropping := Flow.bump s.dropping n })
    (Sim.dropKey x n W) (fun ha => of_active ha) (Sim.dropping x (Many.dropKey W x n) _)

theorem own_gone {net : Net} (W : Multi) (x n : Nat) :
    Own net W (.gone x n) x (.gone n) := by
  refine ⟨fun y => by simp only [concerns, eq_comm], Sim.of_step rfl ?_⟩
  refine Sim.ite Iff.rfl (fun _ => Sim.rfl' x W) (fun _ => ?_)
  exact Sim.dropping x W _

theorem own_exec {net : Net} (hw : Wired net) (W : Multi) (n : Nat) (c : Choice) {x : Nat}
    {rest : List Nat} (hq : W.queue n = x :: rest) : Own net W (.exec n c) x (.exec n c) := by
  refine ⟨fun y => by simp only [concerns, hq, List.head?_cons, Option.some.injEq, eq_comm],
    Sim.of_step rfl ?_⟩
  unfold step
  simp only [hq]
  cases hk : net.ops.lookup n with
  | none => exact Sim.rfl' x W
  | some k =>
    simp only
    have hp : (W.of x).pending n ≠ 0 := by simp [Multi.of, hq]
    rw [if_neg hp]
    exact Sim.trans (g := fun s => Flow.execute net s n c k) (Sim.pop hq)
      (fun ha => of_active ha) (Sim.execute hw x n _ c k hk)

theorem own_check {net : Net} (W : Multi) {x : Nat} {rest : List Nat}
    (hd : W.disposed = x :: rest) : Own net W .check x .check := by
  refine ⟨fun y => by simp only [concerns, hd, List.head?_cons, Option.some.injEq, eq_comm],
    Sim.of_step rfl ?_⟩
  unfold step
  simp only [hd]
  have hp : (W.of x).checks ≠ 0 := by simp [Multi.of, hd]
  rw [if_neg hp]
  exact Sim.trans (g := fun s => Flow.validate net s) (Sim.popCheck hd)
    (fun ha => of_active ha) (Sim.validate x _)

/-- An event belongs to one session, or nothing happens, or a session begins or is forgotten. -/
theorem step_cases {net : Net} (hw : Wired net) (W : Multi) (e : Ev) :
    (∃ x e', Own net W e x e') ∨
    ((∀ y, concerns y W e = none) ∧
      (step net W e = W ∨ (∃ x, e = .start x ∧ W.status x = none) ∨ ∃ x, e = .clean x)) := by
  cases e with
  | start x =>
    refine .inr ⟨fun _ => rfl, ?_⟩
    by_cases h : W.status x = none
    · exact .inr (.inl ⟨x, rfl, h⟩)
    · exact .inl (by unfold step; exact if_neg h)
  | exec n c =>
    cases hq : W.queue n with
    | nil =>
      refine .inr ⟨fun y => by simp [concerns, hq], .inl ?_⟩
      unfold step
      simp only [hq]
      cases net.ops.lookup n <;> rfl
    | cons x rest => exact .inl ⟨x, _, own_exec hw W n c hq⟩
  | item x n i => exact .inl ⟨x, _, own_item hw W x n i⟩
  | finish x n => exact .inl ⟨x, _, own_finish hw W x n⟩
  | lose x n => exact .inl ⟨x, _, own_lose W x n⟩
  | innerCancel x n => exact .inl ⟨x, _, own_innerCancel W x n⟩
  | touch x n b sub add loops => exact .inl ⟨x, _, own_touch W x n b sub add loops⟩
  | turn x n b o l => exact .inl ⟨x, _, own_turn W x n b o l⟩
  | release x n => exact .inl ⟨x, _, own_release W x n⟩
  | letGo x n => exact .inl ⟨x, _, own_letGo W x n⟩
  | gone x n => exact .inl ⟨x, _, own_gone W x n⟩
  | check =>
    cases hd : W.disposed with
    | nil =>
      refine .inr ⟨fun y => by simp [concerns, hd], .inl ?_⟩
      unfold step
      simp only [hd]
    | cons x rest => exact .inl ⟨x, _, own_check W hd⟩
  | clean x => exact .inr ⟨fun _ => rfl, .inr (.inr ⟨x, rfl⟩)⟩

/-! ### How a session begins -/

/-- A session that has not begun has left no trace, and the scope remembers that its terminal
can be reached only if that is so for a new session. -/
structure Fresh (net : Net) (W : Multi) : Prop where
  none : ∀ x, W.status x = none → W.of x = { Flow.blank with status := .cancelled }
  confirmed : W.confirmed = some true → Graph.checkReachability
    (Flow.world net (Flow.received net)) 0 net.terminal = .ok true

theorem fresh_empty (net : Net) : Fresh net empty := by
  refine ⟨fun x _ => ?_, fun h => by simp [empty] at h⟩
  simp [Multi.of, empty, Flow.blank]

/-- The other sessions are left alone. -/
def Apart (x : Nat) (W W' : Multi) : Prop :=
  ∀ y, y ≠ x → W'.of y = W.of y ∧ W'.status y = W.status y

theorem Apart.trans {x : Nat} {W W' W'' : Multi} (h1 : Apart x W W') (h2 : Apart x W' W'') :
    Apart x W W'' := fun y hy =>
  ⟨(h2 y hy).1.trans (h1 y hy).1, (h2 y hy).2.trans (h1 y hy).2⟩

theorem begin_apart {net : Net} (hw : Wired net) (W : Multi) (x : Nat) :
    Apart x W (begin net W x) := by
  have h1 : Apart x W (give net x
      { W with status := fun y => if y = x then some .active else W.status y } net.entry) := by
    refine Apart.trans (fun y hy => ?_) (Sim.give x _ hw.entry).others
    exact ⟨by simp [Multi.of, hy], by simp [hy]⟩
  unfold begin
  simp only
  split
  · exact h1
  · exact h1.trans (Sim.validate x _).others
  · have h2 := h1.trans (Sim.validate (net := net) x _).others
    split
    · rename_i h
      rw [h] at h2
      exact h2
    · rename_i h
      rw [h] at h2
      exact h2

theorem begin_spec {net : Net} (hw : Wired net) {W : Multi} (hf : Fresh net W) {x : Nat}
    (hx : W.status x = none) :
    Apart x W (begin net W x) ∧ (begin net W x).of x = Flow.start net ∧
      (begin net W x).status x = some (Flow.start net).status ∧
      ((begin net W x).confirmed = some true → Graph.checkReachability
        (Flow.world net (Flow.received net)) 0 net.terminal = .ok true) := by
  let W0 : Multi := { W with status := fun y => if y = x then some .active else W.status y }
  have h0 : W0.of x = Flow.blank := by
    have := hf.none x hx
    simp only [Multi.of, State.mk.injEq, Flow.blank] at this ⊢
    obtain ⟨h1, h2, h3, h4, h5, _, h7, h8, h9, h10⟩ := this
    exact ⟨h1, h2, h3, h4, h5, by simp [W0], h7, h8, h9, h10⟩
  have ha0 : Apart x W W0 := by
    intro y hy
    exact ⟨by simp [Multi.of, W0, hy], by simp [W0, hy]⟩
  have hs0 : W0.status x = some .active := by simp [W0]
  have h1 := Sim.give (net := net) x W0 hw.entry
  let W1 := give net x W0 net.entry
  have hrec : W1.of x = Flow.received net := by
    have := (h1.self hs0).1
    rw [h0] at this
    exact this
  have hs1 : W1.status x = some .active := by
    rw [(h1.self hs0).2, h0]
    exact congrArg some ((Flow.give_given Flow.blank hw.entry).status)
  have hc1 : W1.confirmed = W.confirmed := h1.confirmed
  have hv := Sim.validate (net := net) x W1
  have hself := hv.self hs1
  rw [hrec] at hself
  have hapart1 : Apart x W W1 := ha0.trans h1.others
  have hapart2 : Apart x W (validate net W1 x).1 := hapart1.trans hv.others
  have hstart : Flow.start net = Flow.validate net (Flow.received net) := rfl
  have hb : begin net W x = (match W1.confirmed with
    | some true => W1
    | some false => (validate net W1 x).1
    | none => match validate net W1 x with
      | (W2, some b) => { W2 with confirmed := some b }
      | (W2, none) => W2) := rfl
  cases hc : W1.confirmed with
  | some b =>
    cases b with
    | true =>
      have hb : begin net W x = W1 := by rw [hb, hc]
      rw [hb]
      have hr := hf.confirmed (hc1 ▸ hc)
      have e : Flow.start net = Flow.received net := by
        rw [hstart, Flow.validate, hr]
      refine ⟨hapart1, by rw [e]; exact hrec, ?_, fun _ => hr⟩
      rw [hs1, e, ← hrec]
      simp [Multi.of, hs1]
    | false =>
      have hb : begin net W x = (validate net W1 x).1 := by rw [hb, hc]
      rw [hb]
      refine ⟨hapart2, hself.1, hself.2, fun h => ?_⟩
      rw [hv.confirmed, hc] at h
      simp at h
  | none =>
    have hans : ∀ b, (validate net W1 x).2 = some b → (b = true → Graph.checkReachability
        (Flow.world net (Flow.received net)) 0 net.terminal = .ok true) := by
      intro b hb hbt
      subst hbt
      unfold validate at hb
      rw [check_same, hrec] at hb
      split at hb
      · assumption
      · simp at hb
      · simp at hb
    rw [hc] at hb
    rcases hval : validate net W1 x with ⟨W2, ans⟩
    rw [hval] at hapart2 hself hans hv hb
    cases ans with
    | some b =>
      rw [hb]
      refine ⟨hapart2, hself.1, hself.2, fun h => ?_⟩
      have h : some b = some true := h
      exact hans b rfl (Option.some.inj h)
    | none =>
      rw [hb]
      refine ⟨hapart2, hself.1, hself.2, fun h => ?_⟩
      have h : W2.confirmed = some true := h
      have := hv.confirmed
      simp only at this
      rw [this, hc] at h
      simp at h

/-- Nothing happens for a session that has not begun. -/
theorem unborn {net : Net} {W : Multi} (hf : Fresh net W) {x : Nat} (hx : W.status x = none)
    {e : Ev} {e' : Flow.Ev} (h : concerns x W e = some e') : step net W e = W := by
  have hb := hf.none x hx
  simp only [Multi.of, State.mk.injEq, Flow.blank] at hb
  obtain ⟨h1, h2, _, h4, _, _, h7, h8, _, _⟩ := hb
  have ht : ∀ n, ¬ (W.tasks n).contains x = true := fun n => by
    rw [contains_iff]; exact fun h => h (congrFun h2 n)
  have hk : ∀ n b, ¬ hasKey net W x n b = true := by
    intro n b
    unfold hasKey
    split
    · have : W.keys n x = 0 := congrFun h7 n
      simp [this]
    · simp
  cases e with
  | start y => simp [concerns] at h
  | clean y => simp [concerns] at h
  | exec n c =>
    simp only [concerns] at h
    split at h
    · rename_i hq
      have : (W.queue n).count x = 0 := congrFun h1 n
      rw [List.count_eq_zero] at this
      exact absurd (List.mem_of_head? hq) this
    · simp at h
  | check =>
    simp only [concerns] at h
    split at h
    · rename_i hq
      rw [List.count_eq_zero] at h4
      exact absurd (List.mem_of_head? hq) h4
    · simp at h
  | item y n i =>
    simp only [concerns] at h
    split at h
    · rename_i hy
      subst hy
      simp only [step]
      split
      · rw [if_neg (ht n)]
      · rw [if_neg (ht n)]
      · rfl
    · simp at h
  | finish y n =>
    simp only [concerns] at h
    split at h
    · rename_i hy
      subst hy
      simp only [step]
      split
      · rw [if_neg (ht n)]
      · rw [if_neg (ht n)]
      · rfl
    · simp at h
  | lose y n =>
    simp only [concerns] at h
    split at h
    · rename_i hy
      subst hy
      simp only [step]
      split
      · rw [if_neg (ht n)]
      · rfl
    · simp at h
  | innerCancel y n =>
    simp only [concerns] at h
    split at h
    · rename_i hy
      subst hy
      simp only [step]
      split
      · rw [if_neg (ht n)]
      · rfl
    · simp at h
  | touch y n b sub add loops =>
    simp only [concerns] at h
    split at h
    · rename_i hy
      subst hy
      simp only [step]
      split
      · rw [if_neg (hk n b)]
      · rfl
    · simp at h
  | turn y n b o l =>
    simp only [concerns] at h
    split at h
    · rename_i hy
      subst hy
      simp only [step]
      rw [if_neg (hk n b)]
    · simp at h
  | release y n =>
    simp only [concerns] at h
    split at h
    · rename_i hy
      subst hy
      simp only [step]
      rw [if_pos (congrFun h7 n)]
    · simp at h
  | letGo y n =>
    simp only [concerns] at h
    split at h
    · rename_i hy
      subst hy
      simp only [step]
      rw [if_pos (congrFun h7 n)]
    · simp at h
  | gone y n =>
    simp only [concerns] at h
    split at h
    · rename_i hy
      subst hy
      simp only [step]
      rw [if_pos (congrFun h8 n)]
    · simp at h

/-- A session that has ended is forgotten; the others are left alone. -/
theorem clean_apart (net : Net) (W : Multi) (x : Nat) : Apart x W (step net W (.clean x)) := by
  intro y hy
  simp only [step]
  split
  · exact ⟨rfl, rfl⟩
  · refine ⟨?_, rfl⟩
    simp only [Multi.of, part, if_neg hy]
    congr 1
    · funext m
      rw [List.count_filter (by simpa using hy)]
    · funext m
      rw [List.count_filter (by simpa using hy)]

theorem clean_self (net : Net) (W : Multi) (x : Nat) :
    (step net W (.clean x)).status = W.status ∧
      (step net W (.clean x)).confirmed = W.confirmed ∧
      ((W.status x = none ∨ W.status x = some .active) → step net W (.clean x) = W) := by
  simp only [step]
  split
  · exact ⟨rfl, rfl, fun _ => rfl⟩
  · rename_i h
    refine ⟨rfl, rfl, fun h' => absurd ?_ h⟩
    simpa [Multi.active] using h'

theorem fresh_step {net : Net} (hw : Wired net) {W : Multi} (hf : Fresh net W) (e : Ev) :
    Fresh net (step net W e) := by
  rcases step_cases hw W e with ⟨x, e', hc, hs⟩ | ⟨_, h | ⟨x, rfl, hx⟩ | ⟨x, rfl⟩⟩
  · by_cases hx : W.status x = none
    · rw [unborn hf hx (by rw [hc x, if_pos rfl])]
      exact hf
    · refine ⟨fun y hy => ?_, fun h => hf.confirmed (hs.confirmed ▸ h)⟩
      by_cases hyx : y = x
      · subst hyx
        exfalso
        by_cases ha : W.status y = some .active
        · rw [(hs.self ha).2] at hy
          simp at hy
        · rw [hs.ended ha] at hy
          exact hx hy
      · rw [(hs.others y hyx).1]
        rw [(hs.others y hyx).2] at hy
        exact hf.none y hy
  · rw [h]; exact hf
  · have hb := begin_spec hw hf hx
    have he : step net W (.start x) = begin net W x := by
      simp only [step]; rw [if_pos hx]
    rw [he]
    refine ⟨fun y hy => ?_, hb.2.2.2⟩
    by_cases hyx : y = x
    · subst hyx
      rw [hb.2.2.1] at hy
      simp at hy
    · rw [(hb.1 y hyx).1]
      rw [(hb.1 y hyx).2] at hy
      exact hf.none y hy
  · obtain ⟨h1, h2, h3⟩ := clean_self net W x
    refine ⟨fun y hy => ?_, fun h => hf.confirmed (h2 ▸ h)⟩
    rw [h1] at hy
    by_cases hyx : y = x
    · subst hyx
      rw [h3 (.inl hy)]
      exact hf.none y hy
    · rw [(clean_apart net W x y hyx).1]
      exact hf.none y hy

theorem fresh_run {net : Net} (hw : Wired net) (es : List Ev) :
    ∀ {W : Multi}, Fresh net W → Fresh net (run net W es) := by
  induction es with
  | nil => exact fun h => h
  | cons e es ih => exact fun h => ih (fresh_step hw h e)

/-- Session `x` is where `s` is: with the same status, and while it is active with everything. -/
def At (W : Multi) (x : Nat) (s : State) : Prop :=
  W.status x = some s.status ∧ (s.status = .active → W.of x = s)

/-- One event, seen from a session that has begun. -/
theorem at_step {net : Net} (hw : Wired net) {W : Multi} {x : Nat} {s : State}
    (h : At W x s) (e : Ev) :
    At (step net W e) x (Flow.run net s (concerns x W e).toList) := by
  have hx : W.status x ≠ none := by rw [h.1]; simp
  rcases step_cases hw W e with ⟨y, e', hc, hs⟩ | ⟨hc, hcase⟩
  · rw [hc x]
    by_cases hyx : x = y
    · subst hyx
      rw [if_pos rfl]
      show At (step net W e) x (Flow.step net s e')
      by_cases ha : s.status = .active
      · have ha' : W.status x = some .active := by rw [h.1, ha]
        obtain ⟨h1, h2⟩ := hs.self ha'
        rw [h.2 ha] at h1 h2
        exact ⟨h2, fun _ => h1⟩
      · rw [Flow.step_ended e' ha]
        have ha' : W.status x ≠ some .active := by
          rw [h.1]; simpa using ha
        exact ⟨by rw [hs.ended ha', h.1], fun h' => absurd h' ha⟩
    · rw [if_neg hyx]
      show At (step net W e) x s
      obtain ⟨h1, h2⟩ := hs.others x hyx
      exact ⟨by rw [h2, h.1], fun ha => by rw [h1, h.2 ha]⟩
  · rw [hc x]
    show At (step net W e) x s
    rcases hcase with h' | ⟨y, rfl, hy⟩ | ⟨y, rfl⟩
    · rw [h']; exact h
    · have hyx : x ≠ y := fun h' => hx (h' ▸ hy)
      have he : step net W (.start y) = begin net W y := by
        simp only [step]; rw [if_pos hy]
      rw [he]
      obtain ⟨h4, h5⟩ := begin_apart hw W y x hyx
      exact ⟨by rw [h5, h.1], fun ha => by rw [h4, h.2 ha]⟩
    · obtain ⟨h1, _, h3⟩ := clean_self net W y
      by_cases hyx : x = y
      · subst hyx
        refine ⟨by rw [h1, h.1], fun ha => ?_⟩
        rw [h3 (.inr (by rw [h.1, ha])), h.2 ha]
      · obtain ⟨h4, h5⟩ := clean_apart net W y x hyx
        exact ⟨by rw [h5, h.1], fun ha => by rw [h4, h.2 ha]⟩

end Verif.Many
