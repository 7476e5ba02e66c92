import Verif.Values.Spec
import Verif.Flow.Lemmas

/-
A session with the contents of its messages is a session of `Verif.Flow` in which the choices are
those that the contents make.
-/
namespace Verif.Values

open Flow (Wired)
open Buffer (Retention)

variable {α : Type}

theorem net_lookup (w : Work α) (n : Nat) :
    w.net.ops.lookup n = (w.ops.lookup n).map Kind.shape := by
  unfold Work.net
  simp only
  induction w.ops with
  | nil => rfl
  | cons e l ih =>
    obtain ⟨m, k⟩ := e
    simp only [List.map_cons, List.lookup]
    split
    · rfl
    · exact ih

theorem put_self {β : Type} (f : Nat → β) (n : Nat) (x : β) : put f n x n = x := by simp [put]
theorem put_ne {β : Type} (f : Nat → β) {n m : Nat} (x : β) (h : m ≠ n) : put f n x m = f m := by
  simp [put, h]

/-- What an operation makes of a message, as a choice of `Flow`. -/
def Kind.choice (k : Kind α) (v : α) : Flow.Choice :=
  match k with
  | .node _ _ _ _ items => (items v).map (·.length)
  | .branch _ _ f => match f v with | .inl _ => [0] | .inr _ => [1]
  | .filter _ f => match f v with | none => [0] | some _ => [1]
  | .spread _ f => [(f v).length]
  | .split _ f => (f v).map (·.length)
  | _ => []

theorem flat_give (w : Work α) (s : State α) (p : Nat × α) :
    (give w s p).flat = Flow.give w.net s.flat p.1 := by
  unfold give Flow.give
  rw [net_lookup]
  have key : ({ s with
      pending := put s.pending p.1 (s.pending p.1 ++ [p.2])
      log := p :: s.log } : State α).flat =
      { s.flat with pending := Flow.bump s.flat.pending p.1 } := by
    unfold State.flat Flow.bump
    simp only [Flow.State.mk.injEq, and_true]
    funext m
    by_cases h : m = p.1
    · subst h
      rw [put_self]
      simp
      omega
    · rw [put_ne _ _ h]
      simp [h]
  cases w.ops.lookup p.1 with
  | none => rfl
  | some k =>
    cases k <;> first | exact key | rfl

theorem flat_giveAll (w : Work α) (ps : List (Nat × α)) (s : State α) :
    (giveAll w s ps).flat = Flow.giveAll w.net s.flat (ps.map (·.1)) := by
  unfold giveAll Flow.giveAll
  induction ps generalizing s with
  | nil => rfl
  | cons p ps ih =>
    simp only [List.foldl_cons, List.map_cons]
    rw [ih, flat_give]

theorem deal_targets (ts : List Nat) (vs : List (List α)) :
    (deal ts vs).map (·.1) = Flow.copies ts (vs.map (·.length)) := by
  induction ts generalizing vs with
  | nil => rfl
  | cons t ts ih =>
    unfold deal Flow.copies
    rw [List.map_append, ih]
    cases vs with
    | nil => simp
    | cons v vs =>
      simp only [List.headD_cons, List.tail_cons, List.map_cons, List.map_map]
      congr 1
      induction v with
      | nil => rfl
      | cons u v ih => simp only [List.map_cons, List.length_cons, List.replicate_succ, ih]; rfl

theorem lacks_misses (ts : List Nat) (vs : List (List α)) :
    lacks ts vs = Flow.misses ts (vs.map (·.length)) := by
  induction ts generalizing vs with
  | nil => rfl
  | cons t ts ih =>
    unfold lacks Flow.misses
    rw [ih]
    cases vs with
    | nil => simp
    | cons v vs => cases v <;> simp

theorem parts_targets (part : Nat → α → α) (v : α) (i : Nat) (ts : List Nat) :
    (parts part v i ts).map (·.1) = ts := by
  induction ts generalizing i with
  | nil => rfl
  | cons t ts ih => simp only [parts, List.map_cons, ih]

theorem flat_dispose (s : State α) : (dispose s).flat = Flow.dispose s.flat := rfl

theorem shape_join {k : Kind α} {bs : List (Nat × Bool)} {t : Nat} (h : k.shape = .join bs t) :
    ∃ pack, k = .join bs t pack := by
  cases k <;> simp only [Kind.shape] at h <;> cases h
  exact ⟨_, rfl⟩

theorem shape_access {k : Kind α} {l : Bool} {bs : List Nat} {t : Nat} :
    k.shape ≠ .access l bs t := by
  cases k <;> simp [Kind.shape]

theorem shape_gate {k : Kind α} {l : Bool} {bs : List Nat} {t : Nat} :
    k.shape ≠ .gate l bs t := by
  cases k <;> simp [Kind.shape]

theorem mem_net {w : Work α} {n : Nat} {k : Flow.Kind} (h : (n, k) ∈ w.net.ops) :
    ∃ k', (n, k') ∈ w.ops ∧ k = k'.shape := by
  unfold Work.net at h
  obtain ⟨e, he, h⟩ := List.mem_map.1 h
  cases h
  exact ⟨e.2, he, rfl⟩

theorem net_keys (w : Work α) : w.net.ops.map (·.1) = w.ops.map (·.1) := by
  unfold Work.net
  simp

theorem Wired.lookup {w : Work α} (hw : Wired w.net) {n : Nat} {k : Kind α}
    (h : (n, k) ∈ w.ops) : w.ops.lookup n = some k :=
  Flow.lookup_of_mem (by rw [← net_keys]; exact hw.keys) h

/-- The listeners of a buffer are the joins that read it. -/
theorem mem_listeners {w : Work α} (hw : Wired w.net) {b j : Nat} :
    j ∈ Flow.listeners w.net b ↔
      ∃ bs t pack, w.ops.lookup j = some (.join bs t pack) ∧ b ∈ bs.map (·.1) := by
  rw [Flow.mem_listeners]
  constructor
  · rintro (⟨bs, t, h, hb⟩ | ⟨bs, t, h, hb⟩)
    · obtain ⟨k, hk, h⟩ := mem_net h
      obtain ⟨pack, rfl⟩ := shape_join h.symm
      exact ⟨bs, t, pack, Wired.lookup hw hk, hb⟩
    · obtain ⟨k, hk, h⟩ := mem_net h
      exact absurd h.symm shape_access
  · rintro ⟨bs, t, pack, h, hb⟩
    refine Or.inl ⟨bs, t, ?_, hb⟩
    unfold Work.net
    exact List.mem_map.2 ⟨_, Flow.mem_of_lookup h, rfl⟩

theorem flat_notify {w : Work α} (hw : Wired w.net) (s : State α) (b : Nat) :
    (notify w s b).flat = Flow.giveAll w.net s.flat (Flow.listeners w.net b) := by
  have key : ∀ (l : List Nat) (s : State α), (∀ j, j ∈ l → j ∈ Flow.listeners w.net b) →
      ({ s with wakes := l.foldl Flow.bump s.wakes } : State α).flat =
        l.foldl (Flow.give w.net) s.flat := by
    intro l
    induction l with
    | nil => intro s _; rfl
    | cons j l ih =>
      intro s hl
      simp only [List.foldl_cons]
      rw [show Flow.give w.net s.flat j =
        ({ s with wakes := Flow.bump s.wakes j } : State α).flat by
          obtain ⟨bs, t, pack, h, _⟩ := (mem_listeners hw).1 (hl j List.mem_cons_self)
          unfold Flow.give
          rw [net_lookup, h]
          simp only [Option.map_some, Kind.shape]
          unfold State.flat Flow.bump
          simp only [Flow.State.mk.injEq, true_and, and_true]
          funext m
          by_cases hm : m = j
          · simp [hm]; omega
          · simp [hm]]
      exact ih { s with wakes := Flow.bump s.wakes j }
        (fun i hi => hl i (List.mem_cons_of_mem _ hi))
  exact key _ s (fun _ h => h)

/-- Buffers do not hold more than they may. -/
def Fits (w : Work α) (s : State α) : Prop :=
  ∀ b r c, w.ops.lookup b = some (.buffer r) → capacity r = some c → (s.held b).length ≤ c

theorem implPush_length (q : List α) (r : Retention) (v : α)
    (h : ∀ c, capacity r = some c → q.length ≤ c) :
    (Buffer.implPush q r v).1.length = Flow.push (capacity r) q.length := by
  unfold Buffer.implPush Flow.push capacity
  cases r with
  | keepAll => simp
  | keepFirst n =>
    have := h n rfl
    simp only
    split <;> simp <;> omega
  | keepLast n =>
    have := h n rfl
    simp only [Buffer.vecPop]
    split
    · simp; omega
    · split
      · simp; omega
      · simp; omega

theorem flat_ready (s : State α) (bs : List (Nat × Bool)) :
    ready s bs = Flow.ready s.flat.held bs := by
  unfold ready Flow.ready State.flat
  congr 1
  congr 1
  funext b
  cases h : s.held b.1 <;> simp [h]

theorem fetch_some (held : Nat → List α) (bs : List (Nat × Bool)) (hd : (bs.map (·.1)).Nodup)
    (hr : ∀ b, b ∈ bs → held b.1 ≠ []) : ∃ r, fetch held bs = some r := by
  induction bs generalizing held with
  | nil => exact ⟨_, rfl⟩
  | cons b bs ih =>
    unfold fetch
    simp only [List.map_cons, List.nodup_cons] at hd
    cases h : (held b.1).getLast? with
    | none => exact absurd (List.getLast?_eq_none_iff.1 h) (hr b List.mem_cons_self)
    | some v =>
      simp only
      obtain ⟨r, hr'⟩ := ih (if b.2 then held else put held b.1 (held b.1).dropLast) hd.2 (by
        intro c hc
        have hne : c.1 ≠ b.1 := fun he => hd.1 (he ▸ List.mem_map_of_mem hc)
        have := hr c (List.mem_cons_of_mem _ hc)
        split
        · exact this
        · rw [put_ne _ _ hne]; exact this)
      rw [hr']
      exact ⟨_, rfl⟩

theorem fetch_flat {held h : Nat → List α} {vs : List α} {bs : List (Nat × Bool)}
    (hf : fetch held bs = some (vs, h)) :
    (fun n => (h n).length) = Flow.fetch (fun n => (held n).length) bs := by
  induction bs generalizing held vs with
  | nil => simp only [fetch] at hf; cases hf; rfl
  | cons b bs ih =>
    unfold fetch at hf
    split at hf
    · cases hf
    · split at hf
      · cases hf
      · rename_i vs' h' hf'
        cases hf
        rw [ih hf']
        unfold Flow.fetch
        simp only [List.foldl_cons]
        congr 1
        split
        · rfl
        · funext m
          by_cases hm : m = b.1
          · subst hm; rw [put_self, Flow.drop_self]; simp
          · rw [put_ne _ _ hm, Flow.drop_ne _ hm]

/-- What happens, as `Flow` sees it. `gone` is an event without effect. -/
def flatEv (w : Work α) (s : State α) : Ev → Flow.Ev
  | .exec n =>
    match w.ops.lookup n with
    | none => .gone 0
    | some (.join _ _ _) => if s.wakes n = 0 then .gone 0 else .exec n []
    | some k =>
      match s.pending n with
      | [] => .gone 0
      | v :: _ => .exec n (k.choice v)
  | .item n j i =>
    match w.ops.lookup n with
    | some (.node true _ _ ss _) =>
      match (s.tasks n)[j]?, ss[i]? with
      | some job, some _ =>
        match job.left[i]? with
        | some (_ :: _) => .item n i
        | _ => .gone 0
      | _, _ => .gone 0
    | _ => .gone 0
  | .finish n j =>
    match w.ops.lookup n with
    | some (.node true _ _ ss _) =>
      match (s.tasks n)[j]? with
      | some job => if job.sent ss then .finish n else .gone 0
      | none => .gone 0
    | _ => .gone 0
  | .lose n j =>
    match w.ops.lookup n with
    | some (.node true _ _ _ _) => if j < (s.tasks n).length then .lose n else .gone 0
    | _ => .gone 0
  | .check => .check

theorem gone_flat (w : Work α) (s : State α) : Flow.step w.net s.flat (.gone 0) = s.flat := by
  unfold Flow.step
  split
  · rfl
  · rfl

theorem flat_validate (w : Work α) (s : State α) :
    (validate w s).flat = Flow.validate w.net s.flat := by
  unfold validate Flow.validate
  show _ = match Graph.checkReachability (Flow.world w.net s.flat) 0 w.terminal with
    | .ok true => s.flat
    | .ok false => { s.flat with status := .cancelled }
    | _ => { s.flat with failures := s.flat.failures + 1 }
  cases Graph.checkReachability (Flow.world w.net s.flat) 0 w.terminal with
  | ok b => cases b <;> rfl
  | _ => rfl

theorem flat_received (w : Work α) (x : α) : (received w x).flat = Flow.received w.net := by
  unfold received Flow.received
  rw [flat_give]
  rfl

theorem flat_start (w : Work α) (x : α) : (start w x).flat = Flow.start w.net := by
  unfold start Flow.start
  rw [flat_validate, flat_received]

/-- A queue gets shorter. -/
theorem flat_take (s : State α) {n : Nat} {v : α} {vs : List α} (h : s.pending n = v :: vs) :
    ({ s with pending := put s.pending n vs } : State α).flat =
      { s.flat with pending := Flow.drop s.flat.pending n } := by
  unfold State.flat
  simp only [Flow.State.mk.injEq, true_and, and_true]
  funext m
  by_cases hm : m = n
  · subst hm
    rw [Flow.drop_self, put_self, h]
    simp only [List.length_cons]
    omega
  · rw [Flow.drop_ne _ hm, put_ne _ _ hm]

theorem flat_wake (s : State α) {n : Nat} (h : s.wakes n ≠ 0) :
    ({ s with wakes := Flow.drop s.wakes n } : State α).flat =
      { s.flat with pending := Flow.drop s.flat.pending n } := by
  unfold State.flat
  simp only [Flow.State.mk.injEq, true_and, and_true]
  funext m
  by_cases hm : m = n
  · subst hm
    rw [Flow.drop_self, Flow.drop_self]
    omega
  · rw [Flow.drop_ne _ hm, Flow.drop_ne _ hm]

theorem flat_erase (s : State α) {n j : Nat} (h : j < (s.tasks n).length) :
    ({ s with tasks := put s.tasks n ((s.tasks n).eraseIdx j) } : State α).flat =
      { s.flat with tasks := Flow.drop s.flat.tasks n } := by
  unfold State.flat
  simp only [Flow.State.mk.injEq, true_and, and_true]
  funext m
  by_cases hm : m = n
  · subst hm
    rw [Flow.drop_self, put_self, List.length_eraseIdx, if_pos h]
  · rw [Flow.drop_ne _ hm, put_ne _ _ hm]

theorem flat_set (s : State α) (n j : Nat) (job : Job α) :
    ({ s with tasks := put s.tasks n ((s.tasks n).set j job) } : State α).flat = s.flat := by
  unfold State.flat
  simp only [Flow.State.mk.injEq, true_and, and_true]
  funext m
  by_cases hm : m = n
  · subst hm; rw [put_self, List.length_set]
  · rw [put_ne _ _ hm]

theorem flat_execute {w : Work α} (hw : Wired w.net) (s : State α) (hf : Fits w s) (n : Nat) (v : α)
    {k : Kind α} (hk : w.ops.lookup n = some k) (hj : ∀ bs t pack, k ≠ .join bs t pack) :
    (execute w s n v k).flat = Flow.execute w.net s.flat n (k.choice v) k.shape := by
  cases k with
  | node async f t ss items =>
    cases async with
    | true =>
      simp only [execute, Flow.execute, Kind.shape, if_true]
      unfold State.flat Flow.bump
      simp only [Flow.State.mk.injEq, true_and, and_true]
      funext m
      by_cases hm : m = n
      · subst hm; rw [put_self]; simp
      · rw [put_ne _ _ hm]; simp [hm]
    | false =>
      have hc : (Kind.node false f t ss items).choice v = (items v).map (·.length) := rfl
      rw [hc]
      simp only [execute, Flow.execute, Kind.shape]
      rw [if_neg (show ¬ (false = true) by simp), flat_give, ← deal_targets, ← flat_giveAll,
        ← lacks_misses]
      cases lacks ss (items v) <;> rfl
  | fork ts part =>
    simp only [execute, Flow.execute, Kind.shape]
    rw [flat_giveAll, parts_targets]
  | branch a b f =>
    cases h : f v with
    | inl u =>
      have hc : (Kind.branch a b f).choice v = [0] := by simp [Kind.choice, h]
      rw [hc]
      simp [execute, Flow.execute, Kind.shape, h, flat_dispose, flat_give]
    | inr u =>
      have hc : (Kind.branch a b f).choice v = [1] := by simp [Kind.choice, h]
      rw [hc]
      simp [execute, Flow.execute, Kind.shape, h, flat_dispose, flat_give]
  | filter t f =>
    cases h : f v with
    | none =>
      have hc : (Kind.filter t f).choice v = [0] := by simp [Kind.choice, h]
      rw [hc]
      simp [execute, Flow.execute, Kind.shape, h, flat_dispose]
    | some u =>
      have hc : (Kind.filter t f).choice v = [1] := by simp [Kind.choice, h]
      rw [hc]
      simp [execute, Flow.execute, Kind.shape, h, flat_give]
  | spread t f =>
    have hc : (Kind.spread t f).choice v = [(f v).length] := rfl
    rw [hc]
    simp only [execute, Flow.execute, Kind.shape, List.headD_cons]
    have h : (giveAll w s ((f v).map fun u => (t, u))).flat =
        Flow.giveAll w.net s.flat (List.replicate (f v).length t) := by
      rw [flat_giveAll, List.map_map]
      congr 1
      induction f v with
      | nil => rfl
      | cons u l ih => simp only [List.map_cons, List.length_cons, List.replicate_succ, ih]; rfl
    rw [← h]
    cases f v <;> simp [flat_dispose]
  | split ts f =>
    have hc : (Kind.split ts f).choice v = (f v).map (·.length) := rfl
    rw [hc]
    simp only [execute, Flow.execute, Kind.shape]
    rw [← deal_targets, ← flat_giveAll, ← lacks_misses]
    cases lacks ts (f v) <;> rfl
  | buffer r =>
    simp only [execute, Flow.execute, Kind.shape]
    rw [flat_notify hw, if_pos (show Flow.isOpen s.flat n = true from rfl)]
    congr 1
    unfold State.flat
    simp only [Flow.State.mk.injEq, true_and, and_true]
    funext m
    by_cases hm : m = n
    · subst hm
      rw [put_self, if_pos rfl]
      exact implPush_length _ _ _ (fun c hc => hf _ _ _ hk hc)
    · rw [put_ne _ _ hm, if_neg hm]
  | join bs t pack => exact absurd rfl (hj bs t pack)
  | cancel => rfl
  | terminate => rfl
  | unused => rfl

theorem Wired.distinct {w : Work α} (hw : Wired w.net) {j : Nat} {bs : List (Nat × Bool)} {t : Nat}
    {pack : List α → α} (h : w.ops.lookup j = some (.join bs t pack)) : (bs.map (·.1)).Nodup :=
  (hw.joins j bs t (List.mem_map.2 ⟨_, Flow.mem_of_lookup h, rfl⟩)).2.1

theorem flat_fire {w : Work α} (s : State α) (n : Nat) {bs : List (Nat × Bool)}
    {t : Nat} {pack : List α → α} (hd : (bs.map (·.1)).Nodup) :
    (fire w s bs t pack).flat = Flow.execute w.net s.flat n [] (.join bs t) := by
  unfold fire
  simp only [Flow.execute]
  rw [flat_ready]
  split
  · rename_i hr
    obtain ⟨⟨vs, h⟩, hv⟩ := fetch_some s.held bs hd (fun b hb he => by
      have := (Flow.ready_iff.1 hr).2 b hb
      simp [State.flat, he] at this)
    rw [hv]
    simp only
    rw [flat_give]
    congr 1
    unfold State.flat
    simp only [Flow.State.mk.injEq, true_and, and_true]
    exact fetch_flat hv
  · rfl

/-- One event is one event of `Flow`. -/
theorem flat_step {w : Work α} (hw : Wired w.net) (s : State α) (hf : Fits w s) (e : Ev) :
    (step w s e).flat = Flow.step w.net s.flat (flatEv w s e) := by
  by_cases ha : s.status = .active
  · have ha' : s.flat.status = .active := ha
    unfold step
    rw [if_neg (fun h => h ha)]
    cases e with
    | exec n =>
      simp only [flatEv]
      cases hk : w.ops.lookup n with
      | none => simp only; rw [gone_flat]
      | some k =>
        have hk' : w.net.ops.lookup n = some k.shape := by rw [net_lookup, hk]; rfl
        have other : (∀ bs t pack, k ≠ .join bs t pack) →
            (match s.pending n with
              | [] => s
              | v :: vs => execute w { s with pending := put s.pending n vs } n v k).flat =
            Flow.step w.net s.flat (match s.pending n with
              | [] => .gone 0
              | v :: _ => .exec n (k.choice v)) := by
          intro hj
          cases hp : s.pending n with
          | nil => simp only; rw [gone_flat]
          | cons v vs =>
            simp only
            rw [flat_execute hw { s with pending := put s.pending n vs } hf n v hk hj, flat_take s hp]
            unfold Flow.step
            rw [if_neg (fun h => h ha')]
            simp only [hk']
            rw [if_neg (by simp [State.flat, hp])]
        cases k with
        | join bs t pack =>
          simp only
          by_cases hwk : s.wakes n = 0
          · rw [if_pos hwk, if_pos hwk, gone_flat]
          · rw [if_neg hwk, if_neg hwk, flat_fire _ n (Wired.distinct hw hk), flat_wake s hwk]
            unfold Flow.step
            rw [if_neg (fun h => h ha')]
            simp only [hk', Kind.shape]
            rw [if_neg (by simp [State.flat]; omega)]
        | _ => exact other (by simp)
    | item n j i =>
      simp only [flatEv]
      cases hk : w.ops.lookup n with
      | none => simp only; rw [gone_flat]
      | some k =>
        cases k with
        | node async f t ss items =>
          cases async with
          | false => simp only; rw [gone_flat]
          | true =>
            have hk' : w.net.ops.lookup n = some (.node true t ss) := by rw [net_lookup, hk]; rfl
            simp only
            cases hj : (s.tasks n)[j]? with
            | none => simp only; rw [gone_flat]
            | some job =>
              cases hm : ss[i]? with
              | none => simp only; rw [gone_flat]
              | some m =>
                simp only
                cases hl : job.left[i]? with
                | none => simp only; rw [gone_flat]
                | some l =>
                  cases l with
                  | nil => simp only; rw [gone_flat]
                  | cons u us =>
                    simp only
                    rw [flat_give, flat_set]
                    unfold Flow.step
                    rw [if_neg (fun h => h ha')]
                    simp only [hk', hm]
                    rw [if_neg (by
                      have := (List.getElem?_eq_some_iff.1 hj).1
                      simp only [State.flat]; omega)]
        | _ => simp only; rw [gone_flat]
    | finish n j =>
      simp only [flatEv]
      cases hk : w.ops.lookup n with
      | none => simp only; rw [gone_flat]
      | some k =>
        cases k with
        | node async f t ss items =>
          cases async with
          | false => simp only; rw [gone_flat]
          | true =>
            have hk' : w.net.ops.lookup n = some (.node true t ss) := by rw [net_lookup, hk]; rfl
            simp only
            cases hj : (s.tasks n)[j]? with
            | none => simp only; rw [gone_flat]
            | some job =>
              have hlt := (List.getElem?_eq_some_iff.1 hj).1
              simp only
              cases hs : job.sent ss with
              | false => simp only [Bool.false_eq_true, if_false]; rw [gone_flat]
              | true =>
                have hst : Flow.step w.net s.flat (.finish n) =
                    if ss.isEmpty then
                      Flow.give w.net { s.flat with tasks := Flow.drop s.flat.tasks n } t
                    else Flow.dispose
                      (Flow.give w.net { s.flat with tasks := Flow.drop s.flat.tasks n } t) := by
                  unfold Flow.step
                  rw [if_neg (show ¬ s.flat.status ≠ .active from fun h => h ha')]
                  simp only [hk']
                  rw [if_neg (show ¬ s.flat.tasks n = 0 by simp only [State.flat]; omega)]
                simp only [if_true]
                rw [hst, ← flat_erase s hlt, ← flat_give w _ (t, job.response)]
                cases ss.isEmpty <;> rfl
        | _ => simp only; rw [gone_flat]
    | lose n j =>
      simp only [flatEv]
      cases hk : w.ops.lookup n with
      | none => simp only; rw [gone_flat]
      | some k =>
        cases k with
        | node async f t ss items =>
          cases async with
          | false => simp only; rw [gone_flat]
          | true =>
            have hk' : w.net.ops.lookup n = some (.node true t ss) := by rw [net_lookup, hk]; rfl
            simp only
            by_cases hlt : j < (s.tasks n).length
            · rw [if_pos hlt, if_pos hlt]
              unfold Flow.step
              rw [if_neg (fun h => h ha')]
              simp only [hk']
              rw [if_neg (by simp only [State.flat]; omega), ← flat_erase s hlt, flat_dispose]
            · rw [if_neg hlt, if_neg hlt, gone_flat]
        | _ => simp only; rw [gone_flat]
    | check =>
      simp only [flatEv]
      unfold Flow.step
      rw [if_neg (show ¬ s.flat.status ≠ .active from fun h => h ha')]
      simp only
      by_cases h0 : s.checks = 0
      · rw [if_pos h0, if_pos (show s.flat.checks = 0 from h0)]
      · rw [if_neg h0, if_neg (show ¬ s.flat.checks = 0 from h0), flat_validate]
        rfl
  · have ha' : s.flat.status ≠ .active := ha
    unfold step Flow.step
    rw [if_pos ha, if_pos ha']

end Verif.Values
