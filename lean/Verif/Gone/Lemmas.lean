import Verif.Gone.Spec
import Verif.Delivery.Runs

/-
The account of the requests of a service, kept by every run.
-/
namespace Verif.Gone

open Verif.Delivery (Svc Task Order Instr Kind Delivery accepted ended lost started waiting active)

set_option linter.unusedSimpArgs false
set_option linter.unusedVariables false

/-! ### What the service accepts -/

theorem serveNext_accepted (label : Option Nat) : ∀ (fuel : Nat) (v v' : Svc),
    v.serveNext label fuel = some v' → accepted v'.log = accepted v.log ∧ v'.kind = v.kind := by
  intro fuel
  induction fuel with
  | zero => intro v v' h; cases h
  | succ n ih =>
    intro v v' h
    unfold Svc.serveNext at h
    split at h
    · cases h
    · cases h; exact ⟨rfl, rfl⟩
    · split at h
      · have := ih _ _ h
        simpa using this
      · cases h
        simp [Svc.start]

theorem release_accepted {v v' : Svc} {t : Task} {r : Verif.Delivery.Rec}
    (hr : accepted [r] = []) (h : v.release t r = some v') :
    accepted v'.log = accepted v.log ∧ v'.kind = v.kind := by
  unfold Svc.release at h
  dsimp only at h
  split at h
  · cases h; simp [hr]
  · split at h
    · cases h; simp [hr]
    · have := serveNext_accepted _ _ _ _ h
      simpa [hr] using this
    · have := serveNext_accepted _ _ _ _ h
      simpa [hr] using this

theorem stop_accepted {v v' : Svc} {d : Order} {label : Option Nat}
    (h : v.stop d label = some v') : accepted v'.log = accepted v.log ∧ v'.kind = v.kind := by
  unfold Svc.stop at h
  split at h
  · split at h <;> cases h <;> exact ⟨rfl, rfl⟩
  · cases h; exact ⟨rfl, rfl⟩
  · split at h
    · exact release_accepted (by simp) h
    · cases h; exact ⟨rfl, rfl⟩

theorem serve_accepted {v v' : Svc} {source session : Nat} {instr : Option Instr}
    (h : v.serve source session instr = some v') :
    accepted v'.log = accepted v.log ++ [⟨v.next, source, session, instr⟩] ∧ v'.kind = v.kind := by
  unfold Svc.serve at h
  dsimp only at h
  split at h
  · cases h
  · cases h
    exact ⟨by simp [Svc.start, -List.append_assoc], rfl⟩
  · split at h
    · cases h
      exact ⟨by simp [-List.append_assoc], rfl⟩
    · have := stop_accepted h
      simpa [-List.append_assoc] using this

theorem step_accepted {v v' : Svc} {e : Verif.Delivery.Ev}
    (he : ∀ a b c, e ≠ .arrive a b c) (h : Verif.Delivery.step v e = some v') :
    accepted v'.log = accepted v.log ∧ v'.kind = v.kind := by
  cases e with
  | arrive a b c => exact absurd rfl (he a b c)
  | finish id =>
    simp only [Verif.Delivery.step] at h
    split at h
    · cases h; exact ⟨rfl, rfl⟩
    · exact release_accepted (by simp) h
  | cancelDone id =>
    simp only [Verif.Delivery.step] at h
    split at h
    · cases h; exact ⟨rfl, rfl⟩
    · refine release_accepted ?_ h
      split <;> simp
  | unblock =>
    simp only [Verif.Delivery.step] at h
    split at h
    · cases h; exact ⟨rfl, rfl⟩
    · have := serveNext_accepted _ _ _ _ h
      simpa using this
  | cancelNow =>
    simp only [Verif.Delivery.step] at h
    split at h <;> cases h <;> exact ⟨rfl, rfl⟩
  | cleanup source session =>
    simp only [Verif.Delivery.step, Option.some.injEq] at h
    subst h
    unfold Svc.cleanTasks
    split
    · simp
    · simp
    · simp [accepted, List.filterMap_append, List.filterMap_map, Function.comp_def]
  | sever source =>
    cases h; exact ⟨rfl, rfl⟩

/-! ### Counting requests -/

@[simp] theorem ofReq_append (r : Req) (a b : List Order) :
    ofReq r (a ++ b) = ofReq r a + ofReq r b := by
  simp [ofReq]

@[simp] theorem ofReq_nil (r : Req) : ofReq r [] = 0 := rfl

theorem ofReq_perm (r : Req) {a b : List Order} (h : a.Perm b) : ofReq r a = ofReq r b :=
  h.countP_eq _

theorem acc_perm {ex : Option (Option Nat)} {v : Svc} (h : Verif.Delivery.Inv ex v) :
    (waiting v ++ active v ++ ended v.log ++ lost v.log).Perm (accepted v.log) := by
  rw [List.perm_iff_count]
  intro o
  simpa [-List.append_assoc, Nat.add_assoc] using h.acc o

theorem acc_req {ex : Option (Option Nat)} {v : Svc} (h : Verif.Delivery.Inv ex v) (r : Req) :
    ofReq r (waiting v) + ofReq r (active v) + ofReq r (ended v.log) + ofReq r (lost v.log) =
      ofReq r (accepted v.log) := by
  have := ofReq_perm r (acc_perm h)
  simpa [-List.append_assoc] using this

theorem active_ids {ex : Option (Option Nat)} {v : Svc} (h : Verif.Delivery.Inv ex v) :
    ((active v).map (·.id)).Nodup := by
  have hp := (acc_perm h).map (·.id)
  have hn := hp.nodup_iff.2 h.ids
  simp only [List.map_append, List.append_assoc] at hn
  exact (List.nodup_append.1 (List.nodup_append.1 hn).2.1).1

theorem ended_req (r : Req) (l : List Verif.Delivery.Rec) :
    ofReq r (ended l) = ofReq r (responded l) + ofReq r (stopped l) := by
  induction l with
  | nil => rfl
  | cons x l ih =>
    cases x <;> simp_all [ended, responded, stopped, ofReq, List.countP_cons] <;> omega

theorem count_map_dropped (r : Req) (os : List Order) :
    (os.map fun o => Rec.dropped (reqOf o)).count (.dropped r) = ofReq r os := by
  induction os with
  | nil => rfl
  | cons o os ih =>
    simp only [List.map_cons, List.count_cons, ih, ofReq, List.countP_cons]
    by_cases h : reqOf o = r <;> simp [h]

/-- The tasks that remain when the one with this id ends. -/
theorem filter_id (r : Req) (t : Task) : ∀ (l : List Task), (l.map fun u => u.order.id).Nodup →
    t ∈ l →
    ofReq r ((l.filter fun u => u.order.id != t.order.id).map (·.order)) + ofReq r [t.order] =
      ofReq r (l.map (·.order))
  | [], _, h => by cases h
  | a :: l, hn, h => by
    simp only [List.map_cons, List.nodup_cons] at hn
    rcases List.mem_cons.1 h with rfl | h'
    · have hall : ∀ u ∈ l, (u.order.id != t.order.id) = true := by
        intro u hu
        simp only [bne_iff_ne, ne_eq]
        intro he
        exact hn.1 (List.mem_map.2 ⟨u, hu, he⟩)
      have hf : (t :: l).filter (fun u => u.order.id != t.order.id) = l := by
        rw [List.filter_cons]
        simp only [bne_self_eq_false, Bool.false_eq_true, if_false]
        exact List.filter_eq_self.2 hall
      rw [hf]
      simp [ofReq, List.countP_cons]
    · have ha : (a.order.id != t.order.id) = true := by
        simp only [bne_iff_ne, ne_eq]
        intro he
        exact hn.1 (List.mem_map.2 ⟨t, h', he.symm⟩)
      have ih := filter_id r t l hn.2 h'
      rw [List.filter_cons, if_pos ha]
      simp only [List.map_cons, ofReq, List.countP_cons] at ih ⊢
      omega

/-! ### The invariant -/

/-- The account of the requests. -/
structure Inv (w : W) : Prop where
  front : ∀ r, w.log.count (.arrived r) = w.inputs.count r + w.log.count (.answered r) +
    w.log.count (.disposed r) + w.log.count (.ignored r) + w.log.count (.cleared r) +
    ofReq r (accepted w.svc.log)
  blk : w.blocking = true → w.svc.log = [] ∧ w.svc.tasks = []
  here : w.present = true → Verif.Delivery.Inv none w.svc ∧ ∀ r, w.log.count (.dropped r) = 0
  ids : (w.svc.tasks.map fun t => t.order.id).Nodup
  gone : w.present = false → (∀ r, ofReq r (accepted w.svc.log) = ofReq r (active w.svc) +
    ofReq r (ended w.svc.log) + ofReq r (lost w.svc.log) + w.log.count (.dropped r)) ∧
    (w.svc.kind ≠ .async → w.svc.tasks = [])
  emitted : ∀ r, (w.place r.node = .series → w.log.count (.disposed r) = 0) ∧
    (w.place r.node = .workflow → w.log.count (.ignored r) = 0)

theorem fresh_inv (place : Nat → Place) (blocking : Bool) (kind : Kind) (parallel : Bool) :
    Inv (W.fresh place blocking kind parallel) where
  front r := by simp [W.fresh, Svc.fresh, accepted]
  blk _ := by simp [W.fresh, Svc.fresh]
  here _ := ⟨Verif.Delivery.fresh_inv kind parallel, by simp [W.fresh]⟩
  ids := by simp [W.fresh, Svc.fresh]
  gone h := by cases h
  emitted r := by simp [W.fresh]

theorem count_emit (w : W) (r : Req) (l : List Req) :
    (l.map w.emit).count (.disposed r) + (l.map w.emit).count (.ignored r) = l.count r := by
  induction l with
  | nil => rfl
  | cons a l ih =>
    simp only [List.map_cons, List.count_cons]
    have : (if (w.emit a == Rec.disposed r) = true then 1 else 0) +
        (if (w.emit a == Rec.ignored r) = true then 1 else 0) = if (a == r) = true then 1 else 0 := by
      unfold W.emit
      by_cases h : a = r <;> cases w.place a.node <;> simp [h]
    omega

theorem count_emit_other (w : W) (x : Rec) (l : List Req)
    (h1 : ∀ r, x ≠ .disposed r) (h2 : ∀ r, x ≠ .ignored r) :
    (l.map w.emit).count x = 0 := by
  rw [List.count_eq_zero]
  intro hm
  obtain ⟨a, _, ha⟩ := List.mem_map.1 hm
  unfold W.emit at ha
  split at ha
  · exact h1 _ ha.symm
  · exact h2 _ ha.symm

theorem count_emit_series (w : W) (r : Req) (l : List Req) (h : w.place r.node = .series) :
    (l.map w.emit).count (.disposed r) = 0 := by
  rw [List.count_eq_zero]
  intro hm
  obtain ⟨a, _, ha⟩ := List.mem_map.1 hm
  unfold W.emit at ha
  split at ha
  · rename_i hp
    cases ha
    rw [h] at hp; cases hp
  · cases ha

theorem count_emit_workflow (w : W) (r : Req) (l : List Req) (h : w.place r.node = .workflow) :
    (l.map w.emit).count (.ignored r) = 0 := by
  rw [List.count_eq_zero]
  intro hm
  obtain ⟨a, _, ha⟩ := List.mem_map.1 hm
  unfold W.emit at ha
  split at ha
  · cases ha
  · rename_i hp
    cases ha
    rw [h] at hp; cases hp

theorem disposeAll_inv {w : W} (h : Inv w) : Inv w.disposeAll := by
  have hd : ∀ r, (w.inputs.map w.emit).count (.dropped r) = 0 := fun r =>
    count_emit_other w _ _ (by simp) (by simp)
  refine ⟨?_, h.blk, ?_, h.ids, ?_, ?_⟩
  · intro r
    simp only [W.disposeAll, List.count_append, List.count_nil]
    have h0 := h.front r
    have h1 := count_emit w r w.inputs
    rw [count_emit_other w (.arrived r) _ (by simp) (by simp),
      count_emit_other w (.answered r) _ (by simp) (by simp),
      count_emit_other w (.cleared r) _ (by simp) (by simp)]
    omega
  · intro hp
    refine ⟨(h.here hp).1, fun r => ?_⟩
    simp only [W.disposeAll, List.count_append, (h.here hp).2 r, hd r]
  · intro hp
    refine ⟨fun r => ?_, (h.gone hp).2⟩
    simp only [W.disposeAll, List.count_append, hd r]
    exact (h.gone hp).1 r
  · intro r
    constructor
    · intro hs
      simp only [W.disposeAll, List.count_append]
      rw [count_emit_series w r _ hs, (h.emitted r).1 hs]
    · intro hs
      simp only [W.disposeAll, List.count_append]
      rw [count_emit_workflow w r _ hs, (h.emitted r).2 hs]

/-- Only the flags change. -/
theorem Inv.flags {w : W} (h : Inv w) (b : Bool) (n : Nat) :
    Inv { w with
      tracked := b
      signals := n } :=
  ⟨h.front, h.blk, h.here, h.ids, h.gone, h.emitted⟩

theorem collect_inv {w : W} (h : Inv w) : Inv w.collect := by
  unfold W.collect
  dsimp only
  split
  · exact h.flags _ _
  · exact disposeAll_inv (h.flags _ _)

theorem arrive_inv {w : W} (h : Inv w) (r : Req) :
    Inv { w with
      inputs := w.inputs ++ [r]
      log := w.log ++ [.arrived r] } := by
  refine ⟨?_, h.blk, ?_, h.ids, ?_, ?_⟩
  · intro x
    have := h.front x
    simp only [List.count_append, List.count_singleton]
    by_cases hx : r = x
    · subst hx
      simp
      omega
    · simp [hx]
      omega
  · intro hp
    refine ⟨(h.here hp).1, fun x => ?_⟩
    simp [(h.here hp).2 x]
  · intro hp
    refine ⟨fun x => ?_, (h.gone hp).2⟩
    have := (h.gone hp).1 x
    simp [this]
  · intro x
    have := h.emitted x
    simpa using this

theorem clearInputs_inv {w : W} (h : Inv w) (node session : Nat) :
    Inv (w.clearInputs node session) := by
  have hz : ∀ (x : Rec) (l : List Req), (∀ r, x ≠ .cleared r) → (l.map Rec.cleared).count x = 0 := by
    intro x l hx
    rw [List.count_eq_zero]
    intro hm
    obtain ⟨a, _, ha⟩ := List.mem_map.1 hm
    exact hx a ha.symm
  have hc : ∀ (r : Req) (l : List Req), (l.map Rec.cleared).count (.cleared r) = l.count r := by
    intro r l
    induction l with
    | nil => rfl
    | cons a l ih =>
      simp only [List.map_cons, List.count_cons, ih]
      by_cases h : a = r <;> simp [h]
  have hs : ∀ (r : Req) (l : List Req) (p : Req → Bool),
      (l.filter fun x => !p x).count r + (l.filter p).count r = l.count r := by
    intro r l p
    induction l with
    | nil => rfl
    | cons a l ih =>
      cases hp : p a <;> simp [List.filter_cons, hp, List.count_cons] <;> omega
  refine ⟨?_, h.blk, ?_, h.ids, ?_, ?_⟩
  · intro r
    have h0 := h.front r
    have h1 := hs r w.inputs fun x => x.node == node && x.session == session
    simp only [W.clearInputs, List.count_append, hc]
    rw [hz (.arrived r) _ (by simp), hz (.answered r) _ (by simp), hz (.disposed r) _ (by simp),
      hz (.ignored r) _ (by simp)]
    omega
  · intro hp
    refine ⟨(h.here hp).1, fun r => ?_⟩
    simp only [W.clearInputs, List.count_append, (h.here hp).2 r, hz (.dropped r) _ (by simp)]
  · intro hp
    refine ⟨fun r => ?_, (h.gone hp).2⟩
    simp only [W.clearInputs, List.count_append, hz (.dropped r) _ (by simp)]
    exact (h.gone hp).1 r
  · intro r
    have := h.emitted r
    simpa only [W.clearInputs, List.count_append, hz (.disposed r) _ (by simp),
      hz (.ignored r) _ (by simp), Nat.add_zero] using this

theorem execute_inv {w : W} (h : Inv w) (node : Nat) : ∃ w', w.execute node = some w' ∧ Inv w' := by
  unfold W.execute
  split
  · rename_i hp
    split
    · exact ⟨_, rfl, h⟩
    · rename_i r hf
      have hmem := List.mem_of_find?_eq_some hf
      have hcount : ∀ x, (w.inputs.erase r).count x + (if r = x then 1 else 0) = w.inputs.count x := by
        intro x
        rw [List.count_erase]
        by_cases hx : r = x
        · subst hx
          have := List.count_pos_iff.2 hmem
          simp
          omega
        · simp [hx]
      dsimp only
      split
      · rename_i hb
        refine ⟨_, rfl, ?_, h.blk, ?_, h.ids, ?_, ?_⟩
        · intro x
          have h0 := h.front x
          have h1 := hcount x
          simp only [List.count_append, List.count_singleton]
          by_cases hx : r = x
          · subst hx
            simp at h1 ⊢
            omega
          · simp [hx] at h1 ⊢
            omega
        · intro hp'
          refine ⟨(h.here hp).1, fun x => ?_⟩
          simp [(h.here hp).2 x]
        · intro hp'
          rw [hp] at hp'; cases hp'
        · intro x
          have := h.emitted x
          simpa using this
      · rename_i hb
        obtain ⟨v, hv, hi, _⟩ := Verif.Delivery.serve_inv (h.here hp).1 r.node r.session r.instr
        have hacc := serve_accepted hv
        rw [hv]
        refine ⟨_, rfl, ?_, fun h' => absurd h' hb, ?_, ?_, ?_, h.emitted⟩
        · intro x
          have h0 := h.front x
          have h1 := hcount x
          simp only [hacc.1, ofReq_append]
          have h2 : ofReq x [⟨w.svc.next, r.node, r.session, r.instr⟩] = if r = x then 1 else 0 := by
            simp only [ofReq, List.countP_cons, reqOf, List.countP_nil, Nat.zero_add]
            by_cases hx : r = x <;> simp [hx]
          omega
        · intro _
          exact ⟨hi, (h.here hp).2⟩
        · have := active_ids hi
          simpa [active, List.map_map, Function.comp_def] using this
        · intro hp'
          replace hp' : w.present = false := hp'
          rw [hp] at hp'; cases hp'
  · exact ⟨_, rfl, disposeAll_inv h⟩

theorem held_req {v : Svc} (r : Req) : ofReq r (held v) = ofReq r (waiting v) +
    if v.kind = .async then 0 else ofReq r (active v) := by
  unfold held
  rw [ofReq_append]
  cases hk : v.kind <;> simp [waiting, active]

theorem remove_inv {w : W} (h : Inv w) : Inv w.remove := by
  unfold W.remove
  split
  · rename_i hp
    have hz : ∀ (x : Rec) (l : List Order), (∀ r, x ≠ .dropped r) →
        (l.map fun o => Rec.dropped (reqOf o)).count x = 0 := by
      intro x l hx
      rw [List.count_eq_zero]
      intro hm
      obtain ⟨a, _, ha⟩ := List.mem_map.1 hm
      exact hx _ ha.symm
    by_cases hb : w.blocking = true
    · obtain ⟨b1, b2⟩ := h.blk hb
      simp only [hb, if_true, List.append_nil]
      refine ⟨?_, ?_, ?_, h.ids, ?_, h.emitted⟩
      · exact h.front
      · exact fun _ => ⟨b1, b2⟩
      · intro hp'; cases hp'
      · intro _
        refine ⟨fun r => ?_, fun _ => b2⟩
        simp [active, b1, b2, accepted, ended, lost, (h.here hp).2 r]
    · simp only [hb, Bool.false_eq_true, if_false]
      refine ⟨?_, (by intro h'; cases h'), ?_, ?_, ?_, ?_⟩
      · intro r
        have := h.front r
        simp only [List.count_append]
        rw [hz (.arrived r) _ (by simp), hz (.answered r) _ (by simp), hz (.disposed r) _ (by simp),
          hz (.ignored r) _ (by simp), hz (.cleared r) _ (by simp)]
        exact this
      · intro hp'; cases hp'
      · have := h.ids
        cases hk : w.svc.kind <;> simp [hk, this]
      · intro _
        constructor
        · intro r
          have h1 := acc_req (h.here hp).1 r
          have h2 := (h.here hp).2 r
          have h3 := held_req (v := w.svc) r
          simp only [List.count_append, count_map_dropped, h2]
          cases hk : w.svc.kind <;> simp [hk, active] at h1 h3 ⊢ <;> omega
        · intro hk
          replace hk : w.svc.kind ≠ .async := hk
          cases hk' : w.svc.kind
          · exact absurd hk' hk
          · rfl
          · rfl
      · intro r
        have := h.emitted r
        simpa only [List.count_append, hz (.disposed r) _ (by simp),
          hz (.ignored r) _ (by simp), Nat.add_zero] using this
  · exact h

theorem goneStep_facts {v : Svc} (hn : (v.tasks.map fun t => t.order.id).Nodup)
    (hk : v.kind ≠ .async → v.tasks = []) (e : Verif.Delivery.Ev) :
    accepted (goneStep v e).log = accepted v.log ∧
    ((goneStep v e).tasks.map fun t => t.order.id).Nodup ∧
    ((goneStep v e).kind = v.kind) ∧
    ((goneStep v e).kind ≠ .async → (goneStep v e).tasks = []) ∧
    ∀ r, ofReq r (active (goneStep v e)) + ofReq r (ended (goneStep v e).log) +
        ofReq r (lost (goneStep v e).log) =
      ofReq r (active v) + ofReq r (ended v.log) + ofReq r (lost v.log) := by
  have hsub : ∀ p : Task → Bool, ((v.tasks.filter p).map fun t => t.order.id).Nodup := fun p =>
    hn.sublist (List.filter_sublist.map _)
  cases e with
  | arrive a b c => exact ⟨rfl, hn, rfl, hk, fun _ => rfl⟩
  | finish id =>
    simp only [goneStep]
    split
    · exact ⟨rfl, hn, rfl, hk, fun _ => rfl⟩
    · rename_i t hf
      have hmem := List.mem_of_find?_eq_some hf
      refine ⟨by simp, hsub _, rfl, ?_, fun r => ?_⟩
      · intro h'
        rw [hk h'] at hmem; cases hmem
      · have := filter_id r t v.tasks hn hmem
        simp only [active, Verif.Delivery.ended_append, Verif.Delivery.lost_append, ofReq_append,
          Verif.Delivery.ended_responded, Verif.Delivery.lost_responded, ofReq_nil]
        omega
  | cancelDone id =>
    simp only [goneStep]
    split
    · exact ⟨rfl, hn, rfl, hk, fun _ => rfl⟩
    · rename_i t hf
      have hmem := List.mem_of_find?_eq_some hf
      refine ⟨?_, hsub _, rfl, ?_, fun r => ?_⟩
      · dsimp only
        split <;> simp
      · intro h'
        rw [hk h'] at hmem; cases hmem
      · have := filter_id r t v.tasks hn hmem
        have he : ended [if t.status = .stopping then Verif.Delivery.Rec.stopped t.order
            else .cleaned t.order] = [t.order] := by split <;> rfl
        have hl : lost [if t.status = .stopping then Verif.Delivery.Rec.stopped t.order
            else .cleaned t.order] = [] := by split <;> rfl
        simp only [active, Verif.Delivery.ended_append, Verif.Delivery.lost_append, ofReq_append,
          he, hl, ofReq_nil]
        omega
  | unblock => exact ⟨rfl, hn, rfl, hk, fun _ => rfl⟩
  | cancelNow => exact ⟨rfl, hn, rfl, hk, fun _ => rfl⟩
  | cleanup source session =>
    simp only [goneStep, Svc.cleanTasks]
    split
    · rename_i ha
      refine ⟨rfl, ?_, rfl, ?_, fun r => ?_⟩
      · have : (fun t : Task => t.order.id) ∘ (fun t : Task =>
            if t.order.source = source ∧ t.order.session = session then
              { t with status := Verif.Delivery.cleanStatus t.status } else t) =
            fun t => t.order.id := by
          funext t
          simp only [Function.comp_apply]
          split <;> rfl
        simp only [List.map_map, this]
        exact hn
      · intro h'; exact absurd ha h'
      · have : (fun t : Task => t.order) ∘ (fun t : Task =>
            if t.order.source = source ∧ t.order.session = session then
              { t with status := Verif.Delivery.cleanStatus t.status } else t) =
            fun t => t.order := by
          funext t
          simp only [Function.comp_apply]
          split <;> rfl
        simp only [active, List.map_map, this]
    · rename_i ha
      have ht : v.tasks = [] := hk (by rw [ha]; simp)
      simp [ht, active]
    · rename_i ha
      have ht : v.tasks = [] := hk (by rw [ha]; simp)
      simp [ht, active]
  | sever source => exact ⟨rfl, hn, rfl, hk, fun _ => rfl⟩

theorem inner_inv {w : W} (h : Inv w) (e : Verif.Delivery.Ev) (he : ∀ a b c, e ≠ .arrive a b c) :
    ∃ w', w.inner e = some w' ∧ Inv w' := by
  unfold W.inner
  split
  · exact ⟨_, rfl, h⟩
  · rename_i hb
    split
    · rename_i hp
      obtain ⟨v, hv, hi, _⟩ := Verif.Delivery.step_inv (h.here hp).1 e
      have hacc := step_accepted he hv
      rw [hv]
      refine ⟨_, rfl, ?_, fun h' => absurd h' hb, ?_, ?_, ?_, h.emitted⟩
      · intro r
        simp only [hacc.1]
        exact h.front r
      · exact fun _ => ⟨hi, (h.here hp).2⟩
      · have := active_ids hi
        simpa [active, List.map_map, Function.comp_def] using this
      · intro hp'
        replace hp' : w.present = false := hp'
        rw [hp] at hp'; cases hp'
    · rename_i hp
      have hp' : w.present = false := by simpa using hp
      obtain ⟨g1, g2, g3, g4, g5⟩ := goneStep_facts h.ids (h.gone hp').2 e
      refine ⟨_, rfl, ?_, fun h' => absurd h' hb, ?_, g2, ?_, h.emitted⟩
      · intro r
        simp only [g1]
        exact h.front r
      · intro h'
        exact absurd h' hp
      · intro _
        refine ⟨fun r => ?_, g4⟩
        have := (h.gone hp').1 r
        have h5 := g5 r
        simp only [g1]
        omega

theorem step_inv {w : W} (h : Inv w) (e : Ev) : ∃ w', step w e = some w' ∧ Inv w' := by
  cases e with
  | arrive r => exact ⟨_, rfl, arrive_inv h r⟩
  | execute node => exact execute_inv h node
  | inner e =>
    cases e with
    | arrive a b c => exact ⟨_, rfl, h⟩
    | cleanup node session => exact inner_inv (clearInputs_inv h node session) _ (by simp)
    | finish id => exact inner_inv h _ (by simp)
    | cancelDone id => exact inner_inv h _ (by simp)
    | unblock => exact inner_inv h _ (by simp)
    | cancelNow => exact inner_inv h _ (by simp)
    | sever s => exact inner_inv h _ (by simp)
  | remove => exact ⟨_, rfl, remove_inv h⟩
  | collect => exact ⟨_, rfl, collect_inv h⟩

theorem run_inv (es : List Ev) : ∀ {w : W}, Inv w → ∃ w', run w es = some w' ∧ Inv w' := by
  induction es with
  | nil => intro w h; exact ⟨w, rfl, h⟩
  | cons e es ih =>
    intro w h
    obtain ⟨w1, h1, hi⟩ := step_inv h e
    obtain ⟨w2, h2, hi2⟩ := ih hi
    exact ⟨w2, by simp [run, h1, h2], hi2⟩

theorem inv_of_run {w w' : W} {es : List Ev} (h : Inv w) (hr : run w es = some w') : Inv w' := by
  obtain ⟨w2, h2, hi⟩ := run_inv es h
  rw [hr] at h2; cases h2; exact hi

theorem run_append (a b : List Ev) : ∀ (w : W), run w (a ++ b) = (run w a).bind fun w' => run w' b := by
  induction a with
  | nil => intro w; rfl
  | cons e a ih =>
    intro w
    simp only [List.cons_append, run]
    cases step w e with
    | none => rfl
    | some w1 => exact ih w1

end Verif.Gone
