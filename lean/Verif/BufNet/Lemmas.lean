import Verif.BufNet.Spec
import Verif.Buffer.Lemmas

/-
Helper lemmas for Verif.BufNet.Props.
-/
set_option linter.unusedSectionVars false
namespace Verif.BufNet

open Verif.Buffer (Storage Retention)

/-! ### One storage, seen through `iter` -/

section storage
variable {S T : Type} [DecidableEq S]

theorem iter_set (b : Storage S T) (s s' : S) (q : Option (List T)) :
    (b.set s q).iter s' = if s' = s then (q.getD []).reverse else b.iter s' := by
  unfold Storage.iter Storage.set
  by_cases h : s' = s
  · simp only [h, if_true]; cases q <;> rfl
  · simp only [h, if_false]

theorem iter_eq (b : Storage S T) (s : S) : b.iter s = ((b.queues s).getD []).reverse := by
  unfold Storage.iter; cases b.queues s <;> rfl

theorem count_eq (b : Storage S T) (s : S) : b.count s = (b.iter s).length := by
  unfold Storage.count Storage.iter; cases b.queues s <;> simp

theorem oldest_eq (b : Storage S T) (s : S) : b.oldest s = (b.iter s).head? := by
  unfold Storage.oldest Storage.iter; cases b.queues s <;> simp

theorem pull_snd (b : Storage S T) (s : S) : (b.pull s).2 = (b.iter s).head? := by
  unfold Storage.pull Storage.iter; cases b.queues s <;> simp [Buffer.vecPop]

theorem pull_iter (b : Storage S T) (s s' : S) :
    (b.pull s).1.iter s' = if s' = s then (b.iter s).tail else b.iter s' := by
  unfold Storage.pull
  cases h : b.queues s with
  | none =>
    by_cases hs : s' = s
    · simp [hs, iter_eq, h]
    · simp [hs]
  | some q =>
    simp only [iter_set]
    by_cases hs : s' = s
    · simp [hs, iter_eq, h, Buffer.vecPop]
    · simp [hs]

theorem forcePush_iter_other (b : Storage S T) (s s' : S) (v : T) (h : s' ≠ s) :
    (b.forcePush s v).1.iter s' = b.iter s' := by
  simp only [Storage.forcePush, iter_set, h, if_false]

theorem forcePush_retention (b : Storage S T) (s : S) (v : T) :
    (b.forcePush s v).1.retention = b.retention := rfl

theorem pull_retention (b : Storage S T) (s : S) : (b.pull s).1.retention = b.retention := by
  unfold Storage.pull; cases b.queues s <;> rfl

theorem forcePush_keepAll (b : Storage S T) (s : S) (v : T) (h : b.retention = .keepAll) :
    (b.forcePush s v).1.iter s = b.iter s ++ [v] := by
  simp only [Storage.forcePush, iter_set, h, Buffer.implPush, if_true]
  simp [iter_eq]

theorem forcePush_sublist (b : Storage S T) (s : S) (v : T) :
    ((b.forcePush s v).1.iter s).Sublist (b.iter s ++ [v]) := by
  simp only [Storage.forcePush, iter_set, if_true, Option.getD_some]
  rw [iter_eq]
  generalize (b.queues s).getD [] = q
  have hv : (v :: q).reverse = q.reverse ++ [v] := by simp
  rw [← hv]
  apply List.Sublist.reverse
  cases b.retention with
  | keepAll => exact List.Sublist.refl _
  | keepFirst n =>
    simp only [Buffer.implPush]; split
    · exact List.sublist_cons_self _ _
    · exact List.Sublist.refl _
  | keepLast n =>
    simp only [Buffer.implPush]; split
    · exact (List.dropLast_sublist q).cons_cons v
    · split
      · exact List.sublist_cons_self _ _
      · exact List.Sublist.refl _

theorem forcePush_count (b : Storage S T) (s s' : S) (v : T) :
    (b.forcePush s v).1.count s' ≤ b.count s' + if s' = s then 1 else 0 := by
  rw [count_eq, count_eq]
  by_cases h : s' = s
  · subst h
    have := (forcePush_sublist b s' v).length_le
    simpa using this
  · simp [forcePush_iter_other _ _ _ _ h, h]

theorem implPush_length (q : List T) (r : Retention) (v : T) :
    (Buffer.implPush q r v).1.length ≤ q.length + 1 := by
  cases r with
  | keepAll => simp [Buffer.implPush]
  | keepFirst n => simp only [Buffer.implPush]; split <;> simp
  | keepLast n =>
    simp only [Buffer.implPush]; split
    · simp [Buffer.vecPop]
    · split <;> simp

theorem implPushOldest_length (q : List T) (r : Retention) (v : T) :
    (Buffer.implPushOldest q r v).1.length ≤ q.length + 1 := by
  cases r with
  | keepAll => simp [Buffer.implPushOldest]
  | keepFirst n => simp only [Buffer.implPushOldest]; split <;> simp
  | keepLast n => simp only [Buffer.implPushOldest]; split <;> simp

theorem count_set (b : Storage S T) (s s' : S) (q : Option (List T)) :
    (b.set s q).count s' = if s' = s then (q.getD []).length else b.count s' := by
  rw [count_eq, iter_set, count_eq]; split <;> simp

theorem count_some {b : Storage S T} {s : S} {q : List T} (h : b.queues s = some q) :
    b.count s = q.length := by simp [Storage.count, h]

theorem step_count (b : Storage S T) (s : S) (op : Buffer.Op T) :
    (Buffer.step b s op).1.count s ≤ b.count s + if grows op then 1 else 0 := by
  cases hq : b.queues s with
  | none =>
    have h0 : b.count s = 0 := by simp [Storage.count, hq]
    cases op <;>
      simp only [Buffer.step, Storage.forcePush, Storage.push, Storage.pushAsOldest, Storage.pull,
        Storage.pullNewest, Storage.consume, Storage.clearSession, Storage.ensureSession,
        Storage.drainAll, Storage.drain, Storage.iterMut, Storage.oldestMut, Storage.newestMut,
        Storage.newestMutOrElse, Storage.getMut, hq, count_set, grows, if_true] <;>
      simp only [Option.getD_none, Option.getD_some, List.length_nil, h0] <;>
      first
        | exact Nat.le_refl _
        | exact Nat.zero_le _
        | (exact implPush_length _ _ _)
  | some q =>
    have h0 := count_some hq
    cases op <;>
      simp only [Buffer.step, Storage.forcePush, Storage.push, Storage.pushAsOldest, Storage.pull,
        Storage.pullNewest, Storage.consume, Storage.clearSession, Storage.ensureSession,
        Storage.drainAll, Storage.drain, Storage.iterMut, Storage.oldestMut, Storage.newestMut,
        Storage.newestMutOrElse, Storage.getMut, hq, count_set, grows, if_true,
        Option.getD_some, Option.getD_none, h0]
    case forcePush v => exact implPush_length _ _ _
    case push v => exact implPush_length _ _ _
    case pushAsOldest v => exact implPushOldest_length _ _ _
    case pull => simp [Buffer.vecPop]
    case pullNewest =>
      cases q with
      | nil => simp [h0]
      | cons a q => simp [count_set]
    case drain lo hi =>
      split
      · rename_i r hr
        split at hr
        · cases hr
          simp only [count_set, if_true, Option.getD_some, List.length_append, List.length_take,
            List.length_drop]
          simp only [Bool.false_eq_true, if_false]; omega
        · cases hr
      · simp [h0]
    case newestMutOrElse v g =>
      simp only [List.length_modify]
      split
      · exact implPush_length _ _ _
      · omega
    case getMut i g =>
      split
      · simp [h0]
      · simp [count_set]
    all_goals simp

theorem run_count (b : Storage S T) (s : S) (ops : List (Buffer.Op T)) :
    (Buffer.run b (ops.map fun o => (s, o))).1.count s ≤ b.count s + (ops.filter grows).length := by
  induction ops generalizing b with
  | nil => simp [Buffer.run]
  | cons o ops ih =>
    simp only [List.map_cons, Buffer.run]
    refine Nat.le_trans (ih _) ?_
    have := step_count b s o
    by_cases h : grows o = true
    · simp only [h, if_true, List.filter_cons_of_pos, List.length_cons] at *; omega
    · simp only [h, if_false, List.filter_cons_of_neg, not_false_eq_true, Bool.false_eq_true] at *
      omega

theorem run_other (b : Storage S T) (s s' : S) (h : s' ≠ s) (ops : List (Buffer.Op T)) :
    (Buffer.run b (ops.map fun o => (s, o))).1.queues s' = b.queues s' := by
  induction ops generalizing b with
  | nil => rfl
  | cons o ops ih =>
    simp only [List.map_cons, Buffer.run]
    rw [ih, Buffer.step_frame _ _ _ _ h]

/-- A call that does not mark the access changes nothing. -/
theorem step_unmarked (b : Storage S T) (s : S) (op : Buffer.Op T) (h : marks op = false) :
    (Buffer.step b s op).1 = b := by
  cases op <;> first | rfl | (simp [marks] at h)

theorem run_unmarked (b : Storage S T) (s : S) (ops : List (Buffer.Op T))
    (h : ops.any marks = false) : (Buffer.run b (ops.map fun o => (s, o))).1 = b := by
  induction ops generalizing b with
  | nil => rfl
  | cons o ops ih =>
    simp only [List.any_cons, Bool.or_eq_false_iff] at h
    simp only [List.map_cons, Buffer.run]
    rw [step_unmarked _ _ _ h.1]
    exact ih b h.2

end storage

variable {B L S T : Type} [DecidableEq B] [DecidableEq L] [DecidableEq S]

/-! ### Waking -/

theorem wakeAll_inactive (b : B) (s : S) (st : St B L S T) (ls : List L)
    (h : st.active s = false) : wakeAll b s st ls = (st, []) := by
  induction ls with
  | nil => rfl
  | cons l ls ih => simp [wakeAll, wake, h, ih]

theorem wakeAll_active (b : B) (s : S) (st : St B L S T) (ls : List L)
    (h : st.active s = true) :
    wakeAll b s st ls =
      ({ st with
          lis := fun x =>
            { st.lis x with pending := (st.lis x).pending ++ List.replicate (ls.count x) s }
          roster := st.roster ++ ls.map .lis },
        ls.map (.woke b · s)) := by
  induction ls generalizing st with
  | nil => simp [wakeAll]
  | cons l ls ih =>
    have hw : wake b s st l =
        (setLis { st with roster := st.roster ++ [.lis l] } l
          { st.lis l with pending := (st.lis l).pending ++ [s] }, [.woke b l s]) := by
      simp [wake, h]
    simp only [wakeAll, hw]
    rw [ih _ (by simpa [setLis] using h)]
    simp only [setLis, Prod.mk.injEq, List.map_cons, List.cons_append, List.nil_append, and_true,
      St.mk.injEq, true_and, List.append_assoc]
    funext x
    by_cases hx : x = l
    · subst hx
      simp [List.count_cons_self, List.replicate_succ]
    · simp [hx, List.count_cons_of_ne (Ne.symm hx)]

theorem wakeAll_buf (b : B) (s : S) (st : St B L S T) (ls : List L) :
    (wakeAll b s st ls).1.buf = st.buf ∧ (wakeAll b s st ls).1.active = st.active := by
  cases h : st.active s with
  | false => rw [wakeAll_inactive _ _ _ _ h]; exact ⟨rfl, rfl⟩
  | true => rw [wakeAll_active _ _ _ _ h]; exact ⟨rfl, rfl⟩

/-! ### Fetching -/

/-- `fetch` only takes values of session `s` off the front of buffers. -/
structure Taken (s : S) (st st' : St B L S T) : Prop where
  active : st'.active = st.active
  lis : st'.lis = st.lis
  roster : st'.roster = st.roster
  input : ∀ b, (st'.buf b).input = (st.buf b).input
  gate : ∀ b, (st'.buf b).gate = (st.buf b).gate
  listeners : ∀ b, (st'.buf b).listeners = (st.buf b).listeners
  retention : ∀ b, (st'.buf b).store.retention = (st.buf b).store.retention
  other : ∀ b s', s' ≠ s → content st' b s' = content st b s'

theorem Taken.refl (s : S) (st : St B L S T) : Taken s st st :=
  ⟨rfl, rfl, rfl, fun _ => rfl, fun _ => rfl, fun _ => rfl, fun _ => rfl, fun _ _ _ => rfl⟩

theorem Taken.trans {s : S} {a b c : St B L S T} (h : Taken s a b) (h' : Taken s b c) :
    Taken s a c :=
  ⟨h'.active.trans h.active, h'.lis.trans h.lis, h'.roster.trans h.roster,
    fun x => (h'.input x).trans (h.input x), fun x => (h'.gate x).trans (h.gate x),
    fun x => (h'.listeners x).trans (h.listeners x),
    fun x => (h'.retention x).trans (h.retention x),
    fun x s' hs => (h'.other x s' hs).trans (h.other x s' hs)⟩

theorem taken_pull (s : S) (st : St B L S T) (b : B) :
    Taken s st (setBuf st b { st.buf b with store := ((st.buf b).store.pull s).1 }) := by
  refine ⟨rfl, rfl, rfl, ?_, ?_, ?_, ?_, ?_⟩
  · intro x; by_cases h : x = b <;> simp [setBuf, h]
  · intro x; by_cases h : x = b <;> simp [setBuf, h]
  · intro x; by_cases h : x = b <;> simp [setBuf, h]
  · intro x; by_cases h : x = b <;> simp [setBuf, h, pull_retention]
  · intro x s' hs; by_cases h : x = b <;> simp [content, setBuf, h, pull_iter, hs]

theorem content_pull (s : S) (st : St B L S T) (b x : B) :
    content (setBuf st b { st.buf b with store := ((st.buf b).store.pull s).1 }) x s =
      if x = b then (content st b s).tail else content st x s := by
  by_cases h : x = b <;> simp [content, setBuf, h, pull_iter]

theorem fetch_taken (s : S) (st : St B L S T) (bufs : List (B × Mode)) :
    Taken s st (fetch s st bufs).1 := by
  induction bufs generalizing st with
  | nil => exact Taken.refl _ _
  | cons p bufs ih =>
    obtain ⟨b, m⟩ := p
    cases m with
    | pull =>
      simp only [fetch]
      cases ((st.buf b).store.pull s).2 with
      | none => exact taken_pull s st b
      | some v => exact (taken_pull s st b).trans (ih _)
    | clone =>
      simp only [fetch]
      cases (st.buf b).store.oldest s with
      | none => exact Taken.refl _ _
      | some v => exact ih _

/-- The values of `s` in a buffer after a fetch are a final part of those before. -/
theorem fetch_suffix (s : S) (st : St B L S T) (bufs : List (B × Mode)) (b : B) :
    content (fetch s st bufs).1 b s <:+ content st b s := by
  induction bufs generalizing st with
  | nil => exact List.suffix_refl _
  | cons p bufs ih =>
    obtain ⟨b', m⟩ := p
    have hp : content (setBuf st b' { st.buf b' with store := ((st.buf b').store.pull s).1 }) b s
        <:+ content st b s := by
      rw [content_pull]
      by_cases h : b = b'
      · subst h; simp only [if_true]; exact List.tail_suffix _
      · simp only [h, if_false]; exact List.suffix_refl _
    cases m with
    | pull =>
      simp only [fetch]
      cases ((st.buf b').store.pull s).2 with
      | none => exact hp
      | some v => exact (ih _).trans hp
    | clone =>
      simp only [fetch]
      cases (st.buf b').store.oldest s with
      | none => exact List.suffix_refl _
      | some v => exact ih _

/-- A successful or failing fetch: what was pulled plus what remains is what was there. -/
theorem fetch_ledger (s : S) (st st' : St B L S T) (bufs : List (B × Mode))
    (items : List (B × Mode × T)) (h : fetch s st bufs = (st', some items)) (b : B) :
    content st b s =
      items.filterMap (fun i => if i.1 = b ∧ i.2.1 = .pull then some i.2.2 else none) ++
        content st' b s := by
  induction bufs generalizing st items with
  | nil => cases h; simp
  | cons p bufs ih =>
    obtain ⟨b', m⟩ := p
    cases m with
    | pull =>
      simp only [fetch] at h
      cases hp : ((st.buf b').store.pull s).2 with
      | none => rw [hp] at h; simp at h
      | some v =>
        rw [hp] at h
        simp only at h
        generalize hr : fetch s (setBuf st b' { st.buf b' with
          store := ((st.buf b').store.pull s).1 }) bufs = r at h
        obtain ⟨st2, o⟩ := r
        cases o with
        | none => simp at h
        | some its =>
          simp only [Option.map_some, Prod.mk.injEq, Option.some.injEq] at h
          obtain ⟨rfl, rfl⟩ := h
          have := ih _ _ hr
          rw [content_pull] at this
          by_cases hb : b = b'
          · subst hb
            simp only [if_true] at this
            simp only [List.filterMap_cons, and_self, if_true, List.cons_append, ← this]
            rw [pull_snd] at hp
            have hc : (content st b s).head? = some v := hp
            cases hcs : content st b s with
            | nil => rw [hcs] at hc; cases hc
            | cons a as => rw [hcs] at hc; cases hc; rfl
          · simp only [hb, if_false] at this
            simp only [List.filterMap_cons, Ne.symm hb, false_and, if_false]
            exact this
    | clone =>
      simp only [fetch] at h
      cases hp : (st.buf b').store.oldest s with
      | none => rw [hp] at h; simp at h
      | some v =>
        rw [hp] at h
        simp only at h
        generalize hr : fetch s st bufs = r at h
        obtain ⟨st2, o⟩ := r
        cases o with
        | none => simp at h
        | some its =>
          simp only [Option.map_some, Prod.mk.injEq, Option.some.injEq] at h
          obtain ⟨rfl, rfl⟩ := h
          simp only [List.filterMap_cons, reduceCtorEq, and_false, if_false]
          exact ih _ _ hr

/-- The result of a fetch from distinct, non-empty buffers. -/
theorem fetch_ok (s : S) (st : St B L S T) (bufs : List (B × Mode))
    (hnd : (bufs.map (·.1)).Nodup) (hne : ∀ p ∈ bufs, content st p.1 s ≠ []) :
    ∃ items, (fetch s st bufs).2 = some items ∧
      items.map (fun i => (i.1, i.2.1)) = bufs ∧
      (∀ i ∈ items, (content st i.1 s).head? = some i.2.2) ∧
      ∀ b, content (fetch s st bufs).1 b s =
        if (b, Mode.pull) ∈ bufs then (content st b s).tail else content st b s := by
  induction bufs generalizing st with
  | nil => exact ⟨[], rfl, rfl, by simp, by simp [fetch]⟩
  | cons p bufs ih =>
    obtain ⟨b, m⟩ := p
    simp only [List.map_cons, List.nodup_cons] at hnd
    have hb : content st b s ≠ [] := hne (b, m) (by simp)
    have hnot : ∀ q ∈ bufs, q.1 ≠ b := fun q hq he => hnd.1 (by rw [← he]; exact List.mem_map_of_mem hq)
    obtain ⟨v, rest, hv⟩ : ∃ v rest, content st b s = v :: rest := by
      cases hc : content st b s with
      | nil => exact absurd hc hb
      | cons v rest => exact ⟨v, rest, rfl⟩
    have hv' : (st.buf b).store.iter s = v :: rest := hv
    cases m with
    | pull =>
      have hp : ((st.buf b).store.pull s).2 = some v := by rw [pull_snd, hv']; rfl
      obtain ⟨items, h1, h2, h3, h4⟩ := ih (setBuf st b { st.buf b with
          store := ((st.buf b).store.pull s).1 }) hnd.2 (by
        intro q hq
        rw [content_pull, if_neg (hnot q hq)]
        exact hne q (by simp [hq]))
      refine ⟨(b, .pull, v) :: items, ?_, ?_, ?_, ?_⟩
      · simp [fetch, hp, h1]
      · simp [h2]
      · intro i hi
        rcases List.mem_cons.1 hi with rfl | hi
        · simp [hv]
        · have := h3 i hi
          have hin : (i.1, i.2.1) ∈ bufs := by
            rw [← h2]; exact List.mem_map_of_mem (f := fun i => (i.1, i.2.1)) hi
          rw [content_pull, if_neg (hnot _ hin)] at this
          exact this
      · intro x
        simp only [fetch, hp]
        rw [h4 x]
        by_cases hx : x = b
        · subst hx
          have : (x, Mode.pull) ∉ bufs := fun hm => hnot _ hm rfl
          simp [this, content_pull]
        · simp [content_pull, hx]
    | clone =>
      have hp : (st.buf b).store.oldest s = some v := by rw [oldest_eq, hv']; rfl
      obtain ⟨items, h1, h2, h3, h4⟩ := ih st hnd.2 (fun q hq => hne q (by simp [hq]))
      refine ⟨(b, .clone, v) :: items, ?_, ?_, ?_, ?_⟩
      · simp [fetch, hp, h1]
      · simp [h2]
      · intro i hi
        rcases List.mem_cons.1 hi with rfl | hi
        · simp [hv]
        · exact h3 i hi
      · intro x
        simp only [fetch, hp]
        rw [h4 x]
        simp

theorem bufferedCount_pos (st : St B L S T) (s : S) (bufs : List (B × Mode)) :
    ¬ bufferedCount st s bufs < 1 ↔ bufs ≠ [] ∧ ∀ p ∈ bufs, content st p.1 s ≠ [] := by
  unfold bufferedCount
  cases bufs with
  | nil => simp
  | cons p bufs =>
    generalize hl : ((p :: bufs).map fun p => (st.buf p.1).store.count s) = l
    cases hm : l.min? with
    | none =>
      rw [List.min?_eq_none_iff] at hm
      rw [hm] at hl; simp at hl
    | some m =>
      rw [List.min?_eq_some_iff] at hm
      simp only [Option.getD_some, ne_eq, reduceCtorEq, not_false_eq_true, true_and, Nat.not_lt]
      constructor
      · intro h q hq hc
        have : (st.buf q.1).store.count s ∈ l := by
          rw [← hl]; exact List.mem_map_of_mem (f := fun p : B × Mode => (st.buf p.1).store.count s) hq
        have := hm.2 _ this
        rw [count_eq] at this
        rw [show (st.buf q.1).store.iter s = [] from hc] at this
        simp at this; omega
      · intro h
        have := hm.1
        rw [← hl] at this
        obtain ⟨q, hq, he⟩ := List.mem_map.1 this
        have := h q hq
        rw [← he, count_eq]
        exact List.length_pos_iff.2 this

end Verif.BufNet
