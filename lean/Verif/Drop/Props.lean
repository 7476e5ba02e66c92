import Verif.Drop.Model

/-
Property theorem C12: dropping the listener of a series drops the series.
-/
namespace Verif.Drop

set_option linter.unusedSectionVars false

variable {E : Type} [DecidableEq E]

/-- What is left of a series, terminal first, after its terminal was dropped: the
first detached step below the terminal and everything that feeds it. -/
def leftAfterDrop (c : Chain E) : List (Step E) := c.steps.tail.dropWhile fun s => !s.detached

/-- **C12** in full: after the promise of a response is dropped, the next collection
removes the terminal and every step that only feeds it, keeping the detached part. -/
def C12_full : Prop :=
  ∀ (c : Chain Nat) (t : Nat), c.steps.head?.map (·.id) = some t → c.unused = false →
    (c.steps.map (·.id)).Nodup →
    alive (collect (dropPromise ⟨[c], [], []⟩ t)) = (leftAfterDrop c).map (·.id)

theorem walk_snd (l : List (Step E)) (e : E) :
    (walk e l).2 = l.dropWhile fun s => !s.detached := by
  induction l generalizing e with
  | nil => rfl
  | cons s l ih =>
    simp only [walk]
    by_cases h : s.detached = true
    · simp [h]
    · simp [h, ih]

/-- The terminals in a list of series are pairwise distinct entities. -/
def DistinctTerminals (w : World E) : Prop :=
  (w.chains.filterMap fun c => c.steps.head?.map (·.id)).Nodup

theorem flatMap_replace (l : List (Chain E)) (c : Chain E) (t : E) (new : List (Chain E))
    (hm : c ∈ l) (hc : c.steps.head?.map (·.id) = some t)
    (hd : (l.filterMap fun c => c.steps.head?.map (·.id)).Nodup) :
    ∃ pre post, l = pre ++ c :: post ∧
      (l.flatMap fun c' => if c'.steps.head?.map (·.id) = some t then new else [c']) =
        pre ++ new ++ post := by
  obtain ⟨pre, post, rfl⟩ := List.append_of_mem hm
  refine ⟨pre, post, rfl, ?_⟩
  have hc' : (fun c : Chain E => c.steps.head?.map (·.id)) c = some t := hc
  simp only [List.filterMap_append, List.filterMap_cons, hc] at hd
  have hpre : ∀ x ∈ pre, x.steps.head?.map (·.id) ≠ some t := by
    intro x hx h
    rw [List.nodup_append] at hd
    exact hd.2.2 t (List.mem_filterMap.mpr ⟨x, hx, h⟩) t (by simp) rfl
  have hpost : ∀ x ∈ post, x.steps.head?.map (·.id) ≠ some t := by
    intro x hx h
    rw [List.nodup_append] at hd
    have := (List.nodup_cons.mp hd.2.1).1
    exact this (List.mem_filterMap.mpr ⟨x, hx, h⟩)
  have keep : ∀ m : List (Chain E), (∀ x ∈ m, x.steps.head?.map (·.id) ≠ some t) →
      (m.flatMap fun c' => if c'.steps.head?.map (·.id) = some t then new else [c']) = m := by
    intro m hm
    induction m with
    | nil => rfl
    | cons x m ih =>
      rw [List.flatMap_cons, if_neg (hm x (by simp)), ih (fun y hy => hm y (by simp [hy]))]
      rfl
  rw [List.flatMap_append, List.flatMap_cons, keep pre hpre, keep post hpost, if_pos hc]
  simp

/-- **C12** (partial): whenever the flush does drop a terminal, it removes exactly the
terminal and the steps that feed only it; the first detached step and everything
feeding it stay, and so do all other series. What is missing: the flush never gets
here for a dropped promise (see below). -/
theorem C12_drop_target_partial (w : World E) (c : Chain E) (t : E)
    (hm : c ∈ w.chains) (hc : c.steps.head?.map (·.id) = some t) (hd : DistinctTerminals w) :
    ∃ pre post, w.chains = pre ++ c :: post ∧
      alive (dropTarget w t) =
        alive { w with chains := pre } ++ (leftAfterDrop c).map (·.id) ++
          alive { w with chains := post } ∧
      (∀ x ∈ (dropTarget w t).queue, x ∈ w.queue ∧ x ≠ t) := by
  have hfind : w.chains.find? (fun c => decide (c.steps.head?.map (·.id) = some t)) = some c := by
    obtain ⟨pre, post, hl⟩ := List.append_of_mem hm
    rw [hl, List.find?_append]
    have : pre.find? (fun c => decide (c.steps.head?.map (·.id) = some t)) = none := by
      rw [List.find?_eq_none]
      intro x hx h
      simp only [decide_eq_true_eq] at h
      have hd' := hd
      simp only [DistinctTerminals, hl, List.filterMap_append, List.filterMap_cons, hc] at hd'
      rw [List.nodup_append] at hd'
      exact hd'.2.2 t (List.mem_filterMap.mpr ⟨x, hx, h⟩) t (by simp) rfl
    rw [this]
    simp only [Option.none_or]
    rw [List.find?_cons_of_pos]
    exact decide_eq_true hc
  obtain ⟨pre, post, hl, hf⟩ := flatMap_replace w.chains c t
    (if (walk t c.steps.tail).2 = [] then [] else [⟨false, (walk t c.steps.tail).2⟩]) hm hc hd
  refine ⟨pre, post, hl, ?_, ?_⟩
  · simp only [dropTarget, hfind, alive]
    rw [hf, walk_snd]
    simp only [List.flatMap_append]
    congr 2
    simp only [leftAfterDrop]
    split
    · rename_i h; simp [h]
    · simp
  · intro x hx
    simp only [dropTarget, hfind, List.mem_filter, Bool.and_eq_true, decide_eq_true_eq] at hx
    exact ⟨hx.1, hx.2.1⟩

/-- The entities of the series in a list. -/
def idsOf (l : List (Chain E)) : List E := l.flatMap fun c => c.steps.map (·.id)

/-- Nobody takes, stores or detaches the response of the series. -/
def Unwanted (c : Chain E) : Bool :=
  c.unused && (match c.steps with | [] => false | t :: _ => !t.detached)

/-- What should be left of a series after a collection. -/
def leftAfterCollect (c : Chain E) : List (Step E) :=
  if Unwanted c then leftAfterDrop c else c.steps

/-- The series that should be left of a series after a collection. -/
def afterCollect (c : Chain E) : List (Chain E) :=
  if Unwanted c then (if leftAfterDrop c = [] then [] else [⟨false, leftAfterDrop c⟩]) else [c]

theorem idsOf_append (l m : List (Chain E)) : idsOf (l ++ m) = idsOf l ++ idsOf m := by
  simp [idsOf]

theorem head_mem_ids {c : Chain E} {t : E} (h : c.steps.head?.map (·.id) = some t) :
    t ∈ c.steps.map (·.id) := by
  cases hs : c.steps with
  | nil => simp [hs] at h
  | cons x l => simp [hs] at h; simp [h]

theorem ids_after (c : Chain E) : (idsOf (afterCollect c)).Sublist (c.steps.map (·.id)) := by
  unfold afterCollect
  by_cases h : Unwanted c = true
  · simp only [h, if_true]
    have hsub : ((leftAfterDrop c).map (·.id)).Sublist (c.steps.map (·.id)) := by
      refine List.Sublist.map _ ?_
      exact (List.dropWhile_sublist _).trans (List.tail_sublist _)
    by_cases h' : leftAfterDrop c = []
    · simp [h', idsOf]
    · simp only [h', if_false]
      simpa [idsOf] using hsub
  · simp only [h]
    simp [idsOf]

theorem dropTarget_chains (pre post : List (Chain E)) (c : Chain E) (t : E) (l q : List E)
    (hc : c.steps.head?.map (·.id) = some t)
    (hpre : ∀ x ∈ pre, x.steps.head?.map (·.id) ≠ some t)
    (hpost : ∀ x ∈ post, x.steps.head?.map (·.id) ≠ some t) (hu : Unwanted c = true) :
    ∃ q', dropTarget ⟨pre ++ c :: post, l, q⟩ t =
      ⟨pre ++ afterCollect c ++ post, l, q'⟩ := by
  have hfind : (pre ++ c :: post).find?
      (fun c => decide (c.steps.head?.map (·.id) = some t)) = some c := by
    rw [List.find?_append]
    have : pre.find? (fun c => decide (c.steps.head?.map (·.id) = some t)) = none := by
      rw [List.find?_eq_none]
      intro x hx h
      simp only [decide_eq_true_eq] at h
      exact hpre x hx h
    rw [this]
    simp only [Option.none_or]
    rw [List.find?_cons_of_pos]
    exact decide_eq_true hc
  have keep : ∀ (new : List (Chain E)) (m : List (Chain E)),
      (∀ x ∈ m, x.steps.head?.map (·.id) ≠ some t) →
      (m.flatMap fun c' => if c'.steps.head?.map (·.id) = some t then new else [c']) = m := by
    intro new m hm
    induction m with
    | nil => rfl
    | cons x m ih =>
      rw [List.flatMap_cons, if_neg (hm x (by simp)), ih (fun y hy => hm y (by simp [hy]))]
      rfl
  refine ⟨(dropTarget ⟨pre ++ c :: post, l, q⟩ t).queue, ?_⟩
  simp only [dropTarget, hfind]
  rw [List.flatMap_append, List.flatMap_cons, keep _ pre hpre, keep _ post hpost, if_pos hc,
    walk_snd]
  simp only [afterCollect, hu, if_true, leftAfterDrop, List.append_assoc]
  congr

theorem collect_fold (rest : List (Chain E)) :
    ∀ (pre : List (Chain E)) (l q : List E), (idsOf (pre ++ rest)).Nodup →
      ∃ q', (dropTargets ⟨rest, l, q⟩).foldl dropTarget ⟨pre ++ rest, l, q⟩ =
        ⟨pre ++ rest.flatMap afterCollect, l, q'⟩ := by
  induction rest with
  | nil => intro pre l q _; exact ⟨q, by simp [dropTargets]⟩
  | cons c r ih =>
    intro pre l q hn
    have hsub : (idsOf ((pre ++ afterCollect c) ++ r)).Sublist (idsOf (pre ++ c :: r)) := by
      simp only [idsOf_append, List.append_assoc]
      refine List.Sublist.append (List.Sublist.refl _) ?_
      have : idsOf (c :: r) = c.steps.map (·.id) ++ idsOf r := by simp [idsOf]
      rw [this]
      exact List.Sublist.append (ids_after c) (List.Sublist.refl _)
    have hn' := List.Nodup.sublist hsub hn
    by_cases hu : Unwanted c = true
    · obtain ⟨t, ts, hs, hcu, htd⟩ : ∃ t ts, c.steps = t :: ts ∧ c.unused = true ∧
          t.detached = false := by
        unfold Unwanted at hu
        cases hs : c.steps with
        | nil => simp [hs] at hu
        | cons t ts => simp [hs] at hu; exact ⟨t, ts, rfl, hu.1, hu.2⟩
      have hdt : dropTargets ⟨c :: r, l, q⟩ = t.id :: dropTargets ⟨r, l, q⟩ := by
        simp [dropTargets, hcu, hs, htd]
      have hc : c.steps.head?.map (·.id) = some t.id := by simp [hs]
      have hids : idsOf (pre ++ c :: r) = idsOf pre ++ (c.steps.map (·.id) ++ idsOf r) := by
        simp [idsOf]
      rw [hids, List.nodup_append] at hn
      have hpre : ∀ x ∈ pre, x.steps.head?.map (·.id) ≠ some t.id := by
        intro x hx h
        exact hn.2.2 t.id (List.mem_flatMap.mpr ⟨x, hx, head_mem_ids h⟩) t.id
          (List.mem_append_left _ (head_mem_ids hc)) rfl
      have hpost : ∀ x ∈ r, x.steps.head?.map (·.id) ≠ some t.id := by
        intro x hx h
        have h2 := hn.2.1
        rw [List.nodup_append] at h2
        exact h2.2.2 t.id (head_mem_ids hc) t.id
          (List.mem_flatMap.mpr ⟨x, hx, head_mem_ids h⟩) rfl
      obtain ⟨q1, h1⟩ := dropTarget_chains pre r c t.id l q hc hpre hpost hu
      obtain ⟨q2, h2⟩ := ih (pre ++ afterCollect c) l q1 hn'
      refine ⟨q2, ?_⟩
      rw [hdt, List.foldl_cons, h1]
      have : dropTargets ⟨r, l, q⟩ = dropTargets ⟨r, l, q1⟩ := rfl
      rw [this, h2]
      simp
    · have ha : afterCollect c = [c] := by simp [afterCollect, hu]
      have hdt : dropTargets ⟨c :: r, l, q⟩ = dropTargets ⟨r, l, q⟩ := by
        unfold Unwanted at hu
        simp only [dropTargets, List.filterMap_cons]
        cases hcu : c.unused with
        | false => simp
        | true =>
          cases hs : c.steps with
          | nil => simp
          | cons t ts =>
            simp [hcu, hs] at hu
            simp [hu]
      rw [ha] at hn'
      obtain ⟨q2, h2⟩ := ih (pre ++ [c]) l q hn'
      refine ⟨q2, ?_⟩
      rw [hdt]
      have hl : pre ++ c :: r = (pre ++ [c]) ++ r := by simp
      rw [hl, h2]
      simp [ha]

/-- **C12** (partial): a collection removes, of each series whose response nobody takes,
stores or detaches, the terminal and the steps that only feed it, up to the first
detached step; every other series stays as it is. For any number of series. -/
theorem C12_unused_series_partial (w : World E) (hn : (idsOf w.chains).Nodup) :
    alive (collect w) = w.chains.flatMap fun c => (leftAfterCollect c).map (·.id) := by
  obtain ⟨cs, l, q⟩ := w
  obtain ⟨q', h⟩ := collect_fold cs [] l q (by simpa using hn)
  simp only [List.nil_append] at h
  simp only [collect, h, List.foldl_nil, alive]
  clear hn h
  induction cs with
  | nil => rfl
  | cons c cs ih =>
    simp only [List.flatMap_cons, List.flatMap_append]
    rw [ih]
    congr 1
    unfold afterCollect leftAfterCollect
    by_cases hu : Unwanted c = true
    · simp only [hu, if_true]
      by_cases h' : leftAfterDrop c = [] <;> simp [h']
    · simp [hu]

/-- A series of four steps, the third of which is detached. -/
example :
    let c : Chain Nat := ⟨true, [⟨0, false⟩, ⟨1, false⟩, ⟨2, true⟩, ⟨3, false⟩]⟩
    leftAfterDrop c = [⟨2, true⟩, ⟨3, false⟩] ∧
    (idsOf [c, ⟨false, [⟨9, false⟩]⟩, ⟨true, [⟨8, true⟩]⟩]).Nodup ∧
    alive (collect ⟨[c, ⟨false, [⟨9, false⟩]⟩, ⟨true, [⟨8, true⟩]⟩], [], [0, 1, 3]⟩) =
      [2, 3, 9, 8] := by decide

/-- The terminals of the series that are alive (and, for instance, a promise of the
third one was dropped). -/
example : DistinctTerminals
    (⟨[⟨false, [⟨0, false⟩, ⟨1, false⟩]⟩, ⟨true, [⟨5, false⟩]⟩], [0], []⟩ : World Nat) := by
  unfold DistinctTerminals
  decide

/-- **C12** is false of the code: the notification of a dropped promise is received
and thrown away (src/flush.rs:273-281), the series keeps running. -/
theorem C12_dropped_promise_violated : ¬ C12_full := by
  intro h
  have := h ⟨false, [⟨0, false⟩, ⟨1, false⟩]⟩ 0 rfl rfl (by decide)
  revert this
  decide

/-- Indeed no dropped promise ever removes anything, and its notification is lost. -/
theorem C12_dropped_promise_ignored (w : World E) (t : E) (hu : dropTargets w = []) :
    alive (collect (dropPromise w t)) = alive w ∧ (collect (dropPromise w t)).lifecycle = [] := by
  have : dropTargets (dropPromise w t) = [] := hu
  simp only [collect, this, List.foldl_nil]
  exact ⟨rfl, trivial⟩

/-- Dropping a target, alive or not, takes it out of the schedule and leaves everything there
that is not an entity of its series. -/
theorem C12_schedule_partial (w : World E) (t x : E) :
    (x ∈ (dropTarget w t).queue → x ∈ w.queue ∧ x ≠ t) ∧
    (x ∈ w.queue → x ≠ t →
      (∀ c ∈ w.chains, c.steps.head?.map (·.id) = some t → x ∉ c.steps.map (·.id)) →
      x ∈ (dropTarget w t).queue) := by
  have hw : ∀ (l : List (Step E)) (e : E), e ≠ x → x ∉ l.map (·.id) → x ∉ (walk e l).1 := by
    intro l
    induction l with
    | nil => intro e _ _; simp [walk]
    | cons a l ih =>
      intro e he hx
      simp only [List.map_cons, List.mem_cons, not_or] at hx
      simp only [walk]
      split
      · simp
      · simp only [List.mem_cons, not_or]
        exact ⟨Ne.symm he, ih a.id (Ne.symm hx.1) hx.2⟩
  unfold dropTarget
  split
  · simp only [List.mem_filter, decide_eq_true_eq]
    exact ⟨id, fun h h' _ => ⟨h, h'⟩⟩
  · rename_i c hc
    have hm := List.mem_of_find?_eq_some hc
    have ht := List.find?_some hc
    simp only [decide_eq_true_eq] at ht
    simp only [List.mem_filter, Bool.and_eq_true, decide_eq_true_eq]
    refine ⟨fun h => ⟨h.1, h.2.1⟩, fun h h' hn => ⟨h, h', ?_⟩⟩
    refine hw _ _ (Ne.symm h') ?_
    intro hx
    refine hn c hm ht ?_
    cases hs : c.steps with
    | nil => rw [hs] at hx; simp at hx
    | cons a l => rw [hs] at hx; exact List.mem_cons_of_mem _ hx

example : (dropTarget (⟨[⟨true, [⟨0, false⟩, ⟨1, false⟩, ⟨2, true⟩]⟩], [], [5, 0, 1]⟩ : World Nat)
    0).queue = [5, 1] ∧
    (dropTarget (⟨[], [], [5, 0, 1]⟩ : World Nat) 0).queue = [5, 1] := by decide

end Verif.Drop
