import Verif.Split.Build

set_option linter.unusedSectionVars false

/- C36, C37. -/
namespace Verif.Split

open Verif.Input Verif.Fork

variable {Key : Type} [DecidableEq Key] {Id V K : Type} [DecidableEq K]

/-- C36 for lists (`Vec`, arrays, anything iterated as a list): the n-th element goes to the
n-th sequential connection if there is one, else to the remaining one, else nowhere; the
connections that got nothing are reported in one disposal; and the split is ready for the
next message as before. -/
theorem C36_list (s : Split ListKey Nat V) (ks : List ListKey) (ts : List Nat)
    (hl : Linked s ks ts) (view : V → List V) (mk : Nat × V → V) (source : Nat) (w : World V)
    (i : Inp Nat V) (rest : List (Inp Nat V)) (hin : w.inbox source = i :: rest)
    (ht : ∀ t, t ∈ ts → w.Accepts t) :
    ∃ w' inc, execute (fun m d => (splitList 0 d (view m), none)) mk source s w =
        (s, w', none, inc) ∧
      Executed mk source i ks ts (listElems (view i.data)) w w' inc := by
  apply execute_spec hl hin ht
  simp only [Prod.mk.injEq, and_true]
  rw [splitList_eq hl.nodup, sent_foldl]
  simp [listElems]

/-- C36 for maps: an element goes to the connection of its own key, else to the sequential
connection of its place among the elements without one, else to the remaining one, else
nowhere. -/
theorem C36_map (s : Split (MapKey K) K V) (ks : List (MapKey K)) (ts : List Nat)
    (hl : Linked s ks ts) (view : V → List (K × V)) (mk : K × V → V) (source : Nat) (w : World V)
    (i : Inp Nat V) (rest : List (Inp Nat V)) (hin : w.inbox source = i :: rest)
    (ht : ∀ t, t ∈ ts → w.Accepts t) :
    ∃ w' inc, execute (fun m d => (splitMap 0 d (view m), none)) mk source s w =
        (s, w', none, inc) ∧
      Executed mk source i ks ts (mapElems ks (view i.data)) w w' inc := by
  apply execute_spec hl hin ht
  simp only [Prod.mk.injEq, and_true]
  have := splitMap_eq hl.nodup (view i.data) [] (fun _ => [])
  simp only [List.length_nil, List.nil_append] at this
  have h0 : anonymous ks ([] : List (K × V)) = 0 := rfl
  rw [h0] at this
  rw [this, sent_foldl]
  simp [mapElems]

/-- C36 for JSON values: arrays like lists, objects like maps, anything else is one element
for the first sequential or the remaining connection. -/
theorem C36_json (s : Split (MapKey K) (JPos K) V) (ks : List (MapKey K)) (ts : List Nat)
    (hl : Linked s ks ts) (view : V → Json K V) (mk : JPos K × V → V) (source : Nat) (w : World V)
    (i : Inp Nat V) (rest : List (Inp Nat V)) (hin : w.inbox source = i :: rest)
    (ht : ∀ t, t ∈ ts → w.Accepts t) :
    ∃ w' inc, execute (fun m d => (splitJson d (view m), none)) mk source s w =
        (s, w', none, inc) ∧
      Executed mk source i ks ts (jsonElems ks (view i.data)) w w' inc := by
  apply execute_spec hl hin ht
  simp only [Prod.mk.injEq, and_true]
  rw [splitJson_eq hl.nodup, sent_foldl]
  simp

/-- C36: elements are neither duplicated nor lost on the way: the connections together get
as many as there are elements with a connected key to go to. -/
theorem C36_conserved (ks : List Key) (hn : ks.Nodup) (es : List (Elem Key Id V)) :
    (ks.map fun k => (routed ks es k).length).sum = es.countP fun e => (pick ks e.1).isSome := by
  induction es with
  | nil =>
    have : (ks.map fun k => (routed ks ([] : List (Elem Key Id V)) k).length) =
        List.replicate ks.length 0 := by
      simp [routed, List.map_const']
    rw [this]
    simp
  | cons e es ih =>
    rw [List.countP_cons, ← ih]
    have hstep : ∀ k, (routed ks (e :: es) k).length =
        (routed ks es k).length + if pick ks e.1 = some k then 1 else 0 := by
      intro k
      simp only [routed, List.filter_cons]
      by_cases h : pick ks e.1 = some k <;> simp [h]
    simp only [hstep]
    have hsum : ∀ (f g : Key → Nat) (l : List Key),
        (l.map fun k => f k + g k).sum = (l.map f).sum + (l.map g).sum := by
      intro f g l
      induction l with
      | nil => rfl
      | cons a l ih' => simp only [List.map_cons, List.sum_cons, ih']; omega
    rw [hsum]
    congr 1
    cases hp : pick ks e.1 with
    | none =>
      have : (ks.map fun k => if (none : Option Key) = some k then 1 else 0) =
          List.replicate ks.length 0 := by simp [List.map_const']
      rw [this]
      simp
    | some k =>
      have hk : k ∈ ks := by
        have := List.find?_some hp
        simpa using this
      simp only [Option.some.injEq, Option.isSome_some, if_true]
      clear hp hstep ih
      induction ks with
      | nil => simp at hk
      | cons a ks ih' =>
        rw [List.nodup_cons] at hn
        simp only [List.map_cons, List.sum_cons]
        by_cases ha : k = a
        · subst ha
          have : (ks.map fun x => if k = x then 1 else 0) = List.replicate ks.length 0 := by
            rw [← List.map_const']
            apply List.map_congr_left
            intro x hx
            have : ¬ k = x := fun e => hn.1 (e ▸ hx)
            simp [this]
          rw [this]
          simp
        · have hm : k ∈ ks := by
            rcases List.mem_cons.1 hk with h | h
            · exact absurd h ha
            · exact h
          rw [ih' hn.2 hm]
          simp [ha]

/-- C37: whatever was asked of a split builder, a key was granted at most once, to its own
output; and the commands leave the split with exactly the granted connections, without a
complaint about doubled keys. -/
theorem C37_at_most_once (ks : Keys Key) (base : Nat) (cs : List (Call Key)) :
    let r := ({ base } : Builder Key).calls ks cs
    ((granted r.2).map (·.1)).Nodup ∧ ((granted r.2).map (·.2)).Nodup ∧
    (∀ k, k ∈ (granted r.2).map (·.1) → ks.validate k = true) ∧
    Linked (({} : Split Key Id V).connectAll r.1.cmds) ((granted r.2).map (·.1))
      ((granted r.2).map (·.2)) ∧
    (({} : Split Key Id V).connectAll r.1.cmds).doubled = 0 := by
  intro r
  have h : BInv r.1 ks (granted r.2) := by
    have := (calls_inv ks cs (BInv.init ks base)).1
    simpa using this
  have hn : ((granted r.2).map (·.1)).Nodup := by rw [← h.used]; exact h.nodup
  have hc := connectAll_linked (Id := Id) (V := V) r.1.cmds Linked.empty (by
    rw [h.cmds]; simpa using hn)
  rw [h.cmds] at hc ⊢
  refine ⟨hn, ?_, ?_, by simpa using hc.1, hc.2⟩
  · rw [h.targets]; exact List.nodup_range' ..
  · intro k hk; rw [← h.used] at hk; exact h.valid k hk

/-- C37: at any time a request for a key is granted exactly if the key is feasible and was
not granted before; a refusal says which of the two it is and changes nothing. -/
theorem C37_output_for (ks : Keys Key) (base : Nat) (cs : List (Call Key)) (k : Key) :
    let b := (({ base } : Builder Key).calls ks cs).1
    let g := granted (({ base } : Builder Key).calls ks cs).2
    (ks.validate k = false → b.call ks (.outputFor k) = (b, .err .keyOutOfBounds)) ∧
    (ks.validate k = true → k ∈ g.map (·.1) →
      b.call ks (.outputFor k) = (b, .err .keyAlreadyUsed)) ∧
    (ks.validate k = true → k ∉ g.map (·.1) →
      ∃ t, (b.call ks (.outputFor k)).2 = .ok k t ∧ t ∉ g.map (·.2)) := by
  intro b g
  have h : BInv b ks g := by
    have := (calls_inv ks cs (BInv.init ks base)).1
    simpa using this
  rcases outputFor_cases ks b k with ⟨hv, e⟩ | ⟨hv, hk, e⟩ | ⟨hv, hk, e⟩
  · refine ⟨fun _ => by simp [Builder.call, e], fun hv' => ?_, fun hv' => ?_⟩ <;>
      (rw [hv] at hv'; cases hv')
  · refine ⟨fun hv' => ?_, fun _ _ => by simp [Builder.call, e], fun _ hk' => ?_⟩
    · rw [hv] at hv'; cases hv'
    · rw [← h.used] at hk'; exact absurd hk hk'
  · refine ⟨fun hv' => ?_, fun _ hk' => ?_, fun _ _ => ?_⟩
    · rw [hv] at hv'; cases hv'
    · rw [← h.used] at hk'; exact absurd hk' hk
    · refine ⟨b.base + b.spawned, by simp [Builder.call, e], ?_⟩
      rw [h.targets]
      simp only [List.mem_range', Nat.one_mul, not_exists, not_and]
      intro x hx; omega

/-- C37: iterating over a list or vector never ends or hangs, and grants the lowest
sequential key past the previous one that is still free. -/
theorem C37_next_list (base : Nat) (cs : List (Call ListKey)) :
    let b := (({ base } : Builder ListKey).calls listKeys cs).1
    ∃ c m t, b.lastKey = cursorAt .sequential c ∧
      (b.call listKeys .next).2 = .ok (.sequential m) t ∧
      (b.call listKeys .next).1.lastKey = some (.sequential m) ∧
      c ≤ m ∧ ListKey.sequential m ∉ b.used ∧
      ∀ j, c ≤ j → j < m → ListKey.sequential j ∈ b.used := by
  intro b
  obtain ⟨c, hc⟩ : ∃ c, b.lastKey = cursorAt .sequential c :=
    calls_cursor list_seq cs ⟨0, rfl⟩
  cases next_case list_seq b c hc with
  | found m hm _ hfree hskip e =>
    exact ⟨c, m, b.base + b.spawned, hc, by simp [Builder.call, e], by simp [Builder.call, e], hm,
      hfree, fun j h1 h2 => (hskip j h1 h2).2⟩
  | exhausted m _ hw => cases hw

/-- C37: the same for maps and JSON values. -/
theorem C37_next_map (base : Nat) (cs : List (Call (MapKey K))) :
    let b := (({ base } : Builder (MapKey K)).calls (mapKeys K) cs).1
    ∃ c m t, b.lastKey = cursorAt .sequential c ∧
      (b.call (mapKeys K) .next).2 = .ok (.sequential m) t ∧
      (b.call (mapKeys K) .next).1.lastKey = some (.sequential m) ∧
      c ≤ m ∧ MapKey.sequential m ∉ b.used ∧
      ∀ j, c ≤ j → j < m → MapKey.sequential j ∈ b.used := by
  intro b
  obtain ⟨c, hc⟩ : ∃ c, b.lastKey = cursorAt .sequential c :=
    calls_cursor map_seq cs ⟨0, rfl⟩
  cases next_case map_seq b c hc with
  | found m hm _ hfree hskip e =>
    exact ⟨c, m, b.base + b.spawned, hc, by simp [Builder.call, e], by simp [Builder.call, e], hm,
      hfree, fun j h1 h2 => (hskip j h1 h2).2⟩
  | exhausted m _ hw => cases hw

/-- C37: iterating over an array of length `n` grants the lowest free key past the previous
one and ends only when there is none; having ended it leaves no trace: whatever is called
afterwards returns the same as if the failed attempt had not been made. -/
theorem C37_next_array (n base : Nat) (cs later : List (Call ListKey)) :
    let b := (({ base } : Builder ListKey).calls (arrayKeys n) cs).1
    ∃ c, b.lastKey = cursorAt .sequential c ∧
      ((∃ m t, (b.call (arrayKeys n) .next).2 = .ok (.sequential m) t ∧ c ≤ m ∧ m < n ∧
          ListKey.sequential m ∉ b.used ∧
          ∀ j, c ≤ j → j < m → ListKey.sequential j ∈ b.used) ∨
        ((b.call (arrayKeys n) .next).2 = .done ∧
          (∀ j, c ≤ j → j < n → ListKey.sequential j ∈ b.used) ∧
          ((b.call (arrayKeys n) .next).1.calls (arrayKeys n) later).2 =
            (b.calls (arrayKeys n) later).2 ∧
          ((b.call (arrayKeys n) .next).1.calls (arrayKeys n) later).1.cmds =
            (b.calls (arrayKeys n) later).1.cmds)) := by
  intro b
  obtain ⟨c, hc⟩ : ∃ c, b.lastKey = cursorAt .sequential c :=
    calls_cursor (array_seq n) cs ⟨0, rfl⟩
  refine ⟨c, hc, ?_⟩
  cases next_case (array_seq n) b c hc with
  | found m hm hw hfree hskip e =>
    left
    exact ⟨m, b.base + b.spawned, by simp [Builder.call, e], hm, by simpa using hw, hfree,
      fun j h1 h2 => (hskip j h1 h2).2⟩
  | exhausted m hm hw hskip e =>
    right
    have hnm : n ≤ m := by simpa using hw
    have hal : Alike (arrayKeys n) .sequential (fun c => decide (c < n)) b
        (b.call (arrayKeys n) .next).1 := by
      simp only [Builder.call, e]
      exact ⟨rfl, rfl, rfl, rfl, ⟨c, m, hc, hm, hw, hskip⟩,
        ⟨m, m, rfl, Nat.le_refl m, hw, fun j a b => by omega⟩⟩
    have hcalls := hal.calls (array_seq n) later
    exact ⟨by simp [Builder.call, e], fun j h1 h2 => (hskip j h1 (by omega)).2, hcalls.1, hcalls.2⟩

/-- C36 end to end: connect a split by any calls of its builder, connect the outputs on to
any inputs (`retarget`), and send a list through: the element for a key arrives at the input
that the output granted for the key was connected to. -/
theorem C36_built_list (base : Nat) (cs : List (Call ListKey)) (retarget : Nat → Nat)
    (view : V → List V) (mk : Nat × V → V) (source : Nat) (w : World V)
    (i : Inp Nat V) (rest : List (Inp Nat V)) (hin : w.inbox source = i :: rest) :
    let r := ({ base } : Builder ListKey).calls listKeys cs
    let s0 := ({} : Split ListKey Nat V).connectAll r.1.cmds
    let s := { s0 with targets := s0.targets.map retarget }
    let g := granted r.2
    (∀ p, p ∈ g → w.Accepts (retarget p.2)) →
    ∃ w' inc, execute (fun m d => (splitList 0 d (view m), none)) mk source s w =
        (s, w', none, inc) ∧
      Executed mk source i (g.map (·.1)) (g.map fun p => retarget p.2)
        (listElems (view i.data)) w w' inc := by
  intro r s0 s g hacc
  have h := (C37_at_most_once (Id := Nat) (V := V) listKeys base cs).2.2.2.1
  have hl : Linked s (g.map (·.1)) (g.map fun p => retarget p.2) := by
    refine ⟨h.nodup, by simp, h.connections, h.indexToKey, h.cache, ?_⟩
    show s0.targets.map retarget = _
    rw [show s0.targets = g.map (·.2) from h.targets, List.map_map]
    rfl
  refine C36_list s _ _ hl view mk source w i rest hin ?_
  intro t ht
  obtain ⟨p, hp, rfl⟩ := List.mem_map.1 ht
  exact hacc p hp

theorem outputsFor_ok (ks : Keys Key) : ∀ (l : List Key) (b : Builder Key),
    (∀ k, k ∈ l → ks.validate k = true) → (b.used ++ l).Nodup →
    ∃ b' g, outputsFor ks b l = (b', .ok g) ∧ g.map (·.1) = l := by
  intro l
  induction l with
  | nil => intro b _ _; exact ⟨b, [], rfl, rfl⟩
  | cons k l ih =>
    intro b hv hn
    rcases outputFor_cases ks b k with ⟨h, _⟩ | ⟨_, hk, _⟩ | ⟨_, hk, e⟩
    · rw [hv k (by simp)] at h; cases h
    · exfalso
      rw [List.nodup_append] at hn
      exact hn.2.2 k hk k (by simp) rfl
    · obtain ⟨b', g, e', hg⟩ := ih { b with
          used := b.used ++ [k]
          spawned := b.spawned + 1
          cmds := b.cmds ++ [(k, b.base + b.spawned)] }
        (fun x hx => hv x (by simp [hx])) (by simpa using hn)
      exact ⟨b', (k, b.base + b.spawned) :: g, by simp only [outputsFor, e, e'], by simp [hg]⟩

/-- C37 in diagrams: a split of a map or JSON value gets every connection its description
names. -/
theorem C37_diagram_map (base : Nat) (keyed : List K) (hk : keyed.Nodup) (sequential : Nat)
    (remaining : Bool) :
    ∃ b g, performSplit (mapKeys K) MapKey.specific MapKey.sequential .remaining base keyed
        sequential remaining = (b, .ok g) ∧
      g.map (·.1) = keyed.map .specific ++ (List.range sequential).map .sequential ++
        if remaining then [.remaining] else [] := by
  apply outputsFor_ok
  · intro k _; rfl
  · simp only [List.nil_append]
    rw [List.nodup_append, List.nodup_append]
    refine ⟨⟨?_, ?_, ?_⟩, ?_, ?_⟩
    · exact List.Pairwise.map _ (fun a b h e => h (by cases e; rfl)) hk
    · exact List.Pairwise.map _ (fun a b h e => h (by cases e; rfl)) List.nodup_range
    · intro a ha b hb e
      obtain ⟨x, _, rfl⟩ := List.mem_map.1 ha
      obtain ⟨y, _, rfl⟩ := List.mem_map.1 hb
      cases e
    · cases remaining <;> simp
    · intro a ha b hb e
      cases remaining
      · simp at hb
      · simp only [if_true, List.mem_singleton] at hb
        subst hb; subst e
        rcases List.mem_append.1 ha with ha | ha
        · obtain ⟨x, _, h⟩ := List.mem_map.1 ha; cases h
        · obtain ⟨x, _, h⟩ := List.mem_map.1 ha; cases h

/-- In a diagram the split of a list is refused when a name that is not a number is keyed
beside a remaining connection: the name stands for the remaining key. -/
theorem C37_diagram_list_clash (parse : K → Option Nat) (name : K) (h : parse name = none)
    (base : Nat) :
    (performSplit listKeys (listFromSpecific parse) .sequential .remaining base [name] 0 true).2 =
      .error .keyAlreadyUsed := by
  simp [performSplit, outputsFor, Builder.outputFor, listFromSpecific, h, listKeys]

/-! ### C36 after a failure -/

/-- A split of lists of numbers written by a user, which refuses the message 0; any other
message `n` is the list `[n]`. -/
def fussySplit (m : Nat) (d : Dispatcher ListKey Nat Nat) :
    Dispatcher ListKey Nat Nat × Option Fail :=
  if m = 0 then (d, some .notReady) else (splitList 0 d [m], none)

/-- Two connections, for the first and the second element. -/
def twoWay : Split ListKey Nat Nat :=
  (({} : Split ListKey Nat Nat).connect (.sequential 0) 1).connect (.sequential 1) 2

def twoWayWorld (inputs : List (Inp Nat Nat)) : World Nat where
  nodes := fun e =>
    if e = 0 then some ⟨some inputs.reverse, false, none, none⟩
    else if e < 3 then some ⟨some [], false, none, none⟩
    else none
  active := fun _ => true

/-- C36 fails after a failed split: the outputs prepared for the connections are lost, and
from then on a connection that gets nothing goes unreported. The same message is handled
twice, without and with a failed message before it. -/
theorem C36_after_failure_violated :
    let fresh := execute fussySplit (·.2) 0 twoWay (twoWayWorld [⟨9, 5⟩])
    let failed := execute fussySplit (·.2) 0 twoWay (twoWayWorld [⟨9, 0⟩, ⟨9, 5⟩])
    let after := execute fussySplit (·.2) 0 failed.1 failed.2.1
    fresh.2.2.1 = none ∧ fresh.2.1.inbox 1 = [⟨9, 5⟩] ∧
      fresh.2.2.2 = [⟨9, [some (.sequential 1)]⟩] ∧
    failed.2.2.1 = some .notReady ∧
    after.2.2.1 = none ∧ after.2.1.inbox 1 = [⟨9, 5⟩] ∧ after.2.1.inbox 2 = [] ∧
      after.2.2.2 = [] := by decide

/-! ### Examples -/

example : Linked twoWay [.sequential 0, .sequential 1] [1, 2] := by
  refine ⟨by decide, rfl, rfl, rfl, rfl, rfl⟩

/-- Keys "a" = 0 is connected, and sequential 0 and remaining: of the fields 1, 0, 2, 3 the
first unnamed one goes to sequential 0, the others to remaining. -/
example : (({ base := 1 } : Builder (MapKey Nat)).calls (mapKeys Nat)
      [.outputFor (.specific 0), .next, .outputFor .remaining, .outputFor (.specific 0)]).2 =
    [.ok (.specific 0) 1, .ok (.sequential 0) 2, .ok .remaining 3, .err .keyAlreadyUsed] := by
  decide

example : (mapElems [.specific 0, .sequential 0, .remaining] [(1, 10), (0, 20), (2, 30), (3, 40)]).map
    (fun e => pick [.specific 0, .sequential 0, .remaining] e.1) =
    [some (.sequential 0), some (.specific 0), some .remaining, some .remaining] := by decide

example : (({ base := 1 } : Builder ListKey).calls (arrayKeys 2)
      [.outputFor (.sequential 1), .outputFor (.sequential 2), .next, .next]).2 =
    [.ok (.sequential 1) 1, .err .keyOutOfBounds, .ok (.sequential 0) 2, .done] := by decide

end Verif.Split
