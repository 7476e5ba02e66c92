import Verif.Fork.Lemmas
import Verif.Split.Spec

set_option linter.unusedSectionVars false

namespace Verif.Split

open Verif.Input Verif.Fork

variable {Key : Type} [DecidableEq Key] {Id V K : Type} [DecidableEq K]

theorem idxOf_cons_other {a k : Key} {ks : List Key} (h : ¬ a = k) :
    (a :: ks).idxOf k = ks.idxOf k + 1 := by
  have : (a == k) = false := by simpa using h
  rw [List.idxOf_cons, this]
  rfl

theorem lookup_zipIdx (ks : List Key) (k : Key) (n : Nat) :
    lookup (ks.zipIdx n) k = if k ∈ ks then some (n + ks.idxOf k) else none := by
  induction ks generalizing n with
  | nil => simp [lookup]
  | cons a ks ih =>
    have := ih (n + 1)
    unfold lookup at this ⊢
    rw [List.zipIdx_cons, List.find?_cons]
    by_cases h : a = k
    · subst h; simp
    · have h' : ¬ k = a := fun x => h x.symm
      simp only [h, decide_false, this, List.mem_cons, h', false_or]
      by_cases hk : k ∈ ks
      · simp only [hk, if_true]
        rw [idxOf_cons_other h]
        congr 1
        omega
      · simp [hk]

theorem modify_map (ks : List Key) (hn : ks.Nodup) (k : Key) (hk : k ∈ ks)
    (f : Key → List (Id × V)) (x : Id × V) :
    (ks.map f).modify (ks.idxOf k) (· ++ [x]) =
      ks.map fun κ => if κ = k then f κ ++ [x] else f κ := by
  induction ks with
  | nil => simp at hk
  | cons a ks ih =>
    rw [List.nodup_cons] at hn
    by_cases h : a = k
    · subst h
      simp only [List.idxOf_cons_self, List.map_cons, List.modify_zero_cons, if_true]
      congr 1
      apply List.map_congr_left
      intro b hb
      have : b ≠ a := fun e => hn.1 (e ▸ hb)
      simp [this]
    · have hk' : k ∈ ks := by
        rcases List.mem_cons.1 hk with e | e
        · exact absurd e.symm h
        · exact e
      rw [idxOf_cons_other h]
      simp only [List.map_cons, List.modify_succ_cons, h, if_false]
      rw [ih hn.2 hk']

/-- The dispatcher of a split with connections for `ks`, with the outputs given by key. -/
def disp (ks : List Key) (f : Key → List (Id × V)) : Dispatcher Key Id V :=
  ⟨ks.zipIdx, ks.map f⟩

theorem push_mem {ks : List Key} (hn : ks.Nodup) {k : Key} (hk : k ∈ ks)
    (f : Key → List (Id × V)) (x : Id × V) :
    (disp ks f).push k x = some (disp ks fun κ => if κ = k then f κ ++ [x] else f κ) := by
  have hl : lookup (disp ks f).connections k = some (ks.idxOf k) := by
    show lookup (ks.zipIdx) k = _
    rw [lookup_zipIdx, if_pos hk, Nat.zero_add]
  have hlt : ¬ (disp ks f).outputs.length ≤ ks.idxOf k := by
    show ¬ (ks.map f).length ≤ _
    rw [List.length_map]
    have := List.idxOf_lt_length_of_mem hk
    omega
  simp only [Dispatcher.push, hl, hlt, if_false]
  show some (⟨ks.zipIdx, (ks.map f).modify (ks.idxOf k) (· ++ [x])⟩ : Dispatcher Key Id V) = _
  rw [modify_map ks hn k hk]
  rfl

theorem push_not_mem {ks : List Key} {k : Key} (hk : k ∉ ks)
    (f : Key → List (Id × V)) (x : Id × V) : (disp ks f).push k x = none := by
  have hl : lookup (disp ks f).connections k = none := by
    show lookup (ks.zipIdx) k = _
    rw [lookup_zipIdx, if_neg hk]
  simp [Dispatcher.push, hl]

/-- Sending one element: to the first connected candidate. -/
def sent (ks : List Key) (f : Key → List (Id × V)) (e : Elem Key Id V) : Key → List (Id × V) :=
  fun κ => if pick ks e.1 = some κ then f κ ++ [e.2] else f κ

theorem sent_of_pick {ks : List Key} {c : List Key} {k : Key} (h : pick ks c = some k)
    (f : Key → List (Id × V)) (x : Id × V) :
    sent ks f (c, x) = fun κ => if κ = k then f κ ++ [x] else f κ := by
  funext κ
  simp only [sent, h, Option.some.injEq]
  by_cases e : k = κ
  · simp [e]
  · have e' : ¬ κ = k := fun h => e h.symm
    simp [e, e']

theorem sent_of_none {ks : List Key} {c : List Key} (h : pick ks c = none)
    (f : Key → List (Id × V)) (x : Id × V) : sent ks f (c, x) = f := by
  funext κ
  simp [sent, h]

theorem push_two {ks : List Key} (hn : ks.Nodup) (a b : Key) (f : Key → List (Id × V))
    (x : Id × V) :
    ((disp ks f).push a x).getD (((disp ks f).push b x).getD (disp ks f)) =
      disp ks (sent ks f ([a, b], x)) := by
  by_cases ha : a ∈ ks
  · rw [push_mem hn ha, sent_of_pick (k := a) (by simp [pick, ha])]
    rfl
  · rw [push_not_mem ha]
    by_cases hb : b ∈ ks
    · rw [push_mem hn hb, sent_of_pick (k := b) (by simp [pick, ha, hb])]
      rfl
    · rw [push_not_mem hb, sent_of_none (by simp [pick, ha, hb])]
      rfl

theorem sent_foldl (ks : List Key) (es : List (Elem Key Id V)) :
    ∀ f : Key → List (Id × V), es.foldl (sent ks) f = fun κ => f κ ++ routed ks es κ := by
  induction es with
  | nil => intro f; simp [routed]
  | cons e es ih =>
    intro f
    rw [List.foldl_cons, ih]
    funext κ
    simp only [sent, routed, List.filter_cons]
    by_cases h : pick ks e.1 = some κ
    · simp [h]
    · simp [h]

theorem splitList_eq {ks : List ListKey} (hn : ks.Nodup) (vs : List V) :
    ∀ n (f : ListKey → List (Nat × V)),
    splitList n (disp ks f) vs =
      disp ks (((vs.zipIdx n).map fun p => ([ListKey.sequential p.2, .remaining], (p.2, p.1))).foldl
        (sent ks) f) := by
  induction vs with
  | nil => intro n f; rfl
  | cons v vs ih =>
    intro n f
    simp only [splitList]
    rw [push_two hn, ih]
    rfl

theorem splitJsonArray_eq {ks : List (MapKey K)} (hn : ks.Nodup) (vs : List V) :
    ∀ n (f : MapKey K → List (JPos K × V)),
    splitJsonArray n (disp ks f) vs =
      disp ks (((vs.zipIdx n).map fun p =>
        ([MapKey.sequential p.2, .remaining], (JPos.element p.2, p.1))).foldl (sent ks) f) := by
  induction vs with
  | nil => intro n f; rfl
  | cons v vs ih =>
    intro n f
    simp only [splitJsonArray]
    rw [push_two hn, ih]
    rfl

theorem sent_specific {ks : List (MapKey K)} (hn : ks.Nodup) (f : MapKey K → List (Id × V))
    {k : K} (hk : MapKey.specific k ∈ ks) (j : Nat) (x : Id × V) :
    (disp ks f).push (.specific k) x =
      some (disp ks (sent ks f ([.specific k, .sequential j, .remaining], x))) := by
  rw [push_mem hn hk, sent_of_pick (k := MapKey.specific k) (by simp [pick, hk])]

theorem sent_anonymous {ks : List (MapKey K)} (f : MapKey K → List (Id × V))
    {k : K} (hk : MapKey.specific k ∉ ks) (j : Nat) (x : Id × V) :
    sent ks f ([.specific k, .sequential j, .remaining], x) =
      sent ks f ([.sequential j, .remaining], x) := by
  have : pick ks [.specific k, .sequential j, .remaining] = pick ks [.sequential j, .remaining] := by
    unfold pick
    rw [List.find?_cons]
    simp only [hk, decide_false]
  funext κ
  simp only [sent, this]

theorem anonymous_snoc_mem {ks : List (MapKey K)} {l : List (K × V)} {x : K × V}
    (h : MapKey.specific x.1 ∈ ks) : anonymous ks (l ++ [x]) = anonymous ks l := by
  simp [anonymous, h]

theorem anonymous_snoc_not_mem {ks : List (MapKey K)} {l : List (K × V)} {x : K × V}
    (h : MapKey.specific x.1 ∉ ks) : anonymous ks (l ++ [x]) = anonymous ks l + 1 := by
  simp [anonymous, h]

theorem splitMap_eq {ks : List (MapKey K)} (hn : ks.Nodup) (l : List (K × V)) :
    ∀ (pre : List (K × V)) (f : MapKey K → List (K × V)),
    splitMap (anonymous ks pre) (disp ks f) l =
      disp ks (((l.zipIdx pre.length).map fun p =>
        ([MapKey.specific p.1.1, .sequential (anonymous ks ((pre ++ l).take p.2)), .remaining],
          p.1)).foldl (sent ks) f) := by
  induction l with
  | nil => intro n f; rfl
  | cons x l ih =>
    intro pre f
    obtain ⟨k, v⟩ := x
    have hpre : pre ++ (k, v) :: l = (pre ++ [(k, v)]) ++ l := by simp
    have hlen : pre.length + 1 = (pre ++ [(k, v)]).length := by simp
    have htake : (pre ++ (k, v) :: l).take pre.length = pre := by simp
    rw [List.zipIdx_cons, List.map_cons, List.foldl_cons]
    simp only [splitMap, htake]
    by_cases hk : MapKey.specific k ∈ ks
    · rw [sent_specific hn f hk (anonymous ks pre)]
      simp only
      rw [← anonymous_snoc_mem (l := pre) (x := (k, v)) hk, ih, hpre, hlen]
    · rw [push_not_mem hk]
      simp only
      rw [push_two hn, sent_anonymous f hk,
        ← anonymous_snoc_not_mem (l := pre) (x := (k, v)) hk, ih, hpre, hlen]

theorem splitJsonObject_eq {ks : List (MapKey K)} (hn : ks.Nodup) (l : List (K × V)) :
    ∀ (pre : List (K × V)) (f : MapKey K → List (JPos K × V)),
    splitJsonObject (anonymous ks pre) (disp ks f) l =
      disp ks (((l.zipIdx pre.length).map fun p =>
        ([MapKey.specific p.1.1, .sequential (anonymous ks ((pre ++ l).take p.2)), .remaining],
          (JPos.field p.1.1, p.1.2))).foldl (sent ks) f) := by
  induction l with
  | nil => intro n f; rfl
  | cons x l ih =>
    intro pre f
    obtain ⟨k, v⟩ := x
    have hpre : pre ++ (k, v) :: l = (pre ++ [(k, v)]) ++ l := by simp
    have hlen : pre.length + 1 = (pre ++ [(k, v)]).length := by simp
    have htake : (pre ++ (k, v) :: l).take pre.length = pre := by simp
    rw [List.zipIdx_cons, List.map_cons, List.foldl_cons]
    simp only [splitJsonObject, htake]
    by_cases hk : MapKey.specific k ∈ ks
    · rw [sent_specific hn f hk (anonymous ks pre)]
      simp only
      rw [← anonymous_snoc_mem (l := pre) (x := (k, v)) hk, ih, hpre, hlen]
    · rw [push_not_mem hk]
      simp only
      rw [push_two hn, sent_anonymous f hk,
        ← anonymous_snoc_not_mem (l := pre) (x := (k, v)) hk, ih, hpre, hlen]

theorem splitJson_eq {ks : List (MapKey K)} (hn : ks.Nodup) (f : MapKey K → List (JPos K × V))
    (j : Json K V) :
    splitJson (disp ks f) j = disp ks ((jsonElems ks j).foldl (sent ks) f) := by
  cases j with
  | array vs => exact splitJsonArray_eq hn vs 0 f
  | object l => exact splitJsonObject_eq hn l [] f
  | singular v => exact push_two hn _ _ f _

/-! ### Delivery -/

theorem deliver_spec (mk : Id × V → V) (s : Nat) (zs : List (List (Id × V) × Nat)) :
    ∀ (n : Nat) (w : World V), (∀ p, p ∈ zs → w.Accepts p.2) →
    ∃ w', deliver mk s n zs w = (w', none,
        ((zs.zipIdx n).filter fun q => q.1.1.isEmpty).map (·.2)) ∧
      Gave w w' s (sentIf (w.active s) (zs.flatMap fun p => p.1.map fun x => (p.2, mk x))) := by
  induction zs with
  | nil =>
    intro n w _
    exact ⟨w, rfl, by cases w.active s <;> exact Gave.refl w s⟩
  | cons z zs ih =>
    intro n w h
    obtain ⟨items, t⟩ := z
    obtain ⟨w1, e1, g1⟩ := giveAll_spec s (items.map fun x => (t, mk x)) w (by
      intro p hp
      obtain ⟨x, _, rfl⟩ := List.mem_map.1 hp
      exact h (items, t) (by simp))
    obtain ⟨w2, e2, g2⟩ := ih (n + 1) w1 (fun q hq => (g1.accepts q.2).2 (h q (by simp [hq])))
    refine ⟨w2, ?_, ?_⟩
    · simp only [deliver, e1, e2, List.zipIdx_cons, List.filter_cons]
      cases hi : items.isEmpty <;> simp
    · have := g1.trans g2
      rw [g1.active] at this
      cases ha : w.active s <;> simpa [sentIf, ha] using this

theorem filter_zipIdx_key (ks : List Key) (g : Key → Bool) (n : Nat) :
    ∀ pre : List Key, pre.length = n →
    ((ks.zipIdx n).filter (fun q => g q.1)).map (fun q => (pre ++ ks)[q.2]?) =
      (ks.filter g).map some := by
  induction ks generalizing n with
  | nil => intro pre _; simp
  | cons k ks ih =>
    intro pre hp
    have := ih (n + 1) (pre ++ [k]) (by simp [hp])
    rw [List.zipIdx_cons]
    simp only [List.filter_cons]
    have hk : (pre ++ k :: ks)[n]? = some k := by rw [← hp]; simp
    have hpre : pre ++ k :: ks = (pre ++ [k]) ++ ks := by simp
    cases hg : g k
    · simp only [Bool.false_eq_true, if_false]
      rw [hpre]
      exact this
    · simp only [if_true, List.map_cons, hk]
      rw [hpre, this]

/-- The outputs paired with the targets, with index. -/
theorem zip_zipIdx_missed (ks : List Key) (f : Key → List (Id × V)) :
    ∀ (ts : List Nat) (n : Nat), ts.length = ks.length →
    ((((ks.map f).zip ts).zipIdx n).filter fun q => q.1.1.isEmpty).map (·.2) =
      ((ks.zipIdx n).filter fun q => (f q.1).isEmpty).map (·.2) := by
  induction ks with
  | nil => intro ts n _; simp
  | cons k ks ih =>
    intro ts n h
    cases ts with
    | nil => simp at h
    | cons t ts =>
      have := ih ts (n + 1) (by simpa using h)
      simp only [List.map_cons, List.zip_cons_cons, List.zipIdx_cons, List.filter_cons]
      cases hf : (f k).isEmpty <;> simp [this]

/-- One execution, for a split function that puts the elements where they belong. -/
theorem execute_spec {split : V → Dispatcher Key Id V → Dispatcher Key Id V × Option Fail}
    {mk : Id × V → V} {source : Nat} {s : Split Key Id V} {w : World V} {ks : List Key}
    {ts : List Nat} {i : Inp Nat V} {rest : List (Inp Nat V)} {es : List (Elem Key Id V)}
    (hl : Linked s ks ts) (hin : w.inbox source = i :: rest)
    (ht : ∀ t, t ∈ ts → w.Accepts t)
    (hsplit : split i.data (disp ks fun _ => []) = (disp ks (routed ks es), none)) :
    ∃ w' inc, execute split mk source s w = (s, w', none, inc) ∧
      Executed mk source i ks ts es w w' inc := by
  obtain ⟨w1, e1, d1⟩ := take_spec hin
  have hd : (⟨s.connections, s.cache.getD []⟩ : Dispatcher Key Id V) = disp ks fun _ => [] := by
    rw [hl.connections, hl.cache]
    simp [disp, List.map_const']
  have hzip : ∀ p, p ∈ (ks.map (routed ks es)).zip ts → p.2 ∈ ts :=
    fun p hp => (List.of_mem_zip hp).2
  obtain ⟨w2, e2, g2⟩ := deliver_spec mk i.session ((ks.map (routed ks es)).zip ts) 0 w1
    (fun p hp => (d1.accepts p.2).2 (ht p.2 (hzip p hp)))
  have hmiss := zip_zipIdx_missed ks (routed ks es) ts 0 hl.length
  rw [hmiss] at e2
  have hkeys := filter_zipIdx_key ks (fun k => (routed ks es k).isEmpty) 0 [] rfl
  simp only [List.nil_append] at hkeys
  have hclear : ((ks.map (routed ks es)).zipIdx.map fun p =>
      if p.2 < ts.length then [] else p.1) = List.replicate ks.length [] := by
    apply List.ext_getElem
    · simp
    · intro n h1 h2
      have : n < ks.length := by simpa using h2
      simp [hl.length, this]
  rw [d1.active] at g2
  have d2 := d1.gave g2
  refine ⟨w2, (if ((ks.zipIdx.filter fun q => (routed ks es q.1).isEmpty).map (·.2)).isEmpty then []
    else [⟨i.session, ((ks.zipIdx.filter fun q => (routed ks es q.1).isEmpty).map (·.2)).map
      fun i => s.indexToKey[i]?⟩]), ?_, ?_⟩
  · have hout : (disp ks (routed ks es)).outputs = ks.map (routed ks es) := rfl
    simp only [execute, e1, hd, hsplit, hl.targets, hout, e2, hclear]
    have hs : s = { s with cache := some (List.replicate ks.length []) } := by
      cases s; simp only [Split.mk.injEq, and_true, true_and]; exact hl.cache
    rw [← hl.targets]
    conv => rhs; rw [hs]
  · constructor
    · have hfm : ∀ (ks' : List Key) (ts' : List Nat),
          ((ks'.map (routed ks es)).zip ts').flatMap (fun p => p.1.map fun x => (p.2, mk x)) =
          (ks'.zip ts').flatMap fun p => (routed ks es p.1).map fun x => (p.2, mk x) := by
        intro ks'
        induction ks' with
        | nil => intro ts'; simp
        | cons k ks' ih =>
          intro ts'
          cases ts' with
          | nil => simp
          | cons t ts' => simp [ih]
      rw [hfm] at d2
      simpa [sentIf] using d2
    · rw [List.map_map, hl.indexToKey]
      have hc : (fun i => ks[i]?) ∘ (fun q : Key × Nat => q.2) = fun q : Key × Nat => ks[q.2]? := rfl
      rw [hc, hkeys]
      by_cases hall : ∀ k, k ∈ ks → routed ks es k ≠ []
      · have : ks.zipIdx.filter (fun q => (routed ks es q.1).isEmpty) = [] := by
          rw [List.filter_eq_nil_iff]
          intro q hq
          have hm : q.1 ∈ ks := by
            obtain ⟨a, b⟩ := q
            have := List.mem_zipIdx hq
            obtain ⟨_, _, h3⟩ := this
            rw [h3]; exact List.getElem_mem _
          simpa using hall q.1 hm
        rw [if_pos hall, this]
        rfl
      · rw [if_neg hall]
        have : ((ks.zipIdx.filter fun q => (routed ks es q.1).isEmpty).map (·.2)).isEmpty = false := by
          rw [Bool.eq_false_iff]
          intro he
          apply hall
          intro k hk hr
          have hx : ks.filter (fun k => (routed ks es k).isEmpty) = [] := by
            have := congrArg List.length hkeys
            simp only [List.length_map] at this
            rw [List.isEmpty_iff, List.map_eq_nil_iff] at he
            rw [he] at this
            exact List.length_eq_zero_iff.1 this.symm
          rw [List.filter_eq_nil_iff] at hx
          exact hx k hk (by simp [hr])
        rw [this]
        rfl

end Verif.Split
