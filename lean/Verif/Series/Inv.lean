import Verif.Series.Line

/-
The invariants hold in every run.
-/
namespace Verif.Series

structure Inv (w : World) : Prop where
  net : Net w
  line : Line w

theorem Inv.congr {w w' : World} (h : Inv w) (hn : w'.nodes = w.nodes) (hx : w'.next = w.next)
    (hq : w'.queue = w.queue) : Inv w' :=
  ⟨h.net.congr hn hx, h.line.congr hq hx hn⟩

theorem inv_init : Inv {} := by
  refine ⟨⟨⟨fun _ _ => rfl, ⟨fun _ => 0, ?_, ?_, ?_⟩, ?_, ?_⟩, ?_, ?_, ?_, ?_, ?_, ?_⟩,
    ⟨?_, ?_, ?_⟩⟩ <;> simp

/-! ### Building -/

theorem Inv.request {w : World} (h : Inv w) (v : Nat) : Inv (w.request v) := by
  have hf := h.net.forest
  refine ⟨h.net.request v, ?_⟩
  have hqq : (w.request v).queue = w.queue ++ [w.next + 1] := by simp [World.request, World.set]
  have hpar : ∀ y n t, w.nodes y = some n → n.target = some t → t < w.next := by
    intro y n t hy ht
    obtain ⟨m, hm, -⟩ := target_nonleaf h.net hy ht
    exact hf.lt hm
  refine ⟨?_, ?_, ?_⟩
  · intro q hq
    show q < w.next + 2
    rw [hqq] at hq
    rcases List.mem_append.1 hq with hq | hq
    · have := h.line.qlt q hq
      omega
    · simp at hq; omega
  · intro x n t hx ht hk
    rw [hqq]
    rw [request_nodes] at hx
    intro hm
    have hm' : t ∈ w.queue ∨ t = w.next + 1 := by simpa using hm
    split at hx
    · cases hx
      simp only [Option.some.injEq] at ht
      rcases hm' with hm' | hm'
      · have := h.line.qlt _ hm'; omega
      · omega
    · split at hx
      · cases hx; simp at ht
      · have := hpar _ _ _ hx ht
        rcases hm' with hm' | hm'
        · exact h.line.quiet _ _ _ hx ht hk hm'
        · omega
  · intro x n t e m hx ht he hm
    rw [hqq]
    rw [request_nodes] at hx
    split at hx
    · cases hx; simp at he
    · split at hx
      · cases hx; simp at he
      · have hlt := h.net.mapLt _ _ _ hx he
        rw [request_nodes, if_neg (by omega), if_neg (by omega)] at hm
        have := h.line.fifo _ _ _ _ _ hx ht he hm
        refine Nat.le_trans this ?_
        apply List.Sublist.count_le
        rw [List.takeWhile_append]
        split
        · exact List.sublist_append_left _ _ |>.trans (by
            rename_i hl
            have : w.queue.takeWhile (fun q => decide (q ≠ t)) = w.queue := by
              exact (List.takeWhile_sublist _).eq_of_length hl
            rw [this]; exact List.Sublist.refl _)
        · exact List.Sublist.refl _

theorem Inv.promote {w : World} (h : Inv w) (t : Nat) : Inv (w.next' t) := by
  have hf := h.net.forest
  refine ⟨h.net.promote t, ?_⟩
  by_cases hc : ∃ n, w.nodes t = some n ∧ n.kind = .idle
  rotate_left
  · rw [next_skip]
    · exact h.line
    · intro n hn hk; exact hc ⟨n, hn, hk⟩
  obtain ⟨n, ht, hk⟩ := hc
  obtain ⟨hnx, hqq⟩ := next_next ht hk
  have hms := h.net.mapSrc _ _ ht ((hf.ok _ _ ht).idle hk).2
  refine ⟨?_, ?_, ?_⟩
  · intro q hq
    rw [hnx]
    rw [hqq] at hq
    exact Nat.lt_succ_of_lt (h.line.qlt q hq)
  · intro x m u hx hu hmk
    rw [hqq]
    rw [next_nodes ht hk] at hx
    split at hx
    · cases hx
      simp only [Node.promoted, Option.some.injEq] at hu
      subst hu
      intro hm
      exact Nat.lt_irrefl _ (h.line.qlt _ hm)
    · split at hx
      · cases hx; simp at hu
      · exact h.line.quiet _ _ _ hx hu hmk
  · intro x m u e c hx hu he hc
    rw [hqq]
    rw [next_nodes ht hk] at hx
    split at hx
    · cases hx
      simp [Node.promoted, hms] at he
    · split at hx
      · cases hx; simp at he
      · have hlt := h.net.mapLt _ _ _ hx he
        have hne : e.2 ≠ t := by
          intro e'
          have := (h.net.mapLeaf _ _ _ _ hx he (e' ▸ ht)).1
          rw [hk] at this; cases this
        rw [next_nodes ht hk, if_neg hne, if_neg (by omega)] at hc
        exact h.line.fifo _ _ _ _ _ hx hu he hc

/-- Change a node such that neither its inputs grow nor its map. -/
theorem Inv.upd {w : World} (h : Inv w) {x : Nat} {n n' : Node} (hx : w.nodes x = some n)
    (hp : n'.parent = n.parent) (ht : n'.target = n.target)
    (hk : n'.kind.leaf = n.kind.leaf) (hok : n'.ok) (hm : n'.streams = n.streams)
    (hd : n'.kind ≠ .done → n.kind ≠ .done) (hi : n'.inputs.length ≤ n.inputs.length)
    (hw : ∀ s, n'.works s → n.works s) : Inv (w.set x n') := by
  refine ⟨h.net.upd hx hp ht hk hok hm fun s hs => h.net.sess _ _ _ hx (hw s hs), ?_⟩
  refine h.line.less rfl rfl ?_
  intro y m' hy
  by_cases e : y = x
  · subst e
    rw [set_self] at hy; cases hy
    exact ⟨n, hx, ht, hm, hd, hi⟩
  · rw [set_other _ _ e] at hy
    exact ⟨m', hy, rfl, rfl, id, Nat.le_refl _⟩

theorem finishWith_eq {w : World} {t : Nat} {n : Node} (ht : w.nodes t = some n)
    (hk : n.kind = .idle) (k : Kind) :
    w.finishWith t k = w.set t { n with kind := k, cancellable := true } := by
  simp [World.finishWith, ht, hk]

/-- The kinds of terminals. -/
def Kind.terminal : Kind → Bool
  | .taken | .store _ | .push _ false | .event => true
  | _ => false

theorem Kind.terminal_leaf {k : Kind} (h : k.terminal = true) : k.leaf = false := by
  unfold Kind.terminal at h
  split at h <;> simp_all [Kind.leaf]

theorem Inv.finishWith {w : World} (h : Inv w) {t : Nat} {n : Node} {k : Kind}
    (ht : w.nodes t = some n) (hn : n.kind = .idle) (hk : k.terminal = true) :
    Inv (w.finishWith t k) := by
  rw [finishWith_eq ht hn]
  have hp := (h.net.forest.ok _ _ ht).idle hn
  refine h.upd ht rfl rfl ?_ ?_ rfl ?_ (Nat.le_refl _) ?_
  · show k.leaf = _
    rw [hn, Kind.terminal_leaf hk]; rfl
  · unfold Node.ok
    unfold Kind.terminal at hk
    split at hk <;> simp_all
  · rw [hn]; simp
  · intro s hs
    rcases hs with hs | hs
    · exact .inl hs
    · simp only at hs
      subst hs
      simp [Kind.terminal] at hk

/-! #### Streams -/

theorem children_cases (p : Nat) (k : Kind) : ∀ (tys : List Nat) (w : World)
    (map : List (Nat × Nat)),
    (w.children p k tys map).1.next = w.next + tys.length ∧
    (w.children p k tys map).1.queue = w.queue ∧
    (w.children p k tys map).1.outcomes = w.outcomes ∧
    (w.children p k tys map).1.received = w.received ∧
    (w.children p k tys map).1.collected = w.collected ∧
    (∀ y, (w.children p k tys map).1.nodes y =
      if w.next ≤ y ∧ y < w.next + tys.length
      then some { parent := some p, kind := k, cancellable := true } else w.nodes y) ∧
    ∀ e, e ∈ (w.children p k tys map).2 →
      e ∈ map ∨ (w.next ≤ e.2 ∧ e.2 < w.next + tys.length)
  | [], w, map => by
    simp only [World.children, List.length_nil, Nat.add_zero, true_and]
    refine ⟨?_, fun _ h => .inl h⟩
    intro y
    rw [if_neg (by omega)]
  | ty :: tys, w, map => by
    obtain ⟨h1, h2, h3, h4, h5, h6, h7⟩ := children_cases p k tys (w.child p k) (map ++ [(ty, w.next)])
    have hn : (w.child p k).next = w.next + 1 := rfl
    simp only [World.children, List.length_cons]
    refine ⟨by rw [h1, hn]; omega, h2, h3, h4, h5, ?_, ?_⟩
    · intro y
      rw [h6, hn, child_nodes]
      by_cases e : y = w.next
      · subst e
        rw [if_neg (by omega), if_pos rfl, if_pos (by omega)]
      · rw [if_neg e]
        by_cases hc : w.next + 1 ≤ y ∧ y < w.next + 1 + tys.length
        · rw [if_pos hc, if_pos (by omega)]
        · rw [if_neg hc, if_neg (by omega)]
    · intro e he
      rcases h7 e he with he | he
      · rcases List.mem_append.1 he with he | he
        · exact .inl he
        · simp at he
          subst he
          right
          exact ⟨Nat.le_refl _, by simp⟩
      · right
        rw [hn] at he
        omega

theorem Net.children {p : Nat} {m : Node} {k : Kind} (hml : m.kind.leaf = false)
    (hk : k.leaf = true) : ∀ (tys : List Nat) (w : World) (map : List (Nat × Nat)), Net w →
    w.nodes p = some m → Net (w.children p k tys map).1
  | [], _, _, h, _ => h
  | ty :: tys, w, map, h, hm => by
    refine Net.children hml hk tys (w.child p k) _ (h.child hm hml hk) ?_
    rw [child_nodes, if_neg (Nat.ne_of_lt (h.forest.lt hm))]
    exact hm

theorem putMap_eq {w : World} {s : Nat} {n : Node} (hs : w.nodes s = some n)
    (map : List (Nat × Nat)) : w.putMap s map = w.set s { n with streams := map } := by
  simp [World.putMap, hs]

theorem Inv.streams {w : World} (h : Inv w) {s t p : Nat} {a b : Node} {k : Kind}
    (hs : w.nodes s = some a) (ht : a.target = some t) (hb : w.nodes p = some b)
    (hbl : b.kind.leaf = false) (hp : p = s ∨ p = t) (hk : k.leaf = true) (tys : List Nat) :
    Inv (w.streams s p k tys) := by
  have hf := h.net.forest
  obtain ⟨hnx, hqq, -, -, -, hnodes, hmap⟩ := children_cases p k tys w []
  have hnet := Net.children hbl hk tys w [] h.net hb
  have hold : ∀ y n, w.nodes y = some n → (w.children p k tys []).1.nodes y = some n := by
    intro y n hy
    have := hf.lt hy
    rw [hnodes, if_neg (by omega)]
    exact hy
  have hs' := hold _ _ hs
  have hnew : ∀ y n, (w.children p k tys []).1.nodes y = some n → w.nodes y = some n ∨
      (w.next ≤ y ∧ n = { parent := some p, kind := k, cancellable := true }) := by
    intro y n hy
    rw [hnodes] at hy
    split at hy
    · next hc => cases hy; exact .inr ⟨hc.1, rfl⟩
    · exact .inl hy
  have hmap' : ∀ e, e ∈ (w.children p k tys []).2 →
      w.next ≤ e.2 ∧ e.2 < w.next + tys.length := by
    intro e he
    rcases hmap e he with he | he
    · simp at he
    · exact he
  unfold World.streams
  rw [putMap_eq hs']
  constructor
  · refine hnet.updMap hs' rfl rfl rfl ?_ ?_ ?_
    · have := hf.ok _ _ hs
      exact this
    · intro e he
      have hlt := hmap' e he
      refine .inr ⟨by rw [ht]; simp, by rw [hnx]; exact hlt.2, ?_, ?_⟩
      · intro m hm
        rcases hnew _ _ hm with hm | ⟨-, rfl⟩
        · have := hf.lt hm; omega
        · refine ⟨hk, ?_⟩
          rcases hp with rfl | rfl
          · exact .inl rfl
          · exact .inr ht.symm
      · intro y m f hy hfm hef
        rcases hnew _ _ hy with hy | ⟨-, rfl⟩
        · have := h.net.mapLt _ _ _ hy hfm; omega
        · simp at hfm
    · intro s' hw
      exact hnet.sess _ _ _ hs' hw
  · have htar : ∀ y n, ((w.children p k tys []).1.set s
        { a with streams := (w.children p k tys []).2 }).nodes y = some n →
        ∀ u, n.target = some u → ∃ m, w.nodes y = some m ∧ m.target = n.target ∧
          m.kind = n.kind ∧ (y ≠ s → m = n) := by
      intro y n hy u hu
      by_cases e : y = s
      · subst e
        rw [set_self] at hy; cases hy
        exact ⟨a, hs, rfl, rfl, fun h => absurd rfl h⟩
      · rw [set_other _ _ e] at hy
        rcases hnew _ _ hy with hy | ⟨-, rfl⟩
        · exact ⟨n, hy, rfl, rfl, fun _ => rfl⟩
        · simp at hu
    refine ⟨?_, ?_, ?_⟩
    · intro q hq
      show q < (w.children p k tys []).1.next
      rw [hnx]
      have hq' : q ∈ (w.children p k tys []).1.queue := hq
      rw [hqq] at hq'
      have := h.line.qlt q hq'
      omega
    · intro x n u hx hu hd
      show u ∉ (w.children p k tys []).1.queue
      rw [hqq]
      obtain ⟨m, h1, h2, h3, -⟩ := htar _ _ hx u hu
      exact h.line.quiet x m u h1 (h2 ▸ hu) (h3 ▸ hd)
    · intro x n u e c hx hu he hc
      show _ ≤ ((w.children p k tys []).1.queue.takeWhile _).count _
      rw [hqq]
      obtain ⟨m, h1, h2, h3, h4⟩ := htar _ _ hx u hu
      by_cases ex : x = s
      · subst ex
        rw [set_self] at hx; cases hx
        have hlt := hmap' e he
        have hcs : e.2 ≠ x := by have := hf.lt hs; omega
        rw [set_other _ _ hcs] at hc
        rcases hnew _ _ hc with hc | ⟨-, rfl⟩
        · have := hf.lt hc; omega
        · simp
      · have := h4 ex
        subst this
        have hlt := h.net.mapLt _ _ _ h1 he
        have hcl : ∃ d, w.nodes e.2 = some d ∧ c.inputs = d.inputs := by
          by_cases ec : e.2 = s
          · rw [ec, set_self] at hc; cases hc
            exact ⟨a, ec ▸ hs, rfl⟩
          · rw [set_other _ _ ec] at hc
            rcases hnew _ _ hc with hc | ⟨hge, -⟩
            · exact ⟨c, hc, rfl⟩
            · omega
        obtain ⟨d, hd, hdi⟩ := hcl
        rw [hdi]
        exact h.line.fifo _ _ _ _ _ h1 hu he hd

theorem handle_iff {w : World} {s t : Nat} : w.handle s t = true ↔
    ∃ a b, w.nodes s = some a ∧ w.nodes t = some b ∧ a.target = some t ∧ b.kind = .idle := by
  unfold World.handle
  cases hs : w.nodes s with
  | none => simp
  | some a =>
    cases ht : w.nodes t with
    | none => simp
    | some b => simp

/-- Finish a series and set up its streams. -/
theorem Inv.finishStreams {w : World} (h : Inv w) {s t p : Nat} {k kt : Kind}
    (hh : w.handle s t = true) (hp : p = s ∨ p = t) (hk : k.leaf = true)
    (hkt : kt.terminal = true) (tys : List Nat) :
    Inv ((w.finishWith t kt).streams s p k tys) := by
  obtain ⟨a, b, hs, ht, hat, hbk⟩ := handle_iff.1 hh
  have h1 := h.finishWith ht hbk hkt
  have hst : s ≠ t := by
    intro e
    subst e
    rw [hs] at ht; cases ht
    rw [((h.net.forest.ok _ _ hs).idle hbk).2] at hat; cases hat
  have hs' : (w.finishWith t kt).nodes s = some a := by
    rw [finishWith_eq ht hbk, set_other _ _ hst]; exact hs
  have ht' : (w.finishWith t kt).nodes t = some { b with kind := kt, cancellable := true } := by
    rw [finishWith_eq ht hbk, set_self]
  rcases hp with rfl | rfl
  · refine h1.streams hs' hat hs' ?_ (.inl rfl) hk tys
    cases hl : a.kind.leaf with
    | false => rfl
    | true =>
      rw [((h.net.forest.ok _ _ hs).leaf hl).1] at hat; cases hat
  · exact h1.streams hs' hat ht' (Kind.terminal_leaf hkt) (.inr rfl) hk tys

theorem Inv.collect {w : World} (h : Inv w) (s t e : Nat) (tys : List Nat) :
    Inv (w.collect s t e tys) := by
  unfold World.collect
  split
  · next hh =>
    obtain ⟨a, b, hs, ht, hat, hbk⟩ := handle_iff.1 hh
    refine h.streams hs hat hs ?_ (.inl rfl) rfl tys
    cases hl : a.kind.leaf with
    | false => rfl
    | true =>
      rw [((h.net.forest.ok _ _ hs).leaf hl).1] at hat; cases hat
  · exact h

/-! ### Running -/

theorem takeWhile_append_count {l : List Nat} {t a c : Nat} :
    (l.takeWhile fun q => q ≠ t).count c ≤ ((l ++ [a]).takeWhile fun q => q ≠ t).count c := by
  apply List.Sublist.count_le
  rw [List.takeWhile_append]
  split
  · rename_i hl
    rw [(List.takeWhile_sublist _).eq_of_length hl]
    exact List.sublist_append_left _ _
  · exact List.Sublist.refl _

theorem takeWhile_not_mem {l : List Nat} {t : Nat} (h : t ∉ l) :
    l.takeWhile (fun q => q ≠ t) = l := by
  induction l with
  | nil => rfl
  | cons a l ih =>
    rw [List.mem_cons, not_or] at h
    rw [List.takeWhile_cons, if_pos (by simp; exact fun e => h.1 e.symm), ih h.2]

theorem Inv.exec {w : World} (h : Inv w) : Inv w.exec := by
  have hf := h.net.forest
  rcases exec_cases w with ⟨-, he⟩ | ⟨x, rest, hq, hc⟩
  · rw [he]; exact h
  have hgone : ∀ w', Root w x → w'.nodes = (w.despawn x).nodes → w'.queue = rest →
      w'.next = w.next → Inv w' := by
    intro w' hr hn hq' hnx
    refine ⟨(h.net.despawn hr).congr hn hnx, h.line.pop h.net hq hq' hnx ?_⟩
    intro y m' hy
    rw [hn] at hy
    obtain ⟨ho, hy'⟩ := despawn_some hf hy
    refine ⟨m', hy', rfl, rfl, id, Nat.le_refl _, ?_⟩
    intro e
    subst e
    exact absurd .self ho
  have hset : ∀ n n', ∀ w' : World, w.nodes x = some n → n'.parent = n.parent →
      n'.target = n.target → n'.kind.leaf = n.kind.leaf → n'.ok → n'.streams = n.streams →
      (n'.kind ≠ .done → n.kind ≠ .done) → n'.inputs.length ≤ n.inputs.length - 1 →
      (∀ s, n'.works s → n.works s) → w'.nodes = (w.set x n').nodes → w'.queue = rest →
      w'.next = w.next → Inv w' := by
    intro n n' w' hx hp ht hk hok hm hd hi hw hn hq' hnx
    refine ⟨(h.net.upd hx hp ht hk hok hm fun s hs => h.net.sess _ _ _ hx (hw s hs)).congr hn hnx,
      h.line.pop h.net hq hq' hnx ?_⟩
    intro y m' hy
    rw [hn] at hy
    by_cases e : y = x
    · subst e
      rw [set_self] at hy; cases hy
      exact ⟨n, hx, ht, hm, hd, by omega, fun _ _ => hi⟩
    · rw [set_other _ _ e] at hy
      exact ⟨m', hy, rfl, rfl, id, Nat.le_refl _, fun e' => absurd e' e⟩
  have hroot : ∀ n, w.nodes x = some n → n.kind.terminal = true → Root w x := by
    intro n hx hk
    refine ⟨n, hx, .inl ?_⟩
    have := hf.ok _ _ hx
    unfold Node.ok at this
    unfold Kind.terminal at hk
    split at hk <;> simp_all
  cases hc with
  | skip he hk =>
    refine ⟨h.net.congr (by rw [he]) (by rw [he]), h.line.pop h.net hq (by rw [he]) (by rw [he]) ?_⟩
    intro y m' hy
    rw [he] at hy
    refine ⟨m', hy, rfl, rfl, id, Nat.le_refl _, ?_⟩
    intro e hl
    subst e
    cases hi : m'.inputs with
    | nil => simp
    | cons a l =>
      have := (hk m' hy (by rw [hi]; simp)).1
      rw [hl] at this; cases this
  | start n s v more hx hi hk he =>
    refine hset n { n with inputs := more, kind := .busy s } _ hx rfl rfl ?_ ?_ rfl ?_ ?_ ?_
      (by rw [he]) (by rw [he]) (by rw [he]; rfl)
    · rw [hk]; rfl
    · have := hf.ok _ _ hx
      simp only [Node.ok, hk] at this
      simp [Node.ok, this]
    · rw [hk]; simp
    · rw [hi]; simp
    · rintro s' (⟨v', hv⟩ | hb)
      · exact .inl ⟨v', by rw [hi]; exact List.mem_cons_of_mem _ hv⟩
      · simp only [Kind.busy.injEq] at hb
        subst hb
        exact .inl ⟨v, by rw [hi]; exact List.mem_cons_self⟩
  | item n s v more hx hi hk he =>
    refine hset n { n with inputs := more } _ hx rfl rfl rfl ?_ rfl id ?_ ?_
      (by rw [he]) (by rw [he]) (by rw [he]; rfl)
    · have := hf.ok _ _ hx
      exact this
    · rw [hi]; simp
    · rintro s' (⟨v', hv⟩ | hb)
      · exact .inl ⟨v', by rw [hi]; exact List.mem_cons_of_mem _ hv⟩
      · exact .inr hb
  | keep n s v e more hx hi hk he =>
    refine hset n { n with inputs := more } _ hx rfl rfl rfl ?_ rfl id ?_ ?_
      (by rw [he]) (by rw [he]) (by rw [he]; rfl)
    · have := hf.ok _ _ hx
      exact this
    · rw [hi]; simp
    · rintro s' (⟨v', hv⟩ | hb)
      · exact .inl ⟨v', by rw [hi]; exact List.mem_cons_of_mem _ hv⟩
      · exact .inr hb
  | sent n s v more hx hi hk hn hq' hnx ho hr =>
    exact hgone _ (hroot n hx (by rw [hk]; rfl)) hn hq' hnx
  | gone n s v more hx hi hk hn hq' hnx ho hr =>
    refine hgone _ ?_ hn hq' hnx
    rcases hk with hk | ⟨e, hk⟩ | ⟨e, hk⟩
    · exact hroot n hx (by rw [hk]; rfl)
    · exact hroot n hx (by rw [hk]; rfl)
    · exact ⟨n, hx, .inr (by rw [hk]; rfl)⟩

/-- Give an input to a node that has operation. -/
theorem Inv.feed {w : World} (h : Inv w) {t s v : Nat} {n : Node} (ht : w.nodes t = some n)
    (hg : Good w s t)
    (hq : ∀ x m, w.nodes x = some m → m.target = some t → m.kind = .done)
    (hfi : n.kind.leaf = true → ∀ x m u e, w.nodes x = some m → m.target = some u →
      e ∈ m.streams → e.2 = t → u ∉ w.queue) :
    Inv { w.set t { n with inputs := n.inputs ++ [(s, v)] } with queue := w.queue ++ [t] } := by
  have hf := h.net.forest
  constructor
  · refine (h.net.upd (n' := { n with inputs := n.inputs ++ [(s, v)] }) ht rfl rfl rfl
      (show n.ok from hf.ok _ _ ht) rfl ?_).congr rfl rfl
    rintro s' (⟨v', hv⟩ | hb)
    · simp only [List.mem_append, List.mem_singleton, Prod.mk.injEq] at hv
      rcases hv with hv | ⟨rfl, -⟩
      · exact h.net.sess _ _ _ ht (.inl ⟨v', hv⟩)
      · exact hg
    · exact h.net.sess _ _ _ ht (.inr hb)
  · have hnode : ∀ y m, (w.set t { n with inputs := n.inputs ++ [(s, v)] }).nodes y = some m →
        ∃ q, w.nodes y = some q ∧ m.target = q.target ∧ m.streams = q.streams ∧
          m.kind = q.kind ∧ (y ≠ t → m = q) ∧
          (y = t → m.inputs.length = q.inputs.length + 1) := by
      intro y m hy
      by_cases e : y = t
      · subst e
        rw [set_self] at hy; cases hy
        exact ⟨n, ht, rfl, rfl, rfl, fun h => absurd rfl h, fun _ => by simp⟩
      · rw [set_other _ _ e] at hy
        exact ⟨m, hy, rfl, rfl, rfl, fun _ => rfl, fun h => absurd h e⟩
    refine ⟨?_, ?_, ?_⟩
    · intro q hm
      have hm' : q ∈ w.queue ∨ q = t := by simpa using hm
      rcases hm' with hm' | rfl
      · exact h.line.qlt q hm'
      · exact hf.lt ht
    · intro x m u hx hu hd hm
      obtain ⟨q, h1, h2, h3, h4, -⟩ := hnode _ _ hx
      have hm' : u ∈ w.queue ∨ u = t := by simpa using hm
      rcases hm' with hm' | rfl
      · exact h.line.quiet x q u h1 (h2 ▸ hu) (h4 ▸ hd) hm'
      · exact hd (h4 ▸ hq x q h1 (h2 ▸ hu))
    · intro x m u e c hx hu he hc
      obtain ⟨q, h1, h2, h3, -⟩ := hnode _ _ hx
      obtain ⟨d, k1, k2, k3, k4, k5, k6⟩ := hnode _ _ hc
      have hold := h.line.fifo x q u e d h1 (h2 ▸ hu) (h3 ▸ he) k1
      show _ ≤ ((w.queue ++ [t]).takeWhile _).count _
      by_cases ec : e.2 = t
      · have hdn : d = n := by rw [ec, ht] at k1; cases k1; rfl
        have hl := (h.net.mapLeaf _ _ _ _ h1 (h3 ▸ he) k1).1
        have hu' := hfi (hdn ▸ hl) x q u e h1 (h2 ▸ hu) (h3 ▸ he) ec
        have hut : u ≠ t := by
          intro e'
          obtain ⟨m2, hm2, hl2⟩ := target_nonleaf h.net h1 (h2 ▸ hu)
          rw [e', ← ec, k1] at hm2; cases hm2
          rw [hl] at hl2; cases hl2
        rw [takeWhile_not_mem hu'] at hold
        rw [takeWhile_not_mem (by simp [hu', hut]), List.count_append, k6 ec, ec]
        rw [ec] at hold
        simp
        exact hold
      · rw [k5 ec]
        exact Nat.le_trans hold takeWhile_append_count

/-- `give_input` in a setting where the session is alive. -/
theorem give_eq {w : World} {t s v : Nat} {n : Node} (ht : w.nodes t = some n)
    (hg : Good w s t) (hk : n.kind ≠ .idle) :
    w.give t s v =
      { w.set t { n with inputs := n.inputs ++ [(s, v)] } with queue := w.queue ++ [t] } := by
  obtain ⟨-, -, -, -, m, hm, -⟩ := hg
  simp [World.give, ht, hm, hk, World.set]

theorem give_idle {w : World} {t s v : Nat} {n : Node} (ht : w.nodes t = some n)
    (hg : Good w s t) (hk : n.kind = .idle) :
    w.give t s v = { w with queue := w.queue ++ [t] } := by
  obtain ⟨-, -, -, -, m, hm, -⟩ := hg
  simp [World.give, ht, hm, hk]

theorem give_none {w : World} {t s v : Nat} (ht : w.nodes t = none) :
    w.give t s v = { w with errors := w.errors + 1 } := by
  simp [World.give, ht]

theorem Good.parent {w : World} {s x p : Nat} {n : Node} (h : Good w s x)
    (hx : w.nodes x = some n) (hp : n.parent = some p) : Good w s p := by
  obtain ⟨t, h1, h2, ⟨m, h3, h3'⟩, h4⟩ := h
  refine ⟨t, h1, ?_, ⟨m, h3, h3'⟩, h4⟩
  cases h2 with
  | self => rw [hx] at h3; cases h3; rw [hp] at h3'; cases h3'
  | child hy hp' hi =>
    rw [hx] at hy; cases hy
    rw [hp] at hp'; cases hp'
    exact hi

theorem Good.child {w : World} {s c p : Nat} {n : Node} (h : Good w s p)
    (hc : w.nodes c = some n) (hp : n.parent = some p) : Good w s c := by
  obtain ⟨t, h1, h2, h3, h4⟩ := h
  exact ⟨t, h1, .child hc hp h2, h3, h4⟩

/-- The session of a working step reaches the targets of its streams. -/
theorem good_stream {w : World} (h : Net w) {x s : Nat} {n m : Node} {e : Nat × Nat}
    (hx : w.nodes x = some n) (hk : n.kind = .busy s) (he : e ∈ n.streams)
    (hc : w.nodes e.2 = some m) : Good w s e.2 := by
  have hg := h.sess _ _ s hx (.inr hk)
  rcases (h.mapLeaf _ _ _ _ hx he hc).2 with hp | hp
  · exact hg.child hc hp
  · cases ht : n.target with
    | none =>
      rw [h.mapSrc _ _ hx ht] at he
      simp at he
    | some t =>
      rw [ht] at hp
      exact (hg.parent hx ((h.forest.ok _ _ hx).targ ht)).child hc hp

theorem Inv.emit {w : World} (h : Inv w) (x ty v : Nat) : Inv (w.emit x ty v) := by
  unfold World.emit
  cases hx : w.nodes x with
  | none => exact h
  | some n =>
    dsimp only
    cases hk : n.kind with
    | busy s =>
      dsimp only
      cases he : n.streams.find? fun e => e.1 = ty with
      | none => exact h
      | some e =>
        dsimp only
        have hem := List.mem_of_find?_eq_some he
        cases hc : w.nodes e.2 with
        | none => rw [give_none hc]; exact h.congr rfl rfl rfl
        | some c =>
          have hg := good_stream h.net hx hk hem hc
          have hl := (h.net.mapLeaf _ _ _ _ hx hem hc).1
          rw [give_eq hc hg (by intro e'; rw [e'] at hl; cases hl)]
          refine h.feed hc hg ?_ ?_
          · intro y m hy ht
            obtain ⟨q, hq, hql⟩ := target_nonleaf h.net hy ht
            rw [hc] at hq; cases hq
            rw [hl] at hql; cases hql
          · intro _ y m u f hy hu hf hfe
            have := h.net.mapOne _ _ _ _ _ _ hy hx hf hem hfe
            subst this
            rw [hx] at hy; cases hy
            exact h.line.quiet _ _ _ hx hu (by rw [hk]; simp)
    | _ => exact h

theorem Inv.done {w : World} (h : Inv w) {x s : Nat} {n : Node} (hx : w.nodes x = some n)
    (hk : n.kind = .busy s) : Inv (w.set x { n with kind := .done }) := by
  have hf := h.net.forest
  refine h.upd hx rfl rfl ?_ ?_ rfl ?_ (Nat.le_refl _) ?_
  · rw [hk]; rfl
  · have := hf.ok _ _ hx
    simp only [Node.ok, hk] at this
    simp [Node.ok, this]
  · simp
  · rintro s' (hs | hs)
    · exact .inl hs
    · simp at hs

theorem Inv.respond {w : World} (h : Inv w) (x v : Nat) : Inv (w.respond x v) := by
  unfold World.respond
  cases hx : w.nodes x with
  | none => exact h
  | some n =>
    dsimp only
    split
    · next s t hk ht =>
      have hf := h.net.forest
      have h1 := h.done hx hk
      have hg : Good (w.set x { n with kind := .done }) s t :=
        Good.upd (n' := { n with kind := .done }) hx rfl (by rw [hk]; rfl)
          ((h.net.sess _ _ s hx (.inr hk)).parent hx ((hf.ok _ _ hx).targ ht))
      obtain ⟨m, hm, hml⟩ := target_nonleaf h1.net (set_self w x _) ht
      have hdone : ∀ y q, (w.set x { n with kind := .done }).nodes y = some q →
          q.target = some t → q.kind = .done := by
        intro y q hy hq
        have := h1.net.inj _ _ _ _ _ hy (set_self w x _) hq ht
        subst this
        rw [set_self] at hy; cases hy
        rfl
      by_cases hi : m.kind = .idle
      · rw [give_idle hm hg hi]
        refine ⟨h1.net.congr rfl rfl, ⟨?_, ?_, ?_⟩⟩
        · intro q hq
          have hq' : q ∈ w.queue ∨ q = t := by simpa [World.set] using hq
          rcases hq' with hq' | rfl
          · exact h.line.qlt q hq'
          · exact h1.net.forest.lt hm
        · intro y q u hy hu hd hmem
          have hq' : u ∈ w.queue ∨ u = t := by simpa [World.set] using hmem
          rcases hq' with hq' | rfl
          · exact h1.line.quiet _ _ _ hy hu hd hq'
          · exact hd (hdone _ _ hy hu)
        · intro y q u e c hy hu he hc
          exact Nat.le_trans (h1.line.fifo _ _ _ _ _ hy hu he hc) takeWhile_append_count
      · rw [give_eq hm hg hi]
        refine h1.feed hm hg hdone ?_
        intro hl
        rw [hl] at hml; cases hml
    · exact h

theorem Inv.breaks {w : World} (h : Inv w) (x : Nat) : Inv (w.breaks x) := by
  unfold World.breaks
  cases hx : w.nodes x with
  | none => exact h
  | some n =>
    dsimp only
    split
    · next s hk => exact (h.done hx hk).congr rfl rfl rfl
    · exact h

/-! ### Cancelling -/

theorem walk_leads {w : World} {r : Nat → Nat}
    (hr : ∀ y n t, w.nodes y = some n → n.target = some t → r y < r t) {x t : Nat}
    (h : Leads w x t) : r x ≤ r t ∧ ∀ fuel, r t ≤ r x + fuel → w.walk fuel x = t := by
  induction h with
  | last ht hn =>
    refine ⟨Nat.le_refl _, ?_⟩
    intro fuel _
    cases fuel <;> simp [World.walk, ht, hn]
  | next hx hy hl ih =>
    have h1 := hr _ _ _ hx hy
    refine ⟨by omega, ?_⟩
    intro fuel hf
    cases fuel with
    | zero => omega
    | succ fuel =>
      simp only [World.walk, hx, hy]
      exact ih.2 fuel (by omega)

theorem rank_target {w : World} (h : Forest w) : ∃ r : Nat → Nat, (∀ y, r y ≤ w.next) ∧
    ∀ y n t, w.nodes y = some n → n.target = some t → r y < r t := by
  obtain ⟨r, hb, hr, -⟩ := h.rank
  exact ⟨r, hb, fun y n t hy ht => hr y n t hy ((h.ok _ _ hy).targ ht)⟩

theorem walk_eq {w : World} (h : Forest w) {x t : Nat} (hl : Leads w x t) :
    w.walk w.next x = t := by
  obtain ⟨r, hb, hr⟩ := rank_target h
  exact (walk_leads hr hl).2 _ (by have := hb t; omega)

theorem leads_exists {w : World} (h : Forest w) {x : Nat} {n : Node} (hx : w.nodes x = some n) :
    ∃ t, Leads w x t := by
  obtain ⟨r, hb, hr⟩ := rank_target h
  have : ∀ k x n, w.nodes x = some n → w.next - r x ≤ k → ∃ t, Leads w x t := by
    intro k
    induction k with
    | zero =>
      intro x n hx hk
      cases ht : n.target with
      | none => exact ⟨x, .last hx ht⟩
      | some t =>
        have := hr _ _ _ hx ht
        have := hb t
        omega
    | succ k ih =>
      intro x n hx hk
      cases ht : n.target with
      | none => exact ⟨x, .last hx ht⟩
      | some t =>
        have := hr _ _ _ hx ht
        have := hb t
        obtain ⟨m, hm, -⟩ := h.alive _ _ _ hx ((h.ok _ _ hx).targ ht)
        obtain ⟨u, hu⟩ := ih t m hm (by omega)
        exact ⟨u, .next hx ht hu⟩
  exact this _ x n hx (Nat.le_refl _)

theorem Leads.end {w : World} {x t : Nat} (h : Leads w x t) :
    ∃ n, w.nodes t = some n ∧ n.target = none := by
  induction h with
  | last ht hn => exact ⟨_, ht, hn⟩
  | next _ _ _ ih => exact ih

theorem Leads.root {w : World} (hf : Forest w) {x t : Nat} (h : Leads w x t) : Root w t := by
  obtain ⟨n, hn, ht⟩ := h.end
  refine ⟨n, hn, ?_⟩
  cases hl : n.kind.leaf with
  | true => exact .inr rfl
  | false => exact .inl (by rw [(hf.ok _ _ hn).nonleaf hl]; exact ht)

theorem Leads.inside {w : World} (hf : Forest w) {x t : Nat} (h : Leads w x t) :
    Inside w t x := by
  induction h with
  | last => exact .self
  | next hx hy _ ih => exact .child hx ((hf.ok _ _ hx).targ hy) ih

/-- The effect of cancelling. -/
inductive Cancelled (w : World) (x : Nat) (w' : World) : Prop where
  | none (hn : w'.nodes = w.nodes) (hq : w'.queue = w.queue) (hnx : w'.next = w.next)
      (ho : w'.outcomes = w.outcomes) (hr : w'.received = w.received)
      (hx : ∀ n, w.nodes x = some n → n.cancellable = false)
  | some (t : Nat) (n m : Node) (hx : w.nodes x = some n) (hc : n.cancellable = true)
      (hl : Leads w x t) (ht : w.nodes t = some m)
      (hn : w'.nodes = (w.despawn t).nodes) (hq : w'.queue = w.queue) (hnx : w'.next = w.next)
      (ho : w'.outcomes = w.outcomes ++ if m.kind = .taken then [(t, .cancelled)] else [])
      (hr : w'.received = w.received)

theorem cancel_cases {w : World} (hf : Forest w) (x : Nat) : Cancelled w x (w.cancel x) := by
  unfold World.cancel
  cases hx : w.nodes x with
  | none =>
    refine .none rfl rfl rfl rfl rfl ?_
    intro n hn
    rw [hx] at hn; cases hn
  | some n =>
    dsimp only
    split
    · next hc =>
      obtain ⟨t, hl⟩ := leads_exists hf hx
      obtain ⟨m, ht, -⟩ := hl.end
      unfold World.cancelExecution
      rw [walk_eq hf hl]
      simp only [ht]
      by_cases hk : m.kind = .taken
      · simp only [hk, if_true]
        refine .some t n m hx hc hl ht ?_ rfl rfl (by simp [World.despawn, hk]) rfl
        apply despawn_congr <;> rfl
      · simp only [hk, if_false]
        exact .some t n m hx hc hl ht rfl rfl rfl (by simp [World.despawn, hk]) rfl
    · next hc =>
      refine .none rfl rfl rfl rfl rfl ?_
      intro m hm
      rw [hx] at hm; cases hm
      simpa using hc

theorem Inv.cancel {w : World} (h : Inv w) (x : Nat) : Inv (w.cancel x) := by
  have hf := h.net.forest
  cases cancel_cases hf x with
  | none hn hq hnx => exact h.congr hn hnx hq
  | some t n m hx hc hl ht hn hq hnx =>
    refine ⟨(h.net.despawn (hl.root hf)).congr hn hnx, h.line.less hq hnx ?_⟩
    intro y m' hy
    rw [hn] at hy
    exact ⟨m', (despawn_some hf hy).2, rfl, rfl, id, Nat.le_refl _⟩

theorem Inv.step {w : World} (h : Inv w) (op : Op) : Inv (w.step op) := by
  cases op with
  | request v => exact h.request v
  | next' t => exact h.promote t
  | take s t tys =>
    show Inv (w.take s t tys)
    unfold World.take
    split
    · next hh => exact h.finishStreams hh (.inr rfl) rfl rfl tys
    · exact h
  | takeResponse s t =>
    show Inv (w.takeResponse s t)
    unfold World.takeResponse
    split
    · next hh =>
      obtain ⟨a, b, -, hb, -, hk⟩ := handle_iff.1 hh
      exact h.finishWith hb hk rfl
    · exact h
  | store s t e tys =>
    show Inv (w.store s t e tys)
    unfold World.store
    split
    · next hh => exact h.finishStreams hh (.inl rfl) rfl rfl tys
    · exact h
  | collect s t e tys => exact h.collect s t e tys
  | push s t e tys =>
    show Inv (w.push s t e tys)
    unfold World.push
    split
    · next hh => exact h.finishStreams hh (.inl rfl) rfl rfl tys
    · exact h
  | sendEvent s t =>
    show Inv (w.sendEvent s t)
    unfold World.sendEvent
    split
    · next hh =>
      obtain ⟨a, b, -, hb, -, hk⟩ := handle_iff.1 hh
      exact h.finishWith hb hk rfl
    · exact h
  | exec => exact h.exec
  | emit x ty v => exact h.emit x ty v
  | respond x v => exact h.respond x v
  | cancel x => exact h.cancel x
  | breaks x => exact h.breaks x

theorem Inv.fold {w : World} (h : Inv w) (ops : List Op) : Inv (ops.foldl World.step w) := by
  induction ops generalizing w with
  | nil => exact h
  | cons op ops ih => exact ih (h.step op)

theorem inv_run (ops : List Op) : Inv (run ops) := inv_init.fold ops

end Verif.Series
