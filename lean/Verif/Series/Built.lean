import Verif.Series.Inv

/-
What building leaves alone.
-/
namespace Verif.Series

/-- Nothing but the structure of series changes from `w` to `w'`. -/
structure Built (w w' : World) : Prop where
  next : w.next ≤ w'.next
  outcomes : w'.outcomes = w.outcomes
  received : w'.received = w.received
  collected : w'.collected = w.collected
  dead : ∀ y, y < w.next → w.nodes y = none → w'.nodes y = none
  old : ∀ y n, w.nodes y = some n → ∃ n', w'.nodes y = some n' ∧ n'.inputs = n.inputs ∧
    (n'.kind = .takenStream ↔ n.kind = .takenStream) ∧
    (n.kind = .takenStream → n'.parent = n.parent)
  new : ∀ y n', w.next ≤ y → w'.nodes y = some n' → n'.kind = .takenStream → n'.inputs = []
  fix : ∀ y n, w.nodes y = some n → n.kind ≠ .idle →
    (∀ t m, n.target = some t → w.nodes t = some m → m.kind ≠ .idle) → w'.nodes y = some n
  targets : ∀ y n t, w'.nodes y = some n → n.target = some t → t < w.next →
    ∃ m, w.nodes y = some m ∧ m.target = some t

theorem Built.refl (w : World) (hf : Forest w) : Built w w :=
  ⟨Nat.le_refl _, rfl, rfl, rfl, fun _ _ h => h, fun _ n h => ⟨n, h, rfl, Iff.rfl, fun _ => rfl⟩,
    fun y n' h1 h2 => (by rw [hf.fresh y h1] at h2; cases h2), fun _ _ h _ _ => h,
    fun _ n _ h1 h2 _ => ⟨n, h1, h2⟩⟩

theorem built_request {w : World} (hf : Forest w) (v : Nat) : Built w (w.request v) := by
  have hg : ∀ y, y < w.next → (w.request v).nodes y = w.nodes y := by
    intro y hy
    rw [request_nodes, if_neg (by omega), if_neg (by omega)]
  refine ⟨by show w.next ≤ w.next + 2; omega, rfl, rfl, rfl, ?_, ?_, ?_, ?_, ?_⟩
  · intro y hy h
    rw [hg y hy]; exact h
  · intro y n h
    exact ⟨n, by rw [hg y (hf.lt h)]; exact h, rfl, Iff.rfl, fun _ => rfl⟩
  · intro y n h1 h2 hk
    rw [request_nodes] at h2
    split at h2
    · cases h2; simp at hk
    · split at h2
      · cases h2; rfl
      · rw [hf.fresh y h1] at h2; cases h2
  · intro y n h _ _
    rw [hg y (hf.lt h)]; exact h
  · intro y n t h ht hlt
    rw [request_nodes] at h
    split at h
    · cases h
      simp only [Option.some.injEq] at ht
      omega
    · split at h
      · cases h; simp at ht
      · exact ⟨n, h, ht⟩

theorem built_promote {w : World} (hf : Forest w) (t : Nat) : Built w (w.next' t) := by
  by_cases hc : ∃ n, w.nodes t = some n ∧ n.kind = .idle
  rotate_left
  · rw [next_skip]
    · exact .refl w hf
    · intro n hn hk; exact hc ⟨n, hn, hk⟩
  obtain ⟨n, ht, hk⟩ := hc
  have hg : ∀ y, y < w.next → y ≠ t → (w.next' t).nodes y = w.nodes y := by
    intro y hy e
    rw [next_nodes ht hk, if_neg e, if_neg (by omega)]
  have hs : (w.next' t).nodes t = some (n.promoted w.next) := by
    rw [next_nodes ht hk, if_pos rfl]
  refine ⟨by rw [(next_next ht hk).1]; omega, ?_, ?_, ?_, ?_, ?_, ?_, ?_, ?_⟩
  · simp [World.next', ht, hk, World.set]
  · simp [World.next', ht, hk, World.set]
  · simp [World.next', ht, hk, World.set]
  · intro y hy h
    rw [hg y hy (fun e => by rw [e, ht] at h; cases h)]; exact h
  · intro y m h
    by_cases e : y = t
    · subst e
      rw [ht] at h; cases h
      exact ⟨_, hs, rfl, by simp [hk, Node.promoted], by simp [hk]⟩
    · exact ⟨m, by rw [hg y (hf.lt h) e]; exact h, rfl, Iff.rfl, fun _ => rfl⟩
  · intro y m h1 h2 hmk
    rw [next_nodes ht hk] at h2
    split at h2
    · cases h2; simp [Node.promoted] at hmk
    · split at h2
      · cases h2; rfl
      · rw [hf.fresh y h1] at h2; cases h2
  · intro y m h hmk _
    rw [hg y (hf.lt h) (fun e => hmk (by rw [e, ht] at h; cases h; exact hk))]; exact h
  · intro y m u h hu hlt
    rw [next_nodes ht hk] at h
    split at h
    · cases h
      simp only [Node.promoted, Option.some.injEq] at hu
      omega
    · split at h
      · cases h; simp at hu
      · exact ⟨m, h, hu⟩

theorem built_finish {w : World} (hf : Forest w) {t : Nat} {n : Node} {k : Kind}
    (ht : w.nodes t = some n) (hn : n.kind = .idle) (hk : k.terminal = true) :
    Built w (w.finishWith t k) := by
  rw [finishWith_eq ht hn]
  have hkt : k ≠ .takenStream := by intro e; subst e; simp [Kind.terminal] at hk
  refine ⟨Nat.le_refl _, rfl, rfl, rfl, ?_, ?_, ?_, ?_, ?_⟩
  · intro y hy h
    rw [set_other _ _ (fun e => by rw [e, ht] at h; cases h)]; exact h
  · intro y m h
    by_cases e : y = t
    · subst e
      rw [ht] at h; cases h
      exact ⟨_, set_self _ _ _, rfl, by simp [hn, hkt], by simp [hn]⟩
    · exact ⟨m, by rw [set_other _ _ e]; exact h, rfl, Iff.rfl, fun _ => rfl⟩
  · intro y m h1 h2 _
    have : y ≠ t := by have := hf.lt ht; omega
    rw [set_other _ _ this, hf.fresh y h1] at h2; cases h2
  · intro y m h hmk _
    rw [set_other _ _ (fun e => hmk (by rw [e, ht] at h; cases h; exact hn))]; exact h
  · intro y m u h hu _
    by_cases e : y = t
    · subst e
      rw [set_self] at h; cases h
      exact ⟨n, ht, hu⟩
    · rw [set_other _ _ e] at h
      exact ⟨m, h, hu⟩

theorem streams_nodes {w : World} (hf : Forest w) {s : Nat} {a : Node} (hs : w.nodes s = some a)
    (p : Nat) (k : Kind) (tys : List Nat) : ∃ map : List (Nat × Nat),
    (w.streams s p k tys).next = w.next + tys.length ∧
    (w.streams s p k tys).queue = w.queue ∧
    (w.streams s p k tys).outcomes = w.outcomes ∧
    (w.streams s p k tys).received = w.received ∧
    (w.streams s p k tys).collected = w.collected ∧
    (∀ y, (w.streams s p k tys).nodes y =
      if y = s then some { a with streams := map }
      else if w.next ≤ y ∧ y < w.next + tys.length
      then some { parent := some p, kind := k, cancellable := true } else w.nodes y) ∧
    (tys = [] → map = []) := by
  obtain ⟨hnx, hqq, ho, hr, hcl, hnodes, -⟩ := children_cases p k tys w []
  have hs' : (w.children p k tys []).1.nodes s = some a := by
    have := hf.lt hs
    rw [hnodes, if_neg (by omega)]; exact hs
  refine ⟨(w.children p k tys []).2, ?_⟩
  unfold World.streams
  rw [putMap_eq hs']
  refine ⟨hnx, hqq, ho, hr, hcl, ?_, ?_⟩
  · intro y
    by_cases e : y = s
    · rw [e, set_self, if_pos rfl]
    · rw [set_other _ _ e, if_neg e, hnodes]
  · rintro rfl; rfl

theorem built_streams {w : World} (hf : Forest w) {s t p : Nat} {a : Node} {k : Kind}
    (hs : w.nodes s = some a) (ht : a.target = some t) (tys : List Nat)
    (hi : ∀ y n, w.nodes y = some n → n.kind ≠ .idle →
      (∀ t m, n.target = some t → w.nodes t = some m → m.kind ≠ .idle) → y ≠ s) :
    Built w (w.streams s p k tys) := by
  obtain ⟨map, hnx, -, ho, hr, hcl, hnodes, -⟩ := streams_nodes hf hs p k tys
  have hlt := hf.lt hs
  have hstr : a.kind ≠ .takenStream := by
    intro e
    rw [((hf.ok _ _ hs).leaf (by rw [e]; rfl)).1] at ht; cases ht
  refine ⟨by rw [hnx]; omega, ho, hr, hcl, ?_, ?_, ?_, ?_, ?_⟩
  · intro y hy h
    rw [hnodes, if_neg (fun e => by rw [e, hs] at h; cases h), if_neg (by omega)]; exact h
  · intro y n h
    by_cases e : y = s
    · subst e
      rw [hs] at h; cases h
      exact ⟨{ a with streams := map }, by rw [hnodes, if_pos rfl], rfl, Iff.rfl, fun _ => rfl⟩
    · refine ⟨n, ?_, rfl, Iff.rfl, fun _ => rfl⟩
      have := hf.lt h
      rw [hnodes, if_neg e, if_neg (by omega)]; exact h
  · intro y n h1 h2 _
    rw [hnodes, if_neg (by omega)] at h2
    split at h2
    · cases h2; rfl
    · rw [hf.fresh y h1] at h2; cases h2
  · intro y n h h1 h2
    have := hf.lt h
    rw [hnodes, if_neg (hi y n h h1 h2), if_neg (by omega)]; exact h
  · intro y n u h hu _
    rw [hnodes] at h
    split at h
    · next e =>
      cases h
      exact ⟨a, e ▸ hs, hu⟩
    · split at h
      · cases h; simp at hu
      · exact ⟨n, h, hu⟩

theorem built_finishStreams {w : World} (h : Inv w) {s t p : Nat} {k kt : Kind}
    (hh : w.handle s t = true) (hkt : kt.terminal = true) (tys : List Nat) :
    Built w ((w.finishWith t kt).streams s p k tys) := by
  obtain ⟨a, b, hs, ht, hat, hbk⟩ := handle_iff.1 hh
  have hf := h.net.forest
  have h1 := h.finishWith ht hbk hkt
  have hst : s ≠ t := by
    intro e
    subst e
    rw [hs] at ht; cases ht
    rw [((hf.ok _ _ hs).idle hbk).2] at hat; cases hat
  have hs' : (w.finishWith t kt).nodes s = some a := by
    rw [finishWith_eq ht hbk, set_other _ _ hst]; exact hs
  have hf' := h1.net.forest
  obtain ⟨map, hnx, -, ho, hr, hcl, hnodes, -⟩ := streams_nodes hf' hs' p k tys
  have hnx' : (w.finishWith t kt).next = w.next := by rw [finishWith_eq ht hbk]; rfl
  have hfin : ∀ y, y ≠ t → (w.finishWith t kt).nodes y = w.nodes y := by
    intro y e
    rw [finishWith_eq ht hbk, set_other _ _ e]
  have hlt := hf.lt hs
  have hltt := hf.lt ht
  have hstr : a.kind ≠ .takenStream := by
    intro e
    rw [((hf.ok _ _ hs).leaf (by rw [e]; rfl)).1] at hat; cases hat
  have hb := built_finish hf ht hbk hkt
  rw [hnx'] at hnx
  refine ⟨by rw [hnx]; omega, ho.trans hb.outcomes, hr.trans hb.received,
    hcl.trans hb.collected, ?_, ?_, ?_, ?_, ?_⟩
  · intro y hy hd
    rw [hnodes, hnx', if_neg (fun e => by rw [e, hs] at hd; cases hd), if_neg (by omega)]
    exact hb.dead y hy hd
  · intro y n hy
    obtain ⟨n1, k1, k2, k3, k4⟩ := hb.old y n hy
    by_cases e : y = s
    · subst e
      rw [hs] at hy; cases hy
      exact ⟨{ a with streams := map }, by rw [hnodes, if_pos rfl], rfl, Iff.rfl, fun _ => rfl⟩
    · have := hf.lt hy
      exact ⟨n1, by rw [hnodes, hnx', if_neg e, if_neg (by omega)]; exact k1, k2, k3, k4⟩
  · intro y n hy hn hk
    rw [hnodes, if_neg (by omega)] at hn
    split at hn
    · cases hn; rfl
    · exact hb.new y n hy hn hk
  · intro y n hy hk htar
    have := hf.lt hy
    have hys : y ≠ s := by
      intro e
      subst e
      rw [hs] at hy; cases hy
      exact htar t b hat ht hbk
    rw [hnodes, hnx', if_neg hys, if_neg (by omega)]
    exact hb.fix y n hy hk htar
  · intro y n u hy hu hlt
    rw [hnodes] at hy
    split at hy
    · next e => cases hy; exact ⟨a, e ▸ hs, hu⟩
    · split at hy
      · cases hy; simp at hu
      · exact hb.targets y n u hy hu hlt

theorem built_collect {w : World} (h : Inv w) (s t e : Nat) (tys : List Nat) :
    Built w (w.collect s t e tys) := by
  have hf := h.net.forest
  unfold World.collect
  split
  · next hh =>
    obtain ⟨a, b, hs, ht, hat, hbk⟩ := handle_iff.1 hh
    refine built_streams hf hs hat tys ?_
    intro y n hy _ htar e'
    subst e'
    rw [hs] at hy; cases hy
    exact htar t b hat ht hbk
  · exact .refl w hf

/-- The operations that set up series. -/
def Op.builds : Op → Bool
  | .request _ | .next' _ | .take .. | .takeResponse .. | .store .. | .collect .. | .push ..
  | .sendEvent .. => true
  | _ => false

theorem built_step {w : World} (h : Inv w) {op : Op} (hop : op.builds = true) :
    Built w (w.step op) := by
  have hf := h.net.forest
  cases op with
  | request v => exact built_request hf v
  | next' t => exact built_promote hf t
  | take s t tys =>
    show Built w (w.take s t tys)
    unfold World.take
    split
    · next hh => exact built_finishStreams h hh rfl tys
    · exact .refl w hf
  | takeResponse s t =>
    show Built w (w.takeResponse s t)
    unfold World.takeResponse
    split
    · next hh =>
      obtain ⟨a, b, -, hb, -, hk⟩ := handle_iff.1 hh
      exact built_finish hf hb hk rfl
    · exact .refl w hf
  | store s t e tys =>
    show Built w (w.store s t e tys)
    unfold World.store
    split
    · next hh => exact built_finishStreams h hh rfl tys
    · exact .refl w hf
  | collect s t e tys => exact built_collect h s t e tys
  | push s t e tys =>
    show Built w (w.push s t e tys)
    unfold World.push
    split
    · next hh => exact built_finishStreams h hh rfl tys
    · exact .refl w hf
  | sendEvent s t =>
    show Built w (w.sendEvent s t)
    unfold World.sendEvent
    split
    · next hh =>
      obtain ⟨a, b, -, hb, -, hk⟩ := handle_iff.1 hh
      exact built_finish hf hb hk rfl
    · exact .refl w hf
  | _ => simp [Op.builds] at hop

end Verif.Series
