import Verif.Scope.Spec

/-
What the functions of the scope model leave unchanged, and closed forms.
-/
set_option linter.unusedSimpArgs false
set_option linter.unusedVariables false
namespace Verif.Scope

variable {α κ : Type}

/-- Everything except the bookkeeping of clean requests is equal. -/
structure Frame (st st' : State α κ) : Prop where
  next : st'.next = st.next
  sessions : st'.sessions = st.sessions
  awaiting : st'.awaiting = st.awaiting
  staging : st'.staging = st.staging
  alive : st'.alive = st.alive
  exits : st'.exits = st.exits
  initial : st'.initial = st.initial
  running : st'.running = st.running
  started : st'.started = st.started
  begun : st'.begun = st.begun
  out : st'.out = st.out
  values : st'.values = st.values

theorem Frame.refl (st : State α κ) : Frame st st := ⟨rfl, rfl, rfl, rfl, rfl, rfl, rfl, rfl, rfl, rfl, rfl, rfl⟩

theorem Frame.trans {a b c : State α κ} (h : Frame a b) (g : Frame b c) : Frame a c :=
  ⟨g.1.trans h.1, g.2.trans h.2, g.3.trans h.3, g.4.trans h.4, g.5.trans h.5, g.6.trans h.6,
   g.7.trans h.7, g.8.trans h.8, g.9.trans h.9, g.10.trans h.10, g.11.trans h.11, g.12.trans h.12⟩

theorem register_frame (st : State α κ) (c : Cleanup) : Frame st (st.register c) := by
  unfold State.register
  split
  · exact Frame.refl _
  · dsimp only
    split <;> exact ⟨rfl, rfl, rfl, rfl, rfl, rfl, rfl, rfl, rfl, rfl, rfl, rfl⟩

theorem clean_frame (st : State α κ) (c : Cleanup) (now : Bool) : Frame st (st.clean c now) := by
  unfold State.clean
  cases now
  · exact ⟨rfl, rfl, rfl, rfl, rfl, rfl, rfl, rfl, rfl, rfl, rfl, rfl⟩
  · exact Frame.trans (b := { st with asked := st.asked ++ [c] })
      ⟨rfl, rfl, rfl, rfl, rfl, rfl, rfl, rfl, rfl, rfl, rfl, rfl⟩ (register_frame _ _)

theorem cleanNodes_frame (self s id : Ent) (now : List (Ent × Ent)) (ns : List Ent) :
    ∀ st : State α κ, Frame st (cleanNodes self s id now ns st) := by
  induction ns with
  | nil => intro st; exact Frame.refl _
  | cons n ns ih => intro st; exact Frame.trans (clean_frame _ _ _) (ih _)

/-- The clean requests are answered or kept; the closed form of `cleanNodes`. -/
theorem cleanNodes_eq (self s id : Ent) (now : List (Ent × Ent)) (suf : List Ent) :
    ∀ (st : State α κ) (P : List Ent), st.contents id = some (P ++ suf) → (P ++ suf).Nodup →
      (P ++ suf ≠ []) →
      let mk : Ent → Cleanup := fun n => { cleaner := self, node := n, session := s, id }
      let later := suf.filter (fun n => !now.contains (n, s))
      let st' := cleanNodes self s id now suf st
      st'.asked = st.asked ++ suf.map mk ∧
      st'.pending = st.pending ++ later.map mk ∧
      (∀ i, i ≠ id → st'.contents i = st.contents i) ∧
      ((P ++ later = [] ∧ st'.contents id = none ∧
          ∃ n, st'.finished = mk n :: st.finished) ∨
       (P ++ later ≠ [] ∧ st'.contents id = some (P ++ later) ∧ st'.finished = st.finished)) := by
  induction suf with
  | nil =>
    intro st P hc hn hne
    simp only [List.append_nil] at hc hne
    refine ⟨by simp [cleanNodes], by simp [cleanNodes], fun _ _ => rfl, Or.inr ?_⟩
    simpa [cleanNodes, hne] using hc
  | cons n suf ih =>
    intro st P hc hn hne
    simp only [cleanNodes]
    by_cases hnow : now.contains (n, s) = true
    · -- answered at once
      have hrest : (P ++ n :: suf).filter (· ≠ n) = P ++ suf := by
        have hd := List.nodup_append.mp hn
        have h1 : P.filter (· ≠ n) = P := by
          rw [List.filter_eq_self]
          intro a ha
          have := hd.2.2 a ha n (by simp)
          simpa using this
        have h2 : (n :: suf).filter (· ≠ n) = suf := by
          have hns := (List.nodup_cons.mp hd.2.1).1
          rw [List.filter_cons_of_neg (by simp), List.filter_eq_self]
          intro a ha
          simp only [ne_eq, decide_not, Bool.not_eq_true', decide_eq_false_iff_not]
          rintro rfl; exact hns ha
        rw [List.filter_append, h1, h2]
      have hreg : st.clean { cleaner := self, node := n, session := s, id } true
          = (if (P ++ suf).isEmpty then
              { st with
                asked := st.asked ++ [{ cleaner := self, node := n, session := s, id }]
                contents := fun i => if i = id then none else st.contents i
                finished := { cleaner := self, node := n, session := s, id } :: st.finished }
            else
              { st with
                asked := st.asked ++ [{ cleaner := self, node := n, session := s, id }]
                contents := fun i => if i = id then some (P ++ suf) else st.contents i }) := by
        simp only [State.clean, State.register, hc, if_true]
        rw [hrest]
      rw [hnow, hreg]
      have hnd : (P ++ suf).Nodup := by
        refine List.Nodup.sublist ?_ hn
        exact List.Sublist.append_left (List.sublist_cons_self _ _) _
      by_cases he : P ++ suf = []
      · obtain ⟨hP, hs⟩ := List.append_eq_nil_iff.mp he
        subst hP hs
        have hmem : (n, s) ∈ now := by simpa using hnow
        have hf : [n].filter (fun n => !now.contains (n, s)) = [] := by
          rw [List.filter_cons_of_neg (by rw [hnow]; decide)]; rfl
        rw [hf]
        refine ⟨rfl, by simp [cleanNodes], fun i hi => ?_, Or.inl ⟨rfl, ?_, n, rfl⟩⟩
        · simp [cleanNodes, hi]
        · simp [cleanNodes]
      · rw [if_neg (by simpa using he)]
        have := ih { st with
                asked := st.asked ++ [{ cleaner := self, node := n, session := s, id }]
                contents := fun i => if i = id then some (P ++ suf) else st.contents i } P
                (by simp) hnd he
        dsimp only at this ⊢
        obtain ⟨h1, h2, h3, h4⟩ := this
        refine ⟨by rw [h1]; simp, ?_, ?_, ?_⟩
        · rw [h2, List.filter_cons_of_neg (by rw [hnow]; decide)]
        · intro i hi; rw [h3 i hi]; simp [hi]
        · rw [List.filter_cons_of_neg (by simp only [hnow]; decide)]
          exact h4
    · have hnow' : now.contains (n, s) = false := by simpa using hnow
      rw [hnow']
      have := ih (st.clean { cleaner := self, node := n, session := s, id } false) (P ++ [n])
        (by simp [State.clean, hc]) (by simpa using hn) (by simp)
      dsimp only at this ⊢
      obtain ⟨h1, h2, h3, h4⟩ := this
      refine ⟨by rw [h1]; simp [State.clean], ?_, ?_, ?_⟩
      · rw [h2, List.filter_cons_of_pos (by simp only [hnow']; decide)]; simp [State.clean]
      · intro i hi; rw [h3 i hi]; simp [State.clean]
      · rw [List.filter_cons_of_pos (by simp only [hnow']; decide)]
        simpa [State.clean] using h4

theorem eq_of_nodup_map {β γ : Type} (f : β → γ) :
    ∀ {l : List β}, (l.map f).Nodup → ∀ {x y}, x ∈ l → y ∈ l → f x = f y → x = y := by
  intro l
  induction l with
  | nil => intro _ x y hx; cases hx
  | cons a l ih =>
    intro h x y hx hy e
    rw [List.map_cons, List.nodup_cons] at h
    simp only [List.mem_cons] at hx hy
    rcases hx with rfl | hx <;> rcases hy with rfl | hy
    · rfl
    · exact absurd (List.mem_map.mpr ⟨y, hy, e.symm⟩) h.1
    · exact absurd (List.mem_map.mpr ⟨x, hx, e⟩) h.1
    · exact ih h.2 hx hy e

end Verif.Scope
