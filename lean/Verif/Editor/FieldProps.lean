import Verif.Editor.FieldSpec
import Verif.Editor.EditWitness
/-
C129: what is entered in the form of an edge.
-/
namespace Verif.Editor

/-- What is lost when something is entered: how a join reads the buffer, and the input of a section. -/
def Lost : Label → Label → Prop
  | .byKey, .fetch => True
  | .bufferKey, .fetch => True
  | .bufferSeq, .fetch => True
  | .type, .input => True
  | _, _ => False

/-- What a field does to an edge. -/
theorem field_does (s t : Item) (w : Wire) (f : Field) (ho : Offered t w f.label)
    (hslot : w.slot = none ∨ t.isSect = true) (hu : f.label ≠ .unzip)
    (ht : ∀ ty, f = .type ty → ty ∈ validTypes s w.handle t) :
    Holds (w.field s t f) f ∧
      ∀ g, g.label ≠ f.label → ¬ Under f.label g.label → ¬ Lost f.label g.label →
        Offered t w g.label → Holds w g → Holds (w.field s t f) g := by
  obtain ⟨id, src, hd, tgt, kind, slot⟩ := w
  cases f with
  | unzip i => exact absurd rfl hu
  | type ty =>
    have := ht ty rfl
    simp only [Wire.field]
    constructor
    · split
      · exact fresh_type ty
      · rename_i hc
        simp only [Bool.and_eq_true, List.contains_iff_mem, this, true_and, bne_iff_ne, ne_eq,
          Decidable.not_not] at hc
        exact hc.symm
    · intro g _ h2 h3
      cases g <;> simp [Field.label, Under, Lost] at h2 h3
  | input x =>
    simp only [Offered, Field.label] at ho
    have : (Wire.field s t (.input x) ⟨id, src, hd, tgt, kind, slot⟩) =
        ⟨id, src, hd, tgt, kind, some x⟩ := by simp [Wire.field, ho]
    rw [this]
    refine ⟨rfl, fun g h1 _ _ h4 h5 => ?_⟩
    cases g <;>
      first
      | exact h5
      | exact absurd rfl h1
      | exact absurd h4.2 ho.2
  | sectionBuffer x =>
    simp only [Offered, Field.label] at ho
    have : (Wire.field s t (.sectionBuffer x) ⟨id, src, hd, tgt, kind, slot⟩) =
        ⟨id, src, hd, tgt, kind, some x⟩ := by simp [Wire.field, ho]
    rw [this]
    refine ⟨rfl, fun g h1 _ _ h4 h5 => ?_⟩
    cases g <;>
      first
      | exact h5
      | exact absurd rfl h1
      | exact absurd ho.2 h4.2
  | fetch c =>
    obtain ⟨h1, h2⟩ := ho
    cases kind with
    | bufferSeq i f =>
      simp only [Wire.field, h2, if_true]
      split
      · rename_i hc
        exact ⟨⟨_, f, rfl, by rw [hc]⟩, fun g _ _ _ _ h5 => h5⟩
      · refine ⟨⟨_, _, rfl, by cases c <;> simp⟩, fun g g1 _ _ g4 g5 => ?_⟩
        cases g <;> simp_all [Holds, Offered, Field.label, EdgeKind.type]
    | bufferKey x f =>
      simp only [Wire.field, h2, if_true]
      split
      · rename_i hc
        exact ⟨⟨_, f, rfl, by rw [hc]⟩, fun g _ _ _ _ h5 => h5⟩
      · refine ⟨⟨_, _, rfl, by cases c <;> simp⟩, fun g g1 _ _ g4 g5 => ?_⟩
        cases g <;> simp_all [Holds, Offered, Field.label, EdgeKind.type]
    | _ => cases h1
  | byKey yes =>
    obtain ⟨h1, h2⟩ := ho
    cases kind with
    | bufferSeq i f =>
      cases yes with
      | false => exact ⟨by simp [Wire.field, Holds], fun g _ _ _ _ h5 => by simpa [Wire.field] using h5⟩
      | true =>
        have : (Wire.field s t (.byKey true) ⟨id, src, hd, tgt, .bufferSeq i f, slot⟩) =
          ⟨id, src, hd, tgt, .bufferKey "" .unset, slot⟩ := by simp [Wire.field, h2]
        rw [this]
        refine ⟨by simp [Holds], fun g g1 g2 g3 g4 g5 => ?_⟩
        cases g <;> simp_all [Holds, Offered, Field.label, EdgeKind.type, Under, Lost]
    | bufferKey x f =>
      cases yes with
      | true => exact ⟨by simp [Wire.field, Holds], fun g _ _ _ _ h5 => by simpa [Wire.field] using h5⟩
      | false =>
        have : (Wire.field s t (.byKey false) ⟨id, src, hd, tgt, .bufferKey x f, slot⟩) =
          ⟨id, src, hd, tgt, .bufferSeq 0 .unset, slot⟩ := by simp [Wire.field, h2]
        rw [this]
        refine ⟨by simp [Holds], fun g g1 g2 g3 g4 g5 => ?_⟩
        cases g <;> simp_all [Holds, Offered, Field.label, EdgeKind.type, Under, Lost]
    | _ => cases h1
  | bufferKey x =>
    obtain ⟨h1, x', f, rfl⟩ := ho
    have hs : slot = none := by
      rcases hslot with h | h
      · exact h
      · rw [h1] at h; cases h
    subst hs
    refine ⟨⟨_, rfl⟩, fun g g1 g2 g3 g4 g5 => ?_⟩
    cases g <;> simp_all [Wire.field, Holds, Offered, Field.label, EdgeKind.type, Under, Lost]
  | bufferSeq i =>
    obtain ⟨h1, i', f, rfl⟩ := ho
    have hs : slot = none := by
      rcases hslot with h | h
      · exact h
      · rw [h1] at h; cases h
    subst hs
    refine ⟨⟨_, rfl⟩, fun g g1 g2 g3 g4 g5 => ?_⟩
    cases g <;> simp_all [Wire.field, Holds, Offered, Field.label, EdgeKind.type, Under, Lost]
  | _ =>
    cases kind <;> first
      | (cases ho; done)
      | (refine ⟨rfl, fun g g1 g2 g3 g4 g5 => ?_⟩
         cases g <;> simp_all [Wire.field, Holds, Offered, Field.label, EdgeKind.type, Under, Lost])

/-- The full claim of C129: what is entered in a field of the form of an edge is so afterwards, and what it
says in the other fields stays, but for those that are there for the choice. -/
def C129_full : Prop := ∀ b : Board, Sound b → ∀ w ∈ b.edges, ∀ s ∈ b.nodes, ∀ t ∈ b.nodes,
  s.id = w.source → t.id = w.target → ∀ f : Field, Offered t.item w f.label →
  (∀ ty, f = .type ty → ty ∈ validTypes s.item w.handle t.item) →
  ∃ w' ∈ (b.field w.id f).edges, w'.id = w.id ∧ w'.source = w.source ∧ w'.handle = w.handle ∧
    w'.target = w.target ∧ Holds w' f ∧
    ∀ g, g.label ≠ f.label → ¬ Under f.label g.label → Offered t.item w g.label → Holds w g →
      Holds w' g

/-- **C129** For every sound diagram, every edge and every field that the form of the edge has: what is
entered is so afterwards, the edge has the same ends, and what it says in the other fields stays, but for
those that are there for the choice.

Missing from the full claim are the field of an `unzip`, which does nothing (`C129_unzip_violated`), that
a join still clones a buffer after another key or index is entered (`C129_fetch_violated`), and the input
of a section after another type is chosen (`C129_input_violated`). -/
theorem C129_fields_partial (b : Board) (hb : Sound b) (w : Wire) (hw : w ∈ b.edges) (s t : Node)
    (hs : s ∈ b.nodes) (ht : t ∈ b.nodes) (es : s.id = w.source) (et : t.id = w.target) (f : Field)
    (ho : Offered t.item w f.label) (hu : f.label ≠ .unzip)
    (hty : ∀ ty, f = .type ty → ty ∈ validTypes s.item w.handle t.item) :
    ∃ w' ∈ (b.field w.id f).edges, w'.id = w.id ∧ w'.source = w.source ∧ w'.handle = w.handle ∧
      w'.target = w.target ∧ Holds w' f ∧
      ∀ g, g.label ≠ f.label → ¬ Under f.label g.label →
        (g.label = .fetch → f.label ∉ [.byKey, .bufferKey, .bufferSeq]) →
        (g.label = .input → f.label ≠ .type) →
        Offered t.item w g.label → Holds w g → Holds w' g := by
  obtain ⟨s', hs', t', ht', e1, e2, _, e4, e5⟩ := hb.ends w hw
  have q1 := id_inj hb.ids hs' hs (e1.trans es.symm)
  have q2 := id_inj hb.ids ht' ht (e2.trans et.symm)
  subst q1 q2
  obtain ⟨h1, h2⟩ := field_does s'.item t'.item w f ho e5 hu hty
  obtain ⟨r1, r2, r3, r4, _⟩ := Wire.field_ok s'.item t'.item f w e4 e5
  refine ⟨w.field s'.item t'.item f, ?_, r1, r2, r3, r4, h1, fun g g1 g2 g3 g4 => h2 g g1 g2 ?_⟩
  · simp only [Board.field, List.mem_map]
    refine ⟨w, hw, ?_⟩
    rw [if_pos rfl, ← e1, ← e2, hb.node hs, hb.node ht]
  · intro hl
    unfold Lost at hl
    split at hl
    · rename_i a c; exact g3 c (by rw [a]; simp)
    · rename_i a c; exact g3 c (by rw [a]; simp)
    · rename_i a c; exact g3 c (by rw [a]; simp)
    · rename_i a c; exact g4 c a
    · exact hl

/-- **C129** What is entered in the form of an edge from an `unzip` does nothing at all. -/
theorem C129_unzip_violated (b : Board) (id : Uid) (i : Nat) : b.field id (.unzip i) = b := by
  have : b.edges.map (fun e => if e.id = id then
      match b.node e.source, b.node e.target with
      | some s, some t => e.field s.item t.item (.unzip i)
      | _, _ => e
    else e) = b.edges := by
    refine (List.map_congr_left ?_).trans (List.map_id _)
    intro e _
    split
    · split <;> rfl
    · rfl
  exact congrArg (fun l => ({ b with edges := l } : Board)) this

/-- **C129** A join that clones a buffer takes it after another key is entered, also when it is exported. -/
theorem C129_fetch_violated :
    let clone (b : Board) := (export_ reg1 b.graph "{}").bind fun d => (opAt d.ops ["s"] "join").map
      fun o => match o.body with | .join _ c _ => c | _ => none
    clone desk = some (some [.key "x"]) ∧ clone (desk.field 2 (.bufferKey "y")) = some none := by
  decide +kernel

/-- A split with an edge to an input of a section. -/
def sorted : Board :=
  (((Board.empty.add none 2 3 4 "sp" ⟨"", .split [] [] none⟩).add none 5 6 7 "s" newSection).connect
    0 2 .plain 5).field 0 (.input "in")

/-- **C129** An edge to an input of a section leads to no input after another type is chosen. -/
theorem C129_input_violated :
    sorted.edges = [⟨0, 2, .plain, 5, .splitKey "", some "in"⟩] ∧
      (sorted.field 0 (.type .splitSeq)).edges = [⟨0, 2, .plain, 5, .splitSeq 0, none⟩] := by
  decide +kernel

theorem sorted_edits : Edits Board.empty sorted := by
  have e1 : Edit Board.empty (Board.empty.add none 2 3 4 "sp" ⟨"", .split [] [] none⟩) :=
    .add none 2 3 4 "sp" _ (by decide +kernel) (not_taken (by decide +kernel))
  exact .more (.more (.more (.more (.none _) e1)
    (.add none 5 6 7 "s" newSection (by decide +kernel) (not_taken (by decide +kernel))))
    (.connect 0 2 .plain 5 (by decide +kernel))) (.field 0 (.input "in"))

/-- The hypotheses of `C129_fields_partial` are met by that board: the key of the edge is entered, and the
input stays. -/
example : ∃ w' ∈ (sorted.field 0 (.splitKey "k")).edges, w'.kind = .splitKey "k" ∧ w'.slot = some "in" := by
  have m2 : (⟨2, none, .op [] "sp" ⟨"", .split [] [] none⟩⟩ : Node) ∈ sorted.nodes := by decide +kernel
  have m5 : (⟨5, none, .op [] "s" newSection⟩ : Node) ∈ sorted.nodes := by decide +kernel
  obtain ⟨w', h1, _, _, _, _, h2, h3⟩ := C129_fields_partial sorted
    (C122_sound_partial _ _ (.inl rfl) sorted_edits) ⟨0, 2, .plain, 5, .splitKey "", some "in"⟩
    (by decide +kernel) _ _ m2 m5 rfl rfl (.splitKey "k") rfl (by decide) nofun
  exact ⟨w', h1, h2, h3 (.input "in") (by decide) (by simp [Under, Field.label]) nofun (by decide)
    ⟨rfl, by decide⟩ rfl⟩

/-- **C129** is false in full. -/
theorem C129_violated : ¬ C129_full := by
  intro h
  have m2 : (⟨2, none, .op [] "sp" ⟨"", .split [] [] none⟩⟩ : Node) ∈ sorted.nodes := by decide +kernel
  have m5 : (⟨5, none, .op [] "s" newSection⟩ : Node) ∈ sorted.nodes := by decide +kernel
  obtain ⟨w', h1, _, _, _, _, _, h3⟩ := h sorted (C122_sound_partial _ _ (.inl rfl) sorted_edits)
    ⟨0, 2, .plain, 5, .splitKey "", some "in"⟩ (by decide +kernel) _ m2 _ m5 rfl rfl (.type .splitSeq)
    trivial (by rintro ty h; cases h; decide +kernel)
  have := h3 (.input "in") (by decide) (by simp [Under, Field.label]) ⟨rfl, by decide⟩ rfl
  rw [C129_input_violated.2, List.mem_singleton] at h1
  subst h1
  cases this

/-- In what is made with the editor, all edges from an `unzip` are for its first output. -/
theorem first_outputs {b : Board} (h : Edits Board.empty b) :
    ∀ w ∈ b.edges, ∀ i, w.kind = .unzip i → i = 0 := by
  have fresh : ∀ {k : EdgeKind}, k = k.type.fresh → ∀ i, k = .unzip i → i = 0 := by
    rintro k h i rfl
    cases h; rfl
  have fld : ∀ (s t : Item) (f : Field) (w : Wire), (∀ i, w.kind = .unzip i → i = 0) →
      ∀ i, (w.field s t f).kind = .unzip i → i = 0 := by
    intro s t f w hw i hi
    obtain ⟨id, src, hd, tgt, kind, slot⟩ := w
    cases f with
    | type ty =>
      simp only [Wire.field] at hi
      split at hi
      · cases ty <;> simp [EType.fresh] at hi
        exact hi.symm
      · exact hw i hi
    | input x => simp only [Wire.field] at hi; split at hi <;> exact hw i hi
    | sectionBuffer x => simp only [Wire.field] at hi; split at hi <;> exact hw i hi
    | fetch c =>
      simp only [Wire.field] at hi
      split at hi
      · cases kind <;> simp only at hi <;>
          first
          | exact hw i hi
          | (split at hi <;> cases hi)
      · exact hw i hi
    | _ =>
      cases kind <;> simp only [Wire.field] at hi <;>
        first
        | exact hw i hi
        | (split at hi <;> cases hi; done)
        | (cases hi; done)
  induction h with
  | none => intro w hw; cases hw
  | more _ he ih =>
    rename_i b c h0
    cases he with
    | add parent id i1 i2 name o _ _ =>
      have : (b.add parent id i1 i2 name o).edges = b.edges := by
        simp only [Board.add]; split <;> rfl
      rw [this]; exact ih
    | setOp id o => exact ih
    | rename id name _ _ => exact ih
    | remove ids => exact fun w hw => ih w (List.mem_filter.1 hw).1
    | removeEdge id => exact fun w hw => ih w (List.mem_filter.1 hw).1
    | connect id source hd target _ =>
      simp only [Board.connect]
      split
      · exact ih
      · rename_i w hw
        split
        · exact ih
        · intro x hx
          rcases List.mem_append.1 hx with hx | hx
          · exact ih x hx
          · rw [List.mem_singleton] at hx
            subst hx
            exact fresh (tryCreate_fresh hw).1
    | reconnect id source hd target =>
      simp only [Board.reconnect]
      split
      · exact ih
      · rename_i w hw
        intro x hx
        obtain ⟨y, hy, rfl⟩ := List.mem_map.1 hx
        split
        · exact fresh (tryCreate_fresh hw).1
        · exact ih y hy
    | field id f =>
      intro x hx
      obtain ⟨y, hy, rfl⟩ := List.mem_map.1 hx
      split
      · split
        · exact fld _ _ f y (ih y hy)
        · exact ih y hy
      · exact ih y hy

end Verif.Editor
