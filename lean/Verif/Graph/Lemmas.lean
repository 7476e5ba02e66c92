import Verif.Graph.Spec

namespace Verif.Graph

set_option linter.unusedSimpArgs false
set_option linter.unnecessarySimpa false

/-! ### Downstream search -/

theorem search_mono (w : Net) (t : Nat) :
    ∀ (f : Nat) (st vis : List Nat) (b : Bool), search w t f st vis = some b →
      ∀ g, f ≤ g → search w t g st vis = some b := by
  intro f
  induction f with
  | zero => intro st vis b h; simp [search] at h
  | succ f ih =>
    intro st vis b h g hg
    obtain ⟨g, rfl⟩ : ∃ g', g = g' + 1 := ⟨g - 1, by omega⟩
    have hfg : f ≤ g := by omega
    cases st with
    | nil => simpa [search] using h
    | cons x st =>
      simp only [search] at h ⊢
      by_cases h1 : x = t
      · simpa [h1] using h
      · by_cases h2 : x ∈ vis
        · simp only [h1, h2, if_false, if_true] at h ⊢
          exact ih _ _ _ h g hfg
        · simp only [h1, h2, if_false] at h ⊢
          exact ih _ _ _ h g hfg

theorem search_sound (w : Net) (t : Nat) :
    ∀ (f : Nat) (st vis : List Nat), search w t f st vis = some true →
      ∃ x ∈ st, x = t ∨ Path (next w) x t := by
  intro f
  induction f with
  | zero => intro st vis h; simp [search] at h
  | succ f ih =>
    intro st vis h
    cases st with
    | nil => simp [search] at h
    | cons x st =>
      simp only [search] at h
      by_cases h1 : x = t
      · exact ⟨x, by simp, Or.inl h1⟩
      · by_cases h2 : x ∈ vis
        · simp only [h1, h2, if_false, if_true] at h
          obtain ⟨y, hy, h'⟩ := ih _ _ h
          exact ⟨y, by simp [hy], h'⟩
        · simp only [h1, h2, if_false] at h
          obtain ⟨y, hy, h'⟩ := ih _ _ h
          rcases List.mem_append.mp hy with hy | hy
          · refine ⟨x, by simp, Or.inr ?_⟩
            have hy : y ∈ next w x := by simpa using hy
            rcases h' with rfl | h'
            · exact .one hy
            · exact .cons hy h'
          · exact ⟨y, by simp [hy], h'⟩

theorem closed_no_path {E : Nat → List Nat} {vis : List Nat} {t : Nat}
    (hc : ∀ v ∈ vis, ∀ u ∈ E v, u ∈ vis) (ht : t ∉ vis) {x : Nat} (hx : x ∈ vis) :
    ¬ Path E x t := by
  intro h
  induction h with
  | one h => exact ht (hc _ hx _ h)
  | cons h _ ih => exact ih ht (hc _ hx _ h)

theorem search_complete (w : Net) (t : Nat) :
    ∀ (f : Nat) (st vis : List Nat), search w t f st vis = some false →
      (∀ v ∈ vis, v ≠ t ∧ ∀ u ∈ next w v, u ∈ vis ∨ u ∈ st) →
      ∀ x, x ∈ st ∨ x ∈ vis → x ≠ t ∧ ¬ Path (next w) x t := by
  intro f
  induction f with
  | zero => intro st vis h; simp [search] at h
  | succ f ih =>
    intro st vis h hinv x hx
    cases st with
    | nil =>
      have hx : x ∈ vis := by simpa using hx
      refine ⟨(hinv x hx).1, closed_no_path ?_ ?_ hx⟩
      · intro v hv u hu
        simpa using (hinv v hv).2 u hu
      · intro ht
        exact (hinv t ht).1 rfl
    | cons y st =>
      simp only [search] at h
      by_cases h1 : y = t
      · simp [h1] at h
      · by_cases h2 : y ∈ vis
        · simp only [h1, h2, if_false, if_true] at h
          refine ih _ _ h ?_ x ?_
          · intro v hv
            refine ⟨(hinv v hv).1, fun u hu => ?_⟩
            rcases (hinv v hv).2 u hu with h' | h'
            · exact Or.inl h'
            · rcases List.mem_cons.mp h' with rfl | h'
              · exact Or.inl h2
              · exact Or.inr h'
          · rcases hx with hx | hx
            · rcases List.mem_cons.mp hx with rfl | hx
              · exact Or.inr h2
              · exact Or.inl hx
            · exact Or.inr hx
        · simp only [h1, h2, if_false] at h
          refine ih _ _ h ?_ x ?_
          · intro v hv
            rcases List.mem_cons.mp hv with rfl | hv
            · exact ⟨h1, fun u hu => Or.inr (by simp [hu])⟩
            · refine ⟨(hinv v hv).1, fun u hu => ?_⟩
              rcases (hinv v hv).2 u hu with h' | h'
              · exact Or.inl (by simp [h'])
              · rcases List.mem_cons.mp h' with rfl | h'
                · exact Or.inl (by simp)
                · exact Or.inr (by simp [h'])
          · rcases hx with hx | hx
            · rcases List.mem_cons.mp hx with rfl | hx
              · exact Or.inr (by simp)
              · exact Or.inl (by simp [hx])
            · exact Or.inr (by simp [hx])

/-- The keys of an association list that are not in `vis`. -/
def unseen {A : Type} (w : List (Nat × A)) (vis : List Nat) : Nat :=
  ((w.map (·.1)).filter (fun k => decide (k ∉ vis))).length

theorem filter_len_le (l : List Nat) {p q : Nat → Bool} (h : ∀ a, p a = true → q a = true) :
    (l.filter p).length ≤ (l.filter q).length := by
  induction l with
  | nil => simp
  | cons a l ih =>
    by_cases hp : p a = true
    · simp [List.filter_cons, hp, h a hp, ih]
    · by_cases hq : q a = true
      · simp [List.filter_cons, hp, hq]; omega
      · simp [List.filter_cons, hp, hq, ih]

theorem filter_len_lt (l : List Nat) {p q : Nat → Bool} (h : ∀ a, p a = true → q a = true)
    {x : Nat} (hx : x ∈ l) (hq : q x = true) (hp : p x = false) :
    (l.filter p).length < (l.filter q).length := by
  induction l with
  | nil => simp at hx
  | cons a l ih =>
    rcases List.mem_cons.mp hx with rfl | hx
    · have := filter_len_le l h
      simp [List.filter_cons, hp, hq]; omega
    · have := ih hx
      by_cases hpa : p a = true
      · simp [List.filter_cons, hpa, h a hpa, this]
      · by_cases hqa : q a = true
        · simp [List.filter_cons, hpa, hqa]; omega
        · simp [List.filter_cons, hpa, hqa, this]

theorem lookup_mem {A : Type} {w : List (Nat × A)} {x : Nat} {a : A}
    (h : w.lookup x = some a) : x ∈ w.map (·.1) := by
  induction w with
  | nil => simp at h
  | cons p w ih =>
    obtain ⟨k, b⟩ := p
    by_cases hk : x = k
    · simp [hk]
    · have hb : (x == k) = false := by simp [hk]
      rw [List.lookup_cons, hb] at h
      exact List.mem_cons_of_mem _ (ih h)

theorem unseen_cons_lt {A : Type} {w : List (Nat × A)} {vis : List Nat} {x : Nat}
    (hx : x ∈ w.map (·.1)) (hv : x ∉ vis) : unseen w (x :: vis) < unseen w vis := by
  refine filter_len_lt _ ?_ hx ?_ ?_
  · intro a ha
    simp at ha ⊢
    exact ha.2
  · simpa using hv
  · simp

theorem unseen_cons_le {A : Type} (w : List (Nat × A)) (vis : List Nat) (x : Nat) :
    unseen w (x :: vis) ≤ unseen w vis := by
  refine filter_len_le _ ?_
  intro a ha
  simp at ha ⊢
  exact ha.2

theorem search_terminates (w : Net) (t : Nat) :
    ∀ (k : Nat) (st vis : List Nat), unseen w vis ≤ k →
      ∃ f b, search w t f st vis = some b := by
  intro k
  induction k with
  | zero =>
    intro st
    induction st with
    | nil => intro vis _; exact ⟨1, false, rfl⟩
    | cons x st ih =>
      intro vis hk
      by_cases h1 : x = t
      · exact ⟨1, true, by simp [search, h1]⟩
      · by_cases h2 : x ∈ vis
        · obtain ⟨f, b, h⟩ := ih vis hk
          exact ⟨f + 1, b, by simp [search, h1, h2, h]⟩
        · cases hl : w.lookup x with
          | some l =>
            have := unseen_cons_lt (lookup_mem hl) h2
            omega
          | none =>
            have hn : next w x = [] := by simp [next, hl]
            obtain ⟨f, b, h⟩ := ih (x :: vis) (by have := unseen_cons_le w vis x; omega)
            exact ⟨f + 1, b, by simp [search, h1, h2, hn, h]⟩
  | succ k ihk =>
    intro st
    induction st with
    | nil => intro vis _; exact ⟨1, false, rfl⟩
    | cons x st ih =>
      intro vis hk
      by_cases h1 : x = t
      · exact ⟨1, true, by simp [search, h1]⟩
      · by_cases h2 : x ∈ vis
        · obtain ⟨f, b, h⟩ := ih vis hk
          exact ⟨f + 1, b, by simp [search, h1, h2, h]⟩
        · cases hl : w.lookup x with
          | some l =>
            have := unseen_cons_lt (lookup_mem hl) h2
            obtain ⟨f, b, h⟩ := ihk ((next w x).reverse ++ st) (x :: vis) (by omega)
            exact ⟨f + 1, b, by simp [search, h1, h2]; simpa using h⟩
          | none =>
            have hn : next w x = [] := by simp [next, hl]
            obtain ⟨f, b, h⟩ := ih (x :: vis) (by have := unseen_cons_le w vis x; omega)
            exact ⟨f + 1, b, by simp [search, h1, h2, hn, h]⟩

theorem path_congr {E F : Nat → List Nat} (h : ∀ a b, b ∈ E a → b ∈ F a) {a b : Nat}
    (p : Path E a b) : Path F a b := by
  induction p with
  | one he => exact .one (h _ _ he)
  | cons he _ ih => exact .cons (h _ _ he) ih

theorem mem_next (w : Net) (h1 : OneOutput w) (h2 : NoNamed w) (a b : Nat) :
    b ∈ next w a ↔ b ∈ allTargets w a := by
  unfold next allTargets
  cases hl : w.lookup a with
  | none => simp
  | some l =>
    have hn := h2 a l hl
    rcases h1 a l hl with h | h
    · cases hf : l.fork <;> simp [h, hf, hn]
    · cases hs : l.single <;> simp [h, hs, hn]

theorem mem_next_all (w : Net) (a b : Nat) (h : b ∈ next w a) : b ∈ allTargets w a := by
  unfold next at h
  unfold allTargets
  cases hl : w.lookup a with
  | none => simp [hl] at h
  | some l =>
    cases hs : l.single with
    | some t =>
      simp [hl, hs] at h ⊢
      rcases h with h | h <;> simp [h]
    | none =>
      cases hf : l.fork with
      | none => simp [hl, hs, hf] at h ⊢; simp [h]
      | some ts => simp [hl, hs, hf] at h ⊢; rcases h with h | h <;> simp [h]

/-! ### Upstream search: termination -/

/-- The keys of a visited map. -/
abbrev keys (v : Visited) : List Nat := v.map (·.1)

theorem lookup_none_iff {A : Type} (v : List (Nat × A)) (n : Nat) :
    v.lookup n = none ↔ n ∉ v.map (·.1) := by
  induction v with
  | nil => simp
  | cons p v ih =>
    obtain ⟨k, b⟩ := p
    by_cases hk : n = k
    · simp [hk]
    · have hb : (n == k) = false := by simp [hk]
      rw [List.lookup_cons, hb]
      simp only [ih, List.map_cons, List.mem_cons, hk, false_or]

theorem unseen_mono {A : Type} (w : List (Nat × A)) {v v' : List Nat} (h : ∀ x ∈ v, x ∈ v') :
    unseen w v' ≤ unseen w v := by
  refine filter_len_le _ ?_
  intro a ha
  simp at ha ⊢
  exact fun hv => ha (h a hv)

/-- Visited maps only grow. -/
theorem interp_keys {ask : Visited → Nat → Res × Visited}
    (ha : ∀ v n, ∀ x ∈ keys v, x ∈ keys (ask v n).2) :
    ∀ (q : Query) (v : Visited), ∀ x ∈ keys v, x ∈ keys (interp ask q v).2 := by
  intro q
  induction q with
  | ret b => intro v x hx; exact hx
  | fail => intro v x hx; exact hx
  | ask n k ih =>
    intro v x hx
    have h1 := ha v n x hx
    simp only [interp]
    generalize ask v n = r at h1 ⊢
    obtain ⟨r, v'⟩ := r
    cases r with
    | ok b => exact ih b v' x h1
    | broken => exact h1
    | unfinished => exact h1

theorem check_keys (w : World) (s : Nat) :
    ∀ (f : Nat) (v : Visited) (n : Nat), ∀ x ∈ keys v, x ∈ keys (checkUpstream w s f v n).2 := by
  intro f
  induction f with
  | zero => intro v n x hx; exact hx
  | succ f ih =>
    intro v n x hx
    simp only [checkUpstream]
    cases hl : v.lookup n with
    | some b => exact hx
    | none =>
      cases hw : w.lookup n with
      | none => exact List.mem_cons_of_mem _ hx
      | some op =>
        have h1 := interp_keys ih (op.query s) ((n, false) :: v) x (List.mem_cons_of_mem _ hx)
        dsimp only
        generalize interp (checkUpstream w s f) (op.query s) ((n, false) :: v) = r at h1 ⊢
        obtain ⟨r, v'⟩ := r
        cases r with
        | ok b => cases b with
          | true => exact List.mem_cons_of_mem _ h1
          | false => exact h1
        | broken => exact h1
        | unfinished => exact h1

theorem interp_finishes {ask : Visited → Nat → Res × Visited} {P : Visited → Prop}
    (hP : ∀ v n, P v → (ask v n).1 ≠ .unfinished ∧ P (ask v n).2) :
    ∀ (q : Query) (v : Visited), P v → (interp ask q v).1 ≠ .unfinished := by
  intro q
  induction q with
  | ret b => intro v _; simp [interp]
  | fail => intro v _; simp [interp]
  | ask n k ih =>
    intro v hv
    have h1 := hP v n hv
    simp only [interp]
    generalize ask v n = r at h1 ⊢
    obtain ⟨r, v'⟩ := r
    cases r with
    | ok b => exact ih b v' h1.2
    | broken => simp
    | unfinished => simp at h1

theorem check_finishes (w : World) (s : Nat) :
    ∀ (f : Nat) (v : Visited) (n : Nat), unseen w (keys v) < f →
      (checkUpstream w s f v n).1 ≠ .unfinished := by
  intro f
  induction f with
  | zero => intro v n h; omega
  | succ f ih =>
    intro v n hu
    simp only [checkUpstream]
    cases hl : v.lookup n with
    | some b => simp
    | none =>
      cases hw : w.lookup n with
      | none => simp
      | some op =>
        have hlt : unseen w (n :: keys v) < unseen w (keys v) :=
          unseen_cons_lt (lookup_mem hw) ((lookup_none_iff v n).mp hl)
        have h1 := interp_finishes (ask := checkUpstream w s f)
          (P := fun v => unseen w (keys v) < f)
          (fun v m hv => ⟨ih v m hv,
            Nat.lt_of_le_of_lt (unseen_mono w (check_keys w s f v m)) hv⟩)
          (op.query s) ((n, false) :: v) (show unseen w (n :: keys v) < f by omega)
        dsimp only
        generalize interp (checkUpstream w s f) (op.query s) ((n, false) :: v) = r at h1 ⊢
        obtain ⟨r, v'⟩ := r
        cases r with
        | ok b => cases b <;> simp
        | broken => simp
        | unfinished => simp at h1

/-! ### Upstream search: soundness -/

/-- `q` answers true only if `P`, provided that its questions are answered true only
about members of `L`. -/
def SoundQ (L : Nat → Prop) (P : Prop) : Query → Prop
  | .ret b => b = true → P
  | .fail => True
  | .ask n k => SoundQ L P (k false) ∧ (L n → SoundQ L P (k true))

theorem soundQ_any {L : Nat → Prop} {P : Prop} {rest : Query} :
    ∀ {is : List Nat}, (∀ i ∈ is, L i → P) → SoundQ L P rest →
      SoundQ L P (Query.any is rest)
  | [], _, hr => hr
  | i :: is, h, hr => by
    refine ⟨?_, fun hi => ?_⟩
    · simpa [Query.any] using soundQ_any (is := is) (fun j hj => h j (by simp [hj])) hr
    · simpa [SoundQ] using h i (by simp) hi

theorem soundQ_join {L : Nat → Prop} {P : Prop} {s : Nat} :
    ∀ {is : List (Nat × (Nat → Nat))}, ((∀ p ∈ is, p.2 s = 0 → L p.1) → P) →
      SoundQ L P (Query.join s is)
  | [], h => fun _ => h (by simp)
  | p :: is, h => by
    refine ⟨?_, fun hp => ?_⟩
    · by_cases h0 : p.2 s = 0
      · simp [h0, SoundQ]
      · simp only [h0, if_false]
        refine soundQ_join (is := is) (fun h' => h ?_)
        intro q hq hq0
        rcases List.mem_cons.mp hq with rfl | hq
        · exact absurd hq0 h0
        · exact h' q hq hq0
    · simp only [if_true]
      refine soundQ_join (is := is) (fun h' => h ?_)
      intro q hq hq0
      rcases List.mem_cons.mp hq with rfl | hq
      · exact hp
      · exact h' q hq hq0

theorem soundQ_accessors {L : Nat → Prop} {P : Prop} {s : Nat} {rest : Query}
    {as : List (Nat × (Nat → Bool))} (h1 : ∀ a ∈ as, a.2 s = true → P)
    (h2 : ∀ a ∈ as, L a.1 → P) (hr : SoundQ L P rest) :
    SoundQ L P (Query.accessors s as rest) := by
  unfold Query.accessors
  by_cases h : as.any (fun a => a.2 s) = true
  · simp only [h, if_true]
    obtain ⟨a, ha, hs⟩ := List.any_eq_true.mp h
    exact fun _ => h1 a ha hs
  · simp only [h]
    refine soundQ_any ?_ hr
    intro i hi hL
    obtain ⟨a, ha, rfl⟩ := List.mem_map.mp hi
    exact h2 a ha hL

theorem soundQ_opening {L : Nat → Prop} {P : Prop} {yes no : Query} :
    ∀ {gs : List (Nat × Bool)}, (∀ g, (g, true) ∈ gs → L g → SoundQ L P yes) →
      SoundQ L P no → SoundQ L P (Query.opening gs yes no)
  | [], _, hn => hn
  | g :: gs, h, hn => by
    have ih := soundQ_opening (gs := gs) (yes := yes) (fun g' hg' => h g' (by simp [hg'])) hn
    unfold Query.opening
    by_cases hg : g.2 = true
    · simp only [hg, if_true]
      refine ⟨by simpa using ih, fun hL => ?_⟩
      simp only [if_true]
      refine h g.1 ?_ hL
      have : g = (g.1, true) := by rw [← hg]
      rw [← this]
      simp
    · simp only [hg]
      exact ih

theorem soundQ_query {w : World} {s n : Nat} {op : Op} (hw : w.lookup n = some op) :
    SoundQ (Live w s) (Live w s n) (op.query s) := by
  cases op with
  | plain a is =>
    unfold Op.query
    by_cases ha : a s = true
    · simp only [ha, if_true]
      exact fun _ => .active hw ha
    · simp only [ha]
      exact soundQ_any (fun i hi hL => .input hw hi hL) (by simp [SoundQ])
  | join is => exact soundQ_join (fun h => .join hw h)
  | buffer o gs as a is =>
    have hkey : ∀ rest, SoundQ (Live w s) (Live w s n) rest →
        SoundQ (Live w s) (Live w s n) (Query.accessors s as rest) := fun rest hr =>
      soundQ_accessors (fun k hk hs => .keyUsed hw hk hs) (fun k hk hL => .keyLive hw hk hL) hr
    unfold Op.query
    dsimp only
    by_cases ho : o s = true
    · simp only [ho, if_true]
      by_cases ha : a s = true
      · simp only [ha, if_true]
        exact fun _ => .openActive hw ho ha
      · simp only [ha]
        exact hkey _ (soundQ_any (fun i hi hL => .openInput hw ho hi hL) (by simp [SoundQ]))
    · simp only [ho]
      refine soundQ_opening ?_ (hkey _ (by simp [SoundQ]))
      intro g hg hL
      by_cases ha : a s = true
      · simp only [ha, if_true]
        exact fun _ => .gateActive hw hg hL ha
      · simp only [ha]
        exact hkey _ (soundQ_any (fun i hi hLi => .gateInput hw hg hL hi hLi) (by simp [SoundQ]))
  | broken => trivial

/-- Every true entry of the visited map is about a live operation. -/
def TruesLive (w : World) (s : Nat) (v : Visited) : Prop := ∀ n, (n, true) ∈ v → Live w s n

theorem lookup_mem_pair {A : Type} {w : List (Nat × A)} {x : Nat} {a : A}
    (h : w.lookup x = some a) : (x, a) ∈ w := by
  induction w with
  | nil => simp at h
  | cons p w ih =>
    obtain ⟨k, b⟩ := p
    by_cases hk : x = k
    · subst hk
      rw [List.lookup_cons_self] at h
      simp [Option.some.inj h]
    · have hb : (x == k) = false := by simp [hk]
      rw [List.lookup_cons, hb] at h
      exact List.mem_cons_of_mem _ (ih h)

theorem interp_sound {w : World} {s : Nat} {P : Prop} {ask : Visited → Nat → Res × Visited}
    (ha : ∀ v n, TruesLive w s v →
      ((ask v n).1 = .ok true → Live w s n) ∧ TruesLive w s (ask v n).2) :
    ∀ (q : Query) (v : Visited), SoundQ (Live w s) P q → TruesLive w s v →
      ((interp ask q v).1 = .ok true → P) ∧ TruesLive w s (interp ask q v).2 := by
  intro q
  induction q with
  | ret b =>
    intro v hq hv
    refine ⟨?_, hv⟩
    intro h
    simp [interp] at h
    exact hq h
  | fail => intro v hq hv; exact ⟨by simp [interp], hv⟩
  | ask n k ih =>
    intro v hq hv
    have h1 := ha v n hv
    simp only [interp]
    generalize ask v n = r at h1 ⊢
    obtain ⟨r, v'⟩ := r
    cases r with
    | ok b =>
      cases b with
      | true => exact ih true v' (hq.2 (h1.1 rfl)) h1.2
      | false => exact ih false v' hq.1 h1.2
    | broken => exact ⟨by simp, h1.2⟩
    | unfinished => exact ⟨by simp, h1.2⟩

theorem check_sound (w : World) (s : Nat) :
    ∀ (f : Nat) (v : Visited) (n : Nat), TruesLive w s v →
      ((checkUpstream w s f v n).1 = .ok true → Live w s n) ∧
      TruesLive w s (checkUpstream w s f v n).2 := by
  intro f
  induction f with
  | zero => intro v n hv; exact ⟨by simp [checkUpstream], hv⟩
  | succ f ih =>
    intro v n hv
    simp only [checkUpstream]
    cases hl : v.lookup n with
    | some b =>
      refine ⟨?_, hv⟩
      intro h
      simp at h
      subst h
      exact hv n (lookup_mem_pair hl)
    | none =>
      have hv' : TruesLive w s ((n, false) :: v) := by
        intro m hm
        simp at hm
        exact hv m hm
      cases hw : w.lookup n with
      | none => exact ⟨by simp, hv'⟩
      | some op =>
        have h1 := interp_sound ih (op.query s) ((n, false) :: v) (soundQ_query hw) hv'
        dsimp only
        generalize interp (checkUpstream w s f) (op.query s) ((n, false) :: v) = r at h1 ⊢
        obtain ⟨r, v'⟩ := r
        cases r with
        | ok b =>
          cases b with
          | true =>
            have hn := h1.1 rfl
            refine ⟨fun _ => hn, ?_⟩
            intro m hm
            rcases List.mem_cons.mp hm with h | h
            · cases h; exact hn
            · exact h1.2 m h
          | false => exact ⟨by simp, h1.2⟩
        | broken => exact ⟨by simp, h1.2⟩
        | unfinished => exact ⟨by simp, h1.2⟩

end Verif.Graph
