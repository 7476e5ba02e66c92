import Verif.Many.Model
import Verif.Flow.Steps

/-
Helper lemmas for C117: what one operation does to the part of its own session and to the parts of
the others.
-/
namespace Verif.Many

open Flow (Net Kind Status State Choice Wired)

/-- What happened belongs to session `x`: it went from its part of `W` to `s` if it was active, and
the other sessions were left alone. -/
structure Sim (x : Nat) (W W' : Multi) (s : State) : Prop where
  others : ∀ y, y ≠ x → W'.of y = W.of y ∧ W'.status y = W.status y
  self : W.status x = some .active → W'.of x = s ∧ W'.status x = some s.status
  ended : W.status x ≠ some .active → W'.status x = W.status x
  confirmed : W'.confirmed = W.confirmed

theorem Sim.rfl' (x : Nat) (W : Multi) : Sim x W W (W.of x) :=
  ⟨fun _ _ => ⟨rfl, rfl⟩, fun h => ⟨rfl, by rw [h]; simp [Multi.of, h]⟩, fun _ => rfl, rfl⟩

theorem Sim.trans {x : Nat} {W W' W'' : Multi} {s : State} {g : State → State}
    (h1 : Sim x W W' s) (hk : W.status x = some .active → s.status = .active)
    (h2 : Sim x W' W'' (g (W'.of x))) : Sim x W W'' (g s) := by
  refine ⟨fun y hy => ?_, fun ha => ?_, fun hn => ?_, ?_⟩
  · exact ⟨(h2.others y hy).1.trans (h1.others y hy).1, (h2.others y hy).2.trans (h1.others y hy).2⟩
  · obtain ⟨h3, h4⟩ := h1.self ha
    have ha' : W'.status x = some .active := by rw [h4, hk ha]
    have := h2.self ha'
    rw [h3] at this
    exact this
  · have h3 := h1.ended hn
    rw [h2.ended (by rw [h3]; exact hn), h3]
  · rw [h2.confirmed, h1.confirmed]

theorem of_active {W : Multi} {x : Nat} (h : W.status x = some .active) :
    (W.of x).status = .active := by simp [Multi.of, h]

theorem part_self {α : Type} (f : Nat → Nat → α) (x : Nat) (g : Nat → α) (m : Nat) :
    part f x g m x = g m := by simp [part]

theorem part_ne {α : Type} (f : Nat → Nat → α) {x y : Nat} (h : y ≠ x) (g : Nat → α) (m : Nat) :
    part f x g m y = f m y := by simp [part, h]

/-! ### The operations one by one -/

theorem Sim.held (x : Nat) (W : Multi) (g : Nat → Nat) :
    Sim x W { W with held := part W.held x g } { W.of x with held := g } := by
  refine ⟨fun y hy => ⟨?_, rfl⟩, fun ha => ⟨?_, ?_⟩, fun _ => rfl, rfl⟩
  · simp [Multi.of, part, hy]
  · simp [Multi.of, part]
  · simp [Multi.of, ha]

theorem Sim.setGate (x : Nat) (W : Multi) (b : Nat) (o : Bool) :
    Sim x W (setGate W x b o)
      { W.of x with gates := fun m => if m = b then some o else (W.of x).gates m } := by
  refine ⟨fun y hy => ⟨?_, rfl⟩, fun ha => ⟨?_, ?_⟩, fun _ => rfl, rfl⟩
  · simp [Multi.of, Many.setGate, part, hy]
  · simp [Multi.of, Many.setGate, part]
  · simp [Multi.of, Many.setGate, ha]

theorem Sim.access (x : Nat) (W : Multi) (g : Nat → Nat) (d : Nat → Bool) :
    Sim x W { W with keys := part W.keys x g, made := part W.made x d }
      { W.of x with keys := g, made := d } := by
  refine ⟨fun y hy => ⟨?_, rfl⟩, fun ha => ⟨?_, ?_⟩, fun _ => rfl, rfl⟩
  · simp [Multi.of, part, hy]
  · simp [Multi.of, part]
  · simp [Multi.of, ha]

theorem Sim.keys (x : Nat) (W : Multi) (g d : Nat → Nat) :
    Sim x W { W with keys := part W.keys x g, dropping := part W.dropping x d }
      { W.of x with keys := g, dropping := d } := by
  refine ⟨fun y hy => ⟨?_, rfl⟩, fun ha => ⟨?_, ?_⟩, fun _ => rfl, rfl⟩
  · simp [Multi.of, part, hy]
  · simp [Multi.of, part]
  · simp [Multi.of, ha]

theorem Sim.dispose (x : Nat) (W : Multi) :
    Sim x W (dispose W x) (Flow.dispose (W.of x)) := by
  refine ⟨fun y hy => ⟨?_, rfl⟩, fun ha => ⟨?_, ?_⟩, fun _ => rfl, rfl⟩
  · simp [Multi.of, Many.dispose, Ne.symm hy]
  · simp [Multi.of, Many.dispose, Flow.dispose]
  · simp [Multi.of, Flow.dispose, Many.dispose, ha]

theorem Sim.fail (x : Nat) (W : Multi) :
    Sim x W { W with failures := fun y => if y = x then W.failures y + 1 else W.failures y }
      { W.of x with failures := (W.of x).failures + 1 } := by
  refine ⟨fun y hy => ⟨?_, rfl⟩, fun ha => ⟨?_, ?_⟩, fun _ => rfl, rfl⟩
  · simp [Multi.of, hy]
  · simp [Multi.of]
  · simp [Multi.of, ha]

theorem Sim.task (x n : Nat) (W : Multi) :
    Sim x W { W with tasks := setAt W.tasks n (W.tasks n ++ [x]) }
      { W.of x with tasks := Flow.bump (W.of x).tasks n } := by
  refine ⟨fun y hy => ⟨?_, rfl⟩, fun ha => ⟨?_, ?_⟩, fun _ => rfl, rfl⟩
  · simp only [Multi.of]
    congr 1
    funext m
    by_cases hm : m = n
    · subst hm; simp [setAt, Ne.symm hy]
    · simp [setAt, hm]
  · simp only [Multi.of]
    congr 1
    funext m
    by_cases hm : m = n
    · subst hm; simp [setAt, Flow.bump]
    · simp [setAt, hm, Flow.bump]
  · simp [Multi.of, ha]

theorem Sim.push (x n : Nat) (W : Multi) :
    Sim x W { W with queue := setAt W.queue n (W.queue n ++ [x]) }
      { W.of x with pending := Flow.bump (W.of x).pending n } := by
  refine ⟨fun y hy => ⟨?_, rfl⟩, fun ha => ⟨?_, ?_⟩, fun _ => rfl, rfl⟩
  · simp only [Multi.of]
    congr 1
    funext m
    by_cases hm : m = n
    · subst hm; simp [setAt, Ne.symm hy]
    · simp [setAt, hm]
  · simp only [Multi.of]
    congr 1
    funext m
    by_cases hm : m = n
    · subst hm; simp [setAt, Flow.bump]
    · simp [setAt, hm, Flow.bump]
  · simp [Multi.of, ha]

theorem Sim.pop {x n : Nat} {W : Multi} {rest : List Nat} (h : W.queue n = x :: rest) :
    Sim x W { W with queue := setAt W.queue n rest }
      { W.of x with pending := Flow.drop (W.of x).pending n } := by
  refine ⟨fun y hy => ⟨?_, rfl⟩, fun ha => ⟨?_, ?_⟩, fun _ => rfl, rfl⟩
  · simp only [Multi.of]
    congr 1
    funext m
    by_cases hm : m = n
    · subst hm; simp [setAt, h, Ne.symm hy]
    · simp [setAt, hm]
  · simp only [Multi.of]
    congr 1
    funext m
    by_cases hm : m = n
    · subst hm; simp [setAt, Flow.drop, h]
    · simp [setAt, hm, Flow.drop]
  · simp [Multi.of, ha]

theorem Sim.popCheck {x : Nat} {W : Multi} {rest : List Nat} (h : W.disposed = x :: rest) :
    Sim x W { W with disposed := rest }
      { W.of x with checks := (W.of x).checks - 1 } := by
  refine ⟨fun y hy => ⟨?_, rfl⟩, fun ha => ⟨?_, ?_⟩, fun _ => rfl, rfl⟩
  · simp [Multi.of, h, Ne.symm hy]
  · simp [Multi.of, h]
  · simp [Multi.of, ha]

theorem Sim.endTask (x n : Nat) (W : Multi) :
    Sim x W (endTask W x n) { W.of x with tasks := Flow.drop (W.of x).tasks n } := by
  refine ⟨fun y hy => ⟨?_, rfl⟩, fun ha => ⟨?_, ?_⟩, fun _ => rfl, rfl⟩
  · simp only [Multi.of, Many.endTask]
    congr 1
    funext m
    by_cases hm : m = n
    · subst hm
      simp only [setAt, if_true]
      rw [List.count_erase_of_ne hy]
    · simp [setAt, hm]
  · simp only [Multi.of, Many.endTask]
    congr 1
    funext m
    by_cases hm : m = n
    · subst hm; simp [setAt, Flow.drop, List.count_erase_self]
    · simp [setAt, hm, Flow.drop]
  · simp [Multi.of, Many.endTask, ha]

theorem Sim.finish (x : Nat) (W : Multi) (st : Status) :
    Sim x W (W.finish x st) { W.of x with status := st } := by
  unfold Multi.finish
  by_cases ha : W.active x = true
  · rw [if_pos ha]
    have ha' : W.status x = some .active := by simpa [Multi.active] using ha
    refine ⟨fun y hy => ⟨?_, ?_⟩, fun _ => ⟨?_, ?_⟩, fun h => absurd ha' h, rfl⟩
    · simp [Multi.of, hy]
    · simp [hy]
    · simp [Multi.of]
    · simp
  · rw [if_neg ha]
    have ha' : W.status x ≠ some .active := by simpa [Multi.active] using ha
    exact ⟨fun _ _ => ⟨rfl, rfl⟩, fun h => absurd h ha', fun _ => rfl, rfl⟩

theorem Sim.give {net : Net} (x : Nat) (W : Multi) {m : Nat} (hm : m ∈ net.ops.map (·.1)) :
    Sim x W (give net x W m) (Flow.give net (W.of x) m) := by
  obtain ⟨k, hk⟩ := Flow.lookup_of_key hm
  by_cases hu : k = .unused
  · subst hu
    have e1 : Many.give net x W m = W := by unfold Many.give; rw [hk]
    have e2 : Flow.give net (W.of x) m = W.of x := by unfold Flow.give; rw [hk]
    rw [e1, e2]
    exact Sim.rfl' x W
  · have e1 : Many.give net x W m =
        if W.active x then { W with queue := setAt W.queue m (W.queue m ++ [x]) } else W := by
      unfold Many.give
      rw [hk]
      cases k <;> first | rfl | exact absurd rfl hu
    have e2 : Flow.give net (W.of x) m =
        { W.of x with pending := Flow.bump (W.of x).pending m } := by
      unfold Flow.give
      rw [hk]
      cases k <;> first | rfl | exact absurd rfl hu
    rw [e1, e2]
    by_cases ha : W.active x = true
    · rw [if_pos ha]
      exact Sim.push x m W
    · rw [if_neg ha]
      have ha' : W.status x ≠ some .active := by simpa [Multi.active] using ha
      exact ⟨fun _ _ => ⟨rfl, rfl⟩, fun h => absurd h ha', fun _ => rfl, rfl⟩

theorem give_keep {net : Net} {s : State} {m : Nat} (hm : m ∈ net.ops.map (·.1))
    (h : s.status = .active) : (Flow.give net s m).status = .active :=
  (Flow.give_given s hm).status.trans h

theorem giveAll_keep {net : Net} {ms : List Nat} (hm : ∀ m, m ∈ ms → m ∈ net.ops.map (·.1))
    {s : State} (h : s.status = .active) : (Flow.giveAll net s ms).status = .active :=
  (Flow.giveAll_given ms s hm).status.trans h

theorem Sim.giveAll {net : Net} (x : Nat) (ms : List Nat) :
    ∀ (W : Multi), (∀ m, m ∈ ms → m ∈ net.ops.map (·.1)) →
      Sim x W (giveAll net x W ms) (Flow.giveAll net (W.of x) ms) := by
  induction ms with
  | nil => exact fun W _ => Sim.rfl' x W
  | cons m ms ih =>
    intro W hm
    have h1 := Sim.give (net := net) x W (hm m List.mem_cons_self)
    have h2 := ih (Many.give net x W m) (fun m' h => hm m' (List.mem_cons_of_mem _ h))
    exact Sim.trans (g := fun s => Flow.giveAll net s ms) h1
      (fun ha => give_keep (hm m List.mem_cons_self) (of_active ha)) h2

theorem Sim.wake {net : Net} (x : Nat) (W : Multi) (n b : Nat) (loops : Bool) :
    Sim x W (wake net x W n b loops) (Flow.wake net (W.of x) n b loops) := by
  unfold Many.wake Flow.wake
  have : isOpen W x b = Flow.isOpen (W.of x) b := rfl
  rw [this]
  by_cases h : Flow.isOpen (W.of x) b = true
  · rw [if_pos h, if_pos h]
    exact Sim.giveAll x _ W fun m hm => Flow.listeners_exist (List.mem_filter.mp hm).1
  · rw [if_neg h, if_neg h]
    exact Sim.rfl' x W

theorem Sim.actGate {net : Net} (x : Nat) (o : Bool) (W : Multi) (b : Nat) :
    Sim x W (actGate net x o W b) (Flow.actGate net o (W.of x) b) := by
  unfold Many.actGate Flow.actGate
  have : isOpen W x b = Flow.isOpen (W.of x) b := rfl
  simp only [this]
  by_cases h : (o && !Flow.isOpen (W.of x) b) = true
  · rw [if_pos h, if_pos h]
    exact Sim.trans (g := fun s => Flow.giveAll net s (Flow.listeners net b))
      (Sim.setGate x W b o) (fun ha => of_active ha)
      (Sim.giveAll x _ _ fun m hm => Flow.listeners_exist hm)
  · rw [if_neg h, if_neg h]
    exact Sim.setGate x W b o

theorem actGate_keep {net : Net} {o : Bool} {s : State} {b : Nat} (h : s.status = .active) :
    (Flow.actGate net o s b).status = .active := by
  unfold Flow.actGate
  simp only
  split
  · exact giveAll_keep (fun m hm => Flow.listeners_exist hm) h
  · exact h

theorem actGates_keep {net : Net} {o : Bool} (bs : List Nat) :
    ∀ (s : State), s.status = .active → (bs.foldl (Flow.actGate net o) s).status = .active := by
  induction bs with
  | nil => exact fun _ h => h
  | cons b bs ih => exact fun s h => ih _ (actGate_keep h)

theorem Sim.actGates {net : Net} (x : Nat) (o : Bool) (bs : List Nat) :
    ∀ (W : Multi), Sim x W (bs.foldl (Many.actGate net x o) W)
      (bs.foldl (Flow.actGate net o) (W.of x)) := by
  induction bs with
  | nil => exact fun W => Sim.rfl' x W
  | cons b bs ih =>
    intro W
    exact Sim.trans (g := fun s => bs.foldl (Flow.actGate net o) s) (Sim.actGate x o W b)
      (fun ha => actGate_keep (of_active ha)) (ih _)

theorem Sim.execute {net : Net} (hw : Wired net) (x n : Nat) (W : Multi) (c : Choice) (k : Kind)
    (hk : net.ops.lookup n = some k) :
    Sim x W (execute net W x n c k) (Flow.execute net (W.of x) n c k) := by
  have hmem := Flow.mem_of_lookup hk
  have ht : ∀ m, m ∈ k.targets → m ∈ net.ops.map (·.1) := hw.targets n k hmem
  cases k with
  | node async t ss =>
    unfold Many.execute Flow.execute
    cases async with
    | true => exact Sim.task x n W
    | false =>
      simp only [Bool.false_eq_true, if_false]
      have hss : ∀ m, m ∈ Flow.copies ss c → m ∈ net.ops.map (·.1) := fun m hm =>
        ht m (by simp only [Kind.targets]; exact List.mem_cons_of_mem _ (Flow.mem_copies hm))
      have htt : t ∈ net.ops.map (·.1) := ht t (by simp [Kind.targets])
      have h1 := Sim.giveAll (net := net) x (Flow.copies ss c) W hss
      have hk1 := fun ha : W.status x = some .active =>
        giveAll_keep (net := net) hss (of_active ha)
      by_cases hm : Flow.misses ss c = true
      · rw [if_pos hm, if_pos hm]
        exact Sim.trans (g := fun s => Flow.give net s t)
          (Sim.trans (g := Flow.dispose) h1 hk1 (Sim.dispose x _)) hk1 (Sim.give x _ htt)
      · rw [if_neg hm, if_neg hm]
        exact Sim.trans (g := fun s => Flow.give net s t) h1 hk1 (Sim.give x _ htt)
  | fork ts => exact Sim.giveAll x ts W ht
  | branch a b =>
    have ha' : a ∈ net.ops.map (·.1) := ht a (by simp [Kind.targets])
    have hb' : b ∈ net.ops.map (·.1) := ht b (by simp [Kind.targets])
    unfold Many.execute Flow.execute
    by_cases h : c.headD 0 = 0
    · simp only [h, if_true]
      exact Sim.trans (g := Flow.dispose) (Sim.give x W ha')
        (fun ha => give_keep ha' (of_active ha)) (Sim.dispose x _)
    · simp only [h, if_false]
      exact Sim.trans (g := fun s => Flow.give net s b) (Sim.dispose x W)
        (fun ha => of_active ha) (Sim.give x _ hb')
  | filter t =>
    have ht' : t ∈ net.ops.map (·.1) := ht t (by simp [Kind.targets])
    unfold Many.execute Flow.execute
    by_cases h : c.headD 0 = 0
    · simp only [h, if_true]; exact Sim.dispose x W
    · simp only [h, if_false]; exact Sim.give x W ht'
  | spread t =>
    have hss : ∀ m, m ∈ List.replicate (c.headD 0) t → m ∈ net.ops.map (·.1) := fun m hm => by
      rw [(List.mem_replicate.mp hm).2]; exact ht t (by simp [Kind.targets])
    unfold Many.execute Flow.execute
    by_cases h : c.headD 0 = 0
    · simp only [h, if_true]
      exact Sim.trans (g := Flow.dispose) (Sim.giveAll x _ W (by simp))
        (fun ha => giveAll_keep (by simp) (of_active ha)) (Sim.dispose x _)
    · simp only [h, if_false]; exact Sim.giveAll x _ W hss
  | split ts =>
    have hss : ∀ m, m ∈ Flow.copies ts c → m ∈ net.ops.map (·.1) := fun m hm =>
      ht m (by simp only [Kind.targets]; exact Flow.mem_copies hm)
    unfold Many.execute Flow.execute
    by_cases h : Flow.misses ts c = true
    · simp only [h, if_true]
      exact Sim.trans (g := Flow.dispose) (Sim.giveAll x _ W hss)
        (fun ha => giveAll_keep hss (of_active ha)) (Sim.dispose x _)
    · simp only [h]; exact Sim.giveAll x _ W hss
  | buffer cap =>
    unfold Many.execute Flow.execute
    have e : isOpen W x n = Flow.isOpen (W.of x) n := rfl
    simp only [e]
    have h1 := Sim.held x W fun m => if m = n then Flow.push cap (W.held m x) else W.held m x
    by_cases h : Flow.isOpen (W.of x) n = true
    · rw [if_pos h, if_pos h]
      exact Sim.trans (g := fun s => Flow.giveAll net s (Flow.listeners net n)) h1
        (fun ha => of_active ha) (Sim.giveAll x _ _ fun m hm => Flow.listeners_exist hm)
    · rw [if_neg h, if_neg h]
      exact h1
  | join bs t =>
    have ht' : t ∈ net.ops.map (·.1) := ht t (by simp [Kind.targets])
    unfold Many.execute Flow.execute
    have e : (fun m => W.held m x) = (W.of x).held := rfl
    simp only [e]
    by_cases h : Flow.ready (W.of x).held bs = true
    · rw [if_pos h, if_pos h]
      exact Sim.trans (g := fun s => Flow.give net s t) (Sim.held x W _)
        (fun ha => of_active ha) (Sim.give x _ ht')
    · rw [if_neg h, if_neg h]
      exact Sim.rfl' x W
  | scope t ss => exact Sim.task x n W
  | access l bs t =>
    have ht' : t ∈ net.ops.map (·.1) := ht t (by simp [Kind.targets])
    exact Sim.trans (g := fun s => Flow.give net s t)
      (Sim.access x W (fun m => if m = n then W.keys m x + bs.length else W.keys m x)
        (fun m => m = n || W.made m x))
      (fun ha => of_active ha) (Sim.give x _ ht')
  | gate o bs t =>
    have ht' : t ∈ net.ops.map (·.1) := ht t (by simp [Kind.targets])
    have h1 : Sim x W (Many.give net x (bs.foldl (Many.actGate net x o) W) t)
        (Flow.give net (bs.foldl (Flow.actGate net o) (W.of x)) t) :=
      Sim.trans (g := fun s => Flow.give net s t) (Sim.actGates x o bs W)
        (fun ha => actGates_keep bs _ (of_active ha)) (Sim.give x _ ht')
    unfold Many.execute Flow.execute
    cases o with
    | true => exact h1
    | false =>
      exact Sim.trans (g := Flow.dispose) h1
        (fun ha => give_keep ht' (actGates_keep bs _ (of_active ha))) (Sim.dispose x _)
  | cancel => exact Sim.finish x W .cancelled
  | terminate => exact Sim.finish x W .terminated
  | unused => exact Sim.rfl' x W

/-! ### The search for activity -/

theorem accessors_query {s1 s2 : Nat} {as bs : List (Nat × (Nat → Bool))} (rest : Graph.Query)
    (h : as.map (fun a => (a.1, a.2 s1)) = bs.map (fun a => (a.1, a.2 s2))) :
    Graph.Query.accessors s1 as rest = Graph.Query.accessors s2 bs rest := by
  have h1 : as.any (fun a => a.2 s1) = bs.any (fun a => a.2 s2) := by
    have e := congrArg (fun l : List (Nat × Bool) => l.any (·.2)) h
    simpa [List.any_map, Function.comp_def] using e
  have h2 : as.map (·.1) = bs.map (·.1) := by
    have e := congrArg (fun l : List (Nat × Bool) => l.map (·.1)) h
    simpa [List.map_map, Function.comp_def] using e
  unfold Graph.Query.accessors
  rw [h1, h2]

theorem accessors_same (net : Net) (W : Multi) (x b : Nat) :
    (accessors net W b).map (fun a => (a.1, a.2 x)) =
      (Flow.accessors net (W.of x) b).map (fun a => (a.1, a.2 0)) := by
  unfold accessors Flow.accessors
  rw [List.map_filterMap, List.map_filterMap]
  congr 1
  funext e
  cases e.2 <;> first | rfl | skip
  rename_i l bs t
  simp only
  by_cases h : bs.contains b = true
  · rw [if_pos h, if_pos h]; rfl
  · rw [if_neg h, if_neg h]; rfl

theorem contains_count (l : List Nat) (x : Nat) : l.contains x = decide (0 < l.count x) := by
  rw [Bool.eq_iff_iff]
  simp [List.count_pos_iff]

theorem join_query (s1 s2 : Nat) (bs : List (Nat × Bool)) (f : Nat → Nat → Nat) (g : Nat → Nat)
    (h : ∀ b, f b s1 = g b) :
    Graph.Query.join s1 (bs.map fun b => (b.1, fun y => f b.1 y)) =
      Graph.Query.join s2 (bs.map fun b => (b.1, fun _ => g b.1)) := by
  induction bs with
  | nil => rfl
  | cons b bs ih =>
    simp only [List.map_cons, Graph.Query.join]
    rw [ih]
    simp only [h]

theorem look_query (net : Net) (W : Multi) (x n : Nat) (k : Kind) :
    (look net W n k).query x = (Flow.look net (W.of x) n k).query 0 := by
  cases k with
  | buffer cap =>
    have hacc : ∀ rest, Graph.Query.accessors x (accessors net W n) rest =
        Graph.Query.accessors 0 (Flow.accessors net (W.of x) n) rest := fun rest =>
      accessors_query rest (accessors_same net W x n)
    simp only [look, Flow.look, Graph.Op.query, hacc, contains_count]
    rfl
  | join bs t =>
    simp only [look, Flow.look, Graph.Op.query]
    exact join_query x 0 bs (fun b y => W.held b y) _ (fun _ => rfl)
  | _ =>
    simp only [look, Flow.look, Graph.Op.query, contains_count]
    try rfl

theorem checkUpstream_same (net : Net) (W : Multi) (x : Nat) (fuel : Nat) :
    ∀ v n, Graph.checkUpstream (world net W) x fuel v n =
      Graph.checkUpstream (Flow.world net (W.of x)) 0 fuel v n := by
  have hl : ∀ n, (world net W).lookup n =
      (net.ops.lookup n).map (fun k => look net W n k) := by
    intro n
    unfold world
    induction net.ops with
    | nil => rfl
    | cons e es ih =>
      obtain ⟨m, k⟩ := e
      simp only [List.map_cons, List.lookup]
      by_cases h : n = m
      · subst h; simp
      · have : (n == m) = false := by simpa using h
        simp [this, ih]
  induction fuel with
  | zero => intros; rfl
  | succ fuel ih =>
    intro v n
    have hf : Graph.checkUpstream (world net W) x fuel =
        Graph.checkUpstream (Flow.world net (W.of x)) 0 fuel := by
      funext v n; exact ih v n
    simp only [Graph.checkUpstream]
    rw [hl, Flow.world_lookup]
    cases v.lookup n with
    | some b => rfl
    | none =>
      cases net.ops.lookup n with
      | none => rfl
      | some k =>
        simp only [Option.map_some]
        rw [hf, look_query]

theorem check_same (net : Net) (W : Multi) (x n : Nat) :
    Graph.checkReachability (world net W) x n =
      Graph.checkReachability (Flow.world net (W.of x)) 0 n := by
  unfold Graph.checkReachability
  rw [checkUpstream_same]
  simp [world, Flow.world]

theorem Sim.validate {net : Net} (x : Nat) (W : Multi) :
    Sim x W (validate net W x).1 (Flow.validate net (W.of x)) := by
  unfold Many.validate Flow.validate
  rw [check_same]
  rcases h : Graph.checkReachability (Flow.world net (W.of x)) 0 net.terminal with b | _ | _
  · cases b
    · exact Sim.finish x W .cancelled
    · exact Sim.rfl' x W
  · exact Sim.fail x W
  · exact Sim.fail x W

end Verif.Many
