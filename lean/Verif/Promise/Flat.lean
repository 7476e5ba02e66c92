import Verif.Promise.Lemmas

/-
The states a nested promise goes through while it is flattened.
-/
set_option linter.unusedSimpArgs false
namespace Verif.Promise

variable {T E : Type}

def notTake : WOp T E → Bool
  | .innerTake => false
  | _ => true

/-- `flatten` was not called yet. -/
structure Before (w : World T E) (a : AbsW T E) : Prop where
  fl : a.flattened = false
  wfl : w.flattened = false
  flat : w.flat = .new
  oh : w.outerHook = false
  ih : w.innerHook = false
  tk : a.taken = false
  op : w.outer.promise = true
  os : Shows w.outer a.outer false
  ip : w.inner.promise = true
  is : Shows w.inner a.inner false
  place : (a.outer = some (.available ()) ∧ w.place = .outer) ∨
    (a.outer ≠ some (.available ()) ∧ w.place = .user)

/-- Flattened, the outer result is missing. -/
structure WaitOuter (w : World T E) (a : AbsW T E) : Prop where
  fl : a.flattened = true
  wfl : w.flattened = true
  o : a.outer = none
  oh : w.outerHook = true
  ih : w.innerHook = false
  op : w.outer.promise = true
  ost : w.outer.state = .pending
  ip : w.inner.promise = true
  is : Shows w.inner a.inner false
  place : w.place = .user
  fst : w.flat.state = .pending
  fres : w.flat.result = none
  fs : w.flat.sender = true
  tk : a.taken = false

/-- Flattened, the outer promise succeeded, the inner result is missing. -/
structure WaitInner (w : World T E) (a : AbsW T E) : Prop where
  fl : a.flattened = true
  wfl : w.flattened = true
  o : a.outer = some (.available ())
  i : a.inner = none
  oh : w.outerHook = false
  ih : w.innerHook = true
  ip : w.inner.promise = true
  ist : w.inner.state = .pending
  place : w.place = .flat
  fst : w.flat.state = .pending
  fres : w.flat.result = none
  fs : w.flat.sender = true
  tk : a.taken = false

/-- Flattened and resolved. -/
structure Settled (w : World T E) (a : AbsW T E) : Prop where
  fl : a.flattened = true
  wfl : w.flattened = true
  o : a.outer ≠ none
  oh : w.outerHook = false
  ih : w.innerHook = false
  res : ∃ r, outcome a.outer a.inner = some r ∧ Shows w.flat (some r) a.taken

def Phase (w : World T E) (a : AbsW T E) : Prop :=
  Before w a ∨ WaitOuter w a ∨ WaitInner w a ∨ Settled w a

structure RelW (w : World T E) (a : AbsW T E) : Prop where
  live : a.dropped = false
  fp : w.flat.promise = true
  os : w.outer.sender = a.outer.isNone
  is : w.inner.sender = a.inner.isNone
  phase : Phase w a

theorem relW_new : RelW (World.new : World T E) {} :=
  ⟨rfl, rfl, rfl, rfl, .inl ⟨rfl, rfl, rfl, rfl, rfl, rfl, rfl, .inl ⟨rfl, rfl, rfl⟩, rfl,
    .inl ⟨rfl, rfl, rfl⟩, .inr ⟨by simp, rfl⟩⟩⟩

theorem shows_onDrop {c : Cell T E} {o t} (h : Shows c o t) : Shows c.onPromiseDrop o t := by
  unfold Cell.onPromiseDrop
  split <;> exact h

theorem onDrop_fields (c : Cell T E) : c.onPromiseDrop.promise = c.promise ∧
    c.onPromiseDrop.sender = c.sender ∧ c.onPromiseDrop.state = c.state := by
  unfold Cell.onPromiseDrop
  split <;> simp

theorem update_fields (c : Cell T E) : c.update.promise = c.promise ∧
    c.update.sender = c.sender ∧ c.update.onDrop = c.onDrop ∧ c.update.fired = c.fired := by
  unfold Cell.update
  split <;> simp

theorem shows_cases {c : Cell T E} {o} (h : Shows c o false) :
    c.update.state = view o false := (shows_update h).2.1

theorem finish_new_none (s : State T E) (_hs : s.isPending = false) :
    ({ (Cell.new : Cell T E) with state := s }.finish none).state = s ∧
    ({ (Cell.new : Cell T E) with state := s }.finish none).promise = true := by
  simp [Cell.finish, Cell.new, Cell.set]

theorem drop_fields (c : Cell T E) : c.dropPromise.sender = c.sender ∧
    c.dropPromise.promise = false ∧ c.dropPromise.state = c.state := by
  unfold Cell.dropPromise
  simp only
  split <;> simp

theorem relW_step {w : World T E} {a : AbsW T E} (h : RelW w a) (o : WOp T E)
    (hno : notTake o = true) :
    ((a.step o).1.dropped = false → RelW (w.step o).1 (a.step o).1) ∧
      (w.step o).2 = (a.step o).2 := by
  obtain ⟨live, fp, os, is, phase⟩ := h
  cases o with
  | innerTake => simp [notTake] at hno
  | flatDrop =>
    refine ⟨fun hd => ?_, rfl⟩
    simp only [AbsW.step, live, Bool.false_or] at hd
    simp only [World.step, World.dropFlat, AbsW.step, hd, live, Bool.or_self]
    have hf : w.flattened = false := by
      rcases phase with p | p | p | p
      · exact p.wfl
      all_goals (have := p.fl; rw [hd] at this; cases this)
    simp only [hf, Bool.false_and, Bool.false_eq_true, if_false]
    obtain ⟨ao, ai, af, at', ad⟩ := a
    simp only at hd live; subst hd live
    exact ⟨rfl, fp, os, is, phase⟩
  | flatPeek =>
    have hfl : w.flattened = a.flattened := by
      rcases phase with p | p | p | p <;> rw [p.fl, p.wfl]
    simp only [World.step, AbsW.step, hfl, fp, live, Bool.and_true, Bool.not_false]
    rcases phase with p | p | p | p
    · simp only [p.fl, Bool.false_eq_true, if_false]
      exact ⟨fun _ => ⟨live, fp, os, is, .inl p⟩, trivial⟩
    · have hs : Shows w.flat (outcome a.outer a.inner) a.taken :=
        .inl ⟨p.fst, by rw [p.fres, p.o]; rfl, p.tk⟩
      obtain ⟨k1, k2, k3, k4, -⟩ := shows_update hs
      simp only [p.fl, if_true, k2]
      refine ⟨fun _ => ⟨live, by rw [k3, fp], os, is, .inr (.inl ?_)⟩, trivial⟩
      exact { p with
        wfl := rfl
        fst := by simp only [k2, p.o]; rfl
        fres := by simp [Cell.update, p.fst, State.isPending]
        fs := by simp only [k4, p.fs] }
    · have hs : Shows w.flat (outcome a.outer a.inner) a.taken :=
        .inl ⟨p.fst, by rw [p.fres, p.o, p.i]; rfl, p.tk⟩
      obtain ⟨k1, k2, k3, k4, -⟩ := shows_update hs
      simp only [p.fl, if_true, k2]
      refine ⟨fun _ => ⟨live, by rw [k3, fp], os, is, .inr (.inr (.inl ?_))⟩, trivial⟩
      exact { p with
        wfl := rfl
        fst := by simp only [k2, p.o, p.i]; rfl
        fres := by simp [Cell.update, p.fst, State.isPending]
        fs := by simp only [k4, p.fs] }
    · obtain ⟨r, hr, hs⟩ := p.res
      obtain ⟨k1, k2, k3, k4, -⟩ := shows_update hs
      simp only [p.fl, if_true, k2, hr]
      refine ⟨fun _ => ⟨live, by rw [k3, fp], os, is, .inr (.inr (.inr ?_))⟩, trivial⟩
      exact { p with wfl := rfl, res := ⟨r, hr, k1⟩ }
  | flatTake =>
    have hfl : w.flattened = a.flattened := by
      rcases phase with p | p | p | p <;> rw [p.fl, p.wfl]
    simp only [World.step, AbsW.step, hfl, fp, live, Bool.and_true, Bool.not_false]
    rcases phase with p | p | p | p
    · simp only [p.fl, Bool.false_eq_true, if_false]
      exact ⟨fun _ => ⟨live, fp, os, is, .inl p⟩, trivial⟩
    · have hs : Shows w.flat none a.taken := .inl ⟨p.fst, p.fres, p.tk⟩
      obtain ⟨k1, k2, k3, k4, -⟩ := shows_take hs
      have hoc : outcome a.outer a.inner = none := by rw [p.o]; rfl
      simp only [p.fl, if_true, k2, hoc, Option.isSome_none, Bool.or_false, p.tk]
      refine ⟨fun _ => ⟨rfl, by rw [k3, fp], os, is, .inr (.inl ?_)⟩, trivial⟩
      exact { p with
        wfl := rfl
        fst := by simp [Cell.take, Cell.update, p.fst, p.fres, State.isPending, State.update, State.take]
        fres := by simp [Cell.take, Cell.update, p.fst, State.isPending]
        fs := by simp only [k4, p.fs] 
        fl := rfl
        tk := rfl }
    · have hs : Shows w.flat none a.taken := .inl ⟨p.fst, p.fres, p.tk⟩
      obtain ⟨k1, k2, k3, k4, -⟩ := shows_take hs
      have hoc : outcome a.outer a.inner = none := by rw [p.o, p.i]; rfl
      simp only [p.fl, if_true, k2, hoc, Option.isSome_none, Bool.or_false, p.tk]
      refine ⟨fun _ => ⟨rfl, by rw [k3, fp], os, is, .inr (.inr (.inl ?_))⟩, trivial⟩
      exact { p with
        wfl := rfl
        fst := by simp [Cell.take, Cell.update, p.fst, p.fres, State.isPending, State.update, State.take]
        fres := by simp [Cell.take, Cell.update, p.fst, State.isPending]
        fs := by simp only [k4, p.fs]
        fl := rfl
        tk := rfl }
    · obtain ⟨r, hr, hs⟩ := p.res
      obtain ⟨k1, k2, k3, k4, -⟩ := shows_take hs
      simp only [p.fl, if_true, k2, hr]
      refine ⟨fun _ => ⟨rfl, by rw [k3, fp], os, is, .inr (.inr (.inr ?_))⟩, trivial⟩
      exact { p with wfl := rfl, res := ⟨r, hr, k1⟩, fl := rfl }
  | outerOnDrop =>
    refine ⟨fun _ => ?_, rfl⟩
    simp only [World.step, AbsW.step]
    split
    · obtain ⟨k1, k2, k3⟩ := onDrop_fields w.outer
      refine ⟨live, fp, by rw [← os]; exact k2, is, ?_⟩
      rcases phase with p | p | p | p
      · exact .inl { p with op := by rw [← p.op]; exact k1, os := shows_onDrop p.os }
      · exact .inr (.inl { p with op := by rw [← p.op]; exact k1, ost := by rw [← p.ost]; exact k3 })
      · exact .inr (.inr (.inl { p with }))
      · exact .inr (.inr (.inr { p with }))
    · exact ⟨live, fp, os, is, phase⟩
  | innerOnDrop =>
    refine ⟨fun _ => ?_, rfl⟩
    simp only [World.step, AbsW.step]
    split
    · obtain ⟨k1, k2, k3⟩ := onDrop_fields w.inner
      refine ⟨live, fp, os, by rw [← is]; exact k2, ?_⟩
      rcases phase with p | p | p | p
      · exact .inl { p with ip := by rw [← p.ip]; exact k1, is := shows_onDrop p.is }
      · exact .inr (.inl { p with ip := by rw [← p.ip]; exact k1, is := shows_onDrop p.is })
      · exact .inr (.inr (.inl { p with ip := by rw [← p.ip]; exact k1, ist := by rw [← p.ist]; exact k3 }))
      · exact .inr (.inr (.inr { p with }))
    · exact ⟨live, fp, os, is, phase⟩
  | outerPeek =>
    refine ⟨fun _ => ?_, rfl⟩
    simp only [World.step, AbsW.step]
    rcases phase with p | p | p | p
    · simp only [p.wfl, p.op, Bool.not_false, Bool.and_true, if_true]
      obtain ⟨k1, k2, k3, k4, -⟩ := shows_update p.os
      exact ⟨live, fp, by simp only [k4, os], is, .inl { p with wfl := rfl, op := by simp only [k3, p.op], os := k1 }⟩
    · simp only [p.wfl, Bool.not_true, Bool.false_and, Bool.false_eq_true, if_false]
      exact ⟨live, fp, os, is, .inr (.inl p)⟩
    · simp only [p.wfl, Bool.not_true, Bool.false_and, Bool.false_eq_true, if_false]
      exact ⟨live, fp, os, is, .inr (.inr (.inl p))⟩
    · simp only [p.wfl, Bool.not_true, Bool.false_and, Bool.false_eq_true, if_false]
      exact ⟨live, fp, os, is, .inr (.inr (.inr p))⟩
  | innerPeek =>
    refine ⟨fun _ => ?_, rfl⟩
    simp only [World.step, AbsW.step]
    split
    · obtain ⟨k1, k2, -⟩ := update_fields w.inner
      refine ⟨live, fp, os, by rw [← is]; exact k2, ?_⟩
      rcases phase with p | p | p | p
      · exact .inl { p with ip := by rw [← p.ip]; exact k1, is := (shows_update p.is).1 }
      · exact .inr (.inl { p with ip := by rw [← p.ip]; exact k1, is := (shows_update p.is).1 })
      · rename_i hp; rw [p.place] at hp; cases hp
      · exact .inr (.inr (.inr { p with }))
    · exact ⟨live, fp, os, is, phase⟩
  | innerFinish r =>
    refine ⟨fun _ => ?_, rfl⟩
    simp only [World.step, AbsW.step, World.innerFinish]
    cases hi : a.inner with
    | some v =>
      rw [is, hi]
      simp only [Option.isNone_some, Bool.false_eq_true, if_false, Option.some_or]
      obtain ⟨ao, ai, af, at', ad⟩ := a
      simp only at hi; subst hi
      exact ⟨live, fp, os, is, phase⟩
    | none =>
      have his : w.inner.sender = true := by rw [is, hi]; rfl
      simp only [his, if_true, Option.none_or]
      rcases phase with p | p | p | p
      · simp only [p.ih, Bool.false_and, Bool.false_eq_true, if_false]
        have hsh := p.is
        rw [hi] at hsh
        obtain ⟨k1, k2, k3, -⟩ := shows_finish hsh p.ip his r
        exact ⟨live, fp, os, by simpa using k3, .inl { p with ih := by simp [p.ih], ip := k2, is := k1 }⟩
      · simp only [p.ih, Bool.false_and, Bool.false_eq_true, if_false]
        have hsh := p.is
        rw [hi] at hsh
        obtain ⟨k1, k2, k3, -⟩ := shows_finish hsh p.ip his r
        exact ⟨live, fp, os, by simpa using k3, .inr (.inl { p with ih := by simp [p.ih], ip := k2, is := k1 })⟩
      · simp only [p.ih, p.ip, Bool.and_self, if_true]
        obtain ⟨k1, k2, k3, -⟩ := shows_finish (c := w.flat) (t := a.taken)
          (.inl ⟨p.fst, p.fres, p.tk⟩) fp p.fs (some (r.getD .disposed))
        refine ⟨live, k2, os, by simp, .inr (.inr (.inr ?_))⟩
        exact ⟨p.fl, p.wfl, by simp [p.o], p.oh, rfl, ⟨r.getD .disposed, by simp [p.o, outcome], k1⟩⟩
      · simp only [p.ih, Bool.false_and, Bool.false_eq_true, if_false]
        refine ⟨live, fp, os, by simp [finish_sender], .inr (.inr (.inr ?_))⟩
        obtain ⟨v, hv, hs⟩ := p.res
        refine ⟨p.fl, p.wfl, p.o, p.oh, rfl, ⟨v, ?_, hs⟩⟩
        rw [hi] at hv
        simp only
        cases ho : a.outer with
        | none => exact absurd ho p.o
        | some o => cases o with
          | available u => rw [ho] at hv; simp [outcome] at hv
          | cancelled c => rw [ho] at hv; exact hv
          | disposed => rw [ho] at hv; exact hv
  | outerFinish r =>
    refine ⟨fun _ => ?_, rfl⟩
    simp only [World.step, AbsW.step, World.outerFinish]
    cases ho : a.outer with
    | some v =>
      rw [os, ho]
      simp only [Option.isNone_some, Bool.false_eq_true, if_false, Option.some_or]
      obtain ⟨ao, ai, af, at', ad⟩ := a
      simp only at ho; subst ho
      exact ⟨live, fp, os, is, phase⟩
    | none =>
      have hos : w.outer.sender = true := by rw [os, ho]; rfl
      simp only [hos, if_true, Option.none_or]
      rcases phase with p | p | p | p
      · have hpl : w.place = .user := by
          rcases p.place with ⟨h, -⟩ | ⟨-, h⟩
          · rw [ho] at h; cases h
          · exact h
        simp only [hpl, decide_true, Bool.not_true, Bool.and_false, Bool.false_eq_true, if_false,
          p.op, if_true, p.oh]
        have hsh := p.os
        rw [ho] at hsh
        obtain ⟨k1, k2, k3, -⟩ := shows_finish hsh p.op hos r
        refine ⟨live, fp, by simpa using k3, is, .inl ?_⟩
        refine { p with oh := by simp [p.oh], op := k2, os := k1, place := ?_ }
        match r with
        | some (.available ()) => exact .inl ⟨rfl, rfl⟩
        | some (.cancelled c) => exact .inr ⟨by simp, rfl⟩
        | some .disposed => exact .inr ⟨by simp, rfl⟩
        | none => exact .inr ⟨by simp, rfl⟩
      · simp only [p.place, decide_true, Bool.not_true, Bool.and_false, Bool.false_eq_true, if_false,
          p.op, if_true, p.oh]
        have hflat : Shows w.flat none a.taken := .inl ⟨p.fst, p.fres, p.tk⟩
        have settle : ∀ (w' : World T E) (ro : Result Unit E) (rr : Option (Result T E)),
            outcome (some ro) a.inner = some (rr.getD .disposed) →
            w'.flat = w.flat.finish rr → w'.flattened = true → w'.outerHook = false →
            w'.innerHook = false → w'.outer.sender = false → w'.inner.sender = a.inner.isNone →
            RelW w' { a with outer := some ro } := by
          intro w' ro rr h1 h2 h3 h4 h5 h6 h7
          obtain ⟨k1, k2, -⟩ := shows_finish hflat fp p.fs rr
          exact ⟨live, by rw [h2]; exact k2, by simpa using h6, h7, .inr (.inr (.inr
            ⟨p.fl, h3, by simp, h4, h5, ⟨_, h1, by rw [h2]; exact k1⟩⟩))⟩
        match r with
        | some (.available ()) =>
          simp only [Option.getD_some, outerArrival]
          obtain ⟨j1, j2, j3, j4, -⟩ := shows_update p.is
          obtain hi | ⟨v, hi⟩ : a.inner = none ∨ ∃ v, a.inner = some v := by
            cases a.inner <;> simp
          · have : w.inner.update.state.forward = none := by rw [j2, hi]; rfl
            simp only [this]
            refine ⟨live, fp, rfl, by simp only [j4, is], .inr (.inr (.inl ?_))⟩
            exact ⟨p.fl, p.wfl, rfl, hi, rfl, rfl, by simp only [j3, p.ip],
              by simp only [j2, hi]; rfl, rfl, p.fst, p.fres, p.fs, p.tk⟩
          · cases v with
            | available x =>
              have : w.inner.update.state.forward = some (some (.available x)) := by rw [j2, hi]; rfl
              simp only [this]
              exact settle _ (.available ()) (some (.available x)) (by simp [outcome, hi]) rfl
                p.wfl rfl p.ih rfl (by simp only [j4, is])
            | cancelled c =>
              have : w.inner.update.state.forward = some (some (.cancelled c)) := by rw [j2, hi]; rfl
              simp only [this]
              exact settle _ (.available ()) (some (.cancelled c)) (by simp [outcome, hi]) rfl
                p.wfl rfl p.ih rfl (by simp only [j4, is])
            | disposed =>
              have : w.inner.update.state.forward = some none := by rw [j2, hi]; rfl
              simp only [this]
              exact settle _ (.available ()) none (by simp [outcome, hi]) rfl
                p.wfl rfl p.ih rfl (by simp only [j4, is])
        | some (.cancelled c) =>
          exact settle _ (.cancelled c) (some (.cancelled c)) rfl rfl p.wfl rfl p.ih rfl is
        | some .disposed => exact settle _ .disposed none rfl rfl p.wfl rfl p.ih rfl is
        | none => exact settle _ .disposed none rfl rfl p.wfl rfl p.ih rfl is
      · have := p.o; rw [ho] at this; cases this
      · exact absurd ho p.o
  | flatten =>
    refine ⟨fun _ => ?_, rfl⟩
    simp only [World.step, AbsW.step, World.flatten]
    rcases phase with p | p | p | p
    · simp only [p.wfl, p.op, Bool.not_true, Bool.or_self, Bool.false_eq_true, if_false]
      obtain ⟨j1, j2, j3, j4, -⟩ := shows_update p.os
      have settle : ∀ (w' : World T E) (rr : Result T E),
          outcome a.outer a.inner = some rr → a.outer ≠ none →
          w'.flat = { w.flat with state := view (some rr) false }.finish none →
          w'.flattened = true → w'.outerHook = false →
          w'.innerHook = false → w'.outer.sender = w.outer.sender → w'.inner.sender = w.inner.sender →
          RelW w' { a with flattened := true } := by
        intro w' rr h1 h0 h2 h3 h4 h5 h6 h7
        have hf := finish_new_none (view (some rr) false) (view_not_pending rr false)
        rw [p.flat] at h2
        refine ⟨live, by rw [h2]; exact hf.2, by rw [h6]; exact os, by rw [h7]; exact is,
          .inr (.inr (.inr ⟨rfl, h3, h0, h4, h5, ⟨rr, h1, ?_⟩⟩))⟩
        rw [h2]
        exact .inr ⟨rr, rfl, by rw [hf.1, p.tk]⟩
      obtain ho | ⟨v, ho⟩ : a.outer = none ∨ ∃ v, a.outer = some v := by
        cases a.outer <;> simp
      · simp only [j2, ho, view]
        have hpl : w.place = .user := by
          rcases p.place with ⟨h, -⟩ | ⟨-, h⟩
          · rw [ho] at h; cases h
          · exact h
        refine ⟨live, fp, by simp only [j4, os, ho], is, .inr (.inl ?_)⟩
        exact ⟨rfl, rfl, rfl, rfl, p.ih, by simp only [j3, p.op], rfl, p.ip, p.is, hpl,
          by simp [p.flat, Cell.new], by simp [p.flat, Cell.new], by simp [p.flat, Cell.new], p.tk⟩
      · rw [j2, ho]
        cases v with
        | available u =>
          simp only [view, Bool.false_eq_true, if_false]
          obtain ⟨i1, i2, i3, i4, -⟩ := shows_update p.is
          obtain hi | ⟨r, hi⟩ : a.inner = none ∨ ∃ v, a.inner = some v := by
            cases a.inner <;> simp
          · simp only [i2, hi, view, State.isPending, if_true]
            refine ⟨live, fp, ?_, by simp only [i4, is, hi], .inr (.inr (.inl ?_))⟩
            · simp only [(drop_fields _).1, j4, os, ho]
            · exact ⟨rfl, rfl, rfl, rfl, p.oh, rfl, by simp only [i3, p.ip], by simp only [i2, hi]; rfl, rfl,
                rfl, by simp [p.flat, Cell.new], by simp [p.flat, Cell.new], p.tk⟩
          · simp only [i2, hi, view_not_pending, Bool.false_eq_true, if_false]
            rw [ho, hi] at settle
            refine settle _ r rfl (by simp) rfl rfl p.oh p.ih ?_ ?_
            · simp only [(drop_fields _).1, j4]
            · simp only [(drop_fields _).1, i4]
        | cancelled c =>
          simp only [view]
          rw [ho] at settle
          refine settle _ (.cancelled c) rfl (by simp) rfl rfl p.oh p.ih ?_ rfl
          simp only [(drop_fields _).1, j4]
        | disposed =>
          simp only [view]
          rw [ho] at settle
          refine settle _ .disposed rfl (by simp) rfl rfl p.oh p.ih ?_ rfl
          simp only [(drop_fields _).1, j4]
    · simp only [p.wfl, Bool.true_or, if_true]
      exact ⟨live, fp, os, is, .inr (.inl { p with fl := rfl })⟩
    · simp only [p.wfl, Bool.true_or, if_true]
      exact ⟨live, fp, os, is, .inr (.inr (.inl { p with fl := rfl }))⟩
    · simp only [p.wfl, Bool.true_or, if_true]
      exact ⟨live, fp, os, is, .inr (.inr (.inr { p with fl := rfl }))⟩

end Verif.Promise

namespace Verif.Promise

variable {T E : Type}

/-- The registered drop functions, as long as the result that matters is missing. -/
def Hooks (w : World T E) (a : AbsW T E) (ro ri : Bool) : Prop :=
  (a.outer = none → w.outer.onDrop = ro ∧ w.outer.fired = 0) ∧
  (a.inner = none → outcome a.outer a.inner = none → w.inner.onDrop = ri ∧ w.inner.fired = 0)

def isOuterOnDrop : WOp T E → Bool
  | .outerOnDrop => true
  | _ => false

def isInnerOnDrop : WOp T E → Bool
  | .innerOnDrop => true
  | _ => false

theorem finish_hooks (c : Cell T E) (r) : (c.finish r).onDrop = c.onDrop ∧
    (c.finish r).fired = c.fired := by
  unfold Cell.finish
  split
  · by_cases hp : c.promise = true <;> cases r <;> simp [Cell.set, hp]
  · simp

theorem hooks_step {w : World T E} {a : AbsW T E} (h : RelW w a) {ro ri : Bool}
    (hk : Hooks w a ro ri) (o : WOp T E) (hno : notTake o = true) (hnd : o ≠ .flatDrop) :
    Hooks (w.step o).1 (a.step o).1 (ro || isOuterOnDrop o) (ri || isInnerOnDrop o) := by
  obtain ⟨hk1, hk2⟩ := hk
  have hph := h.phase
  cases o with
  | innerTake => simp [notTake] at hno
  | flatDrop => exact absurd rfl hnd
  | flatPeek =>
    simp only [World.step, AbsW.step, isOuterOnDrop, isInnerOnDrop, Bool.or_false]
    split <;> exact ⟨hk1, hk2⟩
  | flatTake =>
    simp only [World.step, AbsW.step, isOuterOnDrop, isInnerOnDrop, Bool.or_false]
    split <;> split <;> exact ⟨hk1, hk2⟩
  | outerPeek =>
    simp only [World.step, AbsW.step, isOuterOnDrop, isInnerOnDrop, Bool.or_false]
    split
    · refine ⟨fun ha => ?_, hk2⟩
      obtain ⟨-, -, k3, k4⟩ := update_fields w.outer
      simp only [k3, k4]; exact hk1 ha
    · exact ⟨hk1, hk2⟩
  | innerPeek =>
    simp only [World.step, AbsW.step, isOuterOnDrop, isInnerOnDrop, Bool.or_false]
    split
    · refine ⟨hk1, fun ha ho => ?_⟩
      obtain ⟨-, -, k3, k4⟩ := update_fields w.inner
      simp only [k3, k4]; exact hk2 ha ho
    · exact ⟨hk1, hk2⟩
  | outerOnDrop =>
    simp only [World.step, AbsW.step, isOuterOnDrop, isInnerOnDrop, Bool.or_false, Bool.or_true]
    refine ⟨fun ha => ?_, fun ha ho => ?_⟩
    · have hs : w.outer.sender = true := by rw [h.os, ha]; rfl
      have hp : w.outer.promise = true := by
        rcases hph with p | p | p | p
        · exact p.op
        · exact p.op
        · rw [p.o] at ha; cases ha
        · exact absurd ha p.o
      simp only [hs, if_true, Cell.onPromiseDrop, hp, true_and]
      exact (hk1 ha).2
    · split <;> exact hk2 ha ho
  | innerOnDrop =>
    simp only [World.step, AbsW.step, isOuterOnDrop, isInnerOnDrop, Bool.or_false, Bool.or_true]
    refine ⟨fun ha => ?_, fun ha ho => ?_⟩
    · split <;> exact hk1 ha
    · have hs : w.inner.sender = true := by rw [h.is, ha]; rfl
      have hp : w.inner.promise = true := by
        rcases hph with p | p | p | p
        · exact p.ip
        · exact p.ip
        · exact p.ip
        · obtain ⟨r, hr, -⟩ := p.res
          rw [ho] at hr; cases hr
      simp only [hs, if_true, Cell.onPromiseDrop, hp, true_and]
      exact (hk2 ha ho).2
  | innerFinish r =>
    simp only [World.step, AbsW.step, isOuterOnDrop, isInnerOnDrop, Bool.or_false]
    refine ⟨fun ha => ?_, fun ha => ?_⟩
    · simp only [World.innerFinish]
      split
      · split <;> exact hk1 ha
      · exact hk1 ha
    · exfalso
      revert ha
      simp only
      cases a.inner <;> simp
  | outerFinish r =>
    simp only [World.step, AbsW.step, isOuterOnDrop, isInnerOnDrop, Bool.or_false]
    refine ⟨fun ha => ?_, fun ha ho => ?_⟩
    · exfalso
      revert ha
      simp only
      cases a.outer <;> simp
    · simp only at ha ho
      simp only [World.outerFinish]
      split
      · rename_i hs
        rw [h.os, Option.isNone_iff_eq_none] at hs
        have hold := hk2 ha (by rw [hs]; rfl)
        have hp : w.outer.promise = true := by
          rcases hph with p | p | p | p
          · exact p.op
          · exact p.op
          · have := p.o; rw [hs] at this; cases this
          · exact absurd hs p.o
        rw [hs] at ho
        simp only [hp, if_true]
        split
        · simp only [Option.none_or] at ho
          match r with
          | some (.available ()) =>
            obtain ⟨-, -, k3, k4⟩ := update_fields w.inner
            split
            · simp only [Option.getD_none, outerArrival]; exact hold
            · simp only [Option.getD_some, outerArrival]
              split <;> (simp only [k3, k4]; exact hold)
          | some (.cancelled c) => simp [outcome] at ho
          | some .disposed => simp [outcome] at ho
          | none => simp [outcome] at ho
        · exact hold
      · rename_i hs
        rw [h.os, Option.isNone_iff_eq_none] at hs
        refine hk2 ha ?_
        cases hv : a.outer with
        | none => exact absurd hv hs
        | some v => rw [hv] at ho; exact ho
  | flatten =>
    simp only [World.step, AbsW.step, isOuterOnDrop, isInnerOnDrop, Bool.or_false]
    simp only [World.flatten]
    split
    · exact ⟨hk1, hk2⟩
    · rename_i hc
      obtain ⟨-, -, k3, k4⟩ := update_fields w.outer
      obtain ⟨-, -, l3, l4⟩ := update_fields w.inner
      have hb : Before w a := by
        rcases hph with p | p | p | p
        · exact p
        all_goals (rw [p.wfl] at hc; simp at hc)
      refine ⟨fun ha => ?_, fun ha ho => ?_⟩
      · have : w.outer.update.state = .pending := by
          rw [shows_cases hb.os]; simp only at ha; rw [ha]; rfl
        simp only [this, k3, k4]
        exact hk1 ha
      · have hold := hk2 ha ho
        simp only at ha ho
        split
        · have : w.inner.update.state = .pending := by
            rw [shows_cases hb.is, ha]; rfl
          simp only [this, State.isPending, if_true, l3, l4]
          exact hold
        all_goals exact hold

end Verif.Promise
