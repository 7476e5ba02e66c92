import Verif.Views.Spec
import Verif.Buffer.Lemmas

/- Helper lemmas about the accesses to a buffer. -/
namespace Verif.Views

open Verif.Buffer (Storage Out Op SpecState specStep step)

set_option linter.unusedSectionVars false

variable {S A T : Type} [DecidableEq S]

theorem set_same (b : Storage S T) (s : S) (q : Option (List T)) (h : b.queues s = q) :
    b.set s q = b := by
  cases b with
  | mk r c =>
    simp only [Storage.set, Storage.mk.injEq, true_and]
    funext s'
    split
    · rename_i e; rw [e]; exact h.symm
    · rfl

theorem modify_const {T : Type} (q : List T) (i : Nat) (x : T) (h : q[i]? = some x) (g : T → T) :
    q.modify i (fun _ => g x) = q.modify i g := by
  apply List.ext_getElem?
  intro j
  simp only [List.getElem?_modify]
  by_cases e : i = j
  · subst e; simp [h]
  · simp [e]

theorem getLast?_index {T : Type} (q : List T) : q.getLast? = q[q.length - 1]? := by
  rw [List.getLast?_eq_getElem?]

/-- The mutable borrows of the storage: what they show does not depend on the write. -/
theorem oldestMut_seen (b : Storage S T) (s : S) (g g' : T → T) :
    (b.oldestMut s g).2 = (b.oldestMut s g').2 := by
  simp only [Storage.oldestMut]; split <;> rfl

theorem newestMut_seen (b : Storage S T) (s : S) (g g' : T → T) :
    (b.newestMut s g).2 = (b.newestMut s g').2 := by
  simp only [Storage.newestMut]; split <;> rfl

theorem getMut_seen (b : Storage S T) (s : S) (i : Nat) (g g' : T → T) :
    (b.getMut s i g).2 = (b.getMut s i g').2 := by
  simp only [Storage.getMut]; split
  · rfl
  · split <;> rfl

theorem oldestMut_none (b : Storage S T) (s : S) (g : T → T) (h : (b.oldestMut s id).2 = none) :
    (b.oldestMut s g).1 = b := by
  simp only [Storage.oldestMut] at h ⊢
  split
  · rfl
  · rename_i q hq
    rw [hq] at h
    have : q = [] := by simpa using h
    subst this
    exact set_same _ _ _ hq

theorem newestMut_none (b : Storage S T) (s : S) (g : T → T) (h : (b.newestMut s id).2 = none) :
    (b.newestMut s g).1 = b := by
  simp only [Storage.newestMut] at h ⊢
  split
  · rfl
  · rename_i q hq
    rw [hq] at h
    have : q = [] := by simpa using h
    subst this
    exact set_same _ _ _ hq

theorem getMut_none (b : Storage S T) (s : S) (i : Nat) (g : T → T)
    (h : (b.getMut s i id).2 = none) : (b.getMut s i g).1 = b := by
  simp only [Storage.getMut] at h ⊢
  split
  · rfl
  · rename_i q hq
    rw [hq] at h
    split
    · rfl
    · rename_i hl
      simp only [hl, if_false] at h
      rw [List.getElem?_eq_none_iff] at h
      omega

theorem oldestMut_some (b : Storage S T) (s : S) (g : T → T) (x : T)
    (h : (b.oldestMut s id).2 = some x) :
    (b.oldestMut s fun _ => g x).1 = (b.oldestMut s g).1 := by
  simp only [Storage.oldestMut] at h ⊢
  split
  · rfl
  · rename_i q hq
    rw [hq] at h
    simp only [getLast?_index] at h
    simp only [modify_const q _ x h g]

theorem newestMut_some (b : Storage S T) (s : S) (g : T → T) (x : T)
    (h : (b.newestMut s id).2 = some x) :
    (b.newestMut s fun _ => g x).1 = (b.newestMut s g).1 := by
  simp only [Storage.newestMut] at h ⊢
  split
  · rfl
  · rename_i q hq
    rw [hq] at h
    simp only [List.head?_eq_getElem?] at h
    simp only [modify_const q _ x h g]

theorem getMut_some (b : Storage S T) (s : S) (i : Nat) (g : T → T) (x : T)
    (h : (b.getMut s i id).2 = some x) :
    (b.getMut s i fun _ => g x).1 = (b.getMut s i g).1 := by
  simp only [Storage.getMut] at h ⊢
  split
  · rfl
  · rename_i q hq
    rw [hq] at h
    split
    · rfl
    · rename_i hl
      simp only [hl, if_false] at h
      simp only [modify_const q _ x h g]

section
variable {Ty : Type} [DecidableEq Ty] {V : Ty → Type} {J : Type}

/-- What a call does to the messages, given what it asks. -/
def Obeys {T O : Type} (b : Storage S T) (s : S) (b' : Storage S T) (o : O) (a : Asks T O) : Prop :=
  match a with
  | .nothing o' => b' = b ∧ o = o'
  | .op op r => b' = (step b s op).1 ∧ o = r (step b s op).2

theorem typedCall_obeys (h : Handle S A T) (c : TCall T) :
    Obeys h.storage h.session (typedCall h c).1.storage (typedCall h c).2 (askTyped c) := by
  cases c
  case drain lo hi =>
    simp only [typedCall, askTyped, Obeys, step]
    cases h.storage.drain h.session lo hi <;> exact ⟨rfl, rfl⟩
  all_goals exact ⟨rfl, rfl⟩

theorem downcast_eq (t : Ty) (x : Box V) (h : x.1 = t) : x.downcast t = some (h ▸ x.2) := by
  simp [Box.downcast, h]

theorem downcast_ne (t : Ty) (x : Box V) (h : x.1 ≠ t) : x.downcast t = none := by
  simp [Box.downcast, h]

theorem anyWrite_eq (t : Ty) (w : Σ u, V u → V u) : anyWrite t w = writing t w := by
  obtain ⟨u, f⟩ := w
  funext x
  by_cases e : u = t
  · subst e
    simp only [anyWrite, writing, dite_true]
  · simp only [anyWrite, writing, e, dite_false, id]

theorem anyCall_obeys {t : Ty} (h : Handle S A (V t)) (c : ACall V) :
    Obeys h.storage h.session (anyCall h c).1.storage (anyCall h c).2 (askAny t c) := by
  cases c
  case oldestMut w =>
    simp only [askAny, ← anyWrite_eq]
    exact ⟨rfl, rfl⟩
  case newestMut w =>
    simp only [askAny, ← anyWrite_eq]
    exact ⟨rfl, rfl⟩
  case getMut i w =>
    simp only [askAny, ← anyWrite_eq]
    exact ⟨rfl, rfl⟩
  case drain lo hi =>
    simp only [anyCall, askAny, Obeys, step]
    cases h.storage.drain h.session lo hi <;> exact ⟨rfl, rfl⟩
  case push x =>
    simp only [anyCall, askAny, offer]
    by_cases e : x.1 = t
    · simp only [e, ne_eq, not_true_eq_false, if_false, dite_true, anyPush, downcast_eq t x e]
      exact ⟨rfl, rfl⟩
    · simp only [e, ne_eq, not_false_eq_true, if_true, dite_false]
      exact ⟨rfl, rfl⟩
  case pushAsOldest x =>
    simp only [anyCall, askAny, offer]
    by_cases e : x.1 = t
    · simp only [e, ne_eq, not_true_eq_false, if_false, dite_true, anyPushAsOldest,
        downcast_eq t x e]
      exact ⟨rfl, rfl⟩
    · simp only [e, ne_eq, not_false_eq_true, if_true, dite_false]
      exact ⟨rfl, rfl⟩
  case pushAny x =>
    simp only [anyCall, askAny, offer]
    by_cases e : x.1 = t
    · simp only [e, dite_true, anyPush, downcast_eq t x e]
      exact ⟨rfl, rfl⟩
    · simp only [e, dite_false, anyPush, downcast_ne t x e]
      exact ⟨rfl, rfl⟩
  case pushAnyAsOldest x =>
    simp only [anyCall, askAny, offer]
    by_cases e : x.1 = t
    · simp only [e, dite_true, anyPushAsOldest, downcast_eq t x e]
      exact ⟨rfl, rfl⟩
    · simp only [e, dite_false, anyPushAsOldest, downcast_ne t x e]
      exact ⟨rfl, rfl⟩
  all_goals exact ⟨rfl, rfl⟩

theorem encItem_eq (sd : Serde V J) {t : Ty} (x : Option (V t)) : encItem sd x = shown sd x := by
  cases x with
  | none => rfl
  | some x =>
    simp only [encItem, shown]
    cases sd.enc x <;> rfl

theorem decItem_eq (sd : Serde V J) {t : Ty} (u : Ty) (x : Option (V t)) :
    decItem sd u (encItem sd x) = shownAs sd u x := by
  cases x with
  | none => rfl
  | some x =>
    simp only [encItem, shownAs]
    cases h : sd.enc x with
    | none => rfl
    | some j =>
      simp only [decItem, Option.bind_some]
      cases sd.dec u j <;> rfl

theorem jsonMutUse_eq (sd : Serde V J) {t : Ty} (x : V t) (u : JsonMutUse V J) :
    (jsonMutUse sd x u).1 = jsonWrite sd t u x ∧ (jsonMutUse sd x u).2.2 = jsonSees sd x u := by
  cases u with
  | leave => exact ⟨rfl, rfl⟩
  | serialize => exact ⟨rfl, encItem_eq sd (some x)⟩
  | deserializeInto u => exact ⟨rfl, decItem_eq sd u (some x)⟩
  | replace j =>
    simp only [jsonMutUse, jsonWrite, jsonSees, shown]
    cases sd.dec t j <;> cases sd.enc x <;> exact ⟨rfl, rfl⟩
  | insert j =>
    simp only [jsonMutUse, jsonWrite, jsonSees]
    cases sd.dec t j <;> exact ⟨rfl, rfl⟩
  | modify f =>
    simp only [jsonMutUse, jsonWrite, jsonSees]
    cases sd.enc x with
    | none => exact ⟨rfl, rfl⟩
    | some j =>
      simp only [Option.bind_some]
      split <;> simp [*]

theorem useJsonMut_none (sd : Serde V J) {t : Ty} (h : Handle S A (V t)) (seen : Option (V t))
    (borrow : (V t → V t) → Storage S (V t)) (u : JsonMutUse V J) (e : seen = none) :
    useJsonMut sd h seen borrow u = (h, .item none) := by
  subst e; rfl

theorem useJsonMut_storage (sd : Serde V J) {t : Ty} (h : Handle S A (V t)) (seen : Option (V t))
    (borrow : (V t → V t) → Storage S (V t)) (u : JsonMutUse V J) (x : V t)
    (e : seen = some x) :
    (useJsonMut sd h seen borrow u).1.storage = borrow (fun _ => jsonWrite sd t u x) ∧
    (useJsonMut sd h seen borrow u).2 = jsonSees sd x u := by
  subst e
  have hj := jsonMutUse_eq sd x u
  simp only [useJsonMut, ← hj.1, ← hj.2]
  refine ⟨?_, trivial⟩
  split <;> rfl

theorem jsonIterFrom_eq (sd : Serde V J) {t : Ty} (b : Storage S (V t)) (s : S) (fuel i : Nat)
    (hf : b.count s < fuel + i) :
    jsonIterFrom sd b s fuel i = ((b.iter s).drop i).map sd.enc := by
  induction fuel generalizing i with
  | zero =>
    simp only [jsonIterFrom]
    rw [List.drop_eq_nil_of_le, List.map_nil]
    simp only [Storage.iter, Storage.count] at hf ⊢
    split
    · simp
    · rename_i q hq
      rw [hq] at hf
      simp only at hf
      rw [List.length_reverse]; omega
  | succ fuel ih =>
    have hg : b.get s i = (b.iter s)[i]? := by
      simp only [Storage.get, Storage.iter]
      split
      · simp
      · rename_i q hq
        split
        · symm; rw [List.getElem?_eq_none_iff]; simpa
        · rw [List.getElem?_reverse (by omega)]
          congr 1; omega
    simp only [jsonIterFrom, hg]
    cases hx : (b.iter s)[i]? with
    | none =>
      rw [List.getElem?_eq_none_iff] at hx
      rw [List.drop_eq_nil_of_le hx]; rfl
    | some x =>
      obtain ⟨hl, hx'⟩ := List.getElem?_eq_some_iff.mp hx
      rw [List.drop_eq_getElem_cons hl, List.map_cons, hx']
      simp only [List.cons.injEq, true_and]
      exact ih (i + 1) (by omega)

theorem jsonPush_obeys (sd : Serde V J) {t : Ty} (b : Storage S (V t)) (s : S) (j : J) :
    Obeys b s (jsonPush sd b s j).1 (jsonPush sd b s j).2 (offerJson sd t (some j) .push) := by
  simp only [jsonPush, offerJson, Option.bind_some]
  cases sd.dec t j with
  | none => exact ⟨rfl, rfl⟩
  | some v => exact ⟨rfl, encItem_eq sd _⟩

theorem jsonCall_obeys (sd : Serde V J) {t : Ty} (h : Handle S A (V t)) (c : JCall V J)
    (hc : Call.isJsonAsOldest (.json c : Call V J t) = false) :
    Obeys h.storage h.session (jsonCall sd h c).1.storage (jsonCall sd h c).2
      (askJson sd t c) := by
  cases c
  case iter =>
    refine ⟨rfl, ?_⟩
    simp only [jsonCall, step, asJson]
    rw [jsonIterFrom_eq _ _ _ _ _ (by omega), List.drop_zero]
  case oldest => exact ⟨rfl, encItem_eq sd _⟩
  case newest => exact ⟨rfl, encItem_eq sd _⟩
  case get i => exact ⟨rfl, encItem_eq sd _⟩
  case pull => exact ⟨rfl, encItem_eq sd _⟩
  case pullNewest => exact ⟨rfl, encItem_eq sd _⟩
  case pullAs u => exact ⟨rfl, decItem_eq sd u _⟩
  case pullNewestAs u => exact ⟨rfl, decItem_eq sd u _⟩
  case drain lo hi =>
    simp only [jsonCall, askJson, Obeys, step]
    cases h.storage.drain h.session lo hi <;> exact ⟨rfl, rfl⟩
  case oldestMut u =>
    simp only [jsonCall, askJson, Obeys, step]
    cases e : (h.storage.oldestMut h.session id).2 with
    | none =>
      rw [useJsonMut_none _ _ _ _ _ rfl, oldestMut_none _ _ _ e, oldestMut_seen _ _ _ id, e]
      exact ⟨rfl, rfl⟩
    | some x =>
      have hu := useJsonMut_storage sd h _ (fun g => (h.storage.oldestMut h.session g).1) u x rfl
      refine ⟨hu.1.trans (oldestMut_some _ _ (jsonWrite sd t u) x e), ?_⟩
      rw [hu.2, oldestMut_seen _ _ _ id, e]; rfl
  case newestMut u =>
    simp only [jsonCall, askJson, Obeys, step]
    cases e : (h.storage.newestMut h.session id).2 with
    | none =>
      rw [useJsonMut_none _ _ _ _ _ rfl, newestMut_none _ _ _ e, newestMut_seen _ _ _ id, e]
      exact ⟨rfl, rfl⟩
    | some x =>
      have hu := useJsonMut_storage sd h _ (fun g => (h.storage.newestMut h.session g).1) u x rfl
      refine ⟨hu.1.trans (newestMut_some _ _ (jsonWrite sd t u) x e), ?_⟩
      rw [hu.2, newestMut_seen _ _ _ id, e]; rfl
  case getMut i u =>
    simp only [jsonCall, askJson, Obeys, step]
    cases e : (h.storage.getMut h.session i id).2 with
    | none =>
      rw [useJsonMut_none _ _ _ _ _ rfl, getMut_none _ _ _ _ e, getMut_seen _ _ _ _ id, e]
      exact ⟨rfl, rfl⟩
    | some x =>
      have hu := useJsonMut_storage sd h _ (fun g => (h.storage.getMut h.session i g).1) u x rfl
      refine ⟨hu.1.trans (getMut_some _ _ _ (jsonWrite sd t u) x e), ?_⟩
      rw [hu.2, getMut_seen _ _ _ _ id, e]; rfl
  case push x =>
    simp only [jsonCall, askJson]
    cases sd.enc x.2 with
    | none => exact ⟨rfl, rfl⟩
    | some j => exact jsonPush_obeys sd h.storage h.session j
  case pushJson j => exact jsonPush_obeys sd h.storage h.session j
  case pushAsOldest x => cases hc
  case pushJsonAsOldest j => cases hc
  all_goals exact ⟨rfl, rfl⟩

theorem Obeys.via {T O O' : Type} {b b' : Storage S T} {s : S} {o : O} {a : Asks T O} (f : O → O')
    (h : Obeys b s b' o a) : Obeys b s b' (f o) (a.via f) := by
  cases a with
  | nothing o' => exact ⟨h.1, congrArg f h.2⟩
  | op op r => exact ⟨h.1, congrArg f h.2⟩

theorem call_obeys (sd : Serde V J) {t : Ty} (h : Handle S A (V t)) (c : Call V J t)
    (hc : c.isJsonAsOldest = false) :
    Obeys h.storage h.session (call sd h c).1.storage (call sd h c).2 (ask sd c) := by
  cases c with
  | typed c => exact (typedCall_obeys h c).via _
  | any c => exact (anyCall_obeys h c).via _
  | json c => exact (jsonCall_obeys sd h c hc).via _

/-- The session of a handle does not change. -/
theorem call_session (sd : Serde V J) {t : Ty} (h : Handle S A (V t)) (c : Call V J t) :
    (call sd h c).1.session = h.session := by
  cases c with
  | typed c =>
    cases c
    case drain lo hi =>
      simp only [call, typedCall]
      cases h.storage.drain h.session lo hi <;> rfl
    all_goals rfl
  | any c =>
    cases c
    case drain lo hi =>
      simp only [call, anyCall]
      cases h.storage.drain h.session lo hi <;> rfl
    case push x =>
      simp only [call, anyCall]
      split
      · rfl
      · cases anyPush h.storage h.session x <;> rfl
    case pushAsOldest x =>
      simp only [call, anyCall]
      split
      · rfl
      · cases anyPushAsOldest h.storage h.session x <;> rfl
    case pushAny x =>
      simp only [call, anyCall]
      cases anyPush h.storage h.session x <;> rfl
    case pushAnyAsOldest x =>
      simp only [call, anyCall]
      cases anyPushAsOldest h.storage h.session x <;> rfl
    all_goals rfl
  | json c =>
    have hu : ∀ seen borrow u, (useJsonMut sd h seen borrow u).1.session = h.session := by
      intro seen borrow u
      simp only [useJsonMut]
      split
      · rfl
      · simp only []; split <;> rfl
    cases c
    case drain lo hi =>
      simp only [call, jsonCall]
      cases h.storage.drain h.session lo hi <;> rfl
    case oldestMut u => exact hu _ _ _
    case newestMut u => exact hu _ _ _
    case getMut i u => exact hu _ _ _
    case push x =>
      simp only [call, jsonCall]
      cases sd.enc x.2 <;> rfl
    case pushAsOldest x =>
      simp only [call, jsonCall]
      cases sd.enc x.2 <;> rfl
    all_goals rfl

/-- A sequence of calls on a handle does what it asks for. -/
theorem calls_obey (sd : Serde V J) {t : Ty} (h : Handle S A (V t)) (cs : List (Call V J t))
    (hc : ∀ c ∈ cs, c.isJsonAsOldest = false) :
    ((calls sd h cs).1.storage, (calls sd h cs).2) =
      specCalls sd (fun b o => step b h.session o) h.storage cs := by
  induction cs generalizing h with
  | nil => rfl
  | cons c cs ih =>
    have h1 := call_obeys sd h c (hc c (by simp))
    have h2 := ih (call sd h c).1 (fun c hm => hc c (by simp [hm]))
    rw [call_session] at h2
    simp only [calls, specCalls]
    cases ha : ask sd c with
    | nothing o =>
      rw [ha] at h1
      obtain ⟨e1, e2⟩ := h1
      rw [e1] at h2
      rw [← h2, e2]
    | op o r =>
      rw [ha] at h1
      obtain ⟨e1, e2⟩ := h1
      rw [e1] at h2
      simp only
      rw [← h2, e2]

theorem events_obey (sd : Serde V J) {t : Ty} (w : World S A V t) (es : List (Event S A V J t))
    (hc : ∀ e ∈ es, ∀ c ∈ e.calls, c.isJsonAsOldest = false) :
    ((events sd w es).1.storage, (events sd w es).2) = specEvents sd step w.storage es := by
  induction es generalizing w with
  | nil => rfl
  | cons e es ih =>
    have h2 := ih (event sd w e).1 (fun e hm => hc e (by simp [hm]))
    cases e with
    | flow s o =>
      simp only [events, event, specEvents] at h2 ⊢
      rw [← h2]
    | access a =>
      have h1 := calls_obey sd
        ({ storage := w.storage, session := a.session, accessor := some a.accessor,
           modified := false } : Handle S A (V t)) a.calls (hc (.access a) (by simp))
      simp only [events, event, access, specEvents] at h2 ⊢
      simp only at h1
      rw [← h1, ← h2]

end
end Verif.Views

namespace Verif.Views

open Verif.Buffer (Storage Out Op SpecState specStep step)

set_option linter.unusedSectionVars false

section
variable {S A T : Type} [DecidableEq S]
variable {Ty : Type} [DecidableEq Ty] {V : Ty → Type} {J : Type}

/-- A call leaves the storage as it is or makes one step of the typed buffer. -/
theorem call_steps (sd : Serde V J) {t : Ty} (h : Handle S A (V t)) (c : Call V J t) :
    (call sd h c).1.storage = h.storage ∨
    ∃ o, (call sd h c).1.storage = (step h.storage h.session o).1 := by
  by_cases hc : c.isJsonAsOldest = false
  · have h1 := call_obeys sd h c hc
    cases ha : ask sd c with
    | nothing o => rw [ha] at h1; exact .inl h1.1
    | op o r => rw [ha] at h1; exact .inr ⟨o, h1.1⟩
  · have hp : ∀ j, (jsonPushAsOldest sd h.storage h.session j).1 = h.storage ∨
        ∃ o, (jsonPushAsOldest sd h.storage h.session j).1 = (step h.storage h.session o).1 := by
      intro j
      simp only [jsonPushAsOldest]
      cases sd.dec t j with
      | none => exact .inl rfl
      | some v => exact .inr ⟨.push v, rfl⟩
    cases c with
    | typed c => cases c <;> exact absurd rfl hc
    | any c => cases c <;> exact absurd rfl hc
    | json c =>
      cases c
      case pushAsOldest x =>
        simp only [call, jsonCall]
        cases sd.enc x.2 with
        | none => exact .inl rfl
        | some j => exact hp j
      case pushJsonAsOldest j => exact hp j
      all_goals exact absurd rfl hc

theorem call_frame (sd : Serde V J) {t : Ty} (h : Handle S A (V t)) (c : Call V J t) (s : S)
    (hs : s ≠ h.session) : (call sd h c).1.storage.queues s = h.storage.queues s := by
  rcases call_steps sd h c with e | ⟨o, e⟩
  · rw [e]
  · rw [e, Verif.Buffer.step_frame _ _ _ _ hs]

/-- What `useJsonMut` does to the mark. -/
theorem useJsonMut_mark (sd : Serde V J) {t : Ty} (h : Handle S A (V t)) (seen : Option (V t))
    (borrow : (V t → V t) → Storage S (V t)) (u : JsonMutUse V J) :
    (useJsonMut sd h seen borrow u).1.accessor = h.accessor ∧
    (h.modified = true → (useJsonMut sd h seen borrow u).1.modified = true) ∧
    (u = .serialize → (useJsonMut sd h seen borrow u).1.modified = h.modified) := by
  simp only [useJsonMut]
  cases seen with
  | none => exact ⟨rfl, id, fun _ => rfl⟩
  | some x =>
    simp only
    refine ⟨?_, ?_, ?_⟩
    · split <;> rfl
    · intro hm; split
      · rfl
      · exact hm
    · rintro rfl; rfl

/-- The write of a `JsonMut` that does not mark the handle leaves the message. -/
theorem jsonMutUse_quiet (sd : Serde V J) {t : Ty} (x : V t) (u : JsonMutUse V J)
    (h : (jsonMutUse sd x u).2.1 = false) : (jsonMutUse sd x u).1 = x := by
  cases u with
  | leave => rfl
  | serialize => rfl
  | deserializeInto u => rfl
  | replace j =>
    simp only [jsonMutUse] at h ⊢
    split
    · rfl
    · rename_i y e
      rw [e] at h
      simp only at h
      split at h <;> cases h
  | insert j =>
    simp only [jsonMutUse] at h ⊢
    split
    · rfl
    · rename_i y e
      rw [e] at h
      cases h
  | modify f =>
    simp only [jsonMutUse] at h ⊢
    split
    · rfl
    · rename_i j e
      rw [e] at h
      simp only at h
      split at h <;> cases h

theorem useJsonMut_quiet (sd : Serde V J) {t : Ty} (h : Handle S A (V t)) (seen : Option (V t))
    (borrow : (V t → V t) → Storage S (V t)) (u : JsonMutUse V J)
    (hb : ∀ x, seen = some x → borrow (fun _ => x) = h.storage)
    (hm : (useJsonMut sd h seen borrow u).1.modified = false) :
    (useJsonMut sd h seen borrow u).1.storage = h.storage := by
  cases hs : seen with
  | none => rfl
  | some x =>
    subst hs
    simp only [useJsonMut] at hm ⊢
    have hq : (jsonMutUse sd x u).2.1 = false := by
      cases e : (jsonMutUse sd x u).2.1 with
      | false => rfl
      | true => rw [e] at hm; cases hm
    rw [hq]
    simp only [Bool.false_eq_true, if_false, Handle.put]
    rw [jsonMutUse_quiet sd x u hq]
    exact hb x rfl

theorem borrow_oldest (b : Storage S T) (s : S) (x : T) (h : (b.oldestMut s id).2 = some x) :
    (b.oldestMut s fun _ => x).1 = b := by
  refine (oldestMut_some b s id x h).trans ?_
  simp only [Storage.oldestMut]
  split
  · rfl
  · rename_i q hq
    rw [List.modify_id]
    exact set_same _ _ _ hq

theorem borrow_newest (b : Storage S T) (s : S) (x : T) (h : (b.newestMut s id).2 = some x) :
    (b.newestMut s fun _ => x).1 = b := by
  refine (newestMut_some b s id x h).trans ?_
  simp only [Storage.newestMut]
  split
  · rfl
  · rename_i q hq
    rw [List.modify_id]
    exact set_same _ _ _ hq

theorem borrow_get (b : Storage S T) (s : S) (i : Nat) (x : T)
    (h : (b.getMut s i id).2 = some x) : (b.getMut s i fun _ => x).1 = b := by
  refine (getMut_some b s i id x h).trans ?_
  simp only [Storage.getMut]
  split
  · rfl
  · rename_i q hq
    split
    · rfl
    · simp only [List.modify_id]
      exact set_same _ _ _ hq

/-- What a call does to the mark and to the accessor of the handle. -/
theorem call_mark (sd : Serde V J) {t : Ty} (h : Handle S A (V t)) (c : Call V J t) :
    (call sd h c).1.accessor = (if c.isAllowClosedLoops then none else h.accessor) ∧
    (h.modified = true → (call sd h c).1.modified = true) ∧
    (c.isPulse = true → (call sd h c).1.modified = true) ∧
    (c.isRead = true → (call sd h c).1.modified = h.modified ∧
      (h.modified = false → (call sd h c).1.storage = h.storage)) ∧
    (c.isPushAny = false → (call sd h c).1.modified = false →
      (call sd h c).1.storage = h.storage) := by
  cases c with
  | typed c =>
    cases c
    case drain lo hi =>
      simp only [call, typedCall]
      cases h.storage.drain h.session lo hi <;>
        exact ⟨rfl, fun _ => rfl, fun _ => rfl, fun e => (nomatch e), fun _ e => (nomatch e)⟩
    case iter => exact ⟨rfl, id, fun e => (nomatch e), fun _ => ⟨rfl, fun _ => rfl⟩, fun _ _ => rfl⟩
    case oldest =>
      exact ⟨rfl, id, fun e => (nomatch e), fun _ => ⟨rfl, fun _ => rfl⟩, fun _ _ => rfl⟩
    case newest =>
      exact ⟨rfl, id, fun e => (nomatch e), fun _ => ⟨rfl, fun _ => rfl⟩, fun _ _ => rfl⟩
    case get =>
      exact ⟨rfl, id, fun e => (nomatch e), fun _ => ⟨rfl, fun _ => rfl⟩, fun _ _ => rfl⟩
    case len =>
      exact ⟨rfl, id, fun e => (nomatch e), fun _ => ⟨rfl, fun _ => rfl⟩, fun _ _ => rfl⟩
    case allowClosedLoops =>
      exact ⟨rfl, id, fun e => (nomatch e), fun _ => ⟨rfl, fun _ => rfl⟩, fun _ _ => rfl⟩
    all_goals
      exact ⟨rfl, fun _ => rfl, fun _ => rfl, fun e => (nomatch e), fun _ e => (nomatch e)⟩
  | any c =>
    cases c
    case drain lo hi =>
      simp only [call, anyCall]
      cases h.storage.drain h.session lo hi <;>
        exact ⟨rfl, fun _ => rfl, fun _ => rfl, fun e => (nomatch e), fun _ e => (nomatch e)⟩
    case oldest =>
      exact ⟨rfl, id, fun e => (nomatch e), fun _ => ⟨rfl, fun _ => rfl⟩, fun _ _ => rfl⟩
    case newest =>
      exact ⟨rfl, id, fun e => (nomatch e), fun _ => ⟨rfl, fun _ => rfl⟩, fun _ _ => rfl⟩
    case get =>
      exact ⟨rfl, id, fun e => (nomatch e), fun _ => ⟨rfl, fun _ => rfl⟩, fun _ _ => rfl⟩
    case len =>
      exact ⟨rfl, id, fun e => (nomatch e), fun _ => ⟨rfl, fun _ => rfl⟩, fun _ _ => rfl⟩
    case allowClosedLoops =>
      exact ⟨rfl, id, fun e => (nomatch e), fun _ => ⟨rfl, fun _ => rfl⟩, fun _ _ => rfl⟩
    case push x =>
      simp only [call, anyCall]
      split
      · exact ⟨rfl, id, fun e => (nomatch e), fun e => (nomatch e), fun _ _ => rfl⟩
      · cases anyPush h.storage h.session x <;>
          exact ⟨rfl, fun _ => rfl, fun _ => rfl, fun e => (nomatch e), fun _ e => (nomatch e)⟩
    case pushAsOldest x =>
      simp only [call, anyCall]
      split
      · exact ⟨rfl, id, fun e => (nomatch e), fun e => (nomatch e), fun _ _ => rfl⟩
      · cases anyPushAsOldest h.storage h.session x <;>
          exact ⟨rfl, fun _ => rfl, fun _ => rfl, fun e => (nomatch e), fun _ e => (nomatch e)⟩
    case pushAny x =>
      simp only [call, anyCall]
      cases anyPush h.storage h.session x <;>
        exact ⟨rfl, id, fun e => (nomatch e), fun e => (nomatch e), fun e => (nomatch e)⟩
    case pushAnyAsOldest x =>
      simp only [call, anyCall]
      cases anyPushAsOldest h.storage h.session x <;>
        exact ⟨rfl, id, fun e => (nomatch e), fun e => (nomatch e), fun e => (nomatch e)⟩
    all_goals
      exact ⟨rfl, fun _ => rfl, fun _ => rfl, fun e => (nomatch e), fun _ e => (nomatch e)⟩
  | json c =>
    cases c
    case drain lo hi =>
      simp only [call, jsonCall]
      cases h.storage.drain h.session lo hi <;>
        exact ⟨rfl, fun _ => rfl, fun _ => rfl, fun e => (nomatch e), fun _ e => (nomatch e)⟩
    case iter =>
      exact ⟨rfl, id, fun e => (nomatch e), fun _ => ⟨rfl, fun _ => rfl⟩, fun _ _ => rfl⟩
    case oldest =>
      exact ⟨rfl, id, fun e => (nomatch e), fun _ => ⟨rfl, fun _ => rfl⟩, fun _ _ => rfl⟩
    case newest =>
      exact ⟨rfl, id, fun e => (nomatch e), fun _ => ⟨rfl, fun _ => rfl⟩, fun _ _ => rfl⟩
    case get =>
      exact ⟨rfl, id, fun e => (nomatch e), fun _ => ⟨rfl, fun _ => rfl⟩, fun _ _ => rfl⟩
    case len =>
      exact ⟨rfl, id, fun e => (nomatch e), fun _ => ⟨rfl, fun _ => rfl⟩, fun _ _ => rfl⟩
    case allowClosedLoops =>
      exact ⟨rfl, id, fun e => (nomatch e), fun _ => ⟨rfl, fun _ => rfl⟩, fun _ _ => rfl⟩
    case oldestMut u =>
      have hm := useJsonMut_mark sd h (h.storage.oldestMut h.session id).2
        (fun g => (h.storage.oldestMut h.session g).1) u
      have hq := useJsonMut_quiet sd h (h.storage.oldestMut h.session id).2
        (fun g => (h.storage.oldestMut h.session g).1) u (fun x e => borrow_oldest _ _ x e)
      refine ⟨hm.1, hm.2.1, fun e => (nomatch e), fun e => ?_, fun _ => hq⟩
      cases u <;> first
        | exact ⟨hm.2.2 rfl, fun e => hq ((hm.2.2 rfl).trans e)⟩
        | cases e
    case newestMut u =>
      have hm := useJsonMut_mark sd h (h.storage.newestMut h.session id).2
        (fun g => (h.storage.newestMut h.session g).1) u
      have hq := useJsonMut_quiet sd h (h.storage.newestMut h.session id).2
        (fun g => (h.storage.newestMut h.session g).1) u (fun x e => borrow_newest _ _ x e)
      refine ⟨hm.1, hm.2.1, fun e => (nomatch e), fun e => ?_, fun _ => hq⟩
      cases u <;> first
        | exact ⟨hm.2.2 rfl, fun e => hq ((hm.2.2 rfl).trans e)⟩
        | cases e
    case getMut i u =>
      have hm := useJsonMut_mark sd h (h.storage.getMut h.session i id).2
        (fun g => (h.storage.getMut h.session i g).1) u
      have hq := useJsonMut_quiet sd h (h.storage.getMut h.session i id).2
        (fun g => (h.storage.getMut h.session i g).1) u (fun x e => borrow_get _ _ _ x e)
      refine ⟨hm.1, hm.2.1, fun e => (nomatch e), fun e => ?_, fun _ => hq⟩
      cases u <;> first
        | exact ⟨hm.2.2 rfl, fun e => hq ((hm.2.2 rfl).trans e)⟩
        | cases e
    case push x =>
      simp only [call, jsonCall]
      cases sd.enc x.2 with
      | none => exact ⟨rfl, id, fun e => (nomatch e), fun e => (nomatch e), fun _ _ => rfl⟩
      | some j =>
        exact ⟨rfl, fun _ => rfl, fun _ => rfl, fun e => (nomatch e), fun _ e => (nomatch e)⟩
    case pushAsOldest x =>
      simp only [call, jsonCall]
      cases sd.enc x.2 with
      | none => exact ⟨rfl, id, fun e => (nomatch e), fun e => (nomatch e), fun _ _ => rfl⟩
      | some j =>
        exact ⟨rfl, fun _ => rfl, fun _ => rfl, fun e => (nomatch e), fun _ e => (nomatch e)⟩
    all_goals
      exact ⟨rfl, fun _ => rfl, fun _ => rfl, fun e => (nomatch e), fun _ e => (nomatch e)⟩

theorem calls_session (sd : Serde V J) {t : Ty} (h : Handle S A (V t)) (cs : List (Call V J t)) :
    (calls sd h cs).1.session = h.session := by
  induction cs generalizing h with
  | nil => rfl
  | cons c cs ih => simp only [calls]; rw [ih, call_session]

theorem calls_frame (sd : Serde V J) {t : Ty} (h : Handle S A (V t)) (cs : List (Call V J t))
    (s : S) (hs : s ≠ h.session) :
    (calls sd h cs).1.storage.queues s = h.storage.queues s := by
  induction cs generalizing h with
  | nil => rfl
  | cons c cs ih =>
    simp only [calls]
    rw [ih _ (by rw [call_session]; exact hs), call_frame sd h c s hs]

theorem calls_accessor (sd : Serde V J) {t : Ty} (h : Handle S A (V t)) (cs : List (Call V J t)) :
    (calls sd h cs).1.accessor =
      if cs.any Call.isAllowClosedLoops then none else h.accessor := by
  induction cs generalizing h with
  | nil => rfl
  | cons c cs ih =>
    simp only [calls]
    rw [ih, (call_mark sd h c).1, List.any_cons]
    cases c.isAllowClosedLoops <;> simp

theorem calls_sticky (sd : Serde V J) {t : Ty} (h : Handle S A (V t)) (cs : List (Call V J t))
    (hm : h.modified = true) : (calls sd h cs).1.modified = true := by
  induction cs generalizing h with
  | nil => exact hm
  | cons c cs ih => exact ih _ ((call_mark sd h c).2.1 hm)

theorem calls_append (sd : Serde V J) {t : Ty} (h : Handle S A (V t)) (cs cs' : List (Call V J t)) :
    (calls sd h (cs ++ cs')).1 = (calls sd (calls sd h cs).1 cs').1 := by
  induction cs generalizing h with
  | nil => rfl
  | cons c cs ih => simp only [List.cons_append, calls]; rw [ih]

theorem calls_pulse (sd : Serde V J) {t : Ty} (h : Handle S A (V t)) (cs : List (Call V J t))
    (hp : ∃ c ∈ cs, c.isPulse = true) : (calls sd h cs).1.modified = true := by
  induction cs generalizing h with
  | nil => obtain ⟨c, hc, _⟩ := hp; cases hc
  | cons c cs ih =>
    obtain ⟨c', hc', e⟩ := hp
    rcases List.mem_cons.mp hc' with rfl | hm
    · exact calls_sticky sd _ cs ((call_mark sd h c').2.2.1 e)
    · exact ih _ ⟨c', hm, e⟩

theorem calls_quiet (sd : Serde V J) {t : Ty} (h : Handle S A (V t)) (cs : List (Call V J t))
    (hc : ∀ c ∈ cs, c.isPushAny = false) (hm : (calls sd h cs).1.modified = false) :
    (calls sd h cs).1.storage = h.storage := by
  induction cs generalizing h with
  | nil => rfl
  | cons c cs ih =>
    have h1 : (call sd h c).1.modified = false := by
      cases e : (call sd h c).1.modified with
      | false => rfl
      | true =>
        simp only [calls] at hm
        rw [calls_sticky sd _ cs e] at hm
        cases hm
    simp only [calls] at hm ⊢
    rw [ih _ (fun c h => hc c (by simp [h])) hm]
    exact (call_mark sd h c).2.2.2.2 (hc c (by simp)) h1

theorem calls_reads (sd : Serde V J) {t : Ty} (h : Handle S A (V t)) (cs : List (Call V J t))
    (hc : ∀ c ∈ cs, c.isRead = true) (hm : h.modified = false) :
    (calls sd h cs).1.modified = false ∧ (calls sd h cs).1.storage = h.storage := by
  induction cs generalizing h with
  | nil => exact ⟨hm, rfl⟩
  | cons c cs ih =>
    have h1 := (call_mark sd h c).2.2.2.1 (hc c (by simp))
    have h2 := ih (call sd h c).1 (fun c h => hc c (by simp [h])) (h1.1.trans hm)
    simp only [calls]
    exact ⟨h2.1, h2.2.trans (h1.2 hm)⟩

/-- What an access does to the notifications, in terms of its calls. -/
theorem access_notes (sd : Serde V J) {t : Ty} (w : World S A V t) (a : Access S A V J t) :
    (access sd w a).1.notes = w.notes ++ a.route.applied
      (if (calls sd (⟨w.storage, a.session, some a.accessor, false⟩ : Handle S A (V t))
          a.calls).1.modified
       then [⟨a.session, if a.calls.any Call.isAllowClosedLoops then none else some a.accessor⟩]
       else []) := by
  simp only [access]
  rw [calls_session, calls_accessor]

theorem gateCall_facts (h : GateHandle S A) (c : GCall) :
    (gateCall h c).1.session = h.session ∧
    (gateCall h c).1.accessor = (if c = .allowClosedLoops then none else h.accessor) ∧
    ((gateCall h c).1.modified = true ↔
      h.modified = true ∨ (c = .openGate ∧ (h.gate h.session).getD true = false)) ∧
    ∀ s, s ≠ h.session → (gateCall h c).1.gate s = h.gate s := by
  cases c with
  | allowClosedLoops => exact ⟨rfl, rfl, by simp [gateCall], fun _ _ => rfl⟩
  | get => exact ⟨rfl, rfl, by simp [gateCall], fun _ _ => rfl⟩
  | openGate =>
    simp only [gateCall]
    cases hg : h.gate h.session with
    | none => exact ⟨rfl, rfl, by simp, fun _ _ => rfl⟩
    | some g =>
      cases g with
      | true => exact ⟨rfl, rfl, by simp, fun _ _ => rfl⟩
      | false => exact ⟨rfl, rfl, by simp, fun s hs => by simp [hs]⟩
  | closeGate =>
    simp only [gateCall]
    cases hg : h.gate h.session with
    | none => exact ⟨rfl, rfl, by simp, fun _ _ => rfl⟩
    | some g => exact ⟨rfl, rfl, by simp, fun s hs => by simp [hs]⟩

theorem gateCalls_facts (h : GateHandle S A) (cs : List GCall) :
    (gateCalls h cs).1.session = h.session ∧
    (gateCalls h cs).1.accessor = (if GCall.allowClosedLoops ∈ cs then none else h.accessor) ∧
    ((gateCalls h cs).1.modified = true ↔ h.modified = true ∨
      ∃ xs ys, cs = xs ++ .openGate :: ys ∧
        ((gateCalls h xs).1.gate h.session).getD true = false) ∧
    ∀ s, s ≠ h.session → (gateCalls h cs).1.gate s = h.gate s := by
  induction cs generalizing h with
  | nil => exact ⟨rfl, by simp [gateCalls], by simp [gateCalls], fun _ _ => rfl⟩
  | cons c cs ih =>
    have h1 := gateCall_facts h c
    have h2 := ih (gateCall h c).1
    simp only [gateCalls]
    refine ⟨h2.1.trans h1.1, ?_, ?_, ?_⟩
    · rw [h2.2.1, h1.2.1]
      by_cases e : c = .allowClosedLoops
      · subst e; simp
      · have e' : GCall.allowClosedLoops ≠ c := fun x => e x.symm
        simp [e, e']
    · rw [h2.2.2.1, h1.2.2.1, h1.1]
      constructor
      · rintro ((hm | ⟨hc, hg⟩) | ⟨xs, ys, e, hg⟩)
        · exact .inl hm
        · exact .inr ⟨[], cs, by rw [hc]; rfl, hg⟩
        · exact .inr ⟨c :: xs, ys, by rw [e]; rfl, hg⟩
      · rintro (hm | ⟨xs, ys, e, hg⟩)
        · exact .inl (.inl hm)
        · cases xs with
          | nil =>
            simp only [List.nil_append, List.cons.injEq] at e
            exact .inl (.inr ⟨e.1, hg⟩)
          | cons x xs =>
            simp only [List.cons_append, List.cons.injEq] at e
            obtain ⟨rfl, e⟩ := e
            exact .inr ⟨xs, ys, e, hg⟩
    · intro s hs
      rw [h2.2.2.2 s (by rw [h1.1]; exact hs), h1.2.2.2 s hs]

/-- Specifications over related buffers give related results. -/
theorem specCalls_refines (sd : Serde V J) {t : Ty} (r : Verif.Buffer.Retention)
    (s : S) (b : Storage S (V t)) (cs : List (Call V J t))
    (hi : Verif.Buffer.Inv b) (hr : b.retention = r)
    (ho : ∀ c ∈ cs, ∀ o f, ask sd c = .op o f → Verif.Buffer.notRangedDrain o = true ∧
      (r = .keepFirst 0 → Verif.Buffer.notPushAsOldest o = true)) :
    let x := specCalls sd (fun b o => step b s o) b cs
    let y := specCalls sd (fun b o => specStep b s o) (Verif.Buffer.abs b) cs
    Verif.Buffer.abs x.1 = y.1 ∧ x.2 = y.2 ∧ Verif.Buffer.Inv x.1 ∧ x.1.retention = r := by
  induction cs generalizing b with
  | nil => exact ⟨rfl, rfl, hi, hr⟩
  | cons c cs ih =>
    have ho' := ho c (by simp)
    have hos : ∀ c ∈ cs, ∀ o f, ask sd c = .op o f → Verif.Buffer.notRangedDrain o = true ∧
        (r = .keepFirst 0 → Verif.Buffer.notPushAsOldest o = true) :=
      fun c h => ho c (by simp [h])
    simp only [specCalls]
    cases ha : ask sd c with
    | nothing o =>
      have h2 := ih b hi hr hos
      simp only at h2 ⊢
      exact ⟨h2.1, by rw [h2.2.1], h2.2.2⟩
    | op o f =>
      have ho1 := ho' o f ha
      have h1 := Verif.Buffer.step_refines b s o hi (by rw [hr]; exact ho1.2) ho1.1
      have h2 := ih (step b s o).1
        (Verif.Buffer.step_inv b s o hi (by rw [hr]; exact ho1.2))
        (by rw [Verif.Buffer.step_retention, hr]) hos
      have e1 : Verif.Buffer.abs (step b s o).1 = (specStep (Verif.Buffer.abs b) s o).1 :=
        congrArg Prod.fst h1
      have e2 : (step b s o).2 = (specStep (Verif.Buffer.abs b) s o).2 := congrArg Prod.snd h1
      simp only at h2 ⊢
      rw [e1] at h2
      exact ⟨h2.1, by rw [h2.2.1, e2], h2.2.2⟩

end
end Verif.Views
