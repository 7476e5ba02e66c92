import Verif.Convert.Lemmas

/-
C93: what becomes of a message on an implicitly converted connection of a diagram.
-/
namespace Verif.Convert

/-- The connections that a diagram asks for are accepted exactly if each of them is allowed
by its own types: neither their order nor what else is connected to the same target makes a
difference. Every output is asked to go to one target. -/
theorem C93_accepts (reg : Registry) (decls : Nat → Decl) (as : List Ask)
    (hnd : (as.map (·.out)).Nodup) :
    (∃ w, run reg (start reg decls) as = .ok w) ↔ ∀ a, a ∈ as → Allowed reg (decls a.target) a.ty := by
  have h := run_inv as (start reg decls) [] (inv_start reg decls) (by simpa using hnd)
  constructor
  · rintro ⟨w, hw⟩ a ha
    obtain ⟨r, hr, _⟩ := (h.2 w hw).made a (by simpa using ha)
    exact (allowed_iff reg a.target _ _).mp (by rw [hr]; rfl)
  · intro hall
    exact h.1 fun a ha => (allowed_iff reg a.target _ _).mpr (hall a ha)

/-- Once the connections are made, a message that any of the outputs sends has exactly the
effect that its types call for: it reaches the input of its target once, as it is or
converted; or it cancels, with its text if it has one, with its JSON form if it has one of
these, and without a text otherwise; or, if it fails to be converted, the reason is given
to the error target once. Other connections and their order make no difference. -/
theorem C93_delivers {V : Type} (S : Sem V) (reg : Registry) (decls : Nat → Decl) (as : List Ask)
    (hnd : (as.map (·.out)).Nodup) (w : W) (hw : run reg (start reg decls) as = .ok w)
    (a : Ask) (ha : a ∈ as) (v : V) (depth : Nat) (hd : 2 ≤ depth) :
    emit S w.net depth (.op a.out) v = effect S reg a.target (decls a.target) a.ty v := by
  have h := (run_inv as (start reg decls) [] (inv_start reg decls) (by simpa using hnd)).2 w hw
  obtain ⟨r, hr, hm⟩ := h.made a (by simpa using ha)
  obtain ⟨d, rfl⟩ : ∃ d, depth = d + 2 := ⟨depth - 2, by omega⟩
  rw [emit_route S h.fresh hm d v]
  exact route_effect S hr v

/-- An output that is not connected to anything sends nothing anywhere. -/
theorem C93_unconnected {V : Type} (S : Sem V) (reg : Registry) (decls : Nat → Decl)
    (as : List Ask) (hnd : (as.map (·.out)).Nodup) (w : W)
    (hw : run reg (start reg decls) as = .ok w) (o : Nat) (ho : o ∉ as.map (·.out)) (v : V)
    (depth : Nat) (hd : 1 ≤ depth) : emit S w.net depth (.op o) v = [] := by
  have h := (run_inv as (start reg decls) [] (inv_start reg decls) (by simpa using hnd)).2 w hw
  obtain ⟨d, rfl⟩ : ∃ d, depth = d + 1 := ⟨depth - 1, by omega⟩
  have h1 := h.rest o (by simpa using ho)
  have h2 := h.fresh.ops o
  unfold Net.at at h1
  unfold Net.eat at h2
  simp only [emit, h1, h2]
  rfl

/-- The order in which the connections are made (the loop goes through hash maps) makes no
difference: if one order is accepted then every order is, and every message of every output
has the same effect. -/
theorem C93_order {V : Type} (S : Sem V) (reg : Registry) (decls : Nat → Decl) (as bs : List Ask)
    (hp : as.Perm bs) (hnd : (as.map (·.out)).Nodup) (w : W)
    (hw : run reg (start reg decls) as = .ok w) :
    ∃ w', run reg (start reg decls) bs = .ok w' ∧ ∀ o v depth, 2 ≤ depth →
      emit S w'.net depth (.op o) v = emit S w.net depth (.op o) v := by
  have hnd' : (bs.map (·.out)).Nodup := (hp.map _).nodup_iff.mp hnd
  have hall := (C93_accepts reg decls as hnd).mp ⟨w, hw⟩
  obtain ⟨w', hw'⟩ := (C93_accepts reg decls bs hnd').mpr fun a ha => hall a (hp.mem_iff.mpr ha)
  refine ⟨w', hw', fun o v depth hd => ?_⟩
  by_cases ho : o ∈ as.map (·.out)
  · obtain ⟨a, ha, rfl⟩ := List.mem_map.mp ho
    rw [C93_delivers S reg decls as hnd w hw a ha v depth hd,
      C93_delivers S reg decls bs hnd' w' hw' a (hp.mem_iff.mp ha) v depth hd]
  · have ho' : o ∉ bs.map (·.out) := fun h => ho ((hp.map _).mem_iff.mpr h)
    rw [C93_unconnected S reg decls as hnd w hw o ho v depth (by omega),
      C93_unconnected S reg decls bs hnd' w' hw' o ho' v depth (by omega)]

/-! A diagram with all the kinds of target and connection. -/

/-- Type 3 can be serialised and deserialised, type 4 has a text, type 5 only exists. -/
def sampleReg : Registry
  | 0 => some ⟨true, true, false⟩
  | 1 => some ⟨true, true, true⟩
  | 3 => some ⟨true, true, false⟩
  | 4 => some ⟨false, false, true⟩
  | 5 => some ⟨false, false, false⟩
  | _ => none

/-- Target 0 takes JSON, target 1 takes type 3, target 2 takes type 4, target 3 cancels. -/
def sampleDecls : Nat → Decl
  | 0 => .input json
  | 1 => .input 3
  | 2 => .input 4
  | 3 => .cancel
  | _ => .dispose

/-- Values are numbers; odd numbers cannot be serialised. -/
def sampleSem : Sem Nat where
  ser t v := if v % 2 = 1 then .error (1000 + v) else .ok (100 * t + v)
  de t v := if v % 2 = 1 then .error (2000 + v) else .ok (200 * t + v)
  str t v := 300 * t + v
  unit := 0
  text v := 5000 + v

def sampleAsks : List Ask :=
  [⟨0, 3, 0⟩, ⟨1, 3, 0⟩, ⟨2, json, 0⟩, ⟨3, json, 1⟩, ⟨4, 3, 1⟩, ⟨5, 4, 2⟩, ⟨6, 3, 3⟩, ⟨7, 4, 3⟩,
    ⟨8, 5, 3⟩, ⟨9, json, 3⟩, ⟨10, string, 3⟩, ⟨11, 9, 4⟩]

def sampleEmits (o v : Nat) : List (Effect Nat) :=
  match run sampleReg (start sampleReg sampleDecls) sampleAsks with
  | .error _ => [.stuck]
  | .ok w => emit sampleSem w.net 5 (.op o) v

example : (sampleAsks.map (·.out)).Nodup := by decide

example :
    sampleEmits 0 8 = [.input 0 308] ∧ sampleEmits 1 7 = [.error 1007]
      ∧ sampleEmits 3 8 = [.input 1 608] ∧ sampleEmits 4 7 = [.input 1 7]
      ∧ sampleEmits 6 8 = [.cancel 3 (some 5308)] ∧ sampleEmits 7 7 = [.cancel 3 (some 1207)]
      ∧ sampleEmits 8 7 = [.cancel 3 none] ∧ sampleEmits 9 7 = [.cancel 3 (some 5007)]
      ∧ sampleEmits 10 7 = [.cancel 3 (some 7)] ∧ sampleEmits 11 7 = [] := by decide

/-- A connection that is not allowed: type 5 to an input of type 4. -/
example : ¬ Allowed sampleReg (sampleDecls 2) 5 := by
  rintro (h | ⟨h, _⟩ | ⟨h, _⟩) <;> exact absurd h (by decide)

end Verif.Convert
