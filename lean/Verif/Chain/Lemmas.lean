import Verif.Chain.Spec

/-
Lemmas for Verif/Chain/Props.lean: what the builder leaves behind for each combinator, and
that dealing with one message accounts for what its chain means.
-/
namespace Verif.Chain

set_option linter.unusedSimpArgs false

variable {V : Type}

/-- The output `e` carries the operation `o`. -/
def Own (w : W V) (e : Nat) (o : Op V) : Prop := w.dest e = .ent e ∧ w.op e = some o

mutual
/-- In `w`, output `e` does what the chain says. -/
def Does (w : W V) : Chain V → Nat → Prop
  | .connect s, e => w.dest e = .slot s
  | .unused, e => w.dest e = .ent e ∧ w.op e = none
  | .thenCancel text, e => Own w e (.cancel text)
  | .map f rest, e => ∃ t, Own w e (.map f t) ∧ Does w rest t
  | .trigger unit rest, e => ∃ t, Own w e (.map (fun _ => unit) t) ∧ Does w rest t
  | .noop rest, e => ∃ t, Own w e (.noop t) ∧ Does w rest t
  | .branchClone branch rest, e =>
    ∃ a b, Own w e (.clone [a, b]) ∧ Does w branch b ∧ Does w rest a
  | .forkClone cs, e => ∃ ts, Own w e (.clone ts) ∧ DoesAll w cs ts
  | .forkUnzip view cs, e => ∃ ts, Own w e (.unzip view ts) ∧ DoesAll w cs ts
  | .spread view rest, e => ∃ t, Own w e (.spread view t) ∧ Does w rest t
  | .forkResult view ok err, e => ∃ a b, Own w e (.result view a b) ∧ Does w ok a ∧ Does w err b
  | .branchForErr view err rest, e =>
    ∃ a b, Own w e (.result view a b) ∧ Does w err b ∧ Does w rest a
  | .connectOnErr view wrap s rest, e =>
    ∃ a b, Own w e (.result view a b) ∧ (∃ t, Own w b (.map wrap t) ∧ w.dest t = .slot s)
      ∧ Does w rest a
  | .cancelOnErr view rest, e =>
    ∃ t, Own w e (.cancelFilter (filterErr view) t) ∧ Does w rest t
  | .cancelOnQuietErr view rest, e =>
    ∃ t, Own w e (.cancelFilter (filterQuietErr view) t) ∧ Does w rest t
  | .disposeOnErr view rest, e =>
    ∃ t, Own w e (.disposalFilter (filterErr view) t) ∧ Does w rest t
  | .disposeOnQuietErr view rest, e =>
    ∃ t, Own w e (.disposalFilter (filterQuietErr view) t) ∧ Does w rest t
  | .disposeOnOk view rest, e =>
    ∃ t, Own w e (.disposalFilter (filterOk view) t) ∧ Does w rest t
  | .forkOption view unit x y, e =>
    ∃ a b, Own w e (.option view unit a b) ∧ Does w x a ∧ Does w y b
  | .branchForNone view unit y rest, e =>
    ∃ a b, Own w e (.option view unit a b) ∧ Does w y b ∧ Does w rest a
  | .connectOnNone view unit nothing s rest, e =>
    ∃ a b, Own w e (.option view unit a b)
      ∧ (∃ t, Own w b (.map (fun _ => nothing) t) ∧ w.dest t = .slot s) ∧ Does w rest a
  | .cancelOnNone view rest, e =>
    ∃ t, Own w e (.cancelFilter (filterNone view) t) ∧ Does w rest t
  | .disposeOnNone view rest, e =>
    ∃ t, Own w e (.disposalFilter (filterNone view) t) ∧ Does w rest t
  | .disposeOnSome view unit rest, e =>
    ∃ t, Own w e (.disposalFilter (filterSome view unit) t) ∧ Does w rest t
  | .cancellationFilter f view rest, e =>
    ∃ t, Own w e (.map f t) ∧ ∃ u, Own w t (.cancelFilter (filterNone view) u) ∧ Does w rest u
  | .disposalFilter f view rest, e =>
    ∃ t, Own w e (.map f t) ∧ ∃ u, Own w t (.disposalFilter (filterNone view) u) ∧ Does w rest u

def DoesAll (w : W V) : Chains V → List Nat → Prop
  | .cons c cs, t :: ts => Does w c t ∧ DoesAll w cs ts
  | .nil, [] => True
  | _, _ => False
end

/-! ### Building -/

/-- Nothing has been done with output `e`. -/
structure Fine (w : W V) (e : Nat) : Prop where
  lt : e < w.next
  op : w.op e = none
  dest : w.dest e = .ent e

def Clean (w : W V) : Prop := ∀ x, w.next ≤ x → w.op x = none ∧ w.dest x = .ent x

/-- What a builder call does: it deals with the outputs `es` and with new entities only. What
it makes true stays true as long as these stay as they are. -/
structure Built (w w' : W V) (es : Nat → Prop) (P : W V → Prop) : Prop where
  mono : w.next ≤ w'.next
  clean : Clean w'
  keep : ∀ x, x < w.next → ¬ es x → w'.op x = w.op x ∧ w'.dest x = w.dest x
  does : ∀ w'', (∀ x, es x ∨ (w.next ≤ x ∧ x < w'.next) →
    w''.op x = w'.op x ∧ w''.dest x = w'.dest x) → P w''

/-- After an operation with `n` new targets was put on `e`. -/
def W.put (w : W V) (n e : Nat) (o : Op V) : W V :=
  { next := w.next + n
    op := fun x => if x = e then some o else w.op x
    dest := w.dest }

theorem put_clean {w : W V} (hc : Clean w) {n e : Nat} (he : e < w.next) (o : Op V) :
    Clean (w.put n e o) := by
  intro x hx
  have hx' : w.next + n ≤ x := hx
  have hne : x ≠ e := by omega
  have := hc x (by omega)
  simp [W.put, hne, this]

theorem put_fine {w : W V} (hc : Clean w) {n e t : Nat} (he : e < w.next) (o : Op V)
    (ht : w.next ≤ t) (ht' : t < w.next + n) : Fine (w.put n e o) t := by
  have hne : t ≠ e := by omega
  have := hc t ht
  exact ⟨ht', by simp [W.put, hne, this], by simp [W.put, this]⟩

theorem put_own {w : W V} {n e : Nat} (h : Fine w e) (o : Op V) : Own (w.put n e o) e o :=
  ⟨h.dest, by simp [W.put]⟩

/-- An operation is put on an output and then something is built on all of its targets. -/
theorem Built.under {w w' : W V} {n e : Nat} {o : Op V} {es : Nat → Prop} {P : W V → Prop}
    (hf : Fine w e) (hes : ∀ x, es x → w.next ≤ x ∧ x < w.next + n)
    (h : Built (w.put n e o) w' es P) :
    Built w w' (· = e) (fun w'' => Own w'' e o ∧ P w'') := by
  have hn : (w.put n e o).next = w.next + n := rfl
  have hlt := hf.lt
  have hm := h.mono
  have hee : ¬ es e := fun he => by have := hes e he; omega
  have hke := h.keep e (by omega) hee
  refine ⟨by omega, h.clean, fun x hx hxe => ?_, fun w'' hw => ⟨?_, h.does w'' fun x hx => ?_⟩⟩
  · have hx2 : ¬ es x := fun he => by have := hes x he; omega
    have := h.keep x (by omega) hx2
    have hxe' : x ≠ e := hxe
    refine ⟨?_, this.2⟩
    rw [this.1]
    simp [W.put, hxe']
  · have h1 := hw e (Or.inl rfl)
    refine ⟨?_, ?_⟩
    · rw [h1.2, hke.2]; exact hf.dest
    · rw [h1.1, hke.1]; simp [W.put]
  · rcases hx with hx | ⟨hx, hx'⟩
    · have := hes x hx
      exact hw x (Or.inr ⟨this.1, by omega⟩)
    · exact hw x (Or.inr ⟨by omega, hx'⟩)

/-- Two things are built one after the other. -/
theorem Built.seq {w w1 w2 : W V} {es fs : Nat → Prop} {P Q : W V → Prop}
    (hd : ∀ x, es x → ¬ fs x) (hes : ∀ x, es x → x < w.next) (hfs : ∀ x, fs x → x < w.next)
    (h1 : Built w w1 es P) (h2 : Built w1 w2 fs Q) :
    Built w w2 (fun x => es x ∨ fs x) (fun w'' => P w'' ∧ Q w'') := by
  have hm1 := h1.mono
  have hm2 := h2.mono
  refine ⟨by omega, h2.clean, fun x hx hn => ?_, fun w'' hw => ⟨h1.does w'' fun x hx => ?_,
    h2.does w'' fun x hx => ?_⟩⟩
  · have a := h1.keep x hx fun h => hn (Or.inl h)
    have b := h2.keep x (by omega) fun h => hn (Or.inr h)
    exact ⟨b.1.trans a.1, b.2.trans a.2⟩
  · have hlt : x < w1.next := by
      rcases hx with hx | hx
      · have := hes x hx; omega
      · exact hx.2
    have hnf : ¬ fs x := by
      rcases hx with hx | hx
      · exact hd x hx
      · intro hf; have := hfs x hf; omega
    have b := h2.keep x hlt hnf
    have hx2 := hw x (by
      rcases hx with hx | hx
      · exact Or.inl (Or.inl hx)
      · exact Or.inr ⟨hx.1, by omega⟩)
    exact ⟨hx2.1.trans b.1, hx2.2.trans b.2⟩
  · apply hw x
    rcases hx with hx | hx
    · exact Or.inl (Or.inr hx)
    · exact Or.inr ⟨by omega, hx.2⟩

theorem Built.congr {w w' : W V} {es fs : Nat → Prop} {P Q : W V → Prop} (h : Built w w' es P)
    (he : ∀ x, es x ↔ fs x) (hq : ∀ w'', P w'' → Q w'') : Built w w' fs Q := by
  have : es = fs := funext fun x => propext (he x)
  subst this
  exact ⟨h.mono, h.clean, h.keep, fun w'' hw => hq _ (h.does w'' hw)⟩

theorem Built.fine {w w' : W V} {es : Nat → Prop} {P : W V → Prop} (h : Built w w' es P) {x : Nat}
    (hx : Fine w x) (hn : ¬ es x) : Fine w' x := by
  have := h.keep x hx.lt hn
  have hm := h.mono
  have := hx.lt
  exact ⟨by omega, by rw [(h.keep x hx.lt hn).1]; exact hx.op, by rw [(h.keep x hx.lt hn).2]; exact hx.dest⟩

/-- Nothing is built. -/
theorem Built.id {w : W V} (hc : Clean w) (es : Nat → Prop) (P : W V → Prop)
    (hP : ∀ w'', (∀ x, es x → w''.op x = w.op x ∧ w''.dest x = w.dest x) → P w'') :
    Built w w es P :=
  ⟨Nat.le_refl _, hc, fun _ _ _ => ⟨rfl, rfl⟩, fun w'' hw => hP w'' fun x hx => hw x (Or.inl hx)⟩

theorem spawns_eq (w : W V) (n : Nat) :
    w.spawns n = ({ w with next := w.next + n }, List.range' w.next n) := by
  induction n generalizing w with
  | zero => rfl
  | succ n ih =>
    simp only [W.spawns, W.spawn, ih, List.range'_succ]
    simp only [Nat.add_assoc, Nat.add_comm n 1]

theorem connect_built {w : W V} {e s : Nat} (hf : Fine w e) (hc : Clean w) :
    Built w (w.connect e s) (· = e) (fun w'' => w''.dest e = .slot s) := by
  refine ⟨Nat.le_refl _, fun x hx => ?_, fun x _ hn => ?_, fun w'' hw => ?_⟩
  · have hx' : w.next ≤ x := hx
    have := hf.lt
    have hne : x ≠ e := by omega
    simpa [W.connect, hne] using hc x hx
  · have hne : x ≠ e := hn
    simp [W.connect, hne]
  · rw [(hw e (Or.inl rfl)).2]; simp [W.connect]

theorem put_built {w : W V} {e : Nat} (hf : Fine w e) (hc : Clean w) (o : Op V) :
    Built w (w.put 0 e o) (· = e) (fun w'' => Own w'' e o) :=
  (Built.under (n := 0) (o := o) (es := fun _ => False) (P := fun _ => True) hf
    (fun _ h => h.elim) (Built.id (put_clean hc hf.lt o) _ _ fun _ _ => trivial)).congr
    (fun _ => Iff.rfl) fun _ h => h.1

section one
variable {w : W V} {e : Nat} {o : Op V}

/-- An operation with one target, and a chain on the target. -/
theorem one_built (hf : Fine w e) {w' : W V} {P : W V → Prop}
    (h : Built (w.put 1 e o) w' (· = w.next) P) :
    Built w w' (· = e) (fun w'' => Own w'' e o ∧ P w'') :=
  Built.under hf (fun x hx => by have hx' : x = w.next := hx; omega) h

/-- An operation with two targets; first a chain on one of them and then one on the other. -/
theorem two_built (hf : Fine w e) {w1 w2 : W V} {P Q : W V → Prop} {a b : Nat}
    (ha : a = w.next ∨ a = w.next + 1) (hb : b = w.next ∨ b = w.next + 1) (hab : a ≠ b)
    (h1 : Built (w.put 2 e o) w1 (· = a) P) (h2 : Built w1 w2 (· = b) Q) :
    Built w w2 (· = e) (fun w'' => Own w'' e o ∧ P w'' ∧ Q w'') := by
  refine Built.under (n := 2) (es := fun x => x = a ∨ x = b) hf (fun x hx => ?_)
    (Built.seq (fun x hx hx' => hab (hx.symm.trans hx')) (fun x hx => ?_) (fun x hx => ?_) h1 h2)
  · omega
  · show x < w.next + 2
    have : x = a := hx
    omega
  · show x < w.next + 2
    have : x = b := hx
    omega

end one

mutual
theorem build_spec : ∀ (c : Chain V) (e : Nat) (w : W V), Fine w e → Clean w →
    Built w (build c e w) (· = e) (fun w'' => Does w'' c e)
  | .connect s, e, w, hf, hc => by
    simp only [build, Does]
    exact connect_built hf hc
  | .unused, e, w, hf, hc => by
    simp only [build, Does]
    exact Built.id hc _ _ fun w'' hw => by
      have := hw e rfl
      exact ⟨this.2.trans hf.dest, this.1.trans hf.op⟩
  | .thenCancel text, e, w, hf, hc => by
    simp only [build, Does]
    exact put_built hf hc (.cancel text)
  | .map f rest, e, w, hf, hc => by
    simp only [build, Does, W.spawn]
    exact (one_built hf (build_spec rest _ _ (put_fine hc hf.lt _ (Nat.le_refl _) (by omega))
      (put_clean hc hf.lt _))).congr (fun _ => Iff.rfl) fun _ h => ⟨_, h⟩
  | .trigger unit rest, e, w, hf, hc => by
    simp only [build, Does, W.spawn]
    exact (one_built hf (build_spec rest _ _ (put_fine hc hf.lt _ (Nat.le_refl _) (by omega))
      (put_clean hc hf.lt _))).congr (fun _ => Iff.rfl) fun _ h => ⟨_, h⟩
  | .noop rest, e, w, hf, hc => by
    simp only [build, Does, W.spawn]
    exact (one_built hf (build_spec rest _ _ (put_fine hc hf.lt _ (Nat.le_refl _) (by omega))
      (put_clean hc hf.lt _))).congr (fun _ => Iff.rfl) fun _ h => ⟨_, h⟩
  | .spread view rest, e, w, hf, hc => by
    simp only [build, Does, W.spawn]
    exact (one_built hf (build_spec rest _ _ (put_fine hc hf.lt _ (Nat.le_refl _) (by omega))
      (put_clean hc hf.lt _))).congr (fun _ => Iff.rfl) fun _ h => ⟨_, h⟩
  | .cancelOnErr view rest, e, w, hf, hc => by
    simp only [build, Does, W.spawn]
    exact (one_built hf (build_spec rest _ _ (put_fine hc hf.lt _ (Nat.le_refl _) (by omega))
      (put_clean hc hf.lt _))).congr (fun _ => Iff.rfl) fun _ h => ⟨_, h⟩
  | .cancelOnQuietErr view rest, e, w, hf, hc => by
    simp only [build, Does, W.spawn]
    exact (one_built hf (build_spec rest _ _ (put_fine hc hf.lt _ (Nat.le_refl _) (by omega))
      (put_clean hc hf.lt _))).congr (fun _ => Iff.rfl) fun _ h => ⟨_, h⟩
  | .disposeOnErr view rest, e, w, hf, hc => by
    simp only [build, Does, W.spawn]
    exact (one_built hf (build_spec rest _ _ (put_fine hc hf.lt _ (Nat.le_refl _) (by omega))
      (put_clean hc hf.lt _))).congr (fun _ => Iff.rfl) fun _ h => ⟨_, h⟩
  | .disposeOnQuietErr view rest, e, w, hf, hc => by
    simp only [build, Does, W.spawn]
    exact (one_built hf (build_spec rest _ _ (put_fine hc hf.lt _ (Nat.le_refl _) (by omega))
      (put_clean hc hf.lt _))).congr (fun _ => Iff.rfl) fun _ h => ⟨_, h⟩
  | .disposeOnOk view rest, e, w, hf, hc => by
    simp only [build, Does, W.spawn]
    exact (one_built hf (build_spec rest _ _ (put_fine hc hf.lt _ (Nat.le_refl _) (by omega))
      (put_clean hc hf.lt _))).congr (fun _ => Iff.rfl) fun _ h => ⟨_, h⟩
  | .cancelOnNone view rest, e, w, hf, hc => by
    simp only [build, Does, W.spawn]
    exact (one_built hf (build_spec rest _ _ (put_fine hc hf.lt _ (Nat.le_refl _) (by omega))
      (put_clean hc hf.lt _))).congr (fun _ => Iff.rfl) fun _ h => ⟨_, h⟩
  | .disposeOnNone view rest, e, w, hf, hc => by
    simp only [build, Does, W.spawn]
    exact (one_built hf (build_spec rest _ _ (put_fine hc hf.lt _ (Nat.le_refl _) (by omega))
      (put_clean hc hf.lt _))).congr (fun _ => Iff.rfl) fun _ h => ⟨_, h⟩
  | .disposeOnSome view unit rest, e, w, hf, hc => by
    simp only [build, Does, W.spawn]
    exact (one_built hf (build_spec rest _ _ (put_fine hc hf.lt _ (Nat.le_refl _) (by omega))
      (put_clean hc hf.lt _))).congr (fun _ => Iff.rfl) fun _ h => ⟨_, h⟩
  | .cancellationFilter f view rest, e, w, hf, hc => by
    simp only [build, Does, W.spawn]
    have hf1 : Fine (w.put 1 e (.map f w.next)) w.next :=
      put_fine hc hf.lt _ (Nat.le_refl _) (by omega)
    have hc1 : Clean (w.put 1 e (.map f w.next)) := put_clean hc hf.lt _
    exact (one_built hf (one_built hf1 (build_spec rest _ _
      (put_fine hc1 hf1.lt _ (Nat.le_refl _) (by omega)) (put_clean hc1 hf1.lt _)))).congr
        (fun _ => Iff.rfl) fun _ h => ⟨_, h.1, _, h.2⟩
  | .disposalFilter f view rest, e, w, hf, hc => by
    simp only [build, Does, W.spawn]
    have hf1 : Fine (w.put 1 e (.map f w.next)) w.next :=
      put_fine hc hf.lt _ (Nat.le_refl _) (by omega)
    have hc1 : Clean (w.put 1 e (.map f w.next)) := put_clean hc hf.lt _
    exact (one_built hf (one_built hf1 (build_spec rest _ _
      (put_fine hc1 hf1.lt _ (Nat.le_refl _) (by omega)) (put_clean hc1 hf1.lt _)))).congr
        (fun _ => Iff.rfl) fun _ h => ⟨_, h.1, _, h.2⟩
  | .branchClone branch rest, e, w, hf, hc => by
    simp only [build, Does, W.spawn]
    have h1 := build_spec branch (w.next + 1) (w.put 2 e (.clone [w.next, w.next + 1]))
      (put_fine hc hf.lt _ (by omega) (by omega)) (put_clean hc hf.lt _)
    have h2 := build_spec rest w.next _
      (h1.fine (put_fine hc hf.lt _ (Nat.le_refl _) (by omega)) (by omega)) h1.clean
    exact (two_built hf (Or.inr rfl) (Or.inl rfl) (by omega) h1 h2).congr (fun _ => Iff.rfl)
      fun _ h => ⟨_, _, h⟩
  | .forkResult view ok err, e, w, hf, hc => by
    simp only [build, Does, W.spawn]
    have h1 := build_spec ok w.next (w.put 2 e (.result view w.next (w.next + 1)))
      (put_fine hc hf.lt _ (by omega) (by omega)) (put_clean hc hf.lt _)
    have h2 := build_spec err (w.next + 1) _
      (h1.fine (put_fine hc hf.lt _ (by omega) (by omega)) (by omega)) h1.clean
    exact (two_built hf (Or.inl rfl) (Or.inr rfl) (by omega) h1 h2).congr (fun _ => Iff.rfl)
      fun _ h => ⟨_, _, h⟩
  | .branchForErr view err rest, e, w, hf, hc => by
    simp only [build, Does, W.spawn]
    have h1 := build_spec err (w.next + 1) (w.put 2 e (.result view w.next (w.next + 1)))
      (put_fine hc hf.lt _ (by omega) (by omega)) (put_clean hc hf.lt _)
    have h2 := build_spec rest w.next _
      (h1.fine (put_fine hc hf.lt _ (by omega) (by omega)) (by omega)) h1.clean
    exact (two_built hf (Or.inr rfl) (Or.inl rfl) (by omega) h1 h2).congr (fun _ => Iff.rfl)
      fun _ h => ⟨_, _, h⟩
  | .connectOnErr view wrap s rest, e, w, hf, hc => by
    simp only [build, Does, W.spawn]
    have hfb : Fine (w.put 2 e (.result view w.next (w.next + 1))) (w.next + 1) :=
      put_fine hc hf.lt _ (by omega) (by omega)
    have hcb : Clean (w.put 2 e (.result view w.next (w.next + 1))) := put_clean hc hf.lt _
    have h1 := one_built (o := .map wrap (w.next + 1 + 1)) hfb (connect_built (s := s)
      (put_fine hcb hfb.lt _ (Nat.le_refl _) (by omega)) (put_clean hcb hfb.lt _))
    have h2 := build_spec rest w.next _
      (h1.fine (put_fine hc hf.lt _ (by omega) (by omega)) (by omega)) h1.clean
    exact (two_built hf (Or.inr rfl) (Or.inl rfl) (by omega) h1 h2).congr (fun _ => Iff.rfl)
      fun _ h => ⟨_, _, h.1, ⟨_, h.2.1⟩, h.2.2⟩
  | .forkOption view unit x y, e, w, hf, hc => by
    simp only [build, Does, W.spawn]
    have h1 := build_spec x w.next (w.put 2 e (.option view unit w.next (w.next + 1)))
      (put_fine hc hf.lt _ (by omega) (by omega)) (put_clean hc hf.lt _)
    have h2 := build_spec y (w.next + 1) _
      (h1.fine (put_fine hc hf.lt _ (by omega) (by omega)) (by omega)) h1.clean
    exact (two_built hf (Or.inl rfl) (Or.inr rfl) (by omega) h1 h2).congr (fun _ => Iff.rfl)
      fun _ h => ⟨_, _, h⟩
  | .branchForNone view unit y rest, e, w, hf, hc => by
    simp only [build, Does, W.spawn]
    have h1 := build_spec y (w.next + 1) (w.put 2 e (.option view unit w.next (w.next + 1)))
      (put_fine hc hf.lt _ (by omega) (by omega)) (put_clean hc hf.lt _)
    have h2 := build_spec rest w.next _
      (h1.fine (put_fine hc hf.lt _ (by omega) (by omega)) (by omega)) h1.clean
    exact (two_built hf (Or.inr rfl) (Or.inl rfl) (by omega) h1 h2).congr (fun _ => Iff.rfl)
      fun _ h => ⟨_, _, h⟩
  | .connectOnNone view unit nothing s rest, e, w, hf, hc => by
    simp only [build, Does, W.spawn]
    have hfb : Fine (w.put 2 e (.option view unit w.next (w.next + 1))) (w.next + 1) :=
      put_fine hc hf.lt _ (by omega) (by omega)
    have hcb : Clean (w.put 2 e (.option view unit w.next (w.next + 1))) := put_clean hc hf.lt _
    have h1 := one_built (o := .map (fun _ => nothing) (w.next + 1 + 1)) hfb
      (connect_built (s := s)
        (put_fine hcb hfb.lt _ (Nat.le_refl _) (by omega)) (put_clean hcb hfb.lt _))
    have h2 := build_spec rest w.next _
      (h1.fine (put_fine hc hf.lt _ (by omega) (by omega)) (by omega)) h1.clean
    exact (two_built hf (Or.inr rfl) (Or.inl rfl) (by omega) h1 h2).congr (fun _ => Iff.rfl)
      fun _ h => ⟨_, _, h.1, ⟨_, h.2.1⟩, h.2.2⟩
  | .forkClone cs, e, w, hf, hc => by
    simp only [build, Does, spawns_eq]
    have hm : ∀ x, x ∈ List.range' w.next cs.length → w.next ≤ x ∧ x < w.next + cs.length := by
      intro x hx
      simpa using List.mem_range'_1.mp hx
    exact (Built.under (n := cs.length) hf hm (buildAll_spec cs _ _ (by simp) List.nodup_range'
      (fun t ht => put_fine hc hf.lt _ (hm t ht).1 (hm t ht).2) (put_clean hc hf.lt _))).congr
        (fun _ => Iff.rfl) fun _ h => ⟨_, h⟩
  | .forkUnzip view cs, e, w, hf, hc => by
    simp only [build, Does, spawns_eq]
    have hm : ∀ x, x ∈ List.range' w.next cs.length → w.next ≤ x ∧ x < w.next + cs.length := by
      intro x hx
      simpa using List.mem_range'_1.mp hx
    exact (Built.under (n := cs.length) hf hm (buildAll_spec cs _ _ (by simp) List.nodup_range'
      (fun t ht => put_fine hc hf.lt _ (hm t ht).1 (hm t ht).2) (put_clean hc hf.lt _))).congr
        (fun _ => Iff.rfl) fun _ h => ⟨_, h⟩

theorem buildAll_spec : ∀ (cs : Chains V) (ts : List Nat) (w : W V), ts.length = cs.length →
    ts.Nodup → (∀ t, t ∈ ts → Fine w t) → Clean w →
    Built w (buildAll cs ts w) (· ∈ ts) (fun w'' => DoesAll w'' cs ts)
  | .nil, ts, w, hl, _, _, hc => by
    have : ts = [] := List.eq_nil_of_length_eq_zero hl
    subst this
    simp only [buildAll, DoesAll]
    exact Built.id hc _ _ fun _ _ => trivial
  | .cons c cs, [], w, hl, _, _, _ => by simp [Chains.length] at hl
  | .cons c cs, t :: ts, w, hl, hnd, hf, hc => by
    simp only [buildAll, DoesAll]
    have hnd' := List.nodup_cons.mp hnd
    have h1 := build_spec c t w (hf t (List.mem_cons_self ..)) hc
    have hne : ∀ x, x ∈ ts → x ≠ t := fun x hx e => hnd'.1 (e ▸ hx)
    have h2 := buildAll_spec cs ts _ (by simpa [Chains.length] using hl) hnd'.2
      (fun x hx => h1.fine (hf x (List.mem_cons_of_mem _ hx)) (hne x hx)) h1.clean
    exact (Built.seq (fun x hx hx' => hne x hx' hx)
      (fun x hx => by have hx' : x = t := hx; rw [hx']; exact (hf t (List.mem_cons_self ..)).lt)
      (fun x hx => (hf x (List.mem_cons_of_mem _ hx)).lt) h1 h2).congr
        (fun x => by simp) fun _ h => h
end

theorem built_does (c : Chain V) : Does (built c) c 0 := by
  have hf : Fine (W.spawn (W.empty : W V)).1 0 := ⟨by simp [W.spawn, W.empty], rfl, rfl⟩
  have hc : Clean (W.spawn (W.empty : W V)).1 := fun _ _ => ⟨rfl, rfl⟩
  exact (build_spec c 0 _ hf hc).does _ fun _ _ => ⟨rfl, rfl⟩

/-! ### Running -/

mutual
/-- An upper bound on the number of steps. -/
def cost : Chain V → V → Nat
  | .connect _, _ => 1
  | .unused, _ => 1
  | .thenCancel _, _ => 1
  | .map f rest, v => 1 + cost rest (f v)
  | .trigger unit rest, _ => 1 + cost rest unit
  | .noop rest, v => 1 + cost rest v
  | .branchClone branch rest, v => 1 + cost branch v + cost rest v
  | .forkClone cs, v => 1 + costClone cs v
  | .forkUnzip view cs, v => 1 + costZip cs (view v)
  | .spread view rest, v => 1 + ((view v).map (cost rest)).sum
  | .forkResult view ok err, v =>
    match view v with
    | .ok x => 1 + cost ok x
    | .error x => 1 + cost err x
  | .branchForErr view err rest, v =>
    match view v with
    | .ok x => 1 + cost rest x
    | .error x => 1 + cost err x
  | .connectOnErr view _ _ rest, v =>
    match view v with
    | .ok x => 1 + cost rest x
    | .error _ => 3
  | .cancelOnErr view rest, v | .cancelOnQuietErr view rest, v | .disposeOnErr view rest, v
  | .disposeOnQuietErr view rest, v =>
    match view v with
    | .ok x => 1 + cost rest x
    | .error _ => 1
  | .disposeOnOk view rest, v =>
    match view v with
    | .ok _ => 1
    | .error x => 1 + cost rest x
  | .forkOption view unit a b, v =>
    match view v with
    | some x => 1 + cost a x
    | none => 1 + cost b unit
  | .branchForNone view unit b rest, v =>
    match view v with
    | some x => 1 + cost rest x
    | none => 1 + cost b unit
  | .connectOnNone view _ _ _ rest, v =>
    match view v with
    | some x => 1 + cost rest x
    | none => 3
  | .cancelOnNone view rest, v | .disposeOnNone view rest, v =>
    match view v with
    | some x => 1 + cost rest x
    | none => 1
  | .disposeOnSome view unit rest, v =>
    match view v with
    | some _ => 1
    | none => 1 + cost rest unit
  | .cancellationFilter f view rest, v | .disposalFilter f view rest, v =>
    match view (f v) with
    | some x => 2 + cost rest x
    | none => 2

def costClone : Chains V → V → Nat
  | .nil, _ => 0
  | .cons c cs, v => cost c v + costClone cs v

def costZip : Chains V → List V → Nat
  | .cons c cs, x :: xs => cost c x + costZip cs xs
  | _, _ => 0
end

/-- A message together with the chain that it is in. -/
structure Job (w : W V) where
  chain : Chain V
  out : Nat
  val : V
  ok : Does w chain out

def Job.msg {w : W V} (j : Job w) : Dest × V := (w.dest j.out, j.val)
def Job.means {w : W V} (j : Job w) : List (Effect V) := Chain.means j.chain j.val
def Job.cost {w : W V} (j : Job w) : Nat := Chain.cost j.chain j.val

/-- What dealing with a message does is accounted for. -/
def Settles (w : W V) (d : Dest) (v : V) (m : List (Effect V)) (n : Nat) : Prop :=
  ∃ js : List (Job w), (deal w (d, v)).1 = js.map Job.msg
    ∧ m.Perm ((deal w (d, v)).2 ++ js.flatMap Job.means)
    ∧ (js.map Job.cost).sum + 1 ≤ n

theorem deal_own {w : W V} {e : Nat} {o : Op V} (h : Own w e o) (v : V) :
    deal w (w.dest e, v) = exec w v o := by
  simp only [deal, h.1, h.2]

theorem jobs_clone {w : W V} (v : V) : ∀ (cs : Chains V) (ts : List Nat), DoesAll w cs ts →
    ∃ js : List (Job w), (ts.map fun t => (w.dest t, v)) = js.map Job.msg
      ∧ js.flatMap Job.means = meansClone cs v ∧ (js.map Job.cost).sum = costClone cs v
  | .nil, [], _ => ⟨[], rfl, by simp [meansClone], by simp [costClone]⟩
  | .nil, _ :: _, h => by simp [DoesAll] at h
  | .cons _ _, [], h => by simp [DoesAll] at h
  | .cons c cs, t :: ts, h => by
    simp only [DoesAll] at h
    obtain ⟨js, h1, h2, h3⟩ := jobs_clone v cs ts h.2
    refine ⟨⟨c, t, v, h.1⟩ :: js, by simp [h1, Job.msg], ?_, ?_⟩
    · simp [h2, Job.means, meansClone]
    · simp [h3, Job.cost, costClone]

theorem jobs_zip {w : W V} : ∀ (cs : Chains V) (ts : List Nat) (vs : List V), DoesAll w cs ts →
    ∃ js : List (Job w), ((ts.zip vs).map fun p => (w.dest p.1, p.2)) = js.map Job.msg
      ∧ js.flatMap Job.means = meansZip cs vs ∧ (js.map Job.cost).sum = costZip cs vs
  | .nil, [], _, _ => ⟨[], rfl, by simp [meansZip], by simp [costZip]⟩
  | .nil, _ :: _, _, h => by simp [DoesAll] at h
  | .cons _ _, [], _, h => by simp [DoesAll] at h
  | .cons c cs, t :: ts, [], h => ⟨[], rfl, by simp [meansZip], by simp [costZip]⟩
  | .cons c cs, t :: ts, v :: vs, h => by
    simp only [DoesAll] at h
    obtain ⟨js, h1, h2, h3⟩ := jobs_zip cs ts vs h.2
    refine ⟨⟨c, t, v, h.1⟩ :: js, by simp [h1, Job.msg], ?_, ?_⟩
    · simp [h2, Job.means, meansZip]
    · simp [h3, Job.cost, costZip]

theorem jobs_spread {w : W V} {c : Chain V} {t : Nat} (h : Does w c t) : ∀ (vs : List V),
    ∃ js : List (Job w), (vs.map fun x => (w.dest t, x)) = js.map Job.msg
      ∧ js.flatMap Job.means = vs.flatMap (means c) ∧ (js.map Job.cost).sum = (vs.map (cost c)).sum
  | [] => ⟨[], rfl, rfl, rfl⟩
  | v :: vs => by
    obtain ⟨js, h1, h2, h3⟩ := jobs_spread h vs
    exact ⟨⟨c, t, v, h⟩ :: js, by simp [h1, Job.msg], by simp [h2, Job.means], by simp [h3, Job.cost]⟩

/-- One message goes on. -/
theorem settles_one {w : W V} {d : Dest} {v : V} {c : Chain V} {t : Nat} {x : V}
    {es : List (Effect V)} {n : Nat} (h : Does w c t)
    (hd : deal w (d, v) = ([(w.dest t, x)], es)) (hn : cost c x + 1 ≤ n) :
    Settles w d v (es ++ means c x) n :=
  ⟨[⟨c, t, x, h⟩], by rw [hd]; rfl, by rw [hd]; simp [Job.means], by simpa [Job.cost] using hn⟩

/-- No message goes on. -/
theorem settles_none {w : W V} {d : Dest} {v : V} {es : List (Effect V)} {n : Nat}
    (hd : deal w (d, v) = ([], es)) (hn : 1 ≤ n) : Settles w d v es n :=
  ⟨[], by rw [hd]; rfl, by rw [hd]; simp, by simpa using hn⟩

theorem settles (w : W V) (c : Chain V) (e : Nat) (v : V) (h : Does w c e) :
    Settles w (w.dest e) v (means c v) (cost c v) := by
  cases c with
  | connect s =>
    simp only [Does] at h
    simp only [means, cost]
    exact settles_none (by simp [deal, h]) (Nat.le_refl _)
  | unused =>
    simp only [Does] at h
    simp only [means, cost]
    exact settles_none (by simp [deal, h.1, h.2]) (Nat.le_refl _)
  | thenCancel text =>
    simp only [Does] at h
    simp only [means, cost]
    exact settles_none (by rw [deal_own h]; rfl) (Nat.le_refl _)
  | map f rest =>
    simp only [Does] at h
    obtain ⟨t, ho, hr⟩ := h
    simp only [means, cost]
    exact settles_one (es := []) hr (by rw [deal_own ho]; rfl) (by omega)
  | trigger unit rest =>
    simp only [Does] at h
    obtain ⟨t, ho, hr⟩ := h
    simp only [means, cost]
    exact settles_one (es := []) hr (by rw [deal_own ho]; rfl) (by omega)
  | noop rest =>
    simp only [Does] at h
    obtain ⟨t, ho, hr⟩ := h
    simp only [means, cost]
    exact settles_one (es := []) hr (by rw [deal_own ho]; rfl) (by omega)
  | branchClone branch rest =>
    simp only [Does] at h
    obtain ⟨a, b, ho, hb, hr⟩ := h
    simp only [means, cost]
    refine ⟨[⟨rest, a, v, hr⟩, ⟨branch, b, v, hb⟩], by rw [deal_own ho]; rfl, ?_, ?_⟩
    · rw [deal_own ho]
      simp only [exec, List.nil_append, List.flatMap_cons, List.flatMap_nil, Job.means,
        List.append_nil]
      exact List.perm_append_comm
    · simp [Job.cost]; omega
  | forkClone cs =>
    simp only [Does] at h
    obtain ⟨ts, ho, hr⟩ := h
    obtain ⟨js, h1, h2, h3⟩ := jobs_clone v cs ts hr
    simp only [means, cost]
    refine ⟨js, by rw [deal_own ho]; exact h1, ?_, by omega⟩
    rw [deal_own ho, h2]
    exact List.Perm.refl _
  | forkUnzip view cs =>
    simp only [Does] at h
    obtain ⟨ts, ho, hr⟩ := h
    obtain ⟨js, h1, h2, h3⟩ := jobs_zip cs ts (view v) hr
    simp only [means, cost]
    refine ⟨js, by rw [deal_own ho]; exact h1, ?_, by omega⟩
    rw [deal_own ho, h2]
    exact List.Perm.refl _
  | spread view rest =>
    simp only [Does] at h
    obtain ⟨t, ho, hr⟩ := h
    obtain ⟨js, h1, h2, h3⟩ := jobs_spread hr (view v)
    simp only [means, cost]
    refine ⟨js, by rw [deal_own ho]; exact h1, ?_, by omega⟩
    rw [deal_own ho, h2]
    simp only [exec]
    cases view v <;> simp
  | forkResult view ok err =>
    simp only [Does] at h
    obtain ⟨a, b, ho, ha, hb⟩ := h
    simp only [means, cost]
    cases hv : view v with
    | ok x => exact settles_one (es := [_]) ha (by rw [deal_own ho]; simp [exec, hv]) (by simp; omega)
    | error x => exact settles_one (es := [_]) hb (by rw [deal_own ho]; simp [exec, hv]) (by simp; omega)
  | branchForErr view err rest =>
    simp only [Does] at h
    obtain ⟨a, b, ho, hb, ha⟩ := h
    simp only [means, cost]
    cases hv : view v with
    | ok x => exact settles_one (es := [_]) ha (by rw [deal_own ho]; simp [exec, hv]) (by simp; omega)
    | error x => exact settles_one (es := [_]) hb (by rw [deal_own ho]; simp [exec, hv]) (by simp; omega)
  | connectOnErr view wrap s rest =>
    simp only [Does] at h
    obtain ⟨a, b, ho, hb, ha⟩ := h
    simp only [means, cost]
    cases hv : view v with
    | ok x => exact settles_one (es := [_]) ha (by rw [deal_own ho]; simp [exec, hv]) (by simp; omega)
    | error x =>
      have hb' : Does w (.map wrap (.connect s)) b := by simpa only [Does] using hb
      have := settles_one (d := w.dest e) (v := v) (x := x) (es := [.disposed .errInput]) (n := 3) hb'
        (by rw [deal_own ho]; simp [exec, hv]) (by simp [cost])
      simpa [means] using this
  | cancelOnErr view rest =>
    simp only [Does] at h
    obtain ⟨t, ho, hr⟩ := h
    simp only [means, cost]
    cases hv : view v with
    | ok x => exact settles_one (es := []) hr (by rw [deal_own ho]; simp [exec, filterErr, hv]) (by simp; omega)
    | error x => exact settles_none (by rw [deal_own ho]; simp [exec, filterErr, hv]) (by simp)
  | cancelOnQuietErr view rest =>
    simp only [Does] at h
    obtain ⟨t, ho, hr⟩ := h
    simp only [means, cost]
    cases hv : view v with
    | ok x => exact settles_one (es := []) hr (by rw [deal_own ho]; simp [exec, filterQuietErr, hv]) (by simp; omega)
    | error x => exact settles_none (by rw [deal_own ho]; simp [exec, filterQuietErr, hv]) (by simp)
  | disposeOnErr view rest =>
    simp only [Does] at h
    obtain ⟨t, ho, hr⟩ := h
    simp only [means, cost]
    cases hv : view v with
    | ok x => exact settles_one (es := []) hr (by rw [deal_own ho]; simp [exec, filterErr, hv]) (by simp; omega)
    | error x => exact settles_none (by rw [deal_own ho]; simp [exec, filterErr, hv]) (by simp)
  | disposeOnQuietErr view rest =>
    simp only [Does] at h
    obtain ⟨t, ho, hr⟩ := h
    simp only [means, cost]
    cases hv : view v with
    | ok x => exact settles_one (es := []) hr (by rw [deal_own ho]; simp [exec, filterQuietErr, hv]) (by simp; omega)
    | error x => exact settles_none (by rw [deal_own ho]; simp [exec, filterQuietErr, hv]) (by simp)
  | disposeOnOk view rest =>
    simp only [Does] at h
    obtain ⟨t, ho, hr⟩ := h
    simp only [means, cost]
    cases hv : view v with
    | ok x => exact settles_none (by rw [deal_own ho]; simp [exec, filterOk, hv]) (by simp)
    | error x => exact settles_one (es := []) hr (by rw [deal_own ho]; simp [exec, filterOk, hv]) (by simp; omega)
  | forkOption view unit x y =>
    simp only [Does] at h
    obtain ⟨a, b, ho, ha, hb⟩ := h
    simp only [means, cost]
    cases hv : view v with
    | some x => exact settles_one (es := [_]) ha (by rw [deal_own ho]; simp [exec, hv]) (by simp; omega)
    | none => exact settles_one (es := [_]) hb (by rw [deal_own ho]; simp [exec, hv]) (by simp; omega)
  | branchForNone view unit y rest =>
    simp only [Does] at h
    obtain ⟨a, b, ho, hb, ha⟩ := h
    simp only [means, cost]
    cases hv : view v with
    | some x => exact settles_one (es := [_]) ha (by rw [deal_own ho]; simp [exec, hv]) (by simp; omega)
    | none => exact settles_one (es := [_]) hb (by rw [deal_own ho]; simp [exec, hv]) (by simp; omega)
  | connectOnNone view unit nothing s rest =>
    simp only [Does] at h
    obtain ⟨a, b, ho, hb, ha⟩ := h
    simp only [means, cost]
    cases hv : view v with
    | some x => exact settles_one (es := [_]) ha (by rw [deal_own ho]; simp [exec, hv]) (by simp; omega)
    | none =>
      have hb' : Does w (.map (fun _ => nothing) (.connect s)) b := by simpa only [Does] using hb
      have := settles_one (d := w.dest e) (v := v) (x := unit) (es := [.disposed .noneInput]) (n := 3) hb'
        (by rw [deal_own ho]; simp [exec, hv]) (by simp [cost])
      simpa [means] using this
  | cancelOnNone view rest =>
    simp only [Does] at h
    obtain ⟨t, ho, hr⟩ := h
    simp only [means, cost]
    cases hv : view v with
    | some x => exact settles_one (es := []) hr (by rw [deal_own ho]; simp [exec, filterNone, hv]) (by simp; omega)
    | none => exact settles_none (by rw [deal_own ho]; simp [exec, filterNone, hv]) (by simp)
  | disposeOnNone view rest =>
    simp only [Does] at h
    obtain ⟨t, ho, hr⟩ := h
    simp only [means, cost]
    cases hv : view v with
    | some x => exact settles_one (es := []) hr (by rw [deal_own ho]; simp [exec, filterNone, hv]) (by simp; omega)
    | none => exact settles_none (by rw [deal_own ho]; simp [exec, filterNone, hv]) (by simp)
  | disposeOnSome view unit rest =>
    simp only [Does] at h
    obtain ⟨t, ho, hr⟩ := h
    simp only [means, cost]
    cases hv : view v with
    | some x => exact settles_none (by rw [deal_own ho]; simp [exec, filterSome, hv]) (by simp)
    | none => exact settles_one (es := []) hr (by rw [deal_own ho]; simp [exec, filterSome, hv]) (by simp; omega)
  | cancellationFilter f view rest =>
    simp only [Does] at h
    obtain ⟨t, ho, hr⟩ := h
    have hr' : Does w (.cancelOnNone view rest) t := by simpa only [Does] using hr
    have := settles_one (es := []) (n := cost (.cancelOnNone view rest) (f v) + 1) hr'
      (by rw [deal_own ho]; rfl) (Nat.le_refl _)
    simp only [means, cost] at this ⊢
    cases hv : view (f v) with
    | none => simp only [hv] at this ⊢; exact this
    | some x =>
      simp only [hv] at this ⊢
      rw [show 2 + cost rest x = 1 + cost rest x + 1 by omega]
      exact this
  | disposalFilter f view rest =>
    simp only [Does] at h
    obtain ⟨t, ho, hr⟩ := h
    have hr' : Does w (.disposeOnNone view rest) t := by simpa only [Does] using hr
    have := settles_one (es := []) (n := cost (.disposeOnNone view rest) (f v) + 1) hr'
      (by rw [deal_own ho]; rfl) (Nat.le_refl _)
    simp only [means, cost] at this ⊢
    cases hv : view (f v) with
    | none => simp only [hv] at this ⊢; exact this
    | some x =>
      simp only [hv] at this ⊢
      rw [show 2 + cost rest x = 1 + cost rest x + 1 by omega]
      exact this

/-- The messages under way are jobs, and what they mean makes up for what has not been seen. -/
structure Inv (w : W V) (m : List (Effect V)) (n : Nat) (s : St V) : Prop where
  inv : ∃ js : List (Job w), s.moving = js.map Job.msg ∧ m.Perm (s.seen ++ js.flatMap Job.means)
    ∧ (js.map Job.cost).sum ≤ n

theorem perm_eraseIdx {α : Type} : ∀ (l : List α) (i : Nat) (a : α), l[i]? = some a →
    l.Perm (a :: l.eraseIdx i)
  | [], i, a, h => by simp at h
  | x :: l, 0, a, h => by
    simp at h
    subst h
    exact List.Perm.refl _
  | x :: l, i + 1, a, h => by
    simp only [List.getElem?_cons_succ] at h
    simp only [List.eraseIdx_cons_succ]
    exact ((perm_eraseIdx l i a h).cons x).trans (List.Perm.swap ..)

theorem map_eraseIdx {α β : Type} (f : α → β) : ∀ (l : List α) (i : Nat),
    (l.map f).eraseIdx i = (l.eraseIdx i).map f
  | [], _ => rfl
  | _ :: _, 0 => rfl
  | x :: l, i + 1 => by simp [map_eraseIdx f l i]

theorem step_inv {w : W V} {m : List (Effect V)} {n : Nat} {s : St V} (h : Inv w m n s) (i : Nat)
    (hi : i < s.moving.length) : 1 ≤ n ∧ Inv w m (n - 1) (step w s i) := by
  obtain ⟨js, h1, h2, h3⟩ := h.inv
  have hil : i < js.length := by rw [h1] at hi; simpa using hi
  have hj : js[i]? = some js[i] := List.getElem?_eq_getElem hil
  have hm : s.moving[i]? = some (js[i]).msg := by rw [h1]; simp [hj]
  obtain ⟨ks, k1, k2, k3⟩ := settles w (js[i]).chain (js[i]).out (js[i]).val (js[i]).ok
  have hp := perm_eraseIdx js i _ hj
  have hsum : (js.map Job.cost).sum = (js[i]).cost + ((js.eraseIdx i).map Job.cost).sum := by
    rw [List.Perm.sum_nat (hp.map _)]; simp
  have hc : (js[i]).cost = cost (js[i]).chain (js[i]).val := rfl
  refine ⟨by omega, ⟨js.eraseIdx i ++ ks, ?_, ?_, ?_⟩⟩
  · simp only [step, hm]
    rw [List.map_append, h1, map_eraseIdx]
    congr 1
  · simp only [step, hm]
    have hp2 : (js.flatMap Job.means).Perm
        ((js[i]).means ++ (js.eraseIdx i).flatMap Job.means) := by
      have := hp.flatMap_right (Job.means (w := w))
      simpa using this
    refine h2.trans ?_
    rw [List.append_assoc]
    refine List.Perm.append_left _ (hp2.trans ?_)
    rw [List.flatMap_append]
    refine (k2.append_right _).trans ?_
    rw [List.append_assoc]
    exact List.Perm.append_left _ List.perm_append_comm
  · rw [List.map_append, List.sum_append]
    omega

theorem step_idle {w : W V} {s : St V} {i : Nat} (hi : ¬ i < s.moving.length) : step w s i = s := by
  unfold step
  rw [List.getElem?_eq_none (by omega)]

theorem run_inv {w : W V} {m : List (Effect V)} (is : List Nat) : ∀ {n : Nat} {s : St V},
    Inv w m n s → Inv w m n (run w s is) := by
  induction is with
  | nil => intro n s h; exact h
  | cons i is ih =>
    intro n s h
    show Inv w m n (run w (step w s i) is)
    apply ih
    by_cases hi : i < s.moving.length
    · obtain ⟨js, h1, h2, h3⟩ := (step_inv h i hi).2.inv
      exact ⟨js, h1, h2, by omega⟩
    · rw [step_idle hi]; exact h

theorem start_inv (c : Chain V) (v : V) : Inv (built c) (means c v) (cost c v) (sent (built c) v) :=
  ⟨[⟨c, 0, v, built_does c⟩], rfl, by simp [sent, Job.means], by simp [Job.cost]⟩

end Verif.Chain
