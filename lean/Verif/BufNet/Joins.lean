import Verif.BufNet.Ledger

/-
Invariants about the notifications of one join, used by Verif.BufNet.Props.
-/
set_option linter.unusedSectionVars false
set_option linter.unusedSimpArgs false
namespace Verif.BufNet

open Verif.Buffer (Storage Retention)

variable {B L S T : Type} [DecidableEq B] [DecidableEq L] [DecidableEq S]

/-- Up to `k`, there are as many notifications for `s` pending as complete sets. -/
def Enough (l : L) (bufs : List (B × Mode)) (s : S) (k : Nat) (st : St B L S T) : Prop :=
  ∀ n, (∀ p ∈ bufs, n ≤ (content st p.1 s).length) → n ≤ (st.lis l).pending.count s + k

theorem Enough.wakeAll {l : L} {bufs : List (B × Mode)} {s : S} {k : Nat} {st : St B L S T}
    (h : Enough l bufs s k st) (b : B) (s' : S) (ls : List L) :
    Enough l bufs s k (wakeAll b s' st ls).1 := by
  intro n hn
  have := h n (fun p hp => by have := hn p hp; rwa [wakeAll_content] at this)
  rw [wakeAll_pending, List.count_append]; omega

theorem Enough.woken {l : L} {bufs : List (B × Mode)} {s : S} {st : St B L S T}
    (h : Enough l bufs s 1 st) (b : B) (ls : List L) (hl : l ∈ ls) (ha : st.active s = true) :
    Enough l bufs s 0 (BufNet.wakeAll b s st ls).1 := by
  intro n hn
  have := h n (fun p hp => by have := hn p hp; rwa [wakeAll_content] at this)
  rw [wakeAll_pending, List.count_append, ha, if_pos rfl, List.count_replicate_self]
  have : 0 < ls.count l := List.count_pos_iff.2 hl
  omega

/-- The gates of the joined buffers are open for `s`. -/
def GatesOpen (bufs : List (B × Mode)) (s : S) (st : St B L S T) : Prop :=
  ∀ p ∈ bufs, isClosed (st.buf p.1) s = false

theorem gatesOpen_congr {bufs : List (B × Mode)} {s : S} {st st' : St B L S T}
    (h : GatesOpen bufs s st) (he : ∀ b, (st'.buf b).gate = (st.buf b).gate) :
    GatesOpen bufs s st' := by
  intro p hp
  have := h p hp
  unfold isClosed at this ⊢
  rw [he]; exact this

theorem setBuf_gate_same (st : St B L S T) (b : B) (n : BufNode L S T)
    (h : n.gate = (st.buf b).gate) (x : B) : ((setBuf st b n).buf x).gate = (st.buf x).gate := by
  by_cases hx : x = b
  · subst hx; simp [setBuf, h]
  · simp [setBuf, hx]

theorem execBuf_gate (st : St B L S T) (b x : B) :
    ((execBuf st b).1.buf x).gate = (st.buf x).gate := by
  unfold execBuf; split
  · rfl
  · simp only; split
    · by_cases hx : x = b <;> simp [setBuf, hx]
    · rw [(wakeAll_buf _ _ _ _).1]; by_cases hx : x = b <;> simp [setBuf, hx]

theorem execLis_gate (st : St B L S T) (l : L) (x : B) :
    ((execLis st l).1.buf x).gate = (st.buf x).gate := by
  rcases execLis_cases st l with ⟨-, he⟩ | ⟨s1, rest, hp, ⟨hk, he⟩ | ⟨bufs, hk, h'⟩⟩
  · rw [he]
  · rw [he]; rfl
  · rcases h' with ⟨-, he⟩ | ⟨-, hne, ⟨items, hi, he⟩ | ⟨hi, he⟩⟩
    · rw [he]; rfl
    · rw [he]; rw [(fetch_taken _ _ _).gate]; rfl
    · rw [he]; rw [(fetch_taken _ _ _).gate]; rfl

/-- How the gate of one buffer and session changes in a step. -/
theorem step_gate (st : St B L S T) (e : Ev B L S T) (b : B) (s : S) :
    isClosed ((step st e).1.buf b) s = isClosed (st.buf b) s ∨
    (isClosed ((step st e).1.buf b) s = true ∧
      (e = .gate b s .closed ∨ ∃ a, e = .keyGate b s a .closed)) ∨
    (isClosed ((step st e).1.buf b) s = false ∧ opens b s e = true) := by
  have same : ∀ st' : St B L S T, (st'.buf b).gate = (st.buf b).gate →
      isClosed (st'.buf b) s = isClosed (st.buf b) s := by
    intro st' h; unfold isClosed; rw [h]
  have setg : ∀ b' s' (g : Gate),
      isClosed ((setBuf st b' { st.buf b' with
        gate := fun x => if x = s' then some g else (st.buf b').gate x }).buf b) s =
        if b = b' ∧ s = s' then decide (g = .closed) else isClosed (st.buf b) s := by
    intro b' s' g
    by_cases hb : b = b'
    · subst hb
      by_cases hs : s = s'
      · subst hs; cases g <;> simp [isClosed, setBuf]
      · simp [isClosed, setBuf, hs]
    · simp [setBuf, hb]
  cases e with
  | send b' s' v =>
    left; simp only [step, send]; split
    · exact same _ (by by_cases hx : b = b' <;> simp [setBuf, hx])
    · rfl
  | exec =>
    left; simp only [step, exec]; split
    · rfl
    · exact same _ (execBuf_gate _ _ _)
    · exact same _ (execLis_gate _ _ _)
  | gate b' s' g =>
    simp only [step, gateAction]
    split
    · rename_i hg
      left
      rw [hg, setg]
      split
      · rename_i hbs
        obtain ⟨rfl, rfl⟩ := hbs
        rw [← hg]
        unfold isClosed
        cases (st.buf b).gate s with
        | none => rfl
        | some c => cases c <;> rfl
      · rfl
    · have hh : isClosed ((setBuf st b' { st.buf b' with
            gate := fun x => if x = s' then some g else (st.buf b').gate x }).buf b) s =
            isClosed (st.buf b) s ∨
          (isClosed ((setBuf st b' { st.buf b' with
            gate := fun x => if x = s' then some g else (st.buf b').gate x }).buf b) s = true ∧
            (Ev.gate b' s' g = (Ev.gate b s .closed : Ev B L S T) ∨
              ∃ a, Ev.gate b' s' g = (Ev.keyGate b s a .closed : Ev B L S T))) ∨
          (isClosed ((setBuf st b' { st.buf b' with
            gate := fun x => if x = s' then some g else (st.buf b').gate x }).buf b) s = false ∧
            opens b s (Ev.gate b' s' g : Ev B L S T) = true) := by
        rw [setg]
        by_cases hbs : b = b' ∧ s = s'
        · obtain ⟨rfl, rfl⟩ := hbs
          cases g with
          | closed => right; left; simp
          | «open» => right; right; simp [opens]
        · left; rw [if_neg hbs]
      split
      · rw [(wakeAll_buf _ _ _ _).1]; exact hh
      · exact hh
  | keyAccess b' s' a ops p =>
    left
    simp only [step, keyAccess, notifyUpdate]
    split
    · split
      · exact same _ (by by_cases hx : b = b' <;> simp [setBuf, hx])
      · rw [(wakeAll_buf _ _ _ _).1]; exact same _ (by by_cases hx : b = b' <;> simp [setBuf, hx])
    · exact same _ (by by_cases hx : b = b' <;> simp [setBuf, hx])
  | keyGate b' s' a g =>
    simp only [step, keyGate, notifyUpdate]
    split
    · left; rfl
    · have hh : isClosed ((setBuf st b' { st.buf b' with
            gate := fun x => if x = s' then some g else (st.buf b').gate x }).buf b) s =
            isClosed (st.buf b) s ∨
          (isClosed ((setBuf st b' { st.buf b' with
            gate := fun x => if x = s' then some g else (st.buf b').gate x }).buf b) s = true ∧
            (Ev.keyGate b' s' a g = (Ev.gate b s .closed : Ev B L S T) ∨
              ∃ a', Ev.keyGate b' s' a g = (Ev.keyGate b s a' .closed : Ev B L S T))) ∨
          (isClosed ((setBuf st b' { st.buf b' with
            gate := fun x => if x = s' then some g else (st.buf b').gate x }).buf b) s = false ∧
            opens b s (Ev.keyGate b' s' a g : Ev B L S T) = true) := by
        rw [setg]
        by_cases hbs : b = b' ∧ s = s'
        · obtain ⟨rfl, rfl⟩ := hbs
          cases g with
          | closed => right; left; simp
          | «open» => right; right; simp [opens]
        · left; rw [if_neg hbs]
      split
      · split
        · exact hh
        · rw [(wakeAll_buf _ _ _ _).1]; exact hh
      · exact hh
  | ending s' => left; rfl

theorem gatesOpen_step {bufs : List (B × Mode)} {s : S} {st : St B L S T}
    (h : GatesOpen bufs s st) (e : Ev B L S T) (he : keepsOpen bufs s e) :
    GatesOpen bufs s (step st e).1 := by
  intro p hp
  rcases step_gate st e p.1 s with h' | ⟨h', h2⟩ | ⟨h', -⟩
  · rw [h']; exact h p hp
  · rcases h2 with rfl | ⟨a, rfl⟩
    · exact absurd rfl (he rfl p hp)
    · exact absurd rfl (he rfl p hp)
  · exact h'

/-! ### Enough notifications -/

theorem enough_congr {l : L} {bufs : List (B × Mode)} {s : S} {k : Nat} {st st' : St B L S T}
    (h : Enough l bufs s k st) (hc : ∀ p ∈ bufs, (content st' p.1 s).length ≤ (content st p.1 s).length)
    (hp : (st'.lis l).pending.count s = (st.lis l).pending.count s) : Enough l bufs s k st' := by
  intro n hn
  rw [hp]
  exact h n (fun p hpm => Nat.le_trans (hn p hpm) (hc p hpm))

theorem enough_grow {l : L} {bufs : List (B × Mode)} {s : S} {st st' : St B L S T}
    (h : Enough l bufs s 0 st)
    (hc : ∀ p ∈ bufs, (content st' p.1 s).length ≤ (content st p.1 s).length + 1)
    (hp : (st'.lis l).pending.count s = (st.lis l).pending.count s) : Enough l bufs s 1 st' := by
  intro n hn
  rw [hp]
  have := h (n - 1) (fun p hpm => by
    have h1 := hn p hpm
    have h2 := hc p hpm
    omega)
  omega

theorem enough_execBuf {listeners : B → List L} {kind : L → Kind B} {ret : B → Retention}
    {l : L} {bufs : List (B × Mode)} {s : S} {st : St B L S T}
    (hst : Static ret listeners kind st) (hl : ∀ p ∈ bufs, l ∈ listeners p.1)
    (ha : st.active s = true) (hg : GatesOpen bufs s st) (h : Enough l bufs s 0 st) (b : B) :
    Enough l bufs s 0 (execBuf st b).1 := by
  unfold execBuf
  cases hin : (st.buf b).input with
  | nil => exact h
  | cons c rest =>
    obtain ⟨s', v⟩ := c
    simp only
    by_cases hbs : s' = s ∧ ∃ p ∈ bufs, p.1 = b
    · obtain ⟨rfl, p, hp, rfl⟩ := hbs
      have hcl : isClosed { st.buf p.1 with
          input := rest, store := ((st.buf p.1).store.forcePush s' v).1 } s' = false := hg p hp
      simp only [hcl, Bool.false_eq_true, if_false]
      refine Enough.woken ?_ _ _ (by rw [hst.listeners]; exact hl p hp) ha
      refine enough_grow h (fun q hq => ?_) rfl
      by_cases hqp : q.1 = p.1
      · have := (forcePush_sublist (st.buf p.1).store s' v).length_le
        simpa [content, setBuf, hqp] using this
      · simp [content, setBuf, hqp]
    · have h1 : Enough l bufs s 0 (setBuf st b { st.buf b with
          input := rest, store := ((st.buf b).store.forcePush s' v).1 }) := by
        refine enough_congr h (fun q hq => ?_) rfl
        by_cases hqb : q.1 = b
        · have hs : s ≠ s' := fun he => hbs ⟨he.symm, q, hq, hqb⟩
          simp [content, setBuf, hqb, forcePush_iter_other _ _ _ _ hs]
        · simp [content, setBuf, hqb]
      split
      · exact h1
      · exact h1.wakeAll _ _ _

theorem enough_execLis {ret : B → Retention} {listeners : B → List L} {kind : L → Kind B}
    {l : L} {bufs : List (B × Mode)} {s : S} {st : St B L S T}
    (hst : Static ret listeners kind st) (hk : kind l = .join bufs) (hbne : bufs ≠ [])
    (hnd : (bufs.map (·.1)).Nodup) (hpull : ∀ p ∈ bufs, p.2 = .pull)
    (h : Enough l bufs s 0 st) (l' : L) : Enough l bufs s 0 (execLis st l').1 := by
  have hle : ∀ s1 (st1 : St B L S T) bufs1 b, (∀ b, content st1 b s = content st b s) →
      (content (fetch s1 st1 bufs1).1 b s).length ≤ (content st b s).length := by
    intro s1 st1 bufs1 b hc
    by_cases hs : s1 = s
    · subst hs; rw [← hc]; exact (fetch_suffix s1 st1 bufs1 b).length_le
    · rw [(fetch_taken s1 st1 bufs1).other b s (Ne.symm hs), hc]; exact Nat.le_refl _
  rcases execLis_cases st l' with ⟨-, he⟩ | ⟨s1, rest, hp, h'⟩
  · rw [he]; exact h
  · generalize hst1 : setLis st l' { st.lis l' with pending := rest } = st1 at h'
    have hc : ∀ b s, content st1 b s = content st b s := by intros; subst hst1; rfl
    by_cases hll : l' = l
    · subst hll
      have hpend : (st1.lis l').pending = rest := by subst hst1; simp [setLis]
      have hkind : (st.lis l').kind = .join bufs := by rw [hst.kind]; exact hk
      rcases h' with ⟨hk', he⟩ | ⟨bufs', hk', h'⟩
      · rw [hkind] at hk'; cases hk'
      · rw [hkind] at hk'; cases hk'
        by_cases hs : s1 = s
        · subst hs
          rcases h' with ⟨he0, he⟩ | ⟨-, hne, ⟨items, hi, he⟩ | ⟨hi, he⟩⟩
          · rw [he]
            intro n hn
            rcases he0 with he0 | ⟨p, hpm, hp0⟩
            · exact absurd he0 hbne
            · have := hn p hpm
              rw [hc, hp0] at this
              simp at this; omega
          · rw [he]
            obtain ⟨_, _, _, _, h4⟩ := fetch_ok s1 st1 bufs hnd
              (fun p hp => by rw [hc]; exact hne p hp)
            intro n hn
            have := h (n + 1) (fun p hpm => by
              have h1 := hn p hpm
              have h2 : (p.1, Mode.pull) ∈ bufs := by
                have := hpull p hpm
                rw [← this]; exact hpm
              rw [h4, if_pos h2, hc, List.length_tail] at h1
              have h3 := List.length_pos_iff.2 (hne p hpm)
              omega)
            rw [(fetch_taken _ _ _).lis, hpend]
            rw [hp] at this
            simp at this; omega
          · exfalso
            obtain ⟨items, h1, -⟩ := fetch_ok s1 st1 bufs hnd
              (fun p hp => by rw [hc]; exact hne p hp)
            rw [h1] at hi; cases hi
        · have hcount : (st1.lis l').pending.count s = (st.lis l').pending.count s := by
            rw [hpend, hp, List.count_cons_of_ne hs]
          rcases h' with ⟨he0, he⟩ | ⟨-, hne, ⟨items, hi, he⟩ | ⟨hi, he⟩⟩
          · rw [he]; exact enough_congr h (fun p _ => by rw [hc]; exact Nat.le_refl _) hcount
          · rw [he]
            refine enough_congr h (fun p _ => hle _ _ _ _ (fun b => hc b s)) ?_
            rw [(fetch_taken _ _ _).lis]; exact hcount
          · rw [he]
            refine enough_congr h (fun p _ => hle _ _ _ _ (fun b => hc b s)) ?_
            rw [(fetch_taken _ _ _).lis]; exact hcount
    · have hpend : (st1.lis l).pending = (st.lis l).pending := by
        subst hst1; simp [setLis, Ne.symm hll]
      have hcount : (st1.lis l).pending.count s = (st.lis l).pending.count s := by rw [hpend]
      rcases h' with ⟨hk', he⟩ | ⟨bufs', hk', h'⟩
      · rw [he]; exact enough_congr h (fun p _ => by rw [hc]; exact Nat.le_refl _) hcount
      · rcases h' with ⟨he0, he⟩ | ⟨-, hne, ⟨items, hi, he⟩ | ⟨hi, he⟩⟩
        · rw [he]; exact enough_congr h (fun p _ => by rw [hc]; exact Nat.le_refl _) hcount
        · rw [he]
          refine enough_congr h (fun p _ => hle _ _ _ _ (fun b => hc b s)) ?_
          rw [(fetch_taken _ _ _).lis]; exact hcount
        · rw [he]
          refine enough_congr h (fun p _ => hle _ _ _ _ (fun b => hc b s)) ?_
          rw [(fetch_taken _ _ _).lis]; exact hcount

theorem grows_marks (o : Buffer.Op T) (h : grows o = true) : marks o = true := by
  cases o <;> simp_all [grows, marks]

theorem enough_step {ret : B → Retention} {listeners : B → List L} {kind : L → Kind B}
    {l : L} {bufs : List (B × Mode)} {s : S} {st : St B L S T}
    (hst : Static ret listeners kind st) (hk : kind l = .join bufs) (hbne : bufs ≠ [])
    (hnd : (bufs.map (·.1)).Nodup) (hpull : ∀ p ∈ bufs, p.2 = .pull)
    (hl : ∀ p ∈ bufs, l ∈ listeners p.1)
    (ha : st.active s = true) (hg : GatesOpen bufs s st) (h : Enough l bufs s 0 st)
    (e : Ev B L S T) (h1 : notBy l e) (h2 : addsOne e) :
    Enough l bufs s 0 (step st e).1 := by
  cases e with
  | send b s' v =>
    simp only [step, send]; split
    · refine enough_congr h (fun p _ => ?_) rfl
      by_cases hb : p.1 = b
      · simp [content, setBuf, hb]
      · simp [content, setBuf, hb]
    · exact h
  | exec =>
    simp only [step, exec]; split
    · exact h
    · rename_i rest hr
      exact enough_execBuf (st := { st with roster := rest }) (hst.of_roster rest) hl ha hg h _
    · rename_i rest hr
      exact enough_execLis (st := { st with roster := rest }) (hst.of_roster rest) hk hbne hnd hpull h _
  | gate b s' g =>
    have hsame : ∀ g', Enough l bufs s 0 (setBuf st b { st.buf b with gate := g' }) := by
      intro g'
      exact enough_congr h (fun p _ => by rw [(setBuf_gate_values _ _ _ _ _).1]; exact Nat.le_refl _) rfl
    simp only [step, gateAction]
    split
    · exact hsame _
    · split
      · exact (hsame _).wakeAll _ _ _
      · exact hsame _
  | keyAccess b s' a ops p =>
    simp only [step, keyAccess]
    simp only [addsOne] at h2
    have hcount := run_count (st.buf b).store s' ops
    rw [count_eq, count_eq] at hcount
    by_cases hbs : s' = s ∧ ∃ q ∈ bufs, q.1 = b
    · obtain ⟨rfl, q, hq, rfl⟩ := hbs
      by_cases hgr : ops.any grows = true
      · have hmark : ops.any marks = true := by
          rw [List.any_eq_true] at hgr ⊢
          obtain ⟨o, ho, hgo⟩ := hgr
          exact ⟨o, ho, grows_marks o hgo⟩
        simp only [hmark, Bool.or_true, if_true]
        have hopen : isClosed ((setBuf st q.1 { st.buf q.1 with
            store := (Buffer.run (st.buf q.1).store (ops.map fun o => (s', o))).1 }).buf q.1) s' =
            false := by
          have := hg q hq
          simpa [isClosed, setBuf] using this
        simp only [notifyUpdate, hopen, Bool.false_eq_true, if_false]
        refine Enough.woken ?_ _ _ ?_ ha
        · refine enough_grow h (fun x hx => ?_) rfl
          by_cases hxq : x.1 = q.1
          · simp only [content, setBuf, hxq, if_true]; omega
          · simp [content, setBuf, hxq]
        · have hlq := hl q hq
          rw [← hst.listeners] at hlq
          simp only [setBuf, if_true, List.mem_filter]
          exact ⟨hlq, by simpa [notBy] using h1⟩
      · have h0 : (ops.filter grows).length = 0 := by
          rw [List.length_eq_zero_iff, List.filter_eq_nil_iff]
          intro o ho hgo
          exact hgr (List.any_eq_true.2 ⟨o, ho, hgo⟩)
        have hE : Enough l bufs s' 0 (setBuf st q.1 { st.buf q.1 with
            store := (Buffer.run (st.buf q.1).store (ops.map fun o => (s', o))).1 }) := by
          refine enough_congr h (fun x hx => ?_) rfl
          by_cases hxq : x.1 = q.1
          · simp only [content, setBuf, hxq, if_true]; omega
          · simp [content, setBuf, hxq]
        split
        · unfold notifyUpdate; split
          · exact hE
          · exact hE.wakeAll _ _ _
        · exact hE
    · have hE : Enough l bufs s 0 (setBuf st b { st.buf b with
          store := (Buffer.run (st.buf b).store (ops.map fun o => (s', o))).1 }) := by
        refine enough_congr h (fun x hx => ?_) rfl
        by_cases hxb : x.1 = b
        · have hs : s ≠ s' := fun he => hbs ⟨he.symm, x, hx, hxb⟩
          simp [content, setBuf, hxb, iter_eq, run_other _ _ _ hs]
        · simp [content, setBuf, hxb]
      split
      · unfold notifyUpdate; split
        · exact hE
        · exact hE.wakeAll _ _ _
      · exact hE
  | keyGate b s' a g =>
    have hsame : ∀ g', Enough l bufs s 0 (setBuf st b { st.buf b with gate := g' }) := by
      intro g'
      exact enough_congr h (fun p _ => by rw [(setBuf_gate_values _ _ _ _ _).1]; exact Nat.le_refl _) rfl
    simp only [step, keyGate, notifyUpdate]
    split
    · exact h
    · split
      · split
        · exact hsame _
        · exact (hsame _).wakeAll _ _ _
      · exact hsame _
  | ending s' => exact h

theorem enough_run {ret : B → Retention} {listeners : B → List L} {kind : L → Kind B}
    {l : L} {bufs : List (B × Mode)} {s : S} {st : St B L S T}
    (hst : Static ret listeners kind st) (hk : kind l = .join bufs) (hbne : bufs ≠ [])
    (hnd : (bufs.map (·.1)).Nodup) (hpull : ∀ p ∈ bufs, p.2 = .pull)
    (hl : ∀ p ∈ bufs, l ∈ listeners p.1)
    (hg : GatesOpen bufs s st) (h : Enough l bufs s 0 st)
    (evs : List (Ev B L S T)) (h0 : ∀ e ∈ evs, keepsOpen bufs s e)
    (h1 : ∀ e ∈ evs, notBy l e) (h2 : ∀ e ∈ evs, addsOne e)
    (ha : (run st evs).1.active s = true) :
    Enough l bufs s 0 (run st evs).1 := by
  induction evs generalizing st with
  | nil => exact h
  | cons e evs ih =>
    have ha0 := active_run st (e :: evs) s ha
    exact ih (static_step hst e) (gatesOpen_step hg e (h0 e (by simp)))
      (enough_step hst hk hbne hnd hpull hl ha0 hg h e (h1 e (by simp)) (h2 e (by simp)))
      (fun x hx => h0 x (by simp [hx])) (fun x hx => h1 x (by simp [hx]))
      (fun x hx => h2 x (by simp [hx])) ha

/-! ### Woken at least once -/

/-- Every joined buffer holds a value and is open. -/
def Ready (bufs : List (B × Mode)) (s : S) (st : St B L S T) : Prop :=
  ∀ p ∈ bufs, content st p.1 s ≠ [] ∧ isClosed (st.buf p.1) s = false

/-- When the buffers are ready, `l` is about to run for `s`. -/
def Alert (l : L) (bufs : List (B × Mode)) (s : S) (st : St B L S T) : Prop :=
  Ready bufs s st → s ∈ (st.lis l).pending

theorem Alert.woken {l : L} {bufs : List (B × Mode)} {s : S} {st : St B L S T}
    (b : B) (ls : List L) (hl : l ∈ ls) (ha : st.active s = true) :
    Alert l bufs s (BufNet.wakeAll b s st ls).1 := by
  intro _
  rw [wakeAll_pending, ha, if_pos rfl]
  have : 0 < ls.count l := List.count_pos_iff.2 hl
  simp; right; omega

theorem mem_wakeAll {l : L} {s : S} {st : St B L S T} (h : s ∈ (st.lis l).pending)
    (b : B) (s' : S) (ls : List L) : s ∈ ((wakeAll b s' st ls).1.lis l).pending := by
  rw [wakeAll_pending]; simp [h]

theorem ready_wakeAll {bufs : List (B × Mode)} {s : S} {st : St B L S T} {b : B} {s' : S}
    {ls : List L} (h : Ready bufs s (wakeAll b s' st ls).1) : Ready bufs s st := by
  intro p hp
  have := h p hp
  rw [wakeAll_content, (wakeAll_buf _ _ _ _).1] at this
  exact this

theorem Alert.wakeAll {l : L} {bufs : List (B × Mode)} {s : S} {st : St B L S T}
    (h : Alert l bufs s st) (b : B) (s' : S) (ls : List L) :
    Alert l bufs s (wakeAll b s' st ls).1 :=
  fun hr => mem_wakeAll (h (ready_wakeAll hr)) _ _ _

theorem alert_congr {l : L} {bufs : List (B × Mode)} {s : S} {st st' : St B L S T}
    (h : Alert l bufs s st)
    (hc : ∀ p ∈ bufs, content st' p.1 s ≠ [] → content st p.1 s ≠ [])
    (hg : ∀ p ∈ bufs, isClosed (st'.buf p.1) s = false → isClosed (st.buf p.1) s = false)
    (hp : s ∈ (st.lis l).pending → s ∈ (st'.lis l).pending) : Alert l bufs s st' :=
  fun hr => hp (h (fun p hpm => ⟨hc p hpm (hr p hpm).1, hg p hpm (hr p hpm).2⟩))

/-- One step: afterwards the join is alert again, or it has just fired for `s`. -/
theorem alert_step {ret : B → Retention} {listeners : B → List L} {kind : L → Kind B}
    {l : L} {bufs : List (B × Mode)} {s : S} {st : St B L S T}
    (hst : Static ret listeners kind st) (hk : kind l = .join bufs) (hbne : bufs ≠ [])
    (hnd : (bufs.map (·.1)).Nodup) (hl : ∀ p ∈ bufs, l ∈ listeners p.1)
    (ha : st.active s = true) (h : Alert l bufs s st)
    (e : Ev B L S T) (h1 : notBy l e) :
    Alert l bufs s (step st e).1 ∨ messages l s (step st e).2 ≠ [] := by
  cases e with
  | send b s' v =>
    left
    simp only [step, send]; split
    · refine alert_congr h (fun p _ => ?_) (fun p _ => ?_) id
      · by_cases hb : p.1 = b
        · simp [content, setBuf, hb]
        · simp [content, setBuf, hb]
      · by_cases hb : p.1 = b
        · simp [isClosed, setBuf, hb]
        · simp [isClosed, setBuf, hb]
    · exact h
  | exec =>
    simp only [step, exec]; split
    · left; exact h
    · left
      rename_i b rest hr
      unfold execBuf
      simp only
      cases hin : (st.buf b).input with
      | nil => exact h
      | cons c ins =>
        obtain ⟨s', v⟩ := c
        simp only
        by_cases hbs : s' = s ∧ ∃ p ∈ bufs, p.1 = b
        · obtain ⟨rfl, p, hp, rfl⟩ := hbs
          split
          · rename_i hcl
            intro hready
            have := (hready p hp).2
            simp [setBuf, hcl] at this
          · exact Alert.woken _ _ (by rw [hst.listeners]; exact hl p hp) ha
        · have hA : Alert l bufs s (setBuf { st with roster := rest } b { st.buf b with
              input := ins, store := ((st.buf b).store.forcePush s' v).1 }) := by
            refine alert_congr h (fun q hq => ?_) (fun q hq => ?_) id
            · by_cases hqb : q.1 = b
              · have hs : s ≠ s' := fun he => hbs ⟨he.symm, q, hq, hqb⟩
                simp [content, setBuf, hqb, forcePush_iter_other _ _ _ _ hs]
              · simp [content, setBuf, hqb]
            · by_cases hqb : q.1 = b
              · simp [isClosed, setBuf, hqb]
              · simp [isClosed, setBuf, hqb]
          split
          · exact hA
          · exact hA.wakeAll _ _ _
    · rename_i l' rest hr
      generalize hst0 : ({ st with roster := rest } : St B L S T) = st0
      have hc0 : ∀ b s, content st0 b s = content st b s := by intros; subst hst0; rfl
      have hb0 : st0.buf = st.buf := by subst hst0; rfl
      have hl0 : st0.lis = st.lis := by subst hst0; rfl
      have hdown : ∀ s1 (st1 : St B L S T) bufs1, (∀ b s, content st1 b s = content st b s) →
          st1.buf = st.buf → (s ∈ (st.lis l).pending → s ∈ (st1.lis l).pending) →
          Alert l bufs s (fetch s1 st1 bufs1).1 := by
        intro s1 st1 bufs1 hc hb hp
        refine alert_congr h (fun p _ hne => ?_) (fun p _ => ?_) ?_
        · by_cases hs : s1 = s
          · subst hs
            rw [← hc]
            have := (fetch_suffix s1 st1 bufs1 p.1).length_le
            have h2 := List.length_pos_iff.2 hne
            exact List.length_pos_iff.1 (by omega)
          · rw [(fetch_taken _ _ _).other _ _ (Ne.symm hs), hc] at hne; exact hne
        · intro hcl
          unfold isClosed at hcl ⊢
          rw [(fetch_taken _ _ _).gate, hb] at hcl; exact hcl
        · rw [(fetch_taken _ _ _).lis]; exact hp
      rcases execLis_cases st0 l' with ⟨-, he⟩ | ⟨s1, rest', hp, h'⟩
      · left; rw [he]
        exact alert_congr h (fun p _ => by rw [hc0]; exact id) (fun p _ => by rw [hb0]; exact id)
          (by rw [hl0]; exact id)
      · generalize hst1 : setLis st0 l' { st0.lis l' with pending := rest' } = st1 at h'
        have hc : ∀ b s, content st1 b s = content st b s := by
          intro b s; subst hst1; exact hc0 b s
        have hb1 : st1.buf = st.buf := by subst hst1; exact hb0
        rw [hl0] at hp h'
        by_cases hll : l' = l
        · subst hll
          have hpend : (st1.lis l').pending = rest' := by subst hst1; simp [setLis]
          have hkind : (st.lis l').kind = .join bufs := by rw [hst.kind]; exact hk
          rcases h' with ⟨hk', he⟩ | ⟨bufs', hk', h'⟩
          · rw [hkind] at hk'; cases hk'
          · rw [hkind] at hk'; cases hk'
            by_cases hs : s1 = s
            · subst hs
              rcases h' with ⟨he0, he⟩ | ⟨-, hne, ⟨items, hi, he⟩ | ⟨hi, he⟩⟩
              · left; rw [he]
                intro hready
                rcases he0 with he0 | ⟨p, hpm, hp0⟩
                · exact absurd he0 hbne
                · have := (hready p hpm).1
                  rw [hc] at this
                  rw [hc0] at hp0
                  exact absurd hp0 this
              · right; rw [he]; simp [messages]
              · exfalso
                obtain ⟨items, h1, -⟩ := fetch_ok s1 st1 bufs hnd
                  (fun p hp => by rw [hc, ← hc0]; exact hne p hp)
                rw [h1] at hi; cases hi
            · left
              have hmem : s ∈ (st.lis l').pending → s ∈ (st1.lis l').pending := by
                rw [hpend, hp]; intro hm
                rcases List.mem_cons.1 hm with rfl | hm
                · exact absurd rfl hs
                · exact hm
              rcases h' with ⟨he0, he⟩ | ⟨-, hne, ⟨items, hi, he⟩ | ⟨hi, he⟩⟩
              · rw [he]
                exact alert_congr h (fun p _ => by rw [hc]; exact id)
                  (fun p _ => by rw [hb1]; exact id) hmem
              · rw [he]; exact hdown _ _ _ hc hb1 hmem
              · rw [he]; exact hdown _ _ _ hc hb1 hmem
        · left
          have hmem : s ∈ (st.lis l).pending → s ∈ (st1.lis l).pending := by
            subst hst1; simp [setLis, Ne.symm hll, hl0]
          rcases h' with ⟨hk', he⟩ | ⟨bufs', hk', h'⟩
          · rw [he]
            exact alert_congr h (fun p _ => by rw [hc]; exact id)
              (fun p _ => by rw [hb1]; exact id) hmem
          · rcases h' with ⟨he0, he⟩ | ⟨-, hne, ⟨items, hi, he⟩ | ⟨hi, he⟩⟩
            · rw [he]
              exact alert_congr h (fun p _ => by rw [hc]; exact id)
                (fun p _ => by rw [hb1]; exact id) hmem
            · rw [he]; exact hdown _ _ _ hc hb1 hmem
            · rw [he]; exact hdown _ _ _ hc hb1 hmem
  | gate b s' g =>
    left
    simp only [step, gateAction]
    split
    · rename_i hcur
      refine alert_congr h (fun p _ => by rw [(setBuf_gate_values _ _ _ _ _).1]; exact id)
        (fun p _ => ?_) id
      by_cases hb : p.1 = b
      · by_cases hs : s = s'
        · subst hs; simp [isClosed, setBuf, hb, hcur]
        · simp [isClosed, setBuf, hb, hs]
      · simp [isClosed, setBuf, hb]
    · rename_i hcur
      by_cases hbs : s' = s ∧ ∃ p ∈ bufs, p.1 = b
      · obtain ⟨rfl, p, hp, rfl⟩ := hbs
        split
        · exact Alert.woken _ _ (by rw [hst.listeners]; exact hl p hp) ha
        · rename_i hg
          intro hready
          have := (hready p hp).2
          cases g with
          | «open» => exact absurd rfl hg
          | closed => simp [isClosed, setBuf] at this
      · have hA : Alert l bufs s (setBuf st b { st.buf b with
            gate := fun x => if x = s' then some g else (st.buf b).gate x }) := by
          refine alert_congr h (fun p _ => by rw [(setBuf_gate_values _ _ _ _ _).1]; exact id)
            (fun p hp => ?_) id
          by_cases hb : p.1 = b
          · have hs : s ≠ s' := fun he => hbs ⟨he.symm, p, hp, hb⟩
            simp [isClosed, setBuf, hb, hs]
          · simp [isClosed, setBuf, hb]
        split
        · exact hA.wakeAll _ _ _
        · exact hA
  | keyAccess b s' a ops p =>
    left
    simp only [step, keyAccess]
    by_cases hm : (p || ops.any marks) = true
    · simp only [hm, if_true, notifyUpdate]
      by_cases hbs : s' = s ∧ ∃ q ∈ bufs, q.1 = b
      · obtain ⟨rfl, q, hq, rfl⟩ := hbs
        split
        · rename_i hcl
          intro hready
          have := (hready q hq).2
          rw [hcl] at this; cases this
        · refine Alert.woken _ _ ?_ ha
          have hlq := hl q hq
          rw [← hst.listeners] at hlq
          simp only [setBuf, if_true, List.mem_filter]
          exact ⟨hlq, by simpa [notBy] using h1⟩
      · have hA : Alert l bufs s (setBuf st b { st.buf b with
            store := (Buffer.run (st.buf b).store (ops.map fun o => (s', o))).1 }) := by
          refine alert_congr h (fun x hx => ?_) (fun x _ => ?_) id
          · by_cases hxb : x.1 = b
            · have hs : s ≠ s' := fun he => hbs ⟨he.symm, x, hx, hxb⟩
              simp [content, setBuf, hxb, iter_eq, run_other _ _ _ hs]
            · simp [content, setBuf, hxb]
          · by_cases hxb : x.1 = b
            · simp [isClosed, setBuf, hxb]
            · simp [isClosed, setBuf, hxb]
        split
        · exact hA
        · exact hA.wakeAll _ _ _
    · simp only [hm, if_false]
      have hany : ops.any marks = false := by
        cases hx : ops.any marks with
        | false => rfl
        | true => simp [hx] at hm
      rw [run_unmarked _ _ _ hany]
      refine alert_congr h (fun x _ => ?_) (fun x _ => ?_) id
      · by_cases hxb : x.1 = b
        · simp [content, setBuf, hxb]
        · simp [content, setBuf, hxb]
      · by_cases hxb : x.1 = b
        · simp [isClosed, setBuf, hxb]
        · simp [isClosed, setBuf, hxb]
  | keyGate b s' a g =>
    left
    simp only [step, keyGate, notifyUpdate]
    split
    · exact h
    · rename_i cur hcur
      by_cases hbs : s' = s ∧ ∃ p ∈ bufs, p.1 = b
      · obtain ⟨rfl, p, hp, rfl⟩ := hbs
        split
        · split
          · rename_i hcl
            intro hready
            have := (hready p hp).2
            rw [hcl] at this; cases this
          · refine Alert.woken _ _ ?_ ha
            have hlq := hl p hp
            rw [← hst.listeners] at hlq
            simp only [setBuf, if_true, List.mem_filter]
            exact ⟨hlq, by simpa [notBy] using h1⟩
        · rename_i hg
          cases g with
          | «open» =>
            have hco : cur = .open := by
              cases cur with
              | «open» => rfl
              | closed => exact absurd ⟨rfl, by simp⟩ hg
            refine alert_congr h (fun x _ => by rw [(setBuf_gate_values _ _ _ _ _).1]; exact id)
              (fun x _ => ?_) id
            by_cases hxb : x.1 = p.1
            · simp [isClosed, setBuf, hxb, hcur, hco]
            · simp [isClosed, setBuf, hxb]
          | closed =>
            intro hready
            have := (hready p hp).2
            simp [isClosed, setBuf] at this
      · have hA : Alert l bufs s (setBuf st b { st.buf b with
            gate := fun x => if x = s' then some g else (st.buf b).gate x }) := by
          refine alert_congr h (fun p _ => by rw [(setBuf_gate_values _ _ _ _ _).1]; exact id)
            (fun p hp => ?_) id
          by_cases hb : p.1 = b
          · have hs : s ≠ s' := fun he => hbs ⟨he.symm, p, hp, hb⟩
            simp [isClosed, setBuf, hb, hs]
          · simp [isClosed, setBuf, hb]
        split
        · split
          · exact hA
          · exact hA.wakeAll _ _ _
        · exact hA
  | ending s' => left; exact h

end Verif.BufNet
