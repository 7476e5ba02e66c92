import Verif.Zenoh.Config

/-
C109: each option of a zenoh node takes effect.
C110: the zenoh nodes of a World share one session.

An option takes effect if what zenoh is asked for tells its value: two configurations that differ
in the option lead to different settings.
-/
set_option linter.unusedSimpArgs false

namespace Verif.Zenoh.Config

variable {D C : Type}

/-! ### C109 -/

/-- **C109** for queriers. -/
theorem C109_querier (c c' : Querier D) (h : c.settings = c'.settings) : c = c' := by
  obtain ⟨_, _, _, _, _, _, _, _, t⟩ := c
  obtain ⟨_, _, _, _, _, _, _, _, t'⟩ := c'
  cases t <;> cases t' <;> simp [Querier.settings] at h ⊢ <;> simp [h]

theorem mem_flag {α : Type} (b : Bool) (a x : α) :
    x ∈ (if b then [a] else []) ↔ b = true ∧ x = a := by
  cases b <;> simp

/-- **C109** for subscriptions: zenoh is asked for exactly what the options say. -/
theorem C109_subscription_settings (c : Subscription D) (x : SubSetting D) :
    x ∈ c.settings ↔
      match x with
      | .key k => c.key = k
      | .origin l => c.locality = l
      | .detectLate => c.detectLate = true
      | .samples n => c.maxSamples = some n
      | .age d => c.maxAge = some d
      | .periodicQueries d => c.recovery = .periodicQueries d
      | .heartbeat => c.recovery = .heartbeat := by
  have hr : ∀ x, x ∈ c.recovery.settings ↔ (∃ d, c.recovery = .periodicQueries d ∧
      x = .periodicQueries d) ∨ (c.recovery = .heartbeat ∧ x = .heartbeat) := by
    intro x
    cases c.recovery <;> simp [Recovery.settings, eq_comm]
  simp only [Subscription.settings, List.mem_append, List.mem_map, Option.mem_toList, hr, mem_flag,
    List.mem_cons, List.not_mem_nil, or_false]
  cases x <;> simp
  · exact eq_comm
  · exact eq_comm

/-- **C109** for subscriptions. -/
theorem C109_subscription (c c' : Subscription D) (h : c.settings = c'.settings) : c = c' := by
  have key : ∀ x, x ∈ c.settings ↔ x ∈ c'.settings := fun x => by rw [h]
  simp only [C109_subscription_settings] at key
  obtain ⟨k, l, n, a, r, o⟩ := c
  obtain ⟨k', l', n', a', r', o'⟩ := c'
  simp only at key
  have h1 : k = k' := ((key (.key k')).2 rfl)
  have h2 : o = o' := ((key (.origin o')).2 rfl)
  have h3 : l = l' := by
    have := key .detectLate
    simp only at this
    cases l <;> cases l' <;> simp_all
  have h4 : n = n' := Option.ext fun m => key (.samples m)
  have h5 : a = a' := Option.ext fun m => key (.age m)
  have h6 : r = r' := by
    cases r' with
    | periodicQueries d => exact (key (.periodicQueries d)).2 rfl
    | heartbeat => exact (key .heartbeat).2 rfl
    | none =>
      cases r with
      | none => rfl
      | periodicQueries d => exact absurd ((key (.periodicQueries d)).1 rfl) (by simp)
      | heartbeat => exact absurd ((key .heartbeat).1 rfl) (by simp)
  rw [h1, h2, h3, h4, h5, h6]

/-- **C109** for publishers, as far as it holds: all options but the reliability and the locality
make a difference. Missing to the claim: those two. (The difference that an option makes can be the
wrong one: see `C109_heartbeat_violated` and `C109_publisher_violated`.) -/
theorem C109_publisher_partial (c c' : Publisher D) (h : c.settings = c'.settings) :
    c.key = c'.key ∧ c.maxSamples = c'.maxSamples ∧ c.heartbeat = c'.heartbeat ∧
    c.priority = c'.priority ∧ c.congestion = c'.congestion ∧ c.express = c'.express := by
  obtain ⟨_, n, b, _, _, _, _, _⟩ := c
  obtain ⟨_, n', b', _, _, _, _, _⟩ := c'
  cases n <;> cases n' <;> rcases b with _ | ⟨p, s⟩ <;> rcases b' with _ | ⟨p', s'⟩ <;>
    (try cases s) <;> (try cases s') <;>
    simp [Publisher.settings, Publisher.cache, Heartbeat.setting] at h ⊢ <;> simp [h]

/-- The settings by which messages themselves are published. -/
def PubSetting.direct : PubSetting D → Bool
  | .congestion _ | .priority _ | .express _ | .reliability _ | .locality _ => true
  | _ => false

/-- **C109** is false of publishers: whatever the configuration, nothing is set of how messages are
published (the options only apply to the replies from the cache), and reliability and locality are
not used at all. -/
theorem C109_publisher_violated (c : Publisher D) :
    (∀ x ∈ c.settings, x.direct = false) ∧
    ∀ r l, c.settings = ({ c with reliability := r, locality := l } : Publisher D).settings := by
  refine ⟨?_, fun _ _ => rfl⟩
  obtain ⟨_, n, b, _, _, _, _, _⟩ := c
  cases n <;> rcases b with _ | ⟨p, s⟩ <;> (try cases s) <;>
    simp [Publisher.settings, Publisher.cache, Heartbeat.setting, PubSetting.direct]

/-- **C109** is false of heartbeats: a sporadic heartbeat is what one gets if one asks for a
regular one, and only then. -/
theorem C109_heartbeat_violated (c : Publisher D) (h : Heartbeat D) (hc : c.heartbeat = some h) :
    (.sporadicHeartbeat h.period ∈ c.settings ↔ h.sporadic = false) ∧
    (.heartbeat h.period ∈ c.settings ↔ h.sporadic = true) := by
  obtain ⟨_, n, b, _, _, _, _, _⟩ := c
  obtain ⟨p, s⟩ := h
  simp only at hc
  subst hc
  cases n <;> cases s <;> simp [Publisher.settings, Publisher.cache, Heartbeat.setting]

example : ∃ c : Publisher Nat, c.heartbeat = some ⟨1, false⟩ ∧ c.reliability = .reliable ∧
    .sporadicHeartbeat 1 ∈ c.settings :=
  ⟨⟨"k", some 3, some ⟨1, false⟩, .data, .drop, false, .reliable, .any⟩, rfl, rfl, by decide⟩

example : (⟨"k", true, some 2, none, .periodicQueries 5, .remote⟩ : Subscription Nat).settings =
    [.key "k", .origin .remote, .detectLate, .samples 2, .periodicQueries 5] := rfl

example : (⟨"k", [("a", "b")], .block, .data, true, .all, .latest, .any, some 3⟩ :
    Querier Nat).settings = [.key "k", .congestion .block, .priority .data, .express true,
      .target .all, .consolidation .latest, .destination .any, .timeout 3,
      .parameters [("a", "b")]] := rfl

/-! ### C110 -/

/-- All events are about this registry, which is enabled once, and this World. -/
def Single (r w : Nat) (c : C) (vs : List (Ev C)) : Prop :=
  ∃ bs, vs = .enable r c :: bs ∧ ∀ v ∈ bs, v = .build r w

theorem single_run (r w : Nat) (c : C) (bs : List (Ev C)) (hb : ∀ v ∈ bs, v = .build r w)
    (hne : bs ≠ []) :
    let e := (({} : Env C).run (.enable r c :: bs))
    e.opened = [(w, c)] ∧ e.session w = some 0 ∧ e.pending r = none := by
  cases bs with
  | nil => exact absurd rfl hne
  | cons b bs =>
    have hv := hb b (by simp)
    subst hv
    have rest : ∀ (l : List (Ev C)) (e : Env C), (∀ v ∈ l, v = .build r w) →
        e.opened = [(w, c)] ∧ e.session w = some 0 ∧ e.pending r = none →
        (e.run l).opened = [(w, c)] ∧ (e.run l).session w = some 0 ∧
          (e.run l).pending r = none := by
      intro l
      induction l with
      | nil => exact fun _ _ h => h
      | cons v l ih =>
        intro e hl he
        have hv := hl v (by simp)
        subst hv
        refine ih _ (fun v hv => hl v (by simp [hv])) ?_
        have : e.step (.build r w) = e := by simp only [Env.step, he.2.2]
        rw [this]
        exact he
    refine rest bs _ (fun v hv => hb v (by simp [hv])) ?_
    simp [Env.step]

/-- **C110**, as far as it holds: if zenoh is enabled for one registry, once, and the registry is
used with one World, then one session is opened, with the given configuration, when the first node
is built, and it is the session of that World from then on. Missing to the claim: more registries,
more Worlds. -/
theorem C110_single_partial (r w : Nat) (c : C) (vs : List (Ev C)) (h : Single r w c vs)
    (hb : 1 < vs.length) :
    let e := ({} : Env C).run vs
    e.opened = [(w, c)] ∧ e.session w = some 0 := by
  obtain ⟨bs, rfl, hbs⟩ := h
  have := single_run r w c bs hbs (by intro h; rw [h] at hb; simp at hb)
  exact ⟨this.1, this.2.1⟩

/-- **C110**: the session of a World is the last one that was opened for it. -/
theorem C110_latest (vs : List (Ev C)) (w n : Nat)
    (h : (({} : Env C).run vs).session w = some n) :
    (∃ c, (({} : Env C).run vs).opened[n]? = some (w, c)) ∧
    ∀ m c, (({} : Env C).run vs).opened[m]? = some (w, c) → m ≤ n := by
  have gen : ∀ (l : List (Ev C)) (e : Env C),
      (∀ w n, e.session w = some n → (∃ c, e.opened[n]? = some (w, c)) ∧
        ∀ m c, e.opened[m]? = some (w, c) → m ≤ n) →
      (∀ w n, (e.run l).session w = some n → (∃ c, (e.run l).opened[n]? = some (w, c)) ∧
        ∀ m c, (e.run l).opened[m]? = some (w, c) → m ≤ n) := by
    intro l
    induction l with
    | nil => exact fun _ h => h
    | cons v l ih =>
      intro e he
      refine ih _ ?_
      cases v with
      | enable r c => exact he
      | build r w' =>
        simp only [Env.step]
        split
        · exact he
        · rename_i c hc
          intro w n hn
          simp only at hn ⊢
          by_cases hw : w = w'
          · subst hw
            rw [if_pos rfl] at hn
            cases hn
            refine ⟨⟨c, by simp⟩, fun m c' hm => ?_⟩
            have := (List.getElem?_eq_some_iff.1 hm).1
            simp at this
            omega
          · rw [if_neg hw] at hn
            obtain ⟨⟨c', h1⟩, h2⟩ := he w n hn
            refine ⟨⟨c', ?_⟩, fun m c'' hm => ?_⟩
            · rw [List.getElem?_append_left (List.getElem?_eq_some_iff.1 h1).1]; exact h1
            · by_cases hl : m < e.opened.length
              · rw [List.getElem?_append_left hl] at hm
                exact h2 m c'' hm
              · have hl' := (List.getElem?_eq_some_iff.1 hm).1
                simp at hl'
                have : m = e.opened.length := by omega
                subst this
                simp at hm
                exact absurd hm.1.symm hw
  exact gen vs {} (by simp) w n h

/-- **C110** is false with two registries: nodes of one World lead to two sessions, and the second
one takes the place of the first. -/
theorem C110_registries_violated (c c' : C) (r r' w : Nat) (hr : r ≠ r') :
    let e := ({} : Env C).run [.enable r c, .enable r' c', .build r w, .build r' w]
    e.opened = [(w, c), (w, c')] ∧ e.session w = some 1 := by
  simp [Env.run, Env.step, hr, Ne.symm hr]

/-- **C110** is false with two Worlds: a registry that has been used with one World never opens a
session for another one, so the nodes there do not find the resource that they need. -/
theorem C110_worlds_violated (c : C) (r w w' : Nat) (hw : w' ≠ w) (bs : List (Ev C))
    (hb : ∀ v ∈ bs, ∃ w'', v = .build r w'') :
    (({} : Env C).run (.enable r c :: .build r w :: bs)).session w' = none := by
  have gen : ∀ (l : List (Ev C)) (e : Env C), (∀ v ∈ l, ∃ w'', v = .build r w'') →
      e.pending r = none → e.session w' = none → (e.run l).session w' = none := by
    intro l
    induction l with
    | nil => exact fun _ _ _ h => h
    | cons v l ih =>
      intro e hl hp hs
      obtain ⟨w'', rfl⟩ := hl v (by simp)
      refine ih _ (fun v hv => hl v (by simp [hv])) ?_ ?_ <;> simp only [Env.step, hp]
      exact hs
  refine gen bs _ hb ?_ ?_ <;> simp [Env.step, hw]

example : Single 0 5 "cfg" [.enable 0 "cfg", .build 0 5, .build 0 5] :=
  ⟨_, rfl, by simp⟩

example : (({} : Env String).run [.enable 0 "cfg", .build 0 5, .build 0 6]).session 6 = none ∧
    (({} : Env String).run [.enable 0 "cfg", .build 0 5, .build 0 6]).session 5 = some 0 :=
  ⟨rfl, rfl⟩

end Verif.Zenoh.Config
