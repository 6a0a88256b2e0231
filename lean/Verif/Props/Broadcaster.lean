import Verif.BroadcasterProofs

/-!
# C43, C44, C63: `Broadcaster`, histories of operations that do not overlap
-/

namespace Verif.Bc

variable {α β : Type}

/-- **C43.**  For every input (also one that wakes its waker while it is polled), any subscribers and
every history: a poll of a subscriber gives the latest value the input has produced iff the input has
produced a value since this subscriber last got one; otherwise the end iff the input has ended;
otherwise `Pending`. -/
theorem C43_answer (script : List (Step α)) (f : Nat → α → β) (es : List Ev) (i : Nat) (w : Waker)
    (os : List (Out α β)) (o : Out α β) (m : World α)
    (hr : runE (World.step f) (World.new script) (es ++ [.poll i w]) = some (os ++ [o], m)) :
    (seen i (es.zip os) < (values o.hist).length ∧ ∃ a, (values o.hist).getLast? = some a ∧
      o.answer = some (.ready (some (f i a)))) ∨
    (seen i (es.zip os) = (values o.hist).length ∧ ended o.hist ∧ o.answer = some (.ready none)) ∨
    (seen i (es.zip os) = (values o.hist).length ∧ ¬ ended o.hist ∧ o.answer = some .pending) := by
  obtain ⟨os1, o1, m1, h1, h2, he⟩ := runE_snoc hr
  obtain ⟨rfl, ho⟩ := List.append_inj' he rfl
  cases ho
  have hinv := inv_run h1
  obtain ⟨-, g1, g2, g3⟩ := inv_poll hinv h2
  have hle : seen i (es.zip os) ≤ (values o.hist).length := by
    have hi : i < m1.made := by
      simp only [World.step] at h2
      split at h2
      · rename_i hi; exact hi.1
      · cases h2
    obtain ⟨m2, b, hp, -, -, -, -, -, -, hh, -⟩ := poll_cell h2
    have h3 := (hinv.seen i hi).2.1
    have : o.hist = m.hist := by
      simp only [World.step] at h2
      split at h2
      · split at h2 <;> cases h2
        rfl
      · cases h2
    rw [this, hh, hp.hist, values_append, List.length_append]
    exact Nat.le_trans h3 (Nat.le_add_right _ _)
  by_cases hlt : seen i (es.zip os) < (values o.hist).length
  · exact .inl ⟨hlt, g1 hlt⟩
  · have heq : seen i (es.zip os) = (values o.hist).length := by omega
    by_cases hend : ended o.hist
    · exact .inr (.inl ⟨heq, hend, g2 heq hend⟩)
    · exact .inr (.inr ⟨heq, hend, g3 heq hend⟩)

/-- **C43.**  How the input is polled.  It gives the answers of its script, and is not polled after its
end.  In one poll of a subscriber it is polled iff that is due and it has not ended, and then until it
gives something else than a value; other events do not poll it. -/
theorem C43_input (script : List (Step α)) (f : Nat → α → β) (es : List Ev) (e : Ev)
    (os : List (Out α β)) (o : Out α β) (m m' : World α)
    (hr : runE (World.step f) (World.new script) es = some (os, m))
    (hs : m.step f e = some (o, m')) :
    (∃ k, (∃ l, o.hist ++ l = script ++ List.replicate k (false, .pending))) ∧
    (∀ pre x post, o.hist = pre ++ x :: post → x.2 = .ready none → post = []) ∧
    ∃ b, o.hist = m.hist ++ b ∧
      ((∃ i w, e = .poll i w) ∧ (due (es.zip os)).1 = true ∧ ¬ ended m.hist → Burst b) ∧
      (¬ ((∃ i w, e = .poll i w) ∧ (due (es.zip os)).1 = true ∧ ¬ ended m.hist) → b = []) := by
  have hinv := inv_run hr
  have hinv' := inv_run (runE_snoc_of hr hs)
  have hoh : o.hist = m'.hist := by
    cases e with
    | poll i w =>
      simp only [World.step] at hs
      split at hs
      · split at hs <;> cases hs
        rfl
      · cases hs
    | wake => simp only [World.step] at hs; cases hs; rfl
    | subscribe => simp only [World.step] at hs; cases hs; rfl
    | dropSub j => simp only [World.step] at hs; split at hs <;> cases hs; rfl
  rw [hoh]
  refine ⟨?_, hinv'.fused, ?_⟩
  · obtain ⟨k, hk⟩ := hinv'.plays
    exact ⟨k, _, hk⟩
  · by_cases hp : ∃ i w, e = .poll i w
    · obtain ⟨i, w, rfl⟩ := hp
      obtain ⟨m1, b, hp, -, -, -, -, -, -, hh, -⟩ := poll_cell hs
      refine ⟨b, by rw [hh, hp.hist], ?_, ?_⟩
      · rintro ⟨-, hd, he⟩
        rw [hinv.due] at hd
        refine hp.burst hd ?_
        cases hal : m.alive with
        | true => rfl
        | false => exact absurd (hinv.alive.1 hal) he
      · intro h
        rw [hinv.due] at h
        by_cases hc : m.isChanged = true
        · refine hp.idle (.inr ?_)
          cases hal : m.alive with
          | false => rfl
          | true =>
            refine absurd ⟨⟨i, w, rfl⟩, hc, ?_⟩ h
            intro hk
            have := hinv.alive.2 hk
            rw [hal] at this; cases this
        · exact hp.idle (.inl (by simpa using hc))
    · refine ⟨[], ?_, fun h => absurd h.1 hp, fun _ => rfl⟩
      rw [← hoh, (inv_other hinv (fun i w k => hp ⟨i, w, k⟩) hs).2, List.append_nil]

/-- **C43.**  A poll never panics (`value.unwrap()`, line 197). -/
theorem C43_no_panic (script : List (Step α)) (f : Nat → α → β) (es : List Ev) (os : List (Out α β))
    (m : World α) (hr : runE (World.step f) (World.new script) es = some (os, m)) (i : Nat) (w : Waker)
    (hi : i < m.made) (hal : (m.cell i).alive = true) : (m.step f (.poll i w)).isSome :=
  poll_some (inv_run hr) hi hal

/-- Two subscribers, the second made late; an input that produces 1, 2, then 3 after a wake-up, then
its end. -/
def twoSubs : List Ev :=
  [.subscribe, .poll 0 5, .poll 0 5, .subscribe, .poll 1 6, .poll 1 6, .wake, .poll 1 6, .poll 0 5,
   .poll 0 5, .dropSub 1, .wake, .poll 0 5]

def twoScript : List (Step Nat) :=
  [(false, .ready (some 1)), (false, .ready (some 2)), (false, .pending), (false, .ready (some 3)),
   (false, .pending), (false, .ready none)]

example : ∃ os m, runE (World.step fun i a => 10 * i + a) (World.new twoScript) twoSubs = some (os, m) ∧
    os.map (fun o => (o.answer, o.hist.length, o.woken)) =
      [(none, 0, []), (some (.ready (some 2)), 3, []), (some .pending, 3, []), (none, 3, []),
       (some (.ready (some 12)), 3, []), (some .pending, 3, []), (none, 3, [5, 6]),
       (some (.ready (some 13)), 5, []), (some (.ready (some 3)), 5, []), (some .pending, 5, []),
       (none, 5, []), (none, 5, [5]), (some (.ready none), 6, [])] :=
  ⟨_, _, rfl, rfl⟩

/-- **C44.**  A subscriber's poll with waker `w` answered `Pending`; it was not polled or dropped since,
and the input has woken the broadcaster since: then `w` was woken since. -/
theorem C44_woken (script : List (Step α)) (f : Nat → α → β) (es : List Ev) (os : List (Out α β))
    (m : World α) (hr : runE (World.step f) (World.new script) es = some (os, m)) (i : Nat) (w : Waker)
    (since : List (Ev × Out α β)) (hp : Pends i w (es.zip os) since) (hw : ∃ eo ∈ since, eo.1 = .wake) :
    ∃ eo ∈ since, w ∈ eo.2.woken := by
  apply Classical.byContradiction
  intro hk
  obtain ⟨-, -, -, h⟩ := winv_run hr i w since hp (fun eo hm k => hk ⟨eo, hm, k⟩)
  obtain ⟨eo, hm, he⟩ := hw
  exact h eo hm he

example : ∃ os m since, runE (World.step fun i a => 10 * i + a) (World.new twoScript)
      (twoSubs.take 7) = some (os, m) ∧
    Pends 0 5 ((twoSubs.take 7).zip os) since ∧ (∃ eo ∈ since, eo.1 = .wake) ∧ since.length = 4 := by
  refine ⟨_, _, _, rfl, ⟨[_, _], _, rfl, rfl, ?_⟩, ⟨_, .tail _ (.tail _ (.tail _ (.head _))), rfl⟩, rfl⟩
  intro eo hm
  simp at hm
  rcases hm with rfl | rfl | rfl | rfl <;> simp [Ev.concerns]

/-- The claim of C63 for an input: a subscriber that waits and was not woken since has everything: it
got the latest value, the input has not ended, and the input has not woken its waker since it was last
polled, nor while it was polled. -/
def AllWoken (script : List (Step α)) (f : Nat → α → β) : Prop :=
  ∀ es os m i w, runE (World.step f) (World.new script) es = some (os, m) → Waits i w (es.zip os) →
    seen i (es.zip os) = (values m.hist).length ∧ ¬ ended m.hist ∧ (due (es.zip os)).1 = false

/-- An input that is woken, wakes its waker when it is polled, and then has a value. -/
def selfWaking : List (Step Nat) :=
  [(false, .ready (some 1)), (false, .pending), (true, .pending), (false, .ready (some 2))]

/-- **C63 is false.**  The input has woken its waker; the only subscriber waits; it was not woken. -/
theorem C63_self_wake_lost : ¬ AllWoken selfWaking (fun _ a => a) := by
  intro h
  have := (h [.subscribe, .poll 0 5, .poll 0 5, .wake, .poll 0 5] _ _ 0 5 rfl
    ⟨[], ⟨[_, _, _, _], _, rfl, rfl, fun eo k => (by cases k)⟩, fun eo k => (by cases k)⟩).2.2
  cases this

/-- **C44, C63 (partial).**  If the input does not wake its waker while it is polled: a subscriber that
waits and was not woken since has everything.  Missing: inputs that wake their waker while they are
polled, for which this is false. -/
theorem C63_quiet_input_partial (script : List (Step α)) (f : Nat → α → β)
    (hq : ∀ s ∈ script, s.1 = false) : AllWoken script f := by
  intro es os m i w hr hw
  obtain ⟨h1, h2, h3⟩ := uinv_run hq hr i w hw
  have hinv := inv_run hr
  obtain ⟨since, hp, hww⟩ := hw
  obtain ⟨hi, -⟩ := winv_run hr i w since hp hww
  refine ⟨((hinv.seen i hi).2.2).1 h2, ?_, ?_⟩
  · intro k
    have := hinv.alive.2 k
    rw [h3] at this; cases this
  · rw [hinv.due]; exact h1

example : (∀ s ∈ twoScript, s.1 = false) ∧ ∃ os m, runE (World.step fun i a => 10 * i + a)
      (World.new twoScript) (twoSubs.take 6) = some (os, m) ∧ Waits 0 5 ((twoSubs.take 6).zip os) := by
  refine ⟨by decide, _, _, rfl, _, ⟨[_, _], _, rfl, rfl, ?_⟩, ?_⟩
  · intro eo hm
    simp at hm
    rcases hm with rfl | rfl | rfl <;> simp [Ev.concerns]
  · intro eo hm
    simp at hm
    rcases hm with rfl | rfl | rfl <;> decide

end Verif.Bc
