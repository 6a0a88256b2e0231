import Verif.ChannelProofs

/-!
# C38, C39: `channel`, calls that do not overlap
-/

namespace Verif.Chan

variable {α : Type}

/-- **C38.**  A poll after any history of calls produces a value iff one is waiting (`Unread`: the
most recent of the initial value and the accepted `send`s, if none of the polls since saw it), and it
produces that one, whether or not the channel was closed meanwhile. -/
theorem C38_latest (init : α) (es : List (Ev α)) (w : Waker) (os : List (Obs α)) (m : World α)
    (h : (World.new init).runs (es ++ [.poll w]) = some (os, m)) (b : α) :
    os.getLast? = some (.poll (.ready (some b))) ↔ Unread init es b := by
  obtain ⟨o, h1, h2⟩ := runs_last h
  rw [h1]
  rcases h2 with ⟨a, h2, rfl⟩ | ⟨h2, ⟨_, rfl⟩ | ⟨_, _, rfl⟩⟩
  · constructor
    · intro k
      simp only [Option.some.injEq, Obs.poll.injEq, Poll.ready.injEq] at k
      exact k ▸ h2
    · intro k
      obtain ⟨os1, o1, m1, g1, _, _⟩ := runE_snoc h
      have hi := inv_runs g1
      rw [← hi.value] at h2 k
      rw [h2] at k
      cases k; rfl
  · simp [h2 b]
  · simp [h2 b]

/-- **C39.**  A poll answers the end iff no value is waiting and `close` was called or no `Sender` is
left; it answers `Pending` iff no value is waiting and neither of these holds. -/
theorem C39_end (init : α) (es : List (Ev α)) (w : Waker) (os : List (Obs α)) (m : World α)
    (h : (World.new init).runs (es ++ [.poll w]) = some (os, m)) :
    (os.getLast? = some (.poll (.ready none)) ↔
      (∀ b, ¬ Unread init es b) ∧ (.close ∈ es ∨ sendersAfter es = 0)) ∧
    (os.getLast? = some (.poll .pending) ↔
      (∀ b, ¬ Unread init es b) ∧ .close ∉ es ∧ sendersAfter es ≠ 0) := by
  obtain ⟨o, h1, h2⟩ := runs_last h
  rw [h1]
  rcases h2 with ⟨a, h2, rfl⟩ | ⟨h2, ⟨h3, rfl⟩ | ⟨h3, h4, rfl⟩⟩
  · simp only [Option.some.injEq, Obs.poll.injEq, Poll.ready.injEq, reduceCtorEq, false_iff]
    exact ⟨fun k => k.1 a h2, fun k => k.1 a h2⟩
  · simp only [Option.some.injEq, Obs.poll.injEq, reduceCtorEq, true_iff, false_iff]
    exact ⟨⟨h2, h3⟩, fun k => h3.elim k.2.1 k.2.2⟩
  · simp only [Option.some.injEq, Obs.poll.injEq, reduceCtorEq, true_iff, false_iff]
    exact ⟨fun k => k.2.elim h3 h4, h2, h3, h4⟩

/-- **C39.**  `send` gives the value back as `Err` iff the channel was closed or the `Receiver`
dropped; otherwise it answers `Ok`. -/
theorem C39_send (init : α) (es : List (Ev α)) (b : α) (os : List (Obs α)) (m : World α)
    (h : (World.new init).runs (es ++ [.send b]) = some (os, m)) :
    (os.getLast? = some (.sent (some b)) ↔ .close ∈ es ∨ .dropReceiver ∈ es) ∧
    (os.getLast? = some (.sent none) ↔ .close ∉ es ∧ .dropReceiver ∉ es) := by
  obtain ⟨o, h1, h2⟩ := runs_last h
  rw [h1]
  rcases h2 with ⟨h2, rfl⟩ | ⟨h2, rfl⟩
  · simp only [Option.some.injEq, Obs.sent.injEq, reduceCtorEq, true_iff, false_iff]
    exact ⟨fun k => k.elim h2.1 h2.2, h2⟩
  · simp only [Option.some.injEq, Obs.sent.injEq, reduceCtorEq, true_iff, false_iff]
    exact ⟨Classical.byContradiction fun k => h2 ⟨fun c => k (.inl c), fun c => k (.inr c)⟩, h2⟩

/-- **C39.**  A `Receiver` whose last poll, with waker `w`, answered `Pending` and that still waits is
woken (once) by a `send`, a `close` and the drop of the last `Sender`, and by nothing else. -/
theorem C39_woken (init : α) (es : List (Ev α)) (e : Ev α) (os os' : List (Obs α)) (m m' : World α)
    (h : (World.new init).runs es = some (os, m))
    (h' : (World.new init).runs (es ++ [e]) = some (os', m')) :
    (∀ w, Waiting init es w → .dropReceiver ∉ es → Wakes es e → m'.woken = m.woken ++ [w]) ∧
    ((∀ w, ¬ Waiting init es w) ∨ .dropReceiver ∈ es ∨ ¬ Wakes es e → m'.woken = m.woken) := by
  obtain ⟨os1, o, m1, h1, h2, rfl⟩ := runE_snoc h'
  rw [World.runs, h1, Option.some.injEq, Prod.mk.injEq] at h
  obtain ⟨rfl, rfl⟩ := h
  exact (inv_step (inv_runs h1) h2).2.2

/-- **C39.**  Right after a poll with waker `w` that answered `Pending` the `Receiver` waits with
`w`, so that the previous theorem applies; it keeps waiting over clones and drops that are not the
last. -/
theorem C39_pending_waits (init : α) (es es' : List (Ev α)) (w : Waker) (os : List (Obs α)) (m : World α)
    (h : (World.new init).runs (es ++ [.poll w]) = some (os, m))
    (hp : os.getLast? = some (.poll .pending)) (he : ∀ e ∈ es', e = .clone ∨ e = .dropSender)
    (hs : sendersAfter (es ++ .poll w :: es') ≠ 0) : Waiting init (es ++ .poll w :: es') w := by
  have := (C39_end init es w os m h).2.1 hp
  exact ⟨es, es', rfl, this.1, this.2.1, he, hs⟩

/-- Two sends before the poll: the second value; then the drop of the last of two senders wakes; then
the end. -/
def demoChan : List (Ev Nat) :=
  [.send 5, .send 6, .poll 1, .clone, .poll 2, .dropSender, .dropSender, .poll 3]

example : ((World.new 0).runs demoChan).map (fun p => (p.1.getLast?, p.2.woken)) =
    some (some (.poll (.ready none)), [2]) := rfl
example : ((World.new 0).runs [.send 5, .send 6, .poll 1]).map (·.1) =
    some [.sent none, .sent none, .poll (.ready (some 6))] := rfl
/-- Closed with a value waiting: `send` is rejected, the value is delivered first. -/
example : ((World.new 0).runs [.close, .send 5, .poll 1, .poll 2]).map (·.1) =
    some [.unit, .sent (some 5), .poll (.ready (some 0)), .poll (.ready none)] := rfl
example : Unread 0 [.send 5, .send 6] 6 :=
  (C38_latest 0 [.send 5, .send 6] 1 _ _ rfl 6).1 rfl
example : Waiting 0 ([.poll 1] ++ .poll 2 :: [.clone, .dropSender]) 2 :=
  C39_pending_waits 0 [.poll 1] [.clone, .dropSender] 2 _ _ rfl rfl (by simp) (by simp [sendersAfter])

end Verif.Chan
