import Verif.Expr

/-!
# Futures and streams as sources of expressions (C85)

What the signals made by `from_future` and `from_stream` rely on: that the future or stream keeps the
contract of `std::future::Future` or `futures_core::Stream`.
-/

namespace Verif

variable {α : Type}

/-- A stream and its environment at present: the polls that the stream has got, with its answers; the items
produced so far, in order; which wakers have been woken since the last poll. -/
structure Strm (α : Type) where
  hist : List (Waker × Poll (Option α))
  sent : List α
  woken : Waker → Prop

/-- The items that the stream has delivered. -/
def Strm.got (s : Strm α) : List α := items (s.hist.map (·.2))

/-- The contract of `Stream::poll_next`: the stream delivers what is produced, in order; when it answers
`Pending` nothing is left, or else the waker has been woken since; when it ends nothing is left. -/
structure Strm.Ok (s : Strm α) : Prop where
  order : s.got <+: s.sent
  wakes : ∀ w, s.hist.getLast? = some (w, .pending) → s.got = s.sent ∨ s.woken w
  all : ∀ w, (w, .ready none) ∈ s.hist → s.got = s.sent

/-! ## A queue -/

namespace Queue

/-- An unbounded queue with one receiver, such as `futures_channel::mpsc` (which is not part of `/repo`;
this is to show that the contract can be kept). -/
structure World (α : Type) where
  queue : List α
  closed : Bool
  waker : Option Waker
  sent : List α
  hist : List (Waker × Poll (Option α))
  woken : List Waker

def World.new : World α := ⟨[], false, none, [], [], []⟩

inductive Ev (α : Type) where
  | send (a : α)
  | close
  | poll (w : Waker)

/-- Wake whoever waits. -/
def World.wake (m : World α) : World α :=
  { m with waker := none, woken := m.woken ++ m.waker.toList }

/-- One call. -/
def World.step (m : World α) : Ev α → World α
  | .send a => if m.closed then m else { m.wake with queue := m.queue ++ [a], sent := m.sent ++ [a] }
  | .close => { m.wake with closed := true }
  | .poll w =>
    match m.queue with
    | a :: q => { m with queue := q, hist := m.hist ++ [(w, .ready (some a))], woken := [] }
    | [] =>
      if m.closed then { m with hist := m.hist ++ [(w, .ready none)], woken := [] }
      else { m with waker := some w, hist := m.hist ++ [(w, .pending)], woken := [] }

def World.runs (m : World α) (es : List (Ev α)) : World α := es.foldl World.step m

/-- The queue as a stream. -/
def World.strm (m : World α) : Strm α := ⟨m.hist, m.sent, (· ∈ m.woken)⟩

structure Inv (m : World α) : Prop where
  split : m.sent = items (m.hist.map (·.2)) ++ m.queue
  wait : ∀ w, m.hist.getLast? = some (w, .pending) → (m.queue = [] ∧ m.waker = some w) ∨ w ∈ m.woken
  ended : ∀ w, (w, .ready none) ∈ m.hist → m.queue = [] ∧ m.closed = true

theorem inv_step {m : World α} (h : Inv m) (e : Ev α) : Inv (m.step e) := by
  have hw : ∀ w, m.hist.getLast? = some (w, .pending) → w ∈ m.woken ++ m.waker.toList := by
    intro w hl
    rcases h.wait w hl with ⟨-, h2⟩ | h2
    · simp [h2]
    · simp [h2]
  cases e with
  | send a =>
    simp only [World.step]
    split
    · exact h
    · rename_i hc
      refine ⟨by simp [World.wake, h.split], fun w hl => .inr (hw w hl), fun w hm => ?_⟩
      exact absurd (h.ended w hm).2 hc
  | close => exact ⟨h.split, fun w hl => .inr (hw w hl), fun w hm => ⟨(h.ended w hm).1, rfl⟩⟩
  | poll w =>
    simp only [World.step]
    split
    · rename_i a q hq
      refine ⟨by simp [h.split, hq, items_append], fun w' hl => by simp at hl, fun w' hm => ?_⟩
      simp only [List.mem_append, List.mem_singleton, Prod.mk.injEq, Poll.ready.injEq, reduceCtorEq,
        and_false, or_false] at hm
      exact absurd (h.ended w' hm).1 (by simp [hq])
    · rename_i hq
      split
      · rename_i hc
        exact ⟨by simp [h.split, items_append], fun w' hl => by simp at hl, fun w' hm => ⟨hq, hc⟩⟩
      · rename_i hc
        refine ⟨by simp [h.split, items_append], fun w' hl => ?_, fun w' hm => ?_⟩
        · simp only [List.getLast?_concat, Option.some.injEq, Prod.mk.injEq, and_true] at hl
          exact .inl ⟨hq, by rw [hl]⟩
        · simp only [List.mem_append, List.mem_singleton, Prod.mk.injEq, reduceCtorEq,
            and_false, or_false] at hm
          exact absurd (h.ended w' hm).2 hc

theorem inv_runs (es : List (Ev α)) : Inv ((World.new : World α).runs es) := by
  have key : ∀ (es : List (Ev α)) (m : World α), Inv m → Inv (m.runs es) := by
    intro es
    induction es with
    | nil => intro m h; exact h
    | cons e es ih => intro m h; exact ih _ (inv_step h e)
  exact key es _ ⟨rfl, fun w h => by simp [World.new] at h, fun w h => by simp [World.new] at h⟩

/-- The queue keeps the contract. -/
theorem strm_ok (es : List (Ev α)) : ((World.new : World α).runs es).strm.Ok := by
  have h := inv_runs es
  refine ⟨⟨_, h.split.symm⟩, fun w hl => ?_, fun w hm => ?_⟩
  · rcases h.wait w hl with ⟨h1, -⟩ | h1
    · left
      have := h.split
      rw [h1, List.append_nil] at this
      exact this.symm
    · exact .inr h1
  · have := h.split
    rw [(h.ended w hm).1, List.append_nil] at this
    exact this.symm

end Queue

end Verif
