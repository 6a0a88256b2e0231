import Verif.Basic

/-!
# Polls after the end: specification (property C92)
-/

namespace Verif

/-- Poll again and again, also after `Ready(None)` (compare `run`). -/
def runOn {σ β : Type} (poll : Waker → σ → Option (Poll (Option β) × σ)) :
    List Waker → σ → Option (List (Poll (Option β)) × σ)
  | [], s => some ([], s)
  | w :: ws, s =>
    match poll w s with
    | none => none
    | some (r, s') =>
      match runOn poll ws s' with
      | none => none
      | some (rs, s'') => some (r :: rs, s'')

/-- Once it has answered with its end it does so for ever, without looking at its inputs or calling its
closures: nothing changes any more. -/
def EndsForGood {σ β : Type} (poll : Waker → σ → Option (Poll (Option β) × σ)) : Prop :=
  ∀ w s s', poll w s = some (.ready none, s') →
    ∀ ws, runOn poll ws s' = some (List.replicate ws.length (.ready none), s')

/-- Once it has answered with its end, every further poll asks the input `inp` once more, and if the
input answers with its end again so does the combinator, and nothing else (`rest`) changes. -/
def EndsAsLongAs {σ β A R : Type} (poll : Waker → σ → Option (Poll (Option β) × σ))
    (inp : σ → Src (Option A)) (rest : σ → R) : Prop :=
  ∀ w s s', poll w s = some (.ready none, s') →
    ∀ ws more, (inp s').todo = List.replicate ws.length (.ready none) ++ more →
      ∃ s'', runOn poll ws s' = some (List.replicate ws.length (.ready none), s'') ∧
        inp s'' = ⟨more, (inp s').hist ++ ws.map fun w => (w, .ready none)⟩ ∧ rest s'' = rest s'

end Verif
