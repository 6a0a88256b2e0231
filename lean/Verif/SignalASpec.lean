import Verif.SignalVec1Spec

/-!
# Specifications of the `Signal` combinators

Nothing here mentions the model of the combinators.
-/

namespace Verif

variable {α β : Type}

/-- An answer with its value, if any, mapped. -/
def Poll.mapItem (f : α → β) : Poll (Option α) → Poll (Option β)
  | .ready (some a) => .ready (some (f a))
  | .ready none => .ready none
  | .pending => .pending

/-- The closure `|a| { log.push(a); }`: its state is the list of arguments it was called on. -/
def observing : List α → α → List α := fun log a => log ++ [a]

/-- The elements of a list that are not equal to the previously selected one.  After selecting `a`
the next elements are compared with `left a`; `prev` is what the first element is compared with.
Ordinary deduplication has `left a = a`; `left` describes callbacks which change the value they
were given. -/
def distinctFrom [BEq α] (left : α → α) : Option α → List α → List α
  | _, [] => []
  | none, a :: l => a :: distinctFrom left (some (left a)) l
  | some o, a :: l => if o == a then distinctFrom left (some o) l else a :: distinctFrom left (some (left a)) l

/-- A list without its consecutive repetitions. -/
def dedup [BEq α] (l : List α) : List α := distinctFrom id none l

/-- What `filter_map` of a signal with values `l` produces: `f` of the first value, even if that is
`None`; afterwards the accepted values. -/
def filterMapSpec (f : α → Option β) : List α → List (Option β)
  | [] => []
  | a :: l => f a :: (l.filterMap f).map some

/-- The last answer of the input is the first value it produced that satisfies `p`. -/
def StopsAt (p : α → Bool) (hist : List (Waker × Poll (Option α))) : Prop :=
  ∃ h w a, hist = h ++ [(w, .ready (some a))] ∧ p a = true ∧ ∀ b ∈ items (h.map (·.2)), p b = false

/-- A script of a signal that produces a value before it ends, if it ends. -/
def ValueFirst (script : List (Poll (Option α))) : Prop :=
  ∀ pre post, script = pre ++ .ready none :: post → items pre ≠ []

/-- `[None]` if a stream with this script has no value at the first poll. -/
def leadingNone : List (Poll (Option α)) → List (Option α)
  | .ready (some _) :: _ => []
  | _ => [none]

/-- The output of a future, once it has produced it. -/
def Src.output {ρ : Type} (s : Src ρ) : Option ρ :=
  s.hist.findSome? fun p => match p.2 with
    | .ready a => some a
    | .pending => none

end Verif
