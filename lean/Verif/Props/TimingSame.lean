import Verif.Props.Timing
import Verif.Props.SameVec

/-!
# C104 and C101: rewriting a pipeline does not change what it sends, at any timing
-/

namespace Verif

variable {α β : Type}

/-- **C104** with **C101**: let one run be of a pipeline without `chain`, and the other of a pipeline that cannot be told
apart from it, at other times.  What one has sent is the beginning of what the other has sent, and the same if both are at
rest and their inputs have sent the same changes. -/
theorem C104_rewritten (p q : Pipe α β) (hs : p.Straight) (hsame : Pipe.Same p q) (src src' : Nat → Trace α) (t t' : Trace β)
    (he : p.Exec src t) (he' : q.Exec src' t') :
    ((src p.head).diffs <+: (src' p.head).diffs → t.diffs <+: t'.diffs ∨ t'.diffs <+: t.diffs) ∧
    ((src p.head).diffs = (src' p.head).diffs → AtRest t → AtRest t' → t.diffs = t'.diffs) :=
  have h' := (hsame src' t').2 he'
  ⟨fun hd => C104_same_changes p hs src src' t t' he h' hd,
    fun hd ht ht' => (C104_at_rest p hs src src' t t' he h' ht').2 ht hd⟩

/-- Two `map`s in a row and their composition. -/
example : (Pipe.map (· + 1) (.map (· * 2) (.source 0)) : Pipe Nat Nat).Straight ∧
    Pipe.Same (Pipe.map (· + 1) (.map (· * 2) (.source 0)) : Pipe Nat Nat) (.map ((· + 1) ∘ (· * 2)) (.source 0)) :=
  ⟨trivial, Pipe.C101_map_map _ _ _⟩

end Verif
