import Verif.Props.Timing

/-!
# C104 with `chain`: the contents do not depend on timing
-/

namespace Verif

variable {α β : Type}

/-- The pipeline contains no `enumerate`. -/
def Pipe.Unnumbered : {β : Type} → Pipe α β → Prop
  | _, .source _ => True
  | _, .map _ p => p.Unnumbered
  | _, .filterMap _ p => p.Unnumbered
  | _, .filter _ p => p.Unnumbered
  | _, .sort _ _ p => p.Unnumbered
  | _, .enumerate _ => False
  | _, .chain p q => p.Unnumbered ∧ q.Unnumbered

theorem Pipe.Spec.unique {p : Pipe α β} (hn : p.Unnumbered) {c c' : Nat → List α} (hc : ∀ i, p.Uses i → c i = c' i)
    {ys zs : List β} (h : p.Spec c ys) (h' : p.Spec c' zs) : ys = zs := by
  induction p with
  | source i => cases h; cases h'; exact hc i rfl
  | map f p ih =>
    obtain ⟨x, h1, rfl⟩ := h
    obtain ⟨x', h1', rfl⟩ := h'
    rw [ih hn hc h1 h1']
  | filterMap f p ih =>
    obtain ⟨x, h1, rfl⟩ := h
    obtain ⟨x', h1', rfl⟩ := h'
    rw [ih hn hc h1 h1']
  | filter f p ih =>
    obtain ⟨x, h1, rfl⟩ := h
    obtain ⟨x', h1', rfl⟩ := h'
    rw [ih hn hc h1 h1']
  | sort S cmp p ih =>
    obtain ⟨x, h1, rfl⟩ := h
    obtain ⟨x', h1', rfl⟩ := h'
    rw [ih hn hc h1 h1']
  | enumerate p _ => exact hn.elim
  | chain p q ihp ihq =>
    obtain ⟨x, y, h1, h2, rfl⟩ := h
    obtain ⟨x', y', h1', h2', rfl⟩ := h'
    rw [ihp hn.1 (fun i hi => hc i (.inl hi)) h1 h1', ihq hn.2 (fun i hi => hc i (.inr hi)) h2 h2']

/-- **C104** with `chain` (not nested, see C60): the changes may differ, but the contents do not.  If two runs of the same
pipeline last answered `Pending` or their end, and the inputs describe the same lists, in whatever way and at whatever
times, then the outputs describe the same list.  (Without `Move`s towards the front if the pipeline has filters, see C10.) -/
theorem C104_contents (p : Pipe α β) (hl : p.Lawful) (hs : p.Shallow) (hn : p.Unnumbered) (src src' : Nat → Trace α)
    (hc : ∀ i, p.Uses i → ∃ z, replay (src i).diffs [] = some z ∧ replay (src' i).diffs [] = some z)
    (hf : p.Filters → ∀ i, p.Uses i → ∀ d ∈ (src i).diffs ++ (src' i).diffs, Fwd d) (t t' : Trace β)
    (he : p.Exec src t) (he' : p.Exec src' t') (ht : AtRest t) (ht' : AtRest t') :
    ∃ zs, replay t.diffs [] = some zs ∧ replay t'.diffs [] = some zs := by
  obtain ⟨zs, h1, h2⟩ := C60_pipeline_partial p hl src (fun i => (replay (src i).diffs []).getD [])
    (fun i hi => by obtain ⟨z, hz, -⟩ := hc i hi; simp [hz])
    (fun h i hi d hd => hf h i hi d (List.mem_append_left _ hd)) t he
  obtain ⟨zs', h1', h2'⟩ := C60_pipeline_partial p hl src' (fun i => (replay (src' i).diffs []).getD [])
    (fun i hi => by obtain ⟨z, -, hz⟩ := hc i hi; simp [hz])
    (fun h i hi d hd => hf h i hi d (List.mem_append_right _ hd)) t' he'
  refine ⟨zs, h1, ?_⟩
  rw [Pipe.Spec.unique hn (fun i hi => ?_) (h2 hs ht) (h2' hs ht')]
  · exact h1'
  · obtain ⟨z, a, b⟩ := hc i hi
    simp [a, b]

/-- Two timings of two inputs, where the second run also gets the right list in another way. -/
def mixPipe : Pipe Nat Nat :=
  .map (· * 2) (.chain (.source 0) (.source 1))

def mixIn : Nat → Trace Nat
  | 0 => [(1, .ready (some (.push 1))), (2, .pending), (3, .pending)]
  | 1 => [(2, .ready (some (.push 2))), (3, .pending)]
  | _ => []

def mixIn' : Nat → Trace Nat
  | 0 => [(1, .pending), (2, .pending), (3, .ready (some (.push 1))), (4, .pending)]
  | 1 => [(1, .ready (some (.push 5))), (2, .ready (some (.updateAt 0 2))), (4, .pending)]
  | _ => []

def mixOut : Trace Nat :=
  [(1, .ready (some (.push 2))), (2, .ready (some (.push 4))), (3, .pending)]

def mixOut' : Trace Nat :=
  [(1, .ready (some (.push 10))), (2, .ready (some (.updateAt 0 4))), (3, .ready (some (.insertAt 0 2))), (4, .pending)]

example : mixPipe.Lawful ∧ mixPipe.Shallow ∧ mixPipe.Unnumbered ∧ ¬ mixPipe.Filters ∧ mixPipe.Exec mixIn mixOut ∧
    mixPipe.Exec mixIn' mixOut' ∧ AtRest mixOut ∧ AtRest mixOut' ∧
    (∀ i, mixPipe.Uses i → ∃ z, replay (mixIn i).diffs [] = some z ∧ replay (mixIn' i).diffs [] = some z) :=
  ⟨⟨trivial, trivial⟩, ⟨trivial, trivial⟩, ⟨trivial, trivial⟩, fun h => h.elim id id,
    ⟨[(1, .ready (some (.push 1))), (2, .ready (some (.push 2))), (3, .pending)],
      ⟨_, _, rfl, rfl, _, rfl, rfl, rfl⟩, _, rfl, rfl⟩,
    ⟨[(1, .ready (some (.push 5))), (2, .ready (some (.updateAt 0 2))), (3, .ready (some (.insertAt 0 1))), (4, .pending)],
      ⟨_, _, rfl, rfl, _, rfl, rfl, rfl⟩, _, rfl, rfl⟩,
    ⟨3, .pending, rfl, .inl rfl⟩, ⟨4, .pending, rfl, .inl rfl⟩, by
      rintro i (rfl | rfl)
      · exact ⟨[1], rfl, rfl⟩
      · exact ⟨[2], rfl, rfl⟩⟩

end Verif
