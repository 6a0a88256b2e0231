import Verif.Props.Expr

/-!
# Lists whose elements show their own position (property C83)

`enumerate` gives every element a `ReadOnlyMutable` of its index; a closure of `map_signal` makes
signals of it.  `Expr.mapIndexed` is this pair of combinators inside the expressions of C71.
-/

namespace Verif

/-- `e.enumerate().map_signal(|(i, a)| i.signal().map(move |i| h(i, a)))`. -/
def Expr.numbered {β γ : Type} [Inhabited γ] (h : Option Nat → β → γ) (e : Expr (.vec β)) :
    Expr (.vec γ) :=
  .mapIndexed (fun i a => .sMap (fun i => h i a) (.source i)) e

/-- **C83** (partial as C71: see `Expr.Lawful` for what is not covered in `e`).  What comes out of
`e.enumerate().map_signal(|(i, a)| i.signal().map(move |i| h(i, a)))` is a sequence of changes that can
be applied.  If the last answer was `Pending`, to a poll with waker `x`, then they show `h(i, a)` for
every element `a` of the list that `e` denotes at present and its position `i` in this list, or `x` has
been woken since.  If the last answer was the end, the former is the case. -/
theorem C83_positions_partial {β γ : Type} [Inhabited γ] (h : Option Nat → β → γ) (e : Expr (.vec β))
    (hl : e.Lawful) (t : Trace γ) (W : Waker → Prop) (he : (e.numbered h).Exec true t W) :
    (∃ ys, replay t.diffs [] = some ys) ∧
    (∀ x, t.getLast? = some (x, .pending) →
      (∃ v, e.Spec v ∧ replay t.diffs [] = some (v.mapIdx fun i a => h (some i) a)) ∨ W x) ∧
    (∀ x, t.getLast? = some (x, .ready none) →
      ∃ v, e.Spec v ∧ replay t.diffs [] = some (v.mapIdx fun i a => h (some i) a)) := by
  have hl' : (e.numbered h).Lawful := by
    simp only [Expr.numbered, Expr.Lawful]
    exact ⟨fun s a hs => hs, hl⟩
  have key : (∃ v, (Ty.vec γ).Shows t v ∧ (e.numbered h).Spec v) →
      ∃ v, e.Spec v ∧ replay t.diffs [] = some (v.mapIdx fun i a => h (some i) a) := by
    rintro ⟨ys, hs, hsp⟩
    simp only [Expr.numbered, Expr.Spec] at hsp
    obtain ⟨xs, h1, h2, h3⟩ := hsp
    refine ⟨xs, h1, ?_⟩
    rw [show replay t.diffs [] = some ys from hs]
    congr 1
    refine List.ext_getElem (by simp [h2]) fun i g1 g2 => ?_
    obtain ⟨s, hc, a, ha, hy⟩ := h3 i (xs[i]'(by omega)) ys[i] (by simp [h2 ▸ g1]) (by simp [g1])
    rw [hy, ha, hc]
    simp
  obtain ⟨k1, k2, k3⟩ := C71_expressions_partial _ hl' t W he
  exact ⟨k1, fun x hx => (k2 x hx).imp key id, fun x hx => key (k3 x hx)⟩

/-- **C83**: it is an expression as in C71 itself, so more combinators, closures and consumers (C74) can
follow. -/
theorem C83_composes {β γ : Type} [Inhabited γ] (h : Option Nat → β → γ) (e : Expr (.vec β))
    (hl : e.Lawful) : (e.numbered h).Lawful ∧ (e.Forward → (e.numbered h).Forward) ∧
      (e.Brisk → (e.numbered h).Brisk) :=
  ⟨by simp only [Expr.numbered, Expr.Lawful]; exact ⟨fun s a hs => hs, hl⟩, fun h => h, fun h => h⟩

/-! ### A concrete case -/

/-- `list` is `[5, 6, 7]`; it is watched, `list.remove(0)`, watched again, and 8 may be pushed. -/
def demoPosList (late : Bool) : List (MutVec.Ev Nat) :=
  [.subscribe, .poll 0 9, .poll 0 9, .poll 0 9, .op (.remove 0), .poll 0 9, .poll 0 9, .poll 0 9] ++
    if late then [.op (.push 8)] else []

def demoPosWorld (late : Bool) : MutVec.World Nat :=
  ((MutVec.World.init [5, 6, 7]).runs (demoPosList late)).getD (MutVec.World.init [])

/-- `list.signal_vec()` -/
def demoPosIn (late : Bool) : Expr (.vec Nat) :=
  .source (.mutableVec [5, 6, 7] (demoPosList late) (demoPosWorld late) (· = 0))

/-- The polls of the `Enumerate` and of the index signals, in the order in which `map_signal` makes them. -/
def demoPosEvs : List EnumSig.Ev :=
  let i (id : Nat) : EnumSig.Ev := .use id (.poll 0 9)
  [.poll 9, .use 0 .signal, i 0, .use 1 .signal, i 1, .use 2 .signal, i 2, .poll 9, i 0, i 1, i 2,
   .poll 9, i 0, i 1, i 2,
   .poll 9, .use 0 (.dropSignal 0), .poll 9, i 1, i 2,
   .poll 9, i 1, i 2]

def demoPosIndexes (id n : Nat) : SigTrace Nat :=
  if n ≠ 0 then [] else
  match id with
  | 0 => [(9, .ready (some 50)), (9, .pending), (9, .pending)]
  | 1 => [(9, .ready (some 61)), (9, .pending), (9, .pending), (9, .ready (some 60)), (9, .pending)]
  | 2 => [(9, .ready (some 72)), (9, .pending), (9, .pending), (9, .ready (some 71)), (9, .pending)]
  | _ => []

def demoPosSays : Trace Nat :=
  [(9, .ready (some (.replace [5, 6, 7]))), (9, .pending), (9, .pending),
   (9, .ready (some (.removeAt 0))), (9, .pending), (9, .pending)]

def demoPosE : EnumSig.World Nat :=
  match (EnumSig.World.init (demoPosSays.map (·.2))).runs demoPosEvs with
  | .ok W => W
  | _ => EnumSig.World.init []

def demoPosH (i : Option Nat) (a : Nat) : Nat := 10 * a + i.getD 9

/-- What comes out: the three values, the removal, and the two that moved up. -/
def demoPosOut : Trace Nat :=
  [(9, .ready (some (.replace [50, 61, 72]))), (9, .pending), (9, .ready (some (.removeAt 0))),
   (9, .ready (some (.updateAt 0 60))), (9, .ready (some (.updateAt 1 71))), (9, .pending)]

/-- The hypotheses of C83 are met.  At the end the expression denotes `[60, 71]`, or, if 8 has been
pushed, one more, and then the waker 9 has been woken. -/
example (late : Bool) : (demoPosIn late).Lawful ∧
    (∃ W, ((demoPosIn late).numbered demoPosH).Exec true demoPosOut W ∧ (late = true → W 9)) ∧
    replay demoPosOut.diffs [] = some [60, 71] ∧
    ∀ v, (demoPosIn late).Spec v →
      (v.mapIdx fun i a => demoPosH (some i) a) = [60, 71] ++ if late then [82] else [] := by
  refine ⟨?_, ?_, rfl, ?_⟩
  · simp only [demoPosIn, Expr.Lawful]
    refine C71_mutable_vec _ _ _ ?_ _
    cases late <;> rfl
  · have hin : (demoPosIn late).Exec true demoPosSays
        ((Source.mutableVec [5, 6, 7] (demoPosList late) (demoPosWorld late) (· = 0)).woken 0) := by
      refine ⟨0, rfl, fun _ => ?_, ?_, rfl⟩
      · cases late <;> exact .inl rfl
      · cases late <;> rfl
    have hidx : ∀ live id, (id = 1 ∨ id = 2 ∨ (id = 0 ∧ live = false)) →
        Expr.Exec (.sMap (fun i => demoPosH i (id + 5)) (.source (Source.index demoPosE id (· = 0)))) live
          (demoPosIndexes id 0) ((Source.index demoPosE id (· = 0)).woken 0) := by
      rintro live id (rfl | rfl | ⟨rfl, rfl⟩)
      · exact ⟨_, ⟨0, rfl, fun _ => ⟨_, rfl, .inl ⟨by decide, rfl⟩⟩, rfl, rfl⟩, _, rfl, rfl⟩
      · exact ⟨_, ⟨0, rfl, fun _ => ⟨_, rfl, .inl ⟨by decide, rfl⟩⟩, rfl, rfl⟩, _, rfl, rfl⟩
      · exact ⟨_, ⟨0, rfl, fun h => (by cases h), rfl, rfl⟩, _, rfl, rfl⟩
    have hex : ((demoPosIn late).numbered demoPosH).Exec true demoPosOut fun y =>
        (Source.mutableVec [5, 6, 7] (demoPosList late) (demoPosWorld late) (· = 0)).woken 0 y ∨
        ∃ id ∈ [1, 2], (Source.index demoPosE id (· = 0)).woken 0 y := by
      refine ⟨demoPosSays, _, demoPosEvs, demoPosE, fun _ => (· = 0),
        [(9, .ready (some (.replace [((0, 5), 0), ((1, 6), 0), ((2, 7), 0)]))), (9, .pending), (9, .pending),
          (9, .ready (some (.removeAt 0))), (9, .pending), (9, .pending)],
        fun b n => if b.2 = b.1 + 5 then demoPosIndexes b.1 n else [],
        fun b _ => (Source.index demoPosE b.1 (· = 0)).woken 0, hin, rfl, rfl, rfl, ?_, _, rfl, rfl, ?_, ?_⟩
      · rintro ⟨id, a⟩ n
        by_cases h : a = id + 5 ∧ n = 0 ∧ id ≤ 2
        · obtain ⟨rfl, rfl, h⟩ := h
          right
          simp only [if_true]
          have h' : id = 1 ∨ id = 2 ∨ id = 0 := by omega
          exact ⟨_, hidx false id (by simpa using h')⟩
        · left
          simp only
          split
          · rename_i h1
            simp only [demoPosIndexes]
            split
            · rfl
            · split <;> simp_all
          · rfl
      · intro x hx
        simp at hx
        rcases hx with rfl | rfl
        · exact ⟨rfl, hidx true 1 (.inl rfl)⟩
        · exact ⟨rfl, hidx true 2 (.inr (.inl rfl))⟩
      · funext y
        simp
    refine ⟨_, hex, ?_⟩
    rintro rfl
    exact .inl ⟨[.subscribe, .poll 0 9, .poll 0 9, .poll 0 9, .op (.remove 0), .poll 0 9, .poll 0 9],
      [.op (.push 8)], _, [9], rfl, by simp, rfl, rfl, by simp⟩
  · rintro v rfl
    cases late <;> rfl

end Verif
