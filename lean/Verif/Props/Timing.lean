import Verif.Props.Pipe
import Verif.Props.Sends

/-!
# C104: timing does not change the changes that a pipeline sends
-/

namespace Verif

variable {α β σ δ ε ο : Type}

/-! ## Loops -/

/-- What a loop body sends for these inputs. -/
def said (body : σ → δ → Ctl σ ε) (out : ε → List ο) : σ → List δ → List ο
  | _, [] => []
  | v, d :: ds =>
    match body v d with
    | .cont v' => said body out v' ds
    | .ret v' e => out e ++ said body out v' ds
    | .panic => []

theorem said_mono (body : σ → δ → Ctl σ ε) (out : ε → List ο) (v : σ) (ds es : List δ) :
    said body out v ds <+: said body out v (ds ++ es) := by
  induction ds generalizing v with
  | nil => exact List.nil_prefix
  | cons d ds ih =>
    simp only [List.cons_append, said]
    split
    · exact ih _
    · exact (List.prefix_append_right_inj _).2 (ih _)
    · exact List.prefix_refl _

/-- What is sent when the loop stops. -/
def Stop.sends (out : ε → List ο) : Stop ε → List ο
  | .ret e => out e
  | _ => []

theorem loop_said {body : σ → δ → Ctl σ ε} (out : ε → List ο) {w : Waker} {src src' : Src (Option δ)} {v v' : σ}
    {st : Stop ε} (h : src.loop w body v = (st, v', src')) (hs : st ≠ .panic) :
    ∃ ds, src'.got = src.got ++ ds ∧ ∀ es, said body out v (ds ++ es) = st.sends out ++ said body out v' es := by
  obtain ⟨todo, hist⟩ := src
  simp only [Src.loop] at h
  induction todo generalizing hist v with
  | nil =>
    cases h
    exact ⟨[], by simp [Src.got, items_append], fun es => rfl⟩
  | cons q todo ih =>
    match q with
    | .pending =>
      cases h
      exact ⟨[], by simp [Src.got, items_append], fun es => rfl⟩
    | .ready none =>
      cases h
      exact ⟨[], by simp [Src.got, items_append], fun es => rfl⟩
    | .ready (some a) =>
      simp only [pollLoop] at h
      cases hb : body v a with
      | cont v1 =>
        simp only [hb] at h
        obtain ⟨ds, h1, h2⟩ := ih _ h
        exact ⟨a :: ds, by rw [h1]; simp [Src.got, items_append], fun es => by simp [said, hb, h2]⟩
      | ret v1 e =>
        simp only [hb] at h
        cases h
        exact ⟨[a], by simp [Src.got, items_append], fun es => by simp [said, hb, Stop.sends]⟩
      | panic =>
        simp only [hb] at h
        cases h
        exact absurd rfl hs

/-! ## Stages -/

/-- What the stage sends is a function of what it took, except that it may be behind with it; and it is not behind when it
answers `Pending` or ends. -/
def Timeless (rel : Trace α → Trace β → Prop) : Prop :=
  ∃ F : List (VecDiff α) → List (VecDiff β), (∀ ds es, F ds <+: F (ds ++ es)) ∧
    ∀ u t, rel u t → t.diffs <+: F u.diffs ∧ (AtRest t → t.diffs = F u.diffs ∧ AtRest u)

theorem timeless {poll : Waker → σ → Option (Poll (Option (VecDiff β)) × σ)}
    {init : List (Poll (Option (VecDiff α))) → σ} {input : σ → Src (Option (VecDiff α))}
    (owes : σ → List (VecDiff α) → List (VecDiff β)) (F : List (VecDiff α) → List (VecDiff β))
    (hF : ∀ ds es, F ds <+: F (ds ++ es)) (h0 : ∀ x, owes (init x) = F ∧ (input (init x)).got = [])
    (hstep : ∀ w s r s', poll w s = some (r, s') →
      (∃ ds, (input s').got = (input s).got ++ ds ∧ ∀ es, owes s (ds ++ es) = items [r] ++ owes s' es) ∧
      ((r = .pending ∨ r = .ready none) → owes s' [] = []))
    (hp : ∀ x, Polite poll input (init x)) : Timeless (StageRel poll init input) := by
  refine ⟨F, hF, fun u t h => ?_⟩
  have hh := h
  obtain ⟨s, h1, h2⟩ := h
  have key := run_trace (fun outs s => (∀ es, F ((input s).got ++ es) = items outs ++ owes s es) ∧
      ∀ r, outs.getLast? = some r → (r = .pending ∨ r = .ready none) → owes s [] = [])
    (by
      rintro w outs s r s' ⟨i1, -⟩ hp
      obtain ⟨⟨ds, g1, g2⟩, g3⟩ := hstep w s r s' hp
      refine ⟨fun es => ?_, fun r' hr' => ?_⟩
      · rw [g1, List.append_assoc, i1, g2, items_append, List.append_assoc]
      · rw [List.getLast?_concat] at hr'
        cases hr'
        exact g3) (outs0 := []) h1 ⟨fun es => by rw [(h0 _).1, (h0 _).2]; rfl, fun r hr => by simp at hr⟩
  rw [List.nil_append] at key
  have hg : (input s).got = u.diffs := by rw [Src.got, h2]; rfl
  have k1 := key.1 []
  rw [List.append_nil, hg] at k1
  refine ⟨⟨owes s [], k1.symm⟩, fun hr => ⟨?_, hh.settled hp hr⟩⟩
  obtain ⟨w, r, r1, r2⟩ := hr
  rw [k1, key.2 r (by rw [Trace.answers_last, r1]; rfl) r2, List.append_nil]
  rfl

theorem src_took {w : Waker} {src src' : Src (Option δ)} {r : Poll (Option δ)} (h : src.poll w = (r, src')) :
    src'.got = src.got ++ items [r] := by
  have := Src.poll_hist w src
  rw [h] at this
  simp only at this
  rw [Src.got, this, List.map_append, items_append]
  rfl

theorem map_timeless (f : α → β) : Timeless (StageRel (VMap.poll (logging f)) (VMap.init []) (·.signal)) := by
  let body : List α → VecDiff α → Ctl (List α) (VecDiff β) := fun k d => .ret (d.mapS (logging f) k).2 (d.mapS (logging f) k).1
  refine timeless (fun s es => said body (fun e => [e]) s.st es) (said body (fun e => [e]) []) (said_mono _ _ _)
    (fun x => ⟨rfl, rfl⟩) ?_ (C57_map _ _)
  intro w s r s' h
  unfold VMap.poll at h
  split at h
  all_goals
    rename_i hp
    cases h
    refine ⟨⟨_, src_took hp, fun es => ?_⟩, fun _ => rfl⟩
  · rfl
  · rfl
  · rfl

theorem filterMap_timeless (f : α → Option β) :
    Timeless (StageRel (VFilterMap.poll (logging f)) (VFilterMap.init []) (·.signal)) := by
  refine timeless (fun s es => said (filterMapBody (logging f)) (fun e => [e]) (s.indexes, s.st) es)
    (said (filterMapBody (logging f)) (fun e => [e]) ([], [])) (said_mono _ _ _) (fun x => ⟨rfl, rfl⟩) ?_ (C57_filter_map _ _)
  intro w s r s' h
  unfold VFilterMap.poll at h
  split at h
  all_goals
    rename_i hp
    cases h
  · exact ⟨loop_said (fun e => [e]) hp (by simp), fun _ => rfl⟩
  · exact ⟨loop_said (fun e => [e]) hp (by simp), fun _ => rfl⟩
  · exact ⟨loop_said (fun e => [e]) hp (by simp), fun _ => rfl⟩

theorem filter_timeless (f : α → Bool) :
    Timeless (StageRel (VFilter.poll (logging f)) (VFilterMap.init []) (·.signal)) := by
  obtain ⟨F, h1, h2⟩ := filterMap_timeless (keep f)
  exact ⟨F, h1, fun u t h => h2 u t (filter_link h)⟩

theorem enumerate_timeless : Timeless (StageRel (VEnumerate.poll (α := α)) VEnumerate.init (·.signal)) := by
  let body : List Nat × Cells → VecDiff α → Ctl (List Nat × Cells) (VecDiff (Nat × α)) := fun v d =>
    match enumChange v.1 v.2 d with
    | none => .panic
    | some (d, mutables, cells) => .ret (mutables, cells) d
  refine timeless (fun s es => said body (fun e => [e]) (s.mutables, s.cells) es) (said body (fun e => [e]) ([], []))
    (said_mono _ _ _) (fun x => ⟨rfl, rfl⟩) ?_ C57_enumerate
  intro w s r s' h
  unfold VEnumerate.poll at h
  split at h
  · rename_i hp
    split at h
    · cases h
    · rename_i hc
      cases h
      refine ⟨⟨_, src_took hp, fun es => ?_⟩, fun _ => rfl⟩
      simp [said, body, hc]
  · rename_i hp
    cases h
    exact ⟨⟨_, src_took hp, fun es => rfl⟩, fun _ => rfl⟩
  · rename_i hp
    cases h
    exact ⟨⟨_, src_took hp, fun es => rfl⟩, fun _ => rfl⟩

theorem sort_timeless (S : SliceFns) (cmp : α → α → Ordering) :
    Timeless (StageRel (VSort.poll S cmp) VSort.init (·.signal)) := by
  refine timeless (fun s es => s.pending.toList ++ said (sortBody S cmp) (fun e => e.1 :: e.2.toList) (s.values, s.indexes) es)
    (said (sortBody S cmp) (fun e => e.1 :: e.2.toList) ([], [])) (said_mono _ _ _) (fun x => ⟨rfl, rfl⟩) ?_
    (C57_sort_by_cloned _ _)
  intro w s r s' h
  unfold VSort.poll at h
  split at h
  · rename_i d hd
    cases h
    exact ⟨⟨[], by simp, fun es => by simp [hd]⟩, by simp⟩
  · rename_i hd
    split at h
    · cases h
    all_goals
      rename_i hp
      cases h
      obtain ⟨ds, g1, g2⟩ := loop_said (fun e => e.1 :: e.2.toList) hp (by simp)
    · exact ⟨⟨ds, g1, fun es => by simpa [hd, Stop.sends] using g2 es⟩, fun _ => rfl⟩
    · exact ⟨⟨ds, g1, fun es => by simpa [hd, Stop.sends] using g2 es⟩, fun _ => rfl⟩
    · exact ⟨⟨ds, g1, fun es => by simpa [hd, Stop.sends] using g2 es⟩, by simp⟩

/-! ## Pipelines -/

theorem timeless_comp {γ : Type} {r : Trace α → Trace β → Prop} {r' : Trace β → Trace γ → Prop} (h : Timeless r)
    (h' : Timeless r') : Timeless fun u t => ∃ v, r u v ∧ r' v t := by
  obtain ⟨F, m1, f1⟩ := h
  obtain ⟨G, m2, g1⟩ := h'
  refine ⟨fun ds => G (F ds), fun ds es => ?_, ?_⟩
  · obtain ⟨x, hx⟩ := m1 ds es
    show G _ <+: G _
    rw [← hx]
    exact m2 _ _
  · rintro u t ⟨v, hv, ht⟩
    obtain ⟨a1, a2⟩ := f1 u v hv
    obtain ⟨b1, b2⟩ := g1 v t ht
    refine ⟨?_, fun hr => ?_⟩
    · obtain ⟨x, hx⟩ := a1
      show _ <+: G _
      rw [← hx]
      exact b1.trans (m2 _ _)
    · obtain ⟨c1, c2⟩ := b2 hr
      obtain ⟨d1, d2⟩ := a2 c2
      exact ⟨by rw [c1, d1], d2⟩

theorem straight_timeless (p : Pipe α β) (hs : p.Straight) :
    ∃ r : Trace α → Trace β → Prop, Timeless r ∧ ∀ src t, p.Exec src t → r (src p.head) t := by
  induction p with
  | source i =>
    exact ⟨fun u t => t = u, ⟨id, fun ds es => List.prefix_append _ _, by
      rintro u t rfl; exact ⟨List.prefix_refl _, fun h => ⟨rfl, h⟩⟩⟩, fun src t h => h⟩
  | map f p ih =>
    obtain ⟨r, h1, h2⟩ := ih hs
    exact ⟨_, timeless_comp h1 (map_timeless f), fun src t ⟨u, he, hr⟩ => ⟨u, h2 src u he, hr⟩⟩
  | filterMap f p ih =>
    obtain ⟨r, h1, h2⟩ := ih hs
    exact ⟨_, timeless_comp h1 (filterMap_timeless f), fun src t ⟨u, he, hr⟩ => ⟨u, h2 src u he, hr⟩⟩
  | filter f p ih =>
    obtain ⟨r, h1, h2⟩ := ih hs
    exact ⟨_, timeless_comp h1 (filter_timeless f), fun src t ⟨u, he, hr⟩ => ⟨u, h2 src u he, hr⟩⟩
  | sort S cmp p ih =>
    obtain ⟨r, h1, h2⟩ := ih hs
    exact ⟨_, timeless_comp h1 (sort_timeless S cmp), fun src t ⟨u, he, hr⟩ => ⟨u, h2 src u he, hr⟩⟩
  | enumerate p ih =>
    obtain ⟨r, h1, h2⟩ := ih hs
    exact ⟨_, timeless_comp h1 enumerate_timeless, fun src t ⟨u, he, hr⟩ => ⟨u, h2 src u he, hr⟩⟩
  | chain p q _ _ => exact hs.elim

/-- **C104.**  Two runs of the same pipeline without `chain`, whose inputs send the same changes but at other times, with
other `Pending`s in between, and which are polled at other times: what one has sent so far is the beginning of what the other
has sent.  The same holds if the input of one is behind that of the other. -/
theorem C104_same_changes (p : Pipe α β) (hs : p.Straight) (src src' : Nat → Trace α) (t t' : Trace β)
    (he : p.Exec src t) (he' : p.Exec src' t') (hd : (src p.head).diffs <+: (src' p.head).diffs) :
    t.diffs <+: t'.diffs ∨ t'.diffs <+: t.diffs := by
  obtain ⟨r, ⟨F, h1, h2⟩, h3⟩ := straight_timeless p hs
  obtain ⟨x, hx⟩ := hd
  have a := (h2 _ _ (h3 _ _ he)).1.trans (h1 _ x)
  rw [hx] at a
  exact List.prefix_or_prefix_of_prefix a (h2 _ _ (h3 _ _ he')).1

/-- **C104.**  If the last answers were `Pending` or the end, then both have sent exactly the same changes; and what one that
is behind has sent is the beginning of what the other has sent. -/
theorem C104_at_rest (p : Pipe α β) (hs : p.Straight) (src src' : Nat → Trace α) (t t' : Trace β)
    (he : p.Exec src t) (he' : p.Exec src' t') (hr' : AtRest t') :
    ((src p.head).diffs <+: (src' p.head).diffs → t.diffs <+: t'.diffs) ∧
      (AtRest t → (src p.head).diffs = (src' p.head).diffs → t.diffs = t'.diffs) := by
  obtain ⟨r, ⟨F, h1, h2⟩, h3⟩ := straight_timeless p hs
  have b := ((h2 _ _ (h3 _ _ he')).2 hr').1
  refine ⟨?_, fun hr hd => ?_⟩
  · rintro ⟨x, hx⟩
    have a := (h2 _ _ (h3 _ _ he)).1.trans (h1 _ x)
    rwa [hx, ← b] at a
  · rw [((h2 _ _ (h3 _ _ he)).2 hr).1, b, hd]

/-- An even-number filter followed by doubling, and two runs of it on inputs that send the same changes: one polls after every
change, the other once there are three of them. -/
def timedPipe : Pipe Nat Nat :=
  .map (· * 2) (.filter (· % 2 == 0) (.source 0))

def timedIn : Trace Nat :=
  [(1, .ready (some (.replace [1, 2]))), (2, .pending), (3, .ready (some (.push 3))), (3, .pending),
    (4, .ready (some (.insertAt 0 4))), (5, .pending)]

def timedIn' : Trace Nat :=
  [(7, .pending), (8, .ready (some (.replace [1, 2]))), (8, .ready (some (.push 3))), (8, .ready (some (.insertAt 0 4))),
    (8, .pending)]

def timedOut : Trace Nat :=
  [(1, .ready (some (.replace [4]))), (2, .pending), (3, .pending), (4, .ready (some (.insertAt 0 8))), (5, .pending)]

def timedOut' : Trace Nat :=
  [(7, .pending), (8, .ready (some (.replace [4]))), (8, .ready (some (.insertAt 0 8))), (8, .pending)]

example : timedPipe.Straight ∧ timedPipe.Exec (fun _ => timedIn) timedOut ∧ timedPipe.Exec (fun _ => timedIn') timedOut' ∧
    AtRest timedOut ∧ AtRest timedOut' ∧ timedIn.diffs = timedIn'.diffs ∧ timedOut.diffs = timedOut'.diffs :=
  ⟨trivial,
    ⟨[(1, .ready (some (.replace [2]))), (2, .pending), (3, .pending), (4, .ready (some (.insertAt 0 4))), (5, .pending)],
      ⟨timedIn, rfl, _, rfl, rfl⟩, _, rfl, rfl⟩,
    ⟨[(7, .pending), (8, .ready (some (.replace [2]))), (8, .ready (some (.insertAt 0 4))), (8, .pending)],
      ⟨timedIn', rfl, _, rfl, rfl⟩, _, rfl, rfl⟩,
    ⟨5, .pending, rfl, .inl rfl⟩, ⟨8, .pending, rfl, .inl rfl⟩, rfl, rfl⟩

/-- **C104** is false with `chain`: it sends the changes of its two inputs in the order in which they arrive.  Two runs whose
inputs send the same changes at other times, both at rest at the end, send different changes (but end in the same
contents). -/
theorem C104_not_chain :
    ∃ (src src' : Nat → Trace Nat) (t t' : Trace Nat), (Pipe.chain (.source 0) (.source 1)).Exec src t ∧
      (Pipe.chain (.source 0) (.source 1)).Exec src' t' ∧ AtRest t ∧ AtRest t' ∧
      (∀ i, (src i).diffs = (src' i).diffs) ∧ ¬ t.diffs <+: t'.diffs ∧ ¬ t'.diffs <+: t.diffs ∧
      replay t.diffs [] = some [1, 2] ∧ replay t'.diffs [] = some [1, 2] := by
  refine ⟨fun i => if i = 0 then [(1, .ready (some (.push 1))), (2, .pending), (3, .pending)]
      else [(2, .ready (some (.push 2))), (3, .pending)],
    fun i => if i = 0 then [(1, .pending), (2, .ready (some (.push 1))), (3, .pending)]
      else [(1, .ready (some (.push 2))), (3, .pending)],
    [(1, .ready (some (.push 1))), (2, .ready (some (.push 2))), (3, .pending)],
    [(1, .ready (some (.push 2))), (2, .ready (some (.insertAt 0 1))), (3, .pending)],
    ⟨_, _, rfl, rfl, _, rfl, rfl, rfl⟩, ⟨_, _, rfl, rfl, _, rfl, rfl, rfl⟩, ⟨3, .pending, rfl, .inl rfl⟩,
    ⟨3, .pending, rfl, .inl rfl⟩, fun i => ?_, ?_, ?_, rfl, rfl⟩
  · by_cases hi : i = 0
    · simp only [if_pos hi]; rfl
    · simp only [if_neg hi]; rfl
  · decide
  · decide

end Verif
