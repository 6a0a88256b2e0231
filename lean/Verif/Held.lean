import Verif.Checks
import Verif.Props.SignalVecMap
import Verif.Props.SignalMap

/-!
# What combinators hold (C94): lemmas

A combinator that keeps one entry for each element of its input keeps them in step with the input.
-/

namespace Verif

variable {α β γ ι σ ρ κ : Type}

/-- If the body of a loop does not panic, it does to the entries (`tags`) what the change does to the list. -/
def Follows (tags : σ → List α) (body : σ → VecDiff α → Ctl σ ρ) : Prop :=
  ∀ s d, match body s d with
    | .cont s' => d.apply (tags s) = some (tags s')
    | .ret s' _ => d.apply (tags s) = some (tags s')
    | .panic => True

theorem replay_step {ds : List (VecDiff α)} {xs ys : List α} {d : VecDiff α} (h : replay ds [] = some xs)
    (hd : d.apply xs = some ys) : replay (ds ++ [d]) [] = some ys :=
  replay_append_some h (by rw [replay_singleton, hd])

theorem Src.loop_follows {tags : σ → List α} {body : σ → VecDiff α → Ctl σ ρ} (hb : Follows tags body)
    {w : Waker} {src src' : Src (Option (VecDiff α))} {s s' : σ} {st : Stop ρ}
    (h : src.loop w body s = (st, s', src')) (hs : st ≠ .panic) (h0 : replay src.got [] = some (tags s)) :
    replay src'.got [] = some (tags s') := by
  have key := pollLoop_rule (w := w) (body := body) (fun s src => replay src.got [] = some (tags s))
    (fun st s src => st = .panic ∨ replay src.got [] = some (tags s)) ?_ ?_ ?_ ?_ ?_ src s h0
  · rw [h] at key
    exact key.resolve_left hs
  · intro s a t h s' hT hc
    have := hb s a
    rw [hc] at this
    rw [got_snoc]
    exact replay_step hT this
  · intro s a t h s' r hT hc
    have := hb s a
    rw [hc] at this
    rw [got_snoc]
    exact .inr (replay_step hT this)
  · intros; exact .inl rfl
  · intro s t h hT
    rw [got_snoc]
    exact .inr (by simpa [Src.got] using hT)
  · intro s t t' h hT ht
    rw [got_snoc]
    rcases ht with rfl | ⟨rfl, rfl⟩ <;> exact .inr (by simpa [Src.got] using hT)

theorem Inp.loop_follows {tags : σ → List α} {body : σ → VecDiff α → Ctl σ ρ} (hb : Follows tags body)
    {w : Waker} {i i' : Inp (Option (VecDiff α))} {s s' : σ} {st : Stop ρ} (h : i.loop w body s = (st, s', i'))
    (hs : st ≠ .panic) (h0 : replay i.src.got [] = some (tags s)) : replay i'.src.got [] = some (tags s') := by
  unfold Inp.loop at h
  split at h
  · split at h
    · rename_i h1
      cases h
      exact Src.loop_follows hb h1 hs h0
    · rename_i h1
      cases h
      exact Src.loop_follows hb h1 hs h0
  · cases h
    exact h0

/-! ## Lists of entries -/

theorem apply_tags (f : γ → α) {d : VecDiff γ} {xs ys : List γ} (h : d.apply xs = some ys) :
    (d.map f).apply (xs.map f) = some (ys.map f) := by
  rw [C06_map_natural, h]
  rfl

theorem insert_tags (f : γ → α) {l l' : List γ} {i : Nat} {x : γ} (h : vInsert l i x = some l') :
    (VecDiff.insertAt i (f x)).apply (l.map f) = some (l'.map f) :=
  apply_tags f (d := .insertAt i x) h

theorem set_tags (f : γ → α) {l l' : List γ} {i : Nat} {x : γ} (h : vSet l i x = some l') :
    (VecDiff.updateAt i (f x)).apply (l.map f) = some (l'.map f) :=
  apply_tags f (d := .updateAt i x) h

theorem remove_tags (f : γ → α) {l l' : List γ} {i : Nat} {x : γ} (h : vRemove l i = some (x, l')) :
    (VecDiff.removeAt i : VecDiff α).apply (l.map f) = some (l'.map f) :=
  apply_tags f (d := .removeAt i) (by simp [VecDiff.apply, h])

theorem move_tags (f : γ → α) {l l' l'' : List γ} {i j : Nat} {x : γ} (h : vRemove l i = some (x, l'))
    (h' : vInsert l' j x = some l'') : (VecDiff.move i j : VecDiff α).apply (l.map f) = some (l''.map f) :=
  apply_tags f (d := .move i j) (by simp [VecDiff.apply, h, h'])

theorem pop_tags (f : γ → α) {l l' : List γ} {x : γ} (h : vPop l = (some x, l')) :
    (VecDiff.pop : VecDiff α).apply (l.map f) = some (l'.map f) :=
  apply_tags f (d := .pop) (by simp [VecDiff.apply, h])

theorem push_tags (f : γ → α) (l : List γ) (x : γ) :
    (VecDiff.push (f x)).apply (l.map f) = some ((l ++ [x]).map f) := by
  simp [VecDiff.apply]

theorem set_tags' (f : γ → α) {l : List γ} {i : Nat} {x y : γ} (h : l[i]? = some y) :
    (VecDiff.updateAt i (f x)).apply (l.map f) = some ((l.set i x).map f) :=
  set_tags f (by simp [vSet, getElem_room h])

/-! ## The combinators -/

theorem MState.new_tag {g : ι → List (Poll (Option β))} {w : Waker} {t : ι} {b : β} {s : MState ι β}
    (h : MState.new g w t = some (b, s)) : s.tag = t := by
  simp only [MState.new] at h
  split at h
  · cases h
  · cases h; rfl

theorem mapNewAll_tags {g : ι → List (Poll (Option β))} {w : Waker} {ts : List ι} {bs : List β}
    {ss : List (MState ι β)} (h : mapNewAll g w ts = some (bs, ss)) : ss.map (·.tag) = ts := by
  induction ts generalizing bs ss with
  | nil => cases h; rfl
  | cons t ts ih =>
    simp only [mapNewAll] at h
    split at h
    · cases h
    · rename_i h1
      split at h
      · cases h
      · rename_i h2
        cases h
        simp [ih h2, MState.new_tag h1]

theorem mapSignalBody_follows (g : ι → List (Poll (Option β))) (w : Waker) :
    Follows (fun s : List (MState ι β) × List (VecDiff β) => s.1.map (·.tag)) (mapSignalBody g w) := by
  intro ⟨signals, np⟩ d
  unfold mapSignalBody
  cases d with
  | replace values =>
    simp only []
    split
    · rename_i heq
      split at heq
      · cases heq
      · rename_i h1
        cases heq
        simp [VecDiff.apply, mapNewAll_tags h1]
    · rename_i heq
      split at heq <;> cases heq
    · trivial
  | clear => rfl
  | insertAt index value =>
    simp only []
    cases h1 : MState.new g w value with
    | none => trivial
    | some p =>
      obtain ⟨b, s⟩ := p
      simp only []
      cases h2 : vInsert signals index s with
      | none => trivial
      | some l => simpa [MState.new_tag h1] using insert_tags MState.tag h2
  | updateAt index value =>
    simp only []
    cases h1 : MState.new g w value with
    | none => trivial
    | some p =>
      obtain ⟨b, s⟩ := p
      simp only []
      cases h2 : vSet signals index s with
      | none => trivial
      | some l => simpa [MState.new_tag h1] using set_tags MState.tag h2
  | push value =>
    simp only []
    cases h1 : MState.new g w value with
    | none => trivial
    | some p =>
      obtain ⟨b, s⟩ := p
      have := push_tags MState.tag signals s
      rw [MState.new_tag h1] at this
      exact this
  | move i j =>
    simp only []
    cases h1 : vRemove signals i with
    | none => trivial
    | some p =>
      obtain ⟨b, s⟩ := p
      simp only []
      cases h2 : vInsert s j b with
      | none => trivial
      | some l => exact move_tags MState.tag h1 h2
  | removeAt i =>
    simp only []
    cases h1 : vRemove signals i with
    | none => trivial
    | some p => exact remove_tags MState.tag h1
  | pop =>
    simp only []
    rcases h1 : vPop signals with ⟨o, l⟩
    cases o with
    | none => trivial
    | some p => exact pop_tags MState.tag h1

theorem pollSignals_tags (w : Waker) (k : Nat) (np : List (VecDiff β)) (ss : List (MState ι β)) :
    (pollSignals w k np ss).2.2.map (·.tag) = ss.map (·.tag) := by
  induction ss generalizing k np with
  | nil => rfl
  | cons s ss ih =>
    simp only [pollSignals]
    split <;> simp [ih]

theorem FCState.new_value {g : α → List (Poll (Option Bool))} {w : Waker} {t : α} {s : FCState α}
    (h : FCState.new g w t = some s) : s.value = t := by
  simp only [FCState.new] at h
  split at h
  · cases h
  · cases h; rfl

theorem fcNewAll_values {g : α → List (Poll (Option Bool))} {w : Waker} {ts bs : List α}
    {ss : List (FCState α)} (h : fcNewAll g w ts = some (bs, ss)) : ss.map (·.value) = ts := by
  induction ts generalizing bs ss with
  | nil => cases h; rfl
  | cons t ts ih =>
    simp only [fcNewAll] at h
    split at h
    · cases h
    · rename_i h1
      split at h
      · cases h
      · rename_i h2
        cases h
        simp [ih h2, FCState.new_value h1]

theorem filterSignalBody_follows (g : α → List (Poll (Option Bool))) (w : Waker) :
    Follows (fun s : List (FCState α) × List (VecDiff α) => s.1.map (·.value)) (filterSignalBody g w) := by
  intro ⟨signals, np⟩ d
  unfold filterSignalBody
  cases d with
  | replace values =>
    simp only []
    cases h1 : fcNewAll g w values with
    | none => trivial
    | some p => simp [VecDiff.apply, fcNewAll_values h1]
  | clear => rfl
  | insertAt index value =>
    simp only []
    cases h1 : FCState.new g w value with
    | none => trivial
    | some s =>
      simp only []
      cases h2 : vInsert signals index s with
      | none => trivial
      | some l =>
        have := insert_tags FCState.value h2
        rw [FCState.new_value h1] at this
        simp only []
        cases s.isIn
        · exact this
        · simp only [if_true]
          cases fcFindIndex l index
          · trivial
          · exact this
  | updateAt index value =>
    simp only []
    cases h1 : FCState.new g w value with
    | none => trivial
    | some s =>
      simp only []
      cases h2 : signals[index]? with
      | none => trivial
      | some old =>
        have := set_tags' FCState.value (x := s) h2
        rw [FCState.new_value h1] at this
        simp only []
        cases s.isIn <;> cases old.isIn <;> (try simp only [if_true]) <;>
          first | exact this | (cases fcFindIndex (signals.set index s) index <;> first | trivial | exact this)
  | push value =>
    simp only []
    cases h1 : FCState.new g w value with
    | none => trivial
    | some s =>
      have := push_tags FCState.value signals s
      rw [FCState.new_value h1] at this
      simp only []
      cases s.isIn <;> exact this
  | move i j =>
    simp only []
    cases h1 : vRemove signals i with
    | none => trivial
    | some p =>
      obtain ⟨b, s⟩ := p
      simp only []
      cases h2 : vInsert s j b with
      | none => trivial
      | some l =>
        have := move_tags FCState.value h1 h2
        simp only []
        cases b.isIn
        · exact this
        · simp only [if_true]
          cases fcFindIndex l i <;> cases fcFindIndex l j <;> first | trivial | exact this
  | removeAt i =>
    simp only []
    cases h1 : vRemove signals i with
    | none => trivial
    | some p =>
      obtain ⟨b, s⟩ := p
      have := remove_tags FCState.value h1
      simp only []
      cases b.isIn
      · exact this
      · simp only [if_true]
        cases fcFindIndex s i <;> first | trivial | exact this
  | pop =>
    simp only []
    rcases h1 : vPop signals with ⟨o, l⟩
    cases o with
    | none => trivial
    | some p =>
      have := pop_tags FCState.value h1
      simp only []
      cases p.isIn <;> exact this

theorem FCState.drain_value (w : Waker) (s : FCState α) : (s.drain w).2.value = s.value := by
  unfold FCState.drain
  split <;> rfl

theorem drainSignals_values (w : Waker) (k : Nat) (np : List (VecDiff α)) (ss : List (FCState α)) :
    (drainSignals w k np ss).2.2.map (·.value) = ss.map (·.value) := by
  induction ss generalizing k np with
  | nil => rfl
  | cons s ss ih =>
    simp only [drainSignals]
    simp [ih, FCState.drain_value]

theorem FState.pollValues_tag {w : Waker} {s s' : FState ι β} {vs : List β}
    (h : s.pollValues w = some (vs, s')) : s'.tag = s.tag := by
  unfold FState.pollValues at h
  split at h
  · cases h
  · cases h
  · cases h; rfl

theorem pollAllValues_tags {w : Waker} {ss ss' : List (FState ι β)} {vs : List β}
    (h : pollAllValues w ss = some (vs, ss')) : ss'.map (·.tag) = ss.map (·.tag) := by
  induction ss generalizing vs ss' with
  | nil => cases h; rfl
  | cons t ts ih =>
    simp only [pollAllValues] at h
    split at h
    · cases h
    · rename_i h1
      split at h
      · cases h
      · rename_i h2
        cases h
        simp [ih h2, FState.pollValues_tag h1]

theorem FState.pollPending_tag {w : Waker} {k : Nat} {np np' : List (VecDiff β)} {s s' : FState ι β} {b : Bool}
    (h : s.pollPending w k np = some (b, np', s')) : s'.tag = s.tag := by
  unfold FState.pollPending at h
  split at h
  · cases h
  · cases h
  · cases h; rfl
  · cases h; rfl

theorem pollAllPending_tags {w : Waker} {k : Nat} {np np' : List (VecDiff β)} {ss ss' : List (FState ι β)}
    {b : Bool} (h : pollAllPending w k np ss = some (b, np', ss')) : ss'.map (·.tag) = ss.map (·.tag) := by
  induction ss generalizing k np ss' b np' with
  | nil => cases h; rfl
  | cons s ss ih =>
    simp only [pollAllPending] at h
    split at h
    · cases h
    · rename_i h1
      split at h
      · cases h
      · rename_i h2
        cases h
        simp [ih h2, FState.pollPending_tag h1]

theorem flattenBody_follows (g : ι → List (Poll (Option (VecDiff β)))) (w : Waker) :
    Follows (fun s : List (FState ι β) => s.map (·.tag)) (flattenBody g w) := by
  intro inner d
  unfold flattenBody
  cases d with
  | replace values =>
    simp only []
    cases h1 : pollAllValues w (values.map (FState.new g)) with
    | none => trivial
    | some p =>
      have := pollAllValues_tags h1
      rw [List.map_map] at this
      simp only [VecDiff.apply, this]
      exact congrArg some (List.map_id values).symm
  | clear => rfl
  | insertAt index value =>
    simp only []
    cases h2 : vInsert inner index (FState.new g value) with
    | none => trivial
    | some l => exact insert_tags FState.tag h2
  | updateAt index value =>
    simp only []
    cases h2 : vSet inner index (FState.new g value) with
    | none => trivial
    | some l => exact set_tags FState.tag h2
  | push value => exact push_tags FState.tag inner (FState.new g value)
  | move i j =>
    simp only []
    cases h1 : vRemove inner i with
    | none => trivial
    | some p =>
      obtain ⟨b, s⟩ := p
      simp only []
      cases h2 : vInsert s j b with
      | none => trivial
      | some l => exact move_tags FState.tag h1 h2
  | removeAt i =>
    simp only []
    cases h1 : vRemove inner i with
    | none => trivial
    | some p => exact remove_tags FState.tag h1
  | pop =>
    simp only []
    rcases h1 : vPop inner with ⟨o, l⟩
    cases o with
    | none => trivial
    | some p => exact pop_tags FState.tag h1

theorem toSignalBody_follows : Follows (fun s : List α × Bool => s.1) (toSignalBody (α := α)) := by
  intro ⟨values, changed⟩ d
  unfold toSignalBody
  cases d <;> simp only [] <;> (repeat' split) <;> grind [VecDiff.apply]

theorem sumBody_follows : Follows (fun s : List α × Bool => s.1) (sumBody (α := α)) := by
  intro ⟨values, changed⟩ d
  unfold sumBody
  cases d <;> simp only [] <;> (repeat' split) <;> grind [VecDiff.apply]

theorem sortBody_follows (S : SliceFns) (cmp : α → α → Ordering) :
    Follows (fun s : List α × List Nat => s.1) (sortBody S cmp) := by
  intro ⟨values, indexes⟩ d
  unfold sortBody
  cases d with
  | clear => rfl
  | _ =>
    simp only []
    split
    case h_3 => trivial
    all_goals
      rename_i heq
      repeat' split at heq
      all_goals cases heq
      all_goals grind [VecDiff.apply, vPop]

/-- An invariant of the polls, and what holds after the last one. -/
theorem run_keeps_last {poll : Waker → σ → Option (Poll (Option β) × σ)} {I : σ → Prop}
    {J : Poll (Option β) → σ → Prop}
    (hstep : ∀ w s r s', I s → poll w s = some (r, s') → I s' ∧ J r s') {ws : List Waker} {s0 s : σ}
    {outs : List (Poll (Option β))} (h : run poll ws s0 = some (outs, s)) (h0 : I s0) :
    I s ∧ ∀ r, outs.getLast? = some r → J r s := by
  induction ws generalizing s0 outs with
  | nil => cases h; exact ⟨h0, by simp⟩
  | cons w ws ih =>
    simp only [run] at h
    split at h
    · cases h
    · rename_i h1
      cases h
      obtain ⟨k1, k2⟩ := hstep _ _ _ _ h0 h1
      exact ⟨k1, by intro r hr; cases hr; exact k2⟩
    · rename_i r s1 _ h1
      split at h
      · cases h
      · rename_i outs' s' h2
        cases h
        obtain ⟨k1, k2⟩ := hstep _ _ _ _ h0 h1
        obtain ⟨k3, k4⟩ := ih h2 k1
        refine ⟨k3, ?_⟩
        intro r' hr
        cases outs' with
        | nil =>
          cases hr
          cases ws with
          | nil => cases h2; exact k2
          | cons w' ws =>
            exfalso
            simp only [run] at h2
            grind
        | cons o os => exact k4 r' (by simpa using hr)

/-! ## Maps -/

section
variable {K V : Type} [LinearOrder K]

/-- The map after a change, whether it fits or not: an `Insert` of a present key replaces its value, a `Remove`
of an absent key does nothing, and of the entries of a `Replace` with the same key the last counts. -/
def MapDiff.put : MapDiff K V → (K → Option V) → (K → Option V)
  | .replace entries, _ => mapOf entries.reverse
  | .insert key value, m => upd m key (some value)
  | .update key value, m => upd m key (some value)
  | .remove key, m => upd m key none
  | .clear, _ => noKeys

/-- The map after a list of changes. -/
def putAll : List (MapDiff K V) → (K → Option V) → (K → Option V)
  | [], m => m
  | d :: ds, m => putAll ds (d.put m)

theorem putAll_snoc (ds : List (MapDiff K V)) (d : MapDiff K V) (m : K → Option V) :
    putAll (ds ++ [d]) m = d.put (putAll ds m) := by
  induction ds generalizing m with
  | nil => rfl
  | cons _ ds ih => exact ih _

/-- The entries are in ascending order of their keys and belong to the present map. -/
def MHeld (ds : List (MapDiff K V)) (signals : List (K × MState V β)) : Prop :=
  Ascending signals ∧ tagOf signals = putAll ds noKeys

theorem tagOf_upd {l l' : List (K × MState V β)} {k : K} {o : Option (MState V β)}
    (h : mapOf l' = upd (mapOf l) k o) : tagOf l' = upd (tagOf l) k (o.map (·.tag)) := by
  funext j
  simp only [tagOf, h, upd]
  split <;> rfl

theorem mapOf_append (a b : List (K × V)) (k : K) : mapOf (a ++ b) k = (mapOf a k).or (mapOf b k) := by
  induction a with
  | nil => rfl
  | cons e a ih =>
    simp only [List.cons_append, mapOf]
    split
    · rfl
    · exact ih

theorem newEntries_held {g : V → List (Poll (Option β))} {w : Waker} {es : List (K × V)}
    {l l' : List (K × MState V β)} {bs : List (K × β)} (h : newEntries g w es l = some (bs, l'))
    (hl : Ascending l) :
    Ascending l' ∧ ∀ k, tagOf l' k = (mapOf es.reverse k).or (tagOf l k) := by
  induction es generalizing l l' bs with
  | nil => cases h; exact ⟨hl, fun k => rfl⟩
  | cons e es ih =>
    simp only [newEntries] at h
    split at h
    · cases h
    · rename_i h1
      split at h
      · cases h
      · rename_i h2
        cases h
        obtain ⟨-, k1, k2, -⟩ := bInsert_spec hl e.1 (by assumption)
        obtain ⟨k3, k4⟩ := ih h2 k1
        refine ⟨k3, fun k => ?_⟩
        rw [k4, tagOf_upd k2, List.reverse_cons, mapOf_append]
        cases mapOf es.reverse k with
        | some v => rfl
        | none =>
          have := MState.new_tag h1
          simp only [Option.none_or, upd, mapOf, Option.map_some, this, eq_comm (a := e.1)]
          split <;> simp

theorem mapValueBody_held {g : V → List (Poll (Option β))} {w : Waker}
    {l l' : List (K × MState V β)} {np np' : List (MapDiff K β)} {d : MapDiff K V} {ds : List (MapDiff K V)}
    (h : mapValueBody g w (l, np) d = .cont (l', np')) (hl : MHeld ds l) : MHeld (ds ++ [d]) l' := by
  obtain ⟨h1, h2⟩ := hl
  unfold MHeld
  rw [putAll_snoc, ← h2]
  unfold mapValueBody at h
  cases d with
  | replace entries =>
    simp only [] at h
    split at h
    · cases h
    · rename_i he
      cases h
      obtain ⟨k1, k2⟩ := newEntries_held he (by simp [Ascending])
      refine ⟨k1, ?_⟩
      funext k
      rw [k2]
      simp [tagOf, mapOf, MapDiff.put]
  | insert key value =>
    simp only [] at h
    split at h
    · cases h
    · rename_i he
      cases h
      obtain ⟨-, k1, k2, -⟩ := bInsert_spec h1 key (by assumption)
      refine ⟨k1, ?_⟩
      rw [tagOf_upd k2, Option.map_some, MState.new_tag he]
      rfl
  | update key value =>
    simp only [] at h
    split at h
    · cases h
    · rename_i he
      split at h
      · cases h
      · rename_i hu
        cases h
        obtain ⟨l'', k0, k1, k2, -⟩ := bUpdate_spec h1 key (by assumption) (bUpdate_isSome hu)
        rw [hu] at k0
        cases k0
        refine ⟨k1, ?_⟩
        rw [tagOf_upd k2, Option.map_some, MState.new_tag he]
        rfl
  | remove key =>
    cases h
    obtain ⟨-, k1, k2, -⟩ := bRemove_spec h1 key
    exact ⟨k1, by rw [tagOf_upd k2]; rfl⟩
  | clear =>
    cases h
    exact ⟨by simp [Ascending], by funext k; rfl⟩

theorem pollEntries_held (w : Waker) (np : List (MapDiff K β)) (ss : List (K × MState V β)) :
    (pollEntries w np ss).2.2.map (·.1) = ss.map (·.1) ∧
    ∀ k, tagOf (pollEntries w np ss).2.2 k = tagOf ss k := by
  induction ss generalizing np with
  | nil => exact ⟨rfl, fun _ => rfl⟩
  | cons s ss ih =>
    simp only [tagOf] at ih
    simp only [pollEntries]
    split <;> (simp only [List.map_cons, (ih _).1, tagOf, mapOf, true_and]; intro k; split <;> simp [(ih _).2])

end

end Verif
