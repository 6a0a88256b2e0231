import Verif.Props.HubConc
import Verif.Props.Tells

/-!
# C97 while subscribers run on other threads: each call still sends exactly these changes

Model: `HubConc.lean`.  Specification: `MutVec.Op.tells`, `MutMap.Op.tells`, `greeting` (`Tells.lean`).
-/

namespace Verif.HubConc

variable {S D O : Type}

/-- What a history sends to subscriber `k`, if nobody drops it: what a new subscriber gets (`first`), and the changes
(`tells`) of each call after that.  `n` counts the subscriptions before the history, `next` is the effect of a call on the
contents. -/
def sentTo (first : S → List D) (tells : O → S → List D) (next : O → S → Option S) (k : Nat) : Nat → S → List (Ev O) → List D
  | _, _, [] => []
  | n, s, .call o :: es =>
    match next o s with
    | none => []
    | some s' => (if k < n then tells o s else []) ++ sentTo first tells next k n s' es
  | n, s, .subscribe :: es => (if k = n then first s else []) ++ sentTo first tells next k (n + 1) s es
  | n, s, _ :: es => sentTo first tells next k n s es

/-- What subscriber `k` got, has queued, and will get from the running call. -/
def World.promised (w : World S D) (k : Nat) (c : Link D) : List D :=
  c.delivered ++ c.queue ++ (match w.job with | some j => j.due k | none => [])

/-- What is due to a subscriber. -/
def Due (w : World S D) (T : Nat → List D) : Prop :=
  ∀ (k : Nat) c, w.hub.links[k]? = some c →
    (c.rxAlive = true → w.promised k c = T k) ∧ (c.rxAlive = false → c.delivered <+: T k)

theorem due_tick {w w' : World S D} {T : Nat → List D} (hi : Inv (fun _ _ => True) w) (hd : Due w T)
    (h : w.tick = some w') : Due w' T ∧ w'.values = w.values ∧ w'.hub.links.length = w.hub.links.length := by
  unfold World.tick at h
  cases hj : w.job with
  | none =>
    simp only [hj] at h
    cases hcl : w.closing with
    | nil => simp [hcl] at h
    | cons s ss =>
      simp only [hcl, Option.some.injEq] at h
      subst h
      cases hl : w.hub.links[s]? with
      | none => simpa [Hub.dropTx, hl, Due, World.promised, hj] using hd
      | some c =>
        refine ⟨fun k c' hc' => ?_, rfl, by simp [Hub.dropTx, hl]⟩
        simp only [Hub.dropTx, hl, List.getElem?_set] at hc'
        by_cases hks : s = k
        · subst hks
          have hlt := (List.getElem?_eq_some_iff.1 hl).1
          simp only [↓reduceIte, hlt, Option.some.injEq] at hc'
          subst hc'
          simpa [World.promised, hj] using hd s c hl
        · simp only [hks, ↓reduceIte] at hc'
          simpa [World.promised, hj] using hd k c' hc'
  | some j =>
    simp only [hj] at h
    obtain ⟨hf, -⟩ := hi.busy j hj
    cases hcur : j.cur with
    | none =>
      simp only [hcur] at h
      cases hrest : j.rest with
      | nil =>
        simp only [hrest, Option.some.injEq] at h
        subst h
        refine ⟨fun k c hc => ?_, rfl, rfl⟩
        simpa [World.promised, hj, Job.due, hcur, hrest] using hd k c hc
      | cons d ds =>
        simp only [hrest, Option.some.injEq] at h
        subst h
        refine ⟨fun k c hc => ⟨fun ha => ?_, (hd k c hc).2⟩, rfl, rfl⟩
        have hh : w.hub.handles ≠ 0 := fun h0 => by simp [(hi.gone h0).2] at hj
        have hk := hi.live k c hc ha hh
        have := (hd k c hc).1 ha
        simpa [World.promised, hj, Job.due, hcur, hrest, hk] using this
    | some t =>
      obtain ⟨d, todo, kept⟩ := t
      obtain ⟨f1, f2, f3⟩ := hf d todo kept hcur
      cases todo with
      | nil =>
        simp only [hcur, Option.some.injEq] at h
        subst h
        refine ⟨fun k c hc => ?_, rfl, rfl⟩
        simpa [World.promised, hj, Job.due, hcur] using hd k c hc
      | cons s todo =>
        simp only [hcur, Option.some.injEq] at h
        subst h
        have hlt : s < w.hub.links.length := f2 s (by simp)
        have hns : s ∉ todo := fun hm => by
          have := f1; simp only [List.cons_append, List.nodup_cons, List.mem_append, not_or] at this; exact this.1.1 hm
        obtain ⟨c, hl⟩ : ∃ c, w.hub.links[s]? = some c := ⟨_, List.getElem?_eq_getElem hlt⟩
        cases hra : c.rxAlive with
        | false =>
          refine ⟨fun k c' hc' => ?_, rfl, by simp [Hub.send, hl, hra]⟩
          simp only [Hub.send, hl, hra, Bool.false_eq_true, ↓reduceIte] at hc'
          refine ⟨fun ha => ?_, (hd k c' hc').2⟩
          have hne : k ≠ s := fun e => by subst e; rw [hl] at hc'; cases hc'; simp [hra] at ha
          have := (hd k c' hc').1 ha
          simpa [World.promised, hj, Job.due, hcur, hne] using this
        | true =>
          refine ⟨fun k c' hc' => ?_, rfl, by simp [Hub.send, hl, hra]⟩
          simp only [Hub.send, hl, hra, ↓reduceIte, List.getElem?_set] at hc'
          by_cases hks : s = k
          · subst hks
            simp only [↓reduceIte, hlt, Option.some.injEq] at hc'
            subst hc'
            have := (hd s c hl).1 hra
            refine ⟨fun _ => ?_, fun h => by simp at h⟩
            rw [← this]
            simp [World.promised, hj, Job.due, hcur, hns]
          · simp only [hks, ↓reduceIte] at hc'
            have hne : k ≠ s := fun e => hks e.symm
            have := hd k c' hc'
            simpa [World.promised, hj, Job.due, hcur, hne] using this

/-- What one event sends to subscriber `k`. -/
def sentNow (api : Api S D O) (w : World S D) (k : Nat) : Ev O → List D
  | .call o =>
    match api.eff o w.values with
    | some r => if k < w.hub.links.length then r.1 else []
    | none => []
  | .subscribe => if k = w.hub.links.length then api.first w.values else []
  | _ => []

/-- The contents after an event. -/
def nextValues (api : Api S D O) (s : S) : Ev O → S
  | .call o => ((api.eff o s).map (·.2)).getD s
  | _ => s

theorem due_step {api : Api S D O} {w w' : World S D} {T : Nat → List D} {e : Ev O} {o : Option (Poll (Option D))}
    (hi : Inv (fun _ _ => True) w) (hd : Due w T) (hT : ∀ k, w.hub.links.length ≤ k → T k = [])
    (h : w.step api e = some (o, w')) :
    Due w' (fun k => T k ++ sentNow api w k e) ∧ w'.values = nextValues api w.values e ∧
      w'.hub.links.length = w.hub.links.length + (if e matches .subscribe then 1 else 0) := by
  have hlt : ∀ {k : Nat} {c : Link D}, w.hub.links[k]? = some c → k < w.hub.links.length :=
    fun h => (List.getElem?_eq_some_iff.1 h).1
  cases e with
  | call a =>
    simp only [World.step] at h
    split at h
    · cases h
    · rename_i hn
      have hjn : w.job = none := by
        cases hj : w.job with
        | none => rfl
        | some j => exact absurd (.inr (by simp [hj])) hn
      cases he : api.eff a w.values with
      | none => simp [he] at h
      | some r =>
        obtain ⟨ds, s⟩ := r
        simp only [he, Option.some.injEq, Prod.mk.injEq] at h
        obtain ⟨-, rfl⟩ := h
        refine ⟨fun k c hc => ?_, by simp [nextValues, he], by simp⟩
        have := hd k c hc
        simp only [sentNow, he, hlt hc, ↓reduceIte]
        refine ⟨fun ha => ?_, fun ha => (this.2 ha).trans (List.prefix_append _ _)⟩
        rw [← this.1 ha]
        simp [World.promised, hjn, Job.due]
  | tick =>
    simp only [World.step, Option.map_eq_some_iff, Prod.mk.injEq] at h
    obtain ⟨w1, h1, -, rfl⟩ := h
    have := due_tick hi hd h1
    simpa [sentNow, nextValues] using this
  | subscribe =>
    simp only [World.step] at h
    split at h
    · cases h
    · rename_i hn
      have hjn : w.job = none := by
        cases hj : w.job with
        | none => rfl
        | some j => exact absurd (.inr (by simp [hj])) hn
      simp only [Option.some.injEq, Prod.mk.injEq] at h
      obtain ⟨-, rfl⟩ := h
      refine ⟨fun k c hc => ?_, rfl, by simp [Hub.subscribe]⟩
      simp only [Hub.subscribe, List.getElem?_append] at hc
      by_cases hk : k < w.hub.links.length
      · simp only [hk, ↓reduceIte] at hc
        have := hd k c hc
        have hne : k ≠ w.hub.links.length := by omega
        simpa [sentNow, World.promised, hjn, hne] using this
      · simp only [hk, ↓reduceIte] at hc
        have hke : k = w.hub.links.length := by
          have := (List.getElem?_eq_some_iff.1 hc).1
          simp at this; omega
        subst hke
        simp only [Nat.sub_self, List.getElem?_cons_zero, Option.some.injEq] at hc
        subst hc
        simp [sentNow, World.promised, hjn, hT]
  | poll id cx =>
    simp only [World.step] at h
    split at h
    · rename_i hr
      simp only [Option.some.injEq, Prod.mk.injEq] at h
      obtain ⟨-, rfl⟩ := h
      obtain ⟨c0, hl, hra⟩ := link_of_live hr
      have hl0 := hlt hl
      simp only [sentNow, List.append_nil, nextValues]
      have key : ∀ c1 : Link D, c1.rxAlive = true → c1.delivered ++ c1.queue = c0.delivered ++ c0.queue →
          Due { w with hub := { w.hub with links := w.hub.links.set id c1 } } T := by
        intro c1 h1 h2 k c hc
        simp only [List.getElem?_set] at hc
        by_cases hk : id = k
        · subst hk
          simp only [↓reduceIte, hl0, Option.some.injEq] at hc
          subst hc
          refine ⟨fun _ => ?_, fun ha => by simp [h1] at ha⟩
          rw [← (hd id c0 hl).1 hra]
          simp only [World.promised, h2]
        · simp only [hk, ↓reduceIte] at hc
          exact hd k c hc
      unfold Hub.pollRx
      simp only [hl]
      split
      · rename_i d ds hq
        exact ⟨key _ hra (by simp [hq]), trivial, by simp⟩
      · rename_i hq
        split
        · exact ⟨key _ hra (by simp), trivial, by simp⟩
        · exact ⟨hd, trivial, by simp⟩
    · cases h
  | dropRx id =>
    simp only [World.step] at h
    split at h
    · rename_i hr
      simp only [Option.some.injEq, Prod.mk.injEq] at h
      obtain ⟨-, rfl⟩ := h
      obtain ⟨c0, hl, hra⟩ := link_of_live hr
      have hl0 := hlt hl
      simp only [sentNow, List.append_nil, nextValues]
      unfold Hub.dropRx
      simp only [hl]
      refine ⟨fun k c hc => ?_, trivial, by simp⟩
      simp only [List.getElem?_set] at hc
      by_cases hk : id = k
      · subst hk
        simp only [↓reduceIte, hl0, Option.some.injEq] at hc
        subst hc
        refine ⟨fun ha => by simp at ha, fun _ => ?_⟩
        dsimp only
        rw [← (hd id c0 hl).1 hra]
        simp [World.promised, List.append_assoc]
      · simp only [hk, ↓reduceIte] at hc
        exact hd k c hc
    · cases h
  | cloneHandle =>
    simp only [World.step] at h
    split at h
    · cases h
    · simp only [Option.some.injEq, Prod.mk.injEq] at h
      obtain ⟨-, rfl⟩ := h
      simp only [sentNow, List.append_nil, nextValues]
      exact ⟨hd, trivial, by simp⟩
  | dropHandle =>
    simp only [World.step] at h
    simp only [sentNow, List.append_nil, nextValues]
    split at h
    · cases h
    · split at h
      · split at h
        · cases h
        · simp only [Option.some.injEq, Prod.mk.injEq] at h
          obtain ⟨-, rfl⟩ := h
          exact ⟨hd, rfl, by simp⟩
      · simp only [Option.some.injEq, Prod.mk.injEq] at h
        obtain ⟨-, rfl⟩ := h
        exact ⟨hd, rfl, by simp⟩

theorem any_ok (api : Api S D O) : api.Ok (fun _ _ => True) where
  first _ := trivial
  eff _ _ _ _ _ _ _ := trivial

theorem due_runs {api : Api S D O} {tells : O → S → List D} {next : O → S → Option S}
    (hn : ∀ o s, next o s = (api.eff o s).map (·.2)) (ht : ∀ o s r, api.eff o s = some r → tells o s = r.1)
    {w w' : World S D} {T : Nat → List D} {es : List (Ev O)} {os : List (Option (Poll (Option D)))}
    (hi : Inv (fun _ _ => True) w) (hd : Due w T) (hT : ∀ k, w.hub.links.length ≤ k → T k = [])
    (h : w.runs api es = some (os, w')) :
    Due w' (fun k => T k ++ sentTo api.first tells next k w.hub.links.length w.values es) := by
  induction es generalizing w T os with
  | nil => cases h; simpa [sentTo] using hd
  | cons e es ih =>
    simp only [World.runs, runE] at h
    cases hs : w.step api e with
    | none => simp [hs] at h
    | some p =>
      obtain ⟨o, w1⟩ := p
      simp only [hs] at h
      cases hr : runE (World.step api) w1 es with
      | none => simp [hr] at h
      | some q =>
        obtain ⟨os', w2⟩ := q
        simp only [hr, Option.some.injEq, Prod.mk.injEq] at h
        obtain ⟨-, rfl⟩ := h
        obtain ⟨g1, g2, g3⟩ := due_step hi hd hT hs
        have hT1 : ∀ k, w1.hub.links.length ≤ k → T k ++ sentNow api w k e = [] := by
          intro k hk
          rw [g3] at hk
          rw [hT k (by omega)]
          cases e <;> simp only [sentNow, List.append_nil]
          · split
            · rw [if_neg (by simp at hk; omega)]; rfl
            · rfl
          · rw [if_neg (by simp at hk; omega)]; rfl
        have := ih (inv_step (any_ok api) hi hs) g1 hT1 hr
        have heq : ∀ k, sentNow api w k e ++ sentTo api.first tells next k w1.hub.links.length w1.values es =
            sentTo api.first tells next k w.hub.links.length w.values (e :: es) := by
          intro k
          rw [g2, g3]
          cases e with
          | call a =>
            cases he : api.eff a w.values with
            | none =>
              simp only [World.step, he] at hs
              split at hs <;> cases hs
            | some r => simp [sentNow, nextValues, sentTo, he, hn, ht a w.values r he]
          | subscribe => simp [sentNow, nextValues, sentTo]
          | _ => simp [sentNow, nextValues, sentTo]
        intro k c hc
        dsimp only
        rw [← heq k, ← List.append_assoc]
        exact this k c hc

theorem due_init (s : S) : Due (World.init s : World S D) (fun _ => []) := fun k c hc => by simp [World.init] at hc

/-- The general form of `C97_vec_threads` and `C97_map_threads`. -/
theorem threads_general {api : Api S D O} {tells : O → S → List D} {next : O → S → Option S}
    (hn : ∀ o s, next o s = (api.eff o s).map (·.2)) (ht : ∀ o s r, api.eff o s = some r → tells o s = r.1)
    {s : S} {w : World S D} {es : List (Ev O)} {os : List (Option (Poll (Option D)))}
    (h : (World.init s).runs api es = some (os, w)) {k : Nat} {c : Link D} (hc : w.hub.links[k]? = some c) :
    got k es os <+: sentTo api.first tells next k 0 s es ∧
    (c.rxAlive = true → got k es os ++ c.queue <+: sentTo api.first tells next k 0 s es) ∧
    (c.rxAlive = true → w.job = none → got k es os ++ c.queue = sentTo api.first tells next k 0 s es) := by
  have hd := due_runs hn ht (inv_init (R := fun _ _ => True) s) (due_init s) (fun _ _ => rfl) h
  have hg : c.delivered = got k es os := by
    have := runs_log h k
    simpa [Hub.log, hc] using this
  obtain ⟨h1, h2⟩ := hd k c hc
  simp only [World.init, List.length_nil, List.nil_append] at h1 h2
  rw [← hg]
  refine ⟨?_, fun ha => ?_, fun ha hj => ?_⟩
  · cases ha : c.rxAlive with
    | false => exact h2 ha
    | true => rw [← h1 ha]; simp [World.promised, List.append_assoc]
  · rw [← h1 ha]; simp [World.promised, List.append_assoc]
  · rw [← h1 ha]; simp [World.promised, hj]

/-- **C97 for `MutableVec`, with other threads**: subscribers may be polled and dropped between any two sends of a call.
What a subscriber got, and has waiting, is always a beginning of the contents when it subscribed followed by the changes
`Op.tells` of each call since, and if it was not dropped and no call is running, it is all of this. -/
theorem C97_vec_threads {α : Type} (l : List α) (es : List (Ev (MutVec.Op α)))
    (os : List (Option (Poll (Option (VecDiff α))))) (w : World (List α) (VecDiff α))
    (h : (World.init l).runs (vecApi α) es = some (os, w)) (k : Nat) (c : Link (VecDiff α))
    (hc : w.hub.links[k]? = some c) :
    let sent := sentTo MutVec.greeting MutVec.Op.tells (fun o l => (o.spec l).map (·.2)) k 0 l es
    got k es os <+: sent ∧ (c.rxAlive = true → got k es os ++ c.queue <+: sent) ∧
    (c.rxAlive = true → w.job = none → got k es os ++ c.queue = sent) := by
  have hf : MutVec.greeting (α := α) = (vecApi α).first := by
    funext l
    cases l <;> simp [MutVec.greeting, vecApi]
  rw [hf]
  refine threads_general (fun o s => ?_) (fun o s r hr => ?_) h hc
  · simp [vecApi, Option.map_map, Function.comp_def]
  · simp only [vecApi, Option.map_eq_some_iff] at hr
    obtain ⟨r', h1, rfl⟩ := hr
    exact (MutVec.tells_eq h1).symm

/-- **C97 for `MutableBTreeMap`, with other threads** (see `C97_vec_threads`). -/
theorem C97_map_threads {K V : Type} [LinearOrder K] (m : MutMap.BMap K V) (es : List (Ev (MutMap.Op K V)))
    (os : List (Option (Poll (Option (MapDiff K V))))) (w : World (MutMap.BMap K V) (MapDiff K V))
    (h : (World.init m).runs (mapApi K V) es = some (os, w)) (k : Nat) (c : Link (MapDiff K V))
    (hc : w.hub.links[k]? = some c) :
    let sent := sentTo (fun m => MutMap.greeting m.1) (fun o m => o.tells m.1) (fun o m => some (o.next m)) k 0 m es
    got k es os <+: sent ∧ (c.rxAlive = true → got k es os ++ c.queue <+: sent) ∧
    (c.rxAlive = true → w.job = none → got k es os ++ c.queue = sent) := by
  have hf : (fun m : MutMap.BMap K V => MutMap.greeting m.1) = (mapApi K V).first := by
    funext m
    simp only [MutMap.greeting, mapApi, List.isEmpty_iff]
  rw [hf]
  refine threads_general (fun o s => ?_) (fun o s r hr => ?_) h hc
  · simp [mapApi]
  · simp only [mapApi, Option.some.injEq] at hr
    subst hr
    exact (MutMap.tells_eq o s).symm

/-- A history: a subscriber is polled between the two moves of a `swap`. -/
def demoSwap : List (Ev (MutVec.Op Nat)) := [.subscribe, .call (.swap 0 2), .tick, .tick, .poll 0 7, .poll 0 8]

example : ∃ os w c, (World.init [1, 2, 3]).runs (vecApi Nat) demoSwap = some (os, w) ∧ w.hub.links[0]? = some c ∧
    got 0 demoSwap os = [.replace [1, 2, 3], .move 0 2] ∧
    sentTo MutVec.greeting MutVec.Op.tells (fun o l => (o.spec l).map (·.2)) 0 0 [1, 2, 3] demoSwap =
      [.replace [1, 2, 3], .move 0 2, .move 1 0] :=
  ⟨_, _, _, rfl, rfl, rfl, by decide⟩

/-- A history: a map is changed twice, and a subscriber that comes in between is polled. -/
def demoMapTells : List (Ev (MutMap.Op Nat Nat)) :=
  [.call (.insert 1 10), .tick, .tick, .tick, .subscribe, .call (.insert 1 11), .tick, .tick, .tick, .tick, .poll 0 7]

example : ∃ os w c, (World.init MutMap.BMap.empty).runs (mapApi Nat Nat) demoMapTells = some (os, w) ∧
    w.hub.links[0]? = some c ∧ w.job.isNone = true ∧
    got 0 demoMapTells os = [.replace [(1, 10)]] ∧ c.queue = [.update 1 11] ∧
    sentTo (fun m => MutMap.greeting m.1) (fun o m => o.tells m.1) (fun o m => some (o.next m)) 0 0 MutMap.BMap.empty
      demoMapTells = [.replace [(1, 10)], .update 1 11] :=
  ⟨_, _, _, rfl, rfl, rfl, rfl, rfl, by decide⟩

end Verif.HubConc
