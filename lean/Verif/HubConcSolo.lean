import Verif.HubConc

/-!
# Non-interference between subscribers while calls run
-/

namespace Verif.HubConc

variable {S D O : Type}

/-- What subscriber `k` and the users of the handles did in a history, with the answers: the other
subscribers, and the steps inside calls, are left out; `k` is renamed to 0.  The number counts the
subscriptions so far. -/
def mine (k : Nat) : Nat → List (Ev O) → List (Option (Poll (Option D))) →
    List (Ev O × Option (Poll (Option D)))
  | n, .subscribe :: es, o :: os =>
    if n = k then (.subscribe, o) :: mine k (n + 1) es os else mine k (n + 1) es os
  | n, .poll id cx :: es, o :: os =>
    if id = k then (.poll 0 cx, o) :: mine k n es os else mine k n es os
  | n, .dropRx id :: es, o :: os =>
    if id = k then (.dropRx 0, o) :: mine k n es os else mine k n es os
  | n, .tick :: es, _ :: os => mine k n es os
  | n, .call c :: es, o :: os => (.call c, o) :: mine k n es os
  | n, .cloneHandle :: es, o :: os => (.cloneHandle, o) :: mine k n es os
  | n, .dropHandle :: es, o :: os => (.dropHandle, o) :: mine k n es os
  | _, _, _ => []

/-- The senders of subscriber `k`, renamed. -/
def sel (k : Nat) (l : List Nat) : List Nat := (l.filter (· == k)).map fun _ => 0

theorem sel_self (k : Nat) (l : List Nat) : sel k (k :: l) = 0 :: sel k l := by simp [sel]

theorem sel_ne {k s : Nat} (h : s ≠ k) (l : List Nat) : sel k (s :: l) = sel k l := by simp [sel, h]

theorem sel_append (k : Nat) (l l' : List Nat) : sel k (l ++ l') = sel k l ++ sel k l' := by
  simp [sel]

/-- The job as it would be for subscriber `k` alone. -/
def selJob (k : Nat) (j : Job S D) : Job S D :=
  { j with cur := j.cur.map fun c => (c.1, sel k c.2.1, sel k c.2.2) }

/-- World `w` seen by subscriber `k` looks like world `v` whose only subscriber is number 0. -/
structure Sim (k n : Nat) (w v : World S D) : Prop where
  values : v.values = w.values
  handles : v.hub.handles = w.hub.handles
  senders : v.hub.senders = sel k w.hub.senders
  link : v.hub.links[0]? = w.hub.links[k]?
  only : v.hub.links.length ≤ 1
  count : w.hub.links.length = n
  job : v.job = w.job.map (selJob k)
  closing : v.closing = sel k w.closing

theorem send_other (h : Hub D) {s k : Nat} (hk : s ≠ k) (d : D) :
    (h.send s d).2.links[k]? = h.links[k]? ∧ (h.send s d).2.links.length = h.links.length ∧
    (h.send s d).2.handles = h.handles ∧ (h.send s d).2.senders = h.senders := by
  unfold Hub.send
  split
  · simp
  · split
    · simp [List.getElem?_set_ne hk]
    · simp

theorem dropTx_other (h : Hub D) {s k : Nat} (hk : s ≠ k) :
    (h.dropTx s).links[k]? = h.links[k]? ∧ (h.dropTx s).links.length = h.links.length ∧
    (h.dropTx s).handles = h.handles ∧ (h.dropTx s).senders = h.senders := by
  unfold Hub.dropTx
  split
  · simp
  · simp [List.getElem?_set_ne hk]

theorem pollRx_other (h : Hub D) {s k : Nat} (hk : s ≠ k) (cx : Waker) :
    (h.pollRx s cx).2.links[k]? = h.links[k]? ∧
    (h.pollRx s cx).2.links.length = h.links.length ∧
    (h.pollRx s cx).2.handles = h.handles ∧ (h.pollRx s cx).2.senders = h.senders := by
  unfold Hub.pollRx
  split
  · simp
  · split
    · simp [List.getElem?_set_ne hk]
    · split
      · simp [List.getElem?_set_ne hk]
      · simp

theorem dropRx_other (h : Hub D) {s k : Nat} (hk : s ≠ k) :
    (h.dropRx s).links[k]? = h.links[k]? ∧ (h.dropRx s).links.length = h.links.length ∧
    (h.dropRx s).handles = h.handles ∧ (h.dropRx s).senders = h.senders := by
  unfold Hub.dropRx
  split
  · simp
  · simp [List.getElem?_set_ne hk]

theorem send_same {h g : Hub D} {k i : Nat} (e : g.links[i]? = h.links[k]?) (d : D) :
    (g.send i d).1 = (h.send k d).1 ∧ (g.send i d).2.links[i]? = (h.send k d).2.links[k]? ∧
    (h.send k d).2.links.length = h.links.length ∧
    (h.send k d).2.handles = h.handles ∧ (h.send k d).2.senders = h.senders := by
  unfold Hub.send
  rw [e]
  cases hc : h.links[k]? with
  | none => simp [hc, e]
  | some c =>
    have h1 := (List.getElem?_eq_some_iff.1 hc).1
    rw [hc] at e
    have h2 := (List.getElem?_eq_some_iff.1 e).1
    by_cases hr : c.rxAlive = true
    · simp [hr, h1, h2]
    · simp [hr, hc, e]

theorem dropTx_same {h g : Hub D} {k i : Nat} (e : g.links[i]? = h.links[k]?) :
    (g.dropTx i).links[i]? = (h.dropTx k).links[k]? ∧
    (h.dropTx k).links.length = h.links.length ∧
    (h.dropTx k).handles = h.handles ∧ (h.dropTx k).senders = h.senders := by
  unfold Hub.dropTx
  rw [e]
  cases hc : h.links[k]? with
  | none => simp [hc, e]
  | some c =>
    have h1 := (List.getElem?_eq_some_iff.1 hc).1
    rw [hc] at e
    have h2 := (List.getElem?_eq_some_iff.1 e).1
    simp [h1, h2]

theorem dropRx_same {h g : Hub D} {k i : Nat} (e : g.links[i]? = h.links[k]?) :
    (g.dropRx i).links[i]? = (h.dropRx k).links[k]? ∧
    (h.dropRx k).links.length = h.links.length ∧
    (h.dropRx k).handles = h.handles ∧ (h.dropRx k).senders = h.senders := by
  unfold Hub.dropRx
  rw [e]
  cases hc : h.links[k]? with
  | none => simp [hc, e]
  | some c =>
    have h1 := (List.getElem?_eq_some_iff.1 hc).1
    rw [hc] at e
    have h2 := (List.getElem?_eq_some_iff.1 e).1
    simp [h1, h2]

theorem pollRx_same {h g : Hub D} {k i : Nat} (e : g.links[i]? = h.links[k]?) (cx : Waker) :
    (g.pollRx i cx).1 = (h.pollRx k cx).1 ∧
    (g.pollRx i cx).2.links[i]? = (h.pollRx k cx).2.links[k]? ∧
    (h.pollRx k cx).2.links.length = h.links.length ∧
    (h.pollRx k cx).2.handles = h.handles ∧ (h.pollRx k cx).2.senders = h.senders := by
  unfold Hub.pollRx
  rw [e]
  cases hc : h.links[k]? with
  | none => simp [hc, e]
  | some c =>
    have h1 := (List.getElem?_eq_some_iff.1 hc).1
    rw [hc] at e
    have h2 := (List.getElem?_eq_some_iff.1 e).1
    cases hq : c.queue with
    | cons d ds => simp [hq, h1, h2]
    | nil =>
      by_cases ht : c.txAlive = true
      · simp [hq, ht, h1, h2]
      · simp [hq, ht, hc, e]

/-- One step inside a call: the world of subscriber `k` alone makes it too, or does not notice. -/
theorem sim_tick {k n : Nat} {w v w' : World S D} (hs : Sim k n w v) (h : w.tick = some w') :
    Sim k n w' v ∨ ∃ v', v.tick = some v' ∧ Sim k n w' v' := by
  unfold World.tick at h
  cases hj : w.job with
  | none =>
    simp only [hj] at h
    have hvj : v.job = none := by rw [hs.job, hj]; rfl
    cases hc : w.closing with
    | nil => simp [hc] at h
    | cons s ss =>
      simp only [hc, Option.some.injEq] at h
      subst h
      by_cases hk : s = k
      · subst hk
        have hvc : v.closing = 0 :: sel s ss := by rw [hs.closing, hc, sel_self]
        obtain ⟨a1, a2, a3, a4⟩ := dropTx_same hs.link
        obtain ⟨-, b2, b3, b4⟩ := dropTx_same (h := v.hub) (k := 0) (g := v.hub) rfl
        refine .inr ⟨{ v with hub := v.hub.dropTx 0, closing := sel s ss },
          by simp [World.tick, hvj, hvc], hs.values, ?_, ?_, a1, ?_, ?_, ?_, rfl⟩
        · simp only [b3, a3]; exact hs.handles
        · simp only [b4, a4]; exact hs.senders
        · simp only [b2]; exact hs.only
        · simp only [a2]; exact hs.count
        · exact hvj
      · obtain ⟨a1, a2, a3, a4⟩ := dropTx_other w.hub hk
        refine .inl ⟨hs.values, by simp only [a3]; exact hs.handles,
          by simp only [a4]; exact hs.senders, by simp only [a1]; exact hs.link, hs.only,
          by simp only [a2]; exact hs.count, hvj, ?_⟩
        rw [hs.closing, hc, sel_ne hk]
  | some j =>
    simp only [hj] at h
    have hvj : v.job = some (selJob k j) := by rw [hs.job, hj]; rfl
    obtain ⟨cur, rest, old, all⟩ := j
    cases cur with
    | none =>
      simp only [selJob, Option.map_none] at h hvj
      cases rest with
      | nil =>
        simp only [Option.some.injEq] at h
        subst h
        exact .inr ⟨{ v with job := none }, by simp [World.tick, hvj],
          { hs with job := rfl }⟩
      | cons d ds =>
        simp only [Option.some.injEq] at h
        subst h
        refine .inr ⟨{ v with job := some ⟨some (d, v.hub.senders, []), ds, old, all⟩ },
          by simp only [World.tick, hvj],
          ⟨hs.values, hs.handles, hs.senders, hs.link, hs.only, hs.count, ?_, hs.closing⟩⟩
        simp [selJob, hs.senders, sel]
    | some c =>
      obtain ⟨d, todo, kept⟩ := c
      simp only [selJob, Option.map_some] at h hvj
      cases todo with
      | nil =>
        simp only [Option.some.injEq] at h
        subst h
        have e : sel k [] = [] := rfl
        rw [e] at hvj
        exact .inr ⟨{ v with
            hub := { v.hub with senders := sel k kept }, job := some ⟨none, rest, old, all⟩ },
          by simp only [World.tick, hvj],
          ⟨hs.values, hs.handles, rfl, hs.link, hs.only, hs.count, rfl, hs.closing⟩⟩
      | cons s todo =>
        simp only [Option.some.injEq] at h
        subst h
        by_cases hk : s = k
        · subst hk
          rw [sel_self] at hvj
          obtain ⟨a0, a1, a2, a3, a4⟩ := send_same hs.link d
          obtain ⟨-, -, b2, b3, b4⟩ := send_same (h := v.hub) (k := 0) (g := v.hub) rfl d
          refine .inr ⟨{ v with
              hub := (v.hub.send 0 d).2,
              job := some ⟨some (d, sel s todo,
                if (v.hub.send 0 d).1 then sel s kept ++ [0] else sel s kept), rest, old, all⟩ },
            by simp only [World.tick, hvj], hs.values, ?_, ?_, a1, ?_, ?_, ?_, hs.closing⟩
          · simp only [b3, a3]; exact hs.handles
          · simp only [b4, a4]; exact hs.senders
          · simp only [b2]; exact hs.only
          · simp only [a2]; exact hs.count
          · simp only [a0, Option.map_some, selJob]
            split
            · rw [sel_append]; simp [sel]
            · rfl
        · obtain ⟨a1, a2, a3, a4⟩ := send_other w.hub hk d
          refine .inl ⟨hs.values, by simp only [a3]; exact hs.handles,
            by simp only [a4]; exact hs.senders, by simp only [a1]; exact hs.link, hs.only,
            by simp only [a2]; exact hs.count, ?_, hs.closing⟩
          rw [hvj, sel_ne hk]
          simp only [Option.map_some, selJob]
          split
          · rw [sel_append, sel_ne hk]; simp [sel]
          · rfl

theorem job_isSome {k n : Nat} {w v : World S D} (hs : Sim k n w v) :
    v.job.isSome = w.job.isSome := by rw [hs.job]; cases w.job <;> rfl

theorem rxLive_sim {k n : Nat} {w v : World S D} (hs : Sim k n w v) :
    v.hub.rxLive 0 = w.hub.rxLive k := by simp only [Hub.rxLive, hs.link]

/-- What a step adds to `mine`, and the number of subscriptions after it. -/
def mine1 (k n : Nat) (e : Ev O) (o : Option (Poll (Option D))) :
    List (Ev O × Option (Poll (Option D))) := mine k n [e] [o]

def after (n : Nat) : Ev O → Nat
  | .subscribe => n + 1
  | _ => n

theorem mine_cons (k n : Nat) (e : Ev O) (es : List (Ev O)) (o : Option (Poll (Option D)))
    (os : List (Option (Poll (Option D)))) :
    mine k n (e :: es) (o :: os) = mine1 k n e o ++ mine k (after n e) es os := by
  cases e <;> simp only [mine, mine1, after] <;> (try split) <;> simp

/-- One step: either it is left out, or the world of subscriber `k` alone makes a step that looks
the same. -/
theorem sim_step {api : Api S D O} {k n : Nat} {w v w' : World S D} (hs : Sim k n w v) {e : Ev O}
    {o : Option (Poll (Option D))} (h : w.step api e = some (o, w')) :
    (Sim k (after n e) w' v ∧ mine1 k n e o = []) ∨
    ∃ e' v', v.step api e' = some (o, v') ∧ Sim k (after n e) w' v' ∧
      (∀ m, (n ≤ k ∧ m = 0 ∨ k < n ∧ m = 1) →
        mine1 0 m e' o = mine1 k n e o ∧
        (after n e ≤ k ∧ after m e' = 0 ∨ k < after n e ∧ after m e' = 1)) ∧
      [e'].filter (fun e => !e.isTick) = (mine1 k n e o).map (·.1) := by
  have hj := job_isSome hs
  cases e with
  | call c =>
    simp only [World.step] at h
    split at h
    · cases h
    · rename_i hc
      cases hx : api.eff c w.values with
      | none => simp [hx] at h
      | some r =>
        simp only [hx, Option.some.injEq, Prod.mk.injEq] at h
        obtain ⟨rfl, rfl⟩ := h
        refine .inr ⟨.call c, { v with values := r.2, job := some ⟨none, r.1, v.values, r.1⟩ }, by
          simp only [World.step, hs.handles, hj, hc, ↓reduceIte, hs.values, hx],
          ⟨rfl, hs.handles, hs.senders, hs.link, hs.only, hs.count, ?_, hs.closing⟩, ?_, rfl⟩
        · simp [selJob, hs.values]
        · intro m hm; exact ⟨rfl, hm⟩
  | tick =>
    simp only [World.step, Option.map_eq_some_iff, Prod.mk.injEq] at h
    obtain ⟨w1, h1, rfl, rfl⟩ := h
    rcases sim_tick hs h1 with h2 | ⟨v', h2, h3⟩
    · exact .inl ⟨h2, rfl⟩
    · exact .inr ⟨.tick, v', by simp [World.step, h2], h3, fun m hm => ⟨rfl, hm⟩, rfl⟩
  | subscribe =>
    simp only [World.step] at h
    split at h
    · cases h
    · rename_i hc
      simp only [Option.some.injEq, Prod.mk.injEq] at h
      obtain ⟨rfl, rfl⟩ := h
      have hcount := hs.count
      by_cases hk : n = k
      · subst hk
        have hv : v.hub.links = [] := by
          have hl := hs.link
          rw [List.getElem?_eq_none (l := w.hub.links) (by omega)] at hl
          cases hv : v.hub.links with
          | nil => rfl
          | cons a l => simp [hv] at hl
        refine .inr ⟨.subscribe, { v with hub := v.hub.subscribe (api.first v.values) }, by
          simp only [World.step, hs.handles, hj, hc, ↓reduceIte],
          ⟨hs.values, hs.handles, ?_, ?_, ?_, ?_, hs.job, hs.closing⟩, ?_, ?_⟩
        · simp [Hub.subscribe, hv, hs.senders, hcount, sel]
        · rw [← hcount]; simp [Hub.subscribe, hv, hs.values]
        · simp [Hub.subscribe, hv]
        · simp [Hub.subscribe, hcount, after]
        · intro m hm
          have : m = 0 := by omega
          subst this
          exact ⟨by simp [mine1, mine], .inr ⟨by simp [after], rfl⟩⟩
        · simp [mine1, mine, Ev.isTick]
      · refine .inl ⟨⟨hs.values, hs.handles, ?_, ?_, hs.only, ?_, hs.job, hs.closing⟩,
          by simp [mine1, mine, hk]⟩
        · simp only [Hub.subscribe, sel_append, hcount, sel_ne hk]
          simp [sel, hs.senders]
        · rw [hs.link]
          simp only [Hub.subscribe]
          rcases Nat.lt_or_ge k w.hub.links.length with h' | h'
          · rw [List.getElem?_append_left h']
          · rw [List.getElem?_eq_none h', List.getElem?_eq_none]
            simp; omega
        · simp [Hub.subscribe, hcount, after]
  | poll id cx =>
    simp only [World.step] at h
    split at h
    · rename_i hl
      simp only [Option.some.injEq, Prod.mk.injEq] at h
      obtain ⟨rfl, rfl⟩ := h
      by_cases hk : id = k
      · subst hk
        obtain ⟨a0, a1, a2, a3, a4⟩ := pollRx_same hs.link cx
        obtain ⟨-, -, b2, b3, b4⟩ := pollRx_same (h := v.hub) (k := 0) (g := v.hub) rfl cx
        refine .inr ⟨.poll 0 cx, { v with hub := (v.hub.pollRx 0 cx).2 },
          by simp only [World.step, rxLive_sim hs, hl, ↓reduceIte, a0],
          ⟨hs.values, ?_, ?_, a1, ?_, ?_, hs.job, hs.closing⟩, ?_, by simp [mine1, mine, Ev.isTick]⟩
        · simp only [b3, a3]; exact hs.handles
        · simp only [b4, a4]; exact hs.senders
        · simp only [b2]; exact hs.only
        · simp only [a2]; exact hs.count
        · intro m hm; exact ⟨by simp [mine1, mine], hm⟩
      · obtain ⟨a1, a2, a3, a4⟩ := pollRx_other w.hub hk cx
        exact .inl ⟨⟨hs.values, by simp only [a3]; exact hs.handles,
          by simp only [a4]; exact hs.senders, by simp only [a1]; exact hs.link, hs.only,
          by simp only [a2]; exact hs.count, hs.job, hs.closing⟩, by simp [mine1, mine, hk]⟩
    · cases h
  | dropRx id =>
    simp only [World.step] at h
    split at h
    · rename_i hl
      simp only [Option.some.injEq, Prod.mk.injEq] at h
      obtain ⟨rfl, rfl⟩ := h
      by_cases hk : id = k
      · subst hk
        obtain ⟨a1, a2, a3, a4⟩ := dropRx_same hs.link
        obtain ⟨-, b2, b3, b4⟩ := dropRx_same (h := v.hub) (k := 0) (g := v.hub) rfl
        refine .inr ⟨.dropRx 0, { v with hub := v.hub.dropRx 0 },
          by simp only [World.step, rxLive_sim hs, hl, ↓reduceIte],
          ⟨hs.values, ?_, ?_, a1, ?_, ?_, hs.job, hs.closing⟩, ?_, by simp [mine1, mine, Ev.isTick]⟩
        · simp only [b3, a3]; exact hs.handles
        · simp only [b4, a4]; exact hs.senders
        · simp only [b2]; exact hs.only
        · simp only [a2]; exact hs.count
        · intro m hm; exact ⟨by simp [mine1, mine], hm⟩
      · obtain ⟨a1, a2, a3, a4⟩ := dropRx_other w.hub hk
        exact .inl ⟨⟨hs.values, by simp only [a3]; exact hs.handles,
          by simp only [a4]; exact hs.senders, by simp only [a1]; exact hs.link, hs.only,
          by simp only [a2]; exact hs.count, hs.job, hs.closing⟩, by simp [mine1, mine, hk]⟩
    · cases h
  | cloneHandle =>
    simp only [World.step] at h
    split at h
    · cases h
    · rename_i hc
      simp only [Option.some.injEq, Prod.mk.injEq] at h
      obtain ⟨rfl, rfl⟩ := h
      exact .inr ⟨.cloneHandle, { v with hub := { v.hub with handles := w.hub.handles + 1 } },
        by simp only [World.step, hs.handles, hc, ↓reduceIte],
        ⟨hs.values, rfl, hs.senders, hs.link, hs.only, hs.count, hs.job, hs.closing⟩, fun m hm => ⟨rfl, hm⟩, rfl⟩
  | dropHandle =>
    simp only [World.step] at h
    split at h
    · cases h
    · rename_i hc
      split at h
      · rename_i h1
        split at h
        · cases h
        · rename_i h2
          simp only [Option.some.injEq, Prod.mk.injEq] at h
          obtain ⟨rfl, rfl⟩ := h
          exact .inr ⟨.dropHandle,
            { v with hub := { v.hub with handles := 0, senders := [] }, closing := v.hub.senders },
            by simp only [World.step, hs.handles, hc, h1, hj, h2, ↓reduceIte]; rfl,
            ⟨hs.values, rfl, rfl, hs.link, hs.only, hs.count, hs.job, hs.senders⟩,
            fun m hm => ⟨rfl, hm⟩, rfl⟩
      · rename_i h1
        simp only [Option.some.injEq, Prod.mk.injEq] at h
        obtain ⟨rfl, rfl⟩ := h
        exact .inr ⟨.dropHandle, { v with hub := { v.hub with handles := w.hub.handles - 1 } },
          by simp only [World.step, hs.handles, hc, h1, ↓reduceIte],
          ⟨hs.values, rfl, hs.senders, hs.link, hs.only, hs.count, hs.job, hs.closing⟩,
          fun m hm => ⟨rfl, hm⟩, rfl⟩

theorem sim_runs {api : Api S D O} {k n m : Nat} {w v w' : World S D} (hs : Sim k n w v)
    (hm : n ≤ k ∧ m = 0 ∨ k < n ∧ m = 1) {es : List (Ev O)}
    {os : List (Option (Poll (Option D)))} (h : w.runs api es = some (os, w')) :
    ∃ es' os' v' n', v.runs api es' = some (os', v') ∧ Sim k n' w' v' ∧
      mine 0 m es' os' = mine k n es os ∧
      es'.filter (fun e => !e.isTick) = (mine k n es os).map (·.1) ∧ es'.length ≤ es.length := by
  induction es generalizing n m w v os with
  | nil =>
    simp only [World.runs, runE, Option.some.injEq, Prod.mk.injEq] at h
    obtain ⟨rfl, rfl⟩ := h
    exact ⟨[], [], v, n, rfl, hs, rfl, rfl, Nat.le_refl _⟩
  | cons e es ih =>
    simp only [World.runs, runE] at h
    cases hst : w.step api e with
    | none => simp [hst] at h
    | some p =>
      obtain ⟨o, w1⟩ := p
      simp only [hst] at h
      cases hr : runE (World.step api) w1 es with
      | none => simp [hr] at h
      | some q =>
        obtain ⟨os1, w2⟩ := q
        simp only [hr, Option.some.injEq, Prod.mk.injEq] at h
        obtain ⟨rfl, rfl⟩ := h
        rw [mine_cons]
        rcases sim_step hs hst with ⟨h1, h2⟩ | ⟨e', v1, h1, h2, h3, h4⟩
        · have hmm : after n e ≤ k ∧ m = 0 ∨ k < after n e ∧ m = 1 := by
            cases e with
            | subscribe =>
              simp only [after] at *
              by_cases hk : n = k
              · simp [mine1, mine, hk] at h2
              · omega
            | _ => exact hm
          obtain ⟨es', os', v', n', g1, g2, g3, g4, g5⟩ := ih h1 hmm hr
          rw [h2]
          exact ⟨es', os', v', n', g1, g2, g3, g4, Nat.le_succ_of_le g5⟩
        · obtain ⟨h5, h6⟩ := h3 m hm
          obtain ⟨es', os', v', n', g1, g2, g3, g4, g5⟩ := ih h2 h6 hr
          refine ⟨e' :: es', o :: os', v', n', by
            simp only [World.runs, runE, h1] at g1 ⊢; simp [g1], g2, ?_, ?_, Nat.succ_le_succ g5⟩
          · rw [mine_cons, h5, g3]
          · rw [List.map_append, ← h4, ← g4, ← List.filter_append]; rfl

theorem sim_init (k : Nat) (s : S) : Sim k 0 (World.init s : World S D) (World.init s) :=
  ⟨rfl, rfl, rfl, by simp [World.init], by simp [World.init], rfl, rfl, rfl⟩

end Verif.HubConc
