import Verif.BroadcasterSpec

/-!
# `Broadcaster`: proofs
-/

namespace Verif.Bc

open Verif.Mut (ChangedWaker)

variable {α β : Type}

/-- What `notify` may do to the cells: those of the list are emptied, their wakers woken. -/
structure Cleared (l : List Nat) (c c' : Nat → ChangedWaker) (wk : List Waker) : Prop where
  alive : ∀ j, (c' j).alive = (c j).alive
  taken : ∀ j, j ∈ l → (c j).alive = true → (c' j).waker = none
  stay : ∀ j, (c j).waker = none → (c' j).waker = none
  kept : ∀ j w, (c j).waker = some w → (c' j).waker = some w ∨ w ∈ wk

theorem retain_spec (l : List Nat) (m : World α) :
    ∃ c wk, (World.retain l m).2 = { m with cell := c, woken := m.woken ++ wk } ∧
      (World.retain l m).1 = l.filter (fun i => (m.cell i).alive) ∧ Cleared l m.cell c wk := by
  induction l generalizing m with
  | nil =>
    refine ⟨m.cell, [], ?_, rfl, ⟨fun j => rfl, fun j hj => (by cases hj), fun j h => h, fun j w h => .inl h⟩⟩
    simp [World.retain]
  | cons i rest ih =>
    simp only [World.retain]
    split
    · rename_i ha
      obtain ⟨c, wk, h1, h2, h3⟩ := ih
        { m.setCell i ((m.cell i).wake false).1 with woken := m.woken ++ ((m.cell i).wake false).2 }
      refine ⟨c, ((m.cell i).wake false).2 ++ wk, ?_, ?_, ?_⟩
      · rw [h1]; simp [World.setCell, List.append_assoc]
      · rw [h2]
        simp only [List.filter_cons, ha, if_true, List.cons.injEq, true_and]
        apply List.filter_congr
        intro j _
        simp only [World.setCell]
        by_cases hj : j = i
        · subst hj; simp [ChangedWaker.wake]
        · simp [hj]
      · have key : ∀ j, (({ m.setCell i ((m.cell i).wake false).1 with
              woken := m.woken ++ ((m.cell i).wake false).2 } : World α).cell j).alive =
            (m.cell j).alive := by
          intro j
          simp only [World.setCell]
          by_cases hj : j = i
          · subst hj; simp [ChangedWaker.wake]
          · simp [hj]
        refine ⟨fun j => (h3.alive j).trans (key j), fun j hj hal => ?_, fun j hw => ?_, fun j w hw => ?_⟩
        · by_cases hji : j ∈ rest
          · exact h3.taken j hji ((key j).trans hal)
          · have hji : j = i := by
              rcases List.mem_cons.1 hj with k | k
              · exact k
              · exact absurd k hji
            subst hji
            exact h3.stay j (by simp [World.setCell, ChangedWaker.wake])
        · by_cases hji : j = i
          · subst hji
            exact h3.stay j (by simp [World.setCell, ChangedWaker.wake])
          · exact h3.stay j (by simp [World.setCell, hji, hw])
        · by_cases hji : j = i
          · subst hji
            right
            simp [ChangedWaker.wake, hw]
          · rcases h3.kept j w (by simp [World.setCell, hji, hw]) with k | k
            · exact .inl k
            · exact .inr (List.mem_append_right _ k)
    · rename_i ha
      obtain ⟨c, wk, h1, h2, h3⟩ := ih m
      refine ⟨c, wk, h1, ?_, h3.alive, fun j hj hal => ?_, h3.stay, h3.kept⟩
      · rw [h2]; simp [List.filter_cons, ha]
      · rcases List.mem_cons.1 hj with rfl | hj
        · exact absurd hal ha
        · exact h3.taken j hj hal

theorem Cleared.refl (c : Nat → ChangedWaker) : Cleared [] c c [] :=
  ⟨fun _ => rfl, fun _ h => (by cases h), fun _ h => h, fun _ _ h => .inl h⟩

theorem Cleared.trans {l l' : List Nat} {c c' c'' : Nat → ChangedWaker} {wk wk' : List Waker}
    (h : Cleared l c c' wk) (h' : Cleared l' c' c'' wk') : Cleared l c c'' (wk ++ wk') := by
  refine ⟨fun j => (h'.alive j).trans (h.alive j), fun j hj ha => h'.stay j (h.taken j hj ha),
    fun j hj => h'.stay j (h.stay j hj), fun j w hw => ?_⟩
  rcases h.kept j w hw with k | k
  · rcases h'.kept j w k with k | k
    · exact .inl k
    · exact .inr (List.mem_append_right _ k)
  · exact .inr (List.mem_append_left _ k)

theorem Cleared.weaken {l : List Nat} {c c' : Nat → ChangedWaker} {wk : List Waker}
    (h : Cleared l c c' wk) : Cleared [] c c' wk :=
  ⟨h.alive, fun _ h => (by cases h), h.stay, h.kept⟩

theorem notify_spec (m : World α) :
    ∃ c wk, m.notify = { m with
        isChanged := true
        cell := c
        woken := m.woken ++ wk
        wakers := m.wakers.filter fun i => (m.cell i).alive } ∧ Cleared m.wakers m.cell c wk := by
  obtain ⟨c, wk, h1, h2, h3⟩ := retain_spec m.wakers { m with isChanged := true }
  refine ⟨c, wk, ?_, h3⟩
  simp only [World.notify]
  rw [h1, h2]

theorem values_append (h h' : List (Step α)) : values (h ++ h') = values h ++ values h' := by
  unfold values
  rw [List.map_append]
  generalize h.map (·.2) = l
  induction l with
  | nil => rfl
  | cons r l ih =>
    cases r with
    | ready o => cases o <;> simp [items, ih]
    | pending => simp [items, ih]

theorem getLast?_or (a : α) (l : List α) (o : Option α) :
    (a :: l).getLast?.or o = l.getLast?.or (some a) := by
  cases l with
  | nil => rfl
  | cons x l =>
    rw [List.getLast?_cons_cons, List.getLast?_eq_some_getLast (List.cons_ne_nil x l)]
    rfl

theorem loop_spec (todo : List (Step α)) (m : World α) (ch : Bool) (hal : m.alive = true) :
    ∃ b c wk ws,
      (m.loop ch todo).2 = { m with
        todo := (m.loop ch todo).2.todo
        hist := m.hist ++ b
        value := (values b).getLast?.or m.value
        alive := (m.loop ch todo).2.alive
        isChanged := m.isChanged || b.any (·.1)
        cell := c
        woken := m.woken ++ wk
        wakers := ws } ∧
      (m.loop ch todo).1 = (ch || !(values b).isEmpty) ∧
      (((m.loop ch todo).2.alive = false ↔ ended b)) ∧
      Burst b ∧
      (b ++ (m.loop ch todo).2.todo = todo ∨
        (b = todo ++ [(false, .pending)] ∧ (m.loop ch todo).2.todo = [])) ∧
      Cleared [] m.cell c wk ∧ (∀ j ∈ m.wakers, (m.cell j).alive = true → j ∈ ws) ∧
      (b.any (·.1) = false → c = m.cell ∧ wk = []) := by
  induction todo generalizing m ch with
  | nil =>
    refine ⟨[(false, .pending)], m.cell, [], m.wakers, ?_, ?_, ?_, ?_, .inr ⟨rfl, rfl⟩, Cleared.refl _,
      fun j hj _ => hj, fun _ => ⟨rfl, rfl⟩⟩
    · simp [World.loop, values, items]
    · simp [World.loop, values, items]
    · simp [World.loop, ended, hal]
    · exact ⟨[], _, rfl, fun v hv => (by cases hv), fun a h => (by cases h)⟩
  | cons s rest ih =>
    obtain ⟨self, r⟩ := s
    -- the step before the loop goes on
    have step : ∃ c wk ws, (if self then ({ m with todo := rest, hist := m.hist ++ [(self, r)] } : World α).notify
          else { m with todo := rest, hist := m.hist ++ [(self, r)] }) =
        { m with
          todo := rest
          hist := m.hist ++ [(self, r)]
          isChanged := m.isChanged || self
          cell := c
          woken := m.woken ++ wk
          wakers := ws } ∧ Cleared [] m.cell c wk ∧
        (∀ j ∈ m.wakers, (m.cell j).alive = true → j ∈ ws) ∧ (self = false → c = m.cell ∧ wk = []) := by
      cases self with
      | false => exact ⟨m.cell, [], m.wakers, by simp, Cleared.refl _, fun j hj _ => hj, fun _ => ⟨rfl, rfl⟩⟩
      | true =>
        obtain ⟨c, wk, h1, h2⟩ :=
          notify_spec ({ m with todo := rest, hist := m.hist ++ [(true, r)] } : World α)
        refine ⟨c, wk, m.wakers.filter fun i => (m.cell i).alive, ?_, h2.weaken, ?_, fun h => (by cases h)⟩
        · simp only [if_true, h1, Bool.or_true]
        · intro j hj ha; simp [hj, ha]
    obtain ⟨c, wk, ws, hst, hcl, hws, hno⟩ := step
    simp only [World.loop]
    rw [hst]
    cases r with
    | pending =>
      refine ⟨[(self, .pending)], c, wk, ws, ?_, ?_, ?_, ?_, .inl rfl, hcl, hws, ?_⟩
      · simp [values, items]
      · simp [values, items]
      · simp [ended, hal]
      · exact ⟨[], _, rfl, fun v hv => (by cases hv), fun a h => (by cases h)⟩
      · intro h; exact hno (by simpa using h)
    | ready o =>
      cases o with
      | none =>
        refine ⟨[(self, .ready none)], c, wk, ws, ?_, ?_, ?_, ?_, .inl rfl, hcl, hws, ?_⟩
        · simp [values, items]
        · simp [values, items]
        · simp [ended]
        · exact ⟨[], _, rfl, fun v hv => (by cases hv), fun a h => (by cases h)⟩
        · intro h; exact hno (by simpa using h)
      | some a =>
        obtain ⟨b, c', wk', ws', h1, h2, h3, ⟨vs, l, hb, hv, hl⟩, h5, h6, h7, h8⟩ := ih
          ({ m with
            todo := rest
            hist := m.hist ++ [(self, .ready (some a))]
            isChanged := m.isChanged || self
            cell := c
            woken := m.woken ++ wk
            wakers := ws
            value := some a } : World α) true hal
        refine ⟨(self, .ready (some a)) :: b, c', wk ++ wk', ws', ?_, ?_, ?_, ?_, ?_, hcl.trans h6, ?_, ?_⟩
        · show (World.loop ({ m with
            todo := rest
            hist := m.hist ++ [(self, .ready (some a))]
            isChanged := m.isChanged || self
            cell := c
            woken := m.woken ++ wk
            wakers := ws
            value := some a } : World α) true rest).2 = _
          rw [h1]
          simp only [List.append_assoc, List.singleton_append, List.any_cons, Bool.or_assoc]
          congr 1
          exact (getLast?_or a (values b) m.value).symm
        · show (World.loop ({ m with
            todo := rest
            hist := m.hist ++ [(self, .ready (some a))]
            isChanged := m.isChanged || self
            cell := c
            woken := m.woken ++ wk
            wakers := ws
            value := some a } : World α) true rest).1 = _
          rw [h2]
          simp [values, items]
        · rw [show ended ((self, Poll.ready (some a)) :: b) ↔ ended b by simp [ended]]
          exact h3
        · refine ⟨(self, .ready (some a)) :: vs, l, by simp [hb], ?_, hl⟩
          intro v hv'
          rcases List.mem_cons.1 hv' with rfl | hv'
          · exact ⟨a, rfl⟩
          · exact hv v hv'
        · rcases h5 with h5 | ⟨h5, h5'⟩
          · left
            show _ :: (b ++ _) = _
            rw [h5]
          · exact .inr ⟨by rw [h5]; rfl, h5'⟩
        · intro j hj ha
          exact h7 j (hws j hj ha) ((hcl.alive j).trans ha)
        · intro h
          simp only [List.any_cons, Bool.or_eq_false_iff] at h
          obtain ⟨rfl, rfl⟩ := hno h.1
          exact h8 h.2

/-- What a poll does before it decides. -/
structure Polled (m m1 : World α) (b : List (Step α)) (wk : List Waker) : Prop where
  sub : m1.sub = m.sub
  made : m1.made = m.made
  hist : m1.hist = m.hist ++ b
  value : m1.value = (values b).getLast?.or m.value
  epoch : m1.epoch = if values b = [] then m.epoch else m.epoch + 1
  alive : m1.alive = false ↔ m.alive = false ∨ ended b
  changed : m1.isChanged = (m.isChanged && b.any (·.1))
  woken : m1.woken = m.woken ++ wk
  idle : m.isChanged = false ∨ m.alive = false → b = []
  burst : m.isChanged = true → m.alive = true → Burst b
  todo : b ++ m1.todo = m.todo ∨ (b = m.todo ++ [(false, .pending)] ∧ m1.todo = [])
  cells : Cleared [] m.cell m1.cell wk
  wakers : ∀ j ∈ m.wakers, (m.cell j).alive = true → j ∈ m1.wakers
  quiet : b.any (·.1) = false → m1.cell = m.cell ∧ wk = []

theorem pollChange_spec (m : World α) (i : Nat) (w : Waker) (f : α → β) :
    ∃ m1 b wk, m.pollChange i w f = m1.decide i w f ∧ Polled m m1 b wk := by
  simp only [World.pollChange]
  by_cases hc : m.isChanged = true
  · rw [if_pos hc]
    refine ⟨({ m with isChanged := false } : World α).pollSignal, ?_⟩
    by_cases hal : m.alive = true
    · obtain ⟨b, c, wk, ws, h1, h2, h3, h4, h5, h6, h7, h8⟩ :=
        loop_spec m.todo { m with isChanged := false } false hal
      refine ⟨b, wk, rfl, ?_⟩
      have : ({ m with isChanged := false } : World α).pollSignal =
          { (({ m with isChanged := false } : World α).loop false m.todo).2 with
            epoch := if values b = [] then m.epoch else m.epoch + 1 } := by
        simp only [World.pollSignal, hal, if_true]
        generalize hlp : ({ m with isChanged := false } : World α).loop false m.todo = p at *
        obtain ⟨ch, m'⟩ := p
        simp only at h1 h2 h3
        have he : m'.epoch = m.epoch := by rw [h1]
        cases hv : values b with
        | nil =>
          rw [hv] at h2
          simp only [hal] at hlp
          subst h2
          simp only [hlp]
          rw [← he]; rfl
        | cons x l =>
          rw [hv] at h2
          simp only [hal] at hlp
          subst h2
          simp only [hlp]
          rw [← he]; rfl
      rw [this]
      refine ⟨?_, ?_, ?_, ?_, rfl, ?_, ?_, ?_, ?_, fun _ _ => h4, h5, ?_, ?_, ?_⟩
      · simp only; rw [h1]
      · simp only; rw [h1]
      · simp only; rw [h1]
      · simp only; rw [h1]
      · exact h3.trans ⟨.inr, fun k => k.resolve_left (by simp [hal])⟩
      · simp only; rw [h1]; simp [hc]
      · simp only; rw [h1]
      · rintro (k | k)
        · rw [hc] at k; cases k
        · rw [hal] at k; cases k
      · simp only; rw [h1]; exact h6
      · simp only; rw [h1]; exact h7
      · simp only; rw [h1]; exact h8
    · have hal' : m.alive = false := by simpa using hal
      refine ⟨[], [], rfl, ?_⟩
      have : ({ m with isChanged := false } : World α).pollSignal = { m with isChanged := false } := by
        simp [World.pollSignal, hal']
      rw [this]
      exact ⟨rfl, rfl, by simp, rfl, rfl, by simp [hal'], by simp, by simp, fun _ => rfl,
        fun _ k => absurd k hal, .inl rfl, Cleared.refl _, fun j hj _ => hj, fun _ => ⟨rfl, rfl⟩⟩
  · rw [if_neg hc]
    have hc' : m.isChanged = false := by simpa using hc
    exact ⟨m, [], [], rfl, rfl, rfl, by simp, rfl, rfl, by simp [ended], by simp [hc'], by simp,
      fun _ => rfl, fun k => absurd k hc, .inl rfl, Cleared.refl _, fun j hj _ => hj, fun _ => ⟨rfl, rfl⟩⟩

/-! ## Values -/

structure Inv (script : List (Step α)) (tr : List (Ev × Out α β)) (m : World α) : Prop where
  epoch : m.epoch = 0 ↔ values m.hist = []
  value : m.value = (values m.hist).getLast?
  alive : m.alive = false ↔ ended m.hist
  fused : ∀ pre x post, m.hist = pre ++ x :: post → x.2 = .ready none → post = []
  plays : ∃ k, m.hist ++ m.todo = script ++ List.replicate k (false, .pending)
  due : due tr = (m.isChanged, m.hist.length)
  fresh : ∀ i, m.made ≤ i → seen i tr = 0
  seen : ∀ i, i < m.made → m.sub i ≤ m.epoch ∧ seen i tr ≤ (values m.hist).length ∧
    (m.sub i = m.epoch ↔ seen i tr = (values m.hist).length)
  wakers : ∀ i, i < m.made → (m.cell i).alive = true → i ∈ m.wakers

theorem due_snoc (tr : List (Ev × Out α β)) (e : Ev) (o : Out α β) :
    due (tr ++ [(e, o)]) = match e with
      | .poll _ _ => ((due tr).1 && (o.hist.drop (due tr).2).any (·.1), o.hist.length)
      | .wake => (true, o.hist.length)
      | _ => ((due tr).1, o.hist.length) := by
  simp only [due, List.foldl_append, List.foldl_cons, List.foldl_nil]
  cases e <;> rfl

theorem seen_snoc (i : Nat) (tr : List (Ev × Out α β)) (e : Ev) (o : Out α β) :
    seen i (tr ++ [(e, o)]) = match e, o with
      | .poll j _, ⟨some (.ready (some _)), hist, _⟩ => if j = i then (values hist).length else seen i tr
      | _, _ => seen i tr := by
  simp only [seen, List.foldl_append, List.foldl_cons, List.foldl_nil]
  obtain ⟨a, h, w⟩ := o
  cases e with
  | poll j w =>
    cases a with
    | none => rfl
    | some r =>
      cases r with
      | pending => rfl
      | ready o => cases o <;> rfl
  | _ => rfl

/-- `Ready(None)` or `Pending`, or not a poll: `seen` does not change. -/
theorem seen_snoc_of {i : Nat} {tr : List (Ev × Out α β)} {e : Ev} {o : Out α β}
    (h : ∀ b, o.answer ≠ some (.ready (some b))) : seen i (tr ++ [(e, o)]) = seen i tr := by
  rw [seen_snoc]
  obtain ⟨a, hh, w⟩ := o
  split
  · rename_i x _ _ _
    rename_i he
    cases he
    exact absurd rfl (h x)
  · rfl

theorem ended_append (h h' : List (Step α)) : ended (h ++ h') ↔ ended h ∨ ended h' := by
  simp [ended]

theorem inv_polled {script : List (Step α)} {tr : List (Ev × Out α β)} {m m1 : World α}
    {b : List (Step α)} {wk : List Waker} (h : Inv script tr m) (hp : Polled m m1 b wk) :
    (m1.epoch = 0 ↔ values m1.hist = []) ∧ m1.value = (values m1.hist).getLast? ∧
    (m1.alive = false ↔ ended m1.hist) ∧
    (∀ pre x post, m1.hist = pre ++ x :: post → x.2 = .ready none → post = []) ∧
    (∃ k, m1.hist ++ m1.todo = script ++ List.replicate k (false, .pending)) ∧
    (∀ i, i < m.made → m1.sub i ≤ m1.epoch ∧ Bc.seen i tr ≤ (values m1.hist).length ∧
      (m1.sub i = m1.epoch ↔ Bc.seen i tr = (values m1.hist).length)) ∧
    (∀ i, i < m.made → (m1.cell i).alive = true → i ∈ m1.wakers) := by
  have hv : values m1.hist = values m.hist ++ values b := by rw [hp.hist, values_append]
  refine ⟨?_, ?_, ?_, ?_, ?_, ?_, ?_⟩
  · rw [hv, hp.epoch]
    by_cases hb : values b = []
    · simp [hb, h.epoch]
    · simp [hb]
  · rw [hv, List.getLast?_append, hp.value, h.value]
  · rw [hp.hist, ended_append, ← h.alive, hp.alive]
  · intro pre x post he hx
    by_cases hb : b = []
    · rw [hp.hist, hb, List.append_nil] at he
      exact h.fused pre x post he hx
    · have hc : m.isChanged = true := by
        cases hc : m.isChanged with
        | true => rfl
        | false => exact absurd (hp.idle (.inl hc)) hb
      have hal : m.alive = true := by
        cases hc : m.alive with
        | true => rfl
        | false => exact absurd (hp.idle (.inr hc)) hb
      obtain ⟨vs, l, rfl, hvs, hl⟩ := hp.burst hc hal
      rw [hp.hist, ← List.append_assoc] at he
      rcases snoc_split.1 he with ⟨k, -, -⟩ | ⟨l2, -, k⟩
      · exact k
      · have hmem : x ∈ m.hist ++ vs := by rw [k]; simp
        rcases List.mem_append.1 hmem with k' | k'
        · have : ended m.hist := List.mem_map.2 ⟨x, k', hx⟩
          rw [← h.alive, hal] at this
          cases this
        · obtain ⟨a, ha⟩ := hvs x k'
          rw [ha] at hx; cases hx
  · obtain ⟨k, hk⟩ := h.plays
    rcases hp.todo with ht | ⟨ht, ht'⟩
    · exact ⟨k, by rw [hp.hist, List.append_assoc, ht, hk]⟩
    · refine ⟨k + 1, ?_⟩
      rw [hp.hist, ht, ht', List.append_nil, ← List.append_assoc, hk, List.append_assoc,
        List.replicate_succ']
  · intro i hi
    obtain ⟨h1, h2, h3⟩ := h.seen i hi
    rw [hv, hp.epoch, hp.sub, List.length_append]
    by_cases hb : values b = []
    · simp only [hb, if_true, List.length_nil, Nat.add_zero]
      exact ⟨h1, h2, h3⟩
    · have : 0 < (values b).length := List.length_pos_iff.2 hb
      simp only [hb, if_false]
      refine ⟨by omega, by omega, ?_⟩
      constructor <;> intro k <;> omega
  · intro i hi hal
    rw [hp.cells.alive] at hal
    exact hp.wakers i (h.wakers i hi hal) hal

/-- A poll, and its answer according to the specification. -/
theorem inv_poll {script : List (Step α)} {tr : List (Ev × Out α β)} {m m' : World α} {i : Nat} {w : Waker}
    {f : Nat → α → β} {o : Out α β} (h : Inv script tr m) (hs : m.step f (.poll i w) = some (o, m')) :
    Inv script (tr ++ [(.poll i w, o)]) m' ∧
    (Bc.seen i tr < (values o.hist).length → ∃ a, (values o.hist).getLast? = some a ∧
        o.answer = some (.ready (some (f i a)))) ∧
    (Bc.seen i tr = (values o.hist).length → ended o.hist → o.answer = some (.ready none)) ∧
    (Bc.seen i tr = (values o.hist).length → ¬ ended o.hist → o.answer = some .pending) := by
  simp only [World.step] at hs
  split at hs
  · rename_i hi
    obtain ⟨m1, b, wk, he, hp⟩ := pollChange_spec { m with woken := [] } i w (f i)
    rw [he] at hs
    have h0 : Inv script tr { m with woken := [] } := ⟨h.1, h.2, h.3, h.4, h.5, h.6, h.7, h.8, h.9⟩
    obtain ⟨g1, g2, g3, g4, g5, g6, g7⟩ := inv_polled h0 hp
    have hmade : m1.made = m.made := hp.made
    obtain ⟨k1, k2, k3⟩ := g6 i hi.1
    have hdue : (due tr).1 = m.isChanged ∧ (due tr).2 = m.hist.length := by rw [h.due]; exact ⟨rfl, rfl⟩
    have hch : m1.isChanged = ((due tr).1 && (m1.hist.drop (due tr).2).any (·.1)) := by
      rw [hp.changed, hdue.1, hdue.2, hp.hist]
      simp
    simp only [World.decide] at hs
    by_cases hep : m1.epoch = m1.sub i
    · have hseen := k3.1 hep.symm
      rw [if_pos hep] at hs
      by_cases hal : m1.alive = false
      · rw [if_pos hal] at hs
        cases hs
        refine ⟨⟨g1, g2, g3, g4, g5, ?_, ?_, ?_, ?_⟩, ?_, ?_, ?_⟩
        · rw [due_snoc, ← hch]
        · intro j hj
          rw [seen_snoc_of (fun b => by simp)]
          exact h.fresh j (by omega)
        · intro j hj
          rw [seen_snoc_of (fun b => by simp)]
          exact g6 j (by show j < m.made; omega)
        · intro j hj; exact g7 j (by show j < m.made; omega)
        · intro k; exact absurd hseen (by simp only at k; omega)
        · intro _ _; rfl
        · intro _ k; exact absurd (g3.1 hal) k
      · rw [if_neg hal] at hs
        cases hs
        refine ⟨⟨g1, g2, g3, g4, g5, ?_, ?_, ?_, ?_⟩, ?_, ?_, ?_⟩
        · rw [due_snoc]
          show (_, _) = (m1.isChanged, _)
          rw [hch]; rfl
        · intro j hj
          rw [seen_snoc_of (fun b => by simp)]
          exact h.fresh j (by have : m1.made ≤ j := hj; omega)
        · intro j hj
          rw [seen_snoc_of (fun b => by simp)]
          exact g6 j (by show j < m.made; have : j < m1.made := hj; omega)
        · intro j hj hja
          refine g7 j (by show j < m.made; have : j < m1.made := hj; omega) ?_
          simp only [World.setCell] at hja
          by_cases hji : j = i
          · subst hji; simpa [ChangedWaker.setWaker] using hja
          · simpa [hji] using hja
        · intro k
          exact absurd hseen (by
            have : seen i tr < (values m1.hist).length := k
            omega)
        · intro _ k; exact absurd (g3.2 k) hal
        · intro _ _; rfl
    · have hne : seen i tr ≠ (values m1.hist).length := fun k => hep (k3.2 k).symm
      rw [if_neg hep] at hs
      have hep0 : m1.epoch ≠ 0 := by
        intro k; rw [k] at hep k1
        exact hep (by omega)
      cases hv : m1.value with
      | none =>
        rw [g2, List.getLast?_eq_none_iff] at hv
        exact absurd (g1.2 hv) hep0
      | some a =>
        rw [hv] at hs
        cases hs
        refine ⟨⟨g1, hv.symm.trans g2, g3, g4, g5, ?_, ?_, ?_, ?_⟩, ?_, ?_, ?_⟩
        · rw [due_snoc]
          show (_, _) = (m1.isChanged, _)
          rw [hch]
        · intro j hj
          have : m1.made ≤ j := hj
          rw [seen_snoc]
          simp only
          rw [if_neg (by omega)]
          exact h.fresh j (by omega)
        · intro j hj
          have : j < m1.made := hj
          rw [seen_snoc]
          simp only
          by_cases hji : j = i
          · subst hji; simp
          · simp only [hji, if_false, Ne.symm hji]
            exact g6 j (by show j < m.made; omega)
        · intro j hj
          exact g7 j (by show j < m.made; have : j < m1.made := hj; omega)
        · intro _
          exact ⟨a, by rw [← hv, g2], rfl⟩
        · intro k; exact absurd k hne
        · intro k; exact absurd k hne
  · cases hs

theorem inv_other {script : List (Step α)} {tr : List (Ev × Out α β)} {m m' : World α} {e : Ev}
    {f : Nat → α → β} {o : Out α β} (h : Inv script tr m) (he : ∀ i w, e ≠ .poll i w)
    (hs : m.step f e = some (o, m')) :
    Inv script (tr ++ [(e, o)]) m' ∧ o.hist = m.hist := by
  cases e with
  | poll i w => exact absurd rfl (he i w)
  | wake =>
    simp only [World.step] at hs
    obtain ⟨c, wk, h1, h2⟩ := notify_spec ({ m with woken := [] } : World α)
    rw [h1] at hs
    cases hs
    refine ⟨⟨h.epoch, h.value, h.alive, h.fused, h.plays, ?_, ?_, ?_, ?_⟩, rfl⟩
    · rw [due_snoc]
    · intro i hi
      rw [seen_snoc_of (fun b => by simp)]
      exact h.fresh i hi
    · intro i hi
      rw [seen_snoc_of (fun b => by simp)]
      exact h.seen i hi
    · intro i hi hal
      have hal' : (m.cell i).alive = true := (h2.alive i).symm.trans hal
      simp [hal', h.wakers i hi hal']
  | subscribe =>
    simp only [World.step] at hs
    cases hs
    refine ⟨⟨h.epoch, h.value, h.alive, h.fused, h.plays, ?_, ?_, ?_, ?_⟩, rfl⟩
    · rw [due_snoc, h.due]; rfl
    · intro i hi
      rw [seen_snoc_of (fun b => by simp)]
      exact h.fresh i (by have : m.made + 1 ≤ i := hi; omega)
    · intro i hi
      rw [seen_snoc_of (fun b => by simp)]
      have : i < m.made + 1 := hi
      by_cases him : i = m.made
      · subst him
        simp only [World.subscribe, World.setCell, if_true]
        rw [h.fresh _ (Nat.le_refl _)]
        refine ⟨Nat.zero_le _, Nat.zero_le _, ?_⟩
        have := h.epoch
        constructor
        · intro k
          rw [this.1 k.symm]; rfl
        · intro k
          exact (this.2 (List.length_eq_zero_iff.1 k.symm)).symm
      · have := h.seen i (by omega)
        simpa [World.subscribe, World.setCell, him] using this
    · intro i hi hal
      have : i < m.made + 1 := hi
      by_cases him : i = m.made
      · subst him; simp [World.subscribe]
      · have hal' : (m.cell i).alive = true := by simpa [World.subscribe, World.setCell, him] using hal
        have := h.wakers i (by omega) hal'
        simp [World.subscribe, World.setCell, this]
  | dropSub j =>
    simp only [World.step] at hs
    split at hs <;> cases hs
    refine ⟨⟨h.epoch, h.value, h.alive, h.fused, h.plays, ?_, ?_, ?_, ?_⟩, rfl⟩
    · rw [due_snoc, h.due]; rfl
    · intro i hi
      rw [seen_snoc_of (fun b => by simp)]
      exact h.fresh i hi
    · intro i hi
      rw [seen_snoc_of (fun b => by simp)]
      exact h.seen i hi
    · intro i hi hal
      simp only [World.setCell] at hal
      by_cases hij : i = j
      · simp [hij] at hal
      · simp only [hij, if_false] at hal
        exact h.wakers i hi hal

theorem inv_new (script : List (Step α)) : Inv script ([] : List (Ev × Out α β)) (World.new script) := by
  refine ⟨by simp [World.new, values, items], rfl, by simp [World.new, ended], ?_, ⟨0, by simp [World.new]⟩, rfl,
    fun i _ => rfl, fun i hi => (by cases hi), fun i hi => (by cases hi)⟩
  intro pre x post he
  simp [World.new] at he

theorem inv_run {script : List (Step α)} {f : Nat → α → β} {es : List Ev} {os : List (Out α β)}
    {m : World α} (hr : runE (World.step f) (World.new script) es = some (os, m)) :
    Inv script (es.zip os) m := by
  have := runE_inv (Inv := fun es os m => es.length = os.length ∧ Inv script (es.zip os) m)
    ⟨rfl, inv_new script⟩ ?_ hr
  · exact this.2
  · intro es os s e o s' ⟨hl, hi⟩ hs
    refine ⟨by simp [hl], ?_⟩
    rw [List.zip_append hl]
    cases e with
    | poll i w => exact (inv_poll hi hs).1
    | wake => exact (inv_other hi (by simp) hs).1
    | subscribe => exact (inv_other hi (by simp) hs).1
    | dropSub j => exact (inv_other hi (by simp) hs).1

/-- A poll of a subscriber that exists does not panic. -/
theorem poll_some {script : List (Step α)} {tr : List (Ev × Out α β)} {m : World α} {i : Nat} {w : Waker}
    {f : Nat → α → β} (h : Inv script tr m) (hi : i < m.made) (hal : (m.cell i).alive = true) :
    (m.step f (.poll i w)).isSome := by
  simp only [World.step, hi, hal, and_self, if_true]
  obtain ⟨m1, b, wk, he, hp⟩ := pollChange_spec { m with woken := [] } i w (f i)
  have h0 : Inv script tr { m with woken := [] } := ⟨h.1, h.2, h.3, h.4, h.5, h.6, h.7, h.8, h.9⟩
  obtain ⟨g1, g2, g3, g4, g5, g6, g7⟩ := inv_polled h0 hp
  obtain ⟨k1, k2, k3⟩ := g6 i hi
  rw [he]
  simp only [World.decide]
  by_cases hep : m1.epoch = m1.sub i
  · rw [if_pos hep]
    by_cases ha : m1.alive = false
    · rw [if_pos ha]; rfl
    · rw [if_neg ha]; rfl
  · rw [if_neg hep]
    cases hv : m1.value with
    | none =>
      rw [g2, List.getLast?_eq_none_iff] at hv
      have := g1.2 hv
      omega
    | some a => rfl

/-! ## Wakeups -/

theorem pends_snoc {i : Nat} {w : Waker} {tr since : List (Ev × Out α β)} {e : Ev} {o : Out α β}
    (h : Pends i w (tr ++ [(e, o)]) since) :
    (since = [] ∧ e = .poll i w ∧ o.answer = some .pending) ∨
    ∃ since', since = since' ++ [(e, o)] ∧ Pends i w tr since' ∧ ¬ e.concerns i := by
  obtain ⟨pre, o', he, ha, hc⟩ := h
  rcases snoc_split.1 he with ⟨rfl, rfl, k⟩ | ⟨s', rfl, k⟩
  · cases k; exact .inl ⟨rfl, rfl, ha⟩
  · refine .inr ⟨s', rfl, ⟨pre, o', k, ha, fun eo hm => hc eo (List.mem_append_left _ hm)⟩, ?_⟩
    exact hc (e, o) (by simp)

/-- The state of subscriber `i` after a poll. -/
theorem poll_cell {m m' : World α} {i : Nat} {w : Waker} {f : Nat → α → β} {o : Out α β}
    (hs : m.step f (.poll i w) = some (o, m')) :
    ∃ m1 b, Polled { m with woken := [] } m1 b o.woken ∧ i < m.made ∧ (m.cell i).alive = true ∧
      m'.isChanged = m1.isChanged ∧ m'.made = m.made ∧ m'.epoch = m1.epoch ∧ m'.alive = m1.alive ∧
      m'.hist = m1.hist ∧
      (∀ j, j ≠ i → m'.cell j = m1.cell j ∧ m'.sub j = m1.sub j) ∧
      (o.answer = some .pending → (m'.cell i).alive = true ∧ (m'.cell i).waker = some w ∧
        m1.epoch = m1.sub i ∧ m'.sub i = m1.sub i ∧ m1.alive = true) := by
  simp only [World.step] at hs
  split at hs
  · rename_i hi
    obtain ⟨m1, b, wk, he, hp⟩ := pollChange_spec { m with woken := [] } i w (f i)
    have hmade : m1.made = m.made := hp.made
    have hwk : m1.woken = wk := by rw [hp.woken]; rfl
    have hali : (m1.cell i).alive = true := by rw [hp.cells.alive]; exact hi.2
    rw [he] at hs
    simp only [World.decide] at hs
    by_cases hep : m1.epoch = m1.sub i
    · rw [if_pos hep] at hs
      by_cases ha : m1.alive = false
      · rw [if_pos ha] at hs
        cases hs
        rw [hwk]
        exact ⟨_, b, hp, hi.1, hi.2, rfl, hmade, rfl, rfl, rfl, fun j _ => ⟨rfl, rfl⟩, fun k => (by cases k)⟩
      · rw [if_neg ha] at hs
        cases hs
        refine ⟨m1, b, ?_, hi.1, hi.2, rfl, hmade, rfl, rfl, rfl, fun j hj => ?_, fun _ => ?_⟩
        · show Polled _ _ _ m1.woken
          rw [hwk]; exact hp
        · simp [World.setCell, hj]
        · refine ⟨?_, ?_, hep, rfl, by simpa using ha⟩
          · simp [World.setCell, ChangedWaker.setWaker, hali]
          · simp [World.setCell, ChangedWaker.setWaker]
    · rw [if_neg hep] at hs
      cases hv : m1.value with
      | none => rw [hv] at hs; cases hs
      | some a =>
        rw [hv] at hs
        cases hs
        refine ⟨m1, b, ?_, hi.1, hi.2, rfl, hmade, rfl, rfl, rfl, fun j hj => ?_, fun k => (by cases k)⟩
        · show Polled _ _ _ m1.woken
          rw [hwk]; exact hp
        · simp [hj]
  · cases hs

/-- A subscriber that waits has its waker stored, and the input has not woken since. -/
def WInv (tr : List (Ev × Out α β)) (m : World α) : Prop :=
  ∀ i w since, Pends i w tr since → (∀ eo ∈ since, w ∉ eo.2.woken) →
    i < m.made ∧ (m.cell i).alive = true ∧ (m.cell i).waker = some w ∧ ∀ eo ∈ since, eo.1 ≠ .wake

theorem winv_step {script : List (Step α)} {tr : List (Ev × Out α β)} {m m' : World α} {e : Ev}
    {f : Nat → α → β} {o : Out α β} (hinv : Inv script tr m) (h : WInv tr m)
    (hs : m.step f e = some (o, m')) : WInv (tr ++ [(e, o)]) m' := by
  intro i w since hp hw
  rcases pends_snoc hp with ⟨rfl, rfl, ha⟩ | ⟨since', rfl, hp', hc⟩
  · obtain ⟨m1, b, -, h1, -, -, h2, -, -, -, -, h3⟩ := poll_cell hs
    obtain ⟨h4, h5, -⟩ := h3 ha
    exact ⟨by omega, h4, h5, fun eo k => (by cases k)⟩
  · have hwo : w ∉ o.woken := hw (e, o) (by simp)
    obtain ⟨g1, g2, g3, g4⟩ := h i w since' hp' (fun eo k => hw eo (List.mem_append_left _ k))
    have last : e ≠ .wake → ∀ eo ∈ since' ++ [(e, o)], eo.1 ≠ .wake := by
      intro hne eo hm
      rcases List.mem_append.1 hm with k | k
      · exact g4 eo k
      · rw [List.mem_singleton] at k; subst k; exact hne
    cases e with
    | poll j w' =>
      have hji : i ≠ j := fun k => hc k.symm
      obtain ⟨m1, b, hpd, h1, -, -, h2, -, -, -, h4, -⟩ := poll_cell hs
      refine ⟨by omega, ?_, ?_, last (by simp)⟩
      · rw [(h4 i hji).1, hpd.cells.alive]; exact g2
      · rw [(h4 i hji).1]
        rcases hpd.cells.kept i w g3 with k | k
        · exact k
        · exact absurd k hwo
    | wake =>
      simp only [World.step] at hs
      obtain ⟨c, wk, h1, h2⟩ := notify_spec ({ m with woken := [] } : World α)
      rw [h1] at hs
      cases hs
      have : w ∈ wk := by
        rcases h2.kept i w g3 with k | k
        · rw [h2.taken i (hinv.wakers i g1 g2) g2] at k; cases k
        · exact k
      exact absurd this hwo
    | subscribe =>
      simp only [World.step] at hs
      cases hs
      have hne : i ≠ m.made := by omega
      refine ⟨?_, ?_, ?_, last (by simp)⟩
      · show i < m.made + 1; omega
      · simpa [World.subscribe, World.setCell, hne] using g2
      · simpa [World.subscribe, World.setCell, hne] using g3
    | dropSub j =>
      simp only [World.step] at hs
      split at hs <;> cases hs
      have hji : i ≠ j := fun k => hc k.symm
      refine ⟨g1, ?_, ?_, last (by simp)⟩
      · simpa [World.setCell, hji] using g2
      · simpa [World.setCell, hji] using g3

theorem winv_run {script : List (Step α)} {f : Nat → α → β} {es : List Ev} {os : List (Out α β)}
    {m : World α} (hr : runE (World.step f) (World.new script) es = some (os, m)) :
    WInv (es.zip os) m := by
  have := runE_inv (Inv := fun es os m => runE (World.step f) (World.new script) es = some (os, m) ∧
      WInv (es.zip os) m) ⟨rfl, ?_⟩ ?_ hr
  · exact this.2
  · intro i w since ⟨pre, o, he, _⟩
    simp at he
  · intro es os s e o s' ⟨h1, h2⟩ hs
    refine ⟨runE_snoc_of h1 hs, ?_⟩
    rw [List.zip_append (runE_length h1).symm]
    exact winv_step (inv_run h1) h2 hs

/-- A subscriber that waits has all there is. -/
def UInv (tr : List (Ev × Out α β)) (m : World α) : Prop :=
  ∀ i w, Waits i w tr → m.isChanged = false ∧ m.sub i = m.epoch ∧ m.alive = true

theorem uinv_step {script : List (Step α)} {tr : List (Ev × Out α β)} {m m' : World α} {e : Ev}
    {f : Nat → α → β} {o : Out α β} (hq : ∀ s ∈ script, s.1 = false) (hinv : Inv script tr m)
    (hwi : WInv tr m) (h : UInv tr m)
    (hs : m.step f e = some (o, m')) (hinv' : Inv script (tr ++ [(e, o)]) m') : UInv (tr ++ [(e, o)]) m' := by
  rintro i w ⟨since, hp, hw⟩
  have hwi' := winv_step hinv hwi hs i w since hp hw
  have hflag : ∀ s ∈ m'.hist, s.1 = false := by
    intro s hm
    obtain ⟨k, hk⟩ := hinv'.plays
    have : s ∈ script ++ List.replicate k (false, .pending) := by
      rw [← hk]; exact List.mem_append_left _ hm
    rcases List.mem_append.1 this with k | k
    · exact hq s k
    · rw [List.eq_of_mem_replicate k]
  rcases pends_snoc hp with ⟨rfl, rfl, ha⟩ | ⟨since', rfl, hp', hc⟩
  · obtain ⟨m1, b, hpd, h1, -, k1, h2, k2, k3, k4, -, h3⟩ := poll_cell hs
    obtain ⟨h4, h5, h6, h7, h8⟩ := h3 ha
    refine ⟨?_, by omega, by rw [k3, h8]⟩
    have hb : b.any (·.1) = false := by
      rw [List.any_eq_false]
      intro s hm
      have := hflag s (by rw [k4, hpd.hist]; exact List.mem_append_right _ hm)
      simp [this]
    rw [k1, hpd.changed, hb, Bool.and_false]
  · obtain ⟨g1, g2, g3⟩ := h i w ⟨since', hp', fun eo k => hw eo (List.mem_append_left _ k)⟩
    cases e with
    | poll j w' =>
      have hji : i ≠ j := fun k => hc k.symm
      obtain ⟨m1, b, hpd, h1, -, k1, h2, k2, k3, k4, h4, -⟩ := poll_cell hs
      have hb : b = [] := hpd.idle (.inl g1)
      subst hb
      refine ⟨?_, ?_, ?_⟩
      · rw [k1, hpd.changed]; simp
      · rw [(h4 i hji).2, hpd.sub, k2, hpd.epoch]; exact g2
      · have := hpd.alive
        rw [k3]
        cases hal : m1.alive with
        | true => rfl
        | false =>
          rcases this.1 hal with k | k
          · exact absurd (g3.symm.trans k) (by simp)
          · simp [ended] at k
    | wake => exact absurd rfl (hwi'.2.2.2 (.wake, o) (by simp))
    | subscribe =>
      obtain ⟨r1, -, -⟩ := hwi i w since' hp' (fun eo k => hw eo (List.mem_append_left _ k))
      simp only [World.step] at hs
      cases hs
      have hne : i ≠ m.made := by omega
      exact ⟨g1, by simpa [World.subscribe, World.setCell, hne] using g2, g3⟩
    | dropSub j =>
      simp only [World.step] at hs
      split at hs <;> cases hs
      exact ⟨g1, g2, g3⟩

theorem uinv_run {script : List (Step α)} {f : Nat → α → β} {es : List Ev} {os : List (Out α β)}
    {m : World α} (hq : ∀ s ∈ script, s.1 = false)
    (hr : runE (World.step f) (World.new script) es = some (os, m)) : UInv (es.zip os) m := by
  have := runE_inv (Inv := fun es os m => runE (World.step f) (World.new script) es = some (os, m) ∧
      UInv (es.zip os) m) ⟨rfl, ?_⟩ ?_ hr
  · exact this.2
  · rintro i w ⟨since, ⟨pre, o, he, _⟩, _⟩
    simp at he
  · intro es os s e o s' ⟨h1, h2⟩ hs
    have h' := runE_snoc_of h1 hs
    refine ⟨h', ?_⟩
    have hi' := inv_run h'
    rw [List.zip_append (runE_length h1).symm] at hi' ⊢
    exact uinv_step hq (inv_run h1) (winv_run h1) h2 hs hi'

end Verif.Bc
