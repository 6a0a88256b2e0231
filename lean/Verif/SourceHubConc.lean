import Verif.Props.HubConc
import Verif.Lemmas
import Verif.Pipe

/-!
# The subscribers of a `MutableVec` or `MutableBTreeMap` on other threads, as sources of expressions

For C80: the polls of one subscriber in an interleaved history (`Verif/HubConc.lean`), and what is
known about its last poll.
-/

namespace Verif.HubConc

variable {S D O : Type}

/-! ## Specification -/

/-- The polls of subscriber `k`, with their answers. -/
def polled (k : Nat) : List (Ev O) → List (Option (Poll (Option D))) → List (Waker × Poll (Option D))
  | .poll id cx :: es, some r :: os => if id = k then (cx, r) :: polled k es os else polled k es os
  | _ :: es, _ :: os => polled k es os
  | _, _ => []

/-- The last poll of subscriber `k` was with waker `x`, which has been woken since. -/
def WokenSince (api : Api S D O) (s : S) (k : Nat) (es : List (Ev O)) (w : World S D) (x : Waker) : Prop :=
  ∃ es₁ es₂ os₁ w₁ new, es = es₁ ++ .poll k x :: es₂ ∧ (∀ y, .poll k y ∉ es₂) ∧
    (World.init s).runs api es₁ = some (os₁, w₁) ∧ w.hub.woken = w₁.hub.woken ++ new ∧ x ∈ new

/-- It is not dropped, or it had ended before. -/
def Kept (k : Nat) (es : List (Ev O)) (os : List (Option (Poll (Option D)))) (w : World S D) : Prop :=
  w.hub.rxLive k = true ∨ ∃ y, (polled k es os).getLast? = some (y, .ready none)

/-! ## Lemmas -/

theorem polled_snoc (k : Nat) (es : List (Ev O)) (os : List (Option (Poll (Option D)))) (e : Ev O)
    (o : Option (Poll (Option D))) (hl : os.length = es.length) :
    polled k (es ++ [e]) (os ++ [o]) = polled k es os ++ polled k [e] [o] := by
  induction es generalizing os with
  | nil =>
    have : os = [] := List.eq_nil_of_length_eq_zero (by simpa using hl)
    subst this; rfl
  | cons x es ih =>
    cases os with
    | nil => simp at hl
    | cons y os =>
      have := ih os (by simpa using hl)
      cases x <;> cases y <;> simp only [List.cons_append, polled, this]
      split <;> simp

theorem polled_got (k : Nat) (es : List (Ev O)) (os : List (Option (Poll (Option D)))) :
    items ((polled k es os).map (·.2)) = got k es os := by
  induction es generalizing os with
  | nil => rfl
  | cons e es ih =>
    cases os with
    | nil => cases e <;> rfl
    | cons o os =>
      cases e with
      | poll id cx =>
        cases o with
        | none => simp [polled, got, gets, ih]
        | some r =>
          simp only [polled, got]
          split
          · rename_i h
            obtain (_ | d) | _ := r <;> simp [items, gets, ih, h]
          · rename_i h
            obtain (_ | d) | _ := r <;> simp [gets, ih, h]
      | _ => simp [polled, got, gets, ih]

/-- The subscriber was dropped. -/
def Unheld (h : Hub D) (k : Nat) : Prop := ∃ c, h.links[k]? = some c ∧ c.rxAlive = false

theorem unheld_set {h : Hub D} {k i : Nat} {c c' : Link D} (hd : Unheld h k) (hi : h.links[i]? = some c)
    (hc : c.rxAlive = false → c'.rxAlive = false) : ∃ c2, (h.links.set i c')[k]? = some c2 ∧
      c2.rxAlive = false := by
  obtain ⟨c1, h1, h2⟩ := hd
  by_cases hk : i = k
  · subst hk
    rw [h1] at hi; cases hi
    exact ⟨c', by simp [(List.getElem?_eq_some_iff.1 h1).1], hc h2⟩
  · exact ⟨c1, by rw [List.getElem?_set_ne hk]; exact h1, h2⟩

theorem unheld_send {h : Hub D} {k : Nat} (hd : Unheld h k) (s : Nat) (d : D) : Unheld (h.send s d).2 k := by
  unfold Hub.send
  split
  · exact hd
  · rename_i c hc
    split
    · exact unheld_set hd hc (by simp)
    · exact hd

theorem unheld_dropTx {h : Hub D} {k : Nat} (hd : Unheld h k) (s : Nat) : Unheld (h.dropTx s) k := by
  unfold Hub.dropTx
  split
  · exact hd
  · rename_i c hc
    exact unheld_set hd hc (by simp)

theorem unheld_step {api : Api S D O} {w w' : World S D} {e : Ev O} {o : Option (Poll (Option D))}
    (h : w.step api e = some (o, w')) {k : Nat} (hd : Unheld w.hub k) : Unheld w'.hub k := by
  cases e with
  | call op =>
    simp only [World.step] at h
    split at h
    · simp at h
    · split at h
      · simp at h
      · cases h; exact hd
  | tick =>
    simp only [World.step, Option.map_eq_some_iff] at h
    obtain ⟨w1, h1, h2⟩ := h
    cases h2
    unfold World.tick at h1
    split at h1
    · split at h1
      · cases h1
      · cases h1; exact unheld_dropTx hd _
    · split at h1
      · cases h1; exact unheld_send hd _ _
      · cases h1; exact hd
      · split at h1 <;> cases h1 <;> exact hd
  | subscribe =>
    simp only [World.step] at h
    split at h
    · simp at h
    · cases h
      obtain ⟨c, h1, h2⟩ := hd
      refine ⟨c, ?_, h2⟩
      simp only [Hub.subscribe]
      rw [List.getElem?_append_left (List.getElem?_eq_some_iff.1 h1).1]
      exact h1
  | poll id cx =>
    simp only [World.step] at h
    split at h
    · cases h
      simp only [Hub.pollRx]
      split
      · exact hd
      · rename_i c hc
        split
        · exact unheld_set hd hc (by simp)
        · split
          · exact unheld_set hd hc (by simp)
          · exact hd
    · simp at h
  | dropRx id =>
    simp only [World.step] at h
    split at h
    · cases h
      simp only [Hub.dropRx]
      split
      · exact hd
      · rename_i c hc
        exact unheld_set hd hc (by simp)
    · simp at h
  | cloneHandle =>
    simp only [World.step] at h
    split at h
    · simp at h
    · cases h; exact hd
  | dropHandle =>
    simp only [World.step] at h
    split at h
    · simp at h
    · split at h
      · split at h
        · simp at h
        · cases h; exact hd
      · cases h; exact hd

/-- After the last handle is gone the contents stay. -/
theorem gone_step {R : S → List D → Prop} {api : Api S D O} {w w' : World S D} {e : Ev O}
    {o : Option (Poll (Option D))} (hi : Inv R w) (h : w.step api e = some (o, w'))
    (hh : w.hub.handles = 0) : w'.hub.handles = 0 ∧ w'.values = w.values := by
  refine ⟨(step_closing hi hh h).1, ?_⟩
  cases e with
  | tick =>
    simp only [World.step, Option.map_eq_some_iff] at h
    obtain ⟨w1, h1, h2⟩ := h
    cases h2
    unfold World.tick at h1
    split at h1
    · split at h1 <;> cases h1 <;> rfl
    · split at h1
      · cases h1; rfl
      · cases h1; rfl
      · split at h1 <;> cases h1 <;> rfl
  | call op => simp [World.step, hh] at h
  | _ =>
    simp only [World.step] at h
    split at h <;> first
      | (simp at h; done)
      | (cases h; rfl)
      | (split at h <;> first
          | (simp at h; done)
          | (cases h; rfl)
          | (split at h <;> first | (simp at h; done) | (cases h; rfl)))

/-- What is known about subscriber `k` after a history. -/
structure Seen (R : S → List D → Prop) (api : Api S D O) (s : S) (k : Nat) (es : List (Ev O))
    (os : List (Option (Poll (Option D)))) (w : World S D) : Prop where
  run : (World.init s).runs api es = some (os, w)
  ended : ∀ y, (polled k es os).getLast? = some (y, .ready none) →
    w.hub.handles = 0 ∧ R w.values (got k es os)
  wait : ∀ x, (polled k es os).getLast? = some (x, .pending) →
    (∃ c, w.hub.links[k]? = some c ∧ c.waker = some x) ∨ WokenSince api s k es w x ∨ Unheld w.hub k
  pre : ∀ x r, (polled k es os).getLast? = some (x, r) → ∃ es₁ es₂ os₁ w₁ new,
    es = es₁ ++ .poll k x :: es₂ ∧ (∀ y, .poll k y ∉ es₂) ∧
    (World.init s).runs api es₁ = some (os₁, w₁) ∧ w.hub.woken = w₁.hub.woken ++ new

theorem seen {R : S → List D → Prop} {api : Api S D O} (ok : api.Ok R) {s : S} {es : List (Ev O)}
    {os : List (Option (Poll (Option D)))} {w : World S D}
    (h : (World.init s).runs api es = some (os, w)) (k : Nat) : Seen R api s k es os w := by
  refine runE_inv (step := World.step api) (Inv := fun (es : List (Ev O))
    (os : List (Option (Poll (Option D)))) (w : World S D) => Seen R api s k es os w)
    (m := World.init s) ⟨rfl, by simp [polled], by simp [polled], by simp [polled]⟩ ?_ h
  intro es os w e o w' hs hst
  have hi : Inv R w := inv_runs ok (inv_init s) hs.run
  have hlen : os.length = es.length := runE_length hs.run
  have hrun : (World.init s).runs api (es ++ [e]) = some (os ++ [o], w') := runE_snoc_of hs.run hst
  have hlog : w.hub.log k = got k es os := runs_log hs.run k
  obtain ⟨n1, hn1, hn2⟩ := step_wake hi hst
  by_cases he : ∃ cx, e = .poll k cx
  · obtain ⟨cx, rfl⟩ := he
    simp only [World.step] at hst
    split at hst
    · rename_i hl
      cases hst
      obtain ⟨c, hc, ha⟩ := link_of_live hl
      have hp : polled k (es ++ [.poll k cx]) (os ++ [some (w.hub.pollRx k cx).1]) =
          polled k es os ++ [(cx, (w.hub.pollRx k cx).1)] := by
        rw [polled_snoc k es os _ _ hlen]; simp [polled]
      have hk := (List.getElem?_eq_some_iff.1 hc).1
      refine ⟨hrun, ?_, ?_, ?_⟩
      · intro y hy
        rw [hp] at hy
        simp only [List.getLast?_append, List.getLast?_singleton, Option.some_or, Option.some.injEq,
          Prod.mk.injEq] at hy
        obtain ⟨rfl, hy⟩ := hy
        obtain ⟨g1, g2, -⟩ := (poll_iff hi hc ha cx).1.1 hy
        refine ⟨?_, ?_⟩
        · simp only [Hub.pollRx, hc, g1]
          split <;> exact g2
        · have := hi.free (hi.gone g2).2 k c hc ha
          rw [g1, List.append_nil] at this
          rw [got_snoc k es os _ _ hlen, hy, ← hlog]
          simpa [got, gets, Hub.log, hc] using this
      · intro x hx
        rw [hp] at hx
        simp only [List.getLast?_append, List.getLast?_singleton, Option.some_or, Option.some.injEq,
          Prod.mk.injEq] at hx
        obtain ⟨rfl, hx⟩ := hx
        left
        unfold Hub.pollRx at hx ⊢
        simp only [hc] at hx ⊢
        cases hq : c.queue with
        | cons d ds => simp [hq] at hx
        | nil =>
          simp only [hq] at hx ⊢
          cases ht : c.txAlive with
          | true => simp [hk]
          | false => simp [ht] at hx
      · intro x r hx
        rw [hp] at hx
        simp only [List.getLast?_append, List.getLast?_singleton, Option.some_or, Option.some.injEq,
          Prod.mk.injEq] at hx
        obtain ⟨rfl, -⟩ := hx
        exact ⟨es, [], os, w, [], rfl, by simp, hs.run, by simp [pollRx_woken]⟩
    · simp at hst
  · have hp : polled k (es ++ [e]) (os ++ [o]) = polled k es os := by
      rw [polled_snoc k es os _ _ hlen]
      cases e with
      | poll i cx =>
        have : i ≠ k := fun hk => he ⟨cx, by rw [hk]⟩
        cases o <;> simp [polled, this]
      | _ => simp [polled]
    have hg : got k (es ++ [e]) (os ++ [o]) = got k es os := by
      rw [← polled_got, hp, polled_got]
    have ext : ∀ x, WokenSince api s k es w x → WokenSince api s k (es ++ [e]) w' x := by
      rintro x ⟨es1, es2, os1, w1, new, g1, g2, g3, g4, g5⟩
      refine ⟨es1, es2 ++ [e], os1, w1, new ++ n1, by simp [g1], ?_, g3, by rw [hn1, g4,
        List.append_assoc], by simp [g5]⟩
      intro y hy
      rcases List.mem_append.1 hy with hy | hy
      · exact g2 y hy
      · exact he ⟨y, (List.mem_singleton.1 hy).symm⟩
    refine ⟨hrun, ?_, ?_, ?_⟩
    · intro y hy
      rw [hp] at hy
      obtain ⟨g1, g2⟩ := hs.ended y hy
      obtain ⟨g3, g4⟩ := gone_step hi hst g1
      exact ⟨g3, by rw [g4, hg]; exact g2⟩
    · intro x hx
      rw [hp] at hx
      rcases hs.wait x hx with ⟨c, hc, hw⟩ | hw | hw
      · by_cases hd : e = .dropRx k
        · right; right
          subst hd
          simp only [World.step] at hst
          split at hst
          · cases hst
            exact ⟨{ c with rxAlive := false, queue := [], waker := none },
              by simp only [Hub.dropRx, hc, List.getElem?_set_self (List.getElem?_eq_some_iff.1 hc).1], rfl⟩
          · simp at hst
        · rcases hn2 k c x hc hw (fun cx h => he ⟨cx, h⟩) hd with h1 | h1
          · right; left
            obtain ⟨es1, es2, os1, w1, new, g1, g2, g3, g4⟩ := hs.pre x _ hx
            refine ⟨es1, es2 ++ [e], os1, w1, new ++ n1, by simp [g1], ?_, g3, by rw [hn1, g4,
              List.append_assoc], by simp [h1]⟩
            intro y hy
            rcases List.mem_append.1 hy with hy | hy
            · exact g2 y hy
            · exact he ⟨y, (List.mem_singleton.1 hy).symm⟩
          · exact .inl h1
      · exact .inr (.inl (ext x hw))
      · exact .inr (.inr (unheld_step hst hw))
    · intro x r hx
      rw [hp] at hx
      obtain ⟨es1, es2, os1, w1, new, g1, g2, g3, g4⟩ := hs.pre x r hx
      refine ⟨es1, es2 ++ [e], os1, w1, new ++ n1, by simp [g1], ?_, g3, by rw [hn1, g4,
        List.append_assoc]⟩
      intro y hy
      rcases List.mem_append.1 hy with hy | hy
      · exact g2 y hy
      · exact he ⟨y, (List.mem_singleton.1 hy).symm⟩

/-- At a moment at which no call is running. -/
theorem polled_rest {R : S → List D → Prop} {api : Api S D O} (ok : api.Ok R) {s : S} {es : List (Ev O)}
    {os : List (Option (Poll (Option D)))} {w : World S D}
    (h : (World.init s).runs api es = some (os, w)) (hj : w.job = none) {k : Nat} (hk : Kept k es os w)
    {o : Option Waker} (ho : Rest o (polled k es os)) :
    R w.values (items ((polled k es os).map (·.2))) ∨ ∃ x, o = some x ∧ WokenSince api s k es w x := by
  have hs := seen ok h k
  have hi : Inv R w := inv_runs ok (inv_init s) h
  rw [polled_got]
  rcases ho with ⟨x, rfl, hx⟩ | ⟨y, hy⟩
  · rcases hk with hk | ⟨y, hk⟩
    · obtain ⟨c, hc, ha⟩ := link_of_live hk
      rcases hs.wait x hx with ⟨c', hc', hw⟩ | hw | ⟨c', hc', hw⟩
      · left
        rw [hc] at hc'; cases hc'
        have := hi.free hj k c hc ha
        rw [(hi.waiting k c x hc hw).1, List.append_nil] at this
        rw [← runs_log h k]
        simpa [Hub.log, hc] using this
      · exact .inr ⟨x, rfl, hw⟩
      · rw [hc] at hc'; cases hc'
        rw [ha] at hw; cases hw
    · rw [hx] at hk; cases hk
  · exact .inl (hs.ended y hy).2

/-- What a subscriber was given fits the contents at some moment, with some more. -/
theorem polled_some {R : S → List D → Prop} {api : Api S D O} (ok : api.Ok R) {s : S} {es : List (Ev O)}
    {os : List (Option (Poll (Option D)))} {w : World S D}
    (h : (World.init s).runs api es = some (os, w)) (k : Nat) :
    ∃ s' l, R s' (items ((polled k es os).map (·.2)) ++ l) := by
  have hi : Inv R w := inv_runs ok (inv_init s) h
  rw [polled_got, ← runs_log h k]
  cases hc : w.hub.links[k]? with
  | none =>
    have : w.hub.log k = [] := by simp [Hub.log, hc]
    rw [this]
    exact ⟨s, _, ok.first s⟩
  | some c =>
    have : w.hub.log k = c.delivered := by simp [Hub.log, hc]
    rw [this]
    cases ha : c.rxAlive with
    | true =>
      obtain ⟨l, hl⟩ := hi.reach hc ha
      exact ⟨_, l, hl⟩
    | false =>
      obtain ⟨s', l, hl⟩ := hi.sound k c hc ha
      exact ⟨s', l, hl⟩

end Verif.HubConc
