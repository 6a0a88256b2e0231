import Verif.Flow
import Verif.Channel

/-!
# What the `Receiver` of a channel has seen when it is at rest
-/

namespace Verif.Chan

variable {α : Type}

/-- The polls made on the `Receiver` during a history with the answers `os`. -/
def polled : List (Ev α) → List (Obs α) → SigTrace α
  | .poll w :: es, .poll r :: os => (w, r) :: polled es os
  | _ :: es, _ :: os => polled es os
  | _, _ => []

/-- The value of the last `send` that returned `Ok`, or else the initial value. -/
def latest (a : α) : List (Ev α) → List (Obs α) → α
  | .send b :: es, .sent none :: os => latest b es os
  | _ :: es, _ :: os => latest a es os
  | _, _ => a

/-- The last poll was with waker `x`, and `x` has been woken since. -/
def WokenSince (a : α) (es : List (Ev α)) (m : World α) (x : Waker) : Prop :=
  ∃ es₁ es₂ os₁ m₁ new, es = es₁ ++ .poll x :: es₂ ∧ (∀ y, .poll y ∉ es₂) ∧
    (World.new a).runs es₁ = some (os₁, m₁) ∧ m.woken = m₁.woken ++ new ∧ x ∈ new

theorem polled_append {es es' : List (Ev α)} {os os' : List (Obs α)} (h : es.length = os.length) :
    polled (es ++ es') (os ++ os') = polled es os ++ polled es' os' := by
  induction es generalizing os with
  | nil => cases os with
    | nil => rfl
    | cons o os => simp at h
  | cons e es ih =>
    cases os with
    | nil => simp at h
    | cons o os =>
      have := ih (os := os) (by simpa using h)
      cases e <;> cases o <;> simp [polled, this]

theorem latest_snoc {a : α} {es : List (Ev α)} {os : List (Obs α)} (h : es.length = os.length)
    (e : Ev α) (o : Obs α) :
    latest a (es ++ [e]) (os ++ [o]) =
      (match e, o with | .send b, .sent none => b | _, _ => latest a es os) := by
  induction es generalizing os a with
  | nil => cases os with
    | nil => cases e <;> cases o <;> try rfl
             rename_i r; cases r <;> rfl
    | cons o os => simp at h
  | cons e' es ih =>
    cases os with
    | nil => simp at h
    | cons o' os =>
      have := fun a => ih (a := a) (os := os) (by simpa using h)
      cases e' <;> cases o' <;> try (simp only [List.cons_append, latest]; exact this _)
      rename_i r
      cases r <;> (simp only [List.cons_append, latest]; exact this _)

theorem runs_length {m m' : World α} {es : List (Ev α)} {os : List (Obs α)}
    (h : runE World.step m es = some (os, m')) : es.length = os.length := by
  induction es generalizing m os with
  | nil => cases h; rfl
  | cons e es ih =>
    simp only [runE] at h
    split at h
    · cases h
    · split at h
      · cases h
      · rename_i h1
        cases h
        simpa using ih h1

/-- What has been seen, and who will be told. -/
structure Seen (a : α) (es : List (Ev α)) (os : List (Obs α)) (m : World α) : Prop where
  first : polled es os = [] ∧ m.value ≠ none ∨
    ∃ b, (polled es os).head?.map (·.2) = some (.ready (some b))
  value : m.value = some (latest a es os) ∨
    m.value = none ∧ (polled es os).last = some (latest a es os)
  ended : ∀ y, (polled es os).getLast? = some (y, .ready none) → m.value = none ∧ m.senders = 0
  wait : ∀ x, (polled es os).getLast? = some (x, .pending) →
    m.value = none ∧ m.waker = some x ∨ WokenSince a es m x
  pre : ∀ x r, (polled es os).getLast? = some (x, r) → ∃ es₁ es₂ os₁ m₁ new,
    es = es₁ ++ .poll x :: es₂ ∧ (∀ y, .poll y ∉ es₂) ∧
    (World.new a).runs es₁ = some (os₁, m₁) ∧ m.woken = m₁.woken ++ new

theorem woken_mono {a : α} {es : List (Ev α)} {m m' : World α} {x : Waker} {e : Ev α}
    (h : WokenSince a es m x) (he : ∀ y, e ≠ .poll y) {k : List Waker}
    (hw : m'.woken = m.woken ++ k) : WokenSince a (es ++ [e]) m' x := by
  obtain ⟨es₁, es₂, os₁, m₁, new, rfl, h1, h2, h3, h4⟩ := h
  refine ⟨es₁, es₂ ++ [e], os₁, m₁, new ++ k, by simp, fun y hy => ?_, h2, by rw [hw, h3]; simp,
    by simp [h4]⟩
  rcases List.mem_append.1 hy with hy | hy
  · exact h1 y hy
  · exact he y (List.mem_singleton.1 hy).symm

/-- An event other than a poll. -/
theorem seen_other {a : α} {es : List (Ev α)} {os : List (Obs α)} {m m' : World α} {e : Ev α}
    {o : Obs α} (h : Seen a es os m) (hlen : es.length = os.length) (he : ∀ y, e ≠ .poll y)
    (hv : m'.value = some (latest a (es ++ [e]) (os ++ [o])) ∧ m.senders ≠ 0 ∨
      m'.value = m.value ∧ latest a (es ++ [e]) (os ++ [o]) = latest a es os)
    (hs : m.senders = 0 → m'.senders = 0)
    (hw : m'.value = m.value ∧ m'.waker = m.waker ∧ m'.woken = m.woken ∨
      m'.woken = m.woken ++ m.waker.toList) : Seen a (es ++ [e]) (os ++ [o]) m' := by
  have hp : polled (es ++ [e]) (os ++ [o]) = polled es os := by
    rw [polled_append hlen]
    cases e <;> cases o <;> simp [polled]
    exact he _ rfl
  obtain ⟨k, hk⟩ : ∃ k, m'.woken = m.woken ++ k := hw.elim (fun h => ⟨[], by simp [h.2.2]⟩) fun h => ⟨_, h⟩
  refine ⟨?_, ?_, ?_, ?_, ?_⟩
  · rw [hp]
    refine h.first.imp (fun ⟨h1, h2⟩ => ⟨h1, ?_⟩) id
    rcases hv with ⟨hv, -⟩ | ⟨hv, -⟩ <;> rw [hv]
    · simp
    · exact h2
  · rw [hp]
    rcases hv with ⟨hv, -⟩ | ⟨hv, hl⟩
    · exact .inl hv
    · rw [hv, hl]; exact h.value
  · rw [hp]
    intro y hy
    have := h.ended y hy
    refine ⟨?_, hs this.2⟩
    rcases hv with ⟨-, hv⟩ | ⟨hv, -⟩
    · exact absurd this.2 hv
    · rw [hv]; exact this.1
  · rw [hp]
    intro x hx
    rcases h.wait x hx with ⟨h1, h2⟩ | h1
    · rcases hw with hw | hw
      · exact .inl ⟨by rw [hw.1]; exact h1, by rw [hw.2.1]; exact h2⟩
      · obtain ⟨es₁, es₂, os₁, m₁, new, rfl, k1, k2, k3⟩ := h.pre x _ hx
        refine .inr ⟨es₁, es₂ ++ [e], os₁, m₁, new ++ [x], by simp, fun y hy => ?_, k2, ?_, by simp⟩
        · rcases List.mem_append.1 hy with hy | hy
          · exact k1 y hy
          · exact he y (List.mem_singleton.1 hy).symm
        · rw [hw, h2, k3]; simp
    · exact .inr (woken_mono h1 he hk)
  · rw [hp]
    intro x r hx
    obtain ⟨es₁, es₂, os₁, m₁, new, rfl, k1, k2, k3⟩ := h.pre x _ hx
    refine ⟨es₁, es₂ ++ [e], os₁, m₁, new ++ k, by simp, fun y hy => ?_, k2, by rw [hk, k3]; simp⟩
    rcases List.mem_append.1 hy with hy | hy
    · exact k1 y hy
    · exact he y (List.mem_singleton.1 hy).symm

theorem notify_eq (m : World α) : m.notify.value = m.value ∧ m.notify.senders = m.senders ∧
    m.notify.woken = m.woken ++ m.waker.toList := by
  unfold World.notify
  split <;> simp [*]

theorem seen {a : α} {es : List (Ev α)} {os : List (Obs α)} {m : World α}
    (h : (World.new a).runs es = some (os, m)) : Seen a es os m := by
  unfold World.runs at h
  revert os m
  refine snoc_ind (P := fun es => ∀ {os : List (Obs α)} {m : World α},
    runE World.step (World.new a) es = some (os, m) → Seen a es os m) ?_ ?_ es
  · intro os m h
    cases h
    exact ⟨.inl ⟨rfl, by simp [World.new]⟩, .inl rfl, by simp [polled], by simp [polled], by simp [polled]⟩
  · intro es e ih os' m' h
    obtain ⟨os, o, m, h1, h2, rfl⟩ := runE_snoc h
    have hS := ih h1
    have hlen := runs_length h1
    by_cases he : ∀ y, e ≠ .poll y
    · cases e with
      | poll w => exact absurd rfl (he w)
      | send b =>
        simp only [World.step] at h2
        split at h2
        · cases h2
        · cases h2
          refine seen_other hS hlen he ?_ ?_ ?_ <;> rw [World.send] <;> split <;> try split
          all_goals try simp_all [latest_snoc, notify_eq, World.hasSenders]
      | close =>
        simp only [World.step] at h2
        split at h2
        · cases h2
        · cases h2
          refine seen_other hS hlen he ?_ ?_ ?_ <;> rw [World.close] <;> split <;> try split
          all_goals try simp_all [latest_snoc, notify_eq, World.hasSenders]
      | clone =>
        simp only [World.step] at h2
        split at h2
        · cases h2
        · cases h2
          refine seen_other hS hlen he ?_ ?_ ?_ <;> rw [World.clone] <;> split <;> try split
          all_goals try simp_all [latest_snoc, notify_eq, World.hasSenders]
      | dropSender =>
        simp only [World.step] at h2
        split at h2
        · cases h2
        · cases h2
          refine seen_other hS hlen he ?_ ?_ ?_ <;> rw [World.dropSender] <;> split <;> try split <;> try split
          all_goals try simp_all [latest_snoc, notify_eq, World.hasSenders]
      | dropReceiver =>
        simp only [World.step] at h2
        split at h2
        · cases h2
          refine seen_other hS hlen he ?_ ?_ ?_ <;> simp_all [latest_snoc]
        · cases h2
    · obtain ⟨w, rfl⟩ : ∃ w, e = .poll w := Classical.byContradiction fun h => he fun y hy => h ⟨y, hy⟩
      simp only [World.step] at h2
      split at h2
      · rename_i hrec
        cases h2
        have hp : ∀ r, polled (es ++ [.poll w]) (os ++ [.poll r]) = polled es os ++ [(w, r)] := fun r => by
          rw [polled_append hlen]; rfl
        have hl : ∀ r, latest a (es ++ [.poll w]) (os ++ [.poll r]) = latest a es os := fun r => by
          rw [latest_snoc hlen]
        have hpre : ∀ {q : World α}, q.woken = m.woken → ∀ r' x r, (polled es os ++ [(w, r')]).getLast? = some (x, r) →
            ∃ es₁ es₂ os₁ m₁ new, es ++ [.poll w] = es₁ ++ .poll x :: es₂ ∧ (∀ y, .poll y ∉ es₂) ∧
              (World.new a).runs es₁ = some (os₁, m₁) ∧ q.woken = m₁.woken ++ new := by
          intro q hq r' x r hx
          simp only [List.getLast?_concat, Option.some.injEq, Prod.mk.injEq] at hx
          obtain ⟨rfl, -⟩ := hx
          exact ⟨es, [], os, m, [], rfl, by simp, h1, by simp [hq]⟩
        have hhd : ∀ r : Poll (Option α), (polled es os = [] ∧ ∃ b, r = .ready (some b)) ∨ (∃ b, (polled es os).head?.map (·.2) = some (.ready (some b))) →
            ∃ b, ((polled es os ++ [(w, r)]).head?.map (·.2)) = some (.ready (some b)) := by
          rintro r (⟨h, b, rfl⟩ | ⟨b, h⟩)
          · exact ⟨b, by rw [h]; rfl⟩
          · refine ⟨b, ?_⟩
            cases hq : polled es os with
            | nil => rw [hq] at h; simp at h
            | cons q t => rw [hq] at h; simpa using h
        cases hv : m.value with
        | some b =>
          have hb : latest a es os = b := by
            rcases hS.value with h | h
            · rw [hv] at h; cases h; rfl
            · rw [hv] at h; cases h.1
          simp only [World.pollChange, hv]
          refine ⟨?_, ?_, ?_, ?_, ?_⟩ <;> rw [hp] <;> try rw [hl]
          · exact .inr (hhd _ (hS.first.imp (fun h => ⟨h.1, b, rfl⟩) id))
          · exact .inr ⟨rfl, by rw [SigTrace.last, List.map_append, items_append]; simp [items, hb]⟩
          · simp
          · simp
          · exact hpre rfl _
        | none =>
          have hb : (polled es os).last = some (latest a es os) := by
            rcases hS.value with h | h
            · rw [hv] at h; cases h
            · exact h.2
          have hf : ∃ b, (polled es os).head?.map (·.2) = some (.ready (some b)) := by
            rcases hS.first with h | h
            · exact absurd hv h.2
            · exact h
          simp only [World.pollChange, hv]
          by_cases hs : m.hasSenders
          · simp only [hs, if_true]
            refine ⟨?_, ?_, ?_, ?_, ?_⟩ <;> rw [hp] <;> try rw [hl]
            · exact .inr (hhd _ (.inr hf))
            · exact .inr ⟨rfl, by rw [SigTrace.last, List.map_append, items_append]; simpa [SigTrace.last, items] using hb⟩
            · simp
            · intro x hx
              simp only [List.getLast?_concat, Option.some.injEq, Prod.mk.injEq] at hx
              exact .inl ⟨rfl, by rw [hx.1]⟩
            · exact hpre rfl _
          · simp only [hs]
            refine ⟨?_, ?_, ?_, ?_, ?_⟩ <;> (try simp only [Bool.false_eq_true, if_false]) <;> rw [hp] <;> try rw [hl]
            · exact .inr (hhd _ (.inr hf))
            · exact .inr ⟨hv, by rw [SigTrace.last, List.map_append, items_append]; simpa [SigTrace.last, items] using hb⟩
            · intro y hy
              exact ⟨hv, by simpa [World.hasSenders] using hs⟩
            · simp
            · exact hpre rfl _
      · cases h2

/-- A `Receiver` at rest has seen the value sent last, or its waker has been woken. -/
theorem polled_rest {a : α} {es : List (Ev α)} {os : List (Obs α)} {m : World α}
    (h : (World.new a).runs es = some (os, m)) {o : Option Waker} (hr : Rest o (polled es os)) :
    (polled es os).last = some (latest a es os) ∨ ∃ x, o = some x ∧ WokenSince a es m x := by
  have hS := seen h
  rcases hr with ⟨x, ho, hr⟩ | ⟨y, hr⟩
  · rcases hS.wait x hr with h1 | h1
    · rcases hS.value with h2 | h2
      · rw [h1.1] at h2; cases h2
      · exact .inl h2.2
    · exact .inr ⟨x, ho, h1⟩
  · rcases hS.value with h2 | h2
    · rw [(hS.ended y hr).1] at h2; cases h2
    · exact .inl h2.2

end Verif.Chan
