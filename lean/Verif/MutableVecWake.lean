import Verif.MutableVecSolo

/-!
# Delivery log and wake-ups of `MutableVec` subscribers: helper lemmas
-/

namespace Verif.MutVec

variable {α : Type}

/-- What a channel has delivered, by subscriber number (nothing before the subscription). -/
def World.log (w : World α) (k : Nat) : List (VecDiff α) :=
  match w.chans[k]? with
  | some c => c.delivered
  | none => []

theorem log_of_map {w w' : World α} {k : Nat} {f : Chan α → Chan α}
    (hf : ∀ c, (f c).delivered = c.delivered) (h : w'.chans[k]? = w.chans[k]?.map f) :
    w'.log k = w.log k := by
  unfold World.log
  rw [h]
  cases w.chans[k]? <;> simp [hf]

theorem step_log {w w' : World α} (hw : WF w) {e : Ev α} (h : w.step e = some w') (k : Nat) :
    w'.log k = w.log k ++ received k w [e] := by
  cases e with
  | op o =>
    have hr : received k w [.op o] = [] := by simp only [received, h, List.append_nil]
    rw [hr]
    simp only [World.step, List.append_nil] at h ⊢
    by_cases hh : w.handles = 0
    · simp only [hh, ↓reduceIte, Option.some.injEq] at h; rw [h]
    · simp only [hh, ↓reduceIte, exec_eq] at h
      cases hsp : o.spec w.values with
      | none => simp [hsp] at h
      | some sp =>
        simp [hsp] at h; subst h
        obtain ⟨-, h2, -, -⟩ := wf_notifyAll hw hh (o.diffs w.values)
        exact log_of_map (pushAll_delivered _) (h2 k)
  | subscribe =>
    have hr : received k w [.subscribe] = [] := by simp only [received, h, List.append_nil]
    rw [hr]
    simp only [World.step, List.append_nil] at h ⊢
    by_cases hh : w.handles = 0
    · simp only [hh, ↓reduceIte, Option.some.injEq] at h; rw [h]
    · simp only [hh, ↓reduceIte, Option.some.injEq] at h; subst h
      unfold World.log World.signalVec
      simp only
      rcases Nat.lt_trichotomy k w.chans.length with hk | hk | hk
      · rw [List.getElem?_append_left hk]
      · subst hk; simp [Chan.new]
      · rw [List.getElem?_eq_none (by simp; omega), List.getElem?_eq_none (by omega)]
  | poll id cx =>
    have hr : received k w [.poll id cx] =
        if id = k ∧ w.rxLive k = true then
          match (w.pollRx k cx).1 with
          | .ready (some d) => [d]
          | _ => []
        else [] := by simp only [received, h, List.append_nil]; rfl
    rw [hr]; clear hr
    simp only [World.step] at h
    by_cases hl : w.rxLive id = true
    · simp only [hl, ↓reduceIte, Option.some.injEq] at h; subst h
      by_cases hid : id = k
      · subst hid
        simp only [hl, and_self, ↓reduceIte]
        unfold World.log World.pollRx
        cases hc : w.chans[id]? with
        | none => simp [hc]
        | some c =>
          have := (List.getElem?_eq_some_iff.1 hc).1
          cases hq : c.queue with
          | cons d ds => simp [this, hq]
          | nil =>
            by_cases ht : c.txAlive = true
            · simp [ht, this, hq]
            · simp [ht, hq, hc]
      · simp only [hid, false_and, ↓reduceIte, List.append_nil]
        have := (pollRx_other w id k cx hid).1
        unfold World.log; rw [this]
    · simp only [hl] at h
      cases h
      have : ¬ (id = k ∧ w.rxLive k = true) := by rintro ⟨rfl, h⟩; exact hl h
      simp [this]
  | dropRx id =>
    have hr : received k w [.dropRx id] = [] := by simp only [received, h, List.append_nil]
    rw [hr]
    simp only [World.step, List.append_nil] at h ⊢
    by_cases hl : w.rxLive id = true
    · simp only [hl, ↓reduceIte, Option.some.injEq] at h; subst h
      exact log_of_map (fun c => by split <;> rfl) (dropRx_spec w id k).1
    · simp only [hl] at h
      cases h; rfl
  | cloneHandle =>
    have hr : received k w [.cloneHandle] = [] := by simp only [received, h, List.append_nil]
    rw [hr]
    simp only [World.step, List.append_nil] at h ⊢
    by_cases hh : w.handles = 0
    · simp only [hh, ↓reduceIte, Option.some.injEq] at h; rw [h]
    · simp only [hh, ↓reduceIte, Option.some.injEq] at h; subst h; rfl
  | dropHandle =>
    have hr : received k w [.dropHandle] = [] := by simp only [received, h, List.append_nil]
    rw [hr]
    simp only [World.step, List.append_nil] at h ⊢
    by_cases hh : w.handles = 0
    · simp only [hh, ↓reduceIte, Option.some.injEq] at h; rw [h]
    · simp only [hh, ↓reduceIte, Option.some.injEq] at h; subst h
      exact log_of_map (fun c => by split <;> rfl) ((dropHandle_spec hh).2.2.2.1 k)

theorem received_cons {w w' : World α} {e : Ev α} {es : List (Ev α)} (h : w.step e = some w')
    (k : Nat) : received k w (e :: es) = received k w [e] ++ received k w' es := by
  simp only [received, h, List.append_nil]

theorem runs_log {w w' : World α} (hw : Inv w) {es : List (Ev α)} (h : w.runs es = some w')
    (k : Nat) : w'.log k = w.log k ++ received k w es := by
  induction es generalizing w with
  | nil => cases h; simp [received]
  | cons e es ih =>
    simp only [World.runs] at h
    cases hs : w.step e with
    | none => simp [hs] at h
    | some w1 =>
      simp only [hs] at h
      rw [ih (inv_step hw hs) h, step_log hw.toWF hs k, received_cons (es := es) hs, List.append_assoc]

/-- One event: the log of woken wakers only grows, and a waiting subscriber is woken or still
waiting. -/
theorem step_wake {w w' : World α} (hw : Inv w) {e : Ev α} (h : w.step e = some w') {k : Nat}
    {c : Chan α} {x : Waker} (hc : w.chans[k]? = some c) (hx : c.waker = some x)
    (hp : ∀ cx, e ≠ .poll k cx) (hd : e ≠ .dropRx k) :
    ∃ new, w'.woken = w.woken ++ new ∧
      (x ∈ new ∨ ∃ c', w'.chans[k]? = some c' ∧ c'.waker = some x) := by
  have hlive := (hw.waiting k c x hc hx).2.2
  cases e with
  | op o =>
    simp only [World.step] at h
    by_cases hh : w.handles = 0
    · simp only [hh, ↓reduceIte, Option.some.injEq] at h; subst h
      exact ⟨[], by simp, .inr ⟨c, hc, hx⟩⟩
    · simp only [hh, ↓reduceIte, exec_eq] at h
      cases hsp : o.spec w.values with
      | none => simp [hsp] at h
      | some sp =>
        simp [hsp] at h; subst h
        by_cases hds : o.diffs w.values = []
        · simp only [hds]
          exact ⟨[], by simp [notifyAll], .inr ⟨c, hc, hx⟩⟩
        · obtain ⟨new, h1, h2⟩ := woken_notifyAll hw.toWF hh _ hds hc hlive hx
          exact ⟨new, h1, .inl h2⟩
  | subscribe =>
    simp only [World.step] at h
    by_cases hh : w.handles = 0
    · simp only [hh, ↓reduceIte, Option.some.injEq] at h; subst h
      exact ⟨[], by simp, .inr ⟨c, hc, hx⟩⟩
    · simp only [hh, ↓reduceIte, Option.some.injEq] at h; subst h
      refine ⟨[], by simp [World.signalVec], .inr ⟨c, ?_, hx⟩⟩
      have := (List.getElem?_eq_some_iff.1 hc).1
      simp only [World.signalVec]
      rw [List.getElem?_append_left this, hc]
  | poll id cx =>
    simp only [World.step] at h
    have hid : id ≠ k := fun h => hp cx (by rw [h])
    by_cases hl : w.rxLive id = true
    · simp only [hl, ↓reduceIte, Option.some.injEq] at h; subst h
      refine ⟨[], ?_, .inr ⟨c, by rw [(pollRx_other w id k cx hid).1, hc], hx⟩⟩
      unfold World.pollRx
      split
      · simp
      · split
        · simp
        · split <;> simp
    · simp only [hl] at h
      cases h
      exact ⟨[], by simp, .inr ⟨c, hc, hx⟩⟩
  | dropRx id =>
    simp only [World.step] at h
    have hid : id ≠ k := fun h => hd (by rw [h])
    by_cases hl : w.rxLive id = true
    · simp only [hl, ↓reduceIte, Option.some.injEq] at h; subst h
      refine ⟨[], ?_, .inr ⟨c, by rw [(dropRx_spec w id k).1, hc]; simp [hid], hx⟩⟩
      unfold World.dropRx
      split <;> simp
    · simp only [hl] at h
      cases h
      exact ⟨[], by simp, .inr ⟨c, hc, hx⟩⟩
  | cloneHandle =>
    simp only [World.step] at h
    by_cases hh : w.handles = 0
    · simp only [hh, ↓reduceIte, Option.some.injEq] at h; subst h
      exact ⟨[], by simp, .inr ⟨c, hc, hx⟩⟩
    · simp only [hh, ↓reduceIte, Option.some.injEq] at h; subst h
      exact ⟨[], by simp, .inr ⟨c, hc, hx⟩⟩
  | dropHandle =>
    simp only [World.step] at h
    by_cases hh : w.handles = 0
    · simp only [hh, ↓reduceIte, Option.some.injEq] at h; subst h
      exact ⟨[], by simp, .inr ⟨c, hc, hx⟩⟩
    · simp only [hh, ↓reduceIte, Option.some.injEq] at h; subst h
      unfold World.dropHandle
      simp only
      split
      · obtain ⟨-, -, -, -, new, h5, h6⟩ :=
          dropSenders_spec w.senders { w with handles := w.handles - 1 }
        exact ⟨new, h5, .inl (h6 k c x (hw.live k c hc hlive hh) hc hx)⟩
      · exact ⟨[], by simp, .inr ⟨c, hc, hx⟩⟩

theorem step_woken_mono {w w' : World α} (hw : Inv w) {e : Ev α} (h : w.step e = some w') :
    ∃ new, w'.woken = w.woken ++ new := by
  cases e with
  | op o =>
    simp only [World.step] at h
    by_cases hh : w.handles = 0
    · simp only [hh, ↓reduceIte, Option.some.injEq] at h; subst h; exact ⟨[], by simp⟩
    · simp only [hh, ↓reduceIte, exec_eq] at h
      cases hsp : o.spec w.values with
      | none => simp [hsp] at h
      | some sp =>
        simp [hsp] at h; subst h
        exact woken_mono_notifyAll hw.toWF hh _
  | subscribe =>
    simp only [World.step] at h
    split at h <;> (cases h; exact ⟨[], by simp [World.signalVec]⟩)
  | poll id cx =>
    simp only [World.step] at h
    split at h <;> cases h
    · refine ⟨[], ?_⟩
      unfold World.pollRx
      split
      · simp
      · split
        · simp
        · split <;> simp
    · exact ⟨[], by simp⟩
  | dropRx id =>
    simp only [World.step] at h
    split at h <;> cases h
    · refine ⟨[], ?_⟩
      unfold World.dropRx
      split <;> simp
    · exact ⟨[], by simp⟩
  | cloneHandle =>
    simp only [World.step] at h
    split at h <;> (cases h; exact ⟨[], by simp⟩)
  | dropHandle =>
    simp only [World.step] at h
    split at h <;> cases h
    · exact ⟨[], by simp⟩
    · unfold World.dropHandle
      simp only
      split
      · obtain ⟨-, -, -, -, new, h5, -⟩ :=
          dropSenders_spec w.senders { w with handles := w.handles - 1 }
        exact ⟨new, h5⟩
      · exact ⟨[], by simp⟩

theorem runs_woken_mono {w w' : World α} (hw : Inv w) {es : List (Ev α)}
    (h : w.runs es = some w') : ∃ new, w'.woken = w.woken ++ new := by
  induction es generalizing w with
  | nil => cases h; exact ⟨[], by simp⟩
  | cons e es ih =>
    simp only [World.runs] at h
    cases hs : w.step e with
    | none => simp [hs] at h
    | some w1 =>
      simp only [hs] at h
      obtain ⟨n1, h1⟩ := step_woken_mono hw hs
      obtain ⟨n2, h2⟩ := ih (inv_step hw hs) h
      exact ⟨n1 ++ n2, by rw [h2, h1, List.append_assoc]⟩

theorem runs_wake {w w' : World α} (hw : Inv w) {es : List (Ev α)} (h : w.runs es = some w')
    {k : Nat} {c : Chan α} {x : Waker} (hc : w.chans[k]? = some c) (hx : c.waker = some x)
    (hp : ∀ cx, .poll k cx ∉ es) (hd : .dropRx k ∉ es) :
    ∃ new, w'.woken = w.woken ++ new ∧
      (x ∈ new ∨ ∃ c', w'.chans[k]? = some c' ∧ c'.waker = some x) := by
  induction es generalizing w c with
  | nil => cases h; exact ⟨[], by simp, .inr ⟨c, hc, hx⟩⟩
  | cons e es ih =>
    simp only [World.runs] at h
    cases hs : w.step e with
    | none => simp [hs] at h
    | some w1 =>
      simp only [hs] at h
      obtain ⟨n1, h1, h2⟩ := step_wake hw hs hc hx
        (fun cx he => hp cx (by simp [he])) (fun he => hd (by simp [he]))
      rcases h2 with h2 | ⟨c', hc', hx'⟩
      · obtain ⟨n2, h3⟩ := runs_woken_mono (inv_step hw hs) h
        exact ⟨n1 ++ n2, by rw [h3, h1, List.append_assoc], .inl (by simp [h2])⟩
      · obtain ⟨n2, h3, h4⟩ := ih (inv_step hw hs) h hc' hx'
          (fun cx hm => hp cx (by simp [hm])) (fun hm => hd (by simp [hm]))
        refine ⟨n1 ++ n2, by rw [h3, h1, List.append_assoc], h4.imp (by simp +contextual) id⟩

/-- Once all handles are gone and the queue is drained, nothing changes that. -/
theorem step_ended {w w' : World α} {e : Ev α} (h : w.step e = some w') {k : Nat}
    (hh : w.handles = 0) (hq : ∀ c, w.chans[k]? = some c → c.queue = []) :
    w'.handles = 0 ∧ ∀ c, w'.chans[k]? = some c → c.queue = [] := by
  cases e with
  | op o => simp [World.step, hh] at h; subst h; exact ⟨hh, hq⟩
  | subscribe => simp [World.step, hh] at h; subst h; exact ⟨hh, hq⟩
  | cloneHandle => simp [World.step, hh] at h; subst h; exact ⟨hh, hq⟩
  | dropHandle => simp [World.step, hh] at h; subst h; exact ⟨hh, hq⟩
  | poll id cx =>
    simp only [World.step] at h
    split at h <;> cases h
    · by_cases hid : id = k
      · subst hid
        unfold World.pollRx
        cases hc : w.chans[id]? with
        | none => simp [hc, hh]
        | some c =>
          have := (List.getElem?_eq_some_iff.1 hc).1
          have := hq c hc
          by_cases ht : c.txAlive = true <;> simp [*]
      · obtain ⟨h1, -, h3, -⟩ := pollRx_other w id k cx hid
        rw [h1, h3]; exact ⟨hh, hq⟩
    · exact ⟨hh, hq⟩
  | dropRx id =>
    simp only [World.step] at h
    split at h <;> cases h
    · obtain ⟨h1, -, h3, -⟩ := dropRx_spec w id k
      rw [h1, h3]
      refine ⟨hh, fun c hc => ?_⟩
      cases hk : w.chans[k]? with
      | none => simp [hk] at hc
      | some c0 =>
        simp only [hk, Option.map_some, Option.some.injEq] at hc
        subst hc
        split
        · rfl
        · exact hq c0 hk
    · exact ⟨hh, hq⟩

theorem runs_ended {w w' : World α} {es : List (Ev α)} (h : w.runs es = some w') {k : Nat}
    (hh : w.handles = 0) (hq : ∀ c, w.chans[k]? = some c → c.queue = []) :
    w'.handles = 0 ∧ ∀ c, w'.chans[k]? = some c → c.queue = [] := by
  induction es generalizing w with
  | nil => cases h; exact ⟨hh, hq⟩
  | cons e es ih =>
    simp only [World.runs] at h
    cases hs : w.step e with
    | none => simp [hs] at h
    | some w1 =>
      simp only [hs] at h
      obtain ⟨h1, h2⟩ := step_ended hs hh hq
      exact ih h h1 h2

end Verif.MutVec
