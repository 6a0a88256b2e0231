import Verif.ChannelSpec

/-!
# `channel`: proofs
-/

namespace Verif.Chan

variable {α : Type}

theorem sendersAfter_snoc (es : List (Ev α)) (e : Ev α) :
    sendersAfter (es ++ [e]) = (match e with
      | .clone => sendersAfter es + 1
      | .dropSender => sendersAfter es - 1
      | _ => sendersAfter es) := by
  simp only [sendersAfter, List.foldl_append, List.foldl_cons, List.foldl_nil]
  cases e <;> rfl

theorem accepts_snoc (es : List (Ev α)) (e : Ev α) :
    Accepts (es ++ [e]) ↔ Accepts es ∧ e ≠ .close ∧ e ≠ .dropReceiver := by
  simp only [Accepts, List.mem_append, List.mem_singleton, not_or]
  constructor
  · rintro ⟨⟨h1, h2⟩, h3, h4⟩; exact ⟨⟨h1, h3⟩, fun h => h2 h.symm, fun h => h4 h.symm⟩
  · rintro ⟨⟨h1, h2⟩, h3, h4⟩; exact ⟨⟨h1, fun h => h3 h.symm⟩, h2, fun h => h4 h.symm⟩

theorem unread_send {init : α} {es : List (Ev α)} {b : α} (h : Accepts es) (a : α) :
    Unread init (es ++ [.send b]) a ↔ a = b := by
  constructor
  · rintro (⟨es1, es2, he, h1, h2, h3⟩ | ⟨rfl, h2, h3⟩)
    · rcases snoc_split.1 he with ⟨rfl, rfl, hb⟩ | ⟨es2', rfl, rfl⟩
      · injection hb with hb; exact hb.symm
      · exact absurd h (h3 es2' b [] rfl)
    · exact absurd h (h3 es b [] rfl)
  · rintro rfl
    refine .inl ⟨es, [], rfl, h, by simp, ?_⟩
    intro es3 b es4 he
    simp at he

theorem unread_poll {init : α} {es : List (Ev α)} {w : Waker} (a : α) :
    ¬ Unread init (es ++ [.poll w]) a := by
  rintro (⟨es1, es2, he, h1, h2, h3⟩ | ⟨rfl, h2, h3⟩)
  · rcases snoc_split.1 he with ⟨rfl, rfl, hb⟩ | ⟨es2', rfl, rfl⟩
    · cases hb
    · exact h2 w (by simp)
  · exact h2 w (by simp)

/-- Other events, and rejected `send`s, leave the waiting value. -/
theorem unread_other {init : α} {es : List (Ev α)} {e : Ev α} (hp : ∀ w, e ≠ .poll w)
    (hs : ∀ b, e = .send b → ¬ Accepts es) (a : α) :
    Unread init (es ++ [e]) a ↔ Unread init es a := by
  constructor
  · rintro (⟨es1, es2, he, h1, h2, h3⟩ | ⟨rfl, h2, h3⟩)
    · rcases snoc_split.1 he with ⟨rfl, rfl, hb⟩ | ⟨es2', rfl, rfl⟩
      · exact absurd h1 (hs a hb)
      · refine .inl ⟨es1, es2', rfl, h1, fun w hw => h2 w (by simp [hw]), ?_⟩
        rintro es3 b es4 rfl
        exact h3 es3 b (es4 ++ [e]) (by simp)
    · refine .inr ⟨rfl, fun w hw => h2 w (by simp [hw]), ?_⟩
      rintro es3 b es4 rfl
      exact h3 es3 b (es4 ++ [e]) (by simp)
  · rintro (⟨es1, es2, rfl, h1, h2, h3⟩ | ⟨rfl, h2, h3⟩)
    · refine .inl ⟨es1, es2 ++ [e], by simp, h1, ?_, ?_⟩
      · intro w hw
        rw [List.mem_append, List.mem_singleton] at hw
        exact hw.elim (h2 w) fun k => hp w k.symm
      · intro es3 b es4 he
        rcases snoc_split.1 he with ⟨rfl, rfl, hb⟩ | ⟨es2', rfl, rfl⟩
        · exact hs b hb
        · exact h3 es3 b es2' rfl
    · refine .inr ⟨rfl, ?_, ?_⟩
      · intro w hw
        rw [List.mem_append, List.mem_singleton] at hw
        exact hw.elim (h2 w) fun k => hp w k.symm
      · intro es3 b es4 he
        rcases snoc_split.1 he with ⟨rfl, rfl, hb⟩ | ⟨es2', rfl, rfl⟩
        · exact hs b hb
        · exact h3 es3 b es2' rfl

theorem unread_nil {init a : α} : Unread init [] a ↔ a = init := by
  constructor
  · rintro (⟨es1, es2, he, h1, h2, h3⟩ | ⟨rfl, h2, h3⟩)
    · simp at he
    · rfl
  · rintro rfl; exact .inr ⟨rfl, by simp, by simp⟩

theorem waiting_snoc {init : α} {es : List (Ev α)} {e : Ev α} (hh : e = .clone → sendersAfter es ≠ 0)
    (w : Waker) :
    Waiting init (es ++ [e]) w ↔
      (e = .poll w ∧ (∀ a, ¬ Unread init es a) ∧ .close ∉ es ∧ sendersAfter es ≠ 0) ∨
      (Waiting init es w ∧ (e = .clone ∨ e = .dropSender ∧ sendersAfter es ≠ 1)) := by
  constructor
  · rintro ⟨es1, es2, he, h1, h2, h3, h4⟩
    rcases snoc_split.1 he with ⟨rfl, rfl, rfl⟩ | ⟨es2', rfl, rfl⟩
    · exact .inl ⟨rfl, h1, h2, by simpa [sendersAfter_snoc] using h4⟩
    · right
      have h5 := h3 e (by simp)
      rw [sendersAfter_snoc] at h4
      refine ⟨⟨es1, es2', rfl, h1, h2, fun x hx => h3 x (by simp [hx]), ?_⟩, ?_⟩
      · rcases h5 with rfl | rfl
        · exact hh rfl
        · simp only at h4; omega
      · rcases h5 with rfl | rfl
        · exact .inl rfl
        · exact .inr ⟨rfl, by simp at h4; omega⟩
  · rintro (⟨rfl, h1, h2, h3⟩ | ⟨⟨es1, es2, rfl, h1, h2, h3, h4⟩, h5⟩)
    · exact ⟨es, [], rfl, h1, h2, by simp, by simpa [sendersAfter_snoc] using h3⟩
    · refine ⟨es1, es2 ++ [e], by simp, h1, h2, ?_, ?_⟩
      · intro x hx
        rw [List.mem_append, List.mem_singleton] at hx
        rcases hx with hx | rfl
        · exact h3 x hx
        · exact h5.imp id (·.1)
      · rw [sendersAfter_snoc]
        rcases h5 with rfl | ⟨rfl, h5⟩
        · simp
        · simp only; omega

/-- What the fields of the channel mean. -/
structure Inv (init : α) (es : List (Ev α)) (m : World α) : Prop where
  handles : m.handles = sendersAfter es
  rx : m.receiver = true ↔ .dropReceiver ∉ es
  closed : .close ∈ es → m.receiver = true → m.senders = 0
  open_ : .close ∉ es → m.receiver = true → m.senders = sendersAfter es
  value : ∀ a, m.value = some a ↔ Unread init es a
  waker : m.receiver = true → ∀ w, m.waker = some w ↔ Waiting init es w

theorem inv_new (init : α) : Inv init [] (World.new init) := by
  refine ⟨rfl, by simp [World.new], by simp, fun _ _ => rfl, ?_, ?_⟩
  · intro a; rw [unread_nil]; simp [World.new, eq_comm]
  · intro _ w
    simp only [World.new, reduceCtorEq, false_iff]
    rintro ⟨es1, es2, he, _⟩
    simp at he

theorem Waiting.open_ {init : α} {es : List (Ev α)} {w : Waker} (h : Waiting init es w) :
    .close ∉ es := by
  obtain ⟨es1, es2, rfl, h1, h2, h3, h4⟩ := h
  intro hc
  rw [List.mem_append, List.mem_cons] at hc
  rcases hc with hc | hc | hc
  · exact h2 hc
  · cases hc
  · rcases h3 _ hc with h | h <;> cases h

theorem Waiting.not_unread {init : α} {es : List (Ev α)} {w : Waker} (h : Waiting init es w) (a : α) :
    ¬ Unread init es a := by
  obtain ⟨es1, es2, rfl, h1, h2, h3, h4⟩ := h
  clear h4
  revert h3
  refine snoc_ind (P := fun es2 => (∀ e ∈ es2, e = .clone ∨ e = .dropSender) →
    ¬ Unread init (es1 ++ .poll w :: es2) a) ?_ ?_ es2
  · intro _; exact unread_poll a
  · intro l x ih hx
    have hx' := hx x (by simp)
    rw [← List.cons_append, ← List.append_assoc, unread_other]
    · exact ih fun e he => hx e (by simp [he])
    · intro w' k; subst k; simp at hx'
    · intro b k; subst k; simp at hx'

/-- The answers, as a function of the history. -/
def Answers (init : α) (es : List (Ev α)) : Ev α → Obs α → Prop
  | .send a, o => (Accepts es ∧ o = .sent none) ∨ (¬ Accepts es ∧ o = .sent (some a))
  | .poll _, o =>
    (∃ a, Unread init es a ∧ o = .poll (.ready (some a))) ∨
    ((∀ a, ¬ Unread init es a) ∧
      (((.close ∈ es ∨ sendersAfter es = 0) ∧ o = .poll (.ready none)) ∨
       (.close ∉ es ∧ sendersAfter es ≠ 0 ∧ o = .poll .pending)))
  | _, o => o = .unit

theorem World.send_ok {m : World α} (h1 : m.receiver = true) (h2 : m.senders ≠ 0) (b : α) :
    m.send b = (none, { m with value := some b }.notify) := by
  simp [World.send, World.hasSenders, h1, h2]

theorem World.close_ok {m : World α} (h1 : m.receiver = true) (h2 : m.senders ≠ 0) :
    m.close = { m with senders := 0 }.notify := by
  simp [World.close, World.hasSenders, h1, h2]

theorem World.clone_ok {m : World α} (h1 : m.receiver = true) (h2 : m.senders ≠ 0) :
    m.clone = { m with senders := m.senders + 1, handles := m.handles + 1 } := by
  simp [World.clone, World.hasSenders, h1, h2]

theorem World.clone_no {m : World α} (h : m.receiver = true → m.senders = 0) :
    m.clone = { m with handles := m.handles + 1 } := by
  simp only [World.clone, World.hasSenders, bne_iff_ne]
  by_cases h1 : m.receiver = true
  · simp [h1, h h1]
  · simp [h1]

theorem World.drop_last {m : World α} (h1 : m.receiver = true) (h2 : m.senders = 1) :
    m.dropSender = { { m with senders := 0 }.notify with handles := m.handles - 1 } := by
  cases h3 : m.waker <;> simp [World.dropSender, World.hasSenders, h1, h2, World.notify, h3]

theorem World.drop_ok {m : World α} (h1 : m.receiver = true) (h2 : m.senders ≠ 0) (h3 : m.senders ≠ 1) :
    m.dropSender = { m with senders := m.senders - 1, handles := m.handles - 1 } := by
  simp [World.dropSender, World.hasSenders, h1, h2, h3]

theorem World.drop_no {m : World α} (h : m.receiver = true → m.senders = 0) :
    m.dropSender = { m with handles := m.handles - 1 } := by
  simp only [World.dropSender, World.hasSenders, bne_iff_ne]
  by_cases h1 : m.receiver = true
  · simp [h1, h h1]
  · simp [h1]

theorem inv_step {init : α} {es : List (Ev α)} {m m' : World α} {e : Ev α} {o : Obs α}
    (h : Inv init es m) (hs : m.step e = some (o, m')) :
    Inv init (es ++ [e]) m' ∧ Answers init es e o ∧
    (∀ w, Waiting init es w → .dropReceiver ∉ es → Wakes es e → m'.woken = m.woken ++ [w]) ∧
    ((∀ w, ¬ Waiting init es w) ∨ .dropReceiver ∈ es ∨ ¬ Wakes es e → m'.woken = m.woken) := by
  have hacc : m.handles ≠ 0 → (Accepts es ↔ m.receiver = true ∧ m.senders ≠ 0) := by
    intro hh
    rw [Accepts, ← h.rx]
    constructor
    · rintro ⟨h1, h2⟩; exact ⟨h2, by rw [h.open_ h1 h2, ← h.handles]; exact hh⟩
    · rintro ⟨h1, h2⟩; exact ⟨fun hc => h2 (h.closed hc h1), h1⟩
  have hnw : m.receiver = true → m.waker = none → ∀ w, ¬ Waiting init es w := by
    intro h1 h2 w hw
    rw [← h.waker h1 w, h2] at hw
    cases hw
  have hmem : ∀ x : Ev α, x ≠ e → (x ∈ es ++ [e] ↔ x ∈ es) := by
    intro x hx; simp [hx]
  cases e with
  | send b =>
    simp only [World.step] at hs
    split at hs
    · cases hs
    rename_i hh
    have hcl := hmem .close (by simp)
    have hdr := hmem .dropReceiver (by simp)
    have hwt : ∀ w, ¬ Waiting init (es ++ [.send b]) w := by
      intro w; rw [waiting_snoc (by simp)]; simp
    by_cases hac : m.receiver = true ∧ m.senders ≠ 0
    · have hA := (hacc hh).2 hac
      obtain ⟨h1, h2⟩ := hac
      rw [World.send_ok h1 h2] at hs
      simp only [Option.some.injEq, Prod.mk.injEq] at hs
      obtain ⟨rfl, rfl⟩ := hs
      have hv : ∀ a, some b = some a ↔ Unread init (es ++ [.send b]) a := by
        intro a; rw [unread_send hA]; simp [eq_comm]
      refine ⟨?_, .inl ⟨hA, rfl⟩, ?_, ?_⟩
      · cases hk : m.waker with
        | none =>
          simp only [World.notify]
          exact ⟨by rw [sendersAfter_snoc]; exact h.handles, by rw [hdr]; exact h.rx,
            by rw [hcl]; exact h.closed, by rw [hcl, sendersAfter_snoc]; exact h.open_, hv,
            fun _ w => by simp [hwt w]⟩
        | some w0 =>
          simp only [World.notify]
          exact ⟨by rw [sendersAfter_snoc]; exact h.handles, by rw [hdr]; exact h.rx,
            by rw [hcl]; exact h.closed, by rw [hcl, sendersAfter_snoc]; exact h.open_, hv,
            fun _ w => by simp [hwt w]⟩
      · intro w hw _ _
        rw [← h.waker h1] at hw
        simp [World.notify, hw]
      · intro hq
        have : m.waker = none := by
          cases hk : m.waker with
          | none => rfl
          | some w =>
            rw [h.waker h1] at hk
            rcases hq with hq | hq | hq
            · exact absurd hk (hq w)
            · exact absurd hq (h.rx.1 h1)
            · exact absurd trivial hq
        simp [World.notify, this]
    · have hA : ¬ Accepts es := fun k => hac ((hacc hh).1 k)
      have hs' : (Obs.sent (some b), m) = (o, m') := by
        simp only [World.send, World.hasSenders, bne_iff_ne] at hs
        by_cases h1 : m.receiver = true
        · have h2 : m.senders = 0 := Classical.byContradiction fun k => hac ⟨h1, k⟩
          simpa [h1, h2] using hs
        · simpa [h1] using hs
      cases hs'
      have hno : m.receiver = true → m.waker = none := by
        intro h1
        have hcc : .close ∈ es := by
          refine Classical.byContradiction fun hc => hA ⟨hc, h.rx.1 h1⟩
        cases hk : m.waker with
        | none => rfl
        | some w => rw [h.waker h1] at hk; exact absurd hcc hk.open_
      refine ⟨⟨by rw [sendersAfter_snoc]; exact h.handles, by rw [hdr]; exact h.rx,
            by rw [hcl]; exact h.closed, by rw [hcl, sendersAfter_snoc]; exact h.open_, ?_,
            fun h1 w => by simp [hno h1, hwt w]⟩, .inr ⟨hA, rfl⟩, ?_, fun _ => rfl⟩
      · intro a; rw [unread_other (by simp) (fun _ _ => hA)]; exact h.value a
      · intro w hw hd _
        exact absurd hw (hnw (h.rx.2 hd) (hno (h.rx.2 hd)) w)
  | close =>
    simp only [World.step] at hs
    split at hs
    · cases hs
    rename_i hh
    simp only [Option.some.injEq, Prod.mk.injEq] at hs
    obtain ⟨rfl, rfl⟩ := hs
    have hdr := hmem .dropReceiver (by simp)
    have hwt : ∀ w, ¬ Waiting init (es ++ [.close]) w := by
      intro w; rw [waiting_snoc (by simp)]; simp
    have hv : ∀ a, m.value = some a ↔ Unread init (es ++ [.close]) a := by
      intro a; rw [unread_other (by simp) (by simp)]; exact h.value a
    by_cases hac : m.receiver = true ∧ m.senders ≠ 0
    · obtain ⟨h1, h2⟩ := hac
      rw [World.close_ok h1 h2]
      refine ⟨?_, rfl, ?_, ?_⟩
      · cases hk : m.waker with
        | none =>
          simp only [World.notify]
          exact ⟨by rw [sendersAfter_snoc]; exact h.handles, by rw [hdr]; exact h.rx,
            fun _ _ => rfl, fun k => absurd (by simp) k, hv, fun _ w => by simp [hwt w]⟩
        | some w0 =>
          simp only [World.notify]
          exact ⟨by rw [sendersAfter_snoc]; exact h.handles, by rw [hdr]; exact h.rx,
            fun _ _ => rfl, fun k => absurd (by simp) k, hv, fun _ w => by simp [hwt w]⟩
      · intro w hw _ _
        rw [← h.waker h1] at hw
        simp [World.notify, hw]
      · intro hq
        have : m.waker = none := by
          cases hk : m.waker with
          | none => rfl
          | some w =>
            rw [h.waker h1] at hk
            rcases hq with hq | hq | hq
            · exact absurd hk (hq w)
            · exact absurd hq (h.rx.1 h1)
            · exact absurd trivial hq
        simp [World.notify, this]
    · have hs' : m.close = m := by
        simp only [World.close, World.hasSenders, bne_iff_ne]
        by_cases h1 : m.receiver = true
        · have h2 : m.senders = 0 := Classical.byContradiction fun k => hac ⟨h1, k⟩
          simp [h1, h2]
        · simp [h1]
      rw [hs']
      have hno : m.receiver = true → m.waker = none := by
        intro h1
        have hcc : .close ∈ es := by
          refine Classical.byContradiction fun hc => hac ((hacc hh).1 ⟨hc, h.rx.1 h1⟩)
        cases hk : m.waker with
        | none => rfl
        | some w => rw [h.waker h1] at hk; exact absurd hcc hk.open_
      refine ⟨⟨by rw [sendersAfter_snoc]; exact h.handles, by rw [hdr]; exact h.rx,
            fun _ h1 => Classical.byContradiction fun k => hac ⟨h1, k⟩, fun k => absurd (by simp) k, hv,
            fun h1 w => by simp [hno h1, hwt w]⟩, rfl, ?_, fun _ => rfl⟩
      · intro w hw hd _
        exact absurd hw (hnw (h.rx.2 hd) (hno (h.rx.2 hd)) w)
  | clone =>
    simp only [World.step] at hs
    split at hs
    · cases hs
    rename_i hh
    simp only [Option.some.injEq, Prod.mk.injEq] at hs
    obtain ⟨rfl, rfl⟩ := hs
    have hcl := hmem .close (by simp)
    have hdr := hmem .dropReceiver (by simp)
    have hv : ∀ a, m.value = some a ↔ Unread init (es ++ [.clone]) a := by
      intro a; rw [unread_other (by simp) (by simp)]; exact h.value a
    have hwt : ∀ w, Waiting init (es ++ [.clone]) w ↔ Waiting init es w := by
      intro w; rw [waiting_snoc (by intro _; rw [← h.handles]; exact hh)]; simp
    have hhs := h.handles
    refine ⟨?_, rfl, fun _ _ _ k => k.elim, fun _ => ?_⟩
    · by_cases h1 : m.receiver = true
      · by_cases h2 : m.senders = 0
        · rw [World.clone_no fun _ => h2]
          have hcc : .close ∈ es :=
            Classical.byContradiction fun hc => hh (by rw [hhs, ← h.open_ hc h1, h2])
          exact ⟨by rw [sendersAfter_snoc, ← hhs], by rw [hdr]; exact h.rx, fun _ _ => h2,
            fun k => absurd (hcl.2 hcc) k, hv, fun k w => by rw [hwt]; exact h.waker h1 w⟩
        · rw [World.clone_ok h1 h2]
          have hcc : .close ∉ es := fun hc => h2 (h.closed hc h1)
          exact ⟨by rw [sendersAfter_snoc, ← hhs], by rw [hdr]; exact h.rx, 
            fun k => absurd (hcl.1 k) hcc,
            fun _ _ => by rw [sendersAfter_snoc]; simp only; rw [h.open_ hcc h1],
            hv, fun k w => by rw [hwt]; exact h.waker h1 w⟩
      · rw [World.clone_no fun k => absurd k h1]
        exact ⟨by rw [sendersAfter_snoc, ← hhs], by rw [hdr]; exact h.rx, fun _ k => absurd k h1,
          fun _ k => absurd k h1, hv, fun k => absurd k h1⟩
    · simp only [World.clone]
      split
      · split <;> rfl
      · rfl
  | dropSender =>
    simp only [World.step] at hs
    split at hs
    · cases hs
    rename_i hh
    simp only [Option.some.injEq, Prod.mk.injEq] at hs
    obtain ⟨rfl, rfl⟩ := hs
    have hcl := hmem .close (by simp)
    have hdr := hmem .dropReceiver (by simp)
    have hv : ∀ a, m.value = some a ↔ Unread init (es ++ [.dropSender]) a := by
      intro a; rw [unread_other (by simp) (by simp)]; exact h.value a
    have hwt : ∀ w, Waiting init (es ++ [.dropSender]) w ↔ Waiting init es w ∧ sendersAfter es ≠ 1 := by
      intro w; rw [waiting_snoc (by simp)]; simp
    have hhs := h.handles
    by_cases h1 : m.receiver = true
    · by_cases hcc : .close ∈ es
      · have h2 := h.closed hcc h1
        have hnow : ∀ w, ¬ Waiting init es w := fun w hw => hw.open_ hcc
        rw [World.drop_no fun _ => h2]
        refine ⟨⟨by rw [sendersAfter_snoc, ← hhs], by rw [hdr]; exact h.rx, fun _ _ => h2,
            fun k => absurd (hcl.2 hcc) k, hv, fun k w => by rw [hwt, h.waker h1 w]; simp [hnow w]⟩, rfl,
            fun w hw => absurd hw (hnow w), fun _ => rfl⟩
      · have h2 := h.open_ hcc h1
        have h3 : m.senders ≠ 0 := by rw [h2, ← hhs]; exact hh
        by_cases h4 : m.senders = 1
        · rw [World.drop_last h1 h4]
          refine ⟨?_, rfl, ?_, ?_⟩
          · cases hk : m.waker with
            | none =>
              simp only [World.notify]
              exact ⟨by rw [sendersAfter_snoc, ← hhs], by rw [hdr]; exact h.rx, fun _ _ => rfl,
                fun _ _ => by rw [sendersAfter_snoc]; simp only; omega, hv,
                fun _ w => by rw [hwt]; simp [← h2, h4]⟩
            | some w0 =>
              simp only [World.notify]
              exact ⟨by rw [sendersAfter_snoc, ← hhs], by rw [hdr]; exact h.rx, fun _ _ => rfl,
                fun _ _ => by rw [sendersAfter_snoc]; simp only; omega, hv,
                fun _ w => by rw [hwt]; simp [← h2, h4]⟩
          · intro w hw _ _
            rw [← h.waker h1] at hw
            simp [World.notify, hw]
          · intro hq
            have : m.waker = none := by
              cases hk : m.waker with
              | none => rfl
              | some w =>
                rw [h.waker h1] at hk
                rcases hq with hq | hq | hq
                · exact absurd hk (hq w)
                · exact absurd hq (h.rx.1 h1)
                · exact absurd (show sendersAfter es = 1 by rw [← h2, h4]) hq
            simp [World.notify, this]
        · rw [World.drop_ok h1 h3 h4]
          refine ⟨⟨by rw [sendersAfter_snoc, ← hhs], by rw [hdr]; exact h.rx, 
            fun k => absurd (hcl.1 k) hcc,
            fun _ _ => by rw [sendersAfter_snoc]; simp only; rw [h2], hv,
            fun _ w => by rw [hwt, h.waker h1]; simp [← h2, h4]⟩, rfl, ?_, fun _ => rfl⟩
          intro w _ _ hw
          exact absurd (show m.senders = 1 by rw [h2]; exact hw) h4
    · rw [World.drop_no fun k => absurd k h1]
      refine ⟨⟨by rw [sendersAfter_snoc, ← hhs], by rw [hdr]; exact h.rx, fun _ k => absurd k h1,
        fun _ k => absurd k h1, hv, fun k => absurd k h1⟩, rfl, fun _ _ k => absurd (h.rx.2 k) h1,
        fun _ => rfl⟩
  | poll w =>
    simp only [World.step] at hs
    split at hs
    · rename_i h1
      have hcl := hmem .close (by simp)
      have hdr := hmem .dropReceiver (by simp)
      have hv : ∀ a, (none : Option α) = some a ↔ Unread init (es ++ [.poll w]) a := by
        intro a; simp [unread_poll]
      have hwt : ∀ w', Waiting init (es ++ [.poll w]) w' ↔
          w = w' ∧ (∀ a, ¬ Unread init es a) ∧ .close ∉ es ∧ sendersAfter es ≠ 0 := by
        intro w'; rw [waiting_snoc (by simp)]; simp
      cases hval : m.value with
      | some a =>
        simp only [World.pollChange, hval, Option.some.injEq, Prod.mk.injEq] at hs
        obtain ⟨rfl, rfl⟩ := hs
        have hu := (h.value a).1 hval
        have hnone : m.waker = none := by
          cases hk : m.waker with
          | none => rfl
          | some w0 =>
            rw [h.waker h1] at hk
            exact absurd hu (hk.not_unread a)
        refine ⟨⟨by rw [sendersAfter_snoc]; exact h.handles, by rw [hdr]; exact h.rx,
            by rw [hcl]; exact h.closed, by rw [hcl, sendersAfter_snoc]; exact h.open_, hv, ?_⟩, 
            .inl ⟨a, hu, rfl⟩, fun _ _ _ k => k.elim, fun _ => rfl⟩
        intro _ w'
        rw [hwt]
        simp only [hnone, reduceCtorEq, false_iff]
        exact fun k => k.2.1 a hu
      | none =>
        have hu : ∀ a, ¬ Unread init es a := by
          intro a ha; rw [← h.value, hval] at ha; cases ha
        by_cases h2 : m.senders = 0
        · simp only [World.pollChange, hval, World.hasSenders, bne_iff_ne, ne_eq, h2, not_true_eq_false,
            if_false, Option.some.injEq, Prod.mk.injEq] at hs
          obtain ⟨rfl, rfl⟩ := hs
          have hend : .close ∈ es ∨ sendersAfter es = 0 := by
            by_cases hcc : .close ∈ es
            · exact .inl hcc
            · exact .inr (by rw [← h.open_ hcc h1, h2])
          refine ⟨⟨by rw [sendersAfter_snoc]; exact h.handles, by rw [hdr]; exact h.rx,
            by rw [hcl]; exact h.closed, by rw [hcl, sendersAfter_snoc]; exact h.open_, 
            by rw [hval]; exact hv, ?_⟩, 
            .inr ⟨hu, .inl ⟨hend, rfl⟩⟩, fun _ _ _ k => k.elim, fun _ => rfl⟩
          intro _ w'
          rw [hwt, h.waker h1]
          constructor
          · intro k
            rcases hend with hc | hc
            · exact absurd hc k.open_
            · obtain ⟨_, _, _, _, _, _, k⟩ := k; exact absurd hc k
          · rintro ⟨_, _, k1, k2⟩
            exact (hend.elim k1 k2).elim
        · simp only [World.pollChange, hval, World.hasSenders, bne_iff_ne, ne_eq, h2, not_false_eq_true,
            if_true, Option.some.injEq, Prod.mk.injEq] at hs
          obtain ⟨rfl, rfl⟩ := hs
          have hcc : .close ∉ es := fun k => h2 (h.closed k h1)
          have hse : sendersAfter es ≠ 0 := by rw [← h.open_ hcc h1]; exact h2
          refine ⟨⟨by rw [sendersAfter_snoc]; exact h.handles, by rw [hdr]; exact h.rx,
            by rw [hcl]; exact h.closed, by rw [hcl, sendersAfter_snoc]; exact h.open_, 
            by simpa [hval] using hv, ?_⟩, 
            .inr ⟨hu, .inr ⟨hcc, hse, rfl⟩⟩, fun _ _ _ k => k.elim, fun _ => rfl⟩
          intro _ w'
          rw [hwt]
          simp [hcc, hse, hu]
    · cases hs
  | dropReceiver =>
    simp only [World.step] at hs
    split at hs
    · simp only [Option.some.injEq, Prod.mk.injEq] at hs
      obtain ⟨rfl, rfl⟩ := hs
      refine ⟨⟨by rw [sendersAfter_snoc]; exact h.handles, by simp, fun _ k => (by cases k),
        fun _ k => (by cases k), ?_, fun k => (by cases k)⟩, rfl, fun _ _ _ k => k.elim, fun _ => rfl⟩
      intro a; rw [unread_other (by simp) (by simp)]; exact h.value a
    · cases hs

theorem inv_runs {a : α} {es : List (Ev α)} {os : List (Obs α)} {m : World α}
    (h : (World.new a).runs es = some (os, m)) : Inv a es m :=
  runE_inv (Inv := fun es _ m => Inv a es m) (inv_new a) (fun _ _ _ _ _ _ h hs => (inv_step h hs).1) h

/-- The last answer of a history. -/
theorem runs_last {a : α} {es : List (Ev α)} {e : Ev α} {os : List (Obs α)} {m : World α}
    (h : (World.new a).runs (es ++ [e]) = some (os, m)) :
    ∃ o, os.getLast? = some o ∧ Answers a es e o := by
  obtain ⟨os1, o, m1, h1, h2, rfl⟩ := runE_snoc h
  exact ⟨o, by simp, (inv_step (inv_runs h1) h2).2.1⟩

end Verif.Chan
